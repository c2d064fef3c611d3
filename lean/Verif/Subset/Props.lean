import Verif.Subset.Model
/-!
# C46: building some products
-/
namespace Verif.Subset

/-! ## Specification -/

/-- `q` is `p` or a direct or indirect dependency of it. -/
inductive Reach (deps : Product → List Dep) : Product → Product → Prop
  | refl (p) : Reach deps p p
  | step {p q d} : d ∈ deps p → Reach deps d.product q → Reach deps p q

/-- The same, through dependencies that are not minimal. -/
inductive ReachFully (deps : Product → List Dep) : Product → Product → Prop
  | refl (p) : ReachFully deps p p
  | step {p q d} : d ∈ deps p → d.minimal = false → ReachFully deps d.product q → ReachFully deps p q

/-- `q` is a direct or indirect dependency of `p`. -/
def DependsOn (deps : Product → List Dep) (p q : Product) : Prop :=
  ∃ d ∈ deps p, Reach deps d.product q

/-- There are no circular dependencies: dependencies have a lower rank. -/
def Ranked (deps : Product → List Dep) (rank : Product → Nat) : Prop :=
  ∀ p, ∀ d ∈ deps p, rank d.product < rank p

/-! ## The set of products -/

def keys (acc : List (Product × Bool)) : List Product := acc.map (·.1)

theorem touch_spec (acc : List (Product × Bool)) (p : Product) (full : Bool) :
    (∀ q, q ∈ keys (touch acc p full) ↔ q ∈ keys acc ∨ q = p) ∧
    (∀ q, (q, true) ∈ touch acc p full ↔ (q, true) ∈ acc ∨ (q = p ∧ full = true)) := by
  unfold touch
  by_cases h : acc.any (·.1 == p) = true
  · rw [if_pos h]
    obtain ⟨e, he, hep⟩ := List.any_eq_true.mp h
    have hep : e.1 = p := by simpa using hep
    constructor
    · intro q
      unfold keys
      rw [List.map_map]
      have : ((fun x : Product × Bool => x.1) ∘ fun e => if (e.1 == p) = true then (e.1, e.2 || full) else e) =
          (fun x => x.1) := by
        funext x
        simp only [Function.comp]
        split <;> rfl
      rw [this]
      constructor
      · exact Or.inl
      · rintro (h | rfl)
        · exact h
        · exact List.mem_map.mpr ⟨e, he, hep⟩
    · intro q
      rw [List.mem_map]
      constructor
      · rintro ⟨x, hx, hxe⟩
        by_cases hp : x.1 = p
        · rw [if_pos (by simpa using hp)] at hxe
          simp only [Prod.mk.injEq, Bool.or_eq_true] at hxe
          obtain ⟨rfl, h2 | h2⟩ := hxe
          · exact Or.inl (by rw [← h2]; exact hx)
          · exact Or.inr ⟨hp, h2⟩
        · rw [if_neg (by simpa using hp)] at hxe
          exact Or.inl (hxe ▸ hx)
      · rintro (hq | ⟨rfl, hf⟩)
        · refine ⟨(q, true), hq, ?_⟩
          split <;> simp
        · refine ⟨e, he, ?_⟩
          rw [if_pos (by simpa using hep), hf, hep]
          simp
  · rw [if_neg h]
    constructor
    · intro q; simp [keys]
    · intro q
      simp only [List.mem_append, List.mem_singleton, Prod.mk.injEq]
      constructor
      · rintro (h | ⟨h1, h2⟩)
        · exact Or.inl h
        · exact Or.inr ⟨h1, h2.symm⟩
      · rintro (h | ⟨h1, h2⟩)
        · exact Or.inl h
        · exact Or.inr ⟨h1, h2.symm⟩

theorem addDependency_spec {deps : Product → List Dep} {rank : Product → Nat} (hr : Ranked deps rank) :
    ∀ (fuel : Nat) (p : Product) (m : Bool) (acc : List (Product × Bool)), rank p < fuel →
    (∀ q, q ∈ keys (addDependency deps fuel p m acc) ↔ q ∈ keys acc ∨ Reach deps p q) ∧
    (∀ q, (q, true) ∈ addDependency deps fuel p m acc ↔
      (q, true) ∈ acc ∨ (m = false ∧ ReachFully deps p q))
  | 0, p, m, acc, h => absurd h (Nat.not_lt_zero _)
  | fuel + 1, p, m, acc, h => by
    have fold : ∀ (ds : List Dep) (acc : List (Product × Bool)), (∀ d ∈ ds, rank d.product < fuel) →
        (∀ q, q ∈ keys (ds.foldl (fun acc d => addDependency deps fuel d.product (m || d.minimal) acc) acc) ↔
          q ∈ keys acc ∨ ∃ d ∈ ds, Reach deps d.product q) ∧
        (∀ q, (q, true) ∈ ds.foldl (fun acc d => addDependency deps fuel d.product (m || d.minimal) acc) acc ↔
          (q, true) ∈ acc ∨ (m = false ∧ ∃ d ∈ ds, d.minimal = false ∧ ReachFully deps d.product q)) := by
      intro ds
      induction ds with
      | nil => intro acc _; simp
      | cons d ds ih =>
        intro acc hd
        obtain ⟨a1, a2⟩ := addDependency_spec hr fuel d.product (m || d.minimal) acc (hd d (by simp))
        obtain ⟨i1, i2⟩ := ih (addDependency deps fuel d.product (m || d.minimal) acc)
          (fun x hx => hd x (by simp [hx]))
        rw [List.foldl_cons]
        constructor
        · intro q
          rw [i1, a1]
          constructor
          · rintro ((h | h) | ⟨x, hx, h⟩)
            · exact Or.inl h
            · exact Or.inr ⟨d, by simp, h⟩
            · exact Or.inr ⟨x, by simp [hx], h⟩
          · rintro (h | ⟨x, hx, h⟩)
            · exact Or.inl (Or.inl h)
            · rcases List.mem_cons.mp hx with rfl | hx
              · exact Or.inl (Or.inr h)
              · exact Or.inr ⟨x, hx, h⟩
        · intro q
          rw [i2, a2]
          simp only [Bool.or_eq_false_iff]
          constructor
          · rintro ((h | ⟨⟨h1, h2⟩, h⟩) | ⟨h1, x, hx, h⟩)
            · exact Or.inl h
            · exact Or.inr ⟨h1, d, by simp, h2, h⟩
            · exact Or.inr ⟨h1, x, by simp [hx], h⟩
          · rintro (h | ⟨h1, x, hx, h2, h⟩)
            · exact Or.inl (Or.inl h)
            · rcases List.mem_cons.mp hx with rfl | hx
              · exact Or.inl (Or.inr ⟨⟨h1, h2⟩, h⟩)
              · exact Or.inr ⟨h1, x, hx, h2, h⟩
    obtain ⟨f1, f2⟩ := fold (deps p) (touch acc p (!m)) (fun d hd => by
      have := hr p d hd; omega)
    obtain ⟨t1, t2⟩ := touch_spec acc p (!m)
    unfold addDependency
    constructor
    · intro q
      rw [f1, t1]
      constructor
      · rintro ((h | rfl) | ⟨d, hd, h⟩)
        · exact Or.inl h
        · exact Or.inr (.refl _)
        · exact Or.inr (.step hd h)
      · rintro (h | h)
        · exact Or.inl (Or.inl h)
        · cases h with
          | refl => exact Or.inl (Or.inr rfl)
          | step hd h => exact Or.inr ⟨_, hd, h⟩
    · intro q
      rw [f2, t2]
      constructor
      · rintro ((h | ⟨rfl, hm⟩) | ⟨h1, d, hd, h2, h⟩)
        · exact Or.inl h
        · exact Or.inr ⟨by simpa using hm, .refl _⟩
        · exact Or.inr ⟨h1, .step hd h2 h⟩
      · rintro (h | ⟨h1, h⟩)
        · exact Or.inl (Or.inl h)
        · cases h with
          | refl => exact Or.inl (Or.inr ⟨rfl, by simp [h1]⟩)
          | step hd h2 h => exact Or.inr ⟨h1, _, hd, h2, h⟩

theorem collect_spec {deps : Product → List Dep} {rank : Product → Nat} (hr : Ranked deps rank)
    (fuel : Nat) (requested : List Product) (hf : ∀ p ∈ requested, rank p ≤ fuel) :
    (∀ q, q ∈ keys (collect deps fuel requested) ↔ ∃ p ∈ requested, DependsOn deps p q) ∧
    (∀ q, (q, true) ∈ collect deps fuel requested ↔
      ∃ p ∈ requested, ∃ d ∈ deps p, d.minimal = false ∧ ReachFully deps d.product q) := by
  have inner : ∀ (ds : List Dep) (acc : List (Product × Bool)), (∀ d ∈ ds, rank d.product < fuel) →
      (∀ q, q ∈ keys (ds.foldl (fun acc d => addDependency deps fuel d.product d.minimal acc) acc) ↔
        q ∈ keys acc ∨ ∃ d ∈ ds, Reach deps d.product q) ∧
      (∀ q, (q, true) ∈ ds.foldl (fun acc d => addDependency deps fuel d.product d.minimal acc) acc ↔
        (q, true) ∈ acc ∨ (∃ d ∈ ds, d.minimal = false ∧ ReachFully deps d.product q)) := by
    intro ds
    induction ds with
    | nil => intro acc _; simp
    | cons d ds ih =>
      intro acc hd
      obtain ⟨a1, a2⟩ := addDependency_spec hr fuel d.product d.minimal acc (hd d (by simp))
      obtain ⟨i1, i2⟩ := ih (addDependency deps fuel d.product d.minimal acc)
        (fun x hx => hd x (by simp [hx]))
      rw [List.foldl_cons]
      constructor
      · intro q
        rw [i1, a1]
        simp only [List.mem_cons, exists_eq_or_imp, or_assoc]
      · intro q
        rw [i2, a2]
        simp only [List.mem_cons, exists_eq_or_imp, or_assoc]
  have outer : ∀ (ps : List Product) (acc : List (Product × Bool)), (∀ p ∈ ps, rank p ≤ fuel) →
      (∀ q, q ∈ keys (ps.foldl (fun acc p =>
          (deps p).foldl (fun acc d => addDependency deps fuel d.product d.minimal acc) acc) acc) ↔
        q ∈ keys acc ∨ ∃ p ∈ ps, DependsOn deps p q) ∧
      (∀ q, (q, true) ∈ ps.foldl (fun acc p =>
          (deps p).foldl (fun acc d => addDependency deps fuel d.product d.minimal acc) acc) acc ↔
        (q, true) ∈ acc ∨
          ∃ p ∈ ps, ∃ d ∈ deps p, d.minimal = false ∧ ReachFully deps d.product q) := by
    intro ps
    induction ps with
    | nil => intro acc _; simp
    | cons p ps ih =>
      intro acc hp
      obtain ⟨a1, a2⟩ := inner (deps p) acc (fun d hd => by
        have := hr p d hd
        have := hp p (by simp)
        omega)
      obtain ⟨i1, i2⟩ := ih _ (fun x hx => hp x (by simp [hx]))
      rw [List.foldl_cons]
      constructor
      · intro q
        rw [i1, a1]
        simp only [List.mem_cons, exists_eq_or_imp, or_assoc, DependsOn]
      · intro q
        rw [i2, a2]
        simp only [List.mem_cons, exists_eq_or_imp, or_assoc]
  obtain ⟨o1, o2⟩ := outer requested [] hf
  exact ⟨fun q => by rw [collect, o1]; simp [keys], fun q => by rw [collect, o2]; simp⟩

/-- Conditions that the caller of the executor meets: the products to build are different products of the
    project, and dependencies are products of the project. -/
structure Valid (deps : Product → List Dep) (all requested : List Product) : Prop where
  closed : ∀ p ∈ all, ∀ d ∈ deps p, d.product ∈ all
  sub : ∀ p ∈ requested, p ∈ all
  nodup : requested.Nodup

theorem all_of_length {l m : List Product} (hn : l.Nodup) (hs : ∀ x ∈ l, x ∈ m)
    (hl : l.length = m.length) : ∀ x ∈ m, x ∈ l := by
  have len : ∀ (l m : List Product), l.Nodup → (∀ x ∈ l, x ∈ m) → l.length ≤ m.length := by
    intro l
    induction l with
    | nil => intro m _ _; exact Nat.zero_le _
    | cons x l ih =>
      intro m hn hs
      rw [List.nodup_cons] at hn
      have hx := hs x (by simp)
      have := ih (m.erase x) hn.2 (fun y hy => (List.mem_erase_of_ne (fun h : y = x => hn.1 (h ▸ hy))).mpr
        (hs y (by simp [hy])))
      rw [List.length_erase_of_mem hx] at this
      have := List.length_pos_of_mem hx
      simp only [List.length_cons]
      omega
  intro x hx
  apply Classical.byContradiction
  intro hno
  have := len (x :: l) m (List.nodup_cons.mpr ⟨hno, hn⟩) (by
    intro y hy
    rcases List.mem_cons.mp hy with rfl | hy
    · exact hx
    · exact hs y hy)
  simp only [List.length_cons] at this
  omega

theorem reach_in {deps : Product → List Dep} {all : List Product}
    (h : ∀ p ∈ all, ∀ d ∈ deps p, d.product ∈ all) {p q : Product} (hr : Reach deps p q) :
    p ∈ all → q ∈ all := by
  induction hr with
  | refl => exact id
  | step hd _ ih => exact fun hp => ih (h _ hp _ hd)

/-- C46: the products considered in a build are those requested and all their direct and indirect
    dependencies, no others. -/
theorem C46_buildable (deps : Product → List Dep) (rank : Product → Nat) (hr : Ranked deps rank)
    (all requested : List Product) (hv : Valid deps all requested)
    (fuel : Nat) (hf : ∀ p ∈ requested, rank p ≤ fuel) (q : Product) :
    q ∈ (setup deps fuel all requested).buildable ↔ ∃ p ∈ requested, Reach deps p q := by
  unfold setup
  by_cases h : requested.length = all.length
  · rw [if_pos h]
    constructor
    · exact fun hq => ⟨q, hq, .refl _⟩
    · rintro ⟨p, hp, hpq⟩
      exact all_of_length hv.nodup hv.sub h q (reach_in hv.closed hpq (hv.sub p hp))
  · rw [if_neg h]
    show q ∈ requested ++ keys (collect deps fuel requested) ↔ _
    rw [List.mem_append, (collect_spec hr fuel requested hf).1]
    constructor
    · rintro (h | ⟨p, hp, d, hd, h⟩)
      · exact ⟨q, h, .refl _⟩
      · exact ⟨p, hp, .step hd h⟩
    · rintro ⟨p, hp, h⟩
      cases h with
      | refl => exact Or.inl hp
      | step hd h => exact Or.inr ⟨p, hp, _, hd, h⟩

/-- C46: the products that are built completely are those requested and their dependencies through
    dependencies that are not minimal. -/
theorem C46_fully_built (deps : Product → List Dep) (rank : Product → Nat) (hr : Ranked deps rank)
    (all requested : List Product) (hv : Valid deps all requested)
    (fuel : Nat) (hf : ∀ p ∈ requested, rank p ≤ fuel) (q : Product) :
    q ∈ (setup deps fuel all requested).primary ↔ ∃ p ∈ requested, ReachFully deps p q := by
  have weaken : ∀ {p q}, ReachFully deps p q → Reach deps p q := by
    intro p q h
    induction h with
    | refl => exact .refl _
    | step hd _ _ ih => exact .step hd ih
  unfold setup
  by_cases h : requested.length = all.length
  · rw [if_pos h]
    constructor
    · exact fun hq => ⟨q, hq, .refl _⟩
    · rintro ⟨p, hp, hpq⟩
      exact all_of_length hv.nodup hv.sub h q (reach_in hv.closed (weaken hpq) (hv.sub p hp))
  · rw [if_neg h]
    show q ∈ requested ++ ((collect deps fuel requested).filter (·.2)).map (·.1) ↔ _
    have e : q ∈ ((collect deps fuel requested).filter (·.2)).map (·.1) ↔
        (q, true) ∈ collect deps fuel requested := by
      rw [List.mem_map]
      constructor
      · rintro ⟨x, hx, rfl⟩
        obtain ⟨h1, h2⟩ := List.mem_filter.mp hx
        rw [show (x.1, true) = x by rw [← h2]]
        exact h1
      · exact fun h => ⟨(q, true), List.mem_filter.mpr ⟨h, rfl⟩, rfl⟩
    rw [List.mem_append, e, (collect_spec hr fuel requested hf).2]
    constructor
    · rintro (h | ⟨p, hp, d, hd, hm, h⟩)
      · exact ⟨q, h, .refl _⟩
      · exact ⟨p, hp, .step hd hm h⟩
    · rintro ⟨p, hp, h⟩
      cases h with
      | refl => exact Or.inl hp
      | step hd hm h => exact Or.inr ⟨p, hp, _, hd, hm, h⟩

theorem touch_nodup (acc : List (Product × Bool)) (p : Product) (full : Bool) (h : (keys acc).Nodup) :
    (keys (touch acc p full)).Nodup := by
  unfold touch
  by_cases hc : acc.any (·.1 == p) = true
  · rw [if_pos hc]
    unfold keys
    rw [List.map_map]
    have : ((fun x : Product × Bool => x.1) ∘ fun e => if (e.1 == p) = true then (e.1, e.2 || full) else e) =
        (fun x => x.1) := by
      funext x
      simp only [Function.comp]
      split <;> rfl
    rw [this]
    exact h
  · rw [if_neg hc]
    unfold keys at h ⊢
    rw [List.map_append, List.nodup_append]
    refine ⟨h, by simp, ?_⟩
    intro a ha b hb hab
    simp only [List.map_cons, List.map_nil, List.mem_singleton] at hb
    obtain ⟨x, hx, rfl⟩ := List.mem_map.mp ha
    exact hc (List.any_eq_true.mpr ⟨x, hx, by simp [hab, hb]⟩)

theorem addDependency_nodup (deps : Product → List Dep) : ∀ (fuel : Nat) (p : Product) (m : Bool)
    (acc : List (Product × Bool)), (keys acc).Nodup → (keys (addDependency deps fuel p m acc)).Nodup
  | 0, _, _, _, h => h
  | fuel + 1, p, m, acc, h => by
    unfold addDependency
    have fold : ∀ (ds : List Dep) (acc : List (Product × Bool)), (keys acc).Nodup →
        (keys (ds.foldl (fun acc d => addDependency deps fuel d.product (m || d.minimal) acc) acc)).Nodup := by
      intro ds
      induction ds with
      | nil => exact fun acc h => h
      | cons d ds ih => exact fun acc h => ih _ (addDependency_nodup deps fuel _ _ acc h)
    exact fold _ _ (touch_nodup acc p _ h)

theorem collect_nodup (deps : Product → List Dep) (fuel : Nat) (requested : List Product) :
    (keys (collect deps fuel requested)).Nodup := by
  have inner : ∀ (ds : List Dep) (acc : List (Product × Bool)), (keys acc).Nodup →
      (keys (ds.foldl (fun acc d => addDependency deps fuel d.product d.minimal acc) acc)).Nodup := by
    intro ds
    induction ds with
    | nil => exact fun acc h => h
    | cons d ds ih => exact fun acc h => ih _ (addDependency_nodup deps fuel _ _ acc h)
  have outer : ∀ (ps : List Product) (acc : List (Product × Bool)), (keys acc).Nodup →
      (keys (ps.foldl (fun acc p =>
          (deps p).foldl (fun acc d => addDependency deps fuel d.product d.minimal acc) acc) acc)).Nodup := by
    intro ps
    induction ps with
    | nil => exact fun acc h => h
    | cons p ps ih => exact fun acc h => ih _ (inner (deps p) acc h)
  exact outer requested [] List.nodup_nil

/-- C46: if no requested product depends on another one, the nodes that a build considers are exactly those of the
    requested products and of their direct and indirect dependencies. -/
theorem C46_considered (deps : Product → List Dep) (rank : Product → Nat) (hr : Ranked deps rank)
    (all requested : List Product) (hv : Valid deps all requested)
    (hind : ∀ p ∈ requested, ∀ q ∈ requested, ¬ DependsOn deps p q)
    (fuel : Nat) (hf : ∀ p ∈ requested, rank p ≤ fuel) (q : Product) (hq : q ∈ all) :
    considered all (setup deps fuel all requested) q = true ↔ ∃ p ∈ requested, Reach deps p q := by
  have hb := C46_buildable deps rank hr all requested hv fuel hf
  have hp := C46_fully_built deps rank hr all requested hv fuel hf
  have weaken : ∀ {p q}, ReachFully deps p q → Reach deps p q := by
    intro p q h
    induction h with
    | refl => exact .refl _
    | step hd _ _ ih => exact .step hd ih
  rw [← hb]
  unfold considered partialBuild
  by_cases hl : (setup deps fuel all requested).primary.length = all.length
  · have hn : (setup deps fuel all requested).primary.Nodup := by
      unfold setup
      by_cases h : requested.length = all.length
      · rw [if_pos h]; exact hv.nodup
      · rw [if_neg h]
        show (requested ++ ((collect deps fuel requested).filter (·.2)).map (·.1)).Nodup
        rw [List.nodup_append]
        have hsub : List.Sublist (((collect deps fuel requested).filter (·.2)).map (·.1))
            (keys (collect deps fuel requested)) := List.Sublist.map _ List.filter_sublist
        refine ⟨hv.nodup, List.Nodup.sublist hsub (collect_nodup deps fuel requested), ?_⟩
        intro a ha b hb' hab
        subst hab
        obtain ⟨p, hp, hd⟩ := ((collect_spec hr fuel requested hf).1 a).mp (hsub.subset hb')
        exact hind p hp a ha hd
    have hsub : ∀ x ∈ (setup deps fuel all requested).primary, x ∈ all := by
      intro x hx
      obtain ⟨p, hp1, hp2⟩ := (hp x).mp hx
      exact reach_in hv.closed (weaken hp2) (hv.sub p hp1)
    have hin := all_of_length hn hsub hl q hq
    obtain ⟨p, hp1, hp2⟩ := (hp q).mp hin
    have := (hb q).mpr ⟨p, hp1, weaken hp2⟩
    simp [hl, this]
  · simp [hl]

/-! ## Priorities -/

/-- What holds between the traversals: each product seen, but for those in `O`, whose traversal is not
    finished, has all its dependencies seen; the priorities are used from the top. -/
structure Inv (deps : Product → List Dep) (hasData : Product → Bool) (all O : List Product) (s : PState) :
    Prop where
  sub : ∀ p ∈ s.seen, p ∈ all
  given : ∀ p, (s.prio p).isSome = true ↔ p ∈ s.seen ∧ p ∉ O ∧ hasData p = true
  bound : ∀ p k, s.prio p = some k → s.next < k
  different : ∀ p q k, s.prio p = some k → s.prio q = some k → p = q
  count : ∃ l : List Product, l.Nodup ∧ (∀ p, p ∈ l ↔ (s.prio p).isSome = true) ∧
    s.next + l.length = uintMax
  closed : ∀ p ∈ s.seen, p ∉ O → ∀ d ∈ deps p, d.product ∈ s.seen ∧ d.product ∉ O
  higher : ∀ p q a b, DependsOn deps p q → s.prio p = some a → s.prio q = some b → a < b

theorem closed_reach {deps : Product → List Dep} {hasData : Product → Bool} {all O : List Product}
    {s : PState} (h : Inv deps hasData all O s) {p q : Product} (hr : Reach deps p q) :
    p ∈ s.seen ∧ p ∉ O → q ∈ s.seen ∧ q ∉ O := by
  induction hr with
  | refl => exact id
  | step hd _ ih => exact fun hp => ih (h.closed _ hp.1 hp.2 _ hd)

theorem length_le_of_subset : ∀ (l m : List Product), l.Nodup → (∀ x ∈ l, x ∈ m) → l.length ≤ m.length
  | [], m, _, _ => Nat.zero_le _
  | x :: l, m, hn, hs => by
    rw [List.nodup_cons] at hn
    have hx := hs x (by simp)
    have := length_le_of_subset l (m.erase x) hn.2 (fun y hy =>
      (List.mem_erase_of_ne (fun h : y = x => hn.1 (h ▸ hy))).mpr (hs y (by simp [hy])))
    rw [List.length_erase_of_mem hx] at this
    have := List.length_pos_of_mem hx
    simp only [List.length_cons]
    omega

theorem inv_open {deps : Product → List Dep} {hasData : Product → Bool} {all O : List Product}
    {s : PState} {p : Product} (h : Inv deps hasData all O s) (hp : p ∈ all) (hs : p ∉ s.seen) :
    Inv deps hasData all (p :: O) ⟨p :: s.seen, s.next, s.prio⟩ := by
  refine ⟨?_, ?_, h.bound, h.different, h.count, ?_, h.higher⟩
  · intro q hq
    rcases List.mem_cons.mp hq with rfl | hq
    · exact hp
    · exact h.sub q hq
  · intro q
    rw [show (PState.mk (p :: s.seen) s.next s.prio).prio q = s.prio q from rfl, h.given q]
    simp only [List.mem_cons, not_or]
    constructor
    · rintro ⟨h1, h2, h3⟩
      exact ⟨Or.inr h1, ⟨fun he => hs (he ▸ h1), h2⟩, h3⟩
    · rintro ⟨h1, ⟨h2, h3⟩, h4⟩
      exact ⟨h1.resolve_left h2, h3, h4⟩
  · intro q hq hqo d hd
    simp only [List.mem_cons, not_or] at hq hqo ⊢
    obtain ⟨h1, h2⟩ := h.closed q (hq.resolve_left hqo.1) hqo.2 d hd
    exact ⟨Or.inr h1, ⟨fun he => hs (he ▸ h1), h2⟩⟩

theorem inv_close {deps : Product → List Dep} {hasData : Product → Bool} {all O : List Product}
    {s : PState} {p : Product} (hall : all.length ≤ uintMax) (h : Inv deps hasData all (p :: O) s)
    (hp : p ∈ s.seen) (hpo : p ∉ O)
    (hd : ∀ d ∈ deps p, d.product ∈ s.seen ∧ d.product ∉ p :: O) :
    Inv deps hasData all O (assign hasData p s) := by
  have hnone : s.prio p = none := by
    cases hc : s.prio p with
    | none => rfl
    | some k =>
      have := (h.given p).mp (by rw [hc]; rfl)
      exact absurd (by simp) this.2.1
  have hclosed : ∀ q ∈ s.seen, q ∉ O → ∀ d ∈ deps q, d.product ∈ s.seen ∧ d.product ∉ O := by
    intro q hq hqo d hdq
    by_cases hqp : q = p
    · subst hqp
      have := hd d hdq
      simp only [List.mem_cons, not_or] at this
      exact ⟨this.1, this.2.2⟩
    · have := h.closed q hq (by simp [hqp, hqo]) d hdq
      simp only [List.mem_cons, not_or] at this
      exact ⟨this.1, this.2.2⟩
  unfold assign
  by_cases hdata : hasData p = true
  · rw [if_pos hdata]
    obtain ⟨l, hl1, hl2, hl3⟩ := h.count
    have hpl : p ∉ l := by
      intro hm
      have := (hl2 p).mp hm
      rw [hnone] at this
      cases this
    have hlen : (p :: l).length ≤ all.length := by
      refine length_le_of_subset _ _ (List.nodup_cons.mpr ⟨hpl, hl1⟩) ?_
      intro x hx
      rcases List.mem_cons.mp hx with rfl | hx
      · exact h.sub _ hp
      · exact h.sub _ ((h.given x).mp ((hl2 x).mp hx)).1
    simp only [List.length_cons] at hlen
    have hnext : s.next ≠ 0 := by omega
    rw [if_neg hnext]
    refine ⟨h.sub, ?_, ?_, ?_, ⟨p :: l, List.nodup_cons.mpr ⟨hpl, hl1⟩, ?_, ?_⟩, hclosed, ?_⟩
    · intro q
      show ((if q = p then some s.next else s.prio q).isSome = true) ↔ _
      by_cases hqp : q = p
      · subst hqp
        rw [if_pos rfl]
        simp [hp, hpo, hdata]
      · rw [if_neg hqp, h.given q]
        simp [hqp]
    · intro q k hk
      show s.next - 1 < k
      have hk : (if q = p then some s.next else s.prio q) = some k := hk
      by_cases hqp : q = p
      · rw [if_pos hqp] at hk
        injection hk with hk
        omega
      · rw [if_neg hqp] at hk
        have := h.bound q k hk
        omega
    · intro q q' k hk hk'
      have hk : (if q = p then some s.next else s.prio q) = some k := hk
      have hk' : (if q' = p then some s.next else s.prio q') = some k := hk'
      by_cases hqp : q = p <;> by_cases hqp' : q' = p
      · rw [hqp, hqp']
      · rw [if_pos hqp] at hk
        rw [if_neg hqp'] at hk'
        injection hk with hk
        have := h.bound q' k hk'
        omega
      · rw [if_neg hqp] at hk
        rw [if_pos hqp'] at hk'
        injection hk' with hk'
        have := h.bound q k hk
        omega
      · rw [if_neg hqp] at hk
        rw [if_neg hqp'] at hk'
        exact h.different q q' k hk hk'
    · intro q
      show q ∈ p :: l ↔ ((if q = p then some s.next else s.prio q).isSome = true)
      by_cases hqp : q = p
      · rw [if_pos hqp]; simp [hqp]
      · rw [if_neg hqp, ← hl2 q]; simp [hqp]
    · show s.next - 1 + (p :: l).length = uintMax
      simp only [List.length_cons]
      omega
    · intro x y a b hxy ha hb
      replace ha : (if x = p then some s.next else s.prio x) = some a := ha
      replace hb : (if y = p then some s.next else s.prio y) = some b := hb
      by_cases hxp : x = p
      · subst hxp
        rw [if_pos rfl] at ha
        injection ha with ha
        obtain ⟨d, hdx, hr⟩ := hxy
        have hy := closed_reach h hr (hd d hdx)
        by_cases hyp : y = x
        · exact absurd (by simp [hyp]) hy.2
        · rw [if_neg hyp] at hb
          have := h.bound y b hb
          omega
      · rw [if_neg hxp] at ha
        by_cases hyp : y = p
        · exfalso
          subst hyp
          have ha : s.prio x = some a := ha
          have hx := (h.given x).mp (by simp only [ha, Option.isSome_some])
          obtain ⟨d, hdx, hr⟩ := hxy
          have := closed_reach h hr (h.closed x hx.1 hx.2.1 d hdx)
          exact this.2 (by simp)
        · rw [if_neg hyp] at hb
          exact h.higher x y a b hxy ha hb
  · rw [if_neg hdata]
    refine ⟨h.sub, ?_, h.bound, h.different, h.count, hclosed, h.higher⟩
    intro q
    rw [h.given q]
    by_cases hqp : q = p
    · subst hqp; simp [hdata]
    · simp [hqp]

theorem traverse_spec {deps : Product → List Dep} {hasData : Product → Bool} {rank : Product → Nat}
    {all : List Product} (hr : Ranked deps rank) (hc : ∀ p ∈ all, ∀ d ∈ deps p, d.product ∈ all)
    (hall : all.length ≤ uintMax) :
    ∀ (fuel : Nat) (p : Product) (s : PState) (O : List Product), rank p < fuel → p ∈ all →
    (∀ o ∈ O, rank p < rank o) → Inv deps hasData all O s →
    Inv deps hasData all O (traverse deps hasData fuel s p) ∧
    p ∈ (traverse deps hasData fuel s p).seen ∧
    (∀ q ∈ s.seen, q ∈ (traverse deps hasData fuel s p).seen)
  | 0, p, s, O, h, _, _, _ => absurd h (Nat.not_lt_zero _)
  | fuel + 1, p, s, O, hf, hp, ho, hi => by
    unfold traverse
    by_cases hs : p ∈ s.seen
    · rw [if_pos (by simpa using hs)]
      exact ⟨hi, hs, fun q hq => hq⟩
    · rw [if_neg (by simpa using hs)]
      have hpo : p ∉ O := fun h => Nat.lt_irrefl _ (ho p h)
      have fold : ∀ (ds : List Dep) (s : PState), (∀ d ∈ ds, d ∈ deps p) → p ∈ s.seen →
          Inv deps hasData all (p :: O) s →
          Inv deps hasData all (p :: O)
            (ds.foldl (fun s d => traverse deps hasData fuel s d.product) s) ∧
          (∀ d ∈ ds, d.product ∈ (ds.foldl (fun s d => traverse deps hasData fuel s d.product) s).seen) ∧
          (∀ q ∈ s.seen, q ∈ (ds.foldl (fun s d => traverse deps hasData fuel s d.product) s).seen) := by
        intro ds
        induction ds with
        | nil => intro s _ _ hi; exact ⟨hi, (fun d hd => by cases hd), fun q hq => hq⟩
        | cons d ds ih =>
          intro s hds hps hi
          have hd := hds d (by simp)
          have hrd := hr p d hd
          obtain ⟨t1, t2, t3⟩ := traverse_spec hr hc hall fuel d.product s (p :: O) (by omega)
            (hc p hp d hd) (by
              intro o h
              rcases List.mem_cons.mp h with rfl | h
              · exact hrd
              · have := ho o h; omega) hi
          obtain ⟨i1, i2, i3⟩ := ih _ (fun x hx => hds x (by simp [hx])) (t3 p hps) t1
          rw [List.foldl_cons]
          refine ⟨i1, ?_, fun q hq => i3 q (t3 q hq)⟩
          intro x hx
          rcases List.mem_cons.mp hx with rfl | hx
          · exact i3 _ t2
          · exact i2 x hx
      obtain ⟨f1, f2, f3⟩ := fold (deps p) ⟨p :: s.seen, s.next, s.prio⟩ (fun d h => h) (by simp)
        (inv_open hi hp hs)
      have hseen : ∀ t : PState, (assign hasData p t).seen = t.seen := by
        intro t; unfold assign; split <;> rfl
      have hps := f3 p (by simp)
      refine ⟨inv_close hall f1 hps hpo ?_, ?_, ?_⟩
      · intro d hd
        refine ⟨f2 d hd, ?_⟩
        have hrd := hr p d hd
        intro hm
        rcases List.mem_cons.mp hm with h | h
        · rw [h] at hrd; omega
        · have := ho _ h; omega
      · rw [hseen]; exact hps
      · intro q hq
        rw [hseen]
        exact f3 q (by simp [hq])

theorem reach_trans {deps : Product → List Dep} {p q r : Product} (h : Reach deps p q)
    (h' : Reach deps q r) : Reach deps p r := by
  induction h with
  | refl => exact h'
  | step hd _ ih => exact .step hd (ih h')

/-- Each product is a root product or a dependency of one. -/
theorem below_root {deps : Product → List Dep} {rank : Product → Nat} (hr : Ranked deps rank)
    {all : List Product} : ∀ (n : Nat) (p : Product), p ∈ all → (∀ q ∈ all, rank q < rank p + n) →
    ∃ r ∈ roots deps all, Reach deps r p
  | 0, p, hp, h => absurd (h p hp) (by omega)
  | n + 1, p, hp, h => by
    by_cases hroot : p ∈ roots deps all
    · exact ⟨p, hroot, .refl _⟩
    · have : ∃ q ∈ all, ∃ d ∈ deps q, d.product = p := by
        apply Classical.byContradiction
        intro hno
        apply hroot
        refine List.mem_filter.mpr ⟨hp, ?_⟩
        rw [Bool.not_eq_true', ← Bool.not_eq_true]
        intro hany
        obtain ⟨q, hq, hd⟩ := List.any_eq_true.mp hany
        obtain ⟨d, hd, he⟩ := List.any_eq_true.mp hd
        exact hno ⟨q, hq, d, hd, by simpa using he⟩
      obtain ⟨q, hq, d, hd, rfl⟩ := this
      have hlt := hr q d hd
      obtain ⟨r, h1, h2⟩ := below_root hr n q hq (fun x hx => by have := h x hx; omega)
      exact ⟨r, h1, reach_trans h2 (.step hd (.refl _))⟩

theorem exists_bound (rank : Product → Nat) : ∀ all : List Product, ∃ n, ∀ q ∈ all, rank q < n
  | [] => ⟨0, fun q h => by cases h⟩
  | p :: all => by
    obtain ⟨n, hn⟩ := exists_bound rank all
    refine ⟨n + rank p + 1, fun q hq => ?_⟩
    rcases List.mem_cons.mp hq with rfl | hq
    · omega
    · have := hn q hq; omega

/-- C46: after the priorities were set, every product with build data has one, they are all different, and
    that of a direct or indirect dependency is higher than that of the product depending on it. -/
theorem C46_priorities (deps : Product → List Dep) (hasData : Product → Bool) (rank : Product → Nat)
    (hr : Ranked deps rank) (all : List Product) (hc : ∀ p ∈ all, ∀ d ∈ deps p, d.product ∈ all)
    (hall : all.length ≤ uintMax) (fuel : Nat) (hf : ∀ p ∈ all, rank p < fuel) :
    (∀ p ∈ all, hasData p = true → ∃ k, priorities deps hasData fuel all p = some k) ∧
    (∀ p q k, priorities deps hasData fuel all p = some k → priorities deps hasData fuel all q = some k →
      p = q) ∧
    (∀ p q a b, DependsOn deps p q → priorities deps hasData fuel all p = some a →
      priorities deps hasData fuel all q = some b → a < b) := by
  have fold : ∀ (rs : List Product) (s : PState), (∀ r ∈ rs, r ∈ all) → Inv deps hasData all [] s →
      Inv deps hasData all [] (rs.foldl (traverse deps hasData fuel) s) ∧
      (∀ r ∈ rs, r ∈ (rs.foldl (traverse deps hasData fuel) s).seen) ∧
      (∀ q ∈ s.seen, q ∈ (rs.foldl (traverse deps hasData fuel) s).seen) := by
    intro rs
    induction rs with
    | nil => intro s _ hi; exact ⟨hi, (fun d hd => by cases hd), fun q hq => hq⟩
    | cons r rs ih =>
      intro s hrs hi
      have hra := hrs r (by simp)
      obtain ⟨t1, t2, t3⟩ := traverse_spec hr hc hall fuel r s [] (hf r hra) hra (by simp) hi
      obtain ⟨i1, i2, i3⟩ := ih _ (fun x hx => hrs x (by simp [hx])) t1
      rw [List.foldl_cons]
      refine ⟨i1, ?_, fun q hq => i3 q (t3 q hq)⟩
      intro x hx
      rcases List.mem_cons.mp hx with rfl | hx
      · exact i3 _ t2
      · exact i2 x hx
  have init : Inv deps hasData all [] ⟨[], uintMax, fun _ => none⟩ := by
    refine ⟨?_, ?_, ?_, ?_, ⟨[], List.nodup_nil, ?_, by rfl⟩, ?_, ?_⟩
    · intro p h; cases h
    · intro p; simp
    · intro p k h; cases h
    · intro p q k h; cases h
    · intro p; simp
    · intro p h; cases h
    · intro p q a b _ h; cases h
  obtain ⟨f1, f2, _⟩ := fold (roots deps all) _ (fun r h => (List.mem_filter.mp h).1) init
  refine ⟨?_, f1.different, f1.higher⟩
  intro p hp hdata
  obtain ⟨n, hn⟩ := exists_bound rank all
  obtain ⟨r, hr1, hr2⟩ := below_root hr n p hp (fun q hq => by have := hn q hq; omega)
  have hps := closed_reach f1 hr2 ⟨f2 r hr1, by simp⟩
  exact Option.isSome_iff_exists.mp ((f1.given p).mpr ⟨hps.1, by simp, hdata⟩)

/-- C46: a node is never preferred to one that is ready too and belongs to a dependency of its product. -/
theorem C46_dependencies_first (deps : Product → List Dep) (hasData : Product → Bool) (rank : Product → Nat)
    (hr : Ranked deps rank) (all : List Product) (hc : ∀ p ∈ all, ∀ d ∈ deps p, d.product ∈ all)
    (hall : all.length ≤ uintMax) (fuel : Nat) (hf : ∀ p ∈ all, rank p < fuel)
    (leaves : List Product) (hl : ∀ p ∈ leaves, p ∈ all ∧ hasData p = true) (p : Product)
    (h : MayBeNext (priorities deps hasData fuel all) leaves p) :
    ∀ q ∈ leaves, ¬ DependsOn deps p q := by
  intro q hq hd
  obtain ⟨h1, _, h3⟩ := C46_priorities deps hasData rank hr all hc hall fuel hf
  obtain ⟨a, ha⟩ := h1 q (hl q hq).1 (hl q hq).2
  obtain ⟨b, hb⟩ := h1 p (hl p h.1).1 (hl p h.1).2
  have := h.2 q hq a b ha hb
  have := h3 p q b a hd hb ha
  omega

/-! ## Cases -/

/-- 3 depends on 2 and (minimally) on 1, 2 on 1, 4 on 3; 5 stands alone. -/
def someDeps : Product → List Dep
  | 4 => [⟨3, false⟩]
  | 3 => [⟨2, false⟩, ⟨1, true⟩]
  | 2 => [⟨1, true⟩]
  | _ => []

example : setup someDeps 10 [1, 2, 3, 4, 5] [3] = ⟨[3, 2], [3, 2, 1]⟩ := by decide +kernel

def someRank : Product → Nat := fun p => if p ≤ 4 then p else 0

example : Ranked someDeps someRank := by
  intro p d hd
  match p, hd with
  | 4, hd => simp [someDeps] at hd; subst hd; decide
  | 3, hd => simp [someDeps] at hd; rcases hd with rfl | rfl <;> decide
  | 2, hd => simp [someDeps] at hd; subst hd; decide
  | 0, hd => simp [someDeps] at hd
  | 1, hd => simp [someDeps] at hd
  | n + 5, hd => simp [someDeps] at hd

example : Valid someDeps [1, 2, 3, 4, 5] [3] :=
  ⟨by decide +kernel, by decide +kernel, by decide +kernel⟩

/-- No product depends on itself, so a single requested product meets the hypothesis of `C46_considered`. -/
example : ∀ p ∈ [3], ∀ q ∈ [3], ¬ DependsOn someDeps p q := by
  intro p hp q hq
  simp at hp hq
  subst hp hq
  rintro ⟨d, hd, hr⟩
  simp [someDeps] at hd
  have low : ∀ {a b : Product}, Reach someDeps a b → a ≤ 2 → b ≤ 2 := by
    intro a b h
    induction h with
    | refl => exact id
    | @step a b d hd _ ih =>
      intro ha
      apply ih
      match a, ha with
      | 0, _ => simp [someDeps] at hd
      | 1, _ => simp [someDeps] at hd
      | 2, _ => simp [someDeps] at hd; subst hd; decide
  have h3 : (3 : Nat) ≤ 2 := low hr (by rcases hd with rfl | rfl <;> decide)
  omega

example : considered [1, 2, 3, 4, 5] (setup someDeps 10 [1, 2, 3, 4, 5] [3]) 4 = false := by decide +kernel

example : [1, 2, 3, 4, 5].map (priorities someDeps (fun _ => true) 10 [1, 2, 3, 4, 5]) =
    [some 4294967295, some 4294967294, some 4294967293, some 4294967292, some 4294967291] := by
  decide +kernel

/-- **C46 finding.** A requested product that is also a dependency of another one is listed twice. The
    list can so become as long as that of all products although one is missing, and the build is not
    taken for a partial one: nodes of products that are neither requested nor needed are considered. -/
theorem C46_duplicates_hide_partial_build :
    ∃ (deps : Product → List Dep) (rank : Product → Nat) (all requested : List Product) (fuel : Nat)
      (q : Product), Ranked deps rank ∧ Valid deps all requested ∧ (∀ p ∈ requested, rank p ≤ fuel) ∧
      q ∉ (setup deps fuel all requested).buildable ∧
      ¬ (setup deps fuel all requested).buildable.Nodup ∧
      considered all (setup deps fuel all requested) q = true := by
  refine ⟨fun p => if p = 1 then [⟨2, false⟩] else [], fun p => if p = 1 then 1 else 0, [1, 2, 3], [1, 2], 5, 3,
    ?_, ⟨?_, ?_, ?_⟩, ?_, ?_, ?_, ?_⟩
  · intro p d hd
    by_cases hp : p = 1
    · subst hp
      simp at hd
      subst hd
      decide
    · simp [hp] at hd
  all_goals decide +kernel

/-- **C46 finding.** The same duplicates make the announced effort too large: the rules of a product are counted
    twice. -/
theorem C46_effort_counted_twice :
    ∃ (deps : Product → List Dep) (all requested : List Product) (rules : Product → Nat),
      Valid deps all requested ∧
      totalEffort rules (setup deps 5 all requested) = 1 + rules 1 + 2 * rules 2 ∧ rules 2 = 7 ∧
      (setup deps 5 all requested).buildable.eraseDups = [1, 2] := by
  refine ⟨fun p => if p = 1 then [⟨2, false⟩] else [], [1, 2, 3, 4], [1, 2],
    fun p => if p = 2 then 7 else 1, ⟨?_, ?_, ?_⟩, ?_, ?_, ?_⟩ <;> decide +kernel

/-- A chain of products, each depending on the two before it. -/
def ladder : Product → List Dep
  | 0 => []
  | 1 => []
  | n + 2 => [⟨n + 1, false⟩, ⟨n, false⟩]

/-- **C46 finding.** Dependencies that were collected already are collected again, with all of their own: the
    number of calls is exponential in the number of products (here `2 * n + 1` of them). -/
theorem C46_exponential (n : Nat) : 2 ^ n ≤ calls ladder (2 * n + 1) (2 * n) := by
  have key : ∀ (n fuel : Nat), 2 * n + 1 < fuel →
      2 ^ n ≤ calls ladder fuel (2 * n) ∧ 2 ^ n ≤ calls ladder fuel (2 * n + 1) := by
    intro n
    induction n with
    | zero =>
      intro fuel h
      cases fuel with
      | zero => omega
      | succ fuel => exact ⟨by simp [calls], by simp [calls]⟩
    | succ n ih =>
      intro fuel h
      cases fuel with
      | zero => omega
      | succ fuel =>
        have h1 := ih fuel (by omega)
        have h2 : calls ladder (fuel + 1) (2 * n + 2)
            = 1 + (calls ladder fuel (2 * n + 1) + calls ladder fuel (2 * n)) := by
          rw [calls]; simp [ladder]
        refine ⟨?_, ?_⟩
        · rw [show 2 * (n + 1) = 2 * n + 2 by omega, h2, Nat.pow_succ]
          omega
        · cases fuel with
          | zero => omega
          | succ fuel =>
            have h3 : calls ladder (fuel + 1 + 1) (2 * n + 3)
                = 1 + (calls ladder (fuel + 1) (2 * n + 2) + calls ladder (fuel + 1) (2 * n + 1)) := by
              rw [calls]; simp [ladder]
            have h4 : calls ladder (fuel + 1) (2 * n + 2)
                = 1 + (calls ladder fuel (2 * n + 1) + calls ladder fuel (2 * n)) := by
              rw [calls]; simp [ladder]
            have h5 := ih fuel (by omega)
            rw [show 2 * (n + 1) + 1 = 2 * n + 3 by omega, h3, Nat.pow_succ]
            omega
  cases n with
  | zero => decide
  | succ n =>
    have h : calls ladder (2 * (n + 1) + 1) (2 * n + 2)
        = 1 + (calls ladder (2 * n + 2) (2 * n + 1) + calls ladder (2 * n + 2) (2 * n)) := by
      rw [show 2 * (n + 1) + 1 = (2 * n + 2) + 1 by omega, calls]; simp [ladder]
    rw [show 2 * (n + 1) = 2 * n + 2 by omega] at h ⊢
    have := key n (2 * n + 2) (by omega)
    rw [h, Nat.pow_succ]
    omega

end Verif.Subset
