import Verif.RuleGraph.Model
/-!
# C27: rule nodes follow the relation between produced and consumed tags
-/
namespace Verif.RuleGraph

deriving instance DecidableEq for Except

/-! ## Specification -/

/-- `a` is one of the product's rules. -/
def IsRule (p : Product) (a : Nat) : Prop := a < p.rules.length

/-- Rule `b` needs rule `a`: `a` can produce a tag that `b` takes from its own product, and none that `b` excludes. -/
def Needs (p : Product) (b a : Nat) : Prop :=
  IsRule p a ∧
  (∃ t ∈ p.outputs a, t ∈ (p.rule b).inputs ∨ t ∈ (p.rule b).auxiliary ∨ t ∈ (p.rule b).explicitly) ∧
  (∀ t ∈ p.outputs a, t ∉ (p.rule b).excluded)

/-- A rule that can produce one of the product's own tags. -/
def IsTarget (p : Product) (a : Nat) : Prop := IsRule p a ∧ ∃ t ∈ p.outputs a, t ∈ p.tags

/-- Rule `b` is `a` or needs it directly or indirectly. -/
inductive Reach (p : Product) : Nat → Nat → Prop
  | refl (a) : Reach p a a
  | step {b c a} : Needs p b c → Reach p c a → Reach p b a

/-- A rule that is needed for the product's own tags. -/
def Needed (p : Product) (a : Nat) : Prop := ∃ r, IsTarget p r ∧ Reach p r a

/-- A rule that needs itself. -/
def OnCycle (p : Product) (a : Nat) : Prop := ∃ c, Needs p a c ∧ Reach p c a

/-! ## The graph -/

theorem intersects_iff (a b : List Tag) : intersects a b = true ↔ ∃ t ∈ a, t ∈ b := by
  unfold intersects
  rw [List.any_eq_true]
  simp

theorem mem_producers (p : Product) (t : Tag) (a : Nat) :
    a ∈ producers p t ↔ IsRule p a ∧ t ∈ p.outputs a := by
  unfold producers IsRule
  rw [List.mem_filter, List.mem_range]
  simp

/-- C27: the children of a rule are the rules it needs. -/
theorem C27_children (p : Product) (b a : Nat) : a ∈ children p b ↔ Needs p b a := by
  unfold children Needs
  rw [List.mem_flatMap]
  constructor
  · rintro ⟨t, ht, ha⟩
    obtain ⟨h1, h2⟩ := List.mem_filter.mp ha
    obtain ⟨h3, h4⟩ := (mem_producers p t a).mp h1
    have ht : t ∈ (p.rule b).inputs ++ (p.rule b).auxiliary ++ (p.rule b).explicitly :=
      List.mem_eraseDups.mp ht
    simp only [List.mem_append, or_assoc] at ht
    refine ⟨h3, ⟨t, h4, ht⟩, ?_⟩
    intro u hu hx
    rw [Bool.not_eq_true', ← Bool.not_eq_true, intersects_iff] at h2
    exact h2 ⟨u, hu, hx⟩
  · rintro ⟨h1, ⟨t, h2, h3⟩, h4⟩
    refine ⟨t, List.mem_eraseDups.mpr (by simpa only [List.mem_append, or_assoc] using h3),
      List.mem_filter.mpr ⟨(mem_producers p t a).mpr ⟨h1, h2⟩, ?_⟩⟩
    rw [Bool.not_eq_true', ← Bool.not_eq_true, intersects_iff]
    rintro ⟨u, hu, hx⟩
    exact h4 u hu hx

theorem mem_rootRules (p : Product) (a : Nat) : a ∈ rootRules p ↔ IsTarget p a := by
  unfold rootRules IsTarget
  rw [List.mem_eraseDups, List.mem_flatMap]
  constructor
  · rintro ⟨t, ht, h⟩
    obtain ⟨h1, h2⟩ := (mem_producers p t a).mp h
    exact ⟨h1, t, h2, ht⟩
  · rintro ⟨h1, t, h2, h3⟩
    exact ⟨t, h3, (mem_producers p t a).mpr ⟨h1, h2⟩⟩

theorem Reach.trans {p : Product} {a b c : Nat} (h : Reach p a b) (h' : Reach p b c) : Reach p a c := by
  induction h with
  | refl => exact h'
  | step hd _ ih => exact .step hd (ih h')

theorem reach_rule {p : Product} {a b : Nat} (h : Reach p a b) : IsRule p a → IsRule p b := by
  induction h with
  | refl => exact id
  | step hd _ ih => exact fun _ => ih hd.1

/-! ## Traversal without error -/

/-- What a successful traversal from `r` does. -/
structure Done (p : Product) (path : List Nat) (parent : Option Nat) (r : Nat) (s s' : State) : Prop where
  nodes : ∀ x, x ∈ s'.nodes ↔ x ∈ s.nodes ∨ Reach p r x
  nodup : s.nodes.Nodup → s'.nodes.Nodup
  edges : ∀ x y, (x, y) ∈ s'.edges ↔ (x, y) ∈ s.edges ∨ (parent = some x ∧ y = r) ∨ (Reach p r x ∧ Needs p x y)
  roots : ∀ x, x ∈ s'.roots ↔ x ∈ s.roots ∨ (parent = none ∧ x = r)
  off : ∀ x, Reach p r x → x ∉ path
  acyclic : ∀ x, Reach p r x → ¬ OnCycle p x

theorem each_done {p : Product} {path : List Nat} {parent : Option Nat}
    {f : Nat → State → Except Error State} :
    ∀ (cs : List Nat) (s s' : State),
    (∀ c ∈ cs, ∀ s s', f c s = .ok s' → Done p path parent c s s') → each f cs s = .ok s' →
    (∀ x, x ∈ s'.nodes ↔ x ∈ s.nodes ∨ ∃ c ∈ cs, Reach p c x) ∧
    (s.nodes.Nodup → s'.nodes.Nodup) ∧
    (∀ x y, (x, y) ∈ s'.edges ↔ (x, y) ∈ s.edges ∨ (parent = some x ∧ y ∈ cs) ∨
      (∃ c ∈ cs, Reach p c x ∧ Needs p x y)) ∧
    (∀ x, x ∈ s'.roots ↔ x ∈ s.roots ∨ (parent = none ∧ x ∈ cs)) ∧
    (∀ c ∈ cs, ∀ x, Reach p c x → x ∉ path ∧ ¬ OnCycle p x)
  | [], s, s', _, h => by
    unfold each at h
    injection h with h
    subst h
    simp
  | c :: cs, s, s', hf, h => by
    unfold each at h
    cases hc : f c s with
    | error e => rw [hc] at h; cases h
    | ok s1 =>
      rw [hc] at h
      have hd := hf c (by simp) s s1 hc
      obtain ⟨i1, i2, i3, i4, i5⟩ := each_done cs s1 s' (fun x hx => hf x (by simp [hx])) h
      refine ⟨?_, fun hn => i2 (hd.nodup hn), ?_, ?_, ?_⟩
      · intro x
        rw [i1, hd.nodes]
        simp only [List.mem_cons, exists_eq_or_imp, or_assoc]
      · intro x y
        rw [i3, hd.edges]
        simp only [List.mem_cons, exists_eq_or_imp]
        grind
      · intro x
        rw [i4, hd.roots]
        simp only [List.mem_cons]
        grind
      · intro x hx y hy
        rcases List.mem_cons.mp hx with rfl | hx
        · exact ⟨hd.off y hy, hd.acyclic y hy⟩
        · exact i5 x hx y hy

theorem mem_addNode (r : Nat) (s : State) (x : Nat) : x ∈ (addNode r s).nodes ↔ x ∈ s.nodes ∨ x = r := by
  unfold addNode
  by_cases h : r ∈ s.nodes
  · rw [if_pos (by simpa using h)]
    constructor
    · exact Or.inl
    · rintro (h' | rfl)
      · exact h'
      · exact h
  · rw [if_neg (by simpa using h)]
    simp

theorem addNode_rest (r : Nat) (s : State) : (addNode r s).edges = s.edges ∧ (addNode r s).roots = s.roots := by
  unfold addNode
  split <;> exact ⟨rfl, rfl⟩

theorem addNode_nodup (r : Nat) (s : State) (hn : s.nodes.Nodup) : (addNode r s).nodes.Nodup := by
  unfold addNode
  by_cases h : r ∈ s.nodes
  · rw [if_pos (by simpa using h)]; exact hn
  · rw [if_neg (by simpa using h)]
    show (s.nodes ++ [r]).Nodup
    rw [List.nodup_append]
    refine ⟨hn, by simp, ?_⟩
    intro a ha b hb hab
    simp at hb
    exact h (hb ▸ hab ▸ ha)

theorem visit_ok {path : List Nat} {parent : Option Nat} {r : Nat} {s s' : State}
    (h : visit path parent r s = .ok s') :
    r ∉ path ∧ s'.nodes = (addNode r s).nodes ∧
    (∀ x y, (x, y) ∈ s'.edges ↔ (x, y) ∈ s.edges ∨ (parent = some x ∧ y = r)) ∧
    (∀ x, x ∈ s'.roots ↔ x ∈ s.roots ∨ (parent = none ∧ x = r)) := by
  unfold visit at h
  by_cases hp : r ∈ path
  · rw [if_pos (by simpa using hp)] at h; cases h
  · rw [if_neg (by simpa using hp)] at h
    refine ⟨hp, ?_⟩
    obtain ⟨e1, e2⟩ := addNode_rest r s
    cases parent with
    | none =>
      unfold attach at h
      injection h with h
      subst h
      simp [e1, e2]
    | some q =>
      simp only [attach] at h
      by_cases hq : q ∈ (addNode r s).nodes
      · rw [if_pos (by simpa using hq)] at h
        injection h with h
        subst h
        refine ⟨rfl, ?_, ?_⟩
        · intro x y
          simp only [List.mem_append, List.mem_singleton, e1, Prod.mk.injEq, Option.some.injEq]
          grind
        · simp [e2]
      · rw [if_neg (by simpa using hq)] at h; cases h

theorem traverse_done (p : Product) : ∀ (fuel : Nat) (path : List Nat) (parent : Option Nat) (r : Nat)
    (s s' : State), traverse p fuel path parent r s = .ok s' → Done p path parent r s s'
  | 0, path, parent, r, s, s', h => by unfold traverse at h; cases h
  | fuel + 1, path, parent, r, s, s', h => by
    unfold traverse at h
    cases hv : visit path parent r s with
    | error e => rw [hv] at h; cases h
    | ok s1 =>
      rw [hv] at h
      obtain ⟨v1, v2, v3, v4⟩ := visit_ok hv
      obtain ⟨e1, e2, e3, e4, e5⟩ := each_done (path := path ++ [r]) (parent := some r) (children p r) s1 s'
        (fun c _ s s' => traverse_done p fuel (path ++ [r]) (some r) c s s') h
      refine ⟨?_, ?_, ?_, ?_, ?_, ?_⟩
      · intro x
        rw [e1, v2, mem_addNode]
        constructor
        · rintro ((h | rfl) | ⟨c, hc, h⟩)
          · exact Or.inl h
          · exact Or.inr (.refl _)
          · exact Or.inr (.step ((C27_children p r c).mp hc) h)
        · rintro (h | h)
          · exact Or.inl (Or.inl h)
          · cases h with
            | refl => exact Or.inl (Or.inr rfl)
            | step hd h => exact Or.inr ⟨_, (C27_children p r _).mpr hd, h⟩
      · intro hn
        apply e2
        rw [v2]
        exact addNode_nodup r s hn
      · intro x y
        rw [e3, v3]
        constructor
        · rintro ((h | h) | ⟨h1, h2⟩ | ⟨c, hc, h1, h2⟩)
          · exact Or.inl h
          · exact Or.inr (Or.inl h)
          · injection h1 with h1
            subst h1
            exact Or.inr (Or.inr ⟨.refl _, (C27_children p r y).mp h2⟩)
          · exact Or.inr (Or.inr ⟨.step ((C27_children p r c).mp hc) h1, h2⟩)
        · rintro (h | h | ⟨h1, h2⟩)
          · exact Or.inl (Or.inl h)
          · exact Or.inl (Or.inr h)
          · cases h1 with
            | refl => exact Or.inr (Or.inl ⟨rfl, (C27_children p r y).mpr h2⟩)
            | step hd h1 => exact Or.inr (Or.inr ⟨_, (C27_children p r _).mpr hd, h1, h2⟩)
      · intro x
        rw [e4, v4]
        simp
      · intro x hx
        cases hx with
        | refl => exact v1
        | step hd hx =>
          have := (e5 _ ((C27_children p r _).mpr hd) x hx).1
          simp only [List.mem_append, not_or] at this
          exact this.1
      · intro x hx
        cases hx with
        | refl =>
          rintro ⟨c, hc, hr⟩
          have := (e5 c ((C27_children p r c).mpr hc) r hr).1
          simp at this
        | step hd hx => exact (e5 _ ((C27_children p r _).mpr hd) x hx).2

/-! ## Errors -/

/-- A way through the graph from the rule `r`, along the listed rules, to the last of them. -/
inductive Walk (p : Product) : Nat → List Nat → Nat → Prop
  | single (r) : Walk p r [r] r
  | step {r c q l} : Needs p r c → Walk p c q l → Walk p r (r :: q) l

theorem Walk.reach_mem {p : Product} {r l : Nat} {q : List Nat} (h : Walk p r q l) :
    ∀ x ∈ q, Reach p r x ∧ Reach p x l := by
  induction h with
  | single r => intro x hx; simp at hx; subst hx; exact ⟨.refl _, .refl _⟩
  | @step r c q l hd hw ih =>
    intro x hx
    rcases List.mem_cons.mp hx with rfl | hx
    · refine ⟨.refl _, .step hd ?_⟩
      have : c ∈ q := by cases hw <;> simp
      exact (ih c this).2
    · exact ⟨.step hd (ih x hx).1, (ih x hx).2⟩

theorem each_error {f : Nat → State → Except Error State} {e : Error} :
    ∀ (cs : List Nat) (s : State), each f cs s = .error e →
    ∃ c ∈ cs, ∃ s1, f c s1 = .error e
  | [], s, h => by unfold each at h; cases h
  | c :: cs, s, h => by
    unfold each at h
    cases hc : f c s with
    | error e' =>
      rw [hc] at h
      injection h with h
      subst h
      exact ⟨c, by simp, s, hc⟩
    | ok s1 =>
      rw [hc] at h
      obtain ⟨x, hx, s2, h2⟩ := each_error cs s1 h
      exact ⟨x, by simp [hx], s2, h2⟩

theorem visit_cycle {path q : List Nat} {parent : Option Nat} {r : Nat} {s : State}
    (h : visit path parent r s = .error (.cycle q)) : q = path ∧ r ∈ path := by
  unfold visit at h
  by_cases hp : r ∈ path
  · rw [if_pos (by simpa using hp)] at h
    injection h with h
    injection h with h
    exact ⟨h.symm, hp⟩
  · rw [if_neg (by simpa using hp)] at h
    unfold attach at h
    cases parent with
    | none => cases h
    | some q =>
      by_cases hq : q ∈ (addNode r s).nodes
      · simp only [] at h; rw [if_pos (by simpa using hq)] at h; cases h
      · simp only [] at h; rw [if_neg (by simpa using hq)] at h; cases h

theorem traverse_cycle (p : Product) : ∀ (fuel : Nat) (path : List Nat) (parent : Option Nat) (r : Nat)
    (s : State) (q : List Nat), traverse p fuel path parent r s = .error (.cycle q) →
    (q = path ∧ r ∈ path) ∨ ∃ w l, q = path ++ w ∧ Walk p r w l ∧ ∃ y ∈ q, Needs p l y
  | 0, path, parent, r, s, q, h => by unfold traverse at h; cases h
  | fuel + 1, path, parent, r, s, q, h => by
    unfold traverse at h
    cases hv : visit path parent r s with
    | error e =>
      rw [hv] at h
      injection h with h
      subst h
      exact Or.inl (visit_cycle hv)
    | ok s1 =>
      rw [hv] at h
      obtain ⟨c, hc, s2, h2⟩ := each_error _ _ h
      have hn := (C27_children p r c).mp hc
      rcases traverse_cycle p fuel (path ++ [r]) (some r) c s2 q h2 with ⟨h1, h2⟩ | ⟨w, l, h1, h2, h3⟩
      · exact Or.inr ⟨[r], r, h1, .single _, c, h1 ▸ h2, hn⟩
      · exact Or.inr ⟨r :: w, l, by rw [h1]; simp, .step hn h2, h3⟩

theorem nodup_length : ∀ (n : Nat) (l : List Nat), l.Nodup → (∀ x ∈ l, x < n) → l.length ≤ n
  | 0, l, _, h => by
    cases l with
    | nil => exact Nat.zero_le _
    | cons x l => exact absurd (h x (by simp)) (Nat.not_lt_zero _)
  | n + 1, l, hn, h => by
    have := nodup_length n (l.erase n) (hn.erase n) (fun x hx => by
      have h1 := h x (List.mem_of_mem_erase hx)
      have h2 : x ≠ n := fun he => (List.Nodup.not_mem_erase hn) (he ▸ hx)
      omega)
    rw [List.length_erase] at this
    split at this <;> omega

/-- Neither the bound of the recursion is reached nor does the assertion fail. -/
theorem traverse_no_other_error (p : Product) : ∀ (fuel : Nat) (path : List Nat) (parent : Option Nat) (r : Nat)
    (s : State), IsRule p r → path.Nodup → (∀ x ∈ path, IsRule p x) → p.rules.length + 1 ≤ path.length + fuel →
    (∀ q, parent = some q → q ∈ s.nodes) →
    traverse p fuel path parent r s ≠ .error .fuel ∧ traverse p fuel path parent r s ≠ .error .assertion
  | 0, path, parent, r, s, hr, hn, hp, hl, _ => by
    have := nodup_length p.rules.length path hn hp
    omega
  | fuel + 1, path, parent, r, s, hr, hn, hp, hl, hq => by
    unfold traverse
    cases hv : visit path parent r s with
    | error e =>
      simp only []
      unfold visit at hv
      by_cases hc : r ∈ path
      · rw [if_pos (by simpa using hc)] at hv
        injection hv with hv
        subst hv
        constructor <;> intro h <;> cases h
      · rw [if_neg (by simpa using hc)] at hv
        unfold attach at hv
        cases parent with
        | none => cases hv
        | some q =>
          simp only [] at hv
          have : q ∈ (addNode r s).nodes := (mem_addNode r s q).mpr (Or.inl (hq q rfl))
          rw [if_pos (by simpa using this)] at hv
          cases hv
    | ok s1 =>
      simp only []
      obtain ⟨v1, v2, _, _⟩ := visit_ok hv
      have hr1 : r ∈ s1.nodes := by rw [v2, mem_addNode]; exact Or.inr rfl
      have key : ∀ (cs : List Nat) (s : State), (∀ c ∈ cs, c ∈ children p r) → r ∈ s.nodes →
          each (traverse p fuel (path ++ [r]) (some r)) cs s ≠ .error .fuel ∧
          each (traverse p fuel (path ++ [r]) (some r)) cs s ≠ .error .assertion := by
        intro cs
        induction cs with
        | nil =>
          intro s _ _
          unfold each
          constructor <;> intro h <;> cases h
        | cons c cs ih =>
          intro s hcs hrs
          have hc := (C27_children p r c).mp (hcs c (by simp))
          have ht := traverse_no_other_error p fuel (path ++ [r]) (some r) c s hc.1
            (by
              rw [List.nodup_append]
              refine ⟨hn, by simp, ?_⟩
              intro a ha b hb hab
              simp at hb
              exact v1 (hb ▸ hab ▸ ha))
            (by
              intro x hx
              rcases List.mem_append.mp hx with hx | hx
              · exact hp x hx
              · simp at hx; exact hx ▸ hr)
            (by simp; omega)
            (by intro q hq; injection hq with hq; exact hq ▸ hrs)
          unfold each
          cases he : traverse p fuel (path ++ [r]) (some r) c s with
          | error e =>
            rw [he] at ht
            exact ⟨fun h => ht.1 (by injection h with h; rw [h]), fun h => ht.2 (by injection h with h; rw [h])⟩
          | ok s2 =>
            simp only []
            exact ih s2 (fun x hx => hcs x (by simp [hx]))
              (((traverse_done p fuel _ _ c s s2 he).nodes r).mpr (Or.inl hrs))
      exact key (children p r) s1 (fun c h => h) hr1

theorem create_no_other_error (p : Product) : create p ≠ .error .fuel ∧ create p ≠ .error .assertion := by
  unfold create
  have root := fun r (hr : r ∈ rootRules p) (s : State) =>
    traverse_no_other_error p (p.rules.length + 1) [] none r s ((mem_rootRules p r).mp hr).1
      List.nodup_nil (fun x hx => by cases hx) (by simp) (fun q hq => by cases hq)
  constructor
  · intro h
    obtain ⟨c, hc, s, h⟩ := each_error _ _ h
    exact (root c hc s).1 h
  · intro h
    obtain ⟨c, hc, s, h⟩ := each_error _ _ h
    exact (root c hc s).2 h

/-- What creating the nodes without error gives. -/
theorem create_ok (p : Product) (s : State) (h : create p = .ok s) :
    s.nodes.Nodup ∧ (∀ x, x ∈ s.nodes ↔ Needed p x) ∧
    (∀ x y, (x, y) ∈ s.edges ↔ Needed p x ∧ Needs p x y) ∧ (∀ x, x ∈ s.roots ↔ IsTarget p x) ∧
    (∀ x, Needed p x → ¬ OnCycle p x) := by
  obtain ⟨e1, e2, e3, e4, e5⟩ := each_done (p := p) (path := []) (parent := none) (rootRules p) ⟨[], [], []⟩ s
    (fun c _ s s' => traverse_done p _ [] none c s s') h
  refine ⟨e2 List.nodup_nil, ?_, ?_, ?_, ?_⟩
  · intro x
    rw [e1]
    constructor
    · rintro (h | ⟨c, hc, h⟩)
      · cases h
      · exact ⟨c, (mem_rootRules p c).mp hc, h⟩
    · rintro ⟨c, hc, h⟩
      exact Or.inr ⟨c, (mem_rootRules p c).mpr hc, h⟩
  · intro x y
    rw [e3]
    constructor
    · rintro (h | ⟨h, _⟩ | ⟨c, hc, h1, h2⟩)
      · cases h
      · cases h
      · exact ⟨⟨c, (mem_rootRules p c).mp hc, h1⟩, h2⟩
    · rintro ⟨⟨c, hc, h1⟩, h2⟩
      exact Or.inr (Or.inr ⟨c, (mem_rootRules p c).mpr hc, h1, h2⟩)
  · intro x
    rw [e4]
    constructor
    · rintro (h | ⟨_, h⟩)
      · cases h
      · exact (mem_rootRules p x).mp h
    · intro h
      exact Or.inr ⟨rfl, (mem_rootRules p x).mpr h⟩
  · rintro x ⟨c, hc, h⟩
    exact (e5 c ((mem_rootRules p c).mpr hc) x h).2

/-! ## Theorems -/

/-- C27: if no needed rule needs itself, every needed rule gets exactly one node, no other rule gets one, nodes are
    connected as the rules need each other, and the root nodes are those of the rules for the product's tags. -/
theorem C27_nodes (p : Product) (h : ∀ x, Needed p x → ¬ OnCycle p x) :
    ∃ s, create p = .ok s ∧ s.nodes.Nodup ∧ (∀ x, x ∈ s.nodes ↔ Needed p x) ∧
      (∀ x y, (x, y) ∈ s.edges ↔ Needed p x ∧ Needs p x y) ∧ (∀ x, x ∈ s.roots ↔ IsTarget p x) := by
  cases hc : create p with
  | ok s =>
    obtain ⟨h1, h2, h3, h4, _⟩ := create_ok p s hc
    exact ⟨s, rfl, h1, h2, h3, h4⟩
  | error e =>
    exfalso
    cases e with
    | fuel => exact (create_no_other_error p).1 hc
    | assertion => exact (create_no_other_error p).2 hc
    | cycle q =>
      obtain ⟨c, hc, s1, h1⟩ := each_error _ _ hc
      rcases traverse_cycle p _ [] none c s1 q h1 with ⟨_, h2⟩ | ⟨w, l, h2, h3, y, hy, h4⟩
      · cases h2
      · simp at h2
        subst h2
        have hm := h3.reach_mem y hy
        exact h y ⟨c, (mem_rootRules p c).mp hc, hm.1⟩ (by
          have hyl := hm.2
          clear hm h3
          cases hyl with
          | refl => exact ⟨_, h4, .refl _⟩
          | step hd hr => exact ⟨_, hd, hr.trans (.step h4 (.refl _))⟩)

/-- C27: a cycle is reported exactly if there is one among the needed rules. -/
theorem C27_cycle_iff (p : Product) :
    (∃ path, create p = .error (.cycle path)) ↔ ∃ x, Needed p x ∧ OnCycle p x := by
  constructor
  · rintro ⟨path, h⟩
    apply Classical.byContradiction
    intro hno
    obtain ⟨s, hs, _⟩ := C27_nodes p (fun x hx hc => hno ⟨x, hx, hc⟩)
    rw [h] at hs
    cases hs
  · rintro ⟨x, hx, hc⟩
    cases h : create p with
    | ok s => exact absurd hc ((create_ok p s h).2.2.2.2 x hx)
    | error e =>
      cases e with
      | fuel => exact absurd h (create_no_other_error p).1
      | assertion => exact absurd h (create_no_other_error p).2
      | cycle q => exact ⟨q, rfl⟩

/-- C27: the rules listed with the error lead from a rule for one of the product's tags to a rule that needs one of
    them. -/
theorem C27_reported_path (p : Product) (path : List Nat) (h : create p = .error (.cycle path)) :
    ∃ r l, IsTarget p r ∧ Walk p r path l ∧ ∃ y ∈ path, Needs p l y := by
  obtain ⟨c, hc, s1, h1⟩ := each_error _ _ h
  rcases traverse_cycle p _ [] none c s1 path h1 with ⟨_, h2⟩ | ⟨w, l, h2, h3, h4⟩
  · cases h2
  · simp at h2
    subst h2
    exact ⟨c, l, (mem_rootRules p c).mp hc, h3, h4⟩

theorem collected_mono (ps : List Properties) : ∀ (a : List Tag), ∀ t ∈ a, t ∈ collected ps a := by
  induction ps with
  | nil => exact fun a t h => h
  | cons p ps ih =>
    intro a t h
    unfold collected
    rw [List.foldl_cons]
    apply ih
    split
    · exact List.mem_append_left _ h
    · exact h

theorem collected_extra (ps : List Properties) : ∀ (a : List Tag) (q : Properties), q ∈ ps →
    (∃ t ∈ q.filter, t ∈ a) → ∀ t ∈ q.extra, t ∈ collected ps a := by
  induction ps with
  | nil => intro a q h; cases h
  | cons p ps ih =>
    intro a q hq hf t ht
    unfold collected
    rw [List.foldl_cons]
    rcases List.mem_cons.mp hq with rfl | hq
    · rw [if_pos ((intersects_iff _ _).mpr hf)]
      exact collected_mono ps _ t (List.mem_append_right _ ht)
    · apply ih _ q hq _ t ht
      obtain ⟨u, hu, hua⟩ := hf
      refine ⟨u, hu, ?_⟩
      split
      · exact List.mem_append_left _ hua
      · exact hua

/-- C27: a rule is connected to the producers of everything it may get: the tags of an output with declared tags are
    among those its rule is taken to produce, except for "installable". -/
theorem C27_tags_covered_partial (ps : List Properties) (byName declared pure : List Tag) (install : Bool)
    (hp : pure ≠ []) (hd : ∀ t ∈ pure, t ∈ declared) :
    ∀ t ∈ outputTags ps byName install pure, t ∈ collected ps declared ∨ t = "installable" := by
  intro t ht
  unfold outputTags at ht
  rw [if_neg (by simpa using hp)] at ht
  have ext : ∀ q ∈ ps, intersects pure q.filter = true → ∀ t ∈ q.extra, t ∈ collected ps declared := by
    intro q hq hf t ht
    obtain ⟨u, hu, huf⟩ := (intersects_iff _ _).mp hf
    exact collected_extra ps declared q hq ⟨u, huf, hd u hu⟩ t ht
  cases hc : ps.find? (fun p => intersects pure p.filter) with
  | none =>
    simp only [hc, List.mem_append] at ht
    rcases ht with ht | ht
    · exact Or.inl (collected_mono ps declared t (hd t ht))
    · split at ht
      · exact Or.inr (by simpa using ht)
      · cases ht
  | some q =>
    simp only [hc, List.mem_append] at ht
    rcases ht with (ht | ht) | ht
    · exact Or.inl (collected_mono ps declared t (hd t ht))
    · exact Or.inl (ext q (List.mem_of_find?_eq_some hc) (List.find?_some (p := fun p : Properties => intersects pure p.filter) hc) t ht)
    · split at ht
      · exact Or.inr (by simpa using ht)
      · cases ht

/-- C27: what an output is tagged with: its own tags, or those for its file name if it has none of its own; what the
    first `Properties` that apply to these add; and "installable" if these, or the product if there are none, say that
    it is to be installed. -/
theorem C27_output_tags (ps : List Properties) (byName pure own : List Tag) (install : Bool)
    (ho : own = if pure = [] then byName else pure) (t : Tag) :
    t ∈ outputTags ps byName install pure ↔ t ∈ own ∨
      (∃ before q after, ps = before ++ q :: after ∧ (∀ x ∈ before, ∀ u ∈ own, u ∉ x.filter) ∧ (∃ u ∈ own, u ∈ q.filter) ∧
        (t ∈ q.extra ∨ q.install = true ∧ t = "installable")) ∨
      ((∀ x ∈ ps, ∀ u ∈ own, u ∉ x.filter) ∧ install = true ∧ t = "installable") := by
  have hown : (if pure.isEmpty then byName else pure) = own := by
    rw [ho]
    cases pure <;> rfl
  unfold outputTags
  rw [hown]
  simp only []
  have hint : ∀ x : Properties, intersects own x.filter = false ↔ ∀ u ∈ own, u ∉ x.filter := by
    intro x
    rw [← Bool.not_eq_true, intersects_iff]
    exact ⟨fun h u h1 h2 => h ⟨u, h1, h2⟩, fun h ⟨u, h1, h2⟩ => h u h1 h2⟩
  cases hc : ps.find? (fun p => intersects own p.filter) with
  | none =>
    have hno : ∀ x ∈ ps, ∀ u ∈ own, u ∉ x.filter := by
      intro x hx
      have := List.find?_eq_none.mp hc x hx
      exact (hint x).mp (by simpa using this)
    simp only [List.mem_append]
    constructor
    · rintro (h | h)
      · exact .inl h
      · split at h
        · rename_i hi
          exact .inr (.inr ⟨hno, hi, by simpa using h⟩)
        · cases h
    · rintro (h | ⟨b, q, a, rfl, _, ⟨u, hu, hq⟩, _⟩ | ⟨_, hi, rfl⟩)
      · exact .inl h
      · exact absurd hq (hno q (by simp) u hu)
      · right
        rw [if_pos hi]
        exact List.mem_singleton.mpr rfl
  | some q =>
    obtain ⟨hq, b, a, rfl, hb⟩ := List.find?_eq_some_iff_append.mp hc
    have hb' : ∀ x ∈ b, ∀ u ∈ own, u ∉ x.filter := fun x hx => (hint x).mp (by simpa using hb x hx)
    have hq' := (intersects_iff _ _).mp hq
    simp only [List.mem_append]
    constructor
    · rintro ((h | h) | h)
      · exact .inl h
      · exact .inr (.inl ⟨b, q, a, rfl, hb', hq', .inl h⟩)
      · split at h
        · rename_i hi
          exact .inr (.inl ⟨b, q, a, rfl, hb', hq', .inr ⟨hi, by simpa using h⟩⟩)
        · cases h
    · rintro (h | ⟨b₂, q₂, a₂, he, hb₂, hq₂, h⟩ | ⟨hn, _, _⟩)
      · exact .inl (.inl h)
      · have : q₂ = q := by
          have h2 : (b₂ ++ q₂ :: a₂).find? (fun p => intersects own p.filter) = some q₂ :=
            List.find?_eq_some_iff_append.mpr ⟨(intersects_iff _ _).mpr hq₂, b₂, a₂, rfl,
              fun x hx => by simpa using (hint x).mpr (hb₂ x hx)⟩
          rw [← he, hc] at h2
          exact (Option.some.inj h2).symm
        subst this
        rcases h with h | ⟨hi, rfl⟩
        · exact .inl (.inr h)
        · right
          rw [if_pos hi]
          exact List.mem_singleton.mpr rfl
      · obtain ⟨u, hu, hu'⟩ := hq'
        exact absurd hu' (hn q (by simp) u hu)

/-- C27: a rule is connected to a rule of a dependency if it may take one of its outputs, or if it takes what is to be
    installed and the other rule produces one of the dependency's own tags. -/
theorem C27_dependencies (r : Rule) (outs : List Tag) (isRoot : Bool) :
    connectsToDependency r outs isRoot = true ↔
      ((∃ t ∈ outs, t ∈ r.inputsFromDeps ++ r.explicitlyFromDeps ++ r.auxiliaryFromDeps) ∧
        (∀ t ∈ outs, t ∉ r.excluded)) ∨
      ("installable" ∈ r.inputsFromDeps ++ r.explicitlyFromDeps ++ r.auxiliaryFromDeps ∧ isRoot = true) := by
  unfold connectsToDependency
  simp only [Bool.or_eq_true, Bool.and_eq_true, Bool.not_eq_true', ← Bool.not_eq_true, intersects_iff,
    List.contains_iff_mem, List.mem_append]
  constructor
  · rintro (⟨h1, h2⟩ | ⟨h1, h2⟩)
    · refine Or.inl ⟨?_, fun t ht hx => h1 ⟨t, hx, ht⟩⟩
      rcases h2 with (⟨t, h2, h3⟩ | ⟨t, h2, h3⟩) | ⟨t, h2, h3⟩
      · exact ⟨t, h3, Or.inl (Or.inl h2)⟩
      · exact ⟨t, h3, Or.inl (Or.inr h2)⟩
      · exact ⟨t, h3, Or.inr h2⟩
    · refine Or.inr ⟨?_, h2⟩
      rcases h1 with (h1 | h1) | h1
      · exact Or.inl (Or.inl h1)
      · exact Or.inr h1
      · exact Or.inl (Or.inr h1)
  · rintro (⟨⟨t, h1, h2⟩, h3⟩ | ⟨h1, h2⟩)
    · refine Or.inl ⟨?_, ?_⟩
      · rintro ⟨u, hu, hx⟩
        exact h3 u hx hu
      · rcases h2 with (h2 | h2) | h2
        · exact Or.inl (Or.inl ⟨t, h2, h1⟩)
        · exact Or.inl (Or.inr ⟨t, h2, h1⟩)
        · exact Or.inr ⟨t, h2, h1⟩
    · refine Or.inr ⟨?_, h2⟩
      rcases h1 with (h1 | h1) | h1
      · exact Or.inl (Or.inl h1)
      · exact Or.inr h1
      · exact Or.inl (Or.inr h1)

/-! ## Cases -/

example : outputTags [⟨["x"], ["y"], true⟩, ⟨["obj"], ["lib"], true⟩, ⟨["obj"], ["z"], false⟩] [] false ["obj"] =
    ["obj", "lib", "installable"] := by decide


/-- A linker, a compiler, a generator of headers, and a rule that nobody needs. -/
def someProduct : Product where
  rules := [{ declared := ["application"], inputs := ["obj"] },
    { declared := ["obj"], inputs := ["cpp"], auxiliary := ["hpp"] },
    { declared := ["hpp"], inputs := ["idl"] },
    { declared := ["doc"], inputs := ["cpp"] }]
  properties := []
  tags := ["application"]

example : create someProduct = .ok ⟨[0, 1, 2], [(0, 1), (1, 2)], [0]⟩ := by decide +kernel

/-- It meets the hypothesis of `C27_nodes`. -/
example : ∀ x, Needed someProduct x → ¬ OnCycle someProduct x :=
  (create_ok someProduct ⟨[0, 1, 2], [(0, 1), (1, 2)], [0]⟩ (by decide +kernel)).2.2.2.2

/-- The generator now takes objects. -/
def cyclicProduct : Product where
  rules := [{ declared := ["application"], inputs := ["obj"] },
    { declared := ["obj"], inputs := ["cpp"], auxiliary := ["hpp"] },
    { declared := ["hpp"], inputs := ["obj"] }]
  properties := []
  tags := ["application"]

example : create cyclicProduct = .error (.cycle [0, 1, 2]) := by decide +kernel

example : "b" ∈ outputTags [⟨["a"], ["b"], false⟩] [] true ["a"] ∧ collected [⟨["a"], ["b"], false⟩] ["a"] = ["a", "b"] := by
  decide +kernel

/-- **C27 finding.** The tag "installable" is added to outputs that are to be installed, but no rule is taken to
    produce it: a rule with such inputs is not connected to the rules of its own product that produce them. -/
theorem C27_installable_not_connected :
    ∃ (p : Product), (p.rule 0).inputs = ["installable"] ∧
      "installable" ∈ outputTags p.properties [] false (p.rule 1).declared ∧
      ¬ Needs p 0 1 ∧ create p = .ok ⟨[0, 1], [], [0, 1]⟩ := by
  refine ⟨⟨[{ declared := ["package"], inputs := ["installable"] }, { declared := ["lib"] }],
    [⟨["lib"], [], true⟩], ["package", "lib"]⟩, rfl, by decide +kernel, ?_, by decide +kernel⟩
  rw [← C27_children]
  decide +kernel

/-- **C27 finding.** Outputs without declared tags get those for their file names; no rule is taken to produce
    them either. -/
theorem C27_tags_by_name_not_connected :
    ∃ (p : Product) (byName : List Tag), (p.rule 0).inputs = byName ∧
      (∀ t ∈ byName, t ∈ outputTags p.properties byName false (p.rule 1).declared) ∧ byName ≠ [] ∧
      ¬ Needs p 0 1 := by
  refine ⟨⟨[{ declared := ["obj"], inputs := ["cpp"] }, { declared := [] }], [], ["obj"]⟩, ["cpp"], rfl,
    by decide +kernel, by decide, ?_⟩
  rw [← C27_children]
  decide +kernel

/-- **C27 finding.** A rule that can produce an excluded tag besides one that is taken is not connected, although its
    outputs without the excluded tag are taken. -/
theorem C27_excluded_not_connected :
    ∃ (p : Product) (output : List Tag), (∀ t ∈ output, t ∈ (p.rule 1).declared) ∧
      (∃ t ∈ output, t ∈ (p.rule 0).inputs) ∧ (∀ t ∈ output, t ∉ (p.rule 0).excluded) ∧ ¬ Needs p 0 1 := by
  refine ⟨⟨[{ declared := ["obj"], inputs := ["cpp"], excluded := ["raw"] },
    { declared := ["cpp", "raw"], inputs := ["idl"] }], [], ["obj"]⟩, ["cpp"], by decide +kernel, by decide +kernel,
    by decide +kernel, ?_⟩
  rw [← C27_children]
  decide +kernel

/-- The tags "a" and "b" with a number. -/
def tagA (n : Nat) : Tag := String.ofList ('a' :: List.replicate n 'x')
def tagB (n : Nat) : Tag := String.ofList ('b' :: List.replicate n 'x')

/-- A chain of `n + 1` rules, each of which takes both tags of the next. -/
def chain (n : Nat) : Product where
  rules := (List.range (n + 1)).map (fun i =>
    { declared := [tagA i, tagB i], inputs := [tagA (i + 1), tagB (i + 1)] })
  properties := []
  tags := [tagA 0]

theorem tag_ne (n m : Nat) : tagA n ≠ tagB m := by
  intro h
  have h := String.ofList_inj.mp h
  injection h with h1 h2
  exact absurd h1 (by decide)

theorem chain_rule (n i : Nat) (h : i ≤ n) :
    (chain n).rule i = { declared := [tagA i, tagB i], inputs := [tagA (i + 1), tagB (i + 1)] } := by
  unfold Product.rule chain
  simp only [List.getD_eq_getElem?_getD]
  rw [List.getElem?_map, List.getElem?_range (by omega)]
  rfl

theorem chain_producer (n i : Nat) (h : i ≤ n) (t : Tag) (ht : t = tagA i ∨ t = tagB i) :
    i ∈ producers (chain n) t := by
  rw [mem_producers]
  refine ⟨by unfold IsRule chain; simp; omega, ?_⟩
  unfold Product.outputs
  rw [chain_rule n i h]
  simpa [chain, collected] using ht

theorem sum_map_ge (f : Nat → Nat) : ∀ (l : List Nat) (x : Nat), x ∈ l → f x ≤ (l.map f).sum
  | y :: l, x, h => by
    rw [List.map_cons, List.sum_cons]
    rcases List.mem_cons.mp h with rfl | h
    · omega
    · have := sum_map_ge f l x h
      omega

/-- **C27 finding.** The traversal follows every way through the graph, even twice if a rule takes two tags of
    another one: the number of visits is exponential in the number of rules (here `n + 1`). -/
theorem C27_exponential (n : Nat) : (chain n).rules.length = n + 1 ∧
    2 ^ n ≤ visits (chain n) ((chain n).rules.length + 1) 0 := by
  have hl : (chain n).rules.length = n + 1 := by simp [chain]
  refine ⟨hl, ?_⟩
  have key : ∀ (k i fuel : Nat), i + k = n → k < fuel → 2 ^ k ≤ visits (chain n) fuel i := by
    intro k
    induction k with
    | zero =>
      intro i fuel _ hf
      cases fuel with
      | zero => omega
      | succ fuel => simp [visits]
    | succ k ih =>
      intro i fuel hi hf
      cases fuel with
      | zero => omega
      | succ fuel =>
        have hv := ih (i + 1) fuel (by omega) (by omega)
        have part : ∀ t, t = tagA (i + 1) ∨ t = tagB (i + 1) →
            2 ^ k ≤ (((producers (chain n) t).filter
              (fun a => !intersects ((chain n).outputs a) ((chain n).rule i).excluded)).map
                (visits (chain n) fuel)).sum := by
          intro t ht
          refine Nat.le_trans hv (sum_map_ge _ _ _ ?_)
          refine List.mem_filter.mpr ⟨chain_producer n (i + 1) (by omega) t ht, ?_⟩
          rw [chain_rule n i (by omega), Bool.not_eq_true', ← Bool.not_eq_true, intersects_iff]
          rintro ⟨u, _, hu⟩
          cases hu
        have hcons : consumed ((chain n).rule i) = [tagA (i + 1), tagB (i + 1)] := by
          rw [chain_rule n i (by omega)]
          have := tag_ne (i + 1) (i + 1)
          simp [consumed, List.eraseDups_cons, Ne.symm this]
        unfold visits children
        rw [hcons]
        simp only [List.flatMap_cons, List.flatMap_nil, List.append_nil, List.map_append, List.sum_append]
        have h1 := part _ (Or.inl rfl)
        have h2 := part _ (Or.inr rfl)
        rw [Nat.pow_succ]
        omega
  exact key n 0 _ (by omega) (by omega)

end Verif.RuleGraph
