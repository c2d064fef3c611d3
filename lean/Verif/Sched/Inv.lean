import Verif.Sched.Spec
/-!
# C52: where the products are
-/
namespace Verif.Sched

def places (s : State) : List P :=
  s.queue.map (·.1) ++ s.waitSingle.map (·.2.1) ++ s.waitBulk.map (·.1) ++ s.waitState.map (·.2.1) ++
    s.running.map (·.p)

def headBulk : List Item → Prop
  | .bulk _ :: _ => True
  | _ => False

def headSelf (p : P) : List Item → Prop
  | .single q _ :: _ => q = p
  | _ => False

/-- The product goes on although there is no other way. -/
structure Forced (pr : Project) (s : State) (p : P) : Prop where
  ok : s.failed p = false
  head : headBulk (s.todo p)
  above : ∀ q ∈ s.toHandle, Above pr q

/-- `hp`, `hl`: products and loader states that are on their way between two places. -/
structure Inv (pr : Project) (s : State) (hp : List P) (hl : List L) : Prop where
  places : ∀ p, (places s).count p + hp.count p = s.toHandle.count p
  states : ∀ l, s.avail.count l + (s.running.map (·.l)).count l + hl.count l = pr.states.count l
  all : ∀ p, s.finished.count p + s.toHandle.count p = pr.products.count p
  waitState : ∀ e ∈ s.waitState, (∃ t ∈ s.running, t.l = e.1) ∨ (∃ x ∈ s.queue, x.2.1 = some e.1) ∨ e.1 ∈ hl
  known : (∀ e ∈ s.queue, ∀ l, e.2.1 = some l → l ∈ pr.states) ∧ (∀ e ∈ s.waitSingle, e.2.2 ∈ pr.states) ∧
    (∀ e ∈ s.waitBulk, e.2 ∈ pr.states)
  jobs : 1 ≤ s.maxJobs ∧ s.maxJobs ≤ pr.states.length
  asserted : s.asserted = false
  stage : ∀ t ∈ s.running, t.phase ≠ .resolving → s.failed t.p = true ∨ ¬headSelf t.p (s.todo t.p)
  single : ∀ e ∈ s.waitSingle, e.1 ∈ s.toHandle ∧ e.1 ≠ e.2.1 ∧ s.failed e.2.1 = false ∧
    ∃ required rest, s.todo e.2.1 = .single e.1 required :: rest
  bulk : ∀ e ∈ s.waitBulk, s.failed e.1 = false ∧ headBulk (s.todo e.1)
  queueForced : ∀ e ∈ s.queue, e.2.2 ≠ none → Forced pr s e.1
  stateForced : ∀ e ∈ s.waitState, e.2.2 = false → Forced pr s e.2.1
  runForced : ∀ t ∈ s.running, t.allowed = false → t.phase = .resolving ∧ Forced pr s t.p
  origin : ∀ p ∈ s.toHandle, ∀ q required, Item.single q required ∈ s.todo p →
    Item.single q required ∈ pr.items p ∨ (q ∈ s.typed ∧ required = true ∧ Wants pr p q)
  originBulk : ∀ p ∈ s.toHandle, ∀ types, Item.bulk types ∈ s.todo p → Item.bulk types ∈ pr.items p
  typed : ∀ q ∈ s.typed, q ∈ pr.products ∧ (q ∈ s.toHandle → s.todo q = [] ∧ s.failed q = false ∧
    (q ∈ hp ∨ ∃ t ∈ s.running, t.p = q ∧ t.phase ≠ .resolving))
  cycles : s.cycles = []

theorem count_pos_mem {α : Type} [BEq α] [LawfulBEq α] {l : List α} {a : α} : 0 < l.count a ↔ a ∈ l :=
  List.count_pos_iff

variable {pr : Project}

theorem nodup_count {α : Type} [BEq α] [LawfulBEq α] {l : List α} (h : l.Nodup) (a : α) : l.count a ≤ 1 :=
  List.nodup_iff_count.mp h a

/-- A product is in one place only. -/
theorem Inv.le_one {s : State} {hp : List P} {hl : List L} (hpr : pr.Ok) (h : Inv pr s hp hl) (p : P) :
    (Sched.places s).count p + hp.count p ≤ 1 := by
  have h1 := h.places p
  have h2 := h.all p
  have h3 := nodup_count hpr.distinct p
  omega

theorem count_places (s : State) (p : P) : (places s).count p =
    (s.queue.map (·.1)).count p + (s.waitSingle.map (·.2.1)).count p + (s.waitBulk.map (·.1)).count p +
    (s.waitState.map (·.2.1)).count p + (s.running.map (·.p)).count p := by
  unfold places
  simp only [List.count_append]

theorem mem_count {α : Type} {l : List α} {f : α → Nat} {a : α} (h : a ∈ l) : 1 ≤ (l.map f).count (f a) :=
  List.count_pos_iff.mpr (List.mem_map.mpr ⟨a, h, rfl⟩)

theorem map_erase {α : Type} [BEq α] [LawfulBEq α] {l : List α} {a : α} (f : α → Nat) (h : a ∈ l) (x : Nat) :
    (l.map f).count x = ((l.erase a).map f).count x + (if f a == x then 1 else 0) := by
  have := ((List.perm_cons_erase h).map f).count_eq x
  rw [this, List.map_cons, List.count_cons]

theorem count_split {α : Type} (l : List α) (g : α → Bool) (f : α → Nat) (x : Nat) :
    (l.map f).count x = ((l.filter g).map f).count x + ((l.filter (fun a => !g a)).map f).count x := by
  induction l with
  | nil => rfl
  | cons a l ih =>
    rw [List.filter_cons, List.filter_cons]
    cases hg : g a <;> simp [List.count_cons, ih] <;> omega

theorem inv_initial (hpr : pr.Ok) : Inv pr (initial pr) [] [] where
  places p := by
    rw [count_places]
    simp [initial, List.map_map, Function.comp_def]
  states l := by simp [initial]
  all p := by simp [initial]
  waitState e he := by cases he
  known := by
    refine ⟨?_, (fun e he => by cases he), (fun e he => by cases he)⟩
    intro e he l hl
    obtain ⟨p, _, rfl⟩ := List.mem_map.mp he
    cases hl
  jobs := hpr.jobs
  asserted := rfl
  stage t ht := by cases ht
  single e he := by cases he
  bulk e he := by cases he
  queueForced e he hn := by
    obtain ⟨p, _, rfl⟩ := List.mem_map.mp he
    exact absurd rfl hn
  stateForced e he := by cases he
  runForced t ht := by cases ht
  origin p _ q r h := Or.inl h
  originBulk p _ ts h := h
  typed q hq := by cases hq
  cycles := rfl

theorem inv_start {s : State} {hp : List P} {hl : List L} {p : P} {l : L} {allowed ok : Bool}
    (h : Inv pr s (p :: hp) (l :: hl)) (hf : allowed = false → Forced pr s p) (ht : p ∉ s.typed) :
    Inv pr (start s ok p l allowed) hp hl := by
  have hl : l ∈ pr.states := by
    rw [← List.count_pos_iff, ← h.states l]
    simp only [List.count_cons_self]
    omega
  unfold start
  cases ok with
  | true =>
    simp only [if_true]
    refine ⟨?_, ?_, h.all, ?_, h.known, h.jobs, h.asserted, ?_, h.single, h.bulk, ?_, ?_, ?_, h.origin, h.originBulk, ?_,
      h.cycles⟩
    · intro q
      have := h.places q
      rw [count_places] at this ⊢
      simp only [List.map_append, List.count_append, List.map_cons, List.map_nil, List.count_cons, List.count_nil]
        at this ⊢
      omega
    · intro k
      have := h.states k
      simp only [List.map_append, List.count_append, List.map_cons, List.map_nil, List.count_cons, List.count_nil]
        at this ⊢
      omega
    · intro e he
      rcases h.waitState e he with ⟨t, ht, hl⟩ | hx | hx
      · exact Or.inl ⟨t, List.mem_append_left _ ht, hl⟩
      · exact Or.inr (Or.inl hx)
      · rcases List.mem_cons.mp hx with hx | hx
        · exact Or.inl ⟨_, List.mem_append_right _ (List.mem_singleton.mpr rfl), hx.symm⟩
        · exact Or.inr (Or.inr hx)
    · intro t hmem ha
      rcases List.mem_append.mp hmem with hmem | hmem
      · exact h.stage t hmem ha
      · rw [List.mem_singleton] at hmem
        subst hmem
        by_cases hfp : s.failed p = true
        · exact Or.inl hfp
        · exact absurd (if_neg hfp) ha
    · exact fun e he hn => ⟨(h.queueForced e he hn).1, (h.queueForced e he hn).2, (h.queueForced e he hn).3⟩
    · exact fun e he hn => ⟨(h.stateForced e he hn).1, (h.stateForced e he hn).2, (h.stateForced e he hn).3⟩
    · intro t hmem ha
      rcases List.mem_append.mp hmem with hmem | hmem
      · have := h.runForced t hmem ha
        exact ⟨this.1, this.2.1, this.2.2, this.2.3⟩
      · rw [List.mem_singleton] at hmem
        subst hmem
        have := hf ha
        refine ⟨?_, this.1, this.2, this.3⟩
        show (if s.failed p = true then Phase.stage2 else .resolving) = .resolving
        rw [this.1]
        rfl
    · intro q hq
      refine ⟨(h.typed q hq).1, ?_⟩
      intro hh
      obtain ⟨h1, h2, h3⟩ := (h.typed q hq).2 hh
      refine ⟨h1, h2, ?_⟩
      rcases h3 with h3 | ⟨t, ht, h3⟩
      · rcases List.mem_cons.mp h3 with h3 | h3
        · subst h3; exact absurd hq ht
        · exact Or.inl h3
      · exact Or.inr ⟨t, List.mem_append_left _ ht, h3⟩
  | false =>
    rw [if_neg (by simp)]
    refine ⟨?_, ?_, h.all, ?_, ⟨?_, h.known.2⟩, ?_, h.asserted, h.stage, h.single, h.bulk, ?_, ?_, ?_, h.origin, h.originBulk, ?_,
      h.cycles⟩
    · intro q
      have := h.places q
      rw [count_places] at this ⊢
      simp only [List.map_append, List.count_append, List.map_cons, List.map_nil, List.count_cons, List.count_nil]
        at this ⊢
      omega
    · intro k
      have := h.states k
      simp only [List.count_append, List.count_cons, List.count_nil] at this ⊢
      omega
    · intro e he
      rcases h.waitState e he with hx | ⟨x, hx, hl⟩ | hx
      · exact Or.inl hx
      · exact Or.inr (Or.inl ⟨x, List.mem_append_left _ hx, hl⟩)
      · rcases List.mem_cons.mp hx with hx | hx
        · exact Or.inr (Or.inl ⟨_, List.mem_append_right _ (List.mem_singleton.mpr rfl), by rw [hx]⟩)
        · exact Or.inr (Or.inr hx)
    · intro e he k hk
      rcases List.mem_append.mp he with he | he
      · exact h.known.1 e he k hk
      · rw [List.mem_singleton] at he
        subst he
        injection hk with hk
        subst hk
        exact hl
    · show 1 ≤ (if 2 ≤ s.maxJobs then s.maxJobs / 2 else s.maxJobs) ∧
        (if 2 ≤ s.maxJobs then s.maxJobs / 2 else s.maxJobs) ≤ pr.states.length
      have := h.jobs
      split <;> omega
    · intro e he hn
      rcases List.mem_append.mp he with he | he
      · exact ⟨(h.queueForced e he hn).1, (h.queueForced e he hn).2, (h.queueForced e he hn).3⟩
      · rw [List.mem_singleton] at he
        subst he
        have ha : allowed = false := by
          cases allowed with
          | true => exact absurd rfl hn
          | false => rfl
        exact ⟨(hf ha).1, (hf ha).2, (hf ha).3⟩
    · exact fun e he hn => ⟨(h.stateForced e he hn).1, (h.stateForced e he hn).2, (h.stateForced e he hn).3⟩
    · intro t hmem ha
      have := h.runForced t hmem ha
      exact ⟨this.1, this.2.1, this.2.2, this.2.3⟩
    · intro q hq
      refine ⟨(h.typed q hq).1, ?_⟩
      intro hh
      obtain ⟨h1, h2, h3⟩ := (h.typed q hq).2 hh
      refine ⟨h1, h2, ?_⟩
      rcases h3 with h3 | h3
      · rcases List.mem_cons.mp h3 with h3 | h3
        · subst h3; exact absurd hq ht
        · exact Or.inl h3
      · exact Or.inr h3

/-- A product that waits somewhere is not registered by type. -/
theorem Inv.not_typed {s : State} {hp : List P} {hl : List L} (hpr : pr.Ok) (h : Inv pr s hp hl) {p : P}
    (hp1 : 1 ≤ (s.queue.map (·.1)).count p + (s.waitSingle.map (·.2.1)).count p + (s.waitBulk.map (·.1)).count p +
      (s.waitState.map (·.2.1)).count p) : p ∉ s.typed ∧ p ∈ s.toHandle := by
  have h1 := h.places p
  have h2 := h.le_one hpr p
  rw [count_places] at h1 h2
  have hh : p ∈ s.toHandle := by
    rw [← List.count_pos_iff]; omega
  refine ⟨?_, hh⟩
  intro ht
  obtain ⟨_, _, h3⟩ := (h.typed p ht).2 hh
  rcases h3 with h3 | ⟨t, ht, h3, _⟩
  · have := List.count_pos_iff.mpr h3
    omega
  · have := mem_count (f := (·.p)) ht
    rw [h3] at this
    omega

theorem Forced.mono {s s' : State} {p : P} (h : Forced pr s p) (h1 : s'.failed = s.failed) (h2 : s'.todo = s.todo)
    (h3 : s'.toHandle = s.toHandle) : Forced pr s' p :=
  ⟨h1 ▸ h.ok, h2 ▸ h.head, h3 ▸ h.above⟩

theorem inv_schedule {s : State} (hpr : pr.Ok) (h : Inv pr s [] []) (hj : s.running.length < s.maxJobs) (ok : Bool)
    {e : P × Option L × Option Nat} {rest : List (P × Option L × Option Nat)} (hq : s.queue = e :: rest) :
    Inv pr (schedule s ok e rest) [] [] := by
  have hnt := (h.not_typed hpr (p := e.1) (by rw [hq]; simp only [List.map_cons, List.count_cons_self]; omega)).1
  have he : e ∈ s.queue := by rw [hq]; exact List.mem_cons_self
  have hrest : ∀ x ∈ rest, x ∈ s.queue := fun x hx => by rw [hq]; exact List.mem_cons_of_mem _ hx
  have pl : ∀ p, (rest.map (·.1)).count p + (s.waitSingle.map (·.2.1)).count p + (s.waitBulk.map (·.1)).count p +
      (s.waitState.map (·.2.1)).count p + (s.running.map (·.p)).count p + [e.1].count p = s.toHandle.count p := by
    intro p
    have := h.places p
    rw [count_places, hq] at this
    simp only [List.map_cons, List.count_cons, List.count_nil] at this ⊢
    omega
  have hlen : s.avail ≠ [] := by
    intro hav
    have hperm : (s.running.map (·.l)).Perm pr.states := by
      rw [List.perm_iff_count]
      intro l
      have := h.states l
      rw [hav] at this
      simpa using this
    have := hperm.length_eq
    rw [List.length_map] at this
    have := h.jobs
    omega
  have hforced : mayDefer s e.2.2 = false → Forced pr s e.1 := by
    intro hf
    apply h.queueForced e he
    intro hn
    rw [hn] at hf
    cases hf
  have base : ∀ av l, (∀ k, av.count k + [l].count k = s.avail.count k) → (∀ k, e.2.1 = some k → k = l) →
      Inv pr { s with queue := rest, avail := av } [e.1] [l] := by
    intro av l hav hl
    refine ⟨?_, ?_, h.all, ?_, ⟨fun x hx => h.known.1 x (hrest x hx), h.known.2⟩, h.jobs, h.asserted, h.stage, h.single, h.bulk,
      fun x hx hn => (h.queueForced x (hrest x hx) hn).mono rfl rfl rfl,
      fun x hx hn => (h.stateForced x hx hn).mono rfl rfl rfl,
      fun t ht ha => ⟨(h.runForced t ht ha).1, (h.runForced t ht ha).2.mono rfl rfl rfl⟩,
      h.origin, h.originBulk, ?_, h.cycles⟩
    · intro p
      rw [count_places]
      exact pl p
    · intro k
      have h1 := h.states k
      have h2 := hav k
      show av.count k + (s.running.map (·.l)).count k + [l].count k = _
      simp only [List.count_nil] at h1
      omega
    · intro x hx
      rcases h.waitState x hx with hx | ⟨y, hy, hk⟩ | hx
      · exact Or.inl hx
      · rw [hq] at hy
        rcases List.mem_cons.mp hy with rfl | hy
        · exact Or.inr (Or.inr (by rw [hl _ hk]; exact List.mem_singleton.mpr rfl))
        · exact Or.inr (Or.inl ⟨y, hy, hk⟩)
      · cases hx
    · intro q hq
      refine ⟨(h.typed q hq).1, ?_⟩
      intro hh
      obtain ⟨h1, h2, h3⟩ := (h.typed q hq).2 hh
      refine ⟨h1, h2, ?_⟩
      rcases h3 with h3 | h3
      · cases h3
      · exact Or.inr h3
  unfold schedule
  simp only []
  cases hlast : s.avail.getLast? with
  | none => exact absurd (List.getLast?_eq_none_iff.mp hlast) hlen
  | some last =>
    simp only []
    have hdl : s.avail = s.avail.dropLast ++ [last] := by
      rw [List.getLast?_eq_some_iff] at hlast
      obtain ⟨ys, hys⟩ := hlast
      rw [hys]; simp
    cases hl : e.2.1 with
    | none =>
      simp only []
      apply inv_start
      · apply base
        · intro k
          conv => rhs; rw [hdl]
          rw [List.count_append]
        · intro k hk; rw [hl] at hk; cases hk
      · exact fun ha => (hforced ha).mono rfl rfl rfl
      · exact hnt
    | some l =>
      simp only []
      by_cases hc : s.avail.contains l = true
      · rw [if_pos hc]
        apply inv_start
        · apply base
          · intro k
            rw [List.contains_iff_mem] at hc
            have := (List.perm_cons_erase hc).count_eq k
            rw [this, List.count_cons, List.count_cons, List.count_nil]
            omega
          · intro k hk
            rw [hl] at hk
            injection hk with hk
            exact hk.symm
        · exact fun ha => (hforced ha).mono rfl rfl rfl
        · exact hnt
      · rw [if_neg hc]
        have hrun : ∃ t ∈ s.running, t.l = l := by
          have h1 := h.known.1 e he l hl
          have h2 := h.states l
          rw [List.contains_iff_mem, ← List.count_pos_iff] at hc
          have h3 := List.count_pos_iff.mpr h1
          simp only [List.count_nil] at h2
          have : 0 < (s.running.map (·.l)).count l := by omega
          rw [List.count_pos_iff, List.mem_map] at this
          exact this
        refine ⟨?_, h.states, h.all, ?_, ⟨fun x hx => h.known.1 x (hrest x hx), h.known.2⟩, h.jobs, h.asserted, h.stage, h.single,
          h.bulk, fun x hx hn => (h.queueForced x (hrest x hx) hn).mono rfl rfl rfl, ?_,
          fun t ht ha => ⟨(h.runForced t ht ha).1, (h.runForced t ht ha).2.mono rfl rfl rfl⟩,
          h.origin, h.originBulk, h.typed, h.cycles⟩
        · intro p
          have := pl p
          rw [count_places]
          simp only [List.map_append, List.count_append, List.map_cons, List.map_nil, List.count_nil] at this ⊢
          omega
        · intro x hx
          rcases List.mem_append.mp hx with hx | hx
          · rcases h.waitState x hx with hx | ⟨y, hy, hk⟩ | hx
            · exact Or.inl hx
            · rw [hq] at hy
              rcases List.mem_cons.mp hy with rfl | hy
              · rw [hl] at hk
                injection hk with hk
                exact Or.inl (hk ▸ hrun)
              · exact Or.inr (Or.inl ⟨y, hy, hk⟩)
            · cases hx
          · rw [List.mem_singleton] at hx
            subst hx
            exact Or.inl hrun
        · intro x hx hn
          rcases List.mem_append.mp hx with hx | hx
          · exact (h.stateForced x hx hn).mono rfl rfl rfl
          · rw [List.mem_singleton] at hx
            subst hx
            exact (hforced hn).mono rfl rfl rfl

/-- A thread's product is nowhere else. -/
theorem Inv.unique {s : State} {hp : List P} {hl : List L} (hpr : pr.Ok) (h : Inv pr s hp hl) {t : Thread}
    (ht : t ∈ s.running) : t.p ∈ s.toHandle ∧ (∀ u ∈ s.running, u.p = t.p → u = t) ∧ (∀ e ∈ s.queue, e.1 ≠ t.p) ∧
    (∀ e ∈ s.waitSingle, e.2.1 ≠ t.p) ∧ (∀ e ∈ s.waitBulk, e.1 ≠ t.p) ∧ (∀ e ∈ s.waitState, e.2.1 ≠ t.p) ∧
    t.p ∉ hp := by
  have h1 := h.places t.p
  have h2 := h.le_one hpr t.p
  rw [count_places] at h1 h2
  have hm := mem_count (f := (·.p)) ht
  refine ⟨?_, ?_, ?_, ?_, ?_, ?_, ?_⟩
  · rw [← List.count_pos_iff]; omega
  · intro u hu hup
    apply Classical.byContradiction
    intro hne
    have h3 := map_erase (·.p) ht t.p
    have h4 := mem_count (f := (·.p)) ((List.mem_erase_of_ne hne).mpr hu)
    rw [hup] at h4
    simp only [beq_self_eq_true, if_true] at h3
    omega
  · intro e he hep
    have := mem_count (f := (·.1)) he
    rw [hep] at this
    omega
  · intro e he hep
    have := mem_count (f := (·.2.1)) he
    rw [hep] at this
    omega
  · intro e he hep
    have := mem_count (f := (·.1)) he
    rw [hep] at this
    omega
  · intro e he hep
    have := mem_count (f := (·.2.1)) he
    rw [hep] at this
    omega
  · intro hx
    have := List.count_pos_iff.mpr hx
    omega

theorem upd_ne {α : Type} {f : P → α} {p q : P} {v : α} (h : q ≠ p) : upd f p v q = f q := if_neg h

theorem upd_self {α : Type} {f : P → α} {p : P} {v : α} : upd f p v p = v := if_pos rfl

theorem Forced.ne {s s' : State} {p q : P} {b : Bool} {rest : List Item} (h : Forced pr s q) (hne : q ≠ p)
    (h1 : s'.failed = upd s.failed p b) (h2 : s'.todo = upd s.todo p rest)
    (h3 : ∀ x ∈ s'.toHandle, x ∈ s.toHandle) : Forced pr s' q :=
  ⟨by rw [h1, upd_ne hne]; exact h.ok, by rw [h2, upd_ne hne]; exact h.head, fun x hx => h.above x (h3 x hx)⟩

/-- Something happens in a thread. -/
theorem inv_thread {s : State} (hpr : pr.Ok) (h : Inv pr s [] []) {t : Thread} (ht : t ∈ s.running) {allowed : Bool}
    {phase : Phase} {rest : List Item} {b : Bool} {ty dis : List P} {dp : P → List P} {mi : List (P × P)}
    (hforced : allowed = false → phase = .resolving ∧ b = false ∧ headBulk rest ∧ ∀ q ∈ s.toHandle, Above pr q)
    (hstage : phase ≠ .resolving → b = true ∨ ¬headSelf t.p rest)
    (horigin : ∀ q required, Item.single q required ∈ rest →
      Item.single q required ∈ pr.items t.p ∨ (q ∈ s.typed ∧ required = true ∧ Wants pr t.p q))
    (hbulk : ∀ types, Item.bulk types ∈ rest → Item.bulk types ∈ pr.items t.p)
    (hty : ∀ q ∈ ty, (q ∈ s.typed ∧ q ≠ t.p) ∨ (q = t.p ∧ phase ≠ .resolving ∧ rest = [] ∧ b = false))
    (hsub : ∀ q ∈ s.typed, q ∈ ty) :
    Inv pr { setThread s t.p allowed phase with
      todo := upd s.todo t.p rest, failed := upd s.failed t.p b, disabled := dis, typed := ty, deps := dp,
      missed := mi } [] [] := by
  obtain ⟨hth, hu, hq, hws, hwb, hst, -⟩ := h.unique hpr ht
  let g : Thread → Thread := fun u => if u.p = t.p then { u with allowed := allowed, phase := phase } else u
  have hgp : ∀ u, (g u).p = u.p := by intro u; show (if _ then _ else _ : Thread).p = _; split <;> rfl
  have hgl : ∀ u, (g u).l = u.l := by intro u; show (if _ then _ else _ : Thread).l = _; split <;> rfl
  have hrun : (setThread s t.p allowed phase).running = s.running.map g := rfl
  have hpar : (s.queue, s.waitSingle) = (s.queue, s.waitSingle) := rfl
  refine ⟨?_, ?_, h.all, ?_, h.known, h.jobs, h.asserted, ?_, ?_, ?_, ?_, ?_, ?_, ?_, ?_, ?_, h.cycles⟩
  · intro p
    have := h.places p
    rw [count_places] at this ⊢
    show (s.queue.map (·.1)).count p + (s.waitSingle.map (·.2.1)).count p + (s.waitBulk.map (·.1)).count p +
      (s.waitState.map (·.2.1)).count p + ((s.running.map g).map (·.p)).count p + _ = s.toHandle.count p
    rw [List.map_map, show ((·.p) ∘ g : Thread → P) = (·.p) from funext hgp]
    exact this
  · intro l
    show s.avail.count l + ((s.running.map g).map (·.l)).count l + _ = _
    rw [List.map_map, show ((·.l) ∘ g : Thread → L) = (·.l) from funext hgl]
    exact h.states l
  · intro e he
    rcases h.waitState e he with ⟨u, hu, hl⟩ | hx
    · exact Or.inl ⟨g u, List.mem_map.mpr ⟨u, hu, rfl⟩, by rw [hgl, hl]⟩
    · exact Or.inr hx
  · intro v hv hph
    obtain ⟨u, hu', rfl⟩ := List.mem_map.mp hv
    by_cases hup : u.p = t.p
    · rw [if_pos hup] at hph ⊢
      show upd s.failed t.p b u.p = true ∨ ¬headSelf u.p (upd s.todo t.p rest u.p)
      rw [hup, upd_self, upd_self]
      exact hstage hph
    · rw [if_neg hup] at hph ⊢
      show upd s.failed t.p b u.p = true ∨ ¬headSelf u.p (upd s.todo t.p rest u.p)
      rw [upd_ne hup, upd_ne hup]
      exact h.stage u hu' hph
  · intro e he
    have := h.single e he
    refine ⟨this.1, this.2.1, ?_⟩
    show upd s.failed t.p b e.2.1 = false ∧ ∃ required r, upd s.todo t.p rest e.2.1 = _ :: r
    rw [upd_ne (hws e he), upd_ne (hws e he)]
    exact this.2.2
  · intro e he
    show upd s.failed t.p b e.1 = false ∧ headBulk (upd s.todo t.p rest e.1)
    rw [upd_ne (hwb e he), upd_ne (hwb e he)]
    exact h.bulk e he
  · exact fun e he hn => (h.queueForced e he hn).ne (hq e he) rfl rfl (fun _ hx => hx)
  · exact fun e he hn => (h.stateForced e he hn).ne (hst e he) rfl rfl (fun _ hx => hx)
  · intro v hv ha
    obtain ⟨u, hu', rfl⟩ := List.mem_map.mp hv
    by_cases hup : u.p = t.p
    · rw [if_pos hup] at ha ⊢
      obtain ⟨h1, h2, h3, h4⟩ := hforced ha
      refine ⟨h1, ?_, ?_, h4⟩
      · show upd s.failed t.p b u.p = false
        rw [hup, upd_self]; exact h2
      · show headBulk (upd s.todo t.p rest u.p)
        rw [hup, upd_self]; exact h3
    · rw [if_neg hup] at ha ⊢
      exact ⟨(h.runForced u hu' ha).1, (h.runForced u hu' ha).2.ne hup rfl rfl (fun _ hx => hx)⟩
  · intro p hp q r hm
    have hm : Item.single q r ∈ upd s.todo t.p rest p := hm
    have key : Item.single q r ∈ pr.items p ∨ (q ∈ s.typed ∧ r = true ∧ Wants pr p q) := by
      by_cases hpt : p = t.p
      · subst hpt
        rw [upd_self] at hm
        exact horigin q r hm
      · rw [upd_ne hpt] at hm
        exact h.origin p hp q r hm
    rcases key with key | ⟨h1, h2⟩
    · exact Or.inl key
    · exact Or.inr ⟨hsub q h1, h2⟩
  · intro p hp ts hm
    have hm : Item.bulk ts ∈ upd s.todo t.p rest p := hm
    by_cases hpt : p = t.p
    · subst hpt
      rw [upd_self] at hm
      exact hbulk ts hm
    · rw [upd_ne hpt] at hm
      exact h.originBulk p hp ts hm
  · intro q hq
    rcases hty q hq with ⟨h1, h2⟩ | ⟨rfl, h2, h3, h4⟩
    · refine ⟨(h.typed q h1).1, ?_⟩
      intro hh
      obtain ⟨h3, h4, h5⟩ := (h.typed q h1).2 hh
      refine ⟨?_, ?_, ?_⟩
      · show upd s.todo t.p rest q = []
        rw [upd_ne h2]; exact h3
      · show upd s.failed t.p b q = false
        rw [upd_ne h2]; exact h4
      · rcases h5 with h5 | ⟨u, hu, h5, h6⟩
        · exact Or.inl h5
        · refine Or.inr ⟨g u, List.mem_map.mpr ⟨u, hu, rfl⟩, by rw [hgp, h5], ?_⟩
          have : g u = u := if_neg (by rw [h5]; exact h2)
          rw [this]; exact h6
    · refine ⟨?_, ?_⟩
      · have := h.all t.p
        have := List.count_pos_iff.mpr hth
        rw [← List.count_pos_iff]
        omega
      · intro _
        refine ⟨?_, ?_, Or.inr ⟨g t, List.mem_map.mpr ⟨t, ht, rfl⟩, hgp t, ?_⟩⟩
        · show upd s.todo t.p rest t.p = []
          rw [upd_self]; exact h3
        · show upd s.failed t.p b t.p = false
          rw [upd_self]; exact h4
        · have : g t = { t with allowed := allowed, phase := phase } := if_pos rfl
          rw [this]; exact h2

/-- What can happen in a thread that resolves dependencies. -/
inductive Effect (pr : Project) (s : State) (t : Thread) :
    Bool → Phase → List Item → Bool → List P → List P → (P → List P) → Prop
  | disabled : s.todo t.p = [] → s.failed t.p = true ∨ pr.enabled t.p = false →
      Effect pr s t t.allowed .stage2 [] (s.failed t.p) (t.p :: s.disabled) s.typed s.deps
  | good : s.todo t.p = [] → s.failed t.p = false → pr.enabled t.p = true →
      Effect pr s t t.allowed .stage2 [] (s.failed t.p) s.disabled (t.p :: s.typed) s.deps
  | self {required : Bool} {rest : List Item} : s.todo t.p = .single t.p required :: rest →
      Effect pr s t t.allowed .resolving rest true (t.p :: s.disabled) s.typed s.deps
  | pending {q : P} {required : Bool} {rest : List Item} : s.todo t.p = .single q required :: rest → q ≠ t.p →
      q ∈ s.toHandle → t.allowed = true → Effect pr s t t.allowed (if s.failed t.p then .stage2 else .done) (s.todo t.p)
        (s.failed t.p) s.disabled s.typed s.deps
  | required {q : P} {rest : List Item} : s.todo t.p = .single q true :: rest → q ≠ t.p → q ∉ s.toHandle →
      q ∈ s.disabled → Effect pr s t t.allowed .resolving rest true (t.p :: s.disabled) s.typed s.deps
  | optional {q : P} {rest : List Item} : s.todo t.p = .single q false :: rest → q ≠ t.p → q ∉ s.toHandle →
      q ∈ s.disabled → Effect pr s t t.allowed .resolving rest (s.failed t.p) s.disabled s.typed s.deps
  | ok {q : P} {required : Bool} {rest : List Item} : s.todo t.p = .single q required :: rest → q ≠ t.p →
      q ∉ s.toHandle → q ∉ s.disabled →
      Effect pr s t true .resolving rest (s.failed t.p) s.disabled s.typed (upd s.deps t.p (q :: s.deps t.p))
  | bulk {types : List Tag} {rest : List Item} : s.todo t.p = .bulk types :: rest → t.allowed = true →
      Effect pr s t t.allowed (if s.failed t.p then .stage2 else .done) (s.todo t.p) (s.failed t.p) s.disabled s.typed
        s.deps
  | expand {types : List Tag} {rest : List Item} : s.todo t.p = .bulk types :: rest → t.allowed = false →
      Effect pr s t true .resolving ((matching pr s t.p types).map (fun q => .single q true) ++ rest) (s.failed t.p)
        s.disabled s.typed s.deps

theorem upd_same {α : Type} (f : P → α) (p : P) : upd f p (f p) = f := by
  funext q
  unfold upd
  split
  · next h => rw [h]
  · rfl

theorem setThread_same {s : State} {t : Thread} (hu : ∀ u ∈ s.running, u.p = t.p → u = t) :
    setThread s t.p t.allowed t.phase = s := by
  unfold setThread
  have : s.running.map (fun u => if u.p = t.p then { u with allowed := t.allowed, phase := t.phase } else u) =
      s.running := by
    conv => rhs; rw [← List.map_id s.running]
    apply List.map_congr_left
    intro u hm
    by_cases hup : u.p = t.p
    · rw [if_pos hup, hu u hm hup]; rfl
    · rw [if_neg hup]; rfl
  rw [this]

theorem Inv.not_finished {s : State} {hp : List P} {hl : List L} (hpr : pr.Ok) (h : Inv pr s hp hl) {p : P}
    (hp : p ∈ s.toHandle) : s.finished.contains p = false := by
  have h1 := h.all p
  have h2 := nodup_count hpr.distinct p
  have h3 := List.count_pos_iff.mpr hp
  rw [← Bool.not_eq_true, List.contains_iff_mem, ← List.count_pos_iff]
  omega

theorem work_effect {s : State} (hpr : pr.Ok) (h : Inv pr s [] []) {t : Thread} (ht : t ∈ s.running)
    (hph : t.phase = .resolving) : ∃ allowed phase rest b dis ty dp, Effect pr s t allowed phase rest b dis ty dp ∧
      work pr s t = { setThread s t.p allowed phase with
        todo := upd s.todo t.p rest, failed := upd s.failed t.p b, disabled := dis, typed := ty, deps := dp,
        missed := s.missed } := by
  obtain ⟨hth, hu, -⟩ := h.unique hpr ht
  have hfin := h.not_finished hpr hth
  have hsame := setThread_same hu
  rw [hph] at hsame
  have hdefer : defer s t = setThread s t.p t.allowed (if s.failed t.p then .stage2 else .done) := by
    unfold defer
    rw [hfin, Bool.or_false]
  unfold work
  cases htd : s.todo t.p with
  | nil =>
    simp only []
    by_cases hc : (s.failed t.p || !pr.enabled t.p) = true
    · rw [if_pos hc]
      refine ⟨_, _, _, _, _, _, _, .disabled htd (by simpa using hc), ?_⟩
      rw [← htd, upd_same, upd_same]
      rfl
    · rw [if_neg hc]
      simp only [Bool.or_eq_true, not_or, Bool.not_eq_true, Bool.not_eq_false'] at hc
      refine ⟨_, _, _, _, _, _, _, .good htd hc.1 (by simpa using hc.2), ?_⟩
      rw [← htd, upd_same, upd_same]
      rfl
  | cons i rest =>
    cases i with
    | single q required =>
      simp only []
      by_cases hq : q = t.p
      · rw [if_pos hq]
        subst hq
        refine ⟨_, _, _, _, _, _, _, .self htd, ?_⟩
        rw [hsame]
        rfl
      · rw [if_neg hq]
        by_cases hqh : s.toHandle.contains q = true
        · rw [if_pos hqh]
          rw [List.contains_iff_mem] at hqh
          have hall : t.allowed = true := by
            apply Classical.byContradiction
            intro hn
            have := (h.runForced t ht ((Bool.not_eq_true _).mp hn)).2.head
            rw [htd] at this
            exact this
          rw [if_pos hall, hdefer]
          refine ⟨_, _, _, _, _, _, _, .pending htd hq hqh hall, ?_⟩
          rw [upd_same, upd_same]
          rfl
        · rw [if_neg hqh]
          have hqh' : q ∉ s.toHandle := fun hx => hqh (List.contains_iff_mem.mpr hx)
          by_cases hqd : s.disabled.contains q = true
          · rw [if_pos hqd]
            have hqd' := List.contains_iff_mem.mp hqd
            cases required with
            | true =>
              rw [if_pos rfl]
              refine ⟨_, _, _, _, _, _, _, .required htd hq hqh' hqd', ?_⟩
              rw [hsame]
              rfl
            | false =>
              rw [if_neg (by simp)]
              refine ⟨_, _, _, _, _, _, _, .optional htd hq hqh' hqd', ?_⟩
              rw [hsame, upd_same]
          · rw [if_neg hqd]
            have hqd' : q ∉ s.disabled := fun hx => hqd (List.contains_iff_mem.mpr hx)
            refine ⟨_, _, _, _, _, _, _, .ok htd hq hqh' hqd', ?_⟩
            rw [upd_same]
            rfl
    | bulk types =>
      simp only []
      by_cases hall : t.allowed = true
      · rw [if_pos hall, hdefer]
        refine ⟨_, _, _, _, _, _, _, .bulk htd hall, ?_⟩
        rw [upd_same, upd_same]
        rfl
      · rw [if_neg hall]
        refine ⟨_, _, _, _, _, _, _, .expand htd ((Bool.not_eq_true _).mp hall), ?_⟩
        rw [upd_same]
        rfl

theorem mem_matching {s : State} {p q : P} {types : List Tag} : q ∈ matching pr s p types ↔
    q ∈ s.typed ∧ pr.name q ≠ pr.name p ∧ ∃ t ∈ types, t ∈ pr.types q := by
  unfold matching
  rw [List.mem_filter, Bool.and_eq_true, List.any_eq_true]
  simp only [bne_iff_ne, List.contains_iff_mem]
  constructor
  · rintro ⟨h1, h2, x, h3, h4⟩
    exact ⟨h1, h2, x, h4, h3⟩
  · rintro ⟨h1, h2, x, h3, h4⟩
    exact ⟨h1, h2, x, h4, h3⟩

theorem Inv.resolving_not_typed {s : State} (hpr : pr.Ok) (h : Inv pr s [] []) {t : Thread} (ht : t ∈ s.running)
    (hph : t.phase = .resolving) : t.p ∉ s.typed := by
  obtain ⟨hth, hu, -⟩ := h.unique hpr ht
  intro hty
  rcases ((h.typed t.p hty).2 hth).2.2 with hx | ⟨u, hm, hup, hx⟩
  · cases hx
  · rw [hu u hm hup] at hx
    exact hx hph

theorem inv_work {s : State} (hpr : pr.Ok) (h : Inv pr s [] []) {t : Thread} (ht : t ∈ s.running)
    (hph : t.phase = .resolving) : Inv pr (work pr s t) [] [] := by
  obtain ⟨hth, hu, -⟩ := h.unique hpr ht
  have hnt := h.resolving_not_typed hpr ht hph
  obtain ⟨allowed, phase, rest, b, dis, ty, dp, he, hw⟩ := work_effect hpr h ht hph
  rw [hw]
  have hrun := h.runForced t ht
  have hor := h.origin t.p hth
  have hob := h.originBulk t.p hth
  have hself : ∀ q ∈ s.typed, q ∈ s.typed ∧ q ≠ t.p := fun q hq => ⟨hq, fun hx => hnt (hx ▸ hq)⟩
  cases he with
  | disabled htd hc =>
    refine inv_thread hpr h ht ?_ ?_ ?_ ?_ (fun q hq => Or.inl (hself q hq)) (fun q hq => hq)
    · intro ha
      have := (hrun ha).2.head
      rw [htd] at this
      exact this.elim
    · exact fun _ => Or.inr (fun hx => hx)
    · exact fun q r hx => by cases hx
    · exact fun ts hx => by cases hx
  | good htd hf he =>
    refine inv_thread hpr h ht ?_ ?_ ?_ ?_ ?_ (fun q hq => List.mem_cons_of_mem _ hq)
    · intro ha
      have := (hrun ha).2.head
      rw [htd] at this
      exact this.elim
    · exact fun _ => Or.inr (fun hx => hx)
    · exact fun q r hx => by cases hx
    · exact fun ts hx => by cases hx
    · intro q hq
      rcases List.mem_cons.mp hq with rfl | hq
      · exact Or.inr ⟨rfl, by simp, rfl, hf⟩
      · exact Or.inl (hself q hq)
  | self htd =>
    refine inv_thread hpr h ht ?_ (fun hx => absurd rfl hx) ?_ ?_ (fun q hq => Or.inl (hself q hq)) (fun q hq => hq)
    · intro ha
      have := (hrun ha).2.head
      rw [htd] at this
      exact this.elim
    · exact fun q r hx => hor q r (by rw [htd]; exact List.mem_cons_of_mem _ hx)
    · exact fun ts hx => hob ts (by rw [htd]; exact List.mem_cons_of_mem _ hx)
  | pending htd hq hqh ha =>
    refine inv_thread hpr h ht ?_ ?_ hor hob (fun q hq => Or.inl (hself q hq)) (fun q hq => hq)
    · intro hx; rw [ha] at hx; cases hx
    · intro _
      refine Or.inr ?_
      rw [htd]
      exact hq
  | required htd hq hqh hqd =>
    refine inv_thread hpr h ht ?_ (fun hx => absurd rfl hx) ?_ ?_ (fun q hq => Or.inl (hself q hq)) (fun q hq => hq)
    · intro ha
      have := (hrun ha).2.head
      rw [htd] at this
      exact this.elim
    · exact fun q r hx => hor q r (by rw [htd]; exact List.mem_cons_of_mem _ hx)
    · exact fun ts hx => hob ts (by rw [htd]; exact List.mem_cons_of_mem _ hx)
  | optional htd hq hqh hqd =>
    refine inv_thread hpr h ht ?_ (fun hx => absurd rfl hx) ?_ ?_ (fun q hq => Or.inl (hself q hq)) (fun q hq => hq)
    · intro ha
      have := (hrun ha).2.head
      rw [htd] at this
      exact this.elim
    · exact fun q r hx => hor q r (by rw [htd]; exact List.mem_cons_of_mem _ hx)
    · exact fun ts hx => hob ts (by rw [htd]; exact List.mem_cons_of_mem _ hx)
  | ok htd hq hqh hqd =>
    refine inv_thread hpr h ht (fun hx => by cases hx) (fun hx => absurd rfl hx) ?_ ?_
      (fun q hq => Or.inl (hself q hq)) (fun q hq => hq)
    · exact fun q r hx => hor q r (by rw [htd]; exact List.mem_cons_of_mem _ hx)
    · exact fun ts hx => hob ts (by rw [htd]; exact List.mem_cons_of_mem _ hx)
  | bulk htd ha =>
    refine inv_thread hpr h ht ?_ ?_ hor hob (fun q hq => Or.inl (hself q hq)) (fun q hq => hq)
    · intro hx; rw [ha] at hx; cases hx
    · intro _
      refine Or.inr ?_
      rw [htd]
      exact fun hx => hx
  | @expand types rest htd ha =>
    refine inv_thread hpr h ht (fun hx => by cases hx) (fun hx => absurd rfl hx) ?_ ?_
      (fun q hq => Or.inl (hself q hq)) (fun q hq => hq)
    · intro q r hx
      rcases List.mem_append.mp hx with hx | hx
      · obtain ⟨q', hq', he⟩ := List.mem_map.mp hx
        injection he with h1 h2
        subst h1
        obtain ⟨h3, h4, h5⟩ := mem_matching.mp hq'
        exact Or.inr ⟨h3, h2.symm, h4, types, hob types (by rw [htd]; exact List.mem_cons_self), h5⟩
      · exact hor q r (by rw [htd]; exact List.mem_cons_of_mem _ hx)
    · intro ts hx
      rcases List.mem_append.mp hx with hx | hx
      · obtain ⟨q', hq', he⟩ := List.mem_map.mp hx
        cases he
      · exact hob ts (by rw [htd]; exact List.mem_cons_of_mem _ hx)

theorem inv_stage2 {s : State} (hpr : pr.Ok) (h : Inv pr s [] []) {t : Thread} (ht : t ∈ s.running)
    (hph : t.phase = .stage2) : Inv pr (setThread s t.p t.allowed .done) [] [] := by
  obtain ⟨hth, hu, -⟩ := h.unique hpr ht
  have := inv_thread (allowed := t.allowed) (phase := .done) (rest := s.todo t.p) (b := s.failed t.p) (ty := s.typed)
    (dis := s.disabled) (dp := s.deps) (mi := s.missed) hpr h ht ?_ ?_ (h.origin t.p hth) (h.originBulk t.p hth) ?_
    (fun q hq => hq)
  · rw [upd_same, upd_same] at this
    exact this
  · intro ha
    have := (h.runForced t ht ha).1
    rw [hph] at this
    cases this
  · exact fun _ => h.stage t ht (by rw [hph]; simp)
  · intro q hq
    by_cases hqt : q = t.p
    · subst hqt
      have := (h.typed t.p hq).2 hth
      exact Or.inr ⟨rfl, by simp, this.1, this.2.1⟩
    · exact Or.inl ⟨hq, hqt⟩

theorem inv_remove {s : State} (h : Inv pr s [] []) {t : Thread} (ht : t ∈ s.running) :
    Inv pr { s with running := s.running.erase t } [t.p] [t.l] := by
  have hsub : ∀ u ∈ s.running.erase t, u ∈ s.running := fun u hu => List.mem_of_mem_erase hu
  refine ⟨?_, ?_, h.all, ?_, h.known, h.jobs, h.asserted, fun u hu => h.stage u (hsub u hu), h.single, h.bulk,
    fun e he hn => (h.queueForced e he hn).mono rfl rfl rfl, fun e he hn => (h.stateForced e he hn).mono rfl rfl rfl,
    fun u hu ha => ⟨(h.runForced u (hsub u hu) ha).1, (h.runForced u (hsub u hu) ha).2.mono rfl rfl rfl⟩,
    h.origin, h.originBulk, ?_, h.cycles⟩
  · intro p
    have h1 := h.places p
    have h2 := map_erase (·.p) ht p
    rw [count_places] at h1 ⊢
    simp only [List.count_cons, List.count_nil] at h1 h2 ⊢
    omega
  · intro l
    have h1 := h.states l
    have h2 := map_erase (·.l) ht l
    simp only [List.count_cons, List.count_nil] at h1 h2 ⊢
    omega
  · intro e he
    rcases h.waitState e he with ⟨u, hu, hl⟩ | hx | hx
    · by_cases hut : u = t
      · subst hut
        exact Or.inr (Or.inr (by rw [hl]; exact List.mem_singleton.mpr rfl))
      · exact Or.inl ⟨u, (List.mem_erase_of_ne hut).mpr hu, hl⟩
    · exact Or.inr (Or.inl hx)
    · cases hx
  · intro q hq
    refine ⟨(h.typed q hq).1, ?_⟩
    intro hh
    obtain ⟨h1, h2, h3⟩ := (h.typed q hq).2 hh
    refine ⟨h1, h2, ?_⟩
    rcases h3 with h3 | ⟨u, hu, h3⟩
    · cases h3
    · by_cases hut : u = t
      · subst hut
        exact Or.inl (by rw [← h3.1]; exact List.mem_singleton.mpr rfl)
      · exact Or.inr ⟨u, (List.mem_erase_of_ne hut).mpr hu, h3⟩

theorem inv_release {s : State} (hpr : pr.Ok) {p : P} {l : L} (h : Inv pr s [p] [l]) (ok : Bool) :
    Inv pr (release s ok l) [p] [] := by
  unfold release
  cases hfind : s.waitState.find? (fun e => e.1 == l) with
  | none =>
    simp only []
    refine ⟨h.places, ?_, h.all, ?_, h.known, h.jobs, h.asserted, h.stage, h.single, h.bulk,
      fun e he hn => (h.queueForced e he hn).mono rfl rfl rfl, fun e he hn => (h.stateForced e he hn).mono rfl rfl rfl,
      fun u hu ha => ⟨(h.runForced u hu ha).1, (h.runForced u hu ha).2.mono rfl rfl rfl⟩,
      h.origin, h.originBulk, h.typed, h.cycles⟩
    · intro k
      have := h.states k
      show (s.avail ++ [l]).count k + _ + _ = _
      rw [List.count_append]
      simp only [List.count_nil] at this ⊢
      omega
    · intro e he
      rcases h.waitState e he with hx | hx | hx
      · exact Or.inl hx
      · exact Or.inr (Or.inl hx)
      · rw [List.mem_singleton] at hx
        exact absurd (beq_iff_eq.mpr hx) (List.find?_eq_none.mp hfind e he)
  | some e =>
    simp only []
    have he := List.mem_of_find?_eq_some hfind
    have hel : e.1 = l := by simpa using List.find?_some hfind
    have hnt := (h.not_typed hpr (p := e.2.1) (by have := mem_count (f := (·.2.1)) he; omega)).1
    have hsub : ∀ x ∈ s.waitState.erase e, x ∈ s.waitState := fun x hx => List.mem_of_mem_erase hx
    apply inv_start
    · refine ⟨?_, h.states, h.all, fun x hx => h.waitState x (hsub x hx), h.known, h.jobs, h.asserted, h.stage, h.single,
        h.bulk, fun x hx hn => (h.queueForced x hx hn).mono rfl rfl rfl,
        fun x hx hn => (h.stateForced x (hsub x hx) hn).mono rfl rfl rfl,
        fun u hu ha => ⟨(h.runForced u hu ha).1, (h.runForced u hu ha).2.mono rfl rfl rfl⟩,
        h.origin, h.originBulk, ?_, h.cycles⟩
      · intro q
        have h1 := h.places q
        have h2 := map_erase (·.2.1) he q
        rw [count_places] at h1 ⊢
        simp only [List.count_cons, List.count_nil] at h1 h2 ⊢
        omega
      · intro q hq
        refine ⟨(h.typed q hq).1, ?_⟩
        intro hh
        obtain ⟨h1, h2, h3⟩ := (h.typed q hq).2 hh
        refine ⟨h1, h2, ?_⟩
        rcases h3 with h3 | h3
        · exact Or.inl (List.mem_cons_of_mem _ h3)
        · exact Or.inr h3
    · exact fun ha => (h.stateForced e he ha).mono rfl rfl rfl
    · exact hnt

/-- The product that is on its way is nowhere. -/
theorem Inv.hole {s : State} {p : P} {hl : List L} (hpr : pr.Ok) (h : Inv pr s [p] hl) : p ∈ s.toHandle ∧
    (∀ u ∈ s.running, u.p ≠ p) ∧ (∀ e ∈ s.queue, e.1 ≠ p) ∧ (∀ e ∈ s.waitSingle, e.2.1 ≠ p) ∧
    (∀ e ∈ s.waitBulk, e.1 ≠ p) ∧ (∀ e ∈ s.waitState, e.2.1 ≠ p) := by
  have h1 := h.places p
  have h2 := h.le_one hpr p
  rw [count_places] at h1 h2
  rw [List.count_cons_self, List.count_nil] at h1 h2
  refine ⟨?_, ?_, ?_, ?_, ?_, ?_⟩
  · rw [← List.count_pos_iff]; omega
  · intro e he hep
    have := mem_count (f := (·.p)) he
    rw [hep] at this
    omega
  · intro e he hep
    have := mem_count (f := (·.1)) he
    rw [hep] at this
    omega
  · intro e he hep
    have := mem_count (f := (·.2.1)) he
    rw [hep] at this
    omega
  · intro e he hep
    have := mem_count (f := (·.1)) he
    rw [hep] at this
    omega
  · intro e he hep
    have := mem_count (f := (·.2.1)) he
    rw [hep] at this
    omega

theorem inv_finish {s : State} (hpr : pr.Ok) {p : P} (h : Inv pr s [p] []) : Inv pr (finish pr s p) [] [] := by
  obtain ⟨hth, hrun, hq, hws, hwb, hst⟩ := h.hole hpr
  have hnd : ∀ x, s.toHandle.count x ≤ 1 := by
    intro x
    have := h.all x
    have := nodup_count hpr.distinct x
    omega
  have hsub : ∀ x ∈ s.toHandle.erase p, x ∈ s.toHandle := fun x hx => List.mem_of_mem_erase hx
  have hne : ∀ x ∈ s.toHandle.erase p, x ≠ p := by
    intro x hx he
    subst he
    have h1 := List.count_pos_iff.mpr hx
    rw [List.count_erase_self] at h1
    have := hnd x
    omega
  have hcount : ∀ x, s.toHandle.count x = (s.toHandle.erase p).count x + [p].count x := by
    intro x
    have := (List.perm_cons_erase hth).count_eq x
    rw [this, List.count_cons, List.count_cons, List.count_nil]
    omega
  have hsing : ∀ x ∈ s.toHandle, x ∈ s.toHandle := fun _ hx => hx
  unfold finish
  refine ⟨?_, h.states, ?_, ?_, ⟨?_, ?_, h.known.2.2⟩, h.jobs, h.asserted, ?_, ?_, ?_, ?_, ?_, ?_, ?_, ?_, ?_, h.cycles⟩
  · intro x
    have h1 := h.places x
    have h2 := count_split s.waitSingle (fun e => e.1 == p) (·.2.1) x
    have h3 := hcount x
    rw [count_places] at h1 ⊢
    simp only [List.map_append, List.count_append, List.map_map, Function.comp_def, List.count_nil] at h1 h2 ⊢
    omega
  · intro x
    have h1 := h.all x
    have h3 := hcount x
    show (s.finished ++ [p]).count x + (s.toHandle.erase p).count x = _
    rw [List.count_append]
    omega
  · intro e he
    rcases h.waitState e he with hx | ⟨x, hx, hl⟩ | hx
    · exact Or.inl hx
    · exact Or.inr (Or.inl ⟨x, List.mem_append_left _ hx, hl⟩)
    · exact Or.inr (Or.inr hx)
  · intro e he l hl
    rcases List.mem_append.mp he with he | he
    · exact h.known.1 e he l hl
    · obtain ⟨x, hx, rfl⟩ := List.mem_map.mp he
      injection hl with hl
      subst hl
      exact h.known.2.1 x (List.mem_filter.mp hx).1
  · exact fun e he => h.known.2.1 e (List.mem_filter.mp he).1
  · intro t ht hph
    show upd s.failed p false t.p = true ∨ ¬headSelf t.p (upd s.todo p _ t.p)
    rw [upd_ne (hrun t ht), upd_ne (hrun t ht)]
    exact h.stage t ht hph
  · intro e he
    obtain ⟨he, hep⟩ := List.mem_filter.mp he
    have := h.single e he
    refine ⟨?_, this.2.1, ?_⟩
    · exact (List.mem_erase_of_ne (by simpa using hep)).mpr this.1
    · show upd s.failed p false e.2.1 = false ∧ ∃ required rest, upd s.todo p _ e.2.1 = _ :: rest
      rw [upd_ne (hws e he), upd_ne (hws e he)]
      exact this.2.2
  · intro e he
    show upd s.failed p false e.1 = false ∧ headBulk (upd s.todo p _ e.1)
    rw [upd_ne (hwb e he), upd_ne (hwb e he)]
    exact h.bulk e he
  · intro e he hn
    rcases List.mem_append.mp he with he | he
    · exact (h.queueForced e he hn).ne (hq e he) rfl rfl hsub
    · obtain ⟨x, hx, rfl⟩ := List.mem_map.mp he
      exact absurd rfl hn
  · exact fun e he hn => (h.stateForced e he hn).ne (hst e he) rfl rfl hsub
  · exact fun t ht ha => ⟨(h.runForced t ht ha).1, (h.runForced t ht ha).2.ne (hrun t ht) rfl rfl hsub⟩
  · intro x hx q r hm
    have hm : Item.single q r ∈ upd s.todo p _ x := hm
    rw [upd_ne (hne x hx)] at hm
    exact h.origin x (hsub x hx) q r hm
  · intro x hx ts hm
    have hm : Item.bulk ts ∈ upd s.todo p _ x := hm
    rw [upd_ne (hne x hx)] at hm
    exact h.originBulk x (hsub x hx) ts hm
  · intro q hq
    refine ⟨(h.typed q hq).1, ?_⟩
    intro hh
    obtain ⟨h1, h2, h3⟩ := (h.typed q hq).2 (hsub q hh)
    refine ⟨?_, ?_, ?_⟩
    · show upd s.todo p _ q = []
      rw [upd_ne (hne q hh)]; exact h1
    · show upd s.failed p false q = false
      rw [upd_ne (hne q hh)]; exact h2
    · rcases h3 with h3 | h3
      · exact absurd (List.mem_singleton.mp h3) (hne q hh)
      · exact Or.inr h3

theorem inv_wait {s : State} (hpr : pr.Ok) {p : P} {l : L} (h : Inv pr s [p] []) (hl : l ∈ pr.states)
    (htodo : s.todo p ≠ []) (hfail : s.failed p = false) (hself : ¬headSelf p (s.todo p)) :
    Inv pr (wait s p l (s.todo p)) [] [] := by
  obtain ⟨hth, hrun, hq, hws, hwb, hst⟩ := h.hole hpr
  have hty : ∀ q ∈ s.typed, q ∈ pr.products ∧ (q ∈ s.toHandle → s.todo q = [] ∧ s.failed q = false ∧
      (q ∈ ([] : List P) ∨ ∃ t ∈ s.running, t.p = q ∧ t.phase ≠ .resolving)) := by
    intro q hq
    refine ⟨(h.typed q hq).1, ?_⟩
    intro hh
    obtain ⟨h1, h2, h3⟩ := (h.typed q hq).2 hh
    refine ⟨h1, h2, ?_⟩
    rcases h3 with h3 | h3
    · rw [List.mem_singleton] at h3
      subst h3
      exact absurd h1 htodo
    · exact Or.inr h3
  cases htd : s.todo p with
  | nil => exact absurd htd htodo
  | cons i rest =>
    cases i with
    | single q required =>
      unfold wait
      simp only []
      by_cases hc : s.toHandle.contains q = true
      · rw [if_pos hc]
        rw [List.contains_iff_mem] at hc
        refine ⟨?_, h.states, h.all, h.waitState, ⟨h.known.1, ?_, h.known.2.2⟩, h.jobs, h.asserted, h.stage, ?_, h.bulk,
          fun e he hn => (h.queueForced e he hn).mono rfl rfl rfl,
          fun e he hn => (h.stateForced e he hn).mono rfl rfl rfl,
          fun u hu ha => ⟨(h.runForced u hu ha).1, (h.runForced u hu ha).2.mono rfl rfl rfl⟩,
          h.origin, h.originBulk, hty, h.cycles⟩
        · intro x
          have h1 := h.places x
          rw [count_places] at h1 ⊢
          simp only [List.map_append, List.count_append, List.map_cons, List.map_nil, List.count_nil] at h1 ⊢
          omega
        · intro e he
          rcases List.mem_append.mp he with he | he
          · exact h.known.2.1 e he
          · rw [List.mem_singleton] at he
            subst he
            exact hl
        · intro e he
          rcases List.mem_append.mp he with he | he
          · exact h.single e he
          · rw [List.mem_singleton] at he
            subst he
            refine ⟨hc, ?_, hfail, required, rest, htd⟩
            rw [htd] at hself
            exact hself
      · rw [if_neg hc]
        refine ⟨?_, h.states, h.all, ?_, ⟨?_, h.known.2⟩, h.jobs, h.asserted, h.stage, h.single, h.bulk, ?_,
          fun e he hn => (h.stateForced e he hn).mono rfl rfl rfl,
          fun u hu ha => ⟨(h.runForced u hu ha).1, (h.runForced u hu ha).2.mono rfl rfl rfl⟩,
          h.origin, h.originBulk, hty, h.cycles⟩
        · intro x
          have h1 := h.places x
          rw [count_places] at h1 ⊢
          simp only [List.map_append, List.count_append, List.map_cons, List.map_nil, List.count_nil] at h1 ⊢
          omega
        · intro e he
          rcases h.waitState e he with hx | ⟨x, hx, hl⟩ | hx
          · exact Or.inl hx
          · exact Or.inr (Or.inl ⟨x, List.mem_append_left _ hx, hl⟩)
          · exact Or.inr (Or.inr hx)
        · intro e he k hk
          rcases List.mem_append.mp he with he | he
          · exact h.known.1 e he k hk
          · rw [List.mem_singleton] at he
            subst he
            injection hk with hk
            subst hk
            exact hl
        · intro e he hn
          rcases List.mem_append.mp he with he | he
          · exact (h.queueForced e he hn).mono rfl rfl rfl
          · rw [List.mem_singleton] at he
            subst he
            exact absurd rfl hn
    | bulk types =>
      unfold wait
      refine ⟨?_, h.states, h.all, h.waitState, ⟨h.known.1, h.known.2.1, ?_⟩, h.jobs, h.asserted, h.stage, h.single, ?_,
        fun e he hn => (h.queueForced e he hn).mono rfl rfl rfl,
        fun e he hn => (h.stateForced e he hn).mono rfl rfl rfl,
        fun u hu ha => ⟨(h.runForced u hu ha).1, (h.runForced u hu ha).2.mono rfl rfl rfl⟩,
        h.origin, h.originBulk, hty, h.cycles⟩
      · intro x
        have h1 := h.places x
        rw [count_places] at h1 ⊢
        simp only [List.map_append, List.count_append, List.map_cons, List.map_nil, List.count_nil] at h1 ⊢
        omega
      · intro e he
        rcases List.mem_append.mp he with he | he
        · exact h.known.2.2 e he
        · rw [List.mem_singleton] at he
          subst he
          exact hl
      · intro e he
        rcases List.mem_append.mp he with he | he
        · exact h.bulk e he
        · rw [List.mem_singleton] at he
          subst he
          refine ⟨hfail, ?_⟩
          show headBulk (s.todo p)
          rw [htd]
          exact trivial

theorem start_fields (s : State) (ok : Bool) (p : P) (l : L) (allowed : Bool) :
    (start s ok p l allowed).todo = s.todo ∧ (start s ok p l allowed).failed = s.failed ∧
    (start s ok p l allowed).finished = s.finished ∧ (start s ok p l allowed).toHandle = s.toHandle ∧
    (start s ok p l allowed).disabled = s.disabled ∧ (start s ok p l allowed).typed = s.typed ∧
    (start s ok p l allowed).deps = s.deps ∧ (start s ok p l allowed).missed = s.missed := by
  unfold start
  split <;> exact ⟨rfl, rfl, rfl, rfl, rfl, rfl, rfl, rfl⟩

theorem release_fields (s : State) (ok : Bool) (l : L) :
    (release s ok l).todo = s.todo ∧ (release s ok l).failed = s.failed ∧
    (release s ok l).finished = s.finished ∧ (release s ok l).toHandle = s.toHandle ∧
    (release s ok l).disabled = s.disabled ∧ (release s ok l).typed = s.typed ∧
    (release s ok l).deps = s.deps ∧ (release s ok l).missed = s.missed := by
  unfold release
  cases s.waitState.find? (fun e => e.1 == l) with
  | none => exact ⟨rfl, rfl, rfl, rfl, rfl, rfl, rfl, rfl⟩
  | some e => exact start_fields _ _ _ _ _

theorem inv_handle {s : State} (hpr : pr.Ok) (h : Inv pr s [] []) {t : Thread} (ht : t ∈ s.running)
    (hph : t.phase = .done) (ok : Bool) : Inv pr (handle pr s ok t) [] [] := by
  have h1 := inv_release hpr (inv_remove h ht) ok
  have hf := release_fields { s with running := s.running.erase t } ok t.l
  have hl : t.l ∈ pr.states := by
    have := h.states t.l
    have := mem_count (f := (·.l)) ht
    rw [← List.count_pos_iff]
    omega
  have hth := (h.unique hpr ht).1
  have hnf := h.not_finished hpr hth
  unfold handle
  simp only []
  by_cases hc : (decide ((release { s with running := s.running.erase t } ok t.l).todo t.p = []) ||
      (release { s with running := s.running.erase t } ok t.l).failed t.p ||
      (release { s with running := s.running.erase t } ok t.l).finished.contains t.p) = true
  · rw [if_pos hc]
    exact inv_finish hpr h1
  · rw [if_neg hc]
    simp only [Bool.or_eq_true, decide_eq_true_eq, not_or, Bool.not_eq_true] at hc
    refine inv_wait hpr h1 hl hc.1.1 hc.1.2 ?_
    have := h.stage t ht (by rw [hph]; simp)
    rw [hf.1]
    rcases this with this | this
    · rw [hf.2.1] at hc
      have h3 : s.failed t.p = false := hc.1.2
      rw [this] at h3
      cases h3
    · exact this

/-- Nothing runs, nothing is queued: then everything waits for something. -/
theorem Inv.idle {s : State} (h : Inv pr s [] []) (hr : s.running = []) (hq : s.queue = []) :
    s.waitState = [] ∧ ∀ p ∈ s.toHandle, (∃ e ∈ s.waitSingle, e.2.1 = p) ∨ (∃ e ∈ s.waitBulk, e.1 = p) := by
  have hw : s.waitState = [] := by
    apply List.eq_nil_iff_forall_not_mem.mpr
    intro e he
    rcases h.waitState e he with ⟨t, ht, _⟩ | ⟨x, hx, _⟩ | hx
    · rw [hr] at ht; cases ht
    · rw [hq] at hx; cases hx
    · cases hx
  refine ⟨hw, ?_⟩
  intro p hp
  have h1 := h.places p
  have h2 := List.count_pos_iff.mpr hp
  rw [count_places, hr, hq, hw] at h1
  simp only [List.map_nil, List.count_nil] at h1
  by_cases hc : 0 < (s.waitSingle.map (·.2.1)).count p
  · rw [List.count_pos_iff, List.mem_map] at hc
    exact Or.inl hc
  · have hc : 0 < (s.waitBulk.map (·.1)).count p := by omega
    rw [List.count_pos_iff, List.mem_map] at hc
    exact Or.inr hc

/-- Then a product that waits for another one is static about that. -/
theorem Inv.idle_single {s : State} (hpr : pr.Ok) (h : Inv pr s [] []) (hr : s.running = []) {e : P × P × L}
    (he : e ∈ s.waitSingle) : Needs pr e.2.1 e.1 ∧ e.1 ≠ e.2.1 ∧ e.1 ∈ s.toHandle := by
  obtain ⟨h1, h2, _, required, rest, h4⟩ := h.single e he
  have h5 := (h.not_typed hpr (p := e.2.1) (by have := mem_count (f := (·.2.1)) he; omega)).2
  refine ⟨?_, h2, h1⟩
  rcases h.origin e.2.1 h5 e.1 required (by rw [h4]; exact List.mem_cons_self) with h6 | ⟨h6, _⟩
  · exact ⟨required, h6⟩
  · rcases ((h.typed e.1 h6).2 h1).2.2 with h7 | ⟨t, ht, _⟩
    · cases h7
    · rw [hr] at ht; cases ht

theorem Inv.idle_above {s : State} (hpr : pr.Ok) (hac : Acyclic pr) (h : Inv pr s [] []) (hr : s.running = [])
    (hq : s.queue = []) : ∀ p ∈ s.toHandle, Above pr p := by
  intro p
  induction p using hac.induction with
  | _ p ih =>
    intro hp
    rcases (h.idle hr hq).2 p hp with ⟨e, he, rfl⟩ | ⟨e, he, rfl⟩
    · obtain ⟨h1, h2, h3⟩ := h.idle_single hpr hr he
      exact Above.needs h1 (ih e.1 ⟨h1, h2⟩ h3)
    · have h1 := (h.bulk e he).2
      cases htd : s.todo e.1 with
      | nil => rw [htd] at h1; exact h1.elim
      | cons i rest =>
        cases i with
        | single q r => rw [htd] at h1; exact h1.elim
        | bulk ts => exact Above.bulk (h.originBulk e.1 hp ts (by rw [htd]; exact List.mem_cons_self))

theorem inv_bulk {s : State} (hpr : pr.Ok) (hac : Acyclic pr) (h : Inv pr s [] []) (hr : s.running = [])
    (hq : s.queue = []) : Inv pr (scheduleBulk s) [] [] := by
  have hab := h.idle_above hpr hac hr hq
  have hw := (h.idle hr hq).1
  unfold scheduleBulk
  refine ⟨?_, h.states, h.all, ?_, ⟨?_, h.known.2.1, (fun e he => by cases he)⟩, h.jobs, h.asserted, h.stage, h.single,
    (fun e he => by cases he), ?_, fun e he hn => (h.stateForced e he hn).mono rfl rfl rfl,
    fun u hu ha => ⟨(h.runForced u hu ha).1, (h.runForced u hu ha).2.mono rfl rfl rfl⟩,
    h.origin, h.originBulk, h.typed, h.cycles⟩
  · intro x
    have h1 := h.places x
    rw [count_places] at h1 ⊢
    rw [hq] at h1
    simp only [List.map_map, Function.comp_def, List.map_nil, List.count_nil] at h1 ⊢
    omega
  · intro e he
    rw [show s.waitState = [] from hw] at he
    cases he
  · intro e he l hl
    obtain ⟨x, hx, rfl⟩ := List.mem_map.mp he
    injection hl with hl
    subst hl
    exact h.known.2.2 x hx
  · intro e he _
    obtain ⟨x, hx, rfl⟩ := List.mem_map.mp he
    exact ⟨(h.bulk x hx).1, (h.bulk x hx).2, hab⟩

/-- Without cycles, part c) of the scheduler is never reached. -/
theorem Inv.no_single {s : State} (hpr : pr.Ok) (hac : Acyclic pr) (h : Inv pr s [] []) (hr : s.running = [])
    (hq : s.queue = []) (hb : s.waitBulk = []) : s.waitSingle = [] ∧ s.toHandle = [] := by
  have key : ∀ p, p ∉ s.toHandle := by
    intro p
    induction p using hac.induction with
    | _ p ih =>
      intro hp
      rcases (h.idle hr hq).2 p hp with ⟨e, he, rfl⟩ | ⟨e, he, rfl⟩
      · obtain ⟨h1, h2, h3⟩ := h.idle_single hpr hr he
        exact ih e.1 ⟨h1, h2⟩ h3
      · rw [hb] at he; cases he
  refine ⟨?_, List.eq_nil_iff_forall_not_mem.mpr key⟩
  apply List.eq_nil_iff_forall_not_mem.mpr
  intro e he
  exact key e.1 (h.single e he).1

theorem inv_step {s s' : State} (hpr : pr.Ok) (hac : Acyclic pr) (h : Inv pr s [] []) {ok : Bool} (hs : Step pr ok s s') :
    Inv pr s' [] [] := by
  cases hs with
  | work t ht hph => exact inv_work hpr h ht hph
  | stage2 t ht hph => exact inv_stage2 hpr h ht hph
  | handle t ok ht hph => exact inv_handle hpr h ht hph ok
  | schedule ok e rest hj hq => exact inv_schedule hpr h hj ok hq
  | bulk hr hq _ => exact inv_bulk hpr hac h hr hq
  | single order hr hq hb hne _ => exact absurd (h.no_single hpr hac hr hq hb).1 hne

theorem inv_reachable {s : State} (hpr : pr.Ok) (hac : Acyclic pr) (h : Reachable pr s) : Inv pr s [] [] := by
  induction h with
  | init => exact inv_initial hpr
  | step _ hs ih => exact inv_step hpr hac ih hs

end Verif.Sched
