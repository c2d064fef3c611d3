import Verif.Front.Lem
/-! # Theorems: C100, C101, C102 -/
namespace Verif.Front

variable {u : Setup}

/-- What an exit code of 0 says. -/
structure AllGood (u : Setup) (es : List Ev) : Prop where
  ok : ¬ Failed es
  resolved : AllResolved u es
  worked : Works u → AllWorked u es
  installed : u.cmd = .install → Ev.finished .install true ∈ es
  interrupt : ¬ u.cmd.installs → Ev.interrupt ∉ es
  early : ¬ Early u es
  names : NamesOk u ∨ u.cmd = .resolve

/-- The exit code if all goes well. -/
def expected (u : Setup) : Nat :=
  match u.cmd with
  | .run => u.runCode.getD 1
  | .shell => u.shellCode.getD 1
  | .status => u.statusCode
  | _ => 0

/-- As long as the frontend runs. -/
structure Live (u : Setup) (es : List Ev) (s : State) : Prop where
  launched : s.cancel = .none → ∀ i, i < u.configs.length → Started s.out (.resolve i)
  canceled : Failed es ∨ Ev.interrupt ∈ es → s.cancel ≠ .none
  alive : s.resolving ≠ [] ∨ s.working ≠ [] ∨ s.installing = true
  single : u.cmd.single = true → u.configs.length = 1 ∧ ¬ Failed es
  stopped : s.cancel ≠ .none → (s.timer = true ∧ s.cancel = .requested) ∨
    (∀ i ∈ s.resolving, Effect.cancel (.resolve i) ∈ s.out) ∧
    (∀ i ∈ s.working, Effect.cancel (.work i) ∈ s.out)
  timer : s.cancel = .none → s.timer = true
  why : s.cancel ≠ .none → Failed es ∨ Ev.interrupt ∈ es ∨
    ∃ i, i < u.configs.length ∧ ¬ Started s.out (.resolve i)
  good : Sound u → ¬ Failed es → Ev.interrupt ∉ es → s.cancel = .none

/-- After the end. -/
structure Dead (u : Setup) (es : List Ev) (s : State) (c : Nat) : Prop where
  resolving : s.resolving = []
  working : s.working = []
  installing : s.installing = true → Ev.interrupt ∈ es
  zero : c = 0 → u.cmd.ownCode = false → AllGood u es
  good : Sound u → ¬ Failed es → Ev.interrupt ∉ es → c = expected u

structure Inv (u : Setup) (es : List Ev) (s : State) : Prop where
  base : Base u es s
  live : s.exit = none → Live u es s
  dead : ∀ c, s.exit = some c → Dead u es s c

/-! ## The start -/

theorem launch_spec : ∀ (l : List (Nat × Conf)) (s : State),
    ∃ k, k ≤ l.length ∧
      (launch l s).1 = { s with
        resolving := s.resolving ++ (l.take k).map (·.1)
        out := s.out ++ (l.take k).map fun x => Effect.resolve x.1 } ∧
      ((launch l s).2 = true → k = l.length) ∧
      ((launch l s).2 = false → k < l.length ∧ ∃ x ∈ l, x.2.dirOk = false) := by
  intro l
  induction l with
  | nil => intro s; exact ⟨0, Nat.le_refl _, by simp [launch], by simp, by simp [launch]⟩
  | cons a l ih =>
    intro s
    rcases a with ⟨i, c⟩
    unfold launch
    by_cases h : c.dirOk = true
    · rw [if_pos h]
      obtain ⟨k, h1, h2, h3, h4⟩ := ih { s with
        resolving := s.resolving ++ [i]
        out := s.out ++ [.resolve i] }
      refine ⟨k + 1, by simpa using h1, ?_, ?_, ?_⟩
      · rw [h2]; simp
      · intro hh; rw [h3 hh]; rfl
      · intro hh
        obtain ⟨hlt, x, hx, hd⟩ := h4 hh
        exact ⟨by simpa using hlt, x, List.mem_cons_of_mem _ hx, hd⟩
    · rw [if_neg h]
      refine ⟨0, Nat.zero_le _, by simp, by simp, ?_⟩
      intro _
      exact ⟨by simp, (i, c), List.mem_cons_self, by simpa using h⟩

theorem zip_fst {k : Nat} (l : List Conf) (hk : k ≤ l.length) :
    (((List.range l.length).zip l).take k).map (·.1) = List.range k := by
  rw [List.map_take, List.map_fst_zip (by simp), List.take_range, Nat.min_eq_left hk]

theorem base_start (k : Nat) (hk : k ≤ u.configs.length) (s : State)
    (h1 : s.resolving = List.range k) (h2 : s.working = []) (h3 : s.installing = false)
    (h4 : s.projects = []) (h5 : s.out = (List.range k).map Effect.resolve) : Base u [] s := by
  have hst : ∀ j, Started s.out j ↔ ∃ i, i < k ∧ j = .resolve i := by
    intro j
    rw [h5]
    unfold Started
    constructor
    · rintro ⟨e, he, hs⟩
      obtain ⟨i, hi, rfl⟩ := List.mem_map.1 he
      simp only [Effect.starts, Option.some.injEq] at hs
      exact ⟨i, List.mem_range.1 hi, hs.symm⟩
    · rintro ⟨i, hi, rfl⟩
      exact ⟨.resolve i, List.mem_map.2 ⟨i, List.mem_range.2 hi, rfl⟩, rfl⟩
  have hmem : ∀ e ∈ s.out, ∃ i, e = .resolve i := by
    intro e he
    rw [h5] at he
    obtain ⟨i, _, rfl⟩ := List.mem_map.1 he
    exact ⟨i, rfl⟩
  refine ⟨?_, ?_, ?_, ?_, ?_, ?_, ?_, ?_, ?_, ?_, ?_, ?_, ?_, ?_, ?_, ?_, ?_⟩
  · intro i
    unfold Running
    rw [h1, hst, List.mem_range]
    simp
  · intro i
    unfold Running
    rw [h2, hst]
    simp
  · unfold Running
    rw [h3, hst]
    simp
  · rw [h1]; exact List.nodup_range
  · rw [h2]; simp
  · intro i; rw [h4]; simp
  · rw [h4]; simp
  · intro j ok h; simp at h
  · intro i hi
    obtain ⟨i', hi', h⟩ := (hst _).1 hi
    cases h
    omega
  · intro i hi
    obtain ⟨_, _, h⟩ := (hst _).1 hi
    cases h
  · intro hi
    obtain ⟨_, _, h⟩ := (hst _).1 hi
    cases h
  · rw [h5, List.filterMap_map]
    have : (Effect.starts ∘ Effect.resolve) = fun i => some (Job.resolve i) := by funext i; rfl
    rw [this, List.filterMap_eq_map']
    exact List.Pairwise.map _ (fun a b hab => by simpa using hab) List.nodup_range
  · intro i sel jobs h; obtain ⟨_, h⟩ := hmem _ h; cases h
  · intro i sel h; obtain ⟨_, h⟩ := hmem _ h; cases h
  · intro sel h; obtain ⟨_, h⟩ := hmem _ h; cases h
  · intro h; obtain ⟨_, h⟩ := hmem _ h; cases h
  · intro h; obtain ⟨_, h⟩ := hmem _ h; cases h

theorem base_empty : Base u [] (State.fail {}) :=
  base_start 0 (Nat.zero_le _) _ rfl rfl rfl rfl rfl

theorem inv_start (hne : u.configs ≠ []) : Inv u [] (start u) := by
  have hpos : 0 < u.configs.length := List.length_pos_iff.2 hne
  unfold start
  by_cases c1 : (u.cmd = .run ∨ u.cmd = .shell) ∧ u.names.length > 1
  · rw [if_pos c1]
    refine ⟨base_empty, by simp [State.fail], ?_⟩
    intro c hc
    cases hc
    refine ⟨rfl, rfl, by simp [State.fail], by simp, ?_⟩
    intro hs
    have := hs.product c1.1
    omega
  · rw [if_neg c1]
    by_cases c2 : u.cmd.single = true ∧ u.configs.length > 1
    · rw [if_pos c2]
      refine ⟨base_empty, by simp [State.fail], ?_⟩
      intro c hc
      cases hc
      refine ⟨rfl, rfl, by simp [State.fail], by simp, ?_⟩
      intro hs
      have := hs.one c2.1
      omega
    · rw [if_neg c2]
      obtain ⟨k, h1, h2, h3, h4⟩ := launch_spec ((List.range u.configs.length).zip u.configs) {}
      have hlen : ((List.range u.configs.length).zip u.configs).length = u.configs.length := by simp
      rw [hlen] at h1 h3 h4
      have hr := zip_fst u.configs h1
      have ho : (((List.range u.configs.length).zip u.configs).take k).map
          (fun x => Effect.resolve x.1) = (List.range k).map Effect.resolve := by
        rw [← hr, List.map_map]; rfl
      rw [hr, ho] at h2
      simp only [List.nil_append] at h2
      have hsingle : u.cmd.single = true → u.configs.length = 1 ∧ ¬ Failed [] := by
        intro hs
        refine ⟨?_, ?_⟩
        · have : ¬ u.configs.length > 1 := fun h => c2 ⟨hs, h⟩
          omega
        · rintro ⟨j, hj⟩; simp at hj
      generalize hx : launch ((List.range u.configs.length).zip u.configs) {} = x at h2 h3 h4
      rcases x with ⟨s, ok⟩
      simp only at h2 h3 h4 ⊢
      cases ok with
      | true =>
        rw [if_pos rfl]
        have hk := h3 rfl
        subst hk
        subst h2
        refine ⟨base_start _ (Nat.le_refl _) _ rfl rfl rfl rfl rfl, ?_, by intro c hc; cases hc⟩
        intro _
        refine ⟨?_, ?_, ?_, hsingle, ?_, ?_, fun h => absurd rfl h, ?_⟩
        · intro _ i hi
          exact ⟨.resolve i, List.mem_map.2 ⟨i, List.mem_range.2 hi, rfl⟩, rfl⟩
        · rintro (⟨j, hj⟩ | h)
          · simp at hj
          · simp at h
        · left
          show List.range _ ≠ []
          intro h
          rw [List.range_eq_nil] at h
          omega
        · intro h; exact absurd rfl h
        · intro _; rfl
        · intro _ _ _; rfl
      | false =>
        rw [if_neg (by simp)]
        obtain ⟨hlt, x, hx1, hx2⟩ := h4 rfl
        have hbad : ¬ Sound u := by
          intro hs
          have := hs.dirs x.2 (by
            have := List.of_mem_zip (a := x.1) (b := x.2) hx1
            exact this.2)
          rw [hx2] at this
          cases this
        subst h2
        by_cases c3 : List.range k = []
        · rw [if_pos ⟨rfl, c3⟩]
          refine ⟨base_start k h1 _ rfl rfl rfl rfl rfl, by simp [State.fail], ?_⟩
          intro c hc
          cases hc
          exact ⟨c3, rfl, by simp [State.fail], by simp, fun h => absurd h hbad⟩
        · rw [if_neg (fun h => c3 h.2)]
          unfold checkCancel
          simp only [c3, false_and, if_false]
          refine ⟨?_, ?_, by intro c hc; cases hc⟩
          · have := base_out (u := u) (es := [])
              (base_start k h1 { resolving := List.range k, out := (List.range k).map Effect.resolve, cancel := .canceling } rfl rfl rfl rfl rfl)
              ((List.range k).map fun i => Effect.cancel (.resolve i)) ?_ ?_ ?_
            · refine base_same this rfl rfl rfl rfl ?_
              simp
            · intro e he
              obtain ⟨i, _, rfl⟩ := List.mem_map.1 he
              rfl
            · intro he
              obtain ⟨i, _, he⟩ := List.mem_map.1 he
              cases he
            · intro he
              obtain ⟨i, _, he⟩ := List.mem_map.1 he
              cases he
          · intro _
            refine ⟨?_, ?_, ?_, hsingle, ?_, ?_, ?_, fun h => absurd h hbad⟩
            · intro h; cases h
            · intro _ h; cases h
            · left; exact c3
            · intro _
              right
              refine ⟨?_, by simp⟩
              intro i hi
              simp only [List.map_nil, List.append_nil]
              exact List.mem_append_right _ (List.mem_map.2 ⟨i, hi, rfl⟩)
            · intro h; cases h
            · intro _
              refine Or.inr (Or.inr ⟨k, hlt, ?_⟩)
              rintro ⟨e, he, hs⟩
              simp only [List.map_nil, List.append_nil] at he
              rcases List.mem_append.1 he with he | he
              · obtain ⟨i, hi, rfl⟩ := List.mem_map.1 he
                cases hs
                exact absurd (List.mem_range.1 hi) (Nat.lt_irrefl _)
              · obtain ⟨i, hi, rfl⟩ := List.mem_map.1 he
                cases hs

/-! ## Phases exclude each other -/

theorem no_resolving {es : List Ev} {s : State} (h : Base u es s) (hr : AllResolved u es) :
    s.resolving = [] := by
  rw [List.eq_nil_iff_forall_not_mem]
  intro i hi
  obtain ⟨a, b⟩ := (h.run_r i).1 hi
  exact b true (hr i (h.rstart i a))

theorem no_working {es : List Ev} {s : State} (h : Base u es s) (hs : Started s.out .install) :
    s.working = [] := by
  rw [List.eq_nil_iff_forall_not_mem]
  intro i hi
  obtain ⟨a, b⟩ := (h.run_w i).1 hi
  obtain ⟨c1, _, _, _, c2⟩ := h.istart hs
  obtain ⟨d1, _, d2, _⟩ := h.wstart i a
  have hb : u.buildFirst = true := by
    rcases d2 with d | d | d | d
    · rcases c1 with c | c <;> rw [c] at d <;> cases d
    · rcases c1 with c | c <;> rw [c] at d <;> cases d
    · rcases c1 with c | c <;> rw [c] at d <;> cases d
    · exact d.2
  obtain ⟨ok, hok⟩ := c2 hb i d1
  exact b ok hok

theorem started_of_mem {es : List Ev} {s : State} (h : Base u es s) (hw : s.working ≠ []) :
    ∃ i, Started s.out (.work i) := by
  obtain ⟨i, hi⟩ := List.exists_mem_of_ne_nil _ hw
  exact ⟨i, ((h.run_w i).1 hi).1⟩

/-- While a project is being resolved, nothing else runs or has run. -/
theorem resolve_alone {es : List Ev} {s : State} (h : Base u es s) {i : Nat}
    (hi : i ∈ s.resolving) : (∀ k, ¬ Started s.out (.work k)) ∧ ¬ Started s.out .install ∧
    s.working = [] ∧ s.installing = false := by
  have h1 : ∀ k, ¬ Started s.out (.work k) := by
    intro k hk
    have := no_resolving h (h.wstart k hk).2.1
    rw [this] at hi
    cases hi
  have h2 : ¬ Started s.out .install := by
    intro hk
    have := no_resolving h (h.istart hk).2.1
    rw [this] at hi
    cases hi
  refine ⟨h1, h2, ?_, ?_⟩
  · rw [List.eq_nil_iff_forall_not_mem]
    intro k hk
    exact h1 k ((h.run_w k).1 hk).1
  · cases hs : s.installing with
    | false => rfl
    | true => exact absurd (h.run_i.1 hs).1 h2

theorem work_alone {es : List Ev} {s : State} (h : Base u es s) {i : Nat}
    (hi : i ∈ s.working) : s.resolving = [] ∧ ¬ Started s.out .install ∧ s.installing = false := by
  have h0 := ((h.run_w i).1 hi).1
  have h2 : ¬ Started s.out .install := by
    intro hk
    have := no_working h hk
    rw [this] at hi
    cases hi
  refine ⟨no_resolving h (h.wstart i h0).2.1, h2, ?_⟩
  cases hs : s.installing with
  | false => rfl
  | true => exact absurd (h.run_i.1 hs).1 h2

theorem failed_true {es : List Ev} {j : Job} :
    Failed (es ++ [.finished j true]) ↔ Failed es := by
  unfold Failed
  constructor
  · rintro ⟨k, hk⟩
    rcases mem_snoc_fin.1 hk with hk | hk
    · exact ⟨k, hk⟩
    · cases hk.2
  · rintro ⟨k, hk⟩; exact ⟨k, List.mem_append_left _ hk⟩

theorem failed_ev {es : List Ev} {e : Ev} (he : ∀ j ok, e ≠ .finished j ok) :
    Failed (es ++ [e]) ↔ Failed es := by
  unfold Failed
  constructor
  · rintro ⟨k, hk⟩
    rcases List.mem_append.1 hk with hk | hk
    · exact ⟨k, hk⟩
    · rw [List.mem_singleton] at hk
      exact absurd hk.symm (he _ _)
  · rintro ⟨k, hk⟩; exact ⟨k, List.mem_append_left _ hk⟩

theorem interrupt_fin {es : List Ev} {j : Job} {ok : Bool} :
    Ev.interrupt ∈ es ++ [.finished j ok] ↔ Ev.interrupt ∈ es := by simp

theorem single_of_installs (h : u.cmd.installs) : u.cmd.single = true := by
  rcases h with h | h <;> rw [h] <;> rfl

/-! ## The timer and interrupts -/

theorem inv_interrupt {es : List Ev} {s : State} (h : Inv u es s) (hx : s.exit = none) :
    Inv u (es ++ [.interrupt]) (step u s .interrupt) := by
  have hl := h.live hx
  have hne : ∀ j ok, Ev.interrupt ≠ .finished j ok := by intro j ok hh; cases hh
  refine ⟨base_same (base_ev h.base _ hne) rfl rfl rfl rfl rfl, ?_, ?_⟩
  · intro _
    refine ⟨fun hc => (by cases hc), fun _ hc => (by cases hc), hl.alive, ?_, ?_,
      fun hc => (by cases hc), fun _ => Or.inr (Or.inl (by simp)), ?_⟩
    · intro hs
      rw [failed_ev hne]
      exact hl.single hs
    · intro _
      by_cases ht : s.timer = true
      · exact Or.inl ⟨ht, rfl⟩
      · have hc : s.cancel ≠ .none := fun hc => ht (hl.timer hc)
        rcases hl.stopped hc with h' | h'
        · exact absurd h'.1 ht
        · exact Or.inr h'
    · intro _ _ hi
      exact absurd (by simp) hi
  · intro c hc
    have : s.exit = some c := hc
    rw [hx] at this
    cases this

/-- An event that changes nothing. -/
theorem inv_tick_same {es : List Ev} {s : State} (h : Inv u es s) : Inv u (es ++ [.tick]) s := by
  have hne : ∀ j ok, Ev.tick ≠ .finished j ok := by intro j ok hh; cases hh
  have hint : Ev.interrupt ∈ es ++ [.tick] ↔ Ev.interrupt ∈ es := by simp
  have hm : ∀ j ok, Ev.finished j ok ∈ es ++ [.tick] ↔ Ev.finished j ok ∈ es := by simp
  refine ⟨base_ev h.base _ hne, ?_, ?_⟩
  · intro hx
    have hl := h.live hx
    refine ⟨hl.launched, ?_, hl.alive, ?_, hl.stopped, hl.timer, ?_, ?_⟩
    · rw [failed_ev hne, hint]; exact hl.canceled
    · rw [failed_ev hne]; exact hl.single
    · rw [failed_ev hne, hint]; exact hl.why
    · rw [failed_ev hne, hint]; exact hl.good
  · intro c hc
    have hd := h.dead c hc
    refine ⟨hd.resolving, hd.working, ?_, ?_, ?_⟩
    · rw [hint]; exact hd.installing
    · intro h0 ho
      have ha := hd.zero h0 ho
      refine ⟨?_, allResolved_snoc ha.resolved, ?_, ?_, ?_, early_snoc ha.resolved ha.early, ha.names⟩
      · rw [failed_ev hne]; exact ha.ok
      · intro hw k hk; rw [hm]; exact ha.worked hw k hk
      · intro hi; rw [hm]; exact ha.installed hi
      · rw [hint]; exact ha.interrupt
    · rw [failed_ev hne, hint]; exact hd.good

theorem inv_tick {es : List Ev} {s : State} (h : Inv u es s) (hx : s.exit = none) :
    Inv u (es ++ [.tick]) (step u s .tick) := by
  have hl := h.live hx
  have h' := inv_tick_same h
  have hl' := h'.live hx
  unfold step
  by_cases ht : s.timer = true
  · simp only [ht, if_true]
    unfold checkCancel
    cases hc : s.cancel with
    | none => exact h'
    | canceling => exact h'
    | requested =>
      have hcn : s.cancel ≠ .none := by rw [hc]; simp
      by_cases hnil : s.resolving = [] ∧ s.working = []
      · simp only [if_pos hnil]
        refine ⟨base_same h'.base rfl rfl rfl rfl rfl, (by intro hh; cases hh), ?_⟩
        intro c hcc
        cases hcc
        have hi : s.installing = true := by
          rcases hl.alive with ha | ha | ha
          · exact absurd hnil.1 ha
          · exact absurd hnil.2 ha
          · exact ha
        have hst := (h.base.run_i.1 hi).1
        obtain ⟨c1, c2, _⟩ := h.base.istart hst
        have hint : Ev.interrupt ∈ es := by
          rcases hl.why hcn with hf | hf | ⟨i, hi, hn⟩
          · exact absurd hf (hl.single (single_of_installs c1)).2
          · exact hf
          · exact absurd (h.base.fin _ _ (c2 i hi)) hn
        refine ⟨hnil.1, hnil.2, fun _ => List.mem_append_left _ hint, by simp, ?_⟩
        intro _ _ hn
        exact absurd (List.mem_append_left _ hint) hn
      · simp only [if_neg hnil]
        have hst : ∀ j, Started (s.out ++ (s.resolving.map fun i => Effect.cancel (.resolve i)) ++
            s.working.map fun i => Effect.cancel (.work i)) j ↔ Started s.out j := by
          intro j
          rw [started_append, started_append]
          constructor
          · rintro ((h | ⟨e, he, hs⟩) | ⟨e, he, hs⟩)
            · exact h
            · obtain ⟨i, _, rfl⟩ := List.mem_map.1 he; cases hs
            · obtain ⟨i, _, rfl⟩ := List.mem_map.1 he; cases hs
          · exact fun h => Or.inl (Or.inl h)
        refine ⟨?_, ?_, ?_⟩
        · have := base_out h'.base ((s.resolving.map fun i => Effect.cancel (.resolve i)) ++
            s.working.map fun i => Effect.cancel (.work i)) ?_ ?_ ?_
          · refine base_same this rfl rfl rfl rfl ?_
            simp
          · intro e he
            rcases List.mem_append.1 he with he | he
            · obtain ⟨i, _, rfl⟩ := List.mem_map.1 he; rfl
            · obtain ⟨i, _, rfl⟩ := List.mem_map.1 he; rfl
          · intro he
            rcases List.mem_append.1 he with he | he
            · obtain ⟨i, _, he⟩ := List.mem_map.1 he; cases he
            · obtain ⟨i, _, he⟩ := List.mem_map.1 he; cases he
          · intro he
            rcases List.mem_append.1 he with he | he
            · obtain ⟨i, _, he⟩ := List.mem_map.1 he; cases he
            · obtain ⟨i, _, he⟩ := List.mem_map.1 he; cases he
        · intro _
          refine ⟨fun hh => (by cases hh), fun _ hh => (by cases hh), hl'.alive, hl'.single, ?_,
            fun hh => (by cases hh), ?_, ?_⟩
          · intro _
            right
            refine ⟨?_, ?_⟩
            · intro i hi
              exact List.mem_append_left _ (List.mem_append_right _ (List.mem_map.2 ⟨i, hi, rfl⟩))
            · intro i hi
              exact List.mem_append_right _ (List.mem_map.2 ⟨i, hi, rfl⟩)
          · intro _
            rcases hl'.why hcn with hf | hf | ⟨i, hi, hn⟩
            · exact Or.inl hf
            · exact Or.inr (Or.inl hf)
            · exact Or.inr (Or.inr ⟨i, hi, fun hh => hn ((hst _).1 hh)⟩)
          · intro a b c
            exact absurd (hl'.good a b c) hcn
        · intro c hcc
          have : s.exit = some c := hcc
          rw [hx] at this
          cases this
  · rw [if_neg ht]
    exact h'

/-! ## Jobs that fail -/

theorem finished_false (u : Setup) (s : State) (j : Job) : finished u s j false =
    if (after s j false).resolving = [] ∧ (after s j false).working = [] then (after s j false).fail
    else { after s j false with cancel := .requested } := by
  cases j <;> rfl

/-- The single project of a command that takes only one. -/
theorem single_nil {es : List Ev} {s : State} (h : Base u es s) (h1 : u.configs.length = 1) (j : Job)
    (ok : Bool) (hr : Running es s.out j) :
    (after s j ok).resolving = [] ∧ (after s j ok).working = [] := by
  cases j with
  | resolve i =>
    have hi := (h.run_r i).2 hr
    obtain ⟨_, _, a, _⟩ := resolve_alone h hi
    refine ⟨?_, a⟩
    show s.resolving.erase i = []
    rw [List.eq_nil_iff_forall_not_mem]
    intro k hk
    rw [List.Nodup.mem_erase_iff h.nd_r] at hk
    have h2 := h.rstart k ((h.run_r k).1 hk.2).1
    have h3 := h.rstart i hr.1
    exact hk.1 (by omega)
  | work i =>
    have hi := (h.run_w i).2 hr
    obtain ⟨a, _⟩ := work_alone h hi
    refine ⟨a, ?_⟩
    show s.working.erase i = []
    rw [List.eq_nil_iff_forall_not_mem]
    intro k hk
    rw [List.Nodup.mem_erase_iff h.nd_w] at hk
    have h2 := (h.wstart k ((h.run_w k).1 hk.2).1).1
    have h3 := (h.wstart i hr.1).1
    exact hk.1 (by omega)
  | install =>
    show s.resolving = [] ∧ s.working = []
    exact ⟨no_resolving h (h.istart hr.1).2.1, no_working h hr.1⟩

theorem after_sub (s : State) (j : Job) (ok : Bool) :
    (∀ i ∈ (after s j ok).resolving, i ∈ s.resolving) ∧
    (∀ i ∈ (after s j ok).working, i ∈ s.working) := by
  cases j with
  | resolve i => exact ⟨fun k hk => List.mem_of_mem_erase hk, fun k hk => hk⟩
  | work i => exact ⟨fun k hk => hk, fun k hk => List.mem_of_mem_erase hk⟩
  | install => exact ⟨fun k hk => hk, fun k hk => hk⟩

theorem after_cancel (s : State) (j : Job) (ok : Bool) : (after s j ok).cancel = s.cancel ∧
    (after s j ok).timer = s.timer ∧ (after s j ok).exit = s.exit := by
  cases j <;> exact ⟨rfl, rfl, rfl⟩

theorem after_installing {es : List Ev} {s : State} (h : Base u es s) (j : Job) (ok : Bool)
    (hr : Running es s.out j) : (after s j ok).installing = false := by
  cases j with
  | resolve i => exact (resolve_alone h ((h.run_r i).2 hr)).2.2.2
  | work i => exact (work_alone h ((h.run_w i).2 hr)).2.2
  | install => rfl

theorem inv_failed {es : List Ev} {s : State} (h : Inv u es s) (hx : s.exit = none) (j : Job)
    (hr : Running es s.out j) :
    Inv u (es ++ [.finished j false]) (step u s (.finished j false)) := by
  have hl := h.live hx
  have hb := base_after h.base j false hr
  have hF : Failed (es ++ [.finished j false]) := ⟨j, by simp⟩
  obtain ⟨a1, a2, a3⟩ := after_cancel s j false
  show Inv u _ (finished u s j false)
  rw [finished_false]
  by_cases hnil : (after s j false).resolving = [] ∧ (after s j false).working = []
  · rw [if_pos hnil]
    refine ⟨base_same hb rfl rfl rfl rfl rfl, (by intro hh; cases hh), ?_⟩
    intro c hc
    cases hc
    refine ⟨hnil.1, hnil.2, ?_, by simp, fun _ hn => absurd hF hn⟩
    intro hi
    have : (after s j false).installing = true := hi
    rw [after_installing h.base j false hr] at this
    cases this
  · rw [if_neg hnil]
    refine ⟨base_same hb rfl rfl rfl rfl rfl, ?_, ?_⟩
    · intro _
      refine ⟨fun hh => (by cases hh), fun _ hh => (by cases hh), ?_, ?_, ?_, fun hh => (by cases hh),
        fun _ => Or.inl hF, fun _ hn => absurd hF hn⟩
      · by_cases h1 : (after s j false).resolving = []
        · exact Or.inr (Or.inl fun h2 => hnil ⟨h1, h2⟩)
        · exact Or.inl h1
      · intro hs
        exact absurd (single_nil h.base (hl.single hs).1 j false hr) hnil
      · intro _
        by_cases ht : s.timer = true
        · left
          exact ⟨by show (after s j false).timer = true; rw [a2]; exact ht, rfl⟩
        · right
          have hc : s.cancel ≠ .none := fun hc => ht (hl.timer hc)
          rcases hl.stopped hc with h' | ⟨h1, h2⟩
          · exact absurd h'.1 ht
          · obtain ⟨s1, s2⟩ := after_sub s j false
            refine ⟨?_, ?_⟩
            · intro i hi
              show _ ∈ (after s j false).out
              rw [after_out]
              exact h1 i (s1 i hi)
            · intro i hi
              show _ ∈ (after s j false).out
              rw [after_out]
              exact h2 i (s2 i hi)
    · intro c hc
      have : (after s j false).exit = some c := hc
      rw [a3, hx] at this
      cases this

/-! ## Jobs that succeed -/

/-- A job has succeeded and others of the same kind are still running. -/
theorem inv_more {es : List Ev} {s : State} (h : Inv u es s) (hx : s.exit = none) (j : Job)
    (hr : Running es s.out j)
    (hm : (after s j true).resolving ≠ [] ∨ (after s j true).working ≠ []) :
    Inv u (es ++ [.finished j true]) (after s j true) := by
  have hl := h.live hx
  obtain ⟨a1, a2, a3⟩ := after_cancel s j true
  refine ⟨base_after h.base j true hr, ?_, ?_⟩
  · intro _
    refine ⟨?_, ?_, ?_, ?_, ?_, ?_, ?_, ?_⟩
    · rw [a1, after_out]; exact hl.launched
    · rw [failed_true, interrupt_fin, a1]; exact hl.canceled
    · rcases hm with hm | hm
      · exact Or.inl hm
      · exact Or.inr (Or.inl hm)
    · rw [failed_true]; exact hl.single
    · rw [a1, a2, after_out]
      intro hc
      rcases hl.stopped hc with h' | ⟨h1, h2⟩
      · exact Or.inl h'
      · obtain ⟨s1, s2⟩ := after_sub s j true
        exact Or.inr ⟨fun i hi => h1 i (s1 i hi), fun i hi => h2 i (s2 i hi)⟩
    · rw [a1, a2]; exact hl.timer
    · rw [a1, failed_true, interrupt_fin, after_out]; exact hl.why
    · rw [a1, failed_true, interrupt_fin]; exact hl.good
  · intro c hc
    rw [a3, hx] at hc
    cases hc

/-- What is known when all projects have been resolved and nobody has interrupted. -/
structure Resolved (u : Setup) (es : List Ev) (s : State) : Prop where
  base : Base u es s
  all : AllResolved u es
  cancel : s.cancel = .none
  exit : s.exit = none
  ok : ¬ Failed es
  interrupt : Ev.interrupt ∉ es
  nowork : ∀ k, ¬ Started s.out (.work k)
  noinst : ¬ Started s.out .install
  working : s.working = []
  installing : s.installing = false
  projects : s.projects ≠ []
  timer : s.timer = true
  single : u.cmd.single = true → u.configs.length = 1

theorem Resolved.resolving {es : List Ev} {s : State} (h : Resolved u es s) : s.resolving = [] :=
  no_resolving h.base h.all

theorem Resolved.inv_fail {es : List Ev} {s : State} (h : Resolved u es s)
    (hg : Sound u → False) : Inv u es s.fail := by
  refine ⟨base_same h.base rfl rfl rfl rfl rfl, (by intro hh; cases hh), ?_⟩
  intro c hc
  cases hc
  refine ⟨h.resolving, h.working, ?_, by simp, fun hs => (hg hs).elim⟩
  intro hi
  have : s.installing = true := hi
  rw [h.installing] at this
  cases this

/-- The end right after resolving. -/
theorem Resolved.inv_exit {es : List Ev} {s : State} (h : Resolved u es s) (x : List Effect) (c : Nat)
    (hx : ∀ e ∈ x, e.starts = none ∧ e ≠ .generate ∧ e ≠ .run)
    (hn : NamesOk u ∨ u.cmd = .resolve ∨ u.cmd.ownCode = true) (hw : ¬ Works u) (hi : u.cmd ≠ .install)
    (he : Sound u → c = expected u) :
    Inv u es { s with exit := some c, out := s.out ++ x } := by
  refine ⟨?_, (by intro hh; cases hh), ?_⟩
  · have := base_out h.base x (fun e he => (hx e he).1) (fun hm => absurd rfl (hx _ hm).2.1)
      (fun hm => absurd rfl (hx _ hm).2.2)
    exact base_same this rfl rfl rfl rfl rfl
  · intro c' hc
    cases hc
    refine ⟨h.resolving, h.working, ?_, ?_, fun hs _ _ => he hs⟩
    · intro hh
      have : s.installing = true := hh
      rw [h.installing] at this
      cases this
    · intro _ ho
      refine ⟨h.ok, h.all, fun hh => absurd hh hw, fun hh => absurd hh hi, fun _ => h.interrupt,
        fun hh => h.interrupt (early_mem hh), ?_⟩
      rcases hn with hn | hn | hn
      · exact Or.inl hn
      · exact Or.inr hn
      · rw [hn] at ho; cases ho

/-- The next phase has begun. -/
theorem Resolved.inv_next {es : List Ev} {s : State} (h : Resolved u es s) (s' : State)
    (hb : Base u es s') (h1 : s'.exit = none) (h2 : s'.cancel = .none) (h3 : s'.timer = s.timer)
    (h4 : s'.working ≠ [] ∨ s'.installing = true) : Inv u es s' := by
  refine ⟨hb, ?_, by intro c hc; rw [h1] at hc; cases hc⟩
  intro _
  refine ⟨?_, ?_, Or.inr h4, fun hs => ⟨h.single hs, h.ok⟩, fun hc => absurd h2 hc,
    fun _ => h3.trans h.timer, fun hc => absurd h2 hc, fun _ _ _ => h2⟩
  · intro _ i hi
    exact hb.fin _ _ (h.all i hi)
  · rintro (hf | hf)
    · exact absurd hf h.ok
    · exact absurd hf h.interrupt

theorem Resolved.names_iff {es : List Ev} {s : State} (h : Resolved u es s) (hn : unknownName u s = true) :
    Sound u → False := by
  intro hs
  rw [unknown_of h.base h.all hs.names] at hn
  cases hn

theorem jobsFor_head {es : List Ev} {s : State} (h : Base u es s) (hne : s.projects ≠ []) (i : Nat) :
    ∃ k, k < u.configs.length ∧ jobsFor u s i = jobsFor u { projects := [k] } i :=
  ⟨_, head_lt h hne, rfl⟩

theorem Resolved.inv_build {es : List Ev} {s : State} (h : Resolved u es s) (hw : Works u) :
    Inv u es (build u s) := by
  unfold build
  by_cases hn : unknownName u s = true
  · rw [if_pos hn]
    exact h.inv_fail (h.names_iff hn)
  · rw [if_neg hn]
    have hn' : unknownName u s = false := by simpa using hn
    refine h.inv_next _ (base_work h.base hw hn' h.all h.interrupt h.nowork h.noinst h.projects _ ?_ ?_ ?_)
      h.exit h.cancel rfl (Or.inl h.projects)
    · intro i; rfl
    · intro i k sel jobs he
      cases he
      exact ⟨rfl, rfl, jobsFor_head h.base h.projects i⟩
    · intro i k sel he
      cases he

theorem Resolved.inv_clean {es : List Ev} {s : State} (h : Resolved u es s) (hc : u.cmd = .clean) :
    Inv u es (makeClean u s) := by
  unfold makeClean
  by_cases hn : unknownName u s = true
  · rw [if_pos hn]
    exact h.inv_fail (h.names_iff hn)
  · rw [if_neg hn]
    have hn' : unknownName u s = false := by simpa using hn
    refine h.inv_next _ (base_work h.base (Or.inr (Or.inl hc)) hn' h.all h.interrupt h.nowork h.noinst
      h.projects _ ?_ ?_ ?_) h.exit h.cancel rfl (Or.inl h.projects)
    · intro i; rfl
    · intro i k sel jobs he
      cases he
    · intro i k sel he
      cases he
      exact ⟨rfl, rfl, hc⟩

theorem Resolved.inv_install {es : List Ev} {s : State} (h : Resolved u es s) (hc : u.cmd.installs)
    (hbf : u.buildFirst ≠ true) : Inv u es (install u s) := by
  unfold install
  by_cases hn : unknownName u s = true
  · rw [if_pos hn]
    exact h.inv_fail (h.names_iff hn)
  · rw [if_neg hn]
    have hn' : unknownName u s = false := by simpa using hn
    exact h.inv_next _ (base_install h.base hc hn' h.all (fun he => h.interrupt (early_mem he))
      (fun hh => absurd hh hbf) h.noinst h.projects) h.exit h.cancel rfl (Or.inr rfl)

theorem code_eq (s : State) (o : Option Nat) : State.code s o = { s with exit := some (o.getD 1) } := by
  cases o <;> rfl

theorem Resolved.inv {es : List Ev} {s : State} (h : Resolved u es s) :
    Inv u es (projectsResolved u s) := by
  unfold projectsResolved
  rw [if_neg (fun hh => hh h.cancel)]
  have nw : ∀ {c : Cmd}, u.cmd = c → c ≠ .build → c ≠ .clean → c ≠ .generate → c ≠ .install →
      c ≠ .run → ¬ Works u := by
    intro c hc h1 h2 h3 h4 h5 hw
    unfold Works at hw
    rw [hc] at hw
    rcases hw with hw | hw | hw | ⟨hw | hw, _⟩
    · exact h1 hw
    · exact h2 hw
    · exact h3 hw
    · exact h4 hw
    · exact h5 hw
  have same : ∀ c : Nat, ({ s with exit := some c } : State) = { s with exit := some c, out := s.out ++ [] } := by
    intro c; rw [List.append_nil]
  cases hc : u.cmd with
  | resolve =>
    simp only
    rw [same]
    exact h.inv_exit [] 0 (by simp) (Or.inr (Or.inl hc)) (nw hc (by simp) (by simp) (by simp) (by simp) (by simp))
      (by rw [hc]; simp) (fun _ => by unfold expected; rw [hc])
  | clean => exact h.inv_clean hc
  | shell =>
    simp only
    by_cases hn : unknownName u s = true
    · rw [if_pos hn]; exact h.inv_fail (h.names_iff hn)
    · rw [if_neg hn, code_eq]
      exact h.inv_exit [.shell] _ (by simp [Effect.starts]) (Or.inr (Or.inr (by rw [hc]; rfl)))
        (nw hc (by simp) (by simp) (by simp) (by simp) (by simp)) (by rw [hc]; simp)
        (fun _ => by unfold expected; rw [hc])
  | status =>
    simp only
    rw [code_eq]
    exact h.inv_exit [.status] _ (by simp [Effect.starts]) (Or.inr (Or.inr (by rw [hc]; rfl)))
      (nw hc (by simp) (by simp) (by simp) (by simp) (by simp)) (by rw [hc]; simp)
      (fun _ => by unfold expected; rw [hc]; rfl)
  | generate =>
    simp only
    by_cases hg : u.generatorOk = true
    · rw [if_pos hg]; exact h.inv_build (Or.inr (Or.inr (Or.inl hc)))
    · rw [if_neg hg]; exact h.inv_fail (fun hs => hg (hs.generator hc).1)
  | build => exact h.inv_build (Or.inl hc)
  | install =>
    simp only
    by_cases hb : u.buildFirst = true
    · rw [if_pos hb]; exact h.inv_build (Or.inr (Or.inr (Or.inr ⟨Or.inl hc, hb⟩)))
    · rw [if_neg hb]; exact h.inv_install (Or.inl hc) hb
  | run =>
    simp only
    by_cases hb : u.buildFirst = true
    · rw [if_pos hb]; exact h.inv_build (Or.inr (Or.inr (Or.inr ⟨Or.inr hc, hb⟩)))
    · rw [if_neg hb]; exact h.inv_install (Or.inr hc) hb
  | updateTimestamps =>
    simp only
    by_cases hn : unknownName u s = true
    · rw [if_pos hn]; exact h.inv_fail (h.names_iff hn)
    · rw [if_neg hn]
      exact h.inv_exit [.updateTimestamps _] 0 (by simp [Effect.starts])
        (Or.inl (namesOk_of h.base (by simpa using hn)))
        (nw hc (by simp) (by simp) (by simp) (by simp) (by simp)) (by rw [hc]; simp)
        (fun _ => by unfold expected; rw [hc])
  | dumpNodesTree =>
    simp only
    by_cases hn : unknownName u s = true
    · rw [if_pos hn]; exact h.inv_fail (h.names_iff hn)
    · rw [if_neg hn]
      by_cases hd : u.dumpOk = true
      · rw [if_pos hd]
        exact h.inv_exit [.dump] 0 (by simp [Effect.starts])
          (Or.inl (namesOk_of h.base (by simpa using hn)))
          (nw hc (by simp) (by simp) (by simp) (by simp) (by simp)) (by rw [hc]; simp)
          (fun _ => by unfold expected; rw [hc])
      · rw [if_neg hd]; exact h.inv_fail (fun hs => hd (hs.dump hc))
  | listProducts =>
    simp only
    by_cases hn : unknownName u s = true
    · rw [if_pos hn]; exact h.inv_fail (h.names_iff hn)
    · rw [if_neg hn]
      exact h.inv_exit [.list] 0 (by simp [Effect.starts])
        (Or.inl (namesOk_of h.base (by simpa using hn)))
        (nw hc (by simp) (by simp) (by simp) (by simp) (by simp)) (by rw [hc]; simp)
        (fun _ => by unfold expected; rw [hc])

theorem inv_resolved {es : List Ev} {s : State} (h : Inv u es s) (hx : s.exit = none) (i : Nat)
    (hr : Running es s.out (.resolve i)) :
    Inv u (es ++ [.finished (.resolve i) true]) (step u s (.finished (.resolve i) true)) := by
  have hl := h.live hx
  have hi := (h.base.run_r i).2 hr
  obtain ⟨h1, h2, h3, h4⟩ := resolve_alone h.base hi
  have hb := base_after h.base (.resolve i) true hr
  have heq : step u s (.finished (.resolve i) true) =
      if (after s (.resolve i) true).resolving = [] then projectsResolved u (after s (.resolve i) true)
      else after s (.resolve i) true := rfl
  rw [heq]
  by_cases hnil : (after s (.resolve i) true).resolving = []
  · rw [if_pos hnil]
    by_cases hc : s.cancel = .none
    · apply Resolved.inv
      have hok : ¬ Failed es := fun hf => hl.canceled (Or.inl hf) hc
      refine ⟨hb, ?_, hc, hx, ?_, ?_, h1, h2, h3, h4, ?_, hl.timer hc, fun hs => (hl.single hs).1⟩
      · intro k hk
        have hst := hl.launched hc k hk
        have hnr : ¬ Running (es ++ [.finished (.resolve i) true]) s.out (.resolve k) := by
          intro hh
          have := (hb.run_r k).2 hh
          rw [hnil] at this
          cases this
        by_cases hm : Ev.finished (.resolve k) true ∈ es ++ [.finished (.resolve i) true]
        · exact hm
        · exfalso
          apply hnr
          refine ⟨hst, fun ok hk' => ?_⟩
          cases ok with
          | true => exact hm hk'
          | false =>
            exact (failed_true.1 ⟨_, hk'⟩ : Failed es) |> hok
      · rw [failed_true]; exact hok
      · rw [interrupt_fin]; exact fun hh => hl.canceled (Or.inr hh) hc
      · show s.projects ++ [i] ≠ []
        simp
    · have : projectsResolved u (after s (.resolve i) true) = (after s (.resolve i) true).fail := by
        unfold projectsResolved
        exact if_pos hc
      rw [this]
      refine ⟨base_same hb rfl rfl rfl rfl rfl, (by intro hh; cases hh), ?_⟩
      intro c hcc
      cases hcc
      refine ⟨hnil, h3, ?_, by simp, ?_⟩
      · intro hh
        have : s.installing = true := hh
        rw [h4] at this
        cases this
      · intro a b c
        rw [failed_true] at b
        rw [interrupt_fin] at c
        exact absurd (hl.good a b c) hc
  · rw [if_neg hnil]
    exact inv_more h hx _ hr (Or.inl hnil)

theorem inv_installed {es : List Ev} {s : State} (h : Inv u es s) (hx : s.exit = none)
    (hr : Running es s.out .install) :
    Inv u (es ++ [.finished .install true]) (step u s (.finished .install true)) := by
  have hl := h.live hx
  have hb := base_after h.base .install true hr
  obtain ⟨c1, c2, c3, c4, c5⟩ := hb.istart hr.1
  have hs1 := hl.single (single_of_installs c1)
  have hn1 : s.resolving = [] := no_resolving h.base (h.base.istart hr.1).2.1
  have hn2 : s.working = [] := no_working h.base hr.1
  have heq : step u s (.finished .install true) =
      if u.cmd = .run then State.code { after s .install true with out := s.out ++ [.run] } u.runCode
      else { after s .install true with exit := some 0 } := rfl
  rw [heq]
  by_cases hrun : u.cmd = .run
  · rw [if_pos hrun, code_eq]
    refine ⟨?_, (by intro hh; cases hh), ?_⟩
    · have := base_out hb [.run] (by simp [Effect.starts]) (by simp)
        (fun _ => ⟨hrun, by simp⟩)
      exact base_same this rfl rfl rfl rfl rfl
    · intro c hc
      cases hc
      refine ⟨hn1, hn2, (fun hh => by cases hh), ?_, ?_⟩
      · intro _ ho; rw [hrun] at ho; cases ho
      · intro _ _ _; unfold expected; rw [hrun]
  · rw [if_neg hrun]
    have hin : u.cmd = .install := by
      rcases c1 with c | c
      · exact c
      · exact absurd c hrun
    refine ⟨base_same hb rfl rfl rfl rfl rfl, (by intro hh; cases hh), ?_⟩
    intro c hc
    cases hc
    refine ⟨hn1, hn2, (fun hh => by cases hh), ?_, ?_⟩
    · intro _ _
      refine ⟨?_, c2, ?_, fun _ => by simp, fun hni => absurd c1 hni, c4, Or.inl c3⟩
      · rw [failed_true]; exact hs1.2
      · intro hw k hk
        have hbf : u.buildFirst = true := by
          rcases hw with hw | hw | hw | hw
          · rw [hin] at hw; cases hw
          · rw [hin] at hw; cases hw
          · rw [hin] at hw; cases hw
          · exact hw.2
        obtain ⟨ok, hok⟩ := c5 hbf k hk
        cases ok with
        | true => exact hok
        | false => exact absurd (failed_true.1 ⟨_, hok⟩) hs1.2
    · intro _ _ _; unfold expected; rw [hin]

theorem inv_worked {es : List Ev} {s : State} (h : Inv u es s) (hx : s.exit = none) (i : Nat)
    (hr : Running es s.out (.work i)) :
    Inv u (es ++ [.finished (.work i) true]) (step u s (.finished (.work i) true)) := by
  have hl := h.live hx
  have hi := (h.base.run_w i).2 hr
  obtain ⟨h1, h2, h3⟩ := work_alone h.base hi
  have hb := base_after h.base (.work i) true hr
  obtain ⟨w1, w2, w3, w4, w5, w6⟩ := hb.wstart i hr.1
  have heq : step u s (.finished (.work i) true) =
      if (after s (.work i) true).working = [] then workDone u (after s (.work i) true)
      else after s (.work i) true := rfl
  rw [heq]
  by_cases hnil : (after s (.work i) true).working = []
  case neg =>
    rw [if_neg hnil]
    exact inv_more h hx _ hr (Or.inr hnil)
  rw [if_pos hnil]
  have hany : ∀ k, k < u.configs.length →
      ∃ ok, Ev.finished (.work k) ok ∈ es ++ [.finished (.work i) true] := by
    intro k hk
    have hnr : ¬ Running (es ++ [.finished (.work i) true]) s.out (.work k) := by
      intro hh
      have := (hb.run_w k).2 hh
      rw [hnil] at this
      cases this
    by_cases hm : ∃ ok, Ev.finished (.work k) ok ∈ es ++ [.finished (.work i) true]
    · exact hm
    · exact absurd ⟨w6 k hk, fun ok hh => hm ⟨ok, hh⟩⟩ hnr
  have hwork : s.cancel = .none → AllWorked u (es ++ [.finished (.work i) true]) := by
    intro hc k hk
    obtain ⟨ok, hok⟩ := hany k hk
    cases ok with
    | true => exact hok
    | false => exact absurd hc (hl.canceled (Or.inl (failed_true.1 ⟨_, hok⟩)))
  -- the last step of `build`, `clean` and `generate`
  have last : ∀ x : List Effect, (∀ e ∈ x, e = .generate ∧ u.cmd = .generate) → ¬ u.cmd.installs →
      Inv u (es ++ [.finished (.work i) true])
        { after s (.work i) true with
          out := s.out ++ x
          exit := some (if s.cancel = .none then 0 else 1) } := by
    intro x hxx hni
    refine ⟨?_, (by intro hh; cases hh), ?_⟩
    · have := base_out hb x (fun e he => by rw [(hxx e he).1]; rfl)
        (fun hm => ⟨(hxx _ hm).2, hany⟩) (fun hm => by have := (hxx _ hm).1; cases this)
      exact base_same this rfl rfl rfl rfl rfl
    · intro c hc
      have hc : (if s.cancel = .none then 0 else 1) = c := by simpa using hc
      subst hc
      refine ⟨h1, hnil, ?_, ?_, ?_⟩
      · intro hh
        have : s.installing = true := hh
        rw [h3] at this
        cases this
      · intro h0 ho
        have hcn : s.cancel = .none := by
          by_cases hcn : s.cancel = .none
          · exact hcn
          · rw [if_neg hcn] at h0; cases h0
        refine ⟨?_, w2, fun _ => hwork hcn, fun hh => absurd (Or.inl hh) hni, fun _ => ?_, w5,
          Or.inl w4⟩
        · rw [failed_true]; exact fun hf => hl.canceled (Or.inl hf) hcn
        · rw [interrupt_fin]; exact fun hf => hl.canceled (Or.inr hf) hcn
      · intro a b c
        rw [failed_true] at b
        rw [interrupt_fin] at c
        rw [if_pos (hl.good a b c)]
        unfold expected
        rcases w3 with hw | hw | hw | hw
        · rw [hw]
        · rw [hw]
        · rw [hw]
        · exact absurd hw.1 hni
  have last0 : ¬ u.cmd.installs → Inv u (es ++ [.finished (.work i) true])
        { after s (.work i) true with exit := some (if s.cancel = .none then 0 else 1) } := by
    intro hni
    have := last [] (by simp) hni
    rw [List.append_nil] at this
    exact this
  -- installation after the build
  have inst : u.cmd.installs → Inv u (es ++ [.finished (.work i) true])
      (install u (after s (.work i) true)) := by
    intro hins
    unfold install
    rw [if_neg (by rw [unknown_of hb w2 w4]; simp)]
    have hne : (after s (.work i) true).projects ≠ [] := by
      have := (hb.proj i).2 (w2 i w1)
      intro hh
      rw [hh] at this
      cases this
    have hB := base_install hb hins (unknown_of hb w2 w4) w2 w5 (fun _ => hany) h2 hne
    refine ⟨hB, ?_, ?_⟩
    · intro _
      refine ⟨?_, ?_, Or.inr (Or.inr rfl), ?_, ?_, hl.timer, ?_, ?_⟩
      · intro _ k hk
        exact hB.fin _ _ (w2 k hk)
      · rw [failed_true, interrupt_fin]; exact hl.canceled
      · rw [failed_true]; exact hl.single
      · intro hc
        right
        refine ⟨?_, ?_⟩
        · intro k hk
          have : k ∈ s.resolving := hk
          rw [h1] at this
          cases this
        · intro k hk
          have : k ∈ (after s (.work i) true).working := hk
          rw [hnil] at this
          cases this
      · rw [failed_true, interrupt_fin]
        intro hc
        rcases hl.why hc with hf | hf | ⟨k, hk, hn⟩
        · exact Or.inl hf
        · exact Or.inr (Or.inl hf)
        · exact absurd (h.base.fin _ _ ((h.base.wstart i hr.1).2.1 k hk)) hn
      · rw [failed_true, interrupt_fin]; exact hl.good
    · intro c hc
      have : s.exit = some c := hc
      rw [hx] at this
      cases this
  unfold workDone
  have ni : ∀ {c : Cmd}, u.cmd = c → c ≠ .run → c ≠ .install → ¬ u.cmd.installs := by
    intro c hc a b hh
    unfold Cmd.installs at hh
    rw [hc] at hh
    exact hh.elim b a
  cases hc : u.cmd with
  | run => exact inst (Or.inr hc)
  | install => exact inst (Or.inl hc)
  | generate =>
    simp only
    by_cases hg : u.generateOk = true
    · rw [if_pos hg]
      exact last [.generate] (by intro e he; rw [List.mem_singleton] at he; exact ⟨he, hc⟩)
        (ni hc (by simp) (by simp))
    · rw [if_neg hg]
      refine ⟨base_same hb rfl rfl rfl rfl rfl, (by intro hh; cases hh), ?_⟩
      intro c hcc
      cases hcc
      refine ⟨h1, hnil, ?_, by simp, fun hs => absurd (hs.generator hc).2 hg⟩
      intro hh
      have : s.installing = true := hh
      rw [h3] at this
      cases this
  | build => exact last0 (ni hc (by simp) (by simp))
  | clean => exact last0 (ni hc (by simp) (by simp))
  | resolve => exact last0 (ni hc (by simp) (by simp))
  | shell => exact last0 (ni hc (by simp) (by simp))
  | status => exact last0 (ni hc (by simp) (by simp))
  | updateTimestamps => exact last0 (ni hc (by simp) (by simp))
  | dumpNodesTree => exact last0 (ni hc (by simp) (by simp))
  | listProducts => exact last0 (ni hc (by simp) (by simp))

theorem inv_hist (hne : u.configs ≠ []) {es : List Ev} {s : State} (h : Hist u es s) :
    Inv u es s := by
  induction h with
  | start => exact inv_start hne
  | @step es s e _ hx hr ih =>
    cases e with
    | interrupt => exact inv_interrupt ih hx
    | tick => exact inv_tick ih hx
    | finished j ok =>
      have hrun := hr j ok rfl
      cases ok with
      | false => exact inv_failed ih hx j hrun
      | true =>
        cases j with
        | resolve i => exact inv_resolved ih hx i hrun
        | work i => exact inv_worked ih hx i hrun
        | install => exact inv_installed ih hx hrun

/-! ## C100: the exit code -/

/-- **C100, part.** The exit code is 0 only if no job has failed, all projects have been resolved,
and, if the command builds or cleans, every one of them has been built or cleaned, and installed if
it installs; nobody interrupted before the last project was resolved, and nobody interrupted at all
unless the command installs.  Missing: the last point for commands that install (see
`C100_interrupt_lost`). -/
theorem C100_zero_partial (hne : u.configs ≠ []) {es : List Ev} {s : State} (h : Hist u es s)
    (h0 : s.exit = some 0) (hc : u.cmd.ownCode = false) :
    (∀ j ok, Ev.finished j ok ∈ es → ok = true) ∧
    (∀ k, k < u.configs.length → Ev.finished (.resolve k) true ∈ es) ∧
    (Works u → ∀ k, k < u.configs.length → Ev.finished (.work k) true ∈ es) ∧
    (u.cmd = .install → Ev.finished .install true ∈ es) ∧
    (¬ u.cmd.installs → Ev.interrupt ∉ es) ∧
    (∀ es1 es2, es = es1 ++ es2 → Ev.interrupt ∈ es1 →
      ∀ k, k < u.configs.length → Ev.finished (.resolve k) true ∈ es1) := by
  have hg := ((inv_hist hne h).dead 0 h0).zero rfl hc
  refine ⟨?_, hg.resolved, hg.worked, hg.installed, hg.interrupt, ?_⟩
  · intro j ok hm
    cases ok with
    | true => rfl
    | false => exact absurd ⟨j, hm⟩ hg.ok
  · intro es1 es2 he hi k hk
    by_cases hm : Ev.finished (.resolve k) true ∈ es1
    · exact hm
    · exact absurd ⟨es1, es2, he, hi, k, hk, hm⟩ hg.early

/-- **C100.** If nothing is wrong with the command line, no job fails and nobody interrupts, then
the exit code is 0, or that of the program for `run`, `shell` and `status`. -/
theorem C100_success (hne : u.configs ≠ []) (hs : Sound u) {es : List Ev} {s : State}
    (h : Hist u es s) (hok : ¬ Failed es) (hi : Ev.interrupt ∉ es) (c : Nat) (hx : s.exit = some c) :
    c = match u.cmd with
      | .run => u.runCode.getD 1
      | .shell => u.shellCode.getD 1
      | .status => u.statusCode
      | _ => 0 :=
  ((inv_hist hne h).dead c hx).good hs hok hi

/-- **C100.** The frontend never hangs: as soon as no job runs, it has ended. -/
theorem C100_ends (hne : u.configs ≠ []) {es : List Ev} {s : State} (h : Hist u es s)
    (hr : ∀ j, ¬ Running es s.out j) : s.exit ≠ none := by
  intro hx
  have hi := inv_hist hne h
  rcases (hi.live hx).alive with ha | ha | ha
  · obtain ⟨i, hm⟩ := List.exists_mem_of_ne_nil _ ha
    exact hr _ ((hi.base.run_r i).1 hm)
  · obtain ⟨i, hm⟩ := List.exists_mem_of_ne_nil _ ha
    exact hr _ ((hi.base.run_w i).1 hm)
  · exact hr _ (hi.base.run_i.1 ha)

/-- **C100.** No job is left running at the end, except for the installation if the user has
interrupted. -/
theorem C100_none_left (hne : u.configs ≠ []) {es : List Ev} {s : State} (h : Hist u es s)
    (hx : s.exit ≠ none) (j : Job) (hr : Running es s.out j) :
    j = .install ∧ Ev.interrupt ∈ es := by
  have hi := inv_hist hne h
  cases hc : s.exit with
  | none => exact absurd hc hx
  | some c =>
    have hd := hi.dead c hc
    cases j with
    | resolve i =>
      have := (hi.base.run_r i).2 hr
      rw [hd.resolving] at this
      cases this
    | work i =>
      have := (hi.base.run_w i).2 hr
      rw [hd.working] at this
      cases this
    | install => exact ⟨rfl, hd.installing (hi.base.run_i.2 hr)⟩

/-! ## C101: phases and cancellation -/

/-- **C101.** Nothing is built, cleaned or installed before all projects have been resolved without
interruption; nothing is installed before everything has been built, without an error; and no
program is run before the installation. -/
theorem C101_phases (hne : u.configs ≠ []) {es : List Ev} {s : State} (h : Hist u es s) :
    (∀ i, Started s.out (.work i) →
      ∀ k, k < u.configs.length → Ev.finished (.resolve k) true ∈ es) ∧
    (Started s.out .install → (∀ k, k < u.configs.length → Ev.finished (.resolve k) true ∈ es) ∧
      (u.buildFirst = true → ∀ k, k < u.configs.length → ∃ ok, Ev.finished (.work k) ok ∈ es)) ∧
    (Effect.generate ∈ s.out → ∀ k, k < u.configs.length → ∃ ok, Ev.finished (.work k) ok ∈ es) ∧
    (Effect.run ∈ s.out → Ev.finished .install true ∈ es) := by
  have hb := (inv_hist hne h).base
  exact ⟨fun i hi => (hb.wstart i hi).2.1, fun hi => ⟨(hb.istart hi).2.1, (hb.istart hi).2.2.2.2⟩,
    fun hg => (hb.gen hg).2, fun hr => (hb.ran hr).2⟩

theorem started_same_cancels {out : List Effect} {l m : List Nat} {j : Job}
    (h : Started (out ++ (l.map fun i => Effect.cancel (.resolve i)) ++
      m.map fun i => Effect.cancel (.work i)) j) : Started out j := by
  rw [started_append, started_append] at h
  rcases h with (h | ⟨e, he, hs⟩) | ⟨e, he, hs⟩
  · exact h
  · obtain ⟨i, _, rfl⟩ := List.mem_map.1 he
    simp [Effect.starts] at hs
  · obtain ⟨i, _, rfl⟩ := List.mem_map.1 he
    simp [Effect.starts] at hs

theorem started_one {out : List Effect} {e : Effect} {j : Job}
    (h : Started (out ++ [e]) j) (he : e.starts = none) : Started out j := by
  rw [started_append] at h
  rcases h with h | ⟨e', he', hs⟩
  · exact h
  · rw [List.mem_singleton] at he'
    rw [he', he] at hs
    cases hs

/-- With a cancellation on its way, an event starts nothing but the installation. -/
theorem no_start {s : State} {e : Ev} (hc : s.cancel ≠ .none) {j : Job}
    (hs : Started (step u s e).out j) : Started s.out j ∨ (j = .install ∧ u.cmd.installs) := by
  cases e with
  | interrupt => exact Or.inl hs
  | tick =>
    left
    unfold step at hs
    simp only at hs
    by_cases ht : s.timer = true
    · rw [if_pos ht] at hs
      unfold checkCancel at hs
      split at hs
      · exact hs
      · exact hs
      · split at hs
        · exact hs
        · exact started_same_cancels hs
    · rw [if_neg ht] at hs
      exact hs
  | finished j' ok =>
    cases ok with
    | false =>
      left
      rw [show step u s (.finished j' false) = finished u s j' false from rfl, finished_false] at hs
      split at hs <;> (cases j' <;> exact hs)
    | true =>
      cases j' with
      | resolve i =>
        left
        have heq : step u s (.finished (.resolve i) true) =
          if (after s (.resolve i) true).resolving = [] then
            projectsResolved u (after s (.resolve i) true)
          else after s (.resolve i) true := rfl
        rw [heq] at hs
        split at hs
        · unfold projectsResolved at hs
          have : (after s (.resolve i) true).cancel ≠ .none := hc
          rw [if_pos this] at hs
          exact hs
        · exact hs
      | install =>
        left
        have heq : step u s (.finished .install true) =
          if u.cmd = .run then State.code { after s .install true with out := s.out ++ [.run] } u.runCode
          else { after s .install true with exit := some 0 } := rfl
        rw [heq] at hs
        split at hs
        · rw [code_eq] at hs
          exact started_one hs rfl
        · exact hs
      | work i =>
        have heq : step u s (.finished (.work i) true) =
          if (after s (.work i) true).working = [] then workDone u (after s (.work i) true)
          else after s (.work i) true := rfl
        rw [heq] at hs
        split at hs
        · have hin : Started (install u (after s (.work i) true)).out j →
              Started s.out j ∨ j = .install := by
            intro hs
            unfold install at hs
            split at hs
            · exact Or.inl hs
            · rcases started_append.1 hs with h | ⟨e, he, hj⟩
              · exact Or.inl h
              · rw [List.mem_singleton] at he
                subst he
                simp only [Effect.starts, Option.some.injEq] at hj
                exact Or.inr hj.symm
          unfold workDone at hs
          cases hcmd : u.cmd with
          | run => rw [hcmd] at hs; exact (hin hs).imp_right fun h => ⟨h, Or.inr rfl⟩
          | install => rw [hcmd] at hs; exact (hin hs).imp_right fun h => ⟨h, Or.inl rfl⟩
          | generate =>
            left
            rw [hcmd] at hs
            simp only at hs
            split at hs
            · exact started_one hs rfl
            · exact hs
          | _ => left; rw [hcmd] at hs; exact hs
        · exact Or.inl hs

theorem not_none_of_fail {es : List Ev} {s : State} (h : Inv u es s) (hx : s.exit = none)
    (hf : Failed es ∨ Ev.interrupt ∈ es) : s.cancel ≠ .none := (h.live hx).canceled hf

/-- An event that is itself a failure or an interrupt starts nothing. -/
theorem own_start {s : State} {e : Ev} {j : Job} (he : (∃ j, e = .finished j false) ∨ e = .interrupt)
    (hs : Started (step u s e).out j) : Started s.out j := by
  rcases he with ⟨j', rfl⟩ | rfl
  · rw [show step u s (.finished j' false) = finished u s j' false from rfl, finished_false] at hs
    split at hs <;> (cases j' <;> exact hs)
  · exact hs

/-- **C101.** After a job has failed, no job is started. -/
theorem C101_failed_starts_nothing (hne : u.configs ≠ []) {es : List Ev} {s : State} {e : Ev}
    (h : Hist u es s) (hx : s.exit = none) (hf : Failed (es ++ [e])) (j : Job)
    (hs : Started (step u s e).out j) : Started s.out j := by
  have hi := inv_hist hne h
  obtain ⟨j', hm⟩ := hf
  rcases List.mem_append.1 hm with hm | hm
  · rcases no_start ((hi.live hx).canceled (Or.inl ⟨j', hm⟩)) hs with hs | ⟨_, hins⟩
    · exact hs
    · exact absurd ⟨j', hm⟩ ((hi.live hx).single (single_of_installs hins)).2
  · rw [List.mem_singleton] at hm
    exact own_start (Or.inl ⟨j', hm.symm⟩) hs

/-- **C101, part.** After the user has interrupted, no job is started.  Missing: the installation
(see `C101_installs_anyway`). -/
theorem C101_interrupted_partial (hne : u.configs ≠ []) {es : List Ev} {s : State} {e : Ev}
    (h : Hist u es s) (hx : s.exit = none) (hf : Ev.interrupt ∈ es ++ [e]) (j : Job)
    (hj : j = .install → ¬ u.cmd.installs)
    (hs : Started (step u s e).out j) : Started s.out j := by
  have hi := inv_hist hne h
  rcases List.mem_append.1 hf with hm | hm
  · rcases no_start ((hi.live hx).canceled (Or.inr hm)) hs with hs | ⟨a, b⟩
    · exact hs
    · exact absurd b (hj a)
  · rw [List.mem_singleton] at hm
    exact own_start (Or.inr hm.symm) hs

/-- **C101.** When the timer fires after a failure or an interrupt, the frontend ends, or all jobs
that resolve, build or clean have been told to stop. -/
theorem C101_cancels (hne : u.configs ≠ []) {es : List Ev} {s : State} (h : Hist u es s)
    (hx : s.exit = none) (hf : Failed es ∨ Ev.interrupt ∈ es) :
    (step u s .tick).exit ≠ none ∨
    ∀ j, j ≠ .install → Running (es ++ [.tick]) (step u s .tick).out j →
      Effect.cancel j ∈ (step u s .tick).out := by
  have hi := inv_hist hne h
  have hi' := inv_hist hne (Hist.step .tick h hx (by intro j ok hh; cases hh))
  by_cases hx' : (step u s .tick).exit = none
  · right
    have hl := hi.live hx
    have hl' := hi'.live hx'
    have hf' : Failed (es ++ [.tick]) ∨ Ev.interrupt ∈ es ++ [.tick] := by
      rcases hf with ⟨j, hj⟩ | hf
      · exact Or.inl ⟨j, List.mem_append_left _ hj⟩
      · exact Or.inr (List.mem_append_left _ hf)
    rcases hl'.stopped (hl'.canceled hf') with ⟨ht, hc⟩ | ⟨hr, hw⟩
    · exfalso
      unfold step at ht hc
      simp only at ht hc
      by_cases htt : s.timer = true
      · rw [if_pos htt] at ht hc
        unfold checkCancel at ht hc
        have hn := hl.canceled hf
        split at hc
        · rename_i hcn; exact hn hcn
        · rename_i hcn; rw [hcn] at hc; cases hc
        · split at hc <;> cases hc
      · rw [if_neg htt] at ht
        exact htt ht
    · intro j hj hrun
      cases j with
      | resolve i => exact hr i ((hi'.base.run_r i).2 hrun)
      | work i => exact hw i ((hi'.base.run_w i).2 hrun)
      | install => exact absurd rfl hj
  · exact Or.inl hx'

/-- Nothing is cancelled between the two. -/
structure Calm (s t : State) : Prop where
  timer : t.timer = s.timer
  cancel : t.cancel = s.cancel ∨ t.cancel = .requested
  out : ∀ j, Effect.cancel j ∈ t.out → Effect.cancel j ∈ s.out

theorem Calm.same {s t : State} (h1 : t.timer = s.timer) (h2 : t.cancel = s.cancel) (h3 : t.out = s.out) : Calm s t :=
  ⟨h1, .inl h2, fun _ h => h3 ▸ h⟩

theorem Calm.add {s t : State} (l : List Effect) (hl : ∀ j, Effect.cancel j ∉ l) (h1 : t.timer = s.timer)
    (h2 : t.cancel = s.cancel) (h3 : t.out = s.out ++ l) : Calm s t := by
  refine ⟨h1, .inl h2, fun j h => ?_⟩
  rw [h3] at h
  exact (List.mem_append.mp h).resolve_right (hl j)

theorem Calm.trans {r s t : State} (h : Calm r s) (h' : Calm s t) : Calm r t := by
  refine ⟨h'.timer.trans h.timer, ?_, fun j hj => h.out j (h'.out j hj)⟩
  rcases h'.cancel with e | e
  · rw [e]; exact h.cancel
  · exact .inr e

theorem Calm.trans' {r s t : State} (h' : Calm s t) (h : Calm r s) : Calm r t := h.trans h'

theorem calm_code (s : State) (c : Option Nat) : Calm s (s.code c) := by
  cases c <;> exact .same rfl rfl rfl

theorem calm_build (s : State) : Calm s (build u s) := by
  unfold build
  split
  · exact .same rfl rfl rfl
  · exact .add _ (by intro j; simp) rfl rfl rfl

theorem calm_clean (s : State) : Calm s (makeClean u s) := by
  unfold makeClean
  split
  · exact .same rfl rfl rfl
  · exact .add _ (by intro j; simp) rfl rfl rfl

theorem calm_install (s : State) : Calm s (install u s) := by
  unfold install
  split
  · exact .same rfl rfl rfl
  · exact .add _ (by intro j; simp) rfl rfl rfl

theorem calm_resolved (s : State) : Calm s (projectsResolved u s) := by
  unfold projectsResolved
  split
  · exact .same rfl rfl rfl
  · split
    · exact .same rfl rfl rfl
    · exact calm_clean s
    · split
      · exact .same rfl rfl rfl
      · exact Calm.trans' (calm_code _ _) (.add [.shell] (by intro j; simp) rfl rfl rfl)
    · exact Calm.trans' (calm_code _ _) (.add [.status] (by intro j; simp) rfl rfl rfl)
    · split
      · exact calm_build s
      · exact .same rfl rfl rfl
    · exact calm_build s
    · split
      · exact calm_build s
      · exact calm_install s
    · split
      · exact calm_build s
      · exact calm_install s
    · split
      · exact .same rfl rfl rfl
      · exact .add _ (by intro j; simp) rfl rfl rfl
    · split
      · exact .same rfl rfl rfl
      · split
        · exact .add _ (by intro j; simp) rfl rfl rfl
        · exact .same rfl rfl rfl
    · split
      · exact .same rfl rfl rfl
      · exact .add _ (by intro j; simp) rfl rfl rfl

theorem calm_done (s : State) : Calm s (workDone u s) := by
  unfold workDone
  simp only
  split
  · exact calm_install s
  · exact calm_install s
  · split
    · exact .add [.generate] (by intro j; simp) rfl rfl rfl
    · exact .same rfl rfl rfl
  · exact .same rfl rfl rfl

theorem calm_finished (s : State) (j : Job) (ok : Bool) : Calm s (finished u s j ok) := by
  unfold finished
  cases ok with
  | false =>
    cases j <;> simp only <;> split <;>
      first | exact .same rfl rfl rfl | exact ⟨rfl, .inr rfl, fun _ h => h⟩
  | true =>
    cases j with
    | resolve i =>
      simp only
      split
      · exact Calm.trans' (calm_resolved _) (.same rfl rfl rfl)
      · exact .same rfl rfl rfl
    | work i =>
      simp only
      split
      · exact Calm.trans' (calm_done _) (.same rfl rfl rfl)
      · exact .same rfl rfl rfl
    | install =>
      simp only
      split
      · exact Calm.trans' (calm_code _ _) (.add [.run] (by intro j; simp) rfl rfl rfl)
      · exact .same rfl rfl rfl

/-- As long as the timer runs, nothing is cancelled. -/
def Quiet (s : State) : Prop := s.timer = true → s.cancel ≠ .canceling ∧ ∀ j, Effect.cancel j ∉ s.out

theorem quiet_calm {s t : State} (h : Quiet s) (hc : Calm s t) : Quiet t := by
  intro ht
  obtain ⟨a, b⟩ := h (hc.timer ▸ ht)
  refine ⟨?_, fun j hj => b j (hc.out j hj)⟩
  rcases hc.cancel with h2 | h2 <;> rw [h2]
  · exact a
  · intro hh; cases hh

theorem quiet_check (s : State) (h : Quiet s) : Quiet (checkCancel s) := by
  unfold checkCancel
  split
  · exact h
  · exact h
  · split <;> (intro ht; cases ht)

theorem launch_out : ∀ (l : List (Nat × Conf)) (s : State), (∀ j, Effect.cancel j ∉ s.out) → s.timer = false →
    s.cancel = .none → (∀ j, Effect.cancel j ∉ (launch l s).1.out) ∧ (launch l s).1.timer = false ∧
      (launch l s).1.cancel = .none := by
  intro l
  induction l with
  | nil => intro s h1 h2 h3; exact ⟨h1, h2, h3⟩
  | cons x l ih =>
    intro s h1 h2 h3
    obtain ⟨i, c⟩ := x
    rw [launch]
    split
    · exact ih _ (by intro j hj; exact h1 j (by simpa using hj)) h2 h3
    · exact ⟨h1, h2, h3⟩

theorem quiet_hist {es : List Ev} {s : State} (h : Hist u es s) : Quiet s := by
  induction h with
  | start =>
    unfold start
    split
    · intro ht; cases ht
    · split
      · intro ht; cases ht
      · obtain ⟨a, b, d⟩ := launch_out ((List.range u.configs.length).zip u.configs) {} (by simp) rfl rfl
        generalize launch ((List.range u.configs.length).zip u.configs) {} = r at a b d
        obtain ⟨t, ok⟩ := r
        simp only at a b d ⊢
        split
        · exact fun _ => ⟨by rw [d]; decide, a⟩
        · split
          · intro ht
            have : t.timer = true := ht
            rw [b] at this; cases this
          · apply quiet_check
            intro ht
            have : t.timer = true := ht
            rw [b] at this; cases this
  | @step es s e _ _ _ ih =>
    cases e with
    | interrupt => exact quiet_calm ih ⟨rfl, .inr rfl, fun _ h => h⟩
    | tick =>
      show Quiet (if s.timer then checkCancel s else s)
      split
      · exact quiet_check s ih
      · exact ih
    | finished j ok => exact quiet_calm ih (calm_finished s j ok)

/-- **C101.**  Jobs are told to stop only once: an event after which a job has been told to stop that had not been
before comes before all others of this kind, and when the timer fires, jobs are not being cancelled already (the
assertion in line 108 holds). -/
theorem C101_cancels_once {es : List Ev} {s : State} (h : Hist u es s) :
    (s.timer = true → s.cancel ≠ .canceling) ∧
    ∀ e, (∃ j, Effect.cancel j ∈ (step u s e).out ∧ Effect.cancel j ∉ s.out) → ∀ j, Effect.cancel j ∉ s.out := by
  have hq := quiet_hist h
  refine ⟨fun ht => (hq ht).1, ?_⟩
  rintro e ⟨j, hj, hn⟩
  by_cases ht : s.timer = true
  · exact (hq ht).2
  · exfalso
    cases e with
    | interrupt => exact hn hj
    | tick =>
      have : step u s .tick = s := if_neg ht
      exact hn (this ▸ hj)
    | finished j' ok => exact hn ((calm_finished s j' ok).out j hj)

/-! ## C102: what the jobs work on -/

theorem selects_of {i : Nat} {c : Conf} (hc : u.configs[i]? = some c) :
    Selects u c (selected u i) := by
  unfold selected
  by_cases hn : u.names = []
  · rw [if_pos hn]; exact hn
  · rw [if_neg hn]
    refine ⟨hn, ?_⟩
    intro p
    unfold productsOf
    rw [hc, List.mem_filter]
    simp

/-- **C102.** Each job is started at most once, and the jobs that are started are for configurations
of the command line. -/
theorem C102_once (hne : u.configs ≠ []) {es : List Ev} {s : State} (h : Hist u es s) :
    (s.out.filterMap Effect.starts).Nodup ∧
    ∀ i, Started s.out (.resolve i) ∨ Started s.out (.work i) → i < u.configs.length := by
  have hb := (inv_hist hne h).base
  refine ⟨hb.starts, ?_⟩
  rintro i (hi | hi)
  · exact hb.rstart i hi
  · exact (hb.wstart i hi).1

/-- **C102.** Every configuration is built, cleaned and installed for exactly the products that the
command line names, or all of them if it names none. -/
theorem C102_products (hne : u.configs ≠ []) {es : List Ev} {s : State} (h : Hist u es s) :
    (∀ i ps n, Effect.build i ps n ∈ s.out → ∃ c, u.configs[i]? = some c ∧ Selects u c ps) ∧
    (∀ i ps, Effect.clean i ps ∈ s.out → ∃ c, u.configs[i]? = some c ∧ Selects u c ps) ∧
    (∀ ps, Effect.install ps ∈ s.out → ∃ c ∈ u.configs, Selects u c ps) := by
  have hb := (inv_hist hne h).base
  refine ⟨?_, ?_, ?_⟩
  · intro i ps n hm
    have hi := (hb.wstart i ⟨_, hm, rfl⟩).1
    refine ⟨u.configs[i], List.getElem?_eq_getElem hi, ?_⟩
    rw [(hb.builds i ps n hm).1]
    exact selects_of (List.getElem?_eq_getElem hi)
  · intro i ps hm
    have hi := (hb.wstart i ⟨_, hm, rfl⟩).1
    refine ⟨u.configs[i], List.getElem?_eq_getElem hi, ?_⟩
    rw [(hb.cleans i ps hm).1]
    exact selects_of (List.getElem?_eq_getElem hi)
  · intro ps hm
    obtain ⟨k, hk, rfl⟩ := hb.installs ps hm
    exact ⟨u.configs[k], List.getElem_mem hk, selects_of (List.getElem?_eq_getElem hk)⟩

/-- **C102.** If the command line names a product that no configuration has, then nothing is built,
cleaned, generated, installed or run, and the exit code is not 0 (but for `resolve`, which does not
look at the names, and for the commands with codes of their own). -/
theorem C102_unknown (hne : u.configs ≠ []) (hn : ¬ NamesOk u) {es : List Ev} {s : State}
    (h : Hist u es s) :
    (∀ i, ¬ Started s.out (.work i)) ∧ ¬ Started s.out .install ∧ Effect.generate ∉ s.out ∧
    Effect.run ∉ s.out ∧
    (u.cmd ≠ .resolve → u.cmd.ownCode = false → s.exit ≠ some 0) := by
  have hi := inv_hist hne h
  refine ⟨fun i hw => hn (hi.base.wstart i hw).2.2.2.1, fun hw => hn (hi.base.istart hw).2.2.1, ?_,
    ?_, ?_⟩
  · intro hg
    obtain ⟨i, hi'⟩ : ∃ i, i < u.configs.length := ⟨0, List.length_pos_iff.2 hne⟩
    obtain ⟨ok, hk⟩ := (hi.base.gen hg).2 i hi'
    exact hn (hi.base.wstart i (hi.base.fin _ _ hk)).2.2.2.1
  · intro hr
    exact hn (hi.base.istart (hi.base.fin _ _ (hi.base.ran hr).2)).2.2.1
  · intro hc ho h0
    rcases ((hi.dead 0 h0).zero rfl ho).names with h1 | h1
    · exact hn h1
    · exact hc h1

/-- **C102, part.** A configuration is built with the number of jobs of the command line, or else
that of its profile, provided that all profiles on the command line have the same preference.
Missing: profiles with different preferences (see `C102_jobs_of_another_profile`). -/
theorem C102_jobs_partial (hne : u.configs ≠ []) {es : List Ev} {s : State} (h : Hist u es s)
    (hsame : u.jobs > 0 ∨ ∀ c ∈ u.configs, ∀ d ∈ u.configs, u.prefJobs c.profile = u.prefJobs d.profile)
    (i : Nat) (ps : Option (List String)) (n : Nat) (hm : Effect.build i ps n ∈ s.out) :
    ∃ c, u.configs[i]? = some c ∧ n = rightJobs u c := by
  have hb := (inv_hist hne h).base
  have hi := (hb.wstart i ⟨_, hm, rfl⟩).1
  refine ⟨u.configs[i], List.getElem?_eq_getElem hi, ?_⟩
  obtain ⟨k, hk, hn⟩ := (hb.builds i ps n hm).2
  rw [hn]
  unfold jobsFor rightJobs profileOf
  simp only [List.headD_cons, List.getElem?_eq_getElem hi, List.getElem?_eq_getElem hk,
    Option.map_some, Option.getD_some]
  by_cases hj : u.jobs > 0
  · rw [if_pos hj, if_neg (by omega), if_pos hj]
  · rw [if_neg hj, if_neg hj]
    rcases hsame with h' | h'
    · exact absurd h' hj
    · rw [h' _ (List.getElem_mem hk) _ (List.getElem_mem hi)]
      simp

end Verif.Front
