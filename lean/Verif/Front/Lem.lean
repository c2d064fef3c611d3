import Verif.Front.Spec
/-! # Invariants of the frontend -/
namespace Verif.Front

variable {u : Setup}

/-- An interrupt came before all projects were resolved. -/
def Early (u : Setup) (es : List Ev) : Prop :=
  ∃ es1 es2, es = es1 ++ es2 ∧ Ev.interrupt ∈ es1 ∧
    ∃ k, k < u.configs.length ∧ Ev.finished (.resolve k) true ∉ es1

/-- All projects have been resolved. -/
def AllResolved (u : Setup) (es : List Ev) : Prop :=
  ∀ k, k < u.configs.length → Ev.finished (.resolve k) true ∈ es

/-- All projects have been built or cleaned. -/
def AllWorked (u : Setup) (es : List Ev) : Prop :=
  ∀ k, k < u.configs.length → Ev.finished (.work k) true ∈ es

/-- What is known about the jobs. -/
structure Base (u : Setup) (es : List Ev) (s : State) : Prop where
  run_r : ∀ i, i ∈ s.resolving ↔ Running es s.out (.resolve i)
  run_w : ∀ i, i ∈ s.working ↔ Running es s.out (.work i)
  run_i : s.installing = true ↔ Running es s.out .install
  nd_r : s.resolving.Nodup
  nd_w : s.working.Nodup
  proj : ∀ i, i ∈ s.projects ↔ Ev.finished (.resolve i) true ∈ es
  nd_p : s.projects.Nodup
  fin : ∀ j ok, Ev.finished j ok ∈ es → Started s.out j
  rstart : ∀ i, Started s.out (.resolve i) → i < u.configs.length
  wstart : ∀ i, Started s.out (.work i) → i < u.configs.length ∧ AllResolved u es ∧ Works u ∧
    NamesOk u ∧ ¬ Early u es ∧ ∀ k, k < u.configs.length → Started s.out (.work k)
  istart : Started s.out .install → u.cmd.installs ∧ AllResolved u es ∧ NamesOk u ∧ ¬ Early u es ∧
    (u.buildFirst = true → ∀ k, k < u.configs.length → ∃ ok, Ev.finished (.work k) ok ∈ es)
  starts : (s.out.filterMap Effect.starts).Nodup
  builds : ∀ i sel jobs, Effect.build i sel jobs ∈ s.out → sel = selected u i ∧
    ∃ k, k < u.configs.length ∧ jobs = jobsFor u { projects := [k] } i
  cleans : ∀ i sel, Effect.clean i sel ∈ s.out → sel = selected u i ∧ u.cmd = .clean
  installs : ∀ sel, Effect.install sel ∈ s.out →
    ∃ k, k < u.configs.length ∧ sel = selected u k
  gen : Effect.generate ∈ s.out → u.cmd = .generate ∧
    ∀ k, k < u.configs.length → ∃ ok, Ev.finished (.work k) ok ∈ es
  ran : Effect.run ∈ s.out → u.cmd = .run ∧ Ev.finished .install true ∈ es

/-! ## Small lemmas -/

theorem started_append {out x : List Effect} {j : Job} :
    Started (out ++ x) j ↔ Started out j ∨ Started x j := by
  unfold Started
  constructor
  · rintro ⟨e, he, h⟩
    rcases List.mem_append.1 he with he | he
    · exact Or.inl ⟨e, he, h⟩
    · exact Or.inr ⟨e, he, h⟩
  · rintro (⟨e, he, h⟩ | ⟨e, he, h⟩)
    · exact ⟨e, List.mem_append_left _ he, h⟩
    · exact ⟨e, List.mem_append_right _ he, h⟩

theorem started_iff {out : List Effect} {j : Job} :
    Started out j ↔ j ∈ out.filterMap Effect.starts := by
  unfold Started
  rw [List.mem_filterMap]

theorem early_snoc {es : List Ev} {e : Ev} (hr : AllResolved u es) (h : ¬ Early u es) :
    ¬ Early u (es ++ [e]) := by
  rintro ⟨es1, es2, he, hi, k, hk, hn⟩
  rcases List.eq_nil_or_concat es2 with rfl | ⟨es3, x, rfl⟩
  · rw [List.append_nil] at he
    rw [← he] at hn
    exact hn (List.mem_append_left _ (hr k hk))
  · rw [List.concat_eq_append, ← List.append_assoc] at he
    have := List.append_inj_left' he rfl
    exact h ⟨es1, es3, this, hi, k, hk, hn⟩

theorem early_mem {es : List Ev} (h : Early u es) : Ev.interrupt ∈ es := by
  obtain ⟨es1, es2, rfl, hi, _⟩ := h
  exact List.mem_append_left _ hi

theorem allResolved_snoc {es : List Ev} {e : Ev} (hr : AllResolved u es) :
    AllResolved u (es ++ [e]) := fun k hk => List.mem_append_left _ (hr k hk)

theorem mem_snoc_fin {es : List Ev} {j j' : Job} {ok ok' : Bool} :
    Ev.finished j' ok' ∈ es ++ [Ev.finished j ok] ↔
      Ev.finished j' ok' ∈ es ∨ (j' = j ∧ ok' = ok) := by
  simp

theorem running_snoc {es : List Ev} {out : List Effect} {j j' : Job} {ok : Bool} :
    Running (es ++ [Ev.finished j ok]) out j' ↔ Running es out j' ∧ j' ≠ j := by
  unfold Running
  constructor
  · rintro ⟨h1, h2⟩
    refine ⟨⟨h1, fun ok' h => h2 ok' (List.mem_append_left _ h)⟩, ?_⟩
    rintro rfl
    exact h2 ok (by simp)
  · rintro ⟨⟨h1, h2⟩, h3⟩
    refine ⟨h1, fun ok' h => ?_⟩
    rcases mem_snoc_fin.1 h with h | h
    · exact h2 ok' h
    · exact h3 h.1

/-! ## Events -/

/-- The lists after a job has finished. -/
def after (s : State) (j : Job) (ok : Bool) : State :=
  match j with
  | .resolve i => { s with resolving := s.resolving.erase i,
                           projects := if ok then s.projects ++ [i] else s.projects }
  | .work i => { s with working := s.working.erase i }
  | .install => { s with installing := false }

theorem after_out (s : State) (j : Job) (ok : Bool) : (after s j ok).out = s.out := by
  cases j <;> rfl

theorem base_after {es : List Ev} {s : State} (h : Base u es s) (j : Job) (ok : Bool)
    (hr : Running es s.out j) : Base u (es ++ [.finished j ok]) (after s j ok) := by
  have hw : ∀ i, Started s.out (.work i) → i < u.configs.length ∧
      AllResolved u (es ++ [.finished j ok]) ∧ Works u ∧ NamesOk u ∧
      ¬ Early u (es ++ [.finished j ok]) ∧ ∀ k, k < u.configs.length → Started s.out (.work k) := by
    intro i hi
    obtain ⟨a, b, c, d, e, f⟩ := h.wstart i hi
    exact ⟨a, allResolved_snoc b, c, d, early_snoc b e, f⟩
  have hi : Started s.out .install → u.cmd.installs ∧ AllResolved u (es ++ [.finished j ok]) ∧
      NamesOk u ∧ ¬ Early u (es ++ [.finished j ok]) ∧
      (u.buildFirst = true → ∀ k, k < u.configs.length →
        ∃ ok', Ev.finished (.work k) ok' ∈ es ++ [.finished j ok]) := by
    intro hs
    obtain ⟨a, b, c, d, e⟩ := h.istart hs
    refine ⟨a, allResolved_snoc b, c, early_snoc b d, fun hb k hk => ?_⟩
    obtain ⟨x, hx⟩ := e hb k hk
    exact ⟨x, List.mem_append_left _ hx⟩
  have hf : ∀ j' ok', Ev.finished j' ok' ∈ es ++ [Ev.finished j ok] → Started s.out j' := by
    intro j' ok' hm
    rcases mem_snoc_fin.1 hm with hm | ⟨rfl, _⟩
    · exact h.fin _ _ hm
    · exact hr.1
  have hg : Effect.generate ∈ s.out → u.cmd = .generate ∧
      ∀ k, k < u.configs.length → ∃ ok', Ev.finished (.work k) ok' ∈ es ++ [.finished j ok] := by
    intro hm
    obtain ⟨a, b⟩ := h.gen hm
    refine ⟨a, fun k hk => ?_⟩
    obtain ⟨x, hx⟩ := b k hk
    exact ⟨x, List.mem_append_left _ hx⟩
  have hrn : Effect.run ∈ s.out → u.cmd = .run ∧ Ev.finished .install true ∈ es ++ [.finished j ok] :=
    fun hm => ⟨(h.ran hm).1, List.mem_append_left _ (h.ran hm).2⟩
  cases j with
  | resolve i =>
    refine ⟨?_, ?_, ?_, h.nd_r.erase i, h.nd_w, ?_, ?_, hf, h.rstart, hw, hi, h.starts, h.builds,
      h.cleans, h.installs, hg, hrn⟩
    · intro k
      show k ∈ s.resolving.erase i ↔ Running _ s.out _
      rw [List.Nodup.mem_erase_iff h.nd_r, running_snoc, h.run_r]
      constructor
      · rintro ⟨a, b⟩; exact ⟨b, by simpa using a⟩
      · rintro ⟨a, b⟩; exact ⟨by simpa using b, a⟩
    · intro k
      show k ∈ s.working ↔ Running _ s.out _
      rw [running_snoc, h.run_w]; simp
    · show s.installing = true ↔ Running _ s.out _
      rw [running_snoc, h.run_i]; simp
    · intro k
      rw [mem_snoc_fin, ← h.proj]
      show k ∈ (if ok then s.projects ++ [i] else s.projects) ↔ _
      cases ok with
      | true => simp
      | false => simp
    · show (if ok then s.projects ++ [i] else s.projects).Nodup
      cases ok with
      | false => exact h.nd_p
      | true =>
        rw [if_pos rfl, List.nodup_append]
        refine ⟨h.nd_p, by simp, ?_⟩
        intro a ha b hb
        rw [List.mem_singleton] at hb
        subst hb
        rintro rfl
        exact hr.2 true ((h.proj a).1 ha)
  | work i =>
    refine ⟨?_, ?_, ?_, h.nd_r, h.nd_w.erase i, ?_, h.nd_p, hf, h.rstart, hw, hi, h.starts, h.builds,
      h.cleans, h.installs, hg, hrn⟩
    · intro k
      show k ∈ s.resolving ↔ Running _ s.out _
      rw [running_snoc, h.run_r]; simp
    · intro k
      show k ∈ s.working.erase i ↔ Running _ s.out _
      rw [List.Nodup.mem_erase_iff h.nd_w, running_snoc, h.run_w]
      constructor
      · rintro ⟨a, b⟩; exact ⟨b, by simpa using a⟩
      · rintro ⟨a, b⟩; exact ⟨by simpa using b, a⟩
    · show s.installing = true ↔ Running _ s.out _
      rw [running_snoc, h.run_i]; simp
    · intro k
      rw [mem_snoc_fin]
      show k ∈ s.projects ↔ _
      rw [h.proj]; simp
  | install =>
    refine ⟨?_, ?_, ?_, h.nd_r, h.nd_w, ?_, h.nd_p, hf, h.rstart, hw, hi, h.starts, h.builds,
      h.cleans, h.installs, hg, hrn⟩
    · intro k
      show k ∈ s.resolving ↔ Running _ s.out _
      rw [running_snoc, h.run_r]; simp
    · intro k
      show k ∈ s.working ↔ Running _ s.out _
      rw [running_snoc, h.run_w]; simp
    · show false = true ↔ Running _ s.out _
      rw [running_snoc]; simp
    · intro k
      rw [mem_snoc_fin]
      show k ∈ s.projects ↔ _
      rw [h.proj]; simp

/-- Only the fields that `Base` speaks about matter. -/
theorem base_same {es : List Ev} {s s' : State} (h : Base u es s)
    (h1 : s'.resolving = s.resolving) (h2 : s'.working = s.working)
    (h3 : s'.installing = s.installing) (h4 : s'.projects = s.projects) (h5 : s'.out = s.out) :
    Base u es s' := by
  rcases s' with ⟨a, b, c, d, e, f, g, o⟩
  simp only at h1 h2 h3 h4 h5
  subst h1 h2 h3 h4 h5
  exact ⟨h.run_r, h.run_w, h.run_i, h.nd_r, h.nd_w, h.proj, h.nd_p, h.fin, h.rstart, h.wstart,
    h.istart, h.starts, h.builds, h.cleans, h.installs, h.gen, h.ran⟩

/-- Effects that start nothing. -/
theorem base_out {es : List Ev} {s : State} (h : Base u es s) (x : List Effect)
    (hx : ∀ e ∈ x, e.starts = none)
    (hg : Effect.generate ∈ x → u.cmd = .generate ∧
      ∀ k, k < u.configs.length → ∃ ok, Ev.finished (.work k) ok ∈ es)
    (hr : Effect.run ∈ x → u.cmd = .run ∧ Ev.finished .install true ∈ es) :
    Base u es { s with out := s.out ++ x } := by
  have hst : ∀ j, Started (s.out ++ x) j ↔ Started s.out j := by
    intro j
    rw [started_append]
    constructor
    · rintro (h | ⟨e, he, hs⟩)
      · exact h
      · rw [hx e he] at hs; cases hs
    · exact Or.inl
  have hrun : ∀ j, Running es (s.out ++ x) j ↔ Running es s.out j := by
    intro j; unfold Running; rw [hst]
  have hfm : (s.out ++ x).filterMap Effect.starts = s.out.filterMap Effect.starts := by
    rw [List.filterMap_append]
    have : x.filterMap Effect.starts = [] := by
      rw [List.filterMap_eq_nil_iff]; exact hx
    rw [this, List.append_nil]
  refine ⟨?_, ?_, ?_, h.nd_r, h.nd_w, h.proj, h.nd_p, ?_, ?_, ?_, ?_, ?_, ?_, ?_, ?_, ?_, ?_⟩
  · intro i; rw [hrun]; exact h.run_r i
  · intro i; rw [hrun]; exact h.run_w i
  · rw [hrun]; exact h.run_i
  · intro j ok hj; rw [hst]; exact h.fin j ok hj
  · intro i hi; rw [hst] at hi; exact h.rstart i hi
  · intro i hi
    rw [hst] at hi
    obtain ⟨a, b, c, d, e, f⟩ := h.wstart i hi
    exact ⟨a, b, c, d, e, fun k hk => (hst _).2 (f k hk)⟩
  · intro hi; rw [hst] at hi; exact h.istart hi
  · rw [hfm]; exact h.starts
  · intro i sel jobs hm
    rcases List.mem_append.1 hm with hm | hm
    · exact h.builds i sel jobs hm
    · have := hx _ hm; cases this
  · intro i sel hm
    rcases List.mem_append.1 hm with hm | hm
    · exact h.cleans i sel hm
    · have := hx _ hm; cases this
  · intro sel hm
    rcases List.mem_append.1 hm with hm | hm
    · exact h.installs sel hm
    · have := hx _ hm; cases this
  · intro hm
    rcases List.mem_append.1 hm with hm | hm
    · exact h.gen hm
    · exact hg hm
  · intro hm
    rcases List.mem_append.1 hm with hm | hm
    · exact h.ran hm
    · exact hr hm

/-- Other events. -/
theorem base_ev {es : List Ev} {s : State} (h : Base u es s) (e : Ev)
    (he : ∀ j ok, e ≠ .finished j ok) : Base u (es ++ [e]) s := by
  have hm : ∀ j ok, Ev.finished j ok ∈ es ++ [e] ↔ Ev.finished j ok ∈ es := by
    intro j ok
    rw [List.mem_append, List.mem_singleton]
    constructor
    · rintro (h | h)
      · exact h
      · exact absurd h.symm (he j ok)
    · exact Or.inl
  have hrun : ∀ j, Running (es ++ [e]) s.out j ↔ Running es s.out j := by
    intro j; unfold Running; simp only [hm]
  refine ⟨?_, ?_, ?_, h.nd_r, h.nd_w, ?_, h.nd_p, ?_, h.rstart, ?_, ?_, h.starts, h.builds, h.cleans,
    h.installs, ?_, ?_⟩
  · intro i; rw [hrun]; exact h.run_r i
  · intro i; rw [hrun]; exact h.run_w i
  · rw [hrun]; exact h.run_i
  · intro i; rw [hm]; exact h.proj i
  · intro j ok hj; rw [hm] at hj; exact h.fin j ok hj
  · intro i hi
    obtain ⟨a, b, c, d, e, f⟩ := h.wstart i hi
    exact ⟨a, allResolved_snoc b, c, d, early_snoc b e, f⟩
  · intro hi
    obtain ⟨a, b, c, d, e⟩ := h.istart hi
    refine ⟨a, allResolved_snoc b, c, early_snoc b d, fun hb k hk => ?_⟩
    obtain ⟨x, hx⟩ := e hb k hk
    exact ⟨x, List.mem_append_left _ hx⟩
  · intro hg
    obtain ⟨a, b⟩ := h.gen hg
    refine ⟨a, fun k hk => ?_⟩
    obtain ⟨x, hx⟩ := b k hk
    exact ⟨x, List.mem_append_left _ hx⟩
  · intro hr
    exact ⟨(h.ran hr).1, List.mem_append_left _ (h.ran hr).2⟩

/-! ## Starting jobs -/

theorem namesOk_of {es : List Ev} {s : State} (h : Base u es s) (hn : unknownName u s = false) :
    NamesOk u := by
  intro n hm
  unfold unknownName at hn
  rw [List.any_eq_false] at hn
  have := hn n hm
  simp only [Bool.not_eq_true, Bool.not_eq_false'] at this
  rw [List.any_eq_true] at this
  obtain ⟨i, hi, hc⟩ := this
  unfold productsOf at hc
  cases hg : u.configs[i]? with
  | none => rw [hg] at hc; simp at hc
  | some c =>
    rw [hg] at hc
    exact ⟨c, List.mem_of_getElem? hg, by simpa using hc⟩

theorem unknown_of {es : List Ev} {s : State} (h : Base u es s) (hall : AllResolved u es)
    (hn : NamesOk u) : unknownName u s = false := by
  unfold unknownName
  rw [List.any_eq_false]
  intro n hm
  obtain ⟨c, hc, hp⟩ := hn n hm
  obtain ⟨i, hi, rfl⟩ := List.mem_iff_getElem.1 hc
  simp only [Bool.not_eq_true, Bool.not_eq_false']
  rw [List.any_eq_true]
  refine ⟨i, (h.proj i).2 (hall i hi), ?_⟩
  unfold productsOf
  rw [List.getElem?_eq_getElem hi]
  simpa using hp

theorem head_lt {es : List Ev} {s : State} (h : Base u es s) (hne : s.projects ≠ []) :
    s.projects.headD 0 < u.configs.length := by
  cases hp : s.projects with
  | nil => exact absurd hp hne
  | cons a l =>
    have : a ∈ s.projects := by rw [hp]; exact List.mem_cons_self
    exact h.rstart a (h.fin _ _ ((h.proj a).1 this))

theorem base_work {es : List Ev} {s : State} (h : Base u es s) (hw : Works u)
    (hn : unknownName u s = false) (hall : AllResolved u es)
    (hi : Ev.interrupt ∉ es) (hno : ∀ i, ¬ Started s.out (.work i))
    (hni : ¬ Started s.out .install) (hne : s.projects ≠ [])
    (f : Nat → Effect) (hf : ∀ i, (f i).starts = some (.work i))
    (hb : ∀ i k sel jobs, f i = .build k sel jobs → k = i ∧ sel = selected u i ∧
      ∃ k, k < u.configs.length ∧ jobs = jobsFor u { projects := [k] } i)
    (hc : ∀ i k sel, f i = .clean k sel → k = i ∧ sel = selected u i ∧ u.cmd = .clean) :
    Base u es { s with working := s.projects, out := s.out ++ s.projects.map f } := by
  have hst : ∀ j, Started (s.projects.map f) j ↔ ∃ i ∈ s.projects, j = .work i := by
    intro j
    unfold Started
    constructor
    · rintro ⟨e, he, hs⟩
      obtain ⟨i, hi, rfl⟩ := List.mem_map.1 he
      rw [hf] at hs
      cases hs
      exact ⟨i, hi, rfl⟩
    · rintro ⟨i, hi, rfl⟩
      exact ⟨f i, List.mem_map.2 ⟨i, hi, rfl⟩, hf i⟩
  have hlt : ∀ i ∈ s.projects, i < u.configs.length :=
    fun i hi => h.rstart i (h.fin _ _ ((h.proj i).1 hi))
  have hearly : ¬ Early u es := fun he => hi (early_mem he)
  refine ⟨?_, ?_, ?_, h.nd_r, h.nd_p, h.proj, h.nd_p, ?_, ?_, ?_, ?_, ?_, ?_, ?_, ?_, ?_, ?_⟩
  · intro i
    show i ∈ s.resolving ↔ _
    rw [h.run_r]
    unfold Running
    rw [started_append, hst]
    constructor
    · rintro ⟨a, b⟩; exact ⟨Or.inl a, b⟩
    · rintro ⟨a | ⟨k, _, a⟩, b⟩
      · exact ⟨a, b⟩
      · cases a
  · intro i
    show i ∈ s.projects ↔ _
    unfold Running
    rw [started_append, hst]
    constructor
    · intro hm
      refine ⟨Or.inr ⟨i, hm, rfl⟩, fun ok hk => ?_⟩
      exact hno i (h.fin _ _ hk)
    · rintro ⟨a | ⟨k, hk, a⟩, b⟩
      · exact absurd a (hno i)
      · cases a; exact hk
  · show s.installing = true ↔ _
    rw [h.run_i]
    unfold Running
    rw [started_append, hst]
    constructor
    · rintro ⟨a, b⟩; exact ⟨Or.inl a, b⟩
    · rintro ⟨a | ⟨k, _, a⟩, b⟩
      · exact ⟨a, b⟩
      · cases a
  · intro j ok hj
    exact started_append.2 (Or.inl (h.fin j ok hj))
  · intro i hs
    rcases started_append.1 hs with hs | hs
    · exact h.rstart i hs
    · obtain ⟨k, _, hk⟩ := (hst _).1 hs; cases hk
  · intro i hs
    rcases started_append.1 hs with hs | hs
    · exact absurd hs (hno i)
    · obtain ⟨k, hk, he⟩ := (hst _).1 hs
      cases he
      refine ⟨hlt i hk, hall, hw, namesOk_of h hn, hearly, fun k hk => ?_⟩
      exact started_append.2 (Or.inr ((hst _).2 ⟨k, (h.proj k).2 (hall k hk), rfl⟩))
  · intro hs
    rcases started_append.1 hs with hs | hs
    · exact absurd hs hni
    · obtain ⟨k, _, hk⟩ := (hst _).1 hs; cases hk
  · show ((s.out ++ s.projects.map f).filterMap Effect.starts).Nodup
    rw [List.filterMap_append, List.nodup_append]
    have hm : (s.projects.map f).filterMap Effect.starts = s.projects.map Job.work := by
      rw [List.filterMap_map]
      have : (Effect.starts ∘ f) = fun i => some (Job.work i) := by funext i; exact hf i
      rw [this]
      rw [List.filterMap_eq_map']
    refine ⟨h.starts, ?_, ?_⟩
    · rw [hm]
      exact List.Pairwise.map _ (fun a b hab => by simpa using hab) h.nd_p
    · intro a ha b hb' hab
      subst hab
      rw [hm] at hb'
      obtain ⟨i, _, rfl⟩ := List.mem_map.1 hb'
      exact hno i (started_iff.2 ha)
  · intro i sel jobs hm
    rcases List.mem_append.1 hm with hm | hm
    · exact h.builds i sel jobs hm
    · obtain ⟨k, _, hk⟩ := List.mem_map.1 hm
      obtain ⟨rfl, a, b⟩ := hb _ _ _ _ hk
      exact ⟨a, b⟩
  · intro i sel hm
    rcases List.mem_append.1 hm with hm | hm
    · exact h.cleans i sel hm
    · obtain ⟨k, _, hk⟩ := List.mem_map.1 hm
      obtain ⟨rfl, a, b⟩ := hc _ _ _ hk
      exact ⟨a, b⟩
  · intro sel hm
    rcases List.mem_append.1 hm with hm | hm
    · exact h.installs sel hm
    · obtain ⟨k, _, hk⟩ := List.mem_map.1 hm
      have := hf k
      rw [hk] at this
      cases this
  · intro hm
    rcases List.mem_append.1 hm with hm | hm
    · exact h.gen hm
    · obtain ⟨k, _, hk⟩ := List.mem_map.1 hm
      have := hf k
      rw [hk] at this
      cases this
  · intro hm
    rcases List.mem_append.1 hm with hm | hm
    · exact h.ran hm
    · obtain ⟨k, _, hk⟩ := List.mem_map.1 hm
      have := hf k
      rw [hk] at this
      cases this

theorem base_install {es : List Ev} {s : State} (h : Base u es s) (hc : u.cmd.installs)
    (hn : unknownName u s = false) (hall : AllResolved u es) (hi : ¬ Early u es)
    (hw : u.buildFirst = true → ∀ k, k < u.configs.length → ∃ ok, Ev.finished (.work k) ok ∈ es)
    (hni : ¬ Started s.out .install) (hne : s.projects ≠ []) :
    Base u es { s with
      installing := true
      out := s.out ++ [.install (selected u (s.projects.headD 0))] } := by
  have hst : ∀ j, Started [Effect.install (selected u (s.projects.headD 0))] j ↔ j = .install := by
    intro j
    unfold Started
    simp [Effect.starts, eq_comm]
  refine ⟨?_, ?_, ?_, h.nd_r, h.nd_w, h.proj, h.nd_p, ?_, ?_, ?_, ?_, ?_, ?_, ?_, ?_, ?_, ?_⟩
  · intro i
    show i ∈ s.resolving ↔ _
    rw [h.run_r]
    unfold Running
    rw [started_append, hst]
    simp
  · intro i
    show i ∈ s.working ↔ _
    rw [h.run_w]
    unfold Running
    rw [started_append, hst]
    simp
  · show true = true ↔ _
    unfold Running
    rw [started_append, hst]
    simp only [or_true, true_and, true_iff]
    intro ok hk
    exact hni (h.fin _ _ hk)
  · intro j ok hj
    exact started_append.2 (Or.inl (h.fin j ok hj))
  · intro i hs
    rcases started_append.1 hs with hs | hs
    · exact h.rstart i hs
    · have := (hst _).1 hs; cases this
  · intro i hs
    rcases started_append.1 hs with hs | hs
    · obtain ⟨a, b, c, d, e, f⟩ := h.wstart i hs
      exact ⟨a, b, c, d, e, fun k hk => started_append.2 (Or.inl (f k hk))⟩
    · have := (hst _).1 hs; cases this
  · intro _
    exact ⟨hc, hall, namesOk_of h hn, hi, hw⟩
  · show ((s.out ++ [Effect.install _]).filterMap Effect.starts).Nodup
    rw [List.filterMap_append, List.nodup_append]
    refine ⟨h.starts, by simp [Effect.starts], ?_⟩
    intro a ha b hb hab
    subst hab
    have : a = .install := by simpa [Effect.starts, eq_comm] using hb
    subst this
    exact hni (started_iff.2 ha)
  · intro i sel jobs hm
    rcases List.mem_append.1 hm with hm | hm
    · exact h.builds i sel jobs hm
    · simp at hm
  · intro i sel hm
    rcases List.mem_append.1 hm with hm | hm
    · exact h.cleans i sel hm
    · simp at hm
  · intro sel hm
    rcases List.mem_append.1 hm with hm | hm
    · exact h.installs sel hm
    · rw [List.mem_singleton] at hm
      cases hm
      exact ⟨_, head_lt h hne, rfl⟩
  · intro hm
    rcases List.mem_append.1 hm with hm | hm
    · exact h.gen hm
    · simp at hm
  · intro hm
    rcases List.mem_append.1 hm with hm | hm
    · exact h.ran hm
    · simp at hm

end Verif.Front
