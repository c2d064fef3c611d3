import Verif.Api.LemMore

namespace Verif.Api

variable {P : Type}

/-! ### Products by name -/

theorem takeName_eq (n : Name) (l : List Name) :
    takeName n l = if n ∈ l then some (l.erase n) else none := by
  induction l with
  | nil => rfl
  | cons m ms ih =>
    unfold takeName
    by_cases h : m = n
    · subst h; simp
    · rw [if_neg h, ih]
      have h' : ¬ n = m := fun e => h e.symm
      by_cases hm : n ∈ ms
      · simp [hm, h]
      · simp [hm, h']

theorem pickOwn_spec (ps : List Product) :
    ∀ names : List Name, (ps.map (·.name)).Nodup →
      (pickOwn ps names).1 = ps.filter (fun p => decide (p.name ∈ names))
        ∧ ∀ n, n ∉ ps.map (·.name) → (n ∈ (pickOwn ps names).2 ↔ n ∈ names) := by
  induction ps with
  | nil => intro names _; exact ⟨rfl, fun n _ => Iff.rfl⟩
  | cons p ps ih =>
    intro names hd
    rw [List.map_cons, List.nodup_cons] at hd
    by_cases hm : p.name ∈ names
    · have ht : takeName p.name names = some (names.erase p.name) := by
        rw [takeName_eq, if_pos hm]
      obtain ⟨ih1, ih2⟩ := ih (names.erase p.name) hd.2
      have hf : ps.filter (fun q => decide (q.name ∈ names.erase p.name))
          = ps.filter (fun q => decide (q.name ∈ names)) := by
        apply List.filter_congr
        intro q hq
        have hne : q.name ≠ p.name := by
          intro e
          exact hd.1 (e ▸ List.mem_map_of_mem hq)
        simp [List.mem_erase_of_ne hne]
      have hmem : ∀ n, n ≠ p.name → (n ∈ names.erase p.name ↔ n ∈ names) :=
        fun n hn => List.mem_erase_of_ne hn
      unfold pickOwn
      rw [ht]
      cases hr : names.erase p.name with
      | nil =>
        rw [hr] at hf hmem
        refine ⟨?_, ?_⟩
        · rw [List.filter_cons_of_pos (by simpa using hm), ← hf]
          simp
        · intro n hn
          rw [List.map_cons, List.mem_cons, not_or] at hn
          exact hmem n hn.1
      | cons a l =>
        rw [hr] at ih1 ih2 hf hmem
        refine ⟨?_, ?_⟩
        · rw [List.filter_cons_of_pos (by simpa using hm), ← hf, ← ih1]
        · intro n hn
          rw [List.map_cons, List.mem_cons, not_or] at hn
          exact (ih2 n hn.2).trans (hmem n hn.1)
    · have ht : takeName p.name names = none := by rw [takeName_eq, if_neg hm]
      obtain ⟨ih1, ih2⟩ := ih names hd.2
      unfold pickOwn
      rw [ht]
      refine ⟨?_, ?_⟩
      · rw [List.filter_cons_of_neg (by simpa using hm)]
        exact ih1
      · intro n hn
        rw [List.map_cons, List.mem_cons, not_or] at hn
        exact ih2 n hn.2

theorem filter_nil_names (ps : List Product) :
    ps.filter (fun p => decide (p.name ∈ ([] : List Name))) = [] := by
  rw [List.filter_eq_nil_iff]; intro p _; simp

theorem pick_spec (t : Tree) :
    ∀ names : List Name, Distinct t →
      (pick t names).1 = t.products.filter (fun p => decide (p.name ∈ names))
        ∧ ∀ n, n ∉ t.products.map (·.name) → (n ∈ (pick t names).2 ↔ n ∈ names) := by
  induction t with
  | stop => intro names _; exact ⟨rfl, fun n _ => Iff.rfl⟩
  | node tag own subs sibs ih1 ih2 =>
    intro names hd
    have hd' : (own.map (·.name) ++ (subs.products.map (·.name) ++ sibs.products.map (·.name))).Nodup := by
      have : ((Tree.node tag own subs sibs).products.map (·.name)).Nodup := hd
      simpa [Tree.products, List.append_assoc] using this
    rw [List.nodup_append] at hd'
    obtain ⟨hown, hrest, hdis⟩ := hd'
    rw [List.nodup_append] at hrest
    obtain ⟨hsubs, hsibs, hdis2⟩ := hrest
    have hP : (Tree.node tag own subs sibs).products = own ++ subs.products ++ sibs.products := rfl
    by_cases hn : names = []
    · subst hn
      refine ⟨?_, ?_⟩
      · rw [filter_nil_names]; simp [pick]
      · intro n _; simp [pick]
    · obtain ⟨a1, a2⟩ := pickOwn_spec own names hown
      have hfa : ∀ (l : List Product), (∀ q ∈ l, q.name ∉ own.map (·.name)) →
          l.filter (fun p => decide (p.name ∈ (pickOwn own names).2))
            = l.filter (fun p => decide (p.name ∈ names)) := by
        intro l hl
        apply List.filter_congr
        intro q hq
        have := a2 q.name (hl q hq)
        simp [this]
      have hsubsOwn : ∀ q ∈ subs.products, q.name ∉ own.map (·.name) := fun q hq h =>
        hdis q.name h q.name (List.mem_append_left _ (List.mem_map_of_mem hq)) rfl
      have hsibsOwn : ∀ q ∈ sibs.products, q.name ∉ own.map (·.name) := fun q hq h =>
        hdis q.name h q.name (List.mem_append_right _ (List.mem_map_of_mem hq)) rfl
      have hsibsSubs : ∀ q ∈ sibs.products, q.name ∉ subs.products.map (·.name) := fun q hq h =>
        hdis2 q.name h q.name (List.mem_map_of_mem hq) rfl
      rw [hP, List.filter_append, List.filter_append, ← hfa subs.products hsubsOwn,
        ← hfa sibs.products hsibsOwn, ← a1]
      simp only [pick, if_neg hn]
      by_cases ha : (pickOwn own names).2 = []
      · rw [if_pos ha]
        refine ⟨?_, ?_⟩
        · rw [ha, filter_nil_names, filter_nil_names]; simp
        · intro n hnn
          have hno : n ∉ own.map (·.name) := fun h => hnn (by
            rw [List.map_append, List.map_append]
            exact List.mem_append_left _ (List.mem_append_left _ h))
          have := a2 n hno
          rw [ha] at this
          exact this
      · rw [if_neg ha]
        obtain ⟨b1, b2⟩ := ih1 (pickOwn own names).2 hsubs
        have hfb : sibs.products.filter (fun p => decide (p.name ∈ (pick subs (pickOwn own names).2).2))
            = sibs.products.filter (fun p => decide (p.name ∈ (pickOwn own names).2)) := by
          apply List.filter_congr
          intro q hq
          have := b2 q.name (hsibsSubs q hq)
          simp [this]
        rw [← hfb, ← b1]
        by_cases hb : (pick subs (pickOwn own names).2).2 = []
        · rw [if_pos hb]
          refine ⟨?_, ?_⟩
          · rw [hb, filter_nil_names]; simp
          · intro n hnn
            have hno : n ∉ own.map (·.name) := fun h => hnn (by
              rw [List.map_append, List.map_append]
              exact List.mem_append_left _ (List.mem_append_left _ h))
            have hns : n ∉ subs.products.map (·.name) := fun h => hnn (by
              rw [List.map_append, List.map_append]
              exact List.mem_append_left _ (List.mem_append_right _ h))
            have := (b2 n hns).trans (a2 n hno)
            rw [hb] at this
            exact this
        · rw [if_neg hb]
          obtain ⟨c1, c2⟩ := ih2 (pick subs (pickOwn own names).2).2 hsibs
          refine ⟨?_, ?_⟩
          · rw [c1]
          · intro n hnn
            have hno : n ∉ own.map (·.name) := fun h => hnn (by
              rw [List.map_append, List.map_append]
              exact List.mem_append_left _ (List.mem_append_left _ h))
            have hns : n ∉ subs.products.map (·.name) := fun h => hnn (by
              rw [List.map_append, List.map_append]
              exact List.mem_append_left _ (List.mem_append_right _ h))
            have hni : n ∉ sibs.products.map (·.name) := fun h => hnn (by
              rw [List.map_append, List.map_append]
              exact List.mem_append_right _ h)
            exact (c2 n hni).trans ((b2 n hns).trans (a2 n hno))

theorem enabledProducts_eq (b : Bool) (t : Tree) :
    enabledProducts b t = t.products.filter (fun p => p.enabled && (b || p.byDefault)) := by
  induction t with
  | stop => rfl
  | node tag own subs sibs ih1 ih2 =>
    simp only [enabledProducts, Tree.products, List.filter_append, ih1, ih2]

/-! ### Edits -/

theorem editLoop_fst (f : P → Name → Option P) (fs : List Name) :
    ∀ p, (editLoop f p fs).1 = editsDone f p fs := by
  induction fs with
  | nil => intro p; rfl
  | cons x xs ih =>
    intro p
    unfold editLoop
    cases hf : f p x with
    | none => simp only [ih, editsDone, List.foldl_cons, hf, Option.getD_none]
    | some p' => simp only [ih, editsDone, List.foldl_cons, hf, Option.getD_some]

theorem editLoop_length (f : P → Name → Option P) (fs : List Name) :
    ∀ p, (editLoop f p fs).2.length ≤ fs.length := by
  induction fs with
  | nil => intro p; exact Nat.le_refl _
  | cons x xs ih =>
    intro p
    unfold editLoop
    cases hf : f p x with
    | none => simp only [List.length_cons]; have := ih p; omega
    | some p' => simp only [List.length_cons]; have := ih p'; omega

theorem editLoop_all_failed (f : P → Name → Option P) (fs : List Name) :
    ∀ p, (editLoop f p fs).2.length = fs.length → (editLoop f p fs).1 = p := by
  induction fs with
  | nil => intro p _; rfl
  | cons x xs ih =>
    intro p
    unfold editLoop
    cases hf : f p x with
    | none =>
      intro h
      simp only [List.length_cons, Nat.add_right_cancel_iff] at h
      exact ih p h
    | some p' =>
      intro h
      have := editLoop_length f xs p'
      simp only [List.length_cons] at h
      omega

/-! ### The client's copy of the data -/

structure DataInv (w : World P) (s : State P) : Prop where
  open' : s.quitting = false
  data : jobKind s ≠ some .resolve → s.data = dataOf w s.project
  mode : ∀ j, s.job = some j → (j.kind = .resolve ∨ j.kind = .build) → j.mode ≠ .never
  stored : s.stored ≠ some .never

/-- The edit and build failures after which the client is not told the new data. -/
def Silent (rep : Reply) : Prop :=
  rep.error = some .operationFailed ∧ (rep.kind = .built ∨ rep.kind = .filesRenamed)

/-- What one event does to the data and to the client's copy. -/
def Kept (w : World P) (s : State P) (x : State P × List Out) : Prop :=
  (∀ rep ∈ repliesIn x.2, ¬ Silent rep) →
    DataInv w x.1 ∧ (repliesIn x.2).foldl copyAfter s.data = x.1.data

theorem kept_same {w : World P} {s : State P} (h : DataInv w s) : Kept w s (s, []) :=
  fun _ => ⟨h, rfl⟩

theorem kept_error {w : World P} {s : State P} (h : DataInv w s) (rep : Reply) (hd : rep.data = none)
    (he : rep.error ≠ some .operationFailed) (he' : rep.error = none → rep.kind ≠ .released) :
    Kept w s (s, [.reply rep]) := by
  intro _
  refine ⟨h, ?_⟩
  show copyAfter s.data rep = s.data
  unfold copyAfter
  rw [hd]
  show (if rep.kind = .resolved ∧ rep.error = some .operationFailed then Tree.stop
    else if rep.kind = .released ∧ rep.error = none then .stop else s.data) = s.data
  rw [if_neg (fun h => he h.2), if_neg (fun h => he' h.2 h.1)]

theorem kept_run {w : World P} {s : State P} (h : DataInv w s) (rep : Reply) (hd : rep.data = none)
    (hk : rep.kind ≠ .resolved) (hk' : rep.kind ≠ .released) :
    Kept w s (s, [.reply rep]) := by
  intro _
  refine ⟨h, ?_⟩
  show copyAfter s.data rep = s.data
  unfold copyAfter
  rw [hd]
  show (if rep.kind = .resolved ∧ rep.error = some .operationFailed then Tree.stop
    else if rep.kind = .released ∧ rep.error = none then .stop else s.data) = s.data
  rw [if_neg (fun h => hk h.1), if_neg (fun h => hk' h.1)]

theorem prerequisites_ne {s : State P} {e : Reason} (h : prerequisites s = some e) :
    e ≠ .operationFailed := by
  unfold prerequisites at h
  by_cases h1 : s.job.isSome = true
  · rw [if_pos h1] at h; cases h; nofun
  · rw [if_neg h1] at h
    by_cases h2 : s.project.isNone = true
    · rw [if_pos h2] at h; cases h; nofun
    · rw [if_neg h2] at h; cases h

theorem prerequisites_none {s : State P} (h : prerequisites s = none) :
    s.job = none ∧ ∃ p, s.project = some p := by
  unfold prerequisites at h
  by_cases h1 : s.job.isSome = true
  · rw [if_pos h1] at h; cases h
  · rw [if_neg h1] at h
    by_cases h2 : s.project.isNone = true
    · rw [if_pos h2] at h; cases h
    · cases hp : s.project with
      | none => rw [hp] at h2; simp at h2
      | some p => exact ⟨by simpa using h1, p, rfl⟩

theorem prepare_ne {s : State P} {a b : Name} {e : Reason} (h : prepare s a b = some e) :
    e ≠ .operationFailed := by
  unfold prepare at h
  by_cases h1 : s.project.isNone = true
  · rw [if_pos h1] at h; cases h; nofun
  · rw [if_neg h1] at h
    by_cases h2 : s.job.isSome = true
    · rw [if_pos h2] at h; cases h; nofun
    · rw [if_neg h2] at h
      cases hp : productByName s.data a with
      | none => rw [hp] at h; cases h; nofun
      | some p =>
        rw [hp] at h
        by_cases hg : b ∈ p.groups
        · simp [hg] at h
        · simp [hg] at h; rw [← h]; nofun

theorem prepare_none {s : State P} {a b : Name} (h : prepare s a b = none) : s.job = none := by
  unfold prepare at h
  by_cases h1 : s.project.isNone = true
  · rw [if_pos h1] at h; cases h
  · rw [if_neg h1] at h
    by_cases h2 : s.job.isSome = true
    · rw [if_pos h2] at h; cases h
    · simpa using h2

theorem kept_startJob {w : World P} {s : State P} (h : DataInv w s) (k : Kind) (jk : JobKind) (m : Mode)
    (ps : List Product) (hm : jk = .resolve ∨ jk = .build → m ≠ .never) :
    Kept w s (startJob s k jk m ps) := by
  unfold startJob
  cases hp : prerequisites s with
  | some e => exact kept_error h _ rfl (fun he => prerequisites_ne hp (by cases he; rfl)) nofun
  | none =>
    obtain ⟨hj, _⟩ := prerequisites_none hp
    refine fun _ => ⟨⟨h.open', ?_, ?_, h.stored⟩, rfl⟩
    · intro _
      exact h.data (by simp [jobKind, hj])
    · intro j hj hk
      cases hj
      exact hm hk

theorem kept_edit {w : World P} {s : State P} (h : DataInv w s) (hj : s.job = none) {p : P}
    (hp : s.project = some p) (k : Kind) (count : Nat) (r : P × List Name)
    (hr : r.2.length = count → ¬ Silent { kind := k, error := if r.2 = [] then none else some .operationFailed, failed := r.2 } → r.1 = p)
    (hk : k ≠ .resolved) (hk' : k ≠ .released) :
    Kept w s (editReply w s k count r) := by
  intro hsil
  refine ⟨⟨h.open', fun _ => rfl, ?_, h.stored⟩, ?_⟩
  · intro j hj' _
    have : s.job = some j := hj'
    rw [hj] at this; cases this
  · show copyAfter s.data _ = w.data r.1
    by_cases hc : r.2.length ≠ count
    · simp [copyAfter, hc]
    · have hc' : r.2.length = count := Classical.not_not.mp hc
      have hsil' := hsil _ (List.mem_cons_self)
      have hrp : r.1 = p := hr hc' (by
        intro hS
        exact hsil' ⟨hS.1, hS.2⟩)
      have hd := h.data (by simp [jobKind, hj])
      rw [hp] at hd
      have : copyAfter s.data (Reply.mk k (if r.2 = [] then none else some .operationFailed)
          (if r.2.length ≠ count then some (w.data r.1) else none) r.2) = s.data := by
        rw [if_neg hc]
        unfold copyAfter
        show (if k = .resolved ∧ _ then Tree.stop else if k = .released ∧ _ then .stop else s.data) = s.data
        rw [if_neg (fun h => hk h.1), if_neg (fun h => hk' h.1)]
      rw [this, hd, hrp]
      rfl

theorem renameLoop_ok (rem add : P → Name → Option P) (fs : List (Name × Name)) (p : P)
    (h : (renameLoop rem add p fs).2.length = fs.length) (h0 : (renameLoop rem add p fs).2 = []) :
    (renameLoop rem add p fs).1 = p := by
  rw [h0] at h
  have : fs = [] := List.length_eq_zero_iff.mp h.symm
  subst this
  rfl

theorem kept_request (w : World P) {s : State P} (h : DataInv w s) (r : Req)
    (hr : r ≠ .resolve .never) (hb : ∀ sel, r ≠ .build sel .never)
    (hnq : r ≠ .quit) : Kept w s (request w s r) := by
  cases r with
  | resolve m =>
    have hm : m ≠ .never := fun e => hr (by rw [e])
    simp only [request]
    unfold setupProject
    cases hj : s.job with
    | none =>
      refine fun _ => ⟨⟨h.open', ?_, ?_, h.stored⟩, rfl⟩
      · intro hc; exact absurd rfl hc
      · intro j hj' _; cases hj'; exact hm
    | some j =>
      show Kept w s (if j.kind = .resolve ∧ j.canceling = true then ({ s with stored := some m, job := some j }, [])
        else (s, [errorReply .resolved .busy]))
      by_cases hc : j.kind = .resolve ∧ j.canceling = true
      · rw [if_pos hc]
        rw [← hj]
        refine fun _ => ⟨⟨h.open', h.data, h.mode, ?_⟩, rfl⟩
        intro e
        exact hm (Option.some.inj e)
      · rw [if_neg hc]
        exact kept_error h _ rfl nofun nofun
  | build sel m =>
    exact kept_startJob h _ _ _ _ (fun _ e => hb sel (by rw [e]))
  | clean sel => exact kept_startJob h _ _ _ _ nofun
  | install sel => exact kept_startJob h _ _ _ _ nofun
  | addFiles a b fs =>
    simp only [request, editFiles]
    cases hp : prepare s a b with
    | some e => exact kept_error h _ rfl (fun he => prepare_ne hp (by cases he; rfl)) nofun
    | none =>
      obtain ⟨p, hpr⟩ := prepare_project hp
      simp only [hpr]
      exact kept_edit h (prepare_none hp) hpr _ _ _ (fun hl _ => editLoop_all_failed _ _ _ hl)
        nofun nofun
  | removeFiles a b fs =>
    simp only [request, editFiles]
    cases hp : prepare s a b with
    | some e => exact kept_error h _ rfl (fun he => prepare_ne hp (by cases he; rfl)) nofun
    | none =>
      obtain ⟨p, hpr⟩ := prepare_project hp
      simp only [hpr]
      exact kept_edit h (prepare_none hp) hpr _ _ _ (fun hl _ => editLoop_all_failed _ _ _ hl)
        nofun nofun
  | renameFiles a b fs =>
    simp only [request, renameFiles]
    cases hp : prepare s a b with
    | some e => exact kept_error h _ rfl (fun he => prepare_ne hp (by cases he; rfl)) nofun
    | none =>
      obtain ⟨p, hpr⟩ := prepare_project hp
      simp only [hpr]
      refine kept_edit h (prepare_none hp) hpr _ _ _ (fun hl hs => ?_) nofun nofun
      refine renameLoop_ok _ _ _ _ hl ?_
      by_cases h0 : (renameLoop (fun q x => w.remove q a b x) (fun q x => w.add q a b x) p fs).2 = []
      · exact h0
      · exact absurd ⟨by simp [h0], Or.inr rfl⟩ hs
  | addDependencies a b ds =>
    simp only [request, addDependencies]
    cases hp : prepare s a b with
    | some e => exact kept_error h _ rfl (fun he => prepare_ne hp (by cases he; rfl)) nofun
    | none =>
      obtain ⟨p, hpr⟩ := prepare_project hp
      have hj := prepare_none hp
      simp only [hpr]
      refine fun _ => ⟨⟨h.open', fun _ => rfl, ?_, h.stored⟩, rfl⟩
      intro j hj' _
      have : s.job = some j := hj'
      rw [hj] at this; cases this
  | runEnvironment a =>
    simp only [request, runEnvironment]
    cases hp : prerequisites s with
    | some e => exact kept_error h _ rfl (fun he => prerequisites_ne hp (by cases he; rfl)) nofun
    | none => exact kept_run h _ rfl nofun nofun
  | generatedFiles =>
    simp only [request, generatedFiles]
    cases hp : prerequisites s with
    | some e => exact kept_error h _ rfl (fun he => prerequisites_ne hp (by cases he; rfl)) nofun
    | none => exact kept_run h _ rfl nofun nofun
  | release =>
    simp only [request, releaseProject]
    by_cases hp : s.project.isNone = true
    · rw [if_pos hp]; exact kept_error h _ rfl nofun nofun
    · rw [if_neg hp]
      refine fun _ => ⟨⟨h.open', fun _ => rfl, nofun, nofun⟩, rfl⟩
  | quit => exact absurd rfl hnq
  | cancel =>
    simp only [request, cancelCurrent]
    cases hj : s.job with
    | none => exact kept_same h
    | some j =>
      refine fun _ => ⟨⟨h.open', ?_, ?_, nofun⟩, rfl⟩
      · intro hk
        exact h.data (by simpa [jobKind, hj, cancelJob] using hk)
      · intro j' hj' hk
        cases hj'
        exact h.mode j hj hk
  | unknown => exact kept_error h _ rfl nofun nofun

theorem copy_attach (old new : Tree) (m : Mode) (k : Kind) (hm : m ≠ .never)
    (hk' : k ≠ .released) :
    copyAfter old { kind := k, error := none, data := attach m old new } = new := by
  cases m with
  | never => exact absurd rfl hm
  | always => rfl
  | onlyIfChanged =>
    by_cases h : new = old
    · subst h
      have : attach .onlyIfChanged new new = none := by simp [attach]
      rw [this]
      unfold copyAfter
      show (if k = .resolved ∧ (none : Option Reason) = some .operationFailed then Tree.stop
        else if k = .released ∧ _ then .stop else new) = new
      rw [if_neg (fun h => nomatch h.2), if_neg (fun h => hk' h.1)]
    · have : attach .onlyIfChanged old new = some new := by simp [attach, h]
      rw [this]
      rfl

theorem kept_finished (w : World P) {s : State P} (h : DataInv w s) (r : Result P) :
    Kept w s (finished w s r) := by
  unfold finished
  cases hj : s.job with
  | none => exact kept_same h
  | some j =>
    show Kept w s (if s.quitting = true then ({ s with job := none }, [.closed]) else
      match j.kind with
      | .resolve => resolveFinished w s j r
      | .build => buildFinished w s j r
      | .clean => otherFinished s .cleaned r
      | .install => otherFinished s .installDone r)
    by_cases hq : s.quitting = true
    · rw [h.open'] at hq; cases hq
    · rw [if_neg hq]
      cases hk : j.kind with
      | resolve =>
        show Kept w s (resolveFinished w s j r)
        unfold resolveFinished
        cases hs : s.stored with
        | some m =>
          refine fun _ => ⟨⟨h.open', fun hc => absurd rfl hc, ?_, nofun⟩, rfl⟩
          intro j' hj' _
          cases hj'
          intro e
          exact h.stored (by rw [hs]; exact congrArg some e)
        | none =>
          cases r with
          | ok p =>
            refine fun _ => ⟨⟨h.open', fun _ => rfl, nofun, fun e => nomatch (show (none : Option Mode) = some .never from e)⟩, ?_⟩
            exact copy_attach _ _ _ _ (h.mode j hj (Or.inl hk)) nofun
          | failed p => exact fun _ => ⟨⟨h.open', fun _ => rfl, nofun, fun e => nomatch (show (none : Option Mode) = some .never from e)⟩, rfl⟩
      | build =>
        cases r with
        | ok p =>
          refine fun _ => ⟨⟨h.open', fun _ => rfl, nofun, h.stored⟩, ?_⟩
          exact copy_attach _ _ _ _ (h.mode j hj (Or.inr hk)) nofun
        | failed p =>
          intro hsil
          exact absurd ⟨rfl, Or.inl rfl⟩ (hsil _ List.mem_cons_self)
      | clean =>
        have hd := h.data (by simp [jobKind, hj, hk])
        exact fun _ => ⟨⟨h.open', fun _ => hd, nofun, h.stored⟩, by cases r <;> rfl⟩
      | install =>
        have hd := h.data (by simp [jobKind, hj, hk])
        exact fun _ => ⟨⟨h.open', fun _ => hd, nofun, h.stored⟩, by cases r <;> rfl⟩

theorem copy_from (w : World P) (es : List (Event P)) :
    ∀ (s : State P), DataInv w s → AsksForData es → NoQuit es →
      (∀ rep ∈ replies (traceFrom w s es), ¬ Silent rep) →
      (replies (traceFrom w s es)).foldl copyAfter s.data = (run w s es).1.data
        ∧ DataInv w (run w s es).1 := by
  induction es with
  | nil => intro s h _ _ _; exact ⟨rfl, h⟩
  | cons e es ih =>
    intro s h ha hn hsil
    rw [traceFrom_cons, replies_cons] at hsil ⊢
    rw [List.foldl_append]
    have hk : Kept w s (step w s e) := by
      cases e with
      | request r =>
        have hst : step w s (.request r) = request w s r := by simp [step, h.open']
        rw [hst]
        refine kept_request w h r ?_ ?_ ?_
        · intro e; exact ha.1 (by rw [e]; exact List.mem_cons_self)
        · intro sel e; exact ha.2 sel (by rw [e]; exact List.mem_cons_self)
        · intro e; exact hn (by rw [e]; exact List.mem_cons_self)
      | finished r => exact kept_finished w h r
    obtain ⟨h1, h2⟩ := hk (fun rep hrep => hsil rep (List.mem_append_left _ hrep))
    rw [h2]
    exact ih (step w s e).1 h1 ⟨fun h => ha.1 (List.mem_cons_of_mem _ h),
      fun sel h => ha.2 sel (List.mem_cons_of_mem _ h)⟩ (fun h => hn (List.mem_cons_of_mem _ h))
      (fun rep hrep => hsil rep (List.mem_append_right _ hrep))

end Verif.Api
