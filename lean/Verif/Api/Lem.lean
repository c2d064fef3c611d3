import Verif.Api.Spec

namespace Verif.Api

variable {P : Type}

/-- What a client sees from a state on. -/
def traceFrom (w : World P) (s : State P) (es : List (Event P)) : List (Event P × List Out) :=
  es.zip (run w s es).2

theorem traceFrom_cons (w : World P) (s : State P) (e : Event P) (es : List (Event P)) :
    traceFrom w s (e :: es) = (e, (step w s e).2) :: traceFrom w (step w s e).1 es := rfl

theorem replies_cons (e : Event P) (os : List Out) (t : List (Event P × List Out)) :
    replies ((e, os) :: t) = repliesIn os ++ replies t := by simp [replies]

def jobKind (s : State P) : Option JobKind := s.job.map (·.kind)

/-! ### Shape of the answers -/

/-- What a request can lead to when no job runs. -/
def Answered (k : Kind) (s' : State P) (os : List Out) : Prop :=
  (∃ rep, os = [.reply rep] ∧ rep.kind = k ∧ s'.job = none)
    ∨ ∃ jk ps, os = [.start jk ps] ∧ jk.reply = k ∧ jobKind s' = some jk

theorem startJob_answered {s : State P} (hj : s.job = none) (k : Kind) (jk : JobKind) (m : Mode)
    (ps : List Product) (h : jk.reply = k) :
    Answered k (startJob s k jk m ps).1 (startJob s k jk m ps).2
      ∧ (startJob s k jk m ps).1.quitting = s.quitting ∧ (startJob s k jk m ps).1.stored = s.stored := by
  unfold startJob
  cases hp : prerequisites s with
  | some e => exact ⟨Or.inl ⟨_, rfl, rfl, hj⟩, rfl, rfl⟩
  | none => exact ⟨Or.inr ⟨_, _, rfl, h, rfl⟩, rfl, rfl⟩

theorem prepare_project {s : State P} {a b : Name} (h : prepare s a b = none) :
    ∃ p, s.project = some p := by
  unfold prepare at h
  cases hp : s.project with
  | none => rw [hp] at h; simp at h
  | some p => exact ⟨p, rfl⟩

theorem editFiles_answered (w : World P) {s : State P} (hj : s.job = none) (k : Kind)
    (f : P → Name → Name → Name → Option P) (a b : Name) (fs : List Name) :
    Answered k (editFiles w s k f a b fs).1 (editFiles w s k f a b fs).2
      ∧ (editFiles w s k f a b fs).1.quitting = s.quitting
      ∧ (editFiles w s k f a b fs).1.stored = s.stored := by
  unfold editFiles
  cases hp : prepare s a b with
  | some e => exact ⟨Or.inl ⟨_, rfl, rfl, hj⟩, rfl, rfl⟩
  | none =>
    obtain ⟨p, hq⟩ := prepare_project hp
    rw [hq]
    exact ⟨Or.inl ⟨_, rfl, rfl, hj⟩, rfl, rfl⟩

theorem renameFiles_answered (w : World P) {s : State P} (hj : s.job = none) (a b : Name)
    (fs : List (Name × Name)) :
    Answered .filesRenamed (renameFiles w s a b fs).1 (renameFiles w s a b fs).2
      ∧ (renameFiles w s a b fs).1.quitting = s.quitting
      ∧ (renameFiles w s a b fs).1.stored = s.stored := by
  unfold renameFiles
  cases hp : prepare s a b with
  | some e => exact ⟨Or.inl ⟨_, rfl, rfl, hj⟩, rfl, rfl⟩
  | none =>
    obtain ⟨p, hq⟩ := prepare_project hp
    rw [hq]
    exact ⟨Or.inl ⟨_, rfl, rfl, hj⟩, rfl, rfl⟩

theorem addDependencies_answered (w : World P) {s : State P} (hj : s.job = none) (a b : Name)
    (ds : List Name) :
    Answered .dependenciesAdded (addDependencies w s a b ds).1 (addDependencies w s a b ds).2
      ∧ (addDependencies w s a b ds).1.quitting = s.quitting
      ∧ (addDependencies w s a b ds).1.stored = s.stored := by
  unfold addDependencies
  cases hp : prepare s a b with
  | some e => exact ⟨Or.inl ⟨_, rfl, rfl, hj⟩, rfl, rfl⟩
  | none =>
    obtain ⟨p, hq⟩ := prepare_project hp
    rw [hq]
    exact ⟨Or.inl ⟨_, rfl, rfl, hj⟩, rfl, rfl⟩

theorem request_answered (w : World P) {s : State P} (hj : s.job = none) {r : Req} {k : Kind}
    (h : replyTo r = some k) :
    Answered k (request w s r).1 (request w s r).2
      ∧ (request w s r).1.quitting = s.quitting
      ∧ (s.stored = none → (request w s r).1.stored = none) := by
  cases r with
  | resolve m =>
    cases h
    simp only [request, setupProject, hj]
    exact ⟨Or.inr ⟨_, _, rfl, rfl, rfl⟩, rfl, fun h => h⟩
  | build sel m =>
    cases h
    have := startJob_answered hj .built .build m (jobProducts s.data (getSelection s.data sel)) rfl
    exact ⟨this.1, this.2.1, fun h => this.2.2.trans h⟩
  | clean sel =>
    cases h
    have := startJob_answered hj .cleaned .clean .never
      (cleanProducts s.data (getSelection s.data sel)) rfl
    exact ⟨this.1, this.2.1, fun h => this.2.2.trans h⟩
  | install sel =>
    cases h
    have := startJob_answered hj .installDone .install .never
      (jobProducts s.data (getSelection s.data sel)) rfl
    exact ⟨this.1, this.2.1, fun h => this.2.2.trans h⟩
  | addFiles a b fs =>
    cases h
    have := editFiles_answered w hj .filesAdded w.add a b fs
    exact ⟨this.1, this.2.1, fun h => this.2.2.trans h⟩
  | removeFiles a b fs =>
    cases h
    have := editFiles_answered w hj .filesRemoved w.remove a b fs
    exact ⟨this.1, this.2.1, fun h => this.2.2.trans h⟩
  | renameFiles a b fs =>
    cases h
    have := renameFiles_answered w hj a b fs
    exact ⟨this.1, this.2.1, fun h => this.2.2.trans h⟩
  | addDependencies a b ds =>
    cases h
    have := addDependencies_answered w hj a b ds
    exact ⟨this.1, this.2.1, fun h => this.2.2.trans h⟩
  | runEnvironment a =>
    cases h
    simp only [request, runEnvironment]
    cases prerequisites s with
    | some e => exact ⟨Or.inl ⟨_, rfl, rfl, hj⟩, rfl, fun h => h⟩
    | none => exact ⟨Or.inl ⟨_, rfl, rfl, hj⟩, rfl, fun h => h⟩
  | generatedFiles =>
    cases h
    simp only [request, generatedFiles]
    cases prerequisites s with
    | some e => exact ⟨Or.inl ⟨_, rfl, rfl, hj⟩, rfl, fun h => h⟩
    | none => exact ⟨Or.inl ⟨_, rfl, rfl, hj⟩, rfl, fun h => h⟩
  | release =>
    cases h
    simp only [request, releaseProject]
    by_cases hp : s.project.isNone = true
    · rw [if_pos hp]; exact ⟨Or.inl ⟨_, rfl, rfl, hj⟩, rfl, fun h => h⟩
    · rw [if_neg hp]; exact ⟨Or.inl ⟨_, rfl, rfl, rfl⟩, rfl, fun _ => rfl⟩
  | quit => cases h
  | cancel => cases h
  | unknown => cases h; exact ⟨Or.inl ⟨_, rfl, rfl, hj⟩, rfl, fun h => h⟩

theorem cancel_step (s : State P) :
    (cancelCurrent s).2 = [] ∧ jobKind (cancelCurrent s).1 = jobKind s
      ∧ (cancelCurrent s).1.quitting = s.quitting
      ∧ (s.stored = none → (cancelCurrent s).1.stored = none)
      ∧ (cancelCurrent s).1.project = s.project ∧ (cancelCurrent s).1.data = s.data := by
  unfold cancelCurrent
  cases hj : s.job with
  | none => exact ⟨rfl, rfl, rfl, fun h => h, rfl, rfl⟩
  | some j => exact ⟨rfl, by simp [jobKind, hj, cancelJob], rfl, fun _ => rfl, rfl, rfl⟩

/-- The end of a job that was not superseded. -/
theorem finished_answered (w : World P) {s : State P} {j : Job} (hj : s.job = some j)
    (hq : s.quitting = false) (hs : s.stored = none) (r : Result P) :
    (∃ rep, (finished w s r).2 = [.reply rep] ∧ rep.kind = j.kind.reply
        ∧ (rep.error.isSome ↔ ∃ p, r = .failed p))
      ∧ (finished w s r).1.job = none ∧ (finished w s r).1.quitting = false
      ∧ (finished w s r).1.stored = none := by
  have he : ((match r with
      | .ok _ => none
      | .failed _ => some Reason.operationFailed : Option Reason).isSome = true)
      ↔ ∃ p, r = .failed p := by
    cases r with
    | ok p => simp
    | failed p => simp
  simp only [finished, hj, hq]
  cases hk : j.kind with
  | resolve =>
    simp only [resolveFinished, hs]
    exact ⟨⟨_, rfl, rfl, he⟩, rfl, hq, rfl⟩
  | build => exact ⟨⟨_, rfl, rfl, he⟩, rfl, hq, hs⟩
  | clean => exact ⟨⟨_, rfl, rfl, he⟩, rfl, hq, hs⟩
  | install => exact ⟨⟨_, rfl, rfl, he⟩, rfl, hq, hs⟩

/-! ### One reply per request -/

theorem one_reply_from (w : World P) (es : List (Event P)) :
    ∀ (s : State P), s.quitting = false → s.stored = none → NoQuit es →
      Polite (jobKind s).toList.length (traceFrom w s es) →
      (replies (traceFrom w s es)).map (·.kind)
          ++ ((running (jobKind s) (traceFrom w s es)).map (·.reply)).toList
        = ((jobKind s).map (·.reply)).toList ++ expected es := by
  induction es with
  | nil => intro s _ _ _ _; simp [traceFrom, replies, running, expected, run]
  | cons e es ih =>
    intro s hq hs hn hpol
    have hn' : NoQuit es := fun h => hn (List.mem_cons_of_mem _ h)
    rw [traceFrom_cons] at hpol ⊢
    rw [replies_cons]
    cases e with
    | request r =>
      have hstep : step w s (.request r) = request w s r := by simp [step, hq]
      rw [hstep] at hpol ⊢
      obtain ⟨hp1, hp2⟩ := hpol
      show (repliesIn (request w s r).2 ++ replies (traceFrom w (request w s r).1 es)).map (·.kind)
        ++ ((running (lastStart (jobKind s) (request w s r).2)
              (traceFrom w (request w s r).1 es)).map (·.reply)).toList
        = ((jobKind s).map (·.reply)).toList ++ ((replyTo r).toList ++ expected es)
      cases hr : replyTo r with
      | none =>
        have hc : r = .cancel := by
          cases r <;> first | rfl | (cases hr; done) | skip
          exact absurd (List.mem_cons_self) hn
        subst hc
        have hstepc : request w s .cancel = cancelCurrent s := rfl
        rw [hstepc] at hp2 ⊢
        obtain ⟨h1, h2, h3, h4, _, _⟩ := cancel_step s
        rw [h1] at hp2 ⊢
        rw [hr] at hp2
        have := ih (cancelCurrent s).1 (h3.trans hq) (h4 hs) hn'
        rw [h2] at this
        have := this (by simpa [repliesIn] using hp2)
        simpa [repliesIn, lastStart] using this
      | some k =>
        have hj : s.job = none := by
          have := hp1 (by rw [hr]; rfl)
          cases hjob : s.job with
          | none => rfl
          | some j => rw [jobKind, hjob] at this; simp at this
        have hjk : jobKind s = none := by simp [jobKind, hj]
        obtain ⟨ha, hb, hc⟩ := request_answered w hj hr
        have ih' := ih (request w s r).1 (hb.trans hq) (hc hs) hn'
        rw [hr, hjk] at hp2
        rw [hjk]
        rcases ha with ⟨rep, ho, hk, hjn⟩ | ⟨jk, ps, ho, hk, hjn⟩
        · rw [ho] at hp2 ⊢
          have hz : jobKind (request w s r).1 = none := by simp [jobKind, hjn]
          rw [hz] at ih'
          have := ih' (by simpa [repliesIn] using hp2)
          simp only [repliesIn, lastStart, List.map_append, List.map_cons, List.map_nil,
            Option.map_none, Option.toList_none, List.nil_append, Option.toList_some,
            List.cons_append, hk] at this ⊢
          rw [this]
        · rw [ho] at hp2 ⊢
          rw [hjn] at ih'
          have := ih' (by simpa [repliesIn] using hp2)
          simp only [repliesIn, lastStart, List.nil_append, Option.map_none, Option.toList_none,
            Option.map_some, Option.toList_some, hk] at this ⊢
          exact this
    | finished res =>
      have hp2 : Polite ((jobKind s).toList.length - (repliesIn (finished w s res).2).length)
          (traceFrom w (finished w s res).1 es) := hpol
      show (repliesIn (finished w s res).2 ++ replies (traceFrom w (finished w s res).1 es)).map
          (·.kind)
        ++ ((running (lastStart none (finished w s res).2)
              (traceFrom w (finished w s res).1 es)).map (·.reply)).toList
        = ((jobKind s).map (·.reply)).toList ++ expected es
      cases hj : s.job with
      | none =>
        have hf : finished w s res = (s, []) := by simp [finished, hj]
        rw [hf] at hp2 ⊢
        have hjk : jobKind s = none := by simp [jobKind, hj]
        have := ih s hq hs hn' (by simpa [repliesIn] using hp2)
        rw [hjk] at this ⊢
        simpa [repliesIn, lastStart] using this
      | some j =>
        obtain ⟨⟨rep, ho, hk, _⟩, h1, h2, h3⟩ := finished_answered w hj hq hs res
        have hjk : jobKind s = some j.kind := by simp [jobKind, hj]
        have hz : jobKind (finished w s res).1 = none := by simp [jobKind, h1]
        rw [ho, hjk] at hp2
        rw [ho, hjk]
        have ih' := ih (finished w s res).1 h2 h3 hn'
        rw [hz] at ih'
        have := ih' (by simpa [repliesIn] using hp2)
        simp only [repliesIn, lastStart, List.map_append, List.map_cons, List.map_nil,
          Option.map_none, Option.toList_none, List.nil_append, Option.map_some,
          Option.toList_some, List.cons_append, hk] at this ⊢
        rw [this]

end Verif.Api
