import Verif.Api.Lem

namespace Verif.Api

variable {P : Type}

/-! ### Never more replies than requests -/

/-- The replies of a type that are still to come: for the running job, and for the stored resolve
request. -/
def due (k : Kind) (s : State P) : Nat :=
  ((jobKind s).map (·.reply)).toList.count k + (if s.stored.isSome ∧ k = .resolved then 1 else 0)

theorem busy_cases (w : World P) {s : State P} {j : Job} (hj : s.job = some j) {r : Req} {k : Kind}
    (h : replyTo r = some k) (hr : r ≠ .release) (hres : ∀ m, r = .resolve m →
      ¬ (j.kind = .resolve ∧ j.canceling = true)) :
    (request w s r).1 = s ∧ ∃ rep, (request w s r).2 = [.reply rep] ∧ rep.kind = k
      ∧ rep.error ≠ none ∧ rep.data = none := by
  have hpre : prerequisites s = some .busy := by simp [prerequisites, hj]
  have hprep : ∀ a b, ∃ e, prepare s a b = some e := by
    intro a b
    unfold prepare
    cases hp : s.project with
    | none => exact ⟨.noProject, by simp⟩
    | some p => exact ⟨.busy, by simp [hj]⟩
  cases r with
  | resolve m =>
    cases h
    have := hres m rfl
    simp only [request, setupProject, hj]
    rw [if_neg this]
    exact ⟨rfl, _, rfl, rfl, nofun, rfl⟩
  | build sel m => cases h; simp only [request, startJob, hpre, true_and]; exact ⟨_, rfl, rfl, nofun, rfl⟩
  | clean sel => cases h; simp only [request, startJob, hpre, true_and]; exact ⟨_, rfl, rfl, nofun, rfl⟩
  | install sel => cases h; simp only [request, startJob, hpre, true_and]; exact ⟨_, rfl, rfl, nofun, rfl⟩
  | addFiles a b fs =>
    cases h
    obtain ⟨e, he⟩ := hprep a b
    simp only [request, editFiles, he, true_and]
    exact ⟨_, rfl, rfl, nofun, rfl⟩
  | removeFiles a b fs =>
    cases h
    obtain ⟨e, he⟩ := hprep a b
    simp only [request, editFiles, he, true_and]
    exact ⟨_, rfl, rfl, nofun, rfl⟩
  | renameFiles a b fs =>
    cases h
    obtain ⟨e, he⟩ := hprep a b
    simp only [request, renameFiles, he, true_and]
    exact ⟨_, rfl, rfl, nofun, rfl⟩
  | addDependencies a b ds =>
    cases h
    obtain ⟨e, he⟩ := hprep a b
    simp only [request, addDependencies, he, true_and]
    exact ⟨_, rfl, rfl, nofun, rfl⟩
  | runEnvironment a =>
    cases h; simp only [request, runEnvironment, hpre, true_and]; exact ⟨_, rfl, rfl, nofun, rfl⟩
  | generatedFiles =>
    cases h; simp only [request, generatedFiles, hpre, true_and]; exact ⟨_, rfl, rfl, nofun, rfl⟩
  | release => exact absurd rfl hr
  | quit => cases h
  | cancel => cases h
  | unknown => cases h; exact ⟨rfl, _, rfl, rfl, nofun, rfl⟩

theorem request_stored_none (w : World P) {s : State P} (hj : s.job = none) {r : Req} {k : Kind}
    (h : replyTo r = some k) : (request w s r).1.stored = s.stored ∨ (request w s r).1.stored = none := by
  cases r with
  | resolve m => simp only [request, setupProject, hj]; exact Or.inl rfl
  | build sel m => exact Or.inl (startJob_answered hj _ .build m _ rfl).2.2
  | clean sel => exact Or.inl (startJob_answered hj _ .clean .never _ rfl).2.2
  | install sel => exact Or.inl (startJob_answered hj _ .install .never _ rfl).2.2
  | addFiles a b fs => exact Or.inl (editFiles_answered w hj _ _ a b fs).2.2
  | removeFiles a b fs => exact Or.inl (editFiles_answered w hj _ _ a b fs).2.2
  | renameFiles a b fs => exact Or.inl (renameFiles_answered w hj a b fs).2.2
  | addDependencies a b ds => exact Or.inl (addDependencies_answered w hj a b ds).2.2
  | runEnvironment a =>
    simp only [request, runEnvironment]
    cases prerequisites s <;> exact Or.inl rfl
  | generatedFiles =>
    simp only [request, generatedFiles]
    cases prerequisites s <;> exact Or.inl rfl
  | release =>
    simp only [request, releaseProject]
    by_cases hp : s.project.isNone = true
    · rw [if_pos hp]; exact Or.inl rfl
    · rw [if_neg hp]; exact Or.inr rfl
  | quit => cases h
  | cancel => cases h
  | unknown => exact Or.inl rfl

theorem due_le_of {k : Kind} {s s' : State P} (h1 : jobKind s' = jobKind s)
    (h2 : s'.stored = s.stored ∨ s'.stored = none) : due k s' ≤ due k s := by
  unfold due
  rw [h1]
  rcases h2 with h | h
  · rw [h]; exact Nat.le_refl _
  · rw [h]; simp

theorem count_request (w : World P) (s : State P) (r : Req) (k : Kind) :
    ((repliesIn (request w s r).2).map (·.kind)).count k + due k (request w s r).1
      ≤ (replyTo r).toList.count k + due k s := by
  cases hr : replyTo r with
  | none =>
    have : r = .cancel ∨ r = .quit := by
      cases r <;> first | exact Or.inl rfl | exact Or.inr rfl | (cases hr; done)
    rcases this with h | h
    · subst h
      have hc : request w s .cancel = cancelCurrent s := rfl
      rw [hc]
      obtain ⟨h1, h2, _⟩ := cancel_step s
      rw [h1]
      have : due k (cancelCurrent s).1 ≤ due k s := by
        refine due_le_of h2 ?_
        unfold cancelCurrent
        cases s.job with
        | none => exact Or.inl rfl
        | some j => exact Or.inr rfl
      simpa [repliesIn] using this
    · subst h
      have hc : request w s .quit = quitSession s := rfl
      rw [hc]
      unfold quitSession
      cases hj : s.job with
      | none => simp [repliesIn, due, jobKind, hj]
      | some j => simp [repliesIn, due, jobKind, hj, cancelJob]
  | some k' =>
    cases hj : s.job with
    | none =>
      obtain ⟨ha, _, _⟩ := request_answered w hj hr
      have hst := request_stored_none w hj hr
      have hjk : jobKind s = none := by simp [jobKind, hj]
      have hstd : (if (request w s r).1.stored.isSome ∧ k = .resolved then 1 else 0)
          ≤ (if s.stored.isSome ∧ k = .resolved then 1 else 0) := by
        rcases hst with h | h
        · rw [h]; exact Nat.le_refl _
        · rw [h]; simp
      rcases ha with ⟨rep, ho, hk, hjn⟩ | ⟨jk, ps, ho, hk, hjn⟩
      · have hz : jobKind (request w s r).1 = none := by simp [jobKind, hjn]
        rw [ho]
        simp only [due, hz, hjk, repliesIn, List.map_cons, List.map_nil, hk, Option.map_none,
          Option.toList_none, Option.toList_some, List.count_nil]
        omega
      · rw [ho]
        simp only [due, hjn, hjk, repliesIn, List.map_nil, hk, Option.map_none, Option.map_some,
          Option.toList_none, Option.toList_some, List.count_nil]
        omega
    | some j =>
      by_cases hrel : r = .release
      · subst hrel
        cases hr
        simp only [request, releaseProject]
        by_cases hp : s.project.isNone = true
        · rw [if_pos hp]
          simp [repliesIn, errorReply]
        · rw [if_neg hp]
          have : due k ({ s with project := none, data := .stop, stored := none, job := none } :
              State P) = 0 := by simp [due, jobKind]
          simp [repliesIn, this]
      · by_cases hres : ∃ m, r = .resolve m ∧ j.kind = .resolve ∧ j.canceling = true
        · obtain ⟨m, hm, hc⟩ := hres
          subst hm
          cases hr
          simp only [request, setupProject, hj]
          rw [if_pos hc]
          simp only [repliesIn, List.map_nil, List.count_nil, due, jobKind, hj]
          by_cases hk : k = .resolved
          · subst hk; simp; omega
          · simp [hk]
        · obtain ⟨hs, rep, ho, hk, _⟩ := busy_cases w hj hr hrel
            (fun m hm hc => hres ⟨m, hm, hc⟩)
          rw [hs, ho]
          simp [repliesIn, hk]

theorem count_finished (w : World P) (s : State P) (r : Result P) (k : Kind) :
    ((repliesIn (finished w s r).2).map (·.kind)).count k + due k (finished w s r).1 ≤ due k s := by
  cases hj : s.job with
  | none => simp [finished, hj, repliesIn]
  | some j =>
    cases hq : s.quitting with
    | true =>
      simp only [finished, hj, hq, if_true]
      simp [repliesIn, due, jobKind]
    | false =>
      cases hs : s.stored with
      | none =>
        obtain ⟨⟨rep, ho, hk, _⟩, h1, _, h3⟩ := finished_answered w hj hq hs r
        rw [ho]
        simp [repliesIn, due, jobKind, h1, h3, hj, hs, hk]
      | some m =>
        cases hk : j.kind with
        | resolve =>
          simp only [finished, hj, hq, hk, resolveFinished, hs, startResolve]
          simp [repliesIn, due, jobKind, hj, hk]
        | build =>
          simp only [finished, hj, hq, hk, buildFinished]
          simp [repliesIn, due, jobKind, hj, hk, JobKind.reply, hs]
        | clean =>
          simp only [finished, hj, hq, hk, otherFinished]
          simp [repliesIn, due, jobKind, hj, hk, JobKind.reply, hs]
        | install =>
          simp only [finished, hj, hq, hk, otherFinished]
          simp [repliesIn, due, jobKind, hj, hk, JobKind.reply, hs]

theorem count_from (w : World P) (k : Kind) (es : List (Event P)) :
    ∀ s : State P, ((replies (traceFrom w s es)).map (·.kind)).count k
      ≤ (expected es).count k + due k s := by
  induction es with
  | nil => intro s; simp [traceFrom, replies, run]
  | cons e es ih =>
    intro s
    rw [traceFrom_cons, replies_cons, List.map_append, List.count_append]
    cases e with
    | request r =>
      show ((repliesIn (step w s (.request r)).2).map (·.kind)).count k
          + ((replies (traceFrom w (step w s (.request r)).1 es)).map (·.kind)).count k
        ≤ ((replyTo r).toList ++ expected es).count k + due k s
      rw [List.count_append]
      have h1 := ih (step w s (.request r)).1
      by_cases hq : s.quitting = true
      · have hst : step w s (.request r) = (s, []) := by simp [step, hq]
        rw [hst] at h1 ⊢
        simp only [repliesIn, List.map_nil, List.count_nil] at *
        omega
      · have hst : step w s (.request r) = request w s r := by simp [step, hq]
        have h2 := count_request w s r k
        rw [hst] at h1 ⊢
        omega
    | finished res =>
      show ((repliesIn (finished w s res).2).map (·.kind)).count k
          + ((replies (traceFrom w (finished w s res).1 es)).map (·.kind)).count k
        ≤ (expected es).count k + due k s
      have h1 := ih (finished w s res).1
      have h2 := count_finished w s res k
      omega

/-! ### Quit -/

theorem quit_silent (w : World P) (es : List (Event P)) :
    ∀ s : State P, s.quitting = true → replies (traceFrom w s es) = [] := by
  induction es with
  | nil => intro s _; simp [traceFrom, replies, run]
  | cons e es ih =>
    intro s hq
    rw [traceFrom_cons, replies_cons]
    cases e with
    | request r =>
      have hst : step w s (.request r) = (s, []) := by simp [step, hq]
      rw [hst, ih s hq]
      rfl
    | finished res =>
      cases hj : s.job with
      | none =>
        have hst : step w s (.finished res) = (s, []) := by simp [step, finished, hj]
        rw [hst, ih s hq]; rfl
      | some j =>
        have hst : step w s (.finished res) = ({ s with job := none }, [.closed]) := by
          simp [step, finished, hj, hq]
        rw [hst]
        exact ih _ hq

/-- The state after a history. -/
theorem run_append (w : World P) (es es' : List (Event P)) :
    ∀ s : State P, run w s (es ++ es')
      = ((run w (run w s es).1 es').1, (run w s es).2 ++ (run w (run w s es).1 es').2) := by
  induction es with
  | nil => intro s; rfl
  | cons e es ih =>
    intro s
    have h := ih (step w s e).1
    show ((run w (step w s e).1 (es ++ es')).1, (step w s e).2 :: (run w (step w s e).1 (es ++ es')).2)
      = _
    rw [h]
    rfl

theorem run_length (w : World P) (es : List (Event P)) :
    ∀ s : State P, (run w s es).2.length = es.length := by
  induction es with
  | nil => intro s; rfl
  | cons e es ih => intro s; show (run w (step w s e).1 es).2.length + 1 = _; rw [ih]; rfl

theorem traceFrom_append (w : World P) (es es' : List (Event P)) (s : State P) :
    traceFrom w s (es ++ es') = traceFrom w s es ++ traceFrom w (run w s es).1 es' := by
  unfold traceFrom
  rw [run_append]
  exact List.zip_append (run_length w es s).symm

end Verif.Api
