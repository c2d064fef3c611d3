import Verif.Exec.Term

/-
How the event history grows, and what follows for failures and cancellation.
-/

namespace Verif.Exec

/-- New work: commands are launched or a rule is applied. -/
def NewWork (e : Ev) : Prop := (∃ t d, e = .start t d) ∨ ∃ r d, e = .apply r d

theorem finishLoop_evs (why : Why) : ∀ (l : List Node) (s : St),
    ∃ evs, (l.foldl (finishNode why) s).log = evs ++ s.log ∧ ∀ e ∈ evs, ∃ n w, e = .completed n w
  | [], s => ⟨[], rfl, by simp⟩
  | n :: l, s => by
      obtain ⟨evs, h1, h2⟩ := finishLoop_evs why l (finishNode why s n)
      refine ⟨evs ++ [.completed n why], ?_, ?_⟩
      · rw [List.foldl_cons, h1]; simp [finishNode]
      · intro e he
        rcases List.mem_append.mp he with he | he
        · exact h2 e he
        · exact ⟨n, why, by simpa using he⟩

/-- New work in state `s`, listing everything it depends on, and what it is done for. -/
def WorkIn (cfg : Cfg) (s : St) (e : Ev) : Prop :=
  (∃ n, e = .start (s.g.tr n) (s.g.deps (s.g.tr n)) ∧ n ∈ s.leaves ∧ s.g.kind n = .gen ∧
    productOk cfg s n = true ∧ cfg.executeRulesOnly = false) ∨
  ∃ r, e = .apply r (s.g.children r) ∧ r ∈ s.leaves ∧ s.g.kind r = .rule ∧ productOk cfg s r = true

theorem WorkIn.newWork {cfg : Cfg} {s : St} {e : Ev} (h : WorkIn cfg s e) : NewWork e := by
  rcases h with ⟨t, h, _⟩ | ⟨r, h, _⟩
  · exact .inl ⟨_, _, h⟩
  · exact .inr ⟨_, _, h⟩

/-- `log'` continues `log` without new work and without failures. -/
def Quiet (log log' : List Ev) : Prop :=
  ∃ evs, log' = evs ++ log ∧ ∀ e ∈ evs, ¬ NewWork e ∧ ∀ t, e ≠ .failed t

theorem Quiet.refl (log : List Ev) : Quiet log log := ⟨[], rfl, by simp⟩

theorem Quiet.cons {log log' : List Ev} (h : Quiet log log') {e : Ev} (he : ¬ NewWork e)
    (hf : ∀ t, e ≠ .failed t) : Quiet log (e :: log') := by
  obtain ⟨evs, h1, h2⟩ := h
  refine ⟨e :: evs, by rw [h1]; rfl, fun e' he' => ?_⟩
  rcases List.mem_cons.mp he' with rfl | he'
  · exact ⟨he, hf⟩
  · exact h2 e' he'

theorem Quiet.trans {a b c : List Ev} (h : Quiet a b) (k : Quiet b c) : Quiet a c := by
  obtain ⟨e1, h1, h2⟩ := h
  obtain ⟨e2, k1, k2⟩ := k
  refine ⟨e2 ++ e1, by rw [k1, h1, List.append_assoc], fun e he => ?_⟩
  rcases List.mem_append.mp he with he | he
  · exact k2 e he
  · exact h2 e he

theorem quiet_finishLoop (why : Why) (l : List Node) (s : St) :
    Quiet s.log (l.foldl (finishNode why) s).log := by
  obtain ⟨evs, h1, h2⟩ := finishLoop_evs why l s
  refine ⟨evs, h1, fun e he => ?_⟩
  obtain ⟨n, w, rfl⟩ := h2 e he
  simp [NewWork]

theorem quiet_finish (s : St) : Quiet s.log (finish s).log :=
  (Quiet.refl _).cons (by simp [NewWork]) (by simp)

theorem quiet_cancelJobs (s : St) : Quiet s.log (cancelJobs s).log := by
  unfold cancelJobs
  split
  · exact .refl _
  · exact (Quiet.refl _).cons (by simp [NewWork]) (by simp)

theorem quiet_handleError (s : St) : Quiet s.log (handleError s).log := by
  unfold handleError abort
  have h0 : Quiet s.log ({ s with log := Ev.error :: s.log } : St).log :=
    (Quiet.refl _).cons (by simp [NewWork]) (by simp)
  split
  · exact h0.trans (quiet_finish _)
  · exact h0.trans (quiet_cancelJobs _)

theorem quiet_afterJob (cfg : Cfg) (ok : Bool) (s : St) : Quiet s.log (afterJob cfg ok s).log := by
  unfold afterJob
  dsimp only
  have h1 : Quiet s.log (if (!ok && !cfg.keepGoing) = true then cancelJobs s else s).log := by
    split
    · exact quiet_cancelJobs s
    · exact .refl _
  generalize (if (!ok && !cfg.keepGoing) = true then cancelJobs s else s) = s1 at *
  have h2 : Quiet s1.log (if s1.st = .running ∧ s1.cancelRequested = true
      then cancelJobs { s1 with explicitly := true } else s1).log := by
    split
    · exact quiet_cancelJobs { s1 with explicitly := true }
    · exact .refl _
  generalize (if s1.st = .running ∧ s1.cancelRequested = true
        then cancelJobs { s1 with explicitly := true } else s1) = s2 at *
  split
  · split
    · exact (h1.trans h2).trans (quiet_finish _)
    · exact h1.trans h2
  · exact h1.trans h2

/-- How one step extends the history: new work only appears while the scheduling loop runs, as the
    first event; a failure is the first event of its step. -/
theorem step_log {cfg : Cfg} {C : St → Node → Effect → Prop} {s s' : St} (h : Step cfg C s s') :
    Quiet s.log s'.log ∨
    (∃ e, WorkIn cfg s e ∧ s.phase = .scheduling ∧ Quiet (e :: s.log) s'.log) ∨
    (∃ j t, s.phase = .waiting ∧ Quiet (.failed t :: s.log) s'.log ∧
      s' = afterJob cfg false { endJob cfg s j t with log := .failed t :: s.log }) := by
  cases h with
  | popSkip l1 l2 n => exact .inl (.refl _)
  | popDelay l1 l2 n => exact .inl (.refl _)
  | popIgnore l1 l2 n =>
    exact .inl ((Quiet.refl _).cons (by simp [NewWork]) (by simp))
  | popSource l1 l2 n =>
    exact .inl ((Quiet.refl _).cons (by simp [NewWork]) (by simp))
  | popSkipTransformer l1 l2 n =>
    exact .inl (quiet_finishLoop _ _ { s with leaves := l1 ++ l2 })
  | popRun _ l1 l2 n hph hl _ _ _ hk hp hx hrun =>
    unfold runTransformer at hrun
    split at hrun
    · simp at hrun
    simp only [Option.some.injEq] at hrun
    subst hrun
    exact .inr (.inl ⟨_, .inl ⟨n, rfl, by rw [hl]; simp, hk, hp, hx⟩, hph, .refl _⟩)
  | popRule l1 l2 n e hph hl _ _ _ hk hp =>
    exact .inr (.inl ⟨_, .inr ⟨n, rfl, by rw [hl]; simp, hk, hp⟩, hph,
      (Quiet.refl _).cons (by simp [NewWork]) (by simp)⟩)
  | popThrow l1 l2 n k =>
    refine .inl (Quiet.trans ?_ (quiet_handleError _))
    exact quiet_finishLoop _ _ { s with leaves := l1 ++ l2 }
  | popRuleThrow l1 l2 n e hph hl _ _ _ hk hp =>
    exact .inr (.inl ⟨_, .inr ⟨n, rfl, by rw [hl]; simp, hk, hp⟩, hph, quiet_handleError (applyEffect
        { s with leaves := l1 ++ l2, log := .apply n (s.g.children n) :: s.log } e)⟩)
  | endLoop hph hl =>
    left
    dsimp only
    split
    · split
      · exact quiet_finish { s with leaves := s.leaves ++ s.delayed, delayed := [] }
      · exact .refl _
    · exact .refl _
  | finishLater => exact .inl (quiet_finish _)
  | jobEnds j t => exact .inl (.refl _)
  | jobOk j t =>
    left
    refine Quiet.trans ?_ (quiet_afterJob _ _ _)
    refine Quiet.trans ?_ (quiet_finishLoop _ _ _)
    exact (Quiet.refl _).cons (by simp [NewWork]) (by simp)
  | jobFail j t hph =>
    exact .inr (.inr ⟨j, t, hph, quiet_afterJob cfg false
      { endJob cfg s j t with log := .failed t :: s.log }, rfl⟩)
  | jobOkThrow j t k =>
    left
    refine Quiet.trans ?_ (quiet_handleError _)
    refine Quiet.trans ?_ (quiet_finishLoop _ _ _)
    exact (Quiet.refl _).cons (by simp [NewWork]) (by simp)
  | requestCancel => exact .inl (.refl _)
  | timer => exact .inl (quiet_cancelJobs s)

/-- No new work was begun after a failure. -/
def NoWorkAfterFailure : List Ev → Prop
  | [] => True
  | e :: pre => NoWorkAfterFailure pre ∧ (NewWork e → ∀ t, Ev.failed t ∉ pre)

theorem noWork_quiet {log log' : List Ev} (h : Quiet log log') (hn : NoWorkAfterFailure log) :
    NoWorkAfterFailure log' := by
  obtain ⟨evs, rfl, h2⟩ := h
  induction evs with
  | nil => exact hn
  | cons e evs ih =>
    exact ⟨ih fun e' he' => h2 e' (by simp [he']), fun hw => absurd hw (h2 e (by simp)).1⟩

theorem failed_quiet {log log' : List Ev} (h : Quiet log log') {t : Tr}
    (hf : Ev.failed t ∈ log') : Ev.failed t ∈ log := by
  obtain ⟨evs, rfl, h2⟩ := h
  rcases List.mem_append.mp hf with hf | hf
  · exact absurd rfl ((h2 _ hf).2 t)
  · exact hf

/-- The state never becomes running again. -/
theorem step_running {cfg : Cfg} {C : St → Node → Effect → Prop} {s s' : St}
    (h : Step cfg C s s') (hr : s'.st = .running) : s.st = .running := by
  cases h with
  | popSkip l1 l2 n => exact hr
  | popDelay l1 l2 n => exact hr
  | popIgnore l1 l2 n => exact hr
  | popSource l1 l2 n => exact hr
  | popSkipTransformer l1 l2 n =>
    unfold finishTransformer at hr
    rw [(finishLoop_frame _ _ _).2.2.2.1] at hr
    exact hr
  | popRun _ l1 l2 n hph _ _ _ _ _ _ _ hrun =>
    unfold runTransformer at hrun
    split at hrun
    · simp at hrun
    simp only [Option.some.injEq] at hrun
    subst hrun
    exact hr
  | popRule l1 l2 n e hph => exact hr
  | popThrow l1 l2 n k => exact absurd hr (handleError_st _)
  | popRuleThrow l1 l2 n e hph => exact absurd hr (handleError_st _)
  | endLoop hph hl =>
    dsimp only at hr
    split at hr
    · split at hr
      · simp [finish] at hr
      · exact hr
    · exact hr
  | finishLater => simp [finish] at hr
  | jobEnds j t => exact hr
  | jobOk j t =>
    have := (afterJob_frame _ _ _).2.2.2.2.2 hr
    unfold finishTransformer at this
    rw [(finishLoop_frame _ _ _).2.2.2.1] at this
    exact this
  | jobFail j t hph =>
    have := (afterJob_frame cfg false _).2.2.2.2.2 hr
    exact this
  | jobOkThrow j t k => exact absurd hr (handleError_st _)
  | requestCancel => exact hr
  | timer =>
    unfold cancelJobs at hr
    split at hr
    · exact hr
    · simp at hr

theorem afterJob_fail_st {cfg : Cfg} (hk : cfg.keepGoing = false) (s : St) :
    (afterJob cfg false s).st ≠ .running := by
  unfold afterJob
  simp only [hk, Bool.not_false, Bool.and_self, if_true]
  have h1 : (cancelJobs s).st = .canceling := by
    unfold cancelJobs; split
    · assumption
    · rfl
  generalize cancelJobs s = u at h1 ⊢
  have h2 : (if u.st = .running ∧ u.cancelRequested = true
      then cancelJobs { u with explicitly := true } else u) = u := by simp [h1]
  rw [h2, if_pos h1]
  split
  · simp [finish]
  · simp [h1]

theorem reach_noWork {cfg : Cfg} {C : St → Node → Effect → Prop}
    (hC : ∀ s r e, C s r e → SafeEffect s r e) {g : Graph} {roots : List Node} (hw : WF g)
    (hr : ∀ n ∈ roots, n ∈ g.nodes) (hk : cfg.keepGoing = false) {s : St}
    (h : Reach cfg C g roots s) :
    NoWorkAfterFailure s.log ∧ ((∃ t, Ev.failed t ∈ s.log) → s.st ≠ .running) := by
  induction h with
  | init => exact ⟨by simp [initial, updateLeaves, NoWorkAfterFailure], by simp [initial, updateLeaves]⟩
  | step s s' hreach hstep ih =>
    obtain ⟨i1, i2⟩ := ih
    rcases step_log hstep with hq | ⟨e, he, hph, hq⟩ | ⟨j, t, hph, hq, rfl⟩
    · refine ⟨noWork_quiet hq i1, fun ⟨t, ht⟩ hrun => ?_⟩
      exact i2 ⟨t, failed_quiet hq ht⟩ (step_running hstep hrun)
    · have hrun := (reach_inv hC hw hr hreach).1.scheduling hph
      have hnf : ∀ t, Ev.failed t ∉ s.log := fun t ht => i2 ⟨t, ht⟩ hrun
      refine ⟨noWork_quiet hq ⟨i1, fun _ => hnf⟩, fun ⟨t, ht⟩ _ => ?_⟩
      have := failed_quiet hq ht
      rcases List.mem_cons.mp this with h1 | h1
      · subst h1; simp [WorkIn] at he
      · exact hnf t h1
    · refine ⟨noWork_quiet hq ⟨i1, fun hwk => ?_⟩, fun _ => afterJob_fail_st hk _⟩
      simp [NewWork] at hwk

theorem abort_done (s : St) (hph : (abort s).phase = .done) : Finished (abort s).log := by
  unfold abort at *
  split at hph
  · rename_i h; rw [if_pos h]; exact ⟨_, List.mem_cons_self⟩
  · simp at hph

/-- The build only stops by announcing its end. -/
theorem done_finished {cfg : Cfg} {C : St → Node → Effect → Prop} {g : Graph} {roots : List Node}
    {s : St} (h : Reach cfg C g roots s) (hd : s.phase = .done) : Finished s.log := by
  have fin : ∀ s : St, Finished (finish s).log := fun s => ⟨_, List.mem_cons_self⟩
  have ext : ∀ {l l' : List Ev}, Quiet l l' → Finished l → Finished l' := by
    rintro l l' ⟨evs, rfl, _⟩ ⟨b, hb⟩
    exact ⟨b, by simp [hb]⟩
  have cj : ∀ s : St, (cancelJobs s).phase = s.phase := by
    intro s; unfold cancelJobs; split <;> rfl
  have aft : ∀ ok (s : St), (s.phase = .done → Finished s.log) → (afterJob cfg ok s).phase = .done →
      Finished (afterJob cfg ok s).log := by
    intro ok s hs hph
    have hq := quiet_afterJob cfg ok s
    unfold afterJob at hph hq ⊢
    dsimp only at hph hq ⊢
    have h1 : (if (!ok && !cfg.keepGoing) = true then cancelJobs s else s).phase = s.phase := by
      split
      · exact cj s
      · rfl
    generalize (if (!ok && !cfg.keepGoing) = true then cancelJobs s else s) = s1 at *
    have h2 : (if s1.st = .running ∧ s1.cancelRequested = true
        then cancelJobs { s1 with explicitly := true } else s1).phase = s.phase := by
      split
      · rw [cj]; exact h1
      · exact h1
    generalize (if s1.st = .running ∧ s1.cancelRequested = true
          then cancelJobs { s1 with explicitly := true } else s1) = s2 at *
    split at hph
    · split at hph
      · rename_i h3 h4
        rw [if_pos h3, if_pos h4]; exact fin _
      · exact ext hq (hs (h2 ▸ hph))
    · simp at hph
  induction h with
  | init => simp [initial, updateLeaves] at hd
  | step s s' _ hstep ih =>
    cases hstep with
    | popSkip l1 l2 n hp => rw [hp] at hd; simp at hd
    | popDelay l1 l2 n hp => rw [hp] at hd; simp at hd
    | popIgnore l1 l2 n hp => simp [finishNode, hp] at hd
    | popSource l1 l2 n hp => simp [finishNode, hp] at hd
    | popSkipTransformer l1 l2 n hp =>
      unfold finishTransformer at hd
      rw [(finishLoop_frame _ _ _).2.2.1] at hd
      rw [hp] at hd; simp at hd
    | popRun _ l1 l2 n hp _ _ _ _ _ _ _ hrun =>
      unfold runTransformer at hrun
      split at hrun
      · simp at hrun
      simp only [Option.some.injEq] at hrun
      subst hrun
      rw [hp] at hd; simp at hd
    | popRule l1 l2 n e hp =>
      simp [executeRule, finishNode, updateLeaves, applyEffect, hp] at hd
    | popThrow l1 l2 n k hp => exact abort_done _ hd
    | popRuleThrow l1 l2 n e hp => exact abort_done _ hd
    | endLoop hp =>
      dsimp only at hd ⊢
      split at hd
      · split at hd
        · rename_i h1 h2
          rw [if_pos h1, if_pos h2]; exact fin _
        · simp at hd
      · simp at hd
    | finishLater => exact fin _
    | jobEnds j t => exact ih hd
    | jobOk j t hp =>
      refine aft true _ (fun h => ?_) hd
      unfold finishTransformer at h
      rw [(finishLoop_frame _ _ _).2.2.1] at h
      simp [endJob, hp] at h
    | jobFail j t hp =>
      refine aft false _ (fun h => ?_) hd
      simp [endJob, hp] at h
    | jobOkThrow j t k hp => exact abort_done _ hd
    | requestCancel => exact ih hd
    | timer =>
      rw [cj] at hd
      exact ext (quiet_cancelJobs s) (ih hd)

/-! ### Cancellation requests -/

/-- Zero or more steps. -/
inductive Steps (cfg : Cfg) (C : St → Node → Effect → Prop) : St → St → Prop
  | refl (s : St) : Steps cfg C s s
  | tail (s t u : St) : Steps cfg C s t → Step cfg C t u → Steps cfg C s u

theorem handleError_phase (s : St) : (handleError s).phase ≠ .scheduling := by
  unfold handleError abort
  split
  · simp [finish]
  · simp

theorem afterJob_phase (cfg : Cfg) (ok : Bool) (s : St) (hc : s.cancelRequested = true)
    (hst : s.st ≠ .idle) (hph : s.phase ≠ .scheduling) :
    (afterJob cfg ok s).phase ≠ .scheduling := by
  unfold afterJob
  dsimp only
  have hcj : ∀ s : St, (cancelJobs s).st = .canceling := by
    intro s; unfold cancelJobs; split
    · assumption
    · rfl
  have hcp : ∀ s : St, (cancelJobs s).phase = s.phase := by
    intro s; unfold cancelJobs; split <;> rfl
  have hcc : ∀ s : St, (cancelJobs s).cancelRequested = s.cancelRequested := by
    intro s; unfold cancelJobs; split <;> rfl
  have h1 : (if (!ok && !cfg.keepGoing) = true then cancelJobs s else s).st ≠ .idle ∧
      (if (!ok && !cfg.keepGoing) = true then cancelJobs s else s).cancelRequested = true ∧
      (if (!ok && !cfg.keepGoing) = true then cancelJobs s else s).phase ≠ .scheduling := by
    split
    · rw [hcj, hcc, hcp]; exact ⟨by simp, hc, hph⟩
    · exact ⟨hst, hc, hph⟩
  generalize (if (!ok && !cfg.keepGoing) = true then cancelJobs s else s) = s1 at *
  obtain ⟨a1, a2, a3⟩ := h1
  have h2 : (if s1.st = .running ∧ s1.cancelRequested = true
      then cancelJobs { s1 with explicitly := true } else s1).st = .canceling ∧
      (if s1.st = .running ∧ s1.cancelRequested = true
      then cancelJobs { s1 with explicitly := true } else s1).phase ≠ .scheduling := by
    split
    · rw [hcj, hcp]; exact ⟨rfl, a3⟩
    · rename_i hn
      refine ⟨?_, a3⟩
      cases hs : s1.st with
      | idle => exact absurd hs a1
      | running => exact absurd ⟨hs, a2⟩ hn
      | canceling => rfl
  generalize (if s1.st = .running ∧ s1.cancelRequested = true
        then cancelJobs { s1 with explicitly := true } else s1) = s2 at *
  rw [if_pos h2.1]
  split
  · simp [finish]
  · exact h2.2

/-- Once a request is in and no scheduling pass is under way, none begins any more. -/
theorem step_requested {cfg : Cfg} {C : St → Node → Effect → Prop} {s s' : St}
    (hi : Inv none s) (h : Step cfg C s s')
    (hc : s.cancelRequested = true) (hph : s.phase ≠ .scheduling) :
    s'.cancelRequested = true ∧ s'.phase ≠ .scheduling ∧
    ∃ evs, s'.log = evs ++ s.log ∧ ∀ e ∈ evs, ¬ NewWork e := by
  have hlog : ∃ evs, s'.log = evs ++ s.log ∧ ∀ e ∈ evs, ¬ NewWork e := by
    rcases step_log h with ⟨evs, h1, h2⟩ | ⟨e, he, hp, hq⟩ | ⟨j, t, hp, ⟨evs, h1, h2⟩, _⟩
    · exact ⟨evs, h1, fun e he => (h2 e he).1⟩
    · exact absurd hp hph
    · refine ⟨evs ++ [.failed t], by rw [h1]; simp, fun e he => ?_⟩
      rcases List.mem_append.mp he with he | he
      · exact (h2 e he).1
      · simp only [List.mem_singleton] at he; subst he; simp [NewWork]
  refine ⟨?_, ?_, hlog⟩
  all_goals cases h with
    | popSkip l1 l2 n hp => exact absurd hp hph
    | popDelay l1 l2 n hp => exact absurd hp hph
    | popIgnore l1 l2 n hp => exact absurd hp hph
    | popSource l1 l2 n hp => exact absurd hp hph
    | popSkipTransformer l1 l2 n hp => exact absurd hp hph
    | popRun _ l1 l2 n hp => exact absurd hp hph
    | popRule l1 l2 n e hp => exact absurd hp hph
    | popThrow l1 l2 n k hp => exact absurd hp hph
    | popRuleThrow l1 l2 n e hp => exact absurd hp hph
    | endLoop hp => exact absurd hp hph
    | finishLater => first | exact hc | simp [finish]
    | jobEnds j t => first | exact hc | exact hph
    | jobOk j t hp =>
      have hidle := hi.active (by simp [hp])
      first
      | (rw [(afterJob_frame _ _ _).1]; unfold finishTransformer
         rw [(finishLoop_frame _ _ _).2.2.2.2.2.2.2.2.2]; exact hc)
      | (refine afterJob_phase cfg true _ ?_ ?_ ?_ <;> unfold finishTransformer
         · rw [(finishLoop_frame _ _ _).2.2.2.2.2.2.2.2.2]; exact hc
         · rw [(finishLoop_frame _ _ _).2.2.2.1]; exact hidle
         · rw [(finishLoop_frame _ _ _).2.2.1]; exact hph)
    | jobFail j t hp =>
      have hidle := hi.active (by simp [hp])
      first
      | (rw [(afterJob_frame _ _ _).1]; exact hc)
      | exact afterJob_phase cfg false _ hc hidle hph
    | jobOkThrow j t k =>
      first
      | exact handleError_phase _
      | (unfold handleError abort
         split
         · show (finishTransformer _ _ _ _).cancelRequested = true
           unfold finishTransformer
           rw [(finishLoop_frame _ _ _).2.2.2.2.2.2.2.2.2]; exact hc
         · show (cancelJobs _).cancelRequested = true
           have hcc : ∀ s : St, (cancelJobs s).cancelRequested = s.cancelRequested := by
             intro s; unfold cancelJobs; split <;> rfl
           rw [hcc]
           show (finishTransformer _ _ _ _).cancelRequested = true
           unfold finishTransformer
           rw [(finishLoop_frame _ _ _).2.2.2.2.2.2.2.2.2]; exact hc)
    | requestCancel => first | rfl | exact hph
    | timer =>
      unfold cancelJobs
      split
      · first | exact hc | exact hph
      · first | exact hc | exact hph

end Verif.Exec
