import Verif.Job.InvP
/-!
# A job in progress can always finish, unless a process has timed out
-/
namespace Verif.Job

/-- Events that need nobody's help: no new run, no cancellation, no timeout, no lost connection,
and no script engine that is busy at the wrong moment. -/
def Quiet : Ev → Bool
  | .run _ _ | .cancel _ | .watchP _ | .watchJ | .socketError _ => false
  | .zeroP a | .zeroJ a | .delayedError a | .delayedFinished a | .clientReceives a
  | .jsFinished a => !a
  | _ => true

def NoTimeout (s : St) : Prop := Obs.timeout .process ∉ s.log

theorem ever_log : ∀ (l : List Obs) (m : Mon), accept l = some m → m.everTimedOut = true →
    Obs.timeout .process ∈ l
  | [], m, h, he => by
    simp [accept] at h; subst h; simp [Mon.init] at he
  | o :: l, m, h, he => by
    cases ha : accept l with
    | none => simp [accept, ha] at h
    | some m0 =>
      rw [accept_cons _ _ _ ha] at h
      by_cases h0 : m0.everTimedOut = true
      · exact List.mem_cons_of_mem _ (ever_log l m0 ha h0)
      · cases o with
        | timeout k =>
          cases k with
          | process => exact List.mem_cons_self
          | js =>
            simp only [Mon.next] at h
            split at h
            · cases h
            · simp only [Option.some.injEq] at h; subst h; exact absurd he h0
        | _ =>
          simp only [Mon.next] at h
          (repeat' split at h) <;> simp at h <;> subst h <;> exact absurd he h0

/-! No event but the watchdog reports a timeout of a process. -/

theorem NT_setFinished (s : St) (h : NoTimeout s) : NoTimeout (setFinished s) := by
  simpa [NoTimeout, setFinished] using h

theorem NT_failed (s : St) (h : NoTimeout s) : NoTimeout (onCommandFailed s) := by
  unfold onCommandFailed
  split
  · simpa [NoTimeout, St.say] using h
  · split <;> exact NT_setFinished _ (by simpa [NoTimeout] using h)

theorem NT_pFailed (s : St) (h : NoTimeout s) : NoTimeout (pFailed s) :=
  NT_failed _ (by simpa [NoTimeout] using h)

theorem NT_processError (a : Bool) (s : St) (h : NoTimeout s) : NoTimeout (onProcessError a s) := by
  unfold onProcessError
  split
  · simpa [NoTimeout] using h
  · split
    · exact h
    · exact NT_pFailed _ h

theorem NT_startTimeoutP (c : Cmd) (s : St) (h : NoTimeout s) : NoTimeout (startTimeoutP c s) := by
  unfold startTimeoutP; split <;> simpa [NoTimeout] using h

theorem NT_startTimeoutJ (c : Cmd) (s : St) (h : NoTimeout s) : NoTimeout (startTimeoutJ c s) := by
  unfold startTimeoutJ; split <;> simpa [NoTimeout] using h

theorem NT_processStart (a : Bool) (s : St) (h : NoTimeout s) : NoTimeout (processStart a s) := by
  unfold processStart
  split
  · exact NT_processError _ _ (by simpa [NoTimeout, St.say] using h)
  · split <;> simpa [NoTimeout, processDoStart] using h

theorem NT_startProcess (a : Bool) (c : Cmd) (s : St) (h : NoTimeout s) :
    NoTimeout (startProcess a c s) := by
  unfold startProcess
  simp only
  split
  · simpa [NoTimeout, St.say] using h
  · split
    · simpa [NoTimeout] using h
    · split
      · exact NT_pFailed _ (by simpa [NoTimeout, St.say] using h)
      · exact NT_startTimeoutP _ _ (NT_processStart _ _ (by simpa [NoTimeout] using h))

theorem NT_startJs (c : Cmd) (s : St) (h : NoTimeout s) : NoTimeout (startJs c s) := by
  unfold startJs
  split
  · simpa [NoTimeout, St.say] using h
  · split
    · simpa [NoTimeout] using h
    · exact NT_startTimeoutJ _ _ (by simpa [NoTimeout] using h)

theorem NT_runNext (a : Bool) (s : St) (h : NoTimeout s) : NoTimeout (runNextCommand a s) := by
  unfold runNextCommand
  split
  · simpa [NoTimeout, St.say] using h
  · split
    · exact NT_setFinished _ (by simpa [NoTimeout] using h)
    · split
      · exact NT_startProcess _ _ _ (by simpa [NoTimeout, St.say] using h)
      · exact NT_startJs _ _ (by simpa [NoTimeout, St.say] using h)

theorem NT_succeeded (a : Bool) (s : St) (h : NoTimeout s) :
    NoTimeout (onCommandSucceeded a s) := by
  unfold onCommandSucceeded
  split
  · simpa [NoTimeout, St.say] using h
  · split
    · exact NT_setFinished _ h
    · exact NT_runNext _ _ h

theorem NT_pSucceeded (a : Bool) (s : St) (h : NoTimeout s) : NoTimeout (pSucceeded a s) :=
  NT_succeeded _ _ (by simpa [NoTimeout] using h)

theorem NT_processFinished (a : Bool) (s : St) (h : NoTimeout s) :
    NoTimeout (onProcessFinished a s) := by
  unfold onProcessFinished
  split
  · simpa [NoTimeout] using h
  · unfold sendProcessOutput
    simp only
    repeat' split
    all_goals first | exact NT_pFailed _ h | exact NT_pSucceeded _ _ h

theorem NT_processCancel (a : Bool) (s : St) (h : NoTimeout s) : NoTimeout (processCancel a s) := by
  unfold processCancel
  split
  · exact h
  · exact NT_processError _ _ (by simpa [NoTimeout, St.say] using h)
  · split <;> simpa [NoTimeout] using h

theorem NT_launcherCancel (s : St) (h : NoTimeout s) : NoTimeout (launcherCancel s) := by
  unfold launcherCancel
  split <;> simpa [NoTimeout] using h

theorem NT_step (s : St) (e : Ev) (he : ∀ a, e ≠ .watchP a) (h : NoTimeout s) :
    NoTimeout (step s e) := by
  cases e with
  | watchP a => exact absurd rfl (he a)
  | run a cs =>
    simp only [step]
    split
    · exact h
    · split
      · exact NT_setFinished _ (by simpa [NoTimeout, St.say] using h)
      · exact NT_runNext _ _ (by simpa [NoTimeout, St.say] using h)
  | cancel a =>
    simp only [step]
    split
    · exact h
    · exact NT_processCancel _ _ (by simpa [NoTimeout, St.say] using h)
    · split <;> simpa [NoTimeout, St.say] using h
  | watchJ =>
    simp only [step]
    repeat' split
    all_goals simpa [NoTimeout, St.say] using h
  | zeroP a =>
    simp only [step]
    split
    · exact h
    · exact NT_pSucceeded _ _ (by simpa [NoTimeout, St.say] using h)
  | zeroJ a =>
    simp only [step]
    split
    · exact h
    · exact NT_succeeded _ _ (by simpa [NoTimeout, St.say] using h)
  | delayedError a =>
    simp only [step]
    split
    · exact h
    · exact NT_processError _ _ (by simpa [NoTimeout] using h)
  | delayedFinished a =>
    simp only [step]
    split
    · exact h
    · exact NT_processFinished _ _ (by simpa [NoTimeout] using h)
  | socketReady =>
    simp only [step]
    repeat' split
    all_goals simpa [NoTimeout, processDoStart] using h
  | socketError a =>
    simp only [step]
    split
    · split
      · exact NT_processError _ _ (by simpa [NoTimeout, St.say] using h)
      · simpa [NoTimeout] using h
    · exact h
  | launcherReceives =>
    simp only [step]
    split
    · exact h
    · split <;> simpa [NoTimeout, St.say] using h
    · split
      · simpa [NoTimeout] using h
      · exact NT_launcherCancel _ (by simpa [NoTimeout] using h)
  | started => simp only [step]; split <;> simpa [NoTimeout] using h
  | failedToStart => simp only [step]; split <;> simpa [NoTimeout] using h
  | exits c k => simp only [step]; split <;> simpa [NoTimeout] using h
  | stopTimer =>
    simp only [step]
    split
    · exact NT_launcherCancel _ h
    · exact h
  | clientReceives a =>
    simp only [step]
    split
    · exact h
    · split
      · simpa [NoTimeout, St.say] using h
      · exact NT_processError _ _ (by simpa [NoTimeout, St.say] using h)
    · split
      · simpa [NoTimeout, St.say] using h
      · exact NT_processFinished _ _ (by simpa [NoTimeout] using h)
  | jsCheck => simp only [step]; split <;> simpa [NoTimeout] using h
  | jsReset => simp only [step]; split <;> simpa [NoTimeout] using h
  | jsEvaluated ok => simp only [step]; split <;> simpa [NoTimeout] using h
  | jsFinished a =>
    simp only [step]
    split
    · split
      · exact NT_succeeded _ _ (by simpa [NoTimeout] using h)
      · exact NT_failed _ (by simpa [NoTimeout] using h)
    · exact h

theorem NT_runEvs : ∀ (evs : List Ev) (s : St), (∀ e ∈ evs, ∀ a, e ≠ .watchP a) → NoTimeout s →
    NoTimeout (runEvs s evs)
  | [], _, _, h => h
  | e :: evs, s, he, h =>
    NT_runEvs evs (step s e) (fun e' h' => he e' (List.mem_cons_of_mem _ h'))
      (NT_step s e (he e List.mem_cons_self) h)

/-! Finishing one command. -/

/-- The run is over, or the next command has started. -/
def Ahead (cs : List Cmd) (i : Nat) (s : St) : Prop :=
  s.cmds = none ∨ (s.cmds = some cs ∧ s.idx = some (i + 1))

theorem Ahead_failed (cs : List Cmd) (i : Nat) (s : St) (h : s.cmds = some cs) :
    Ahead cs i (onCommandFailed s) := by
  unfold onCommandFailed
  rw [if_neg (by simp [h])]
  split <;> exact Or.inl rfl

theorem Ahead_processError (cs : List Cmd) (i : Nat) (a : Bool) (s : St)
    (h : s.cmds = some cs ∧ s.idx = some (i + 1)) : Ahead cs i (onProcessError a s) := by
  unfold onProcessError
  split
  · exact Or.inr h
  · split
    · exact Or.inr h
    · exact Ahead_failed _ _ _ h.1

theorem Ahead_succeeded (cs : List Cmd) (i : Nat) (a : Bool) (s : St) (h : s.cmds = some cs)
    (hi : s.idx = some i) : Ahead cs i (onCommandSucceeded a s) := by
  unfold onCommandSucceeded
  rw [if_neg (by simp [h])]
  split
  · exact Or.inl rfl
  · unfold runNextCommand
    rw [h, hi]
    simp only [nextIdx]
    split
    · exact Or.inl rfl
    · split
      · unfold startProcess
        simp only
        split
        · exact Or.inr ⟨rfl, rfl⟩
        · split
          · exact Or.inr ⟨rfl, rfl⟩
          · split
            · exact Ahead_failed _ _ _ rfl
            · have hs : ∀ c s', Ahead cs i s' → Ahead cs i (startTimeoutP c s') := by
                intro c s' h'
                unfold startTimeoutP
                split
                · exact h'
                · exact h'
              refine hs _ _ ?_
              unfold processStart
              split
              · exact Ahead_processError _ _ _ _ ⟨rfl, rfl⟩
              · split <;> exact Or.inr ⟨rfl, rfl⟩
      · unfold startJs
        split
        · exact Or.inr ⟨rfl, rfl⟩
        · split
          · exact Or.inr ⟨rfl, rfl⟩
          · unfold startTimeoutJ
            split <;> exact Or.inr ⟨rfl, rfl⟩

/-- From here quiet events lead on. -/
def CanAdvance (cs : List Cmd) (i : Nat) (s : St) : Prop :=
  ∃ evs : List Ev, (∀ e ∈ evs, Quiet e = true) ∧ Ahead cs i (runEvs s evs)

theorem CanAdvance.step {cs : List Cmd} {i : Nat} {s : St} (e : Ev) (he : Quiet e = true)
    (h : CanAdvance cs i (Verif.Job.step s e)) : CanAdvance cs i s := by
  obtain ⟨evs, h1, h2⟩ := h
  refine ⟨e :: evs, ?_, h2⟩
  intro e' h'
  rcases List.mem_cons.mp h' with rfl | h'
  · exact he
  · exact h1 e' h'

theorem CanAdvance.now {cs : List Cmd} {i : Nat} {s : St} (h : Ahead cs i s) : CanAdvance cs i s :=
  ⟨[], by simp, h⟩

theorem Ahead_sendOutput (cs : List Cmd) (i : Nat) (s : St) (h : s.cmds = some cs)
    (hi : s.idx = some i) : Ahead cs i (sendProcessOutput false s) := by
  unfold sendProcessOutput
  simp only
  repeat' split
  all_goals first | exact Ahead_failed _ _ _ h | exact Ahead_succeeded _ _ _ _ h hi

theorem advance_answered {cs : List Cmd} {i : Nat} {s : St} (h : s.cmds = some cs)
    (hi : s.idx = some i) (hc : s.pcancel = false) (hp : s.pst = .running)
    (a : Ans) (ht : s.toC = [a]) : CanAdvance cs i s := by
  refine CanAdvance.step (.clientReceives false) rfl (CanAdvance.now ?_)
  simp only [step, ht]
  cases a with
  | error =>
    simp only
    rw [if_neg (by simp [hp])]
    unfold onProcessError
    rw [if_neg (by simp), if_neg (by simp [St.say, hc])]
    exact Ahead_failed _ _ _ h
  | finished code cr =>
    simp only
    rw [if_neg (by simp [hp])]
    unfold onProcessFinished
    rw [if_neg (by simp)]
    exact Ahead_sendOutput _ _ _ h hi

theorem advance_launched {cs : List Cmd} {i : Nat} {s : St} (h : s.cmds = some cs)
    (hi : s.idx = some i) (hc : s.pcancel = false) (hp : s.pst = .running) (ht : s.toC = [])
    (hl : s.lst ≠ .notRunning) : CanAdvance cs i s := by
  have hrun : ∀ s : St, s.cmds = some cs → s.idx = some i → s.pcancel = false →
      s.pst = .running → s.toC = [] → s.lst = .running → CanAdvance cs i s := by
    intro s h hi hc hp ht hl
    refine CanAdvance.step (.exits 0 false) rfl ?_
    simp only [step]
    rw [if_pos hl]
    exact advance_answered h hi hc hp (.finished 0 false) (by simp [ht])
  cases hls : s.lst with
  | notRunning => exact absurd hls hl
  | running => exact hrun s h hi hc hp ht hls
  | starting =>
    refine CanAdvance.step .started rfl ?_
    simp only [step]
    rw [if_pos hls]
    exact hrun _ h hi hc hp ht rfl

theorem advance_sent {cs : List Cmd} {i : Nat} : ∀ (l1 : List Req) (s : St), s.cmds = some cs →
    s.idx = some i → s.pcancel = false → s.pst = .running → s.toC = [] → s.lst = .notRunning →
    Stops l1 → (∃ l2, s.toL = l1 ++ .start :: l2) → CanAdvance cs i s
  | [], s, h, hi, hc, hp, ht, hl, _, ⟨l2, he⟩ => by
    refine CanAdvance.step .launcherReceives rfl ?_
    simp only [step, he, List.nil_append]
    rw [if_neg (by simp [hl])]
    exact advance_launched h hi hc hp ht (by simp)
  | r :: l1, s, h, hi, hc, hp, ht, hl, hs, ⟨l2, he⟩ => by
    have hr : r = .stop := hs r List.mem_cons_self
    subst hr
    refine CanAdvance.step .launcherReceives rfl ?_
    simp only [step, he, List.cons_append]
    rw [if_pos hl]
    exact advance_sent l1 _ h hi hc hp ht hl (fun r h => hs r (List.mem_cons_of_mem _ h)) ⟨l2, rfl⟩

theorem advance_P {s : St} {m : Mon} {cs : List Cmd} {i : Nat} {out : Option Bool} {c : Cmd}
    {st : PStage} (h : BusyP s m cs i out c st) (hm : m.everTimedOut = false) :
    CanAdvance cs i s := by
  have hc : s.pcancel = false := by
    cases hp : s.pcancel with
    | false => rfl
    | true => rw [h.ever hp] at hm; cases hm
  have hS := h.stage
  cases st with
  | zero =>
    refine CanAdvance.step (.zeroP false) rfl (CanAdvance.now ?_)
    simp only [step]
    rw [if_neg (by rw [hS.1]; simp)]
    exact Ahead_succeeded _ _ _ _ h.cmds h.idx
  | starting =>
    obtain ⟨g1, g2, g3, g4, g5, g6, g7, g8, g9, g10⟩ := hS
    refine CanAdvance.step .socketReady rfl ?_
    simp only [step]
    rw [if_pos g10, if_pos g4]
    refine advance_sent s.toL _ h.cmds h.idx hc rfl g5 g6 g8 ⟨[], ?_⟩
    simp [processDoStart]
  | sent =>
    obtain ⟨g1, g2, g3, g4, g5, g6, g7, g8, g9, l1, l2, g10, g11, g12⟩ := hS
    exact advance_sent l1 s h.cmds h.idx hc g4 g5 g6 g11 ⟨l2, g10⟩
  | launched =>
    obtain ⟨g1, g2, g3, g4, g5, g6, g7⟩ := hS
    exact advance_launched h.cmds h.idx hc g4 g5 g6
  | answered a =>
    obtain ⟨g1, g2, g3, g4, g5, g6, g7⟩ := hS
    exact advance_answered h.cmds h.idx hc g4 a g5
  | delErr =>
    refine CanAdvance.step (.delayedError false) rfl (CanAdvance.now ?_)
    simp only [step]
    rw [if_neg (by rw [hS.2.1]; simp)]
    unfold onProcessError
    rw [if_neg (by simp), if_neg (by simp [hc])]
    exact Ahead_failed _ _ _ h.cmds
  | delFin =>
    refine CanAdvance.step (.delayedFinished false) rfl (CanAdvance.now ?_)
    simp only [step]
    rw [if_neg (by rw [hS.2.2.1]; simp)]
    unfold onProcessFinished
    rw [if_neg (by simp)]
    exact Ahead_sendOutput _ _ _ h.cmds h.idx
  | lost => rw [h.lost rfl] at hm; cases hm

theorem advance_J {s : St} {m : Mon} {cs : List Cmd} {i : Nat} {out : Option Bool} {c : Cmd}
    {st : JStage} (h : BusyJ s m cs i out c st) : CanAdvance cs i s := by
  have hdone : ∀ s : St, s.cmds = some cs → s.idx = some i → s.jthread = .done →
      CanAdvance cs i s := by
    intro s h hi ht
    refine CanAdvance.step (.jsFinished false) rfl (CanAdvance.now ?_)
    simp only [step]
    rw [if_pos ht]
    split
    · exact Ahead_succeeded _ _ _ _ h hi
    · exact Ahead_failed _ _ _ h
  have heval : ∀ s : St, s.cmds = some cs → s.idx = some i → s.jthread = .evaluating →
      CanAdvance cs i s := by
    intro s h hi ht
    refine CanAdvance.step (.jsEvaluated true) rfl ?_
    simp only [step]
    rw [if_pos ht]
    exact hdone _ h hi rfl
  have hcheck : ∀ s : St, s.cmds = some cs → s.idx = some i → s.jthread = .checked →
      CanAdvance cs i s := by
    intro s h hi ht
    refine CanAdvance.step .jsReset rfl ?_
    simp only [step]
    rw [if_pos ht]
    exact heval _ h hi rfl
  have hS := h.stage
  cases st with
  | zero =>
    refine CanAdvance.step (.zeroJ false) rfl (CanAdvance.now ?_)
    simp only [step]
    rw [if_neg (by rw [hS.1]; simp)]
    exact Ahead_succeeded _ _ _ _ h.cmds h.idx
  | queued =>
    refine CanAdvance.step .jsCheck rfl ?_
    simp only [step]
    rw [if_pos hS.2.2.1]
    by_cases hj : s.jcancelled = true
    · exact hdone _ h.cmds h.idx (by simp [hj])
    · exact hcheck _ h.cmds h.idx (by simp [hj])
  | checked => exact hcheck _ h.cmds h.idx hS.2.2.1
  | evaluating => exact heval _ h.cmds h.idx hS.2.2.1
  | done => exact hdone _ h.cmds h.idx hS.2.2.1

theorem Quiet_noWatch {e : Ev} (h : Quiet e = true) : ∀ a, e ≠ .watchP a := by
  rintro a rfl; simp [Quiet] at h

theorem runEvs_append (s : St) (e1 e2 : List Ev) :
    runEvs s (e1 ++ e2) = runEvs (runEvs s e1) e2 := by
  simp [runEvs, List.foldl_append]

/-- Induction on the number of commands left. -/
theorem can_finish : ∀ (n : Nat) (s : St), G s → NoTimeout s →
    (∀ cs i, s.cmds = some cs → s.idx = some i → cs.length - i ≤ n) →
    ∃ evs : List Ev, (∀ e ∈ evs, Quiet e = true) ∧ (runEvs s evs).cmds = none := by
  intro n
  induction n with
  | zero =>
    intro s ⟨m, ha, hr⟩ ht hn
    rcases hr with h | ⟨cs, i, out, c, st, h⟩ | ⟨cs, i, out, c, st, h⟩
    · exact ⟨[], by simp, h.cmds⟩
    · have := hn cs i h.cmds h.idx
      have := lt_of_get h.cmd
      omega
    · have := hn cs i h.cmds h.idx
      have := lt_of_get h.cmd
      omega
  | succ n ih =>
    intro s hg ht hn
    have hfin : ∀ cs i, s.cmds = some cs → s.idx = some i → CanAdvance cs i s →
        ∃ evs : List Ev, (∀ e ∈ evs, Quiet e = true) ∧ (runEvs s evs).cmds = none := by
      intro cs i hc hi ⟨evs, h1, h2⟩
      rcases h2 with h2 | ⟨h2, h3⟩
      · exact ⟨evs, h1, h2⟩
      · obtain ⟨evs2, h4, h5⟩ := ih (runEvs s evs) (G_runEvs evs s hg)
          (NT_runEvs evs s (fun e he => Quiet_noWatch (h1 e he)) ht) (by
            intro cs' i' hc' hi'
            rw [h2] at hc'; cases hc'
            rw [h3] at hi'; cases hi'
            have := hn cs i hc hi
            omega)
        refine ⟨evs ++ evs2, ?_, by rw [runEvs_append]; exact h5⟩
        intro e he
        rcases List.mem_append.mp he with he | he
        · exact h1 e he
        · exact h4 e he
    obtain ⟨m, ha, hr⟩ := hg
    have hm : m.everTimedOut = false := by
      cases he : m.everTimedOut with
      | false => rfl
      | true => exact absurd (ever_log _ _ ha he) ht
    rcases hr with h | ⟨cs, i, out, c, st, h⟩ | ⟨cs, i, out, c, st, h⟩
    · exact ⟨[], by simp, h.cmds⟩
    · exact hfin cs i h.cmds h.idx (advance_P h hm)
    · exact hfin cs i h.cmds h.idx (advance_J h)

end Verif.Job
