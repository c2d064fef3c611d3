import Verif.Job.Finish
import Verif.Job.Logs
/-!
# C36: a job runs the commands of a transformer in order and reports exactly one result

`runEvs (init dry) evs` is a job after an arbitrary history of calls, timers, packets and answers.
-/
namespace Verif.Job

/-- **C36.** Whatever happens, in whatever order, the automaton of `Spec` accepts what is seen. -/
theorem C36_accepted (dry : Bool) (evs : List Ev) :
    (accept (runEvs (init dry) evs).log).isSome := by
  obtain ⟨m, h, _⟩ := G_runEvs evs _ (G_init dry)
  simp [h]

theorem reach_facts (dry : Bool) (evs : List Ev) :
    ∃ m, accept (runEvs (init dry) evs).log = some m ∧ Rel (runEvs (init dry) evs) m ∧
      Facts (runEvs (init dry) evs).log m := by
  obtain ⟨m, h, hr⟩ := G_runEvs evs _ (G_init dry)
  exact ⟨m, h, hr, facts _ m h⟩

/-- **C36.** At any time every `run` but at most the last one has been answered by exactly one
`finished`; nothing is pending iff the job is idle. -/
theorem C36_finished_once (dry : Bool) (evs : List Ev) :
    let s := runEvs (init dry) evs
    numRuns s.log = numFinished s.log + (if s.cmds = none then 0 else 1) := by
  obtain ⟨m, h, hr, hf⟩ := reach_facts dry evs
  have := hf.counts
  rcases hr with hr | ⟨cs, i, out, c, st, hr⟩ | ⟨cs, i, out, c, st, hr⟩
  · simpa [hr.phase, hr.cmds] using this
  · simpa [hr.phase, hr.cmds] using this
  · simpa [hr.phase, hr.cmds] using this

/-- **C36.** The commands started since the last `run` are the first `k` ones, in order and each of
them once; all of them if the job then reports success. -/
theorem C36_in_order (dry : Bool) (evs : List Ev) :
    ∃ k, startedSince (runEvs (init dry) evs).log = List.range k ∧
      ∀ cs, lastRun (runEvs (init dry) evs).log = some cs → k ≤ cs.length := by
  obtain ⟨m, h, hr, hf⟩ := reach_facts dry evs
  exact hf.order

/-- What was accepted before the last observation. -/
theorem accept_tail {o : Obs} {l : List Obs} {m : Mon} (h : accept (o :: l) = some m) :
    ∃ m0, accept l = some m0 ∧ m0.next o = some m := by
  cases ha : accept l with
  | none => simp [accept, ha] at h
  | some m0 => exact ⟨m0, rfl, by simpa [accept, ha] using h⟩

/-- **C36.** When a job reports success, all commands of the run have been started, in order; the
run was not canceled, every process could be prepared and started, and every process that ended
had an exit code its command allows. This holds for jobs with any past. -/
theorem C36_success_is_sound (dry : Bool) (evs : List Ev) (l : List Obs) (cs : List Cmd)
    (hl : (runEvs (init dry) evs).log = .finished false :: l) (hcs : lastRun l = some cs) :
    startedSince l = List.range cs.length ∧ Obs.cancel ∉ sinceRun l ∧
    Obs.setupFailed ∉ sinceRun l ∧ Obs.notStarted ∉ sinceRun l ∧
    ∀ code crashed, Obs.exit code crashed ∈ sinceRun l → goodExit cs code := by
  obtain ⟨m, h, hr, hf⟩ := reach_facts dry evs
  rw [hl] at h
  obtain ⟨m0, h0, hn⟩ := accept_tail h
  have hf0 := facts l m0 h0
  cases hp : m0.phase with
  | idle => simp [Mon.next, hp] at hn
  | fresh cs' =>
    obtain ⟨f1, f2, f3⟩ := hf0.fresh cs' hp
    simp only [Mon.next, hp] at hn
    by_cases hc : cs' = [] ∧ True
    · rw [hcs] at f2
      cases f2
      simp [startedSince, f1, hc.1]
    · rw [if_neg hc] at hn; cases hn
  | busy cs' i out =>
    obtain ⟨g1, g2, g3, g4, g5, g6, g7⟩ := hf0.busy cs' i out hp
    rw [hcs] at g1
    cases g1
    simp only [Mon.next, hp] at hn
    by_cases hc : (True → i + 1 = cs.length ∧ m0.canceled = false ∧
        processOk cs i out = true) ∧ (m0.tainted = false → false = m0.mustFail out)
    · obtain ⟨hlen, hcan, hpo⟩ := hc.1 trivial
      refine ⟨by rw [g3, hlen], ?_, ?_, ?_, ?_⟩
      · intro hx; rw [g4 hx] at hcan; cases hcan
      · intro hx
        have := g6 (Or.inr hx)
        rw [processOk_false this.1 this.2] at hpo; cases hpo
      · intro hx
        have := g6 (Or.inl hx)
        rw [processOk_false this.1 this.2] at hpo; cases hpo
      · intro code cr hx
        rcases g7 code cr hx with g | g
        · exact g
        · rw [processOk_false g.1 g.2] at hpo; cases hpo
    · rw [if_neg hc] at hn; cases hn

/-- **C36.** No assertion fails and no request is dropped by the launcher. -/
theorem C36_no_assertion (dry : Bool) (evs : List Ev) :
    Obs.assertion ∉ (runEvs (init dry) evs).log := by
  obtain ⟨m, h, hr, hf⟩ := reach_facts dry evs
  exact hf.noAssert

/-- **C36**, in part: if no process has timed out so far, a job in progress is never stuck: if the
processes end, the scripts return and the packets and timers arrive, it finishes. (Missing: jobs
with a process that timed out; these can hang, see `C36_timeout_can_hang`.) -/
theorem C36_can_finish_partial (dry : Bool) (evs : List Ev)
    (hw : ∀ e ∈ evs, ∀ a, e ≠ .watchP a) :
    ∃ evs' : List Ev, (∀ e ∈ evs', Quiet e = true) ∧
      numRuns (runEvs (init dry) (evs ++ evs')).log =
        numFinished (runEvs (init dry) (evs ++ evs')).log := by
  have hg := G_runEvs evs _ (G_init dry)
  have ht := NT_runEvs evs (init dry) hw (by simp [NoTimeout, init])
  obtain ⟨n, hn⟩ : ∃ n, ∀ cs i, (runEvs (init dry) evs).cmds = some cs →
      (runEvs (init dry) evs).idx = some i → cs.length - i ≤ n := by
    cases hc : (runEvs (init dry) evs).cmds with
    | none => exact ⟨0, fun _ _ h => by cases h⟩
    | some cs =>
      refine ⟨cs.length, ?_⟩
      intro cs' i h _
      cases h
      omega
  obtain ⟨evs', h1, h2⟩ := can_finish n _ hg ht hn
  refine ⟨evs', h1, ?_⟩
  have := C36_finished_once dry (evs ++ evs')
  simp only at this
  rw [this, runEvs_append, h2]
  simp

/-! ## Concrete runs -/

def proc (maxExit : Nat) : Cmd :=
  { kind := .process, ignoreDryRun := false, timeout := false, maxExit := maxExit,
    setupError := false, saveError := false }
def procT : Cmd := { proc 0 with timeout := true }
def script : Cmd := { proc 0 with kind := .js }
def scriptT : Cmd := { script with timeout := true }

/-- The events of a process from the request to the result. -/
def processEnds (code : Nat) (crashed : Bool) : List Ev :=
  [.launcherReceives, .started, .exits code crashed, .clientReceives false]

def processFailsToStart : List Ev := [.launcherReceives, .failedToStart, .clientReceives false]

def scriptEnds (ok : Bool) : List Ev := [.jsCheck, .jsReset, .jsEvaluated ok, .jsFinished false]

/-- A process and a script succeed; then in a second run a process fails and the script is not
started. -/
example : (runEvs (init false) ([.socketReady, .run false [proc 1, script]] ++
      processEnds 1 false ++ scriptEnds true ++ [.run false [proc 1, script]] ++
      processEnds 2 false)).log.reverse =
    [.run [proc 1, script], .start 0, .exit 1 false, .start 1, .evaluated true, .finished false,
     .run [proc 1, script], .start 0, .exit 2 false, .finished true] := by decide +kernel

/-- The result matters to the automaton: claiming success after a failure is refused, and so are a
second `finished`, a skipped command and a command after a failure. -/
example : accept (List.reverse [.run [proc 1], .start 0, .exit 2 false, .finished false]) = none ∧
    accept (List.reverse [.run [proc 1], .start 0, .exit 1 false, .finished true]) = none ∧
    accept (List.reverse [.run [proc 1], .start 0, .exit 1 false, .finished false,
      .finished false]) = none ∧
    accept (List.reverse [.run [proc 1, proc 0], .start 1]) = none ∧
    accept (List.reverse [.run [proc 1, proc 0], .start 0, .exit 1 false, .finished false]) = none ∧
    accept (List.reverse [.run [proc 1, proc 0], .start 0, .exit 2 false, .start 1]) = none ∧
    accept (List.reverse [.run [proc 1, proc 0], .start 0, .cancel, .exit 1 false, .start 1]) =
      none := by
  decide +kernel

/-- Cancellation while a process runs. -/
example : (runEvs (init false) ([.socketReady, .run false [proc 0, script], .launcherReceives,
      .started, .cancel false, .launcherReceives, .stopTimer, .stopTimer,
      .clientReceives false])).log.reverse =
    [.run [proc 0, script], .start 0, .cancel, .exit 4294967295 true, .finished true] := by
  decide +kernel

/-- `C36_success_is_sound` and `C36_can_finish_partial` apply: a job that is canceled and used
again, and one that is waiting for the launcher. -/
example : let log := (runEvs (init false) ([.socketReady, .run false [proc 0], .launcherReceives,
      .started, .cancel false, .exits 0 false, .clientReceives false, .run false [proc 1, proc 0]] ++
      [.launcherReceives] ++ processEnds 1 false ++ processEnds 0 false)).log
    log = .finished false :: log.tail ∧ lastRun log.tail = some [proc 1, proc 0] := by
  decide +kernel

example : numRuns (runEvs (init false) [.run false [proc 0]]).log = 1 ∧
    numFinished (runEvs (init false) [.run false [proc 0]]).log = 0 := by decide +kernel

/-! ## Findings -/

/-- Nothing will ever happen to the process command of this job any more. -/
structure Hung (s : St) : Prop where
  noP : NoP s
  noJ : NoJ s
  idx : s.idx ≠ none
  cur : s.cur = some .process

theorem Hung.step (s : St) (e : Ev) (h : Hung s) : Hung (Verif.Job.step s e) ∧
    numFinished (Verif.Job.step s e).log = numFinished s.log := by
  obtain ⟨hP, hJ, hi, hc⟩ := h
  obtain ⟨p1, p2, p3, p4, p5, p6, p7, p8⟩ := hP
  obtain ⟨j1, j2, j3⟩ := hJ
  have self : Hung s ∧ numFinished s.log = numFinished s.log :=
    ⟨⟨⟨p1, p2, p3, p4, p5, p6, p7, p8⟩, ⟨j1, j2, j3⟩, hi, hc⟩, rfl⟩
  cases e with
  | run a cs => simp only [Verif.Job.step]; rw [if_pos hi]; exact self
  | cancel a =>
    simp only [Verif.Job.step, hc, processCancel, St.say, p4]
    exact ⟨⟨⟨p1, p2, p3, rfl, p5, p6, p7, p8⟩, ⟨j1, j2, j3⟩, hi, rfl⟩,
      by simp [numFinished, isFinished]⟩
  | watchP a =>
    simp only [Verif.Job.step]
    split
    · simp only [processCancel, St.say, p4]
      exact ⟨⟨⟨p1, p2, p3, rfl, p5, p6, p7, p8⟩, ⟨j1, j2, j3⟩, hi, hc⟩,
        by simp [numFinished, isFinished]⟩
    · exact self
  | watchJ =>
    simp only [Verif.Job.step]
    split
    · rw [if_neg (by simp [St.say, j2])]
      exact ⟨⟨⟨p1, p2, p3, p4, p5, p6, p7, p8⟩, ⟨j1, j2, j3⟩, hi, hc⟩,
        by simp [numFinished, isFinished, St.say]⟩
    · exact self
  | zeroP a => simp only [Verif.Job.step]; rw [if_pos p1]; exact self
  | zeroJ a => simp only [Verif.Job.step]; rw [if_pos j1]; exact self
  | delayedError a => simp only [Verif.Job.step]; rw [if_pos p2]; exact self
  | delayedFinished a => simp only [Verif.Job.step]; rw [if_pos p3]; exact self
  | socketReady =>
    simp only [Verif.Job.step]
    split
    · rw [if_neg (by simp [p4])]
      exact ⟨⟨⟨p1, p2, p3, p4, p5, p6, p7, p8⟩, ⟨j1, j2, j3⟩, hi, hc⟩, rfl⟩
    · exact self
  | socketError a =>
    simp only [Verif.Job.step]
    split
    · rw [if_neg (by simp [p4])]
      exact ⟨⟨⟨p1, p2, p3, p4, rfl, rfl, rfl, by simp [Stops]⟩, ⟨j1, j2, j3⟩, hi, hc⟩, rfl⟩
    · exact self
  | launcherReceives =>
    cases ht : s.toL with
    | nil => simp only [Verif.Job.step, ht]; exact ⟨self.1, trivial⟩
    | cons r rest =>
      rw [ht] at p8
      have hr : r = .stop := p8 r List.mem_cons_self
      subst hr
      simp only [Verif.Job.step, ht]
      rw [if_pos p6]
      exact ⟨⟨⟨p1, p2, p3, p4, p5, p6, p7, fun r h => p8 r (List.mem_cons_of_mem _ h)⟩,
        ⟨j1, j2, j3⟩, hi, hc⟩, rfl⟩
  | started => simp only [Verif.Job.step]; rw [if_neg (by simp [p6])]; exact self
  | failedToStart => simp only [Verif.Job.step]; rw [if_neg (by simp [p6])]; exact self
  | exits c k => simp only [Verif.Job.step]; rw [if_neg (by simp [p6])]; exact self
  | stopTimer => simp only [Verif.Job.step]; rw [if_neg (by simp [p6])]; exact self
  | clientReceives a => simp only [Verif.Job.step, p5]; exact ⟨self.1, trivial⟩
  | jsCheck => simp only [Verif.Job.step]; rw [if_neg (by simp [j3])]; exact self
  | jsReset => simp only [Verif.Job.step]; rw [if_neg (by simp [j3])]; exact self
  | jsEvaluated ok => simp only [Verif.Job.step]; rw [if_neg (by simp [j3])]; exact self
  | jsFinished a => simp only [Verif.Job.step]; rw [if_neg (by simp [j3])]; exact self

theorem Hung.run : ∀ (evs : List Ev) (s : St), Hung s →
    numFinished (runEvs s evs).log = numFinished s.log
  | [], _, _ => rfl
  | e :: evs, s, h => by
    have := h.step s e
    exact (Hung.run evs _ this.1).trans this.2

/-- Finding: when the timeout of a process expires while the launcher is not connected yet, the
job never finishes, whatever happens afterwards, cancellation included:
`ProcessCommandExecutor::onProcessError` leaves the reaction to `onProcessFinished`
(processcommandexecutor.cpp 337-338), which is not called for a process that did not start. -/
theorem C36_timeout_can_hang : ∀ evs : List Ev,
    numFinished (runEvs (init false) ([.run false [procT], .watchP false] ++ evs)).log = 0 ∧
    0 < numRuns (runEvs (init false) [.run false [procT], .watchP false]).log := by
  intro evs
  refine ⟨?_, by decide +kernel⟩
  rw [runEvs_append, Hung.run evs _ ?_]
  · decide +kernel
  · exact ⟨⟨by decide +kernel, by decide +kernel, by decide +kernel, by decide +kernel,
      by decide +kernel, by decide +kernel, by decide +kernel, by
        intro r hr
        have : (runEvs (init false) [.run false [procT], .watchP false]).toL = [] := by
          decide +kernel
        rw [this] at hr; cases hr⟩,
      ⟨by decide +kernel, by decide +kernel, by decide +kernel⟩, by decide +kernel,
      by decide +kernel⟩

/-- Finding: the job remembers that a process has timed out. In a later run of the same job object
a process that cannot be started hangs the job for good. -/
theorem C36_old_timeout_hangs_later_run : ∀ evs : List Ev,
    numFinished (runEvs (init false) ([.socketReady, .run false [procT], .launcherReceives, .started,
      .watchP false, .launcherReceives, .exits 1 false, .clientReceives false,
      .run false [proc 0]] ++ processFailsToStart ++ evs)).log = 1 := by
  intro evs
  rw [runEvs_append, Hung.run evs _ ?_]
  · decide +kernel
  · exact ⟨⟨by decide +kernel, by decide +kernel, by decide +kernel, by decide +kernel,
      by decide +kernel, by decide +kernel, by decide +kernel, by
        intro r hr
        have : (runEvs (init false) ([.socketReady, .run false [procT], .launcherReceives, .started,
          .watchP false, .launcherReceives, .exits 1 false, .clientReceives false,
          .run false [proc 0]] ++ processFailsToStart)).toL = [] := by decide +kernel
        rw [this] at hr; cases hr⟩,
      ⟨by decide +kernel, by decide +kernel, by decide +kernel⟩, by decide +kernel,
      by decide +kernel⟩

/-- Finding: and a process that succeeds is reported as failed. -/
theorem C36_old_timeout_fails_later_run :
    (runEvs (init false) ([.socketReady, .run false [procT], .launcherReceives, .started,
      .watchP false, .launcherReceives, .exits 1 false, .clientReceives false,
      .run false [proc 0]] ++ processEnds 0 false)).log.take 4 =
    [.finished true, .exit 0 false, .start 0, .run [proc 0]] := by decide +kernel

/-- Finding: after a process could not be started (`QbsProcess::m_error` is never reset), later
processes of the same job object that succeed are reported as failed. -/
theorem C36_old_start_failure_fails_later_run :
    (runEvs (init false) ([.socketReady, .run false [proc 0]] ++ processFailsToStart ++
      [.run false [proc 0]] ++ processEnds 0 false)).log.take 4 =
    [.finished true, .exit 0 false, .start 0, .run [proc 0]] := by decide +kernel

/-- Finding: a process that was killed by signal 1 counts as successful if the command allows exit
code 1: the exit status in the launcher's packet is not looked at. -/
theorem C36_crash_counts_as_success :
    (runEvs (init false) ([.socketReady, .run false [proc 1]] ++ processEnds 1 true)).log.head? =
      some (.finished false) := by decide +kernel

/-- Finding: after a script was canceled (here by its timeout), later scripts of the same job
object are not evaluated any more, and the result of the old one is reported. -/
theorem C36_old_script_timeout_fails_later_run :
    (runEvs (init false) ([.run false [scriptT], .jsCheck, .jsReset, .watchJ, .jsEvaluated false,
      .jsFinished false, .run false [script], .jsCheck, .jsFinished false])).log.take 3 =
    [.finished true, .start 0, .run [script]] := by decide +kernel

/-- The same after a cancellation; now the script that was not evaluated is reported as
successful. -/
theorem C36_old_cancel_skips_later_script :
    (runEvs (init false) ([.run false [script], .jsCheck, .jsReset, .cancel false,
      .jsEvaluated false, .jsFinished false, .run false [script], .jsCheck,
      .jsFinished false])).log.take 3 =
    [.finished false, .start 0, .run [script]] := by decide +kernel

/-- Finding: a timeout of a script that comes just before its thread resets the result is lost:
the job reports success. -/
theorem C36_script_timeout_lost :
    (runEvs (init false) ([.run false [scriptT], .jsCheck, .watchJ, .jsReset, .jsEvaluated false,
      .jsFinished false])).log.head? = some (.finished false) := by decide +kernel

end Verif.Job
