import Verif.Proc.Props

/-! # Cases in which the theorems on processes say something -/

namespace Verif.Proc

/-- Two commands of one executor: one fails, the other one is stopped while it is running and does not react. -/
def sample : List Ev :=
  [.start { response := 1 }, .socketReady, .launcherTakes, .procExits 2 false, .deliver,
   .start { timeout := true, maxExitCode := 3 }, .launcherTakes, .cancel, .timeout, .launcherTakes]

def sampleState : St := (run (init false) sample).getD {}

theorem sample_reachable : Reachable sampleState := ⟨false, sample, rfl⟩

example : run (init false) sample = some sampleState := rfl

/-- `C75_once` -/
example : starts sample = [{ response := 1 }, { timeout := true, maxExitCode := 3 }] ∧ sampleState.out.length = 1 ∧
    sampleState.current.isSome = true := ⟨rfl, rfl, rfl⟩

/-- `C75_justified` and `C75_exit_code_partial` -/
example : sampleState.out = [⟨1, { response := 1 }, .badExitCode, some (.exited 2), false, false, false, false⟩] := rfl

/-- ... and one that is successful -/
example : ∃ s, Reachable s ∧ s.out = [⟨1, { maxExitCode := 3 }, .success, some (.exited 2), false, false, false, false⟩] :=
  ⟨_, ⟨true, simple { maxExitCode := 3 } 2 false, rfl⟩, rfl⟩

/-- `C75_stops_its_own_process`: there was something to stop, by the first of two requests. -/
example : sampleState.hits = [(2, 2)] ∧ sampleState.toLauncher = [.stop 2] := ⟨rfl, rfl⟩

/-- A request to stop the first command that comes too late does not reach the second one. -/
example : ∃ s, run (init true) [.start {}, .launcherTakes, .procExits 0 false, .cancel, .deliver, .start {}, .launcherTakes, .launcherTakes] =
    some s ∧ s.hits = [] ∧ s.proc = .alive 2 0 := ⟨_, rfl, rfl, rfl⟩

/-- `C75_response_files_partial` -/
example : ∃ s, run (init false) (sample.take 3) = some s ∧ s.files = 1 ∧ ∃ s', run (init false) (sample.take 5) = some s' ∧ s'.files = 0 ∧
    s'.current = none := ⟨_, rfl, rfl, _, rfl, rfl, rfl⟩

/-- `C75_ends_partial`: a command that is running -/
example : ∃ s, Reachable s ∧ s.active = false ∧ s.stale = false ∧ s.expired = false ∧ s.current.isSome = true ∧ s.proc = .alive 1 0 :=
  ⟨_, ⟨false, sample.take 3, rfl⟩, rfl, rfl, rfl, rfl, rfl⟩

/-- `C75_stop_ends`: the process has been told to stop once. -/
example : sampleState.active = false ∧ sampleState.proc = .alive 2 1 ∧ sampleState.stopped = true ∧ sampleState.expired = true :=
  ⟨rfl, rfl, rfl, rfl⟩

/-- It ends, without having done anything. -/
example : ∃ s, run sampleState [.launcherTakes, .stopTimer, .deliver] = some s ∧ s.current = none ∧
    s.out.map (fun e => (e.outcome, e.real)) = [(.badExitCode, some (.exited 2)), (.timedOut, some .notStopped)] := ⟨_, rfl, rfl, rfl⟩

/-- `C75_cancel_before_start` -/
example : ∃ s s', Reachable s ∧ s.pstate = .starting ∧ s.active = false ∧ step s .cancel = some s' :=
  ⟨_, _, ⟨false, [.start {}], rfl⟩, rfl, rfl, rfl⟩

/-- `C75_timeout_armed` -/
example : ∃ s, Reachable s ∧ s.current = some { timeout := true, maxExitCode := 3 } ∧ s.expired = false :=
  ⟨_, ⟨false, sample.take 7, rfl⟩, rfl, rfl⟩

/-- `C75_timeout_reported` and `C75_stopped_only_if_asked` -/
example : ∃ s, Reachable s ∧ ∃ e ∈ s.out, e.expired = true ∧ e.stopped = false ∧ e.cmd.dry = false ∧ e.real = some .notStopped :=
  ⟨_, ⟨true, [.start { timeout := true }, .launcherTakes, .timeout, .launcherTakes, .stopTimer, .stopTimer, .deliver], rfl⟩,
    _, List.mem_singleton.2 rfl, rfl, rfl, rfl, rfl⟩

/-- `C75_given_up` -/
example : ∃ s s', Reachable s ∧ step s .stopTimer = some s' ∧ s.real = none ∧ s'.real = some .notStopped ∧ s.proc = .alive 1 2 :=
  ⟨_, _, ⟨true, [.start { timeout := true }, .launcherTakes, .timeout, .launcherTakes, .stopTimer], rfl⟩, rfl, rfl, rfl, rfl⟩

/-- `C75_crash_is_success` -/
example : ∃ s, run (init true) (simple { maxExitCode := 20 } 11 true) = some s ∧ s.out.map Entry.outcome = [.success] := ⟨_, rfl, rfl⟩

/-- ... while with the usual maximum, a crash is a failure -/
example : ∃ s, run (init true) (simple {} 11 true) = some s ∧ s.out.map Entry.outcome = [.badExitCode] := ⟨_, rfl, rfl⟩

end Verif.Proc
