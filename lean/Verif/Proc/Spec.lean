import Verif.Proc.Model

/-! # Specification for processes of commands -/

namespace Verif.Proc

/-- Any sequence of events from the beginning -/
def Reachable (s : St) : Prop := ∃ ready l, run (init ready) l = some s

/-- The exit code of a process that has come to an end -/
def Real.code : Real → Option Int
  | .failedToStart => none
  | .exited c => some c
  | .crashed c => some c
  | .notStopped => some (-1)

/-- An exit code is accepted if it is not greater than the maximum, both of them as unsigned numbers. -/
def Accepted (c : Cmd) (code : Int) : Prop := code % 4294967296 ≤ c.maxExitCode % 4294967296

/-- What a report may say about a command, given what has really happened to it -/
def Entry.Justified (e : Entry) : Prop :=
  match e.outcome with
  | .success => e.cmd.dry = true ∨ ∃ r code, e.real = some r ∧ r.code = some code ∧ Accepted e.cmd code
  | .badExitCode => ∃ r code, e.real = some r ∧ r.code = some code ∧ ¬ Accepted e.cmd code
  | .timedOut => (∃ r code, e.real = some r ∧ r.code = some code) ∧ (e.expired = true ∨ e.stale = true)
  | .processError => (∃ r code, e.real = some r ∧ r.code = some code) ∧ (e.cmd.saveFails = true ∨ e.stale = true)
  | .notStarted => e.real = some .failedToStart ∨ e.lost = true ∨ (e.stopped = true ∧ e.real = none)
  | .badDir => e.cmd.badDir = true
  | .badResponse => e.cmd.response ≥ 2

/-- Events that do not come from outside: the launcher and the process go on, packets arrive, and timers that are due run. -/
def Ev.internal : Ev → Bool
  | .start _ => false
  | .timeout => false
  | .cancel => false
  | .setActive _ => false
  | .socketError => false
  | _ => true

/-- Events for which the process itself need not do anything -/
def Ev.own : Ev → Bool
  | .procFails => false
  | .procExits _ _ => false
  | e => e.internal

/-- The commands that are started by some events -/
def starts : List Ev → List Cmd
  | [] => []
  | .start c :: l => c :: starts l
  | _ :: l => starts l

/-- None of some events can happen. -/
def Stopped (p : Ev → Bool) (s : St) : Prop := ∀ e, p e = true → step s e = none

/-- Events of a certain kind cannot go on forever, and when no more of them can happen, the command has been reported. -/
def Ends (p : Ev → Bool) (s : St) : Prop :=
  ∃ bound : Nat, ∀ l s', (∀ e ∈ l, p e = true) → run s l = some s' → l.length ≤ bound ∧ (Stopped p s' → s'.current = none)

end Verif.Proc
