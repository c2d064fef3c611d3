import Verif.Job.Model
/-!
# What a correct job looks like from outside

A small automaton reading the observations. It refuses as soon as a job does something it must
not do:
* commands start in the order of the list, one after the other, each of them once;
* every `run` is answered by exactly one `finished`, and there is no other `finished`;
* each command has at most one outcome;
* `finished` reports an error iff the job was canceled, or the last command timed out or did not
  succeed; without an error all commands were executed. No command is started after that;
* no assertion fails.

After a run that was canceled, or in which a process timed out or could not be started, and after
any script that timed out, the results are no longer compared (`tainted`): the code does not get
them right then, see the findings in `Props`. All the same, the order of the commands and the
number of `finished` signals are checked, that a canceled job reports an error, and that a process
which did not succeed is not taken for one that did.
-/
namespace Verif.Job

inductive Phase where
  | idle
  /-- `run` was called, nothing has started yet -/
  | fresh (cs : List Cmd)
  /-- command `i` was started; its outcome, if known -/
  | busy (cs : List Cmd) (i : Nat) (out : Option Bool)
deriving DecidableEq, Repr

structure Mon where
  phase : Phase
  canceled : Bool
  timedOut : Bool
  startFailed : Bool
  tainted : Bool
  /-- a process timed out, in this run or an earlier one -/
  everTimedOut : Bool
deriving DecidableEq, Repr

def Mon.init : Mon :=
  { phase := .idle, canceled := false, timedOut := false, startFailed := false, tainted := false,
    everTimedOut := false }

/-- Does this exit code mean success for command `i`? -/
def exitOk (cs : List Cmd) (i code : Nat) : Bool :=
  match cs[i]? with
  | some c => decide (code ≤ c.maxExit) && !c.saveError
  | none => false

/-- Must the job report an error now? -/
def Mon.mustFail (m : Mon) (out : Option Bool) : Bool :=
  m.canceled || m.timedOut || !(out == some true)

/-- Is command `i` a script, or a process that has succeeded? -/
def processOk (cs : List Cmd) (i : Nat) (out : Option Bool) : Bool :=
  match cs[i]? with
  | some c => c.kind == .js || out == some true
  | none => false

/-- Command `i` has this kind. -/
def hasKind (k : Kind) (cs : List Cmd) (i : Nat) : Prop := cs[i]?.map (·.kind) = some k

instance (k : Kind) (cs : List Cmd) (i : Nat) : Decidable (hasKind k cs i) :=
  inferInstanceAs (Decidable (_ = _))

def Mon.next (m : Mon) : Obs → Option Mon
  | .run cs =>
    match m.phase with
    | .idle => some { m with phase := .fresh cs, canceled := false, timedOut := false,
                             startFailed := false }
    | _ => none
  | .start i =>
    match m.phase with
    | .idle => none
    | .fresh cs =>
      if i = 0 ∧ 0 < cs.length then some { m with phase := .busy cs 0 none } else none
    | .busy cs j out =>
      if i = j + 1 ∧ i < cs.length ∧ m.canceled = false ∧ processOk cs j out = true ∧
          (m.tainted = false → m.mustFail out = false) then
        some { m with phase := .busy cs i none }
      else none
  | .setupFailed =>
    match m.phase with
    | .busy cs i none =>
      if hasKind .process cs i then some { m with phase := .busy cs i (some false) } else none
    | _ => none
  | .notStarted =>
    match m.phase with
    | .busy cs i _ =>
      if hasKind .process cs i then
        some { m with phase := .busy cs i (some false), startFailed := true }
      else none
    | _ => none
  | .exit code _ =>
    match m.phase with
    | .busy cs i none =>
      if hasKind .process cs i then some { m with phase := .busy cs i (some (exitOk cs i code)) }
      else none
    | _ => none
  | .evaluated ok =>
    match m.phase with
    | .busy cs i none =>
      if hasKind .js cs i then some { m with phase := .busy cs i (some ok) } else none
    | _ => none
  | .skipped =>
    match m.phase with
    | .busy cs i none => some { m with phase := .busy cs i (some true) }
    | _ => none
  | .timeout .process =>
    match m.phase with
    | .busy _ _ _ => some { m with timedOut := true, everTimedOut := true }
    | .fresh _ => none
    | .idle => if m.tainted then some { m with everTimedOut := true } else none
  | .timeout .js =>
    match m.phase with
    | .fresh _ => none
    | _ => some { m with tainted := true }
  | .cancel =>
    match m.phase with
    | .busy _ _ _ => some { m with canceled := true }
    | _ => none
  | .finished e =>
    match m.phase with
    | .idle => none
    | .fresh cs => if cs = [] ∧ e = false then some { m with phase := .idle } else none
    | .busy cs i out =>
      if (e = false → i + 1 = cs.length ∧ m.canceled = false ∧ processOk cs i out = true) ∧
          (m.tainted = false → e = m.mustFail out) then
        some { m with phase := .idle,
                      tainted := m.tainted || m.canceled || m.timedOut || m.startFailed }
      else none
  | .assertion => none

/-- The state of the automaton after a log (latest first); `none` if it refused. -/
def accept : List Obs → Option Mon
  | [] => some Mon.init
  | o :: l => (accept l).bind (·.next o)

end Verif.Job
