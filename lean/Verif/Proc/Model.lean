/-! # Running the process of a command

The life of a `ProcessCommandExecutor` (src/lib/corelib/buildgraph/processcommandexecutor.cpp) with its `QbsProcess`
(src/lib/corelib/tools/qbsprocess.cpp), the socket to the process launcher (src/lib/corelib/tools/launchersocket.cpp) and the
launcher itself (src/libexec/qbs_processlauncher/launchersockethandler.cpp), for one executor. Everything that can happen is
an event; events happen in any order.

The connection works as proved in C09: packets arrive once and in order until it breaks down. A launcher that is gone does not
come back as long as the executor exists (launcherinterface.cpp 95-115 and 130-137). Numbers of commands, and what has really
happened to them, are recorded for the theorems only. -/

namespace Verif.Proc

/-- What is known about a command before it is started -/
structure Cmd where
  /-- There is no process because this is a dry run (processcommandexecutor.cpp 133-136). -/
  dry : Bool := false
  /-- The working directory does not exist (processcommandexecutor.cpp 138-148). -/
  badDir : Bool := false
  /-- What becomes of the response file (processcommandexecutor.cpp 150-191): there is none, it is written, it cannot be created,
  or a file it is made of cannot be opened. -/
  response : Nat := 0
  /-- There is a timeout (abstractcommandexecutor.cpp 96-103). -/
  timeout : Bool := false
  maxExitCode : Int := 0
  /-- The output cannot be saved (processcommandexecutor.cpp 288-294). -/
  saveFails : Bool := false
  deriving Repr, DecidableEq

/-- `QProcess::ProcessState` -/
inductive PState where
  | notRunning | starting | running
  deriving Repr, DecidableEq

/-- `QProcess::ProcessError`, as far as it matters -/
inductive PError where
  | unknown | failedToStart | writeError
  deriving Repr, DecidableEq

/-- Packets to the launcher (launcherpackets.h 108-131), with the number of the command they are about -/
inductive Req where
  | start (n : Nat)
  | stop (n : Nat)
  deriving Repr, DecidableEq

/-- Packets from the launcher (launcherpackets.h 143-176). The error and the exit status in the second one are not read by anyone
(qbsprocess.cpp 172-182). -/
inductive Resp where
  | error (n : Nat)
  | finished (n : Nat) (exitCode : Int) (crashed : Bool)
  deriving Repr, DecidableEq

/-- What has become of a process -/
inductive Real where
  | failedToStart
  | exited (exitCode : Int)
  | crashed (exitCode : Int)
  | notStopped
  deriving Repr, DecidableEq

/-- A process of the launcher: none, or one for a command, and how often it has been told to stop (launchersockethandler.cpp
64-81) -/
inductive LProc where
  | idle
  | alive (n : Nat) (stop : Nat)
  deriving Repr, DecidableEq

/-- How the end of a command is reported -/
inductive Outcome where
  | success | timedOut | processError | badExitCode | notStarted | badDir | badResponse
  deriving Repr, DecidableEq

/-- A report, together with what has really happened -/
structure Entry where
  n : Nat
  cmd : Cmd
  outcome : Outcome
  real : Option Real
  /-- The timeout of this command has expired. -/
  expired : Bool
  /-- Someone has asked to stop it. -/
  stopped : Bool
  /-- The launcher has gone. -/
  lost : Bool
  /-- There was an error from an earlier command when it was started. -/
  stale : Bool
  deriving Repr, DecidableEq

structure St where
  -- ProcessCommandExecutor and AbstractCommandExecutor
  current : Option Cmd := none
  cancelReason : Bool := false
  watchdog : Bool := false
  responseFile : Bool := false
  dryTimer : Bool := false
  delayedError : Nat := 0
  delayedFinished : Nat := 0
  -- QbsProcess
  pstate : PState := .notRunning
  perror : PError := .unknown
  exitCode : Int := 0
  socketError : Bool := false
  -- the connection
  ready : Bool := false
  dead : Bool := false
  toLauncher : List Req := []
  fromLauncher : List Resp := []
  -- the launcher
  proc : LProc := .idle
  -- the script engine
  active : Bool := false
  -- response files that exist
  files : Nat := 0
  -- for the theorems
  n : Nat := 0
  out : List Entry := []
  real : Option Real := none
  expired : Bool := false
  stopped : Bool := false
  stale : Bool := false
  hits : List (Nat × Nat) := []
  deriving Repr, DecidableEq

/-- The report goes to the job, and the timeout is stopped (abstractcommandexecutor.cpp 67, executorjob.cpp 145-156). -/
def finish (o : Outcome) (s : St) : St :=
  match s.current with
  | none => { s with watchdog := false, out := s.out ++ [⟨0, {}, o, none, false, false, false, false⟩] }
  | some c => { s with watchdog := false, current := none,
                       out := s.out ++ [⟨s.n, c, o, s.real, s.expired, s.stopped, s.dead, s.stale⟩] }

/-- `ProcessCommandExecutor::removeResponseFile` (processcommandexecutor.cpp 416-422) -/
def removeResponseFile (s : St) : St :=
  if s.responseFile then { s with responseFile := false, files := s.files - 1 } else s

/-- `ProcessCommandExecutor::onProcessError` (processcommandexecutor.cpp 333-367) -/
def onProcessError (s : St) : St :=
  if s.active then { s with delayedError := s.delayedError + 1 }
  else if s.cancelReason then s
  else if s.perror = .failedToStart then finish .notStarted (removeResponseFile s)
  else s

def u32 (i : Int) : Int := i % 4294967296

/-- `ProcessCommandExecutor::sendProcessOutput` (processcommandexecutor.cpp 299-331) -/
def sendProcessOutput (s : St) : St :=
  let saveFails := match s.current with | some c => c.saveFails | none => false
  let maxExitCode := match s.current with | some c => c.maxExitCode | none => 0
  let error := if s.perror = .unknown ∧ saveFails = true then .writeError else s.perror
  if s.cancelReason then finish .timedOut s
  else if error ≠ .unknown then finish .processError s
  else if u32 s.exitCode > u32 maxExitCode then finish .badExitCode s
  else finish .success s

/-- `ProcessCommandExecutor::onProcessFinished` (processcommandexecutor.cpp 369-379) -/
def onProcessFinished (s : St) : St :=
  if s.active then { s with delayedFinished := s.delayedFinished + 1 }
  else sendProcessOutput (removeResponseFile s)

/-- `QbsProcess::doStart` (qbsprocess.cpp 78-87) -/
def processDoStart (s : St) : St := { s with pstate := .running, toLauncher := s.toLauncher ++ [.start s.n] }

/-- `QbsProcess::start` (qbsprocess.cpp 64-76) -/
def processStart (s : St) : St :=
  if s.socketError then onProcessError { s with perror := .failedToStart }
  else
    let s := { s with pstate := .starting }
    if s.ready then processDoStart s else s

/-- `QbsProcess::cancel` (qbsprocess.cpp 89-104) -/
def processCancel (s : St) : St :=
  match s.pstate with
  | .notRunning => s
  | .starting => onProcessError { s with perror := .failedToStart, pstate := .notRunning }
  | .running => { s with toLauncher := s.toLauncher ++ [.stop s.n] }

/-- `ProcessCommandExecutor::cancel` (processcommandexecutor.cpp 202-209) -/
def cancel (reason : Bool) (s : St) : St := processCancel { s with cancelReason := reason }

/-- `ProcessCommandExecutor::doStart` (processcommandexecutor.cpp 123-200), and whether it returns true -/
def doStart (c : Cmd) (s : St) : St × Bool :=
  if s.pstate ≠ .notRunning then (s, false)
  else if c.dry then ({ s with dryTimer := true }, false)
  else if c.badDir then (finish .badDir s, false)
  else if c.response = 0 then (processStart s, true)
  else if c.response = 1 then (processStart { s with responseFile := true, files := s.files + 1 }, true)
  else if c.response = 2 then (finish .badResponse s, false)
  else (finish .badResponse { s with files := s.files + 1 }, false)

/-- `AbstractCommandExecutor::start` (abstractcommandexecutor.cpp 71-79) -/
def start (c : Cmd) (s : St) : St :=
  let s := { s with current := some c, n := s.n + 1, real := none, expired := false, stopped := false,
                    stale := decide (s.perror ≠ .unknown) || s.cancelReason }
  let r := doStart c s
  if r.2 = true ∧ c.timeout = true then { r.1 with watchdog := true } else r.1

/-- `Process::cancel` in the launcher (launchersockethandler.cpp 63-82) and `LauncherSocketHandler::handleStopFailure`
(launchersockethandler.cpp 204-218) -/
def launcherCancel (s : St) : St :=
  match s.proc with
  | .idle => s
  | .alive n k =>
    if k < 2 then { s with proc := .alive n (k + 1) }
    else { s with proc := .idle, real := some .notStopped, fromLauncher := s.fromLauncher ++ [.finished n (-1) true] }

/-- `LauncherSocketHandler::handleStartPacket` and `handleStopPacket` (launchersockethandler.cpp 220-251) -/
def launcherTakes (r : Req) (s : St) : St :=
  match r, s.proc with
  | .start n, .idle => { s with proc := .alive n 0 }
  | .start _, .alive _ _ => s
  | .stop _, .idle => s
  | .stop m, .alive n _ => launcherCancel { s with hits := s.hits ++ [(m, n)] }

/-- `QbsProcess::handlePacket` (qbsprocess.cpp 128-142 and 162-182) -/
def handlePacket (r : Resp) (s : St) : St :=
  match r with
  | .error _ =>
    if s.pstate = .notRunning then s
    else onProcessError { s with perror := .failedToStart, pstate := .notRunning }
  | .finished _ code _ =>
    if s.pstate ≠ .running then s
    else onProcessFinished { s with pstate := .notRunning, exitCode := code }

/-- `QbsProcess::handleSocketError` (qbsprocess.cpp 151-160). All processes of the launcher end with it. -/
def handleSocketError (s : St) : St :=
  let s := { s with socketError := true, ready := false, dead := true, toLauncher := [], fromLauncher := [], proc := .idle }
  if s.pstate ≠ .notRunning then onProcessError { s with pstate := .notRunning, perror := .failedToStart } else s

/-- `QbsProcess::handleSocketReady` (qbsprocess.cpp 144-149) -/
def handleSocketReady (s : St) : St :=
  let s := { s with socketError := false, ready := true }
  if s.pstate = .starting then processDoStart s else s

inductive Ev where
  /-- The job starts a command (executorjob.cpp 121-143). -/
  | start (c : Cmd)
  | dryDone
  | socketReady
  | socketError
  | launcherTakes
  | procFails
  | procExits (code : Int) (crashed : Bool)
  | stopTimer
  | deliver
  | timeout
  /-- The job is canceled (executorjob.cpp 113-119). -/
  | cancel
  | setActive (b : Bool)
  | delayedError
  | delayedFinished
  deriving Repr, DecidableEq

/-- One event, if it can happen. Delayed slots run again later (processcommandexecutor.cpp 335-340 and 371-376). The job cancels
only while a command is running. -/
def step (s : St) : Ev → Option St
  | .start c => if s.current = none then some (start c s) else none
  | .dryDone => if s.dryTimer then some (finish .success { s with dryTimer := false }) else none
  | .socketReady => if s.ready = false ∧ s.dead = false then some (handleSocketReady s) else none
  | .socketError => if s.ready then some (handleSocketError s) else none
  | .launcherTakes =>
    match s.toLauncher with
    | [] => none
    | r :: l => some (launcherTakes r { s with toLauncher := l })
  | .procFails =>
    match s.proc with
    | .alive n _ => some { s with proc := .idle, real := some .failedToStart, fromLauncher := s.fromLauncher ++ [.error n] }
    | .idle => none
  | .procExits code crashed =>
    match s.proc with
    | .alive n _ => some { s with proc := .idle, real := some (if crashed then .crashed code else .exited code),
                                  fromLauncher := s.fromLauncher ++ [.finished n code crashed] }
    | .idle => none
  | .stopTimer =>
    match s.proc with
    | .alive _ k => if k > 0 then some (launcherCancel s) else none
    | .idle => none
  | .deliver =>
    match s.fromLauncher with
    | [] => none
    | r :: l => some (handlePacket r { s with fromLauncher := l })
  | .timeout => if s.watchdog then some (cancel true { s with watchdog := false, expired := true }) else none
  | .cancel => if s.current.isSome then some (cancel false { s with stopped := true }) else none
  | .setActive b => some { s with active := b }
  | .delayedError => if s.delayedError > 0 then some (onProcessError { s with delayedError := s.delayedError - 1 }) else none
  | .delayedFinished =>
    if s.delayedFinished > 0 then some (onProcessFinished { s with delayedFinished := s.delayedFinished - 1 }) else none

/-- Several events -/
def run (s : St) : List Ev → Option St
  | [] => some s
  | e :: l => match step s e with
    | none => none
    | some s' => run s' l

/-- An executor is new when the build begins (executor.cpp 808-826). The launcher may be there already. -/
def init (ready : Bool) : St := { ready := ready }

end Verif.Proc
