/-!
# Executor jobs: running the commands of a transformer

Model of
* src/lib/corelib/buildgraph/executorjob.cpp 94-172 (`ExecutorJob`),
* src/lib/corelib/buildgraph/abstractcommandexecutor.cpp 52-104,
* src/lib/corelib/buildgraph/processcommandexecutor.cpp 107-210, 292-383,
* src/lib/corelib/buildgraph/jscommandexecutor.cpp 74-300,
* src/lib/corelib/tools/qbsprocess.cpp 53-177, launchersocket.cpp 53-165,
* src/libexec/qbs_processlauncher/launchersockethandler.cpp 51-290.

One job with its two command executors, its `QbsProcess`, the two directions of the connection to
the process launcher, and the launcher's process for this job. (Packets carry the address of the
`QbsProcess`, so the jobs do not see each other's packets.)

Simplifications: commands carry what the environment will say about them when they are started
(`setupError`, `saveError`); the response file, the environment variables, output texts and error
texts are left out (an error is only its presence). The slots run in the order of the events;
`Executor` reacting to `finished` by calling `run` again at once is the event `run` coming next.
-/
namespace Verif.Job

inductive Kind where
  | process | js
deriving DecidableEq, Repr

/-- A command (`AbstractCommand`, `ProcessCommand`, `JavaScriptCommand`). -/
structure Cmd where
  kind : Kind
  /-- `ignoreDryRun` -/
  ignoreDryRun : Bool
  /-- `timeout() > 0` -/
  timeout : Bool
  /-- `quint32(maxExitCode())` -/
  maxExit : Nat
  /-- processcommandexecutor.cpp 147-190: the working directory is invalid, or the response file
  cannot be created or filled -/
  setupError : Bool
  /-- processcommandexecutor.cpp 247-260 `saveToFile`: redirected output cannot be written -/
  saveError : Bool
deriving DecidableEq, Repr

/-- What can be seen from outside. -/
inductive Obs where
  /-- `run` with these commands, on an idle job -/
  | run (cs : List Cmd)
  /-- the command with this index is handed to its executor -/
  | start (i : Nat)
  /-- the command could not be prepared -/
  | setupFailed
  /-- the process could not be started, or the connection to the launcher was lost -/
  | notStarted
  /-- the process ended -/
  | exit (code : Nat) (crashed : Bool)
  /-- the script was evaluated -/
  | evaluated (ok : Bool)
  /-- a dry run has nothing to do -/
  | skipped
  /-- the watchdog of an executor fired -/
  | timeout (k : Kind)
  /-- `cancel` on a job that is running a command -/
  | cancel
  /-- `finished`, with or without an error -/
  | finished (error : Bool)
  /-- one of the assertions failed, or a request was dropped by the launcher -/
  | assertion
deriving DecidableEq, Repr

inductive PState where
  | notRunning | starting | running
deriving DecidableEq, Repr

/-- The launcher socket (launchersocket.h 64): not connected yet, connected, lost. -/
inductive Conn where
  | waiting | ready | lost
deriving DecidableEq, Repr

inductive Req where
  | start | stop
deriving DecidableEq, Repr

inductive Ans where
  | error
  | finished (code : Nat) (crashed : Bool)
deriving DecidableEq, Repr

inductive StopState where
  | inactive | terminating | killing
deriving DecidableEq, Repr

/-- Where the thread of the `JsCommandExecutor` is: nothing to do; `startRequested` queued;
`m_cancelled` was checked; the result was reset and the script is being evaluated; `finished` is
queued for the main thread. -/
inductive JsThread where
  | idle | queued | checked | evaluating | done
deriving DecidableEq, Repr

structure St where
  /-- `m_dryRun` -/
  dry : Bool
  -- ExecutorJob
  /-- `m_transformer` -/
  cmds : Option (List Cmd)
  /-- `m_currentCommandIdx`; `none` is -1 -/
  idx : Option Nat
  /-- `m_currentCommandExecutor` -/
  cur : Option Kind
  /-- `m_error.hasError()` -/
  err : Bool
  -- ProcessCommandExecutor
  /-- `m_command`; its last value stays -/
  pcmd : Option Cmd
  /-- `m_cancelReason.hasError()` -/
  pcancel : Bool
  /-- pending zero timers of dry runs -/
  pzero : Nat
  /-- delayed calls of `onProcessError` -/
  pdelErr : Nat
  /-- delayed calls of `onProcessFinished` -/
  pdelFin : Nat
  /-- `m_watchdog.isActive()` -/
  pwatch : Bool
  -- QbsProcess
  pst : PState
  /-- `m_error != QProcess::UnknownError`; the only other value is `FailedToStart` -/
  perr : Bool
  pexit : Nat
  /-- `m_socketError` -/
  sockErr : Bool
  -- the connection and the launcher
  conn : Conn
  /-- requests on their way to the launcher, in order -/
  toL : List Req
  /-- answers on their way back -/
  toC : List Ans
  lst : PState
  lstop : StopState
  -- JsCommandExecutor
  jrunning : Bool
  jzero : Nat
  jwatch : Bool
  jcancelled : Bool
  /-- `m_result.success` -/
  jsucc : Bool
  jthread : JsThread
  /-- what was seen so far, latest first -/
  log : List Obs
deriving DecidableEq, Repr

/-- A new `ExecutorJob`. -/
def init (dry : Bool) : St where
  dry := dry
  cmds := none
  idx := none
  cur := none
  err := false
  pcmd := none
  pcancel := false
  pzero := 0
  pdelErr := 0
  pdelFin := 0
  pwatch := false
  pst := .notRunning
  perr := false
  pexit := 0
  sockErr := false
  conn := .waiting
  toL := []
  toC := []
  lst := .notRunning
  lstop := .inactive
  jrunning := false
  jzero := 0
  jwatch := false
  jcancelled := false
  jsucc := false
  jthread := .idle
  log := []

def St.say (s : St) (o : Obs) : St := { s with log := o :: s.log }

/-- executorjob.cpp 157-172 `setFinished` and `reset`. -/
def setFinished (s : St) : St :=
  { s with cmds := none, idx := none, cur := none, err := false,
           log := .finished s.err :: s.log }

/-- executorjob.cpp 144-155 `onCommandFinished` with an error. (No command is started.) -/
def onCommandFailed (s : St) : St :=
  if s.cmds = none then s.say .assertion
  else if s.err then setFinished s
  else setFinished { s with err := true }

/-- The signal `finished(error)` of the process executor: the connection made first stops the
watchdog (abstractcommandexecutor.cpp 66), then the job reacts. -/
def pFailed (s : St) : St := onCommandFailed { s with pwatch := false }

/-- The same for the other executor. -/
def jFailed (s : St) : St := onCommandFailed { s with jwatch := false }

/-- processcommandexecutor.cpp 333-367 `onProcessError`; `active` is
`scriptEngine()->isActive()`. -/
def onProcessError (active : Bool) (s : St) : St :=
  if active then { s with pdelErr := s.pdelErr + 1 }
  else if s.pcancel then s
  else pFailed s

/-- qbsprocess.cpp 78-87 `doStart`. `sendData` drops the packet if there is no socket
(launchersocket.cpp 60). -/
def processDoStart (s : St) : St :=
  { s with pst := .running, toL := if s.conn = .ready then s.toL ++ [.start] else s.toL }

/-- qbsprocess.cpp 63-76 `start`. -/
def processStart (active : Bool) (s : St) : St :=
  if s.sockErr then onProcessError active ({ s with perr := true }.say .notStarted)
  else if s.conn = .ready then processDoStart { s with pst := .starting }
  else { s with pst := .starting }

/-- abstractcommandexecutor.cpp 94-101 `startTimeout`, after a `doStart` that returned true. -/
def startTimeoutP (c : Cmd) (s : St) : St :=
  if (!s.dry || c.ignoreDryRun) && c.timeout then { s with pwatch := true } else s

def startTimeoutJ (c : Cmd) (s : St) : St :=
  if (!s.dry || c.ignoreDryRun) && c.timeout then { s with jwatch := true } else s

/-- processcommandexecutor.cpp 127-199 `doStart`, called by abstractcommandexecutor.cpp 69-77
`start`. -/
def startProcess (active : Bool) (c : Cmd) (s : St) : St :=
  let s := { s with pcmd := some c }
  if s.pst ≠ .notRunning then s.say .assertion
  else if s.dry && !c.ignoreDryRun then { s with pzero := s.pzero + 1 }
  else if c.setupError then pFailed (s.say .setupFailed)
  else startTimeoutP c (processStart active s)

/-- jscommandexecutor.cpp 258-271 `doStart`. -/
def startJs (c : Cmd) (s : St) : St :=
  if s.jrunning then s.say .assertion
  else if s.dry && !c.ignoreDryRun then { s with jzero := s.jzero + 1 }
  else startTimeoutJ c { s with jrunning := true, jthread := .queued }

/-- executorjob.cpp 124: `++m_currentCommandIdx`. -/
def nextIdx : Option Nat → Nat
  | none => 0
  | some i => i + 1

/-- executorjob.cpp 121-142 `runNextCommand`. -/
def runNextCommand (active : Bool) (s : St) : St :=
  match s.cmds with
  | none => s.say .assertion
  | some cs =>
    match cs[nextIdx s.idx]? with
    | none => setFinished { s with idx := some (nextIdx s.idx) }
    | some c =>
      match c.kind with
      | .process => startProcess active c
          ({ s with idx := some (nextIdx s.idx), cur := some .process }.say
            (.start (nextIdx s.idx)))
      | .js => startJs c
          ({ s with idx := some (nextIdx s.idx), cur := some .js }.say (.start (nextIdx s.idx)))

/-- executorjob.cpp 144-155 `onCommandFinished` without an error. -/
def onCommandSucceeded (active : Bool) (s : St) : St :=
  if s.cmds = none then s.say .assertion
  else if s.err then setFinished s
  else runNextCommand active s

def pSucceeded (active : Bool) (s : St) : St := onCommandSucceeded active { s with pwatch := false }
def jSucceeded (active : Bool) (s : St) : St := onCommandSucceeded active { s with jwatch := false }

/-- processcommandexecutor.cpp 296-331 `sendProcessOutput`. -/
def sendProcessOutput (active : Bool) (s : St) : St :=
  let saveError := match s.pcmd with | some c => c.saveError | none => false
  let maxExit := match s.pcmd with | some c => c.maxExit | none => 0
  let processError := s.perr || saveError
  let failureExit : Bool := decide (s.pexit > maxExit)
  if s.pcancel then pFailed s
  else if processError then pFailed s
  else if failureExit then pFailed s
  else pSucceeded active s

/-- processcommandexecutor.cpp 369-379 `onProcessFinished`. -/
def onProcessFinished (active : Bool) (s : St) : St :=
  if active then { s with pdelFin := s.pdelFin + 1 }
  else sendProcessOutput active s

/-- qbsprocess.cpp 89-104 `cancel`. -/
def processCancel (active : Bool) (s : St) : St :=
  match s.pst with
  | .notRunning => s
  | .starting =>
    onProcessError active ({ s with perr := true, pst := .notRunning }.say .notStarted)
  | .running => if s.conn = .ready then { s with toL := s.toL ++ [.stop] } else s

/-- launchersockethandler.cpp 63-82 `Process::cancel`, also called by its timer; a process that
does not react to being killed is forgotten (184-198 `handleStopFailure`). 4294967295 is
`quint32(-1)`. -/
def launcherCancel (s : St) : St :=
  match s.lstop with
  | .inactive => { s with lstop := .terminating }
  | .terminating => { s with lstop := .killing }
  | .killing =>
    { s with lstop := .inactive, lst := .notRunning,
             toC := s.toC ++ [.finished 4294967295 true],
             log := .exit 4294967295 true :: s.log }

inductive Ev where
  /-- `ExecutorJob::run` -/
  | run (active : Bool) (cs : List Cmd)
  /-- `ExecutorJob::cancel` -/
  | cancel (active : Bool)
  /-- the watchdogs -/
  | watchP (active : Bool)
  | watchJ
  /-- zero timers of dry runs -/
  | zeroP (active : Bool)
  | zeroJ (active : Bool)
  /-- delayed slots of the process executor -/
  | delayedError (active : Bool)
  | delayedFinished (active : Bool)
  /-- the launcher connects; the connection breaks -/
  | socketReady
  | socketError (active : Bool)
  /-- the launcher handles a request -/
  | launcherReceives
  /-- the process starts, cannot be started, ends, the stop timer expires -/
  | started
  | failedToStart
  | exits (code : Nat) (crashed : Bool)
  | stopTimer
  /-- an answer arrives -/
  | clientReceives (active : Bool)
  /-- the steps of the script thread, and its end arriving in the main thread -/
  | jsCheck
  | jsReset
  | jsEvaluated (ok : Bool)
  | jsFinished (active : Bool)
deriving Repr

/-- One event; an event that cannot happen in a state changes nothing. -/
def step (s : St) : Ev → St
  -- executorjob.cpp 94-111
  | .run active cs =>
    if s.idx ≠ none then s
    else if cs = [] then setFinished (s.say (.run []))
    else runNextCommand active ({ s with cmds := some cs }.say (.run cs))
  -- executorjob.cpp 113-119; processcommandexecutor.cpp 201-208 and jscommandexecutor.cpp 90-98,
  -- 273-277 with an empty reason
  | .cancel active =>
    match s.cur with
    | none => s
    | some .process => processCancel active ({ s with err := true, pcancel := false }.say .cancel)
    | some .js =>
      let s := { s with err := true }.say .cancel
      if s.jrunning then { s with jsucc := true, jcancelled := true } else s
  -- abstractcommandexecutor.cpp 60-65
  | .watchP active =>
    if s.pwatch then
      processCancel active ({ s with pwatch := false, pcancel := true }.say (.timeout .process))
    else s
  | .watchJ =>
    if s.jwatch then
      let s := { s with jwatch := false }.say (.timeout .js)
      if s.jrunning then { s with jsucc := false, jcancelled := true } else s
    else s
  -- processcommandexecutor.cpp 138, jscommandexecutor.cpp 263
  | .zeroP active =>
    if s.pzero = 0 then s
    else pSucceeded active ({ s with pzero := s.pzero - 1 }.say .skipped)
  | .zeroJ active =>
    if s.jzero = 0 then s
    else jSucceeded active ({ s with jzero := s.jzero - 1 }.say .skipped)
  | .delayedError active =>
    if s.pdelErr = 0 then s
    else onProcessError active { s with pdelErr := s.pdelErr - 1 }
  | .delayedFinished active =>
    if s.pdelFin = 0 then s
    else onProcessFinished active { s with pdelFin := s.pdelFin - 1 }
  -- launchersocket.cpp 80-92, qbsprocess.cpp 138-143
  | .socketReady =>
    if s.conn = .waiting then
      let s := { s with conn := .ready, sockErr := false }
      if s.pst = .starting then processDoStart s else s
    else s
  -- launchersocket.cpp 94-99, 123-134, qbsprocess.cpp 145-154
  | .socketError active =>
    if s.conn = .ready then
      let s := { s with conn := .lost, sockErr := true, toL := [], toC := [],
                        lst := .notRunning, lstop := .inactive }
      if s.pst ≠ .notRunning then
        onProcessError active ({ s with pst := .notRunning, perr := true }.say .notStarted)
      else s
    else s
  -- launchersockethandler.cpp 200-235
  | .launcherReceives =>
    match s.toL with
    | [] => s
    | .start :: r =>
      if s.lst ≠ .notRunning then { s with toL := r }.say .assertion
      else { s with toL := r, lst := .starting }
    | .stop :: r =>
      if s.lst = .notRunning then { s with toL := r }
      else launcherCancel { s with toL := r }
  | .started => if s.lst = .starting then { s with lst := .running } else s
  -- launchersockethandler.cpp 159-168
  | .failedToStart =>
    if s.lst = .starting then
      { s with lst := .notRunning, lstop := .inactive, toC := s.toC ++ [.error] }
    else s
  -- launchersockethandler.cpp 170-182
  | .exits code crashed =>
    if s.lst = .running then
      { s with lst := .notRunning, lstop := .inactive, toC := s.toC ++ [.finished code crashed],
               log := .exit code crashed :: s.log }
    else s
  | .stopTimer =>
    if s.lst ≠ .notRunning ∧ s.lstop ≠ .inactive then launcherCancel s else s
  -- qbsprocess.cpp 120-136, 156-177
  | .clientReceives active =>
    match s.toC with
    | [] => s
    | .error :: r =>
      if s.pst = .notRunning then { s with toC := r }.say .assertion
      else onProcessError active
        ({ s with toC := r, pst := .notRunning, perr := true }.say .notStarted)
    | .finished code _ :: r =>
      if s.pst ≠ .running then { s with toC := r }.say .assertion
      else onProcessFinished active { s with toC := r, pst := .notRunning, pexit := code }
  -- jscommandexecutor.cpp 104-122
  | .jsCheck =>
    if s.jthread = .queued then
      { s with jthread := if s.jcancelled then .done else .checked }
    else s
  -- jscommandexecutor.cpp 126-127
  | .jsReset => if s.jthread = .checked then { s with jsucc := true, jthread := .evaluating } else s
  -- jscommandexecutor.cpp 148-166
  | .jsEvaluated ok =>
    if s.jthread = .evaluating then
      { s with jthread := .done,
               jsucc := if !ok && !s.jcancelled then false else s.jsucc,
               log := .evaluated ok :: s.log }
    else s
  -- jscommandexecutor.cpp 279-292
  | .jsFinished active =>
    if s.jthread = .done then
      let s := { s with jthread := .idle, jrunning := false }
      if s.jsucc then jSucceeded active s else jFailed s
    else s

def runEvs (s : St) (evs : List Ev) : St := evs.foldl step s

end Verif.Job
