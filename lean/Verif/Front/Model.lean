/-!
# The command line frontend

Model of `src/app/qbs/commandlinefrontend.cpp` 87-721 and, for the number of jobs,
`src/app/qbs/parser/commandlineparser.cpp` 157-165, 200-207: which jobs are started when, what
happens on failures and interrupts, and the exit code.

Jobs run asynchronously: each one that has been started reports once that it has finished, with or
without success, at any time.  An interrupt can come at any time, and the timer can fire at any time
while it is active.  Left out: progress, messages, the commands `session`, `help` and `version`, and
the environment of the program that is run.
-/
namespace Verif.Front

/-- parser/commandtype.h 44-49. -/
inductive Cmd where
  | resolve | generate | build | clean | run | shell | status | updateTimestamps | install
  | dumpNodesTree | listProducts
  deriving DecidableEq, Repr

/-- One build configuration of the command line.  `products`: the display names of the products of
the project once it is resolved; `dirOk`: whether the build directory can be determined
(commandlinefrontend.cpp 481-515). -/
structure Conf where
  profile : String
  products : List String
  dirOk : Bool := true
  deriving DecidableEq, Repr

/-- The command line and what the parts that are not modelled answer.  `names`: the option
`--products`; `buildFirst`: `buildBeforeInstalling()`; `jobs`: the option `--jobs`, 0 if it is not
given; `prefJobs`: the preference `jobs` for a profile; a code of `none` stands for an error. -/
structure Setup where
  cmd : Cmd
  configs : List Conf
  names : List String := []
  buildFirst : Bool := true
  jobs : Nat := 0
  prefJobs : String → Nat := fun _ => 4
  generatorOk : Bool := true
  generateOk : Bool := true
  runCode : Option Nat := some 0
  shellCode : Option Nat := some 0
  statusCode : Nat := 0
  dumpOk : Bool := true

/-- A job: the resolving of a configuration, its building or cleaning, and the installation. -/
inductive Job where
  | resolve (i : Nat)
  | work (i : Nat)
  | install
  deriving DecidableEq, Repr

/-- What the frontend does, as seen from outside.  `products` is `none` for all of them. -/
inductive Effect where
  | resolve (i : Nat)
  | build (i : Nat) (products : Option (List String)) (jobs : Nat)
  | clean (i : Nat) (products : Option (List String))
  | install (products : Option (List String))
  | cancel (j : Job)
  | generate
  | run
  | shell
  | status
  | updateTimestamps (products : List (Nat × List String))
  | dump
  | list
  deriving DecidableEq, Repr

/-- commandlinefrontend.h, `CancelStatus`. -/
inductive Cancel where
  | none | requested | canceling
  deriving DecidableEq, Repr

/-- commandlinefrontend.h 108-117: `m_resolveJobs`, `m_buildJobs`, `m_projects` as indexes of
configurations; the install job is in no list of the frontend, `installing` says that it runs. -/
structure State where
  resolving : List Nat := []
  working : List Nat := []
  installing : Bool := false
  projects : List Nat := []
  cancel : Cancel := .none
  timer : Bool := false
  exit : Option Nat := none
  out : List Effect := []
  deriving DecidableEq, Repr

/-- `EXIT_FAILURE`. -/
def State.fail (s : State) : State := { s with exit := some 1 }

/-- `qApp->exit(code)`, or the handler of exceptions, commandlinefrontend.cpp 274-277. -/
def State.code (s : State) : Option Nat → State
  | none => s.fail
  | some c => { s with exit := some c }

/-- commandlinefrontend.cpp 92-111, `checkCancelStatus`. -/
def checkCancel (s : State) : State :=
  match s.cancel with
  | .none => s
  | .canceling => s
  | .requested =>
    if s.resolving = [] ∧ s.working = [] then { s with cancel := .canceling, timer := false, exit := some 1 }
    else { s with cancel := .canceling, timer := false, out := s.out ++
            (s.resolving.map fun i => .cancel (.resolve i)) ++ s.working.map fun i => .cancel (.work i) }

/-- The loop over the configurations, commandlinefrontend.cpp 164-193; the result says whether there
was no error. -/
def launch : List (Nat × Conf) → State → State × Bool
  | [], s => (s, true)
  | (i, c) :: l, s =>
    if c.dirOk then launch l { s with resolving := s.resolving ++ [i], out := s.out ++ [.resolve i] }
    else (s, false)

/-- Commands that take one configuration only, commandlinefrontend.cpp 116-142. -/
def Cmd.single : Cmd → Bool
  | .run | .shell | .status | .install | .dumpNodesTree | .listProducts => true
  | _ => false

/-- commandlinefrontend.cpp 113-221, `start`. -/
def start (u : Setup) : State :=
  if (u.cmd = .run ∨ u.cmd = .shell) ∧ u.names.length > 1 then State.fail {}
  else if u.cmd.single = true ∧ u.configs.length > 1 then State.fail {}
  else
    let (s, ok) := launch ((List.range u.configs.length).zip u.configs) {}
    if ok then { s with timer := true }
    else if s.working = [] ∧ s.resolving = [] then s.fail
    else checkCancel { s with cancel := .requested }

/-- The products of a configuration. -/
def productsOf (u : Setup) (i : Nat) : List String := ((u.configs[i]?).map (·.products)).getD []

/-- The profile of a configuration. -/
def profileOf (u : Setup) (i : Nat) : String := ((u.configs[i]?).map (·.profile)).getD ""

/-- commandlinefrontend.cpp 349-383, `productsToUse`: an error if a name is that of no product. -/
def unknownName (u : Setup) (s : State) : Bool :=
  u.names.any fun n => !(s.projects.any fun i => (productsOf u i).contains n)

/-- The products to use of one project: all, or those with the names given (349-365). -/
def selected (u : Setup) (i : Nat) : Option (List String) :=
  if u.names = [] then none else some ((productsOf u i).filter fun p => u.names.contains p)

/-- commandlinefrontend.cpp 470-479, `buildOptions`, and commandlineparser.cpp 157-165, 200-207: the
number of jobs. -/
def jobsFor (u : Setup) (s : State) (i : Nat) : Nat :=
  let n := if u.jobs > 0 then u.jobs else u.prefJobs (profileOf u (s.projects.headD 0))
  if n = 0 then u.prefJobs (profileOf u i) else n

/-- commandlinefrontend.cpp 517-542, `build`.  With names, the jobs are created in the order of a hash
table; here it is always the order of the projects. -/
def build (u : Setup) (s : State) : State :=
  if unknownName u s then s.fail
  else { s with working := s.projects, out := s.out ++ s.projects.map fun i =>
          .build i (selected u i) (jobsFor u s i) }

/-- commandlinefrontend.cpp 434-450, `makeClean`. -/
def makeClean (u : Setup) (s : State) : State :=
  if unknownName u s then s.fail
  else { s with working := s.projects, out := s.out ++ s.projects.map fun i =>
          .clean i (selected u i) }

/-- commandlinefrontend.cpp 702-721, `install`. -/
def install (u : Setup) (s : State) : State :=
  if unknownName u s then s.fail
  else { s with installing := true, out := s.out ++ [.install (selected u (s.projects.headD 0))] }

/-- commandlinefrontend.cpp 385-432, `handleProjectsResolved`. -/
def projectsResolved (u : Setup) (s : State) : State :=
  if s.cancel ≠ .none then s.fail
  else match u.cmd with
    | .resolve => { s with exit := some 0 }
    | .clean => makeClean u s
    | .shell =>
      if unknownName u s then s.fail else State.code { s with out := s.out ++ [.shell] } u.shellCode
    | .status => State.code { s with out := s.out ++ [.status] } (some u.statusCode)
    | .generate => if u.generatorOk then build u s else s.fail
    | .build => build u s
    | .install => if u.buildFirst then build u s else install u s
    | .run => if u.buildFirst then build u s else install u s
    | .updateTimestamps =>
      if unknownName u s then s.fail
      else { s with exit := some 0, out := s.out ++ [.updateTimestamps (s.projects.map fun i =>
              (i, (selected u i).getD (productsOf u i)))] }
    | .dumpNodesTree =>
      if unknownName u s then s.fail
      else if u.dumpOk then { s with exit := some 0, out := s.out ++ [.dump] }
      else s.fail
    | .listProducts =>
      if unknownName u s then s.fail else { s with exit := some 0, out := s.out ++ [.list] }

/-- commandlinefrontend.cpp 253-272: the last build or clean job has finished. -/
def workDone (u : Setup) (s : State) : State :=
  let last (s : State) : State := { s with exit := some (if s.cancel = .none then 0 else 1) }
  match u.cmd with
  | .run => install u s
  | .install => install u s
  | .generate =>
    if u.generateOk then last { s with out := s.out ++ [.generate] } else s.fail
  | _ => last s

/-- commandlinefrontend.cpp 229-278, `handleJobFinished`. -/
def finished (u : Setup) (s : State) (j : Job) : Bool → State
  | false =>
    let s := match j with
      | .resolve i => { s with resolving := s.resolving.erase i }
      | .work i => { s with working := s.working.erase i }
      | .install => { s with installing := false }
    if s.resolving = [] ∧ s.working = [] then s.fail else { s with cancel := .requested }
  | true =>
    match j with
    | .resolve i =>
      let s := { s with resolving := s.resolving.erase i, projects := s.projects ++ [i] }
      if s.resolving = [] then projectsResolved u s else s
    | .install =>
      let s := { s with installing := false }
      if u.cmd = .run then State.code { s with out := s.out ++ [.run] } u.runCode
      else { s with exit := some 0 }
    | .work i =>
      let s := { s with working := s.working.erase i }
      if s.working = [] then workDone u s else s

/-- What happens to the frontend: a job has finished, the user interrupts (87-90), the timer fires
(210-211). -/
inductive Ev where
  | finished (j : Job) (ok : Bool)
  | interrupt
  | tick
  deriving DecidableEq, Repr

/-- One event. -/
def step (u : Setup) (s : State) : Ev → State
  | .finished j ok => finished u s j ok
  | .interrupt => { s with cancel := .requested }
  | .tick => if s.timer then checkCancel s else s

end Verif.Front
