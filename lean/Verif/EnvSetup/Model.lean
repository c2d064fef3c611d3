/-
Setting up the environment for building and running a product:
src/lib/corelib/buildgraph/environmentscriptrunner.cpp, the requests for the environments,
api/runenvironment.cpp 142-162, 464-479, and the loop over the products to be built,
executor.cpp 1162-1169.

Not modelled: JavaScript. A script is a function from environments to environments that may fail;
what it gets to see of the product and the project is part of it. The names of a product's modules
are never null.
-/

namespace Verif.EnvSetup

/-- The kinds of environments, environmentscriptrunner.h 72; for running, with the list given by
the user (`m_runEnvConfig`). -/
inductive Kind
  | build
  | run (config : List String)
  deriving DecidableEq

/-- A module of a product (language.h 382-408) with the names of the modules it depends on, and its
setup scripts (`getScript`, environmentscriptrunner.cpp 220-225; `none`: no source code). Scripts
turn an environment into another one, or fail. -/
structure Module (N E : Type) where
  name : N
  deps : List N
  script : Kind → Option (E → Option E)

variable {N E : Type} [DecidableEq N]

/-- `moduleMap`, environmentscriptrunner.cpp 133-135: a later module of the same name replaces an
earlier one. -/
def lookup (ms : List (Module N E)) (n : N) : Option (Module N E) :=
  ms.reverse.find? (fun m => decide (m.name = n))

/-- `moduleChildren`, environmentscriptrunner.cpp 137-146, by name. -/
def children (ms : List (Module N E)) (n : N) : List N :=
  match lookup ms n with
  | some m => m.deps
  | none => []

/-- Whether `moduleParents` has an entry, environmentscriptrunner.cpp 139-146. -/
def hasParent (ms : List (Module N E)) (n : N) : Bool :=
  ms.any (fun m => decide (n ∈ m.deps))

/-- `rootModules`, environmentscriptrunner.cpp 148-154. -/
def roots (ms : List (Module N E)) : List N :=
  (ms.map (·.name)).filter (fun n => !hasParent ms n)

/-- The loop of `topSortModules`, environmentscriptrunner.cpp 84-98: `rec` is the recursive call.
Results: the modules in order, and the names that have been seen. `none`: no result. -/
def sortEach (rec : List N → List N → Option (List N × List N)) (ch : N → List N) :
    List N → List N → Option (List N × List N)
  | [], seen => some ([], seen)
  | m :: ms, seen =>
    match rec (ch m) seen with
    | none => none
    | some (r, seen1) =>
      match sortEach rec ch ms (if m ∈ seen1 then seen1 else seen1 ++ [m]) with
      | none => none
      | some (rs, seen2) => some ((if m ∈ seen1 then r else r ++ [m]) ++ rs, seen2)

/-- `topSortModules`, environmentscriptrunner.cpp 84-98, with recursion to the given depth. -/
def topSort (ch : N → List N) : Nat → List N → List N → Option (List N × List N)
  | 0, ms, seen => if ms = [] then some ([], seen) else none
  | n + 1, ms, seen => sortEach (topSort ch n) ch ms seen

/-- How often the body of the loop of `topSortModules` is executed, to the given depth. -/
def visits (ch : N → List N) : Nat → List N → Nat
  | 0, _ => 0
  | n + 1, ms => (ms.map (fun m => 1 + visits ch n (ch m))).sum

/-- The loop over the sorted modules, environmentscriptrunner.cpp 164-205. -/
def runScripts (k : Kind) (ms : List (Module N E)) : List N → E → Option E
  | [], e => some e
  | n :: ns, e =>
    match (lookup ms n).bind (·.script k) with
    | none => runScripts k ms ns e
    | some f => (f e).bind (runScripts k ms ns)

/-- `setupEnvironment`, environmentscriptrunner.cpp 124-212, for the product's environment `cur`
(its build or its run environment) and the environment `env` to start from. `none`: a script has
failed (or the recursion to the given depth did not end). -/
def setupEnvironment (k : Kind) (depth : Nat) (ms : List (Module N E)) (cur env : E) : Option E :=
  if ms.any (fun m => (m.script k).isSome) then
    match topSort (children ms) depth (roots ms) [] with
    | none => none
    | some (sorted, _) => runScripts k ms sorted env
  else some cur

/-- `setupForBuild`, environmentscriptrunner.cpp 107-115. -/
def setupForBuild [DecidableEq E] (empty : E) (depth : Nat) (ms : List (Module N E)) (cur env : E) :
    Option E :=
  if cur ≠ empty then some cur else setupEnvironment .build depth ms cur env

/-- `Executor::prepareProducts`, executor.cpp 1162-1169: the build environments of the products, one
after the other; the environment of the project is the start for each. -/
def prepareProducts [DecidableEq E] (empty : E) (depth : Nat) (env : E) :
    List (List (Module N E) × E) → Option (List E)
  | [] => some []
  | p :: ps =>
    match setupForBuild empty depth p.1 p.2 env with
    | none => none
    | some e => (prepareProducts empty depth env ps).map (e :: ·)

/-- The environments stored with a product, language.h 673-674. -/
structure State (E : Type) where
  build : E
  run : E
  deriving DecidableEq

/-- What makes qbs set up an environment: the product is built (executor.cpp 1162-1169) or a shell
is started for it (`doRunShell`, runenvironment.cpp 164-168), both with the environment of the
project; somebody asks for the build environment or for the run environment on top of some other
environment (`getBuildEnvironment`, `getRunEnvironment`, runenvironment.cpp 464-479). -/
inductive Op (E : Type)
  | build
  | askBuild (env : E)
  | askRun (env : E) (config : List String)

/-- One operation: the new state, and the environment that is used or returned. After a failure the
stored environments are what they were. -/
def step [DecidableEq E] (empty : E) (depth : Nat) (project : E) (ms : List (Module N E))
    (s : State E) : Op E → State E × Option E
  | .build =>
    match setupForBuild empty depth ms s.build project with
    | some e => ({ s with build := e }, some e)
    | none => (s, none)
  | .askBuild env =>
    match setupForBuild empty depth ms s.build env with
    | some e => ({ s with build := e }, some e)
    | none => (s, none)
  | .askRun env config =>
    match setupEnvironment (.run config) depth ms s.run env with
    | some e => ({ s with run := e }, some e)
    | none => (s, none)

/-- The environments used or returned by a history of operations. -/
def answers [DecidableEq E] (empty : E) (depth : Nat) (project : E) (ms : List (Module N E)) :
    State E → List (Op E) → List (Option E)
  | _, [] => []
  | s, op :: ops =>
    (step empty depth project ms s op).2 ::
      answers empty depth project ms (step empty depth project ms s op).1 ops

end Verif.EnvSetup
