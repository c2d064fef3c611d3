import Verif.Version.Model

/-!
# Which modules are present in a product (C69)

Model of src/lib/corelib/loader/productresolver.cpp 241-418: after the dependencies of a product have been resolved, probes
are run, versions are checked, validation scripts are run, and modules are disabled that nothing needs any more.

Simplifications: what probes and scripts come to is given by functions, which may depend on what is present at the time.
Errors in the probes of the product itself are not modelled. Who loads what and what a module depends on is given by lists,
which C66 is about.
-/
namespace Verif.Present
open Verif.Version

inductive Loader
  | product
  | module (id : Nat)
deriving DecidableEq, Repr

/-- `Item::Module` -/
structure Mod where
  id : Nat
  name : List String
  /-- whether it is exported by a product that is disabled -/
  disabled : Bool := false
  required : Bool := true
  range : Range := {}
  /-- `loadContexts` -/
  loaders : List Loader
  /-- `modules()` of the instance: the modules it depends on, and whether they are required -/
  locals : List (Nat × Bool) := []
deriving DecidableEq, Repr

/-- What probes and scripts come to, given the modules that are not present -/
structure Env where
  probes : Nat → List Nat → Bool
  version : Nat → List Nat → Version
  valid : Nat → List Nat → Bool

structure St where
  /-- the modules that are not present -/
  gone : List Nat
  /-- the required modules that are reported, `delayedError` -/
  errors : List Nat
deriving DecidableEq, Repr

/-- `handleModuleSetupError`, 403-415 -/
def setupError (m : Mod) (s : St) : St :=
  if m.required then { s with errors := s.errors ++ [m.id] } else { s with gone := m.id :: s.gone }

/-- `runModuleProbes`, 309-350 -/
def probe (e : Env) (m : Mod) (s : St) : St :=
  if s.gone.contains m.id then s
  else if m.disabled then { s with gone := m.id :: s.gone }
  else if e.probes m.id s.gone && m.range.accepts (e.version m.id s.gone) then s
  else setupError m s

/-- `resolveProbes`, 294-302 -/
def probeAll (e : Env) : List Mod → St → St
  | [], s => s
  | m :: l, s =>
    let s' := probe e m s
    if s'.errors ≠ [] then s' else probeAll e l s'

/-- `validateModule`, 382-401: whether to go on, and the state -/
def validate (e : Env) (m : Mod) (s : St) : Bool × St :=
  if s.gone.contains m.id then (true, s)
  else if e.valid m.id s.gone && m.locals.all (fun x => !x.2 || !s.gone.contains x.1) then (true, s)
  else
    let s' := setupError m s
    (decide (s'.errors = []), s')

/-- 262-267 -/
def validateAll (e : Env) : List Mod → St → Bool × St
  | [], s => (true, s)
  | m :: l, s =>
    let r := validate e m s
    if r.1 then validateAll e l r.2 else r

/-- Whether a loading item is present, 360-374 -/
def counts (ms : List Mod) (s : St) : Loader → Bool
  | .product => true
  | .module i => !s.gone.contains i && !(ms.any (fun m => decide (m.id = i) && m.disabled))

/-- `updateModulePresentState`, 352-380 -/
def update (ms : List Mod) (m : Mod) (s : St) : St :=
  if s.gone.contains m.id then s
  else if m.name.head? = some "qbs" then s
  else if m.loaders.any (counts ms s) then s
  else { s with gone := m.id :: s.gone }

/-- 272-273 -/
def updateAll (ms : List Mod) : List Mod → St → St
  | [], s => s
  | m :: l, s => updateAll ms l (update ms m s)

/-- `ProductResolverStage1::start`, 241-273, from the list of modules and the ones that are not present to begin with -/
def run (e : Env) (ms : List Mod) (absent : List Nat) : St :=
  let r := validateAll e ms (probeAll e ms { gone := absent, errors := [] })
  if r.1 then updateAll ms ms.reverse r.2 else r.2

end Verif.Present
