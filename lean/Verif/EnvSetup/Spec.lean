import Verif.EnvSetup.Model

namespace Verif.EnvSetup

variable {N E : Type} [DecidableEq N]

/-- The modules of a product as the loader leaves them: no two have the same name, dependencies are
modules of the product, and there are no cycles. -/
structure Proper (ms : List (Module N E)) : Prop where
  distinct : (ms.map (·.name)).Nodup
  closed : ∀ m ∈ ms, ∀ d ∈ m.deps, d ∈ ms.map (·.name)
  acyclic : ∃ rank : N → Nat, ∀ m ∈ ms, ∀ d ∈ m.deps, rank d < rank m.name

/-- An order in which the scripts may run: every module exactly once, each after all modules it
depends on. -/
structure GoodOrder (ms : List (Module N E)) (order : List (Module N E)) : Prop where
  perm : order.Perm ms
  after : ∀ before m rest, order = before ++ m :: rest → ∀ d ∈ m.deps, ∃ m' ∈ before, m'.name = d

/-- The effect of a module's script. -/
def Module.run (k : Kind) (m : Module N E) (e : E) : Option E :=
  match m.script k with
  | some f => f e
  | none => some e

/-- The effect of the scripts of some modules, one after the other. -/
def runAll (k : Kind) : List (Module N E) → E → Option E
  | [], e => some e
  | m :: ms, e => (m.run k e).bind (runAll k ms)

/-- There is a script for this kind of environment. (In qbs every module has one: the default is a
function that does nothing.) -/
def HasScript (k : Kind) (ms : List (Module N E)) : Prop := ∃ m ∈ ms, (m.script k).isSome

/-- What an operation should give: the scripts for its kind of environment, applied in the given
order to the environment that the operation starts from. -/
def wanted (project : E) (order : List (Module N E)) : Op E → Option E
  | .build => runAll .build order project
  | .askBuild env => runAll .build order env
  | .askRun env config => runAll (.run config) order env

/-- Module number `2 * i` and module number `2 * i + 1` both depend on the modules `2 * i - 2` and
`2 * i - 1`: a product with `2 * n` modules. -/
def ladder (script : Kind → Option (E → Option E)) (n : Nat) : List (Module Nat E) :=
  (List.range (2 * n)).map fun i =>
    { name := i, deps := if i < 2 then [] else [2 * (i / 2) - 2, 2 * (i / 2) - 1], script }

end Verif.EnvSetup
