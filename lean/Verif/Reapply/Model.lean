/-!
# Applying a rule again (C28)

Model of `RuleNode::apply` and its helpers, src/lib/corelib/buildgraph/rulenode.cpp 79-264, 328-346 and 388-406, of
the use of the flag for change tracking, src/lib/corelib/buildgraph/transformerchangetracking.cpp 338-348 and
src/lib/corelib/buildgraph/transformer.cpp 310-322, and of `applyRule`, `doApply`, `collectOldOutputArtifacts` and
`createOutputArtifact`, src/lib/corelib/buildgraph/rulesapplicator.cpp 89-146, 162-322 and 408-496.

One rule node and the outputs of its rule are modelled. Artifacts and paths are numbers. What scripts read, apart from
their inputs, is a value of an arbitrary type `Env`; whether the recorded accesses of a script, made in one such
value, differ in another one is an arbitrary relation (what it is worth is C31). Not modelled: file tags (the set of
compatible inputs is given), effects on other nodes, time stamps of outputs, rescuing, and the scanners, of which
only the found dependencies count. A set is a list; its order is the order of iteration.
-/
namespace Verif.Reapply

abbrev Art := Nat
abbrev Path := Nat

/-- `Rule`, language.h. -/
structure Rule where
  multiplex : Bool
  declares : Bool
  requires : Bool
deriving DecidableEq, Repr

/-- The conditions that the loader checks, src/lib/corelib/loader/loaderutils.cpp 738-750. -/
def Rule.valid (r : Rule) : Bool :=
  (r.multiplex || r.declares) && (r.multiplex || r.requires) && (r.declares || !r.requires)

/-- `Transformer`; the same `id` stands for the same object. `basis` is where the recorded accesses of the prepare
script come from. -/
structure Trafo (Env : Type) where
  id : Nat
  inputs : List Art
  tracked : Bool
  basis : Option Env
  commands : List Nat
deriving DecidableEq, Repr

/-- An output of the rule; `children` are the artifacts it was connected to when the rule was applied, `scanned`
those found by scanners. -/
structure Output (Env : Type) where
  path : Path
  children : List Art
  scanned : List Art
  trafo : Trafo Env
deriving DecidableEq, Repr

/-- `RuleNode`, rulenode.h; a null pointer in one of the sets is a flag (rulenode.cpp 388-406). -/
structure Node (Env : Type) where
  oldInputs : List Art
  inputLost : Bool
  oldExplicit : List Art
  explicitLost : Bool
  lastTime : Nat
  considers : Bool
  outputs : List (Output Env)
  next : Nat
deriving DecidableEq, Repr

inductive ScriptResult
  /-- an error or cancellation before the outputs are created -/
  | refuses
  /-- an error in the prepare script -/
  | fails (outs : List Path)
  | gives (outs : List Path) (commands : List Nat)
deriving DecidableEq, Repr

/-- All that an application gets from outside. -/
structure World (Env : Type) where
  env : Env
  inputs : List Art
  explicit : List Art
  time : Art → Nat
  now : Nat
  script : List Art → ScriptResult
  usesIo : Bool
  wasScanned : Bool
  found : Path → List Art
  differs : Env → Env → Bool

variable {Env : Type}

/-- `parentArtifacts` of an input contains the output. -/
def isParent (a : Art) (o : Output Env) : Bool := o.children.contains a || o.scanned.contains a

/-- Resetting the flag of a transformer. -/
def clear (id : Nat) (os : List (Output Env)) : List (Output Env) :=
  os.map (fun o => if o.trafo.id = id then { o with trafo := { o.trafo with tracked := false } } else o)

/-- The check of recorded accesses; there are none without `basis`. -/
def differsNow (w : World Env) (t : Trafo Env) : Bool :=
  match t.basis with
  | none => false
  | some e => w.differs e w.env

/-- `prepareScriptNeedsRerun`, transformerchangetracking.cpp 338-348. -/
def check (w : World Env) (os : List (Output Env)) (o : Output Env) : List (Output Env) × Bool :=
  if o.trafo.tracked then (clear o.trafo.id os, differsNow w o.trafo) else (os, false)

/-- The check for an input, rulenode.cpp 112-122: its first parent counts. -/
def checkInput (w : World Env) (a : Art) (os : List (Output Env)) : List (Output Env) × Bool :=
  match os.find? (isParent a) with
  | none => (os, false)
  | some o => check w os o

/-- The loop, rulenode.cpp 111-125, giving the inputs whose check failed. -/
def checkInputs (w : World Env) : List Art → List (Output Env) → List (Output Env) × List Art
  | [], os => (os, [])
  | a :: as, os =>
    let c := checkInput w a os
    let rest := checkInputs w as c.1
    (rest.1, if c.2 then a :: rest.2 else rest.2)

/-- The check for rules without inputs, rulenode.cpp 129-147, of the outputs in question. -/
def checkOutputs (w : World Env) : List (Output Env) → List (Output Env) → List (Output Env) × Bool
  | [], os => (os, false)
  | o :: rest, os =>
    let c := check w os o
    if c.2 then c else checkOutputs w rest c.1

def sameSet (a b : List Art) : Bool := a.all b.contains && b.all a.contains

/-- `changedInputArtifacts`, rulenode.cpp 328-346. -/
def changedInputs (w : World Env) (n : Node Env) : List Art :=
  if !sameSet w.explicit n.oldExplicit || n.explicitLost then w.inputs
  else if !n.considers then []
  else if w.explicit.any (fun a => n.lastTime < w.time a) then w.inputs
  else w.inputs.filter (fun a => n.lastTime < w.time a)

structure Decision (Env : Type) where
  outputs : List (Output Env)
  upToDate : Bool
  inputs : List Art

def added (w : World Env) (n : Node Env) : List Art := w.inputs.filter (fun a => !n.oldInputs.contains a)
def removed (w : World Env) (n : Node Env) : List Art := n.oldInputs.filter (fun a => !w.inputs.contains a)

/-- The inputs to apply the rule to, rulenode.cpp 105-109 and 119. -/
def toApply (r : Rule) (w : World Env) (n : Node Env) (rerun : List Art) : List Art :=
  if r.multiplex then w.inputs
  else w.inputs.filter (fun a => (changedInputs w n).contains a || (added w n).contains a || rerun.contains a)

/-- `upToDate` after the loop, rulenode.cpp 94, 118 -/
def unchanged (w : World Env) (n : Node Env) (rerun : List Art) : Bool :=
  (changedInputs w n).isEmpty && (added w n).isEmpty && (removed w n).isEmpty && !n.inputLost && rerun.isEmpty

/-- rulenode.cpp 86-147 -/
def decision (r : Rule) (w : World Env) (n : Node Env) : Decision Env :=
  let c := checkInputs w (if r.multiplex then w.inputs.take 1 else w.inputs) n.outputs
  if unchanged w n c.2 && (!r.declares || !r.requires) && (toApply r w n c.2).isEmpty then
    let d := checkOutputs w (if r.multiplex then c.1.take 1 else c.1) c.1
    ⟨d.1, !c.1.isEmpty && !d.2, toApply r w n c.2⟩
  else ⟨c.1, unchanged w n c.2, toApply r w n c.2⟩

/-- rulenode.cpp 149-150 -/
def mustApply (r : Rule) (inputs : List Art) : Bool := !inputs.isEmpty || !r.declares || !r.requires

/-- Outputs of removed inputs, rulenode.cpp 180-217; `none` is the failed assertion at 203. -/
def dropRemoved (forces : Bool) (gone : List Art) (os : List (Output Env)) : Option (List (Output Env)) :=
  if os.any (fun o => gone.any (fun a =>
      isParent a o && !o.trafo.inputs.contains a && !o.scanned.contains a)) then none
  else if forces then
    some (os.filter (fun o => !gone.any (fun a => isParent a o && o.trafo.inputs.contains a)))
  else
    some (os.map (fun o => { o with
      children := o.children.filter (fun a => !(gone.contains a && o.trafo.inputs.contains a))
      scanned := o.scanned.filter (fun a => !(gone.contains a && o.trafo.inputs.contains a)) }))

/-- `createOutputArtifact`, rulesapplicator.cpp 429-430, 462-494, and the connections at 246-249. -/
def create (t : Trafo Env) (conns : List Art) (os : List (Output Env)) (p : Path) : List (Output Env) :=
  if os.any (fun o => o.path == p) then
    os.map (fun o => if o.path = p then { o with children := o.children ++ conns, trafo := t } else o)
  else os ++ [⟨p, conns, [], t⟩]

/-- Is there a conflict with another application of the rule? rulesapplicator.cpp 450-461 (before any output is
created, which is a simplification: outputs before the conflicting one are created in the code). -/
def conflict (r : Rule) (ins : List Art) (os : List (Output Env)) (outs : List Path) : Bool :=
  !r.multiplex && os.any (fun o => outs.contains o.path && !sameSet o.trafo.inputs ins)

/-- The transformer whose change tracking data are rescued, transformer.cpp 310-322: that of the last output that
exists already. -/
def rescued (os : List (Output Env)) (outs : List Path) : Option (Trafo Env) :=
  ((outs.filterMap (fun p => os.find? (fun o => o.path == p))).getLast?).map (·.trafo)

/-- The new transformer as it is before the prepare script was run. -/
def unfinished (next : Nat) (ins : List Art) (old : Option (Trafo Env)) : Trafo Env :=
  ⟨next, ins, (old.map (·.tracked)).getD false, old.bind (·.basis), []⟩

/-- Creation of the outputs and removal of those that are no longer produced, rulesapplicator.cpp 197-230, 312-322. -/
def replaceOutputs (w : World Env) (ins : List Art) (t : Trafo Env) (outs : List Path) (os : List (Output Env)) :
    List (Output Env) :=
  (outs.foldl (create t (ins ++ w.explicit)) os).filter (fun o =>
    outs.contains o.path || !ins.any (fun a => isParent a o && o.trafo.inputs.contains a))

/-- `doApply`, rulesapplicator.cpp 162-308. The result tells whether there was no error. -/
def doApply (r : Rule) (w : World Env) (ins : List Art) (os : List (Output Env)) (next : Nat) :
    List (Output Env) × Bool :=
  match w.script ins with
  | .refuses => (os, false)
  | .fails outs =>
    if conflict r ins os outs then (os, false)
    else (replaceOutputs w ins (unfinished next ins (rescued os outs)) outs os, false)
  | .gives outs cmds =>
    if conflict r ins os outs then (os, false)
    else (replaceOutputs w ins
      { unfinished next ins (rescued os outs) with basis := some w.env, commands := cmds } outs os, true)

/-- `applyRule`, rulesapplicator.cpp 112-120, for the given sets of inputs. -/
def applyAll (r : Rule) (w : World Env) : List (List Art) → List (Output Env) → Nat →
    List (Output Env) × Nat × Bool
  | [], os, next => (os, next, true)
  | ins :: rest, os, next =>
    let d := doApply r w ins os next
    if d.2 then applyAll r w rest d.1 (next + 1) else (d.1, next + 1, false)

/-- The sets of inputs the rule is applied to, rulesapplicator.cpp 112-120. -/
def portions (r : Rule) (inputs : List Art) : List (List Art) :=
  if r.multiplex then [inputs] else inputs.map (fun a => [a])

/-- `updateOutputsDependencies`, rulenode.cpp 251-264. -/
def updateScanned (w : World Env) (os : List (Output Env)) : List (Output Env) :=
  if w.wasScanned then os.map (fun o => { o with scanned := w.found o.path }) else os

inductive Result
  | skipped
  /-- the sets of inputs for which the scripts were run -/
  | done (ran : List (List Art))
  | failed
  | assertion
deriving DecidableEq, Repr

/-- The rest of `apply` after the removal of outputs, rulenode.cpp 219-243. -/
def finish (r : Rule) (w : World Env) (n : Node Env) (inputs : List Art) (os : List (Output Env)) :
    Node Env × Result :=
  if mustApply r inputs then
    let a := applyAll r w (portions r inputs) os n.next
    if a.2.2 then
      (⟨w.inputs, false, w.explicit, false, w.now, n.considers || w.usesIo || w.wasScanned,
        updateScanned w a.1, a.2.1⟩, .done (portions r inputs))
    else ({ n with outputs := a.1, next := a.2.1 }, .failed)
  else
    (⟨w.inputs, false, w.explicit, false, n.lastTime, n.considers, updateScanned w os, n.next⟩, .done [])

/-- `apply`, rulenode.cpp 79-244. -/
def apply (r : Rule) (w : World Env) (n : Node Env) : Node Env × Result :=
  let d := decision r w n
  if d.upToDate then ({ n with outputs := updateScanned w d.outputs }, .skipped)
  else
    match dropRemoved (!r.multiplex || !mustApply r d.inputs) (removed w n) d.outputs with
    | none => ({ n with outputs := d.outputs }, .assertion)
    | some os => finish r w n d.inputs os

/-- A node that was not applied yet. -/
def fresh : Node Env := ⟨[], false, [], false, 0, false, [], 0⟩

/-- A new resolving of the project, src/lib/corelib/buildgraph/buildgraphloader.cpp 668-681. -/
def mark (n : Node Env) : Node Env :=
  { n with outputs := n.outputs.map (fun o => { o with trafo := { o.trafo with tracked := true } }) }

/-- Removal of an artifact that was an input, rulenode.cpp 388-406 (outputs aside). -/
def lose (a : Art) (n : Node Env) : Node Env :=
  { n with
    oldInputs := n.oldInputs.filter (· != a)
    inputLost := n.inputLost || n.oldInputs.contains a
    oldExplicit := n.oldExplicit.filter (· != a)
    explicitLost := n.explicitLost || n.oldExplicit.contains a }

end Verif.Reapply
