/-!
# The up-to-date check of the executor

Models `Executor::isUpToDate`, `mustExecuteTransformer`, `potentiallyRunTransformer`, the
timestamp part of `finishJob` and `finishTransformer`
(src/lib/corelib/buildgraph/executor.cpp 467-660, 829-894).

Simplifications:
* A `FileTime` is a natural number; 0 is the invalid time (`FileTime::isValid`,
  src/lib/corelib/tools/filetime.h; C05 proves that the comparison is a total order).
* Artifacts, transformers and file dependencies are natural numbers. The graph does not change
  during the build (rule nodes, which change it, are the subject of C14-C19 and C28).
* `TrafoChangeTracker::commandsNeedRerun` is the parameter `changed` (its own model is C31).
* `possiblyInstallArtifact`, progress reporting and job accounting are left out.
-/
namespace Verif.UpToDate

abbrev Art := Nat
abbrev Trafo := Nat
abbrev FileDep := Nat

/-- The static part of the build graph the check looks at: `Artifact::alwaysUpdated`, the
artifacts among `BuildGraphNode::children`, `Artifact::fileDependencies`,
`Transformer::outputs`, `Transformer::alwaysRun` (src/lib/corelib/buildgraph/artifact.h 84-140,
transformer.h 68-110). `transformers` lists all transformers. -/
structure Graph where
  alwaysUpdated : Art → Bool
  children : Art → List Art
  fileDeps : Art → List FileDep
  transformers : List Trafo
  outputs : Trafo → List Art
  alwaysRun : Trafo → Bool

/-- The build options involved (src/lib/corelib/tools/buildoptions.cpp): `forceTimestampCheck`,
`executeRulesOnly`; `selected t` stands for the two filters `transformerHasMatchingOutputTags`
and `transformerHasMatchingInputFiles` (executor.cpp 700-740). -/
structure Opts where
  force : Bool
  rulesOnly : Bool
  selected : Trafo → Bool

/-- What has become of a transformer in this build. -/
inductive Status where
  | pending | running | done
deriving DecidableEq, Repr

/-- The mutable state: recorded timestamps (`FileResourceBase::timestamp`), the
`markedForRerun` flags and the progress of this build. -/
structure St where
  ts : Art → Nat
  depTs : FileDep → Nat
  marked : Trafo → Bool
  status : Trafo → Status

/-- Point update of a function (assignment to one member of one object). -/
def upd {β : Type} (f : Nat → β) (k : Nat) (v : β) : Nat → β := fun x => if x = k then v else f x

/-- executor.cpp 484-491: the loop over the child artifacts. `none`: `QBS_CHECK` failed. -/
def childrenOk (g : Graph) (st : St) (a : Art) : List Art → Option Bool
  | [] => some true
  | c :: cs =>
    if g.alwaysUpdated c = true ∧ st.ts c = 0 then none
    else if st.ts a < st.ts c then some false
    else childrenOk g st a cs

/-- executor.cpp 493-505: the loop over the file dependencies. -/
def fileDepsOk (st : St) (a : Art) : List FileDep → Bool
  | [] => true
  | d :: ds =>
    if st.depTs d = 0 then false
    else if st.ts a < st.depTs d then false
    else fileDepsOk st a ds

/-- executor.cpp 474-478: with `forceTimestampCheck` the recorded timestamp is replaced by the
one on the disk (0 if there is no such file). -/
def refresh (o : Opts) (disk : Art → Nat) (st : St) (a : Art) : St :=
  if o.force then { st with ts := upd st.ts a (disk a) } else st

/-- executor.cpp 467-508 `isUpToDate`, after `refresh`. -/
def isUpToDate (g : Graph) (st : St) (a : Art) : Option Bool :=
  if st.ts a = 0 then some false
  else match childrenOk g st a (g.children a) with
    | none => none
    | some false => some false
    | some true => some (fileDepsOk st a (g.fileDeps a))

/-- Result of the loop over the outputs in `mustExecuteTransformer`. -/
inductive Loop where
  | assertion
  | rerun (st : St)
  | ended (st : St) (hasAlways hasOther : Bool)

/-- executor.cpp 519-530: the loop over the outputs. -/
def outputsLoop (g : Graph) (o : Opts) (disk : Art → Nat) :
    St → Bool → Bool → List Art → Loop
  | st, hasAlways, hasOther, [] => .ended st hasAlways hasOther
  | st, hasAlways, hasOther, a :: as =>
    let st1 := refresh o disk st a
    match isUpToDate g st1 a with
    | none => .assertion
    | some true =>
      if g.alwaysUpdated a then outputsLoop g o disk st1 true hasOther as
      else outputsLoop g o disk st1 hasAlways true as
    | some false =>
      if g.alwaysUpdated a || o.force then .rerun st1
      else outputsLoop g o disk st1 hasAlways hasOther as

/-- executor.cpp 510-540 `mustExecuteTransformer`. `changed` is the verdict of
`commandsNeedRerun`. -/
def mustExecute (g : Graph) (o : Opts) (disk : Art → Nat) (changed : Trafo → Bool) (st : St)
    (t : Trafo) : Option (St × Bool) :=
  if g.alwaysRun t then some (st, true)
  else if st.marked t then some (st, true)
  else match outputsLoop g o disk st false false (g.outputs t) with
    | .assertion => none
    | .rerun st1 => some (st1, true)
    | .ended st1 hasAlways hasOther =>
      if changed t then some (st1, true) else some (st1, !hasAlways && !hasOther)

/-- executor.cpp 879-888 `finishTransformer`: the mark is cleared and the outputs are built. -/
def finishTransformer (st : St) (t : Trafo) : St :=
  { st with marked := upd st.marked t false, status := upd st.status t .done }

/-- executor.cpp 829-856 `potentiallyRunTransformer`. The second component tells whether a job
was started. -/
def potentiallyRun (g : Graph) (o : Opts) (disk : Art → Nat) (changed : Trafo → Bool) (st : St)
    (t : Trafo) : Option (St × Bool) :=
  if o.selected t = false then some (finishTransformer st t, false)
  else match mustExecute g o disk changed st t with
    | none => none
    | some (st1, false) => some (finishTransformer st1 t, false)
    | some (st1, true) =>
      if o.rulesOnly then some (finishTransformer st1 t, false)
      else some ({ st1 with status := upd st1.status t .running }, true)

/-- executor.cpp 611-613: does finishing `t` mark `t'` for a re-run? That is so if some always
updated output of `t` is a child of an output of `t'`. -/
def marksParent (g : Graph) (t t' : Trafo) : Bool :=
  (g.outputs t).any fun a =>
    g.alwaysUpdated a && (g.outputs t').any fun p => (g.children p).any fun c => c == a

/-- executor.cpp 598-636 `finishJob` with `success`: always updated outputs get the current
time, the others the modification time found on the disk. The `forceOutputCheck` exception is
left out (the build then fails). -/
def finishJob (g : Graph) (st : St) (t : Trafo) (now : Nat) (disk : Art → Nat) : St :=
  finishTransformer
    { st with
      ts := fun a =>
        if (g.outputs t).any (fun x => x == a) then
          (if g.alwaysUpdated a then now else disk a)
        else st.ts a
      marked := fun t' => marksParent g t t' || st.marked t' } t

/-- One thing that happens in a build. -/
inductive Ev where
  /-- An output of `t` is the next leaf; `disk` are the modification times at this moment. -/
  | start (t : Trafo) (disk : Art → Nat)
  /-- The job of `t` has finished successfully at time `now`. -/
  | done (t : Trafo) (now : Nat) (disk : Art → Nat)

/-- The effect of one event; the list collects the transformers for which a job was started.
`none`: an assertion failed. -/
def step (g : Graph) (o : Opts) (changed : Trafo → Bool) (st : St) : Ev →
    Option (St × List Trafo)
  | .start t disk =>
    match potentiallyRun g o disk changed st t with
    | none => none
    | some (st1, started) => some (st1, if started then [t] else [])
  | .done t now disk => some (finishJob g st t now disk, [])

/-- A whole build. -/
def run (g : Graph) (o : Opts) (changed : Trafo → Bool) (st : St) : List Ev →
    Option (St × List Trafo)
  | [] => some (st, [])
  | e :: es =>
    match step g o changed st e with
    | none => none
    | some (st1, l) =>
      match run g o changed st1 es with
      | none => none
      | some (st2, l2) => some (st2, l ++ l2)

end Verif.UpToDate
