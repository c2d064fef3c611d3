/-!
# Rescuing the state of artifacts (C34)

Model of src/lib/corelib/buildgraph/artifactrescuer.cpp 71-167, of `rescueFromArtifactData` and
`rescueToArtifactData` in src/lib/corelib/buildgraph/transformer.cpp 323-346, of the data kept,
src/lib/corelib/buildgraph/rescuableartifactdata.h 59-119, and of
`BuildGraphLoader::rescueOldBuildData`, src/lib/corelib/buildgraph/buildgraphloader.cpp 973-1013.

Simplifications: a product is given by its unique name; commands and recorded accesses are values that can
be compared. Only the artifacts among the nodes' children matter here. Whether connecting a child would
close a circle is a predicate (an edge from the artifact makes no new path to it, so connecting one child
does not change it for the next). `connect`'s error about two children with the same path is not modelled.
-/
namespace Verif.Rescue

abbrev Path := String
abbrev Time := Nat

/-- `RescuableArtifactData::ChildData`, rescuableartifactdata.h 80-101. -/
structure ChildData where
  product : String
  path : Path
  addedByScanner : Bool
deriving DecidableEq, Repr

/-- The state of a transformer, transformer.h 60-125, as far as it is rescued. -/
structure Trafo where
  commands : List String
  accessesPrepare : String
  accessesCommands : String
  lastPrepare : Time
  lastCommand : Time
  commandsNeedChangeTracking : Bool
  markedForRerun : Bool
deriving DecidableEq, Repr

/-- `RescuableArtifactData`, rescuableartifactdata.h 59-119; `valid`: there are properties. -/
structure Rad where
  timestamp : Time
  children : List ChildData
  fileDependencies : List Path
  knownOutOfDate : Bool
  accessesPrepare : String
  accessesCommands : String
  commands : List String
  lastPrepare : Time
  lastCommand : Time
  valid : Bool
deriving DecidableEq, Repr

/-- An artifact. The identifiers of its children that are artifacts; `byScanner` is
`childrenAddedByScanner`. -/
structure Artifact where
  path : Path
  generated : Bool
  timestamp : Time
  children : List Nat
  byScanner : List Nat
  fileDependencies : List Path
  trafo : Trafo
deriving DecidableEq, Repr

/-- The project's lookup table: the artifacts, with their identifiers, products and paths, and the
paths for which there is a file dependency. -/
structure Project where
  artifacts : List (Nat × String × Path)
  fileDependencies : List Path

/-- `lookupArtifact` by the name of the product, buildgraph.cpp 637-651. -/
def Project.lookup (p : Project) (product : String) (path : Path) : Option Nat :=
  (p.artifacts.find? (fun x => x.2.1 == product && x.2.2 == path)).map (·.1)

/-- What changes: the artifact, the product's rescuable data, the files, and the list of the files removed. -/
structure St where
  artifact : Artifact
  rescuable : Path → Option Rad
  disk : Path → Bool
  removed : List Path

def erase {α : Type} (f : Path → Option α) (p : Path) : Path → Option α :=
  fun q => if q = p then none else f q

def removeFile (d : Path → Bool) (p : Path) : Path → Bool := fun q => if q = p then false else d q

/-- The variables of the loop over the former children, artifactrescuer.cpp 82-117. -/
structure Loop where
  canRescue : Bool
  toConnect : List Nat
  st : St

/-- The rest of the body for a child that is not among the artifact's children; `child` is what was found. -/
def otherChild (l : Loop) (cd : ChildData) (child : Option Nat) : Loop :=
  -- a child that has disappeared, 92-104
  let l := if child.isSome then l
    else
      let st := l.st
      let s1 : St := ⟨st.artifact, erase st.rescuable cd.path, st.disk, st.removed⟩
      let s2 : St := if (st.rescuable cd.path).any (·.valid)
        then ⟨s1.artifact, s1.rescuable, removeFile s1.disk cd.path, s1.removed ++ [st.artifact.path]⟩ else s1
      ⟨false, l.toConnect, s2⟩
  -- a child that is not one anymore, 105-111
  let l := if cd.addedByScanner then l else { l with canRescue := false }
  if l.canRescue then { l with toConnect := l.toConnect ++ child.toList } else l

/-- The body of the loop, artifactrescuer.cpp 85-114. -/
def childStep (p : Project) (l : Loop) (cd : ChildData) : Loop :=
  let child := p.lookup cd.product cd.path
  if child.any (fun i => l.st.artifact.children.contains i) then l else otherChild l cd child

/-- The loop over the file dependencies, artifactrescuer.cpp 115-134: the artifact's file dependencies
and whether all were found. -/
def fileDependencyLoop (p : Project) (deps : List Path) : List Path → List Path × Bool
  | [] => (deps, true)
  | d :: ds =>
    if p.fileDependencies.contains d then
      fileDependencyLoop p (if deps.contains d then deps else deps ++ [d]) ds
    else (deps, false)

/-- `Transformer::rescueFromArtifactData`, transformer.cpp 323-333. -/
def Trafo.rescue (t : Trafo) (r : Rad) : Trafo :=
  { commands := t.commands
    accessesPrepare := if r.lastPrepare ≥ t.lastPrepare then r.accessesPrepare else t.accessesPrepare
    lastPrepare := if r.lastPrepare ≥ t.lastPrepare then r.lastPrepare else t.lastPrepare
    accessesCommands := r.accessesCommands
    lastCommand := r.lastCommand
    commandsNeedChangeTracking := true
    markedForRerun := t.markedForRerun || r.knownOutOfDate }

/-- `connect` and the insertion into `childrenAddedByScanner`, artifactrescuer.cpp 155-156. -/
def Artifact.connect (a : Artifact) (c : Nat) : Artifact :=
  { a with
    children := if a.children.contains c then a.children else a.children ++ [c]
    byScanner := if a.byScanner.contains c then a.byScanner else a.byScanner ++ [c] }

/-- Connecting the rescued children, artifactrescuer.cpp 154-157, with `safeConnect`, buildgraph.cpp
584-599; `circle`: connecting would close a circle. -/
def connectAll (circle : Nat → Bool) (a : Artifact) : List Nat → Artifact
  | [] => a
  | c :: cs => connectAll circle (if circle c then a else a.connect c) cs

/-- Data that is rescued, artifactrescuer.cpp 149-158. -/
def accept (circle : Nat → Bool) (s : St) (r : Rad) (toConnect : List Nat) : St :=
  let a : Artifact := { s.artifact with timestamp := r.timestamp, trafo := s.artifact.trafo.rescue r }
  { s with artifact := connectAll circle a toConnect }

/-- Data that is not rescued, artifactrescuer.cpp 159-163. -/
def reject (s : St) : St :=
  { s with
    disk := if s.artifact.generated then removeFile s.disk s.artifact.path else s.disk
    removed := s.removed ++ [s.artifact.path] }

/-- `ArtifactRescuer::rescueOldBuildData`, artifactrescuer.cpp 71-167: the new state and whether children
were added. `none`: the check in line 141 failed. -/
def rescue (p : Project) (circle : Nat → Bool) (s : St) : Option (St × Bool) :=
  match s.rescuable s.artifact.path with
  | none => some (s, false)
  | some r =>
    let s : St := { s with rescuable := erase s.rescuable s.artifact.path }
    if !r.valid then some (s, false)
    else if s.artifact.trafo.commands = r.commands then
      let l := r.children.foldl (childStep p) ⟨true, [], s⟩
      let d := fileDependencyLoop p s.artifact.fileDependencies r.fileDependencies
      let s : St := { l.st with artifact := { l.st.artifact with fileDependencies := d.1 } }
      if l.canRescue && d.2 then
        let count := l.toConnect.length + s.artifact.children.length
        if count < r.children.length then none
        else if count > r.children.length then some (reject s, false)
        else some (accept circle s r l.toConnect, !l.toConnect.isEmpty)
      else some (reject s, false)
    else some (reject s, false)

/-- `Transformer::rescueToArtifactData` and the rest of the data, transformer.cpp 335-346 and
buildgraphloader.cpp 995-1007; `key` gives the product and the path of an artifact. The file dependencies are
added once for each child. -/
def toRad (a : Artifact) (key : Nat → String × Path) : Rad :=
  { timestamp := a.timestamp
    children := a.children.map (fun c => ⟨(key c).1, (key c).2, a.byScanner.contains c⟩)
    fileDependencies := (a.children.map (fun _ => a.fileDependencies)).flatten
    knownOutOfDate := a.trafo.markedForRerun
    accessesPrepare := a.trafo.accessesPrepare
    accessesCommands := a.trafo.accessesCommands
    commands := a.trafo.commands
    lastPrepare := a.trafo.lastPrepare
    lastCommand := a.trafo.lastCommand
    valid := true }

/-- `BuildGraphLoader::rescueOldBuildData`, buildgraphloader.cpp 973-1013: the data of the old artifacts
that have a transformer and are not yet in the new product; it is added to the data that was there. -/
def keepData (key : Nat → String × Path) (existsNow : Path → Bool) (existing : Path → Option Rad) :
    List Artifact → Path → Option Rad
  | [] => existing
  | a :: as =>
    keepData key existsNow
      (if existsNow a.path then existing
       else fun q => if q = a.path then some (toRad a key) else existing q) as

end Verif.Rescue
