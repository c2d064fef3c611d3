import Verif.UpToDate.Model
/-!
# `qbs update-timestamps`

Models `TimestampsUpdater::updateTimestamps`
(src/lib/corelib/buildgraph/timestampsupdater.cpp 55-96), the choice of the products
(src/app/qbs/commandlinefrontend.cpp 349-383, 591-598; src/lib/corelib/api/project.cpp 157-165,
949-954) and what the next build starts with. The builds themselves are those of
`Verif.UpToDate`.

Simplifications: storing the project (`TopLevelProject::store`, the subject of C12) always works;
the error for a product name that does not exist is left out (such a run changes nothing).
-/
namespace Verif.Touch

open Verif.UpToDate

/-- A product as far as the command looks at it: its name, `ResolvedProduct::enabled`, the
artifacts among `ProductBuildData::allNodes`, and `ResolvedProduct::targetArtifacts`. -/
structure Product where
  name : Nat
  enabled : Bool
  nodes : List Art
  targets : List Art

/-- commandlinefrontend.cpp 349-363 `productsToUse` (without `--products`: all products) and
project.cpp 157-165 `internalProducts`, which drops the disabled ones. -/
def productsToUse (names : List Nat) (ps : List Product) : List Product :=
  (ps.filter fun p => names.isEmpty || names.any (fun n => n == p.name)).filter
    fun p => p.enabled

/-- timestampsupdater.cpp 76-80 `doVisit`: the artifact gets the time of the run if its file
exists. -/
def doVisit (onDisk : Art → Bool) (now : Nat) (st : St) (a : Art) : St :=
  if onDisk a then { st with ts := upd st.ts a now } else st

/-- src/lib/corelib/buildgraph/artifactvisitor.cpp 52-58, 72-78 for the type `Generated`. -/
def visitNodes (generated : Art → Bool) (onDisk : Art → Bool) (now : Nat) :
    St → List Art → St
  | st, [] => st
  | st, a :: as =>
    visitNodes generated onDisk now (if generated a then doVisit onDisk now st a else st) as

/-- timestampsupdater.cpp 86-95: all products get the same time, the one at which the visitor
was created. -/
def updateProducts (generated : Art → Bool) (onDisk : Art → Bool) (now : Nat) :
    St → List Product → St
  | st, [] => st
  | st, p :: ps =>
    updateProducts generated onDisk now (visitNodes generated onDisk now st p.nodes) ps

/-- timestampsupdater.cpp 66-72: the files that are opened for appending (nothing is written to
them). -/
def opened (onDisk : Art → Bool) (ps : List Product) : List Art :=
  ps.flatMap fun p => p.targets.filter onDisk

/-- The command. -/
def updateTimestamps (generated : Art → Bool) (onDisk : Art → Bool) (now : Nat)
    (names : List Nat) (ps : List Product) (st : St) : St :=
  updateProducts generated onDisk now st (productsToUse names ps)

/-- The beginning of the next build: nothing has been looked at, and the times of the files that
are not generated and of the file dependencies are read anew from the disk
(`retrieveSourceFileTimestamp` without `--changed-files`, `prepareAllNodes`, `syncFileDependencies`,
src/lib/corelib/buildgraph/executor.cpp 132-144, 1054-1116). -/
def beginBuild (generated : Art → Bool) (src : Art → Nat) (dep : FileDep → Nat) (st : St) : St where
  ts := fun a => if generated a then st.ts a else src a
  depTs := dep
  marked := st.marked
  status := fun _ => .pending

end Verif.Touch
