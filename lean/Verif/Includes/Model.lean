import Verif.Path.Model
/-!
# Dependencies found by scanners (C51)

Model of src/lib/corelib/buildgraph/inputartifactscanner.cpp 63-131, 166-194, 226-265, 336-452, of
src/lib/corelib/buildgraph/rawscanneddependency.cpp 49-63 and of src/plugins/scanner/cpp/cppscannerplugin.cpp 70-100.

The dependencies of one generated artifact are updated. What a scanner finds in a file, given its path, is a
parameter; when results are reused is C32. Files on disk, artifacts and the other edges of the graph do not change
during the update. `FileInfo::resolvePath` and `QDir::cleanPath` are parameters of the world. The loops over the inputs
of the transformer and over the scanners of an input are one loop over the pairs, called jobs.
-/
namespace Verif.Includes

abbrev Str := List Char

/-- `RawScannedDependency`, rawscanneddependency.h: directory and name. -/
structure Dep where
  dir : Str
  name : Str
deriving DecidableEq, Repr

/-- The constructor from a path, rawscanneddependency.cpp 51-55. -/
def Dep.ofPath (p : Str) : Dep := ⟨(Path.splitIntoDirectoryAndFileName p).1, (Path.splitIntoDirectoryAndFileName p).2⟩

/-- `filePath`, rawscanneddependency.cpp 57-60. -/
def Dep.path (d : Dep) : Str := if d.dir = [] then d.name else d.dir ++ '/' :: d.name

/-- Does the text contain "//"? -/
def doubleSlash : Str → Bool
  | a :: b :: s => (a == '/' && b == '/') || doubleSlash (b :: s)
  | _ => false

/-- `setClean`, rawscanneddependency.cpp 62-65. -/
def Dep.isClean (d : Dep) : Bool := !d.dir.contains '.' && !doubleSlash d.dir

/-- `Artifact`, as far as it does not change. -/
structure Artifact where
  id : Nat
  dir : Str
  name : Str
  product : Nat
  source : Bool
deriving DecidableEq, Repr

/-- `FileResourceBase`: an artifact or, given by its path, a file dependency. -/
inductive File
  | art (a : Artifact)
  | dep (path : Str)
deriving DecidableEq, Repr

def File.path : File → Str
  | .art a => a.dir ++ '/' :: a.name
  | .dep p => p

structure World where
  /-- the artifacts in the lookup table -/
  arts : List Artifact
  /-- the file dependencies in the lookup table before the update, by directory and name -/
  known : List (Str × Str)
  /-- is there such a file, and is it no directory? -/
  onDisk : Str → Bool
  resolvePath : Str → Str → Str
  cleanPath : Str → Str
  /-- the first product depends on the second -/
  dependsOn : Nat → Nat → Bool
  /-- the transformer of an artifact -/
  trafo : Nat → Option Nat
  built : Nat → Bool
  /-- is there a path in the graph, from the first to the second? Edges from the second do not matter. -/
  leadsTo : Nat → Nat → Bool

/-- The directory that is looked into, inputartifactscanner.cpp 69-74. -/
def place (w : World) (base : Str) (d : Dep) : Str :=
  let p := if base = [] then d.dir else if d.dir = [] then base else w.resolvePath base d.dir
  if d.isClean then p else w.cleanPath p

/-- The artifact among those at one place, inputartifactscanner.cpp 83-110. -/
def pick (w : World) (product : Nat) (l : List Artifact) : Option Artifact :=
  match l.find? (fun a => a.product == product) with
  | some a => some a
  | none =>
    match l.find? (fun a => w.dependsOn product a.product) with
    | some a => some a
    | none => l.getLast?

/-- `resolveDepencency`, inputartifactscanner.cpp 63-131; `reg` are the file dependencies in the table. -/
def resolveAt (w : World) (reg : List (Str × Str)) (product : Nat) (base : Str) (d : Dep) : Option File :=
  match pick w product (w.arts.filter (fun a => a.dir == place w base d && a.name == d.name)) with
  | some a => some (.art a)
  | none =>
    if reg.contains (place w base d, d.name) || w.onDisk (place w base d ++ '/' :: d.name) then
      some (.dep (place w base d ++ '/' :: d.name))
    else none

/-- Resolution without cache, inputartifactscanner.cpp 355-369. -/
def resolve (w : World) (reg : List (Str × Str)) (product : Nat) (paths : List Str) (d : Dep) : Option File :=
  if Path.isAbsolute d.path then resolveAt w reg product [] d
  else paths.findSome? (fun p => resolveAt w reg product p d)

/-- A scanner of an input, with what it finds. -/
structure Job where
  /-- what its part of the cache is found under: the scanner's id, with the input or with its properties and tags -/
  key : Nat
  recursive : Bool
  /-- the input -/
  start : Artifact
  scan : Str → List Dep
  searchPaths : List Str

/-- `ScannerKeyCacheData`, inputartifactscanner.h. -/
structure Entry where
  paths : List Str
  table : List (Dep × Option File)

/-- What changes during an update. -/
structure State where
  reg : List (Str × Str)
  table : List (Dep × Option File)
  fileDeps : List Str
  children : List Nat
  scanned : List Nat

/-- `getResolvedDependency`, inputartifactscanner.cpp 343-370. -/
def cached (w : World) (product : Nat) (paths : List Str) (s : State) (d : Dep) : State × Option File :=
  match s.table.lookup d with
  | some r => (s, r)
  | none =>
    ({ s with table := (d, resolve w s.reg product paths d) :: s.table }, resolve w s.reg product paths d)

/-- `handleDependency`, inputartifactscanner.cpp 397-452, for the artifact `o`. -/
def handle (w : World) (o : Nat) (s : State) : File → State
  | .dep p =>
    { s with
      reg := ((Path.splitIntoDirectoryAndFileName p).1, (Path.splitIntoDirectoryAndFileName p).2) :: s.reg
      fileDeps := p :: s.fileDeps }
  | .art a =>
    if a.id = o then s
    else if w.trafo a.id = w.trafo o then s
    else if s.children.contains a.id then s
    else if w.leadsTo a.id o then s
    else { s with children := a.id :: s.children, scanned := a.id :: s.scanned }

/-- Is the file scanned in turn? inputartifactscanner.cpp 381-393. -/
def scannable (w : World) : File → Bool
  | .dep _ => true
  | .art a => a.source || w.built a.id

/-- `resolveScanResultDependencies`, inputartifactscanner.cpp 336-395, with the files to scan. -/
def resolveAll (w : World) (o product : Nat) (paths : List Str) : List Dep → State → State × List File
  | [], s => (s, [])
  | d :: ds, s =>
    let c := cached w product paths s d
    match c.2 with
    | none => resolveAll w o product paths ds c.1
    | some f =>
      let r := resolveAll w o product paths ds (handle w o c.1 f)
      (r.1, if scannable w f then f :: r.2 else r.2)

/-- The loop over the files to scan, inputartifactscanner.cpp 243-264; `none` if there are too many steps. -/
def loop (w : World) (o : Nat) (j : Job) (paths : List Str) : Nat → List Str → List File → State → Option State
  | 0, _, _, _ => none
  | _ + 1, _, [], s => some s
  | n + 1, visited, f :: queue, s =>
    if visited.contains f.path then loop w o j paths n visited queue s
    else
      let r := resolveAll w o j.start.product paths (j.scan f.path) s
      loop w o j paths n (f.path :: visited) (queue ++ if j.recursive then r.2 else []) r.1

/-- The cache of one build. -/
abbrev Cache := List (Nat × Entry)

/-- The part of the cache for a job, inputartifactscanner.cpp 313-317. -/
def entryFor (c : Cache) (j : Job) : Entry := (c.lookup j.key).getD ⟨j.searchPaths, []⟩

/-- The loops of `updateDependencies` and `updateInputArtifactDependencies`, inputartifactscanner.cpp 180-182,
    234-265. -/
def runJobs (w : World) (o : Nat) (n : Nat) : List Job → Cache → State → Option (Cache × State)
  | [], c, s => some (c, s)
  | j :: js, c, s =>
    match loop w o j (entryFor c j).paths n [] [.art j.start] { s with table := (entryFor c j).table } with
    | none => none
    | some s' => runJobs w o n js ((j.key, ⟨(entryFor c j).paths, s'.table⟩) :: c) s'

/-- The dependencies of an artifact. -/
structure Deps where
  fileDeps : List Str
  children : List Nat
  scanned : List Nat
  /-- was the time stamp cleared? -/
  cleared : Bool
deriving DecidableEq, Repr

def sameSet (a b : List Str) : Bool := a.all b.contains && b.all a.contains

structure Outcome where
  deps : Deps
  cache : Cache
  reg : List (Str × Str)

/-- `updateDependencies`, inputartifactscanner.cpp 166-194. -/
def update (w : World) (o : Nat) (n : Nat) (jobs : List Job) (c : Cache) (x : Deps) : Option Outcome :=
  (runJobs w o n jobs c
    ⟨w.known, [], [], x.children.filter (fun a => !x.scanned.contains a), []⟩).map (fun r =>
      ⟨⟨r.2.fileDeps, r.2.children, r.2.scanned, x.cleared || !sameSet x.fileDeps r.2.fileDeps⟩, r.1, r.2.reg⟩)

/-- An include directive: the text between the delimiters, and whether these are quotes. -/
structure Include where
  text : Str
  quoted : Bool

/-- `CppScannerPlugin::scan` for the includes of a file in the given directory, cppscannerplugin.cpp 84-98. -/
def cppScan (present : Str → Bool) (dir : Str) (l : List Include) : List Dep :=
  (l.filter (fun i => i.text ≠ [])).map (fun i =>
    Dep.ofPath (if i.quoted && present (dir ++ '/' :: i.text) then dir ++ '/' :: i.text else i.text))

end Verif.Includes
