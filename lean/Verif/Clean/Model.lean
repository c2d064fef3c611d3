import Verif.Common.Sort
/-!
# Cleaning (C29)

Model of src/lib/corelib/buildgraph/artifactcleaner.cpp 67-229, with
src/lib/corelib/buildgraph/artifactvisitor.cpp 54-84 and `removeFileRecursion`,
src/lib/corelib/tools/fileinfo.cpp 426-454.

Simplifications: a file system is a list of paths with their kinds; paths are lists of names, deepest
first, and are clean and absolute. Removals of a path fail or not as given by `denied`, which stands for
all reasons other than a directory not being empty. Nobody else changes the file system. Directories are
listed at once, not while they are iterated.
-/
namespace Verif.Clean

abbrev Path := List String

/-- `special`: broken links, sockets and so on, which a listing without `QDir::System` does not show.
Other links are files. -/
inductive Kind where
  | dir | file | special
deriving DecidableEq, Repr

structure FS where
  items : List (Path × Kind)
deriving DecidableEq, Repr

def isChild (d p : Path) : Bool :=
  match p with
  | [] => false
  | _ :: r => r == d

def FS.isDir (fs : FS) (p : Path) : Bool := fs.items.contains (p, .dir)

def FS.exists (fs : FS) (p : Path) : Bool := fs.items.any (fun i => i.1 == p)

def FS.children (fs : FS) (d : Path) : List (Path × Kind) := fs.items.filter (fun i => isChild d i.1)

def FS.erase (fs : FS) (p : Path) : FS := ⟨fs.items.filter (fun i => i.1 != p)⟩

/-- The system calls. -/
def FS.rmdir (fs : FS) (denied : Path → Bool) (d : Path) : Option FS :=
  if fs.isDir d && (fs.children d).isEmpty && !denied d then some (fs.erase d) else none

def FS.unlink (fs : FS) (denied : Path → Bool) (p : Path) : Option FS :=
  if fs.exists p && !fs.isDir p && !denied p then some (fs.erase p) else none

/-- More than the depth of any path. -/
def FS.height (fs : FS) : Nat := fs.items.foldr (fun i n => Nat.max (i.1.length + 1) n) 1

/-- `removeFileRecursion`, fileinfo.cpp 426-454. The number bounds the depth of the recursion. -/
def removeRec (denied : Path → Bool) : Nat → FS → Path → FS × Bool
  | 0, fs, _ => (fs, false)
  | n + 1, fs, p =>
    if !fs.exists p then (fs, true)
    else if fs.isDir p then
      let fs := (fs.children p).foldl (fun fs c => (removeRec denied n fs c.1).1) fs
      match fs.rmdir denied p with
      | some fs => (fs, true)
      | none => (fs, false)
    else
      match fs.unlink denied p with
      | some fs => (fs, true)
      | none => (fs, false)

structure Artifact where
  id : Nat
  path : Path
  generated : Bool
  product : Nat
deriving DecidableEq, Repr

structure Product where
  id : Nat
  nodes : List Artifact
deriving DecidableEq, Repr

structure Options where
  dryRun : Bool
  keepGoing : Bool
deriving DecidableEq, Repr

structure St where
  fs : FS
  /-- artifacts whose time stamp is valid -/
  stamped : List Nat
  /-- paths with rescuable data, by product -/
  rescuable : List (Nat × Path)
  /-- directories of removed artifacts -/
  dirs : List Path
  hasError : Bool
  /-- an exception was thrown -/
  thrown : Bool
deriving DecidableEq, Repr

/-- The reasons for failures. -/
structure Env where
  denied : Path → Bool
  /-- the observer says so when it comes to the artifact -/
  canceled : Nat → Bool

/-- `invalidateArtifactTimestamp`, artifactcleaner.cpp 75-81. -/
def clearTimestamp (stamped : List Nat) : Option Nat → List Nat
  | some i => stamped.filter (· != i)
  | none => stamped

/-- `removeArtifactFromDisk`, artifactcleaner.cpp 83-98; false if it throws. The number of the artifact is
missing for rescuable data: the artifact made for them is temporary. -/
def removeArtifact (e : Env) (o : Options) (s : St) (id : Option Nat) (p : Path) : St × Bool :=
  let stamped := clearTimestamp s.stamped id
  if !s.fs.exists p then
    if o.dryRun then (s, true) else ({ s with stamped := stamped }, true)
  else if o.dryRun then (s, true)
  else
    let r := removeRec e.denied s.fs.height s.fs p
    ({ s with stamped := stamped, fs := r.1 }, r.2)

/-- `CleanupVisitor::doVisit`, artifactcleaner.cpp 133-151, called from `ArtifactVisitor::visit`,
artifactvisitor.cpp 78-84. -/
def visitArtifact (e : Env) (o : Options) (product : Nat) (s : St) (a : Artifact) : St :=
  if s.thrown then s
  else if !a.generated then s
  else if e.canceled a.id then { s with thrown := true }
  else if a.product ≠ product then s
  else
    let r := removeArtifact e o s (some a.id) a.path
    if !r.2 && !o.keepGoing then { r.1 with thrown := true }
    else { r.1 with hasError := r.1.hasError || !r.2, dirs := a.path.tail :: r.1.dirs }

/-- The loop over the rescuable data, artifactcleaner.cpp 119-126. -/
def visitRescuable (e : Env) (o : Options) (product : Nat) (s : St) (p : Path) : St :=
  if s.thrown then s
  else
    let r := removeArtifact e o s none p
    if !r.2 then { r.1 with thrown := true }
    else { r.1 with rescuable := r.1.rescuable.filter (· != (product, p)) }

/-- `CleanupVisitor::visitProduct`, artifactcleaner.cpp 113-127. -/
def visitProduct (e : Env) (o : Options) (s : St) (p : Product) : St :=
  let s := p.nodes.foldl (visitArtifact e o p.id) s
  ((s.rescuable.filter (·.1 == p.id)).map (·.2)).foldl (visitRescuable e o p.id) s

/-- Clears the directories for the next product: there is a visitor for each. Here they are just
collected (`unite`, artifactcleaner.cpp 176). -/
def visitProducts (e : Env) (o : Options) (s : St) (ps : List Product) : St :=
  ps.foldl (fun s p => if s.thrown then s else visitProduct e o s p) s

/-- `removeEmptyDirectories`, artifactcleaner.cpp 204-229; the second part of the result is whether the
subtree is empty. The directory is removed in dry-run mode, too. -/
def removeEmpty (e : Env) (o : Options) : Nat → St → Path → St × Bool
  | 0, s, _ => (s, false)
  | n + 1, s, d =>
    if s.thrown then (s, false)
    else
      let r := ((s.fs.children d).filter (·.2 ≠ .special)).foldl (fun (r : St × Bool) c =>
        if c.2 = .dir then
          let r' := removeEmpty e o n r.1 c.1
          (r'.1, r.2 && r'.2)
        else (r.1, false)) (s, true)
      if r.1.thrown then (r.1, false)
      else if r.2 then
        match r.1.fs.rmdir e.denied d with
        | some fs => ({ r.1 with fs := fs }, true)
        | none =>
          if o.keepGoing then ({ r.1 with hasError := true }, false)
          else ({ r.1 with thrown := true }, false)
      else r

/-- The path as a string. -/
def str : Path → List Char
  | [] => []
  | n :: r => str r ++ '/' :: n.toList

def measure : List Path → Nat
  | [] => 0
  | d :: l => d.length + 1 + measure l

/-- The loop over the growing list of directories, artifactcleaner.cpp 184-196. `done` are those before
the current one. -/
def dirLoop (e : Env) (o : Options) (build : Path) : Nat → St → List Path → List Path → St
  | 0, s, _, _ => s
  | _, s, _, [] => s
  | n + 1, s, done, d :: todo =>
    if s.thrown then s
    else if !(str build).isPrefixOf (str d) then dirLoop e o build n s (done ++ [d]) todo
    else
      let s := if s.fs.exists d then (removeEmpty e o s.fs.height s d).1 else s
      if d ≠ build ∧ d.tail ≠ build ∧ ¬ (done ++ d :: todo).contains d.tail then
        dirLoop e o build n s (done ++ [d]) (todo ++ [d.tail])
      else dirLoop e o build n s (done ++ [d]) todo

/-- The order of `Set<QString>`. -/
def leStr (a b : Path) : Bool := !decide (str b < str a)

def addIfNew (l : List Path) (d : Path) : List Path := if l.contains d then l else d :: l

/-- `ArtifactCleaner::cleanup`, artifactcleaner.cpp 164-202. If the result has an error or an exception
was thrown, the caller gets an exception. -/
def cleanup (e : Env) (o : Options) (build : Path) (s : St) (ps : List Product) : St :=
  let s := visitProducts e o { s with dirs := [], hasError := false, thrown := false } ps
  if s.thrown then s
  else
    let dirs := Common.isort leStr (s.dirs.foldl addIfNew [])
    dirLoop e o build (measure dirs) s [] dirs

def St.failed (s : St) : Bool := s.hasError || s.thrown

end Verif.Clean
