import Verif.Path.Model
import Verif.Path.Spec
/-!
# Installation (C30)

Model of src/lib/corelib/buildgraph/productinstaller.cpp 62-266,
src/lib/corelib/tools/installoptions.cpp 69-82, 130-137, `copyFileRecursion` in
src/lib/corelib/tools/fileinfo.cpp 551-618, and the use of the installer in
src/lib/corelib/buildgraph/executor.cpp 300-318. Unix host.

Simplifications: the artifacts are regular files, and all files are files (no links); canonical paths are
the places that paths denote; directories exist as needed, unless `mkpath` fails. What the system
refuses is given by predicates. The clock does not move during an installation.
-/
namespace Verif.Install

open Verif.Path Verif.Path.Spec

abbrev Str := List Char

/-- One segment in `QDir::cleanPath` (Qt): `..` removes the segment before it, if there is one that is
not itself `..`; leading ones stay, also in absolute paths. -/
def stepClean (acc : List Str) (c : Str) : List Str :=
  if c = ['.'] then acc
  else if c = ['.', '.'] then
    if acc = [] ∨ acc.getLast? = some ['.', '.'] then acc ++ [c] else acc.dropLast
  else acc ++ [c]

def cleanSegs (s : Str) : List Str := (components s).foldl stepClean []

/-- `QDir::cleanPath` (Qt). -/
def cleanPath (s : Str) : Str :=
  if s = [] then []
  else if isAbsolute s then absolute (cleanSegs s)
  else if cleanSegs s = [] then ['.']
  else ((cleanSegs s).map ('/' :: ·)).flatten.drop 1

/-- The properties of an artifact that matter here. -/
structure Artifact where
  /-- `artifact->filePath()` -/
  src : Str
  /-- `product->sourceDirectory` -/
  sourceDir : Str
  /-- qbs.install, qbs.installPrefix, qbs.installDir, qbs.installSourceBase, qbs.installRoot -/
  install : Bool
  pre : Str
  dir : Str
  base : Str
  rootProperty : Str
deriving DecidableEq, Repr

deriving instance DecidableEq for Except

inductive Error where
  | outside (src : Str)
  | notBelowBase (src : Str)
  | mkpath (dir : Str)
  | conflict (a b target : Str)
  | copy (target : Str)
  | refused
  | remove
  | assertion
deriving DecidableEq, Repr

/-- `ProductInstaller::targetFilePath`, productinstaller.cpp 120-168; `root` is the install root of the
options (after `initInstallRoot`), `home` the home directory, needed by `FileInfo::resolvePath`. -/
def targetFilePath (home root : Str) (a : Artifact) : Except Error Str :=
  let targetDir := if root = [] then a.rootProperty else root
  let targetDir := cleanPath (targetDir ++ '/' :: a.pre ++ '/' :: a.dir)
  if a.base = [] then
    if !root.isPrefixOf targetDir then .error (.outside a.src)
    else .ok (cleanPath (targetDir ++ '/' :: fileName a.src))
  else
    match resolvePath home (cleanPath a.sourceDir) (cleanPath a.base) with
    | none => .error .assertion
    | some localBase =>
      if !localBase.isPrefixOf a.src then .error (.notBelowBase a.src)
      else
        let rest := a.src.drop (localBase.length + (if localBase.getLast? = some '/' then 0 else 1))
        .ok (cleanPath (targetDir ++ '/' :: rest))

structure File where
  content : String
  mtime : Nat
deriving DecidableEq, Repr

/-- What the system refuses, and the time. -/
structure Env where
  home : Str
  mkpathFails : Str → Bool
  removeFails : Str → Bool
  copyFails : Str → Bool
  rootRemovalFails : Bool
  now : Nat

structure Options where
  root : Str
  useSysroot : Bool
  removeExisting : Bool
  dryRun : Bool
  keepGoing : Bool
deriving DecidableEq, Repr

structure St where
  files : Str → Option File
  /-- `m_targetFilePathsMap`; later entries replace earlier ones -/
  map : List (Str × Str)
  /-- errors reported as warnings, because of `keepGoing` -/
  warnings : List Error
  /-- the exception -/
  thrown : Option Error

/-- `handleError`, productinstaller.cpp 261-266. -/
def handleError (o : Options) (s : St) (e : Error) : St :=
  if o.keepGoing then { s with warnings := s.warnings ++ [e] } else { s with thrown := some e }

def setFile (f : Str → Option File) (p : Str) (x : Option File) : Str → Option File :=
  fun q => if q = p then x else f q

/-- `copyFileRecursion` for a regular file, fileinfo.cpp 592-615: the new files and whether there was no
error. A missing file's time is before all others. A file that cannot be removed is reported only
through the copy that fails then. -/
def copyFile (e : Env) (files : Str → Option File) (src target : Str) : (Str → Option File) × Bool :=
  match files src, files target with
  | none, none => (files, false)
  | none, some _ => (files, true)
  | some f, some t =>
    if f.mtime ≤ t.mtime then (files, true)
    else if e.removeFails target then (files, false)
    else if e.copyFails target then (setFile files target none, false)
    else (setFile files target (some ⟨f.content, e.now⟩), true)
  | some f, none =>
    if e.copyFails target then (files, false)
    else (setFile files target (some ⟨f.content, e.now⟩), true)

/-- The check for a target that is already taken, productinstaller.cpp 228-241. -/
def checked (o : Options) (s : St) (a : Artifact) (target : Str) : St :=
  match s.map.lookup target with
  | some other => if a.src ≠ other then handleError o s (.conflict a.src other target) else s
  | none => s

/-- `ProductInstaller::copyFile`, productinstaller.cpp 201-259. -/
def installFile (e : Env) (o : Options) (root : Str) (s : St) (a : Artifact) : St :=
  if s.thrown.isSome then s
  else match targetFilePath e.home root a with
  | .error x => { s with thrown := some x }
  | .ok target =>
    if o.dryRun then s
    else if e.mkpathFails target then handleError o s (.mkpath target)
    else
      let s := checked o s a target
      if s.thrown.isSome then s
      else
        let s := { s with map := (target, a.src) :: s.map }
        let r := copyFile e s.files a.src target
        if r.2 then { s with files := r.1 }
        else handleError o { s with files := r.1 } (.copy target)

/-- `removeInstallRoot`, productinstaller.cpp 180-198, with `removeDirectoryWithContents`. -/
def removeInstallRoot (e : Env) (o : Options) (root : Str) (s : St) : St :=
  if o.dryRun then s
  else if e.rootRemovalFails then handleError o s .remove
  else { s with files := fun p => if place root <+: place p then none else s.files p }

/-- What the project's configuration says. -/
structure Conf where
  installRoot : Str
  sysroot : Str
deriving DecidableEq, Repr

/-- `effectiveInstallRoot`, installoptions.cpp 69-82, and `setInstallRoot`, 130-137; the latter's loop has
nothing to do, as clean paths do not end with a slash, except for the root directory. -/
def effectiveRoot (o : Options) (c : Conf) : Str :=
  if o.root ≠ [] then cleanPath o.root
  else if o.useSysroot then cleanPath c.sysroot
  else cleanPath c.installRoot

/-- The constructor, productinstaller.cpp 62-94: the install root. -/
def construct (e : Env) (o : Options) (c : Conf) : Except Error Str :=
  if o.root ≠ [] then
    if o.removeExisting ∧ (place o.root = [] ∨ place o.root = place e.home) then .error .refused
    else .ok (cleanPath o.root)
  else if o.useSysroot ∧ o.removeExisting then .error .refused
  else .ok (effectiveRoot o c)

/-- `ProductInstaller::install`, productinstaller.cpp 96-118. -/
def installAll (e : Env) (o : Options) (root : Str) (files : Str → Option File) (as : List Artifact) : St :=
  let s : St := ⟨files, [], [], none⟩
  let s := if o.removeExisting then removeInstallRoot e o root s else s
  (as.filter (·.install)).foldl (installFile e o root) s

/-- The command `install`. -/
def install (e : Env) (o : Options) (c : Conf) (files : Str → Option File) (as : List Artifact) : St :=
  match construct e o c with
  | .error x => ⟨files, [], [], some x⟩
  | .ok root => installAll e o root files as

/-- The beginning of a build, executor.cpp 300-318: options without `removeExisting` are given to the
constructor, and the existing installation is removed by a separate call. -/
def buildStart (e : Env) (removeExisting dryRun keepGoing : Bool) (productRoot : Str) (c : Conf)
    (files : Str → Option File) : St :=
  let o : Options := ⟨productRoot, false, false, dryRun, keepGoing⟩
  match construct e o c with
  | .error x => ⟨files, [], [], some x⟩
  | .ok root =>
    let s : St := ⟨files, [], [], none⟩
    if removeExisting then removeInstallRoot e o root s else s

def St.failed (s : St) : Bool := s.thrown.isSome || !s.warnings.isEmpty

end Verif.Install
