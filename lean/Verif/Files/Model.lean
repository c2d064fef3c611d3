/-!
# Removing, copying and moving files (C63, C64, C65)

Model of `removeFileRecursion`, `removeDirectoryWithContents`, `createSymLink` and `copyFileRecursion` in
src/lib/corelib/tools/fileinfo.cpp 426-618, of `File.remove`, `File.copy` and `File.move` in
src/lib/corelib/jsextensions/file.cpp 136-255, and of the callers in src/lib/corelib/buildgraph/productinstaller.cpp 180-195
and src/lib/corelib/buildgraph/artifactcleaner.cpp 83-98. Unix host.

Simplifications: paths are absolute and canonical, that is, they lead through directories and not through links. Nobody else
changes files in the meantime. Of permissions there is only whether the owner may write. What the system refuses is given by
a predicate, which may depend on the point in time.
-/
namespace Verif.Files

abbrev Name := String
/-- From the root directory on -/
abbrev Path := List Name

/-- Content, permission to write, time of the last modification -/
inductive Node
  | file (content : Nat) (writable : Bool) (time : Nat)
  | dir (writable : Bool) (time : Nat)
  | link (text : String)
deriving DecidableEq, Repr

/-- The files there are -/
abbrev FS := List (Path × Node)

def get (fs : FS) (p : Path) : Option Node := fs.lookup p
def del (fs : FS) (p : Path) : FS := fs.filter (fun e => decide (e.1 ≠ p))
def put (fs : FS) (p : Path) (n : Node) : FS := (p, n) :: del fs p

/-- The last name of a path that is in the directory `p`. -/
def childName (p q : Path) : Option Name :=
  match q.getLast? with
  | some n => if q = p ++ [n] then some n else none
  | none => none

/-- The names in a directory -/
def names (fs : FS) (p : Path) : List Name := (fs.filterMap (fun e => childName p e.1)).eraseDups

inductive Op
  | chmod (p : Path)
  | unlink (p : Path)
  | rmdir (p : Path)
  | mkdir (p : Path)
  | symlink (p : Path)
  | copy (src tgt : Path)
  | rename (src tgt : Path)
deriving DecidableEq

structure Env where
  /-- the order in which the names in a directory are listed -/
  order : List Name → List Name
  /-- where the text of a link leads to that is in a directory -/
  place : Path → String → Path
  /-- how many links are followed -/
  maxLinks : Nat
  /-- what does not fail -/
  ok : Nat → Op → Bool
  /-- the time -/
  now : Nat → Nat

/-- Files, how many operations there have been, the paths in error messages -/
structure St where
  fs : FS
  step : Nat
  errors : List Path

/-- Where a path leads to if links are followed, if there is something. -/
def followN (e : Env) (fs : FS) : Nat → Path → Option Path
  | 0, _ => none
  | k + 1, p =>
    match get fs p with
    | some (.link t) => followN e fs k (e.place p.dropLast t)
    | some _ => some p
    | none => none

def follow (e : Env) (fs : FS) (p : Path) : Option Path := followN e fs (e.maxLinks + 1) p

def Node.makeWritable : Node → Node
  | .file c _ t => .file c true t
  | .dir _ t => .dir true t
  | .link t => .link t

/-- `QFile::setPermissions`, which follows links. -/
def chmod (e : Env) (p : Path) (s : St) : St :=
  match follow e s.fs p with
  | none => { s with step := s.step + 1 }
  | some q =>
    if e.ok s.step (.chmod q) then
      match get s.fs q with
      | some n => { s with fs := put s.fs q n.makeWritable, step := s.step + 1 }
      | none => { s with step := s.step + 1 }
    else { s with step := s.step + 1 }

/-- `unlink` -/
def unlink (e : Env) (p : Path) (s : St) : Bool × St :=
  match get s.fs p with
  | some (.file _ _ _) | some (.link _) =>
    if e.ok s.step (.unlink p) then (true, { s with fs := del s.fs p, step := s.step + 1 })
    else (false, { s with step := s.step + 1 })
  | _ => (false, { s with step := s.step + 1 })

/-- `rmdir`: there must be nothing in the directory. -/
def rmdir (e : Env) (p : Path) (s : St) : Bool × St :=
  match get s.fs p with
  | some (.dir _ _) =>
    if names s.fs p = [] ∧ e.ok s.step (.rmdir p) = true then (true, { s with fs := del s.fs p, step := s.step + 1 })
    else (false, { s with step := s.step + 1 })
  | _ => (false, { s with step := s.step + 1 })

def fail (p : Path) (s : St) : St := { s with errors := s.errors ++ [p] }

/-- A loop over the entries of a directory; what is returned for them is ignored. -/
def each (f : Path → St → Bool × St) (p : Path) : List Name → St → St
  | [], s => s
  | n :: l, s => each f p l (f (p ++ [n]) s).2

/-- fileinfo.cpp 427-457, with a bound on the depth -/
def removeRec (e : Env) : Nat → Path → St → Bool × St
  | 0, _, s => (true, s)
  | k + 1, p, s =>
    match get s.fs p with
    | none => (true, s)
    | some (.dir _ _) =>
      let s1 := each (removeRec e k) p (e.order (names s.fs p)) s
      let r := rmdir e p s1
      if r.1 then r else (false, fail p r.2)
    | some _ =>
      let r := unlink e p (chmod e p s)
      if r.1 then r else (false, fail p r.2)

/-- How deep directories are nested -/
def depth (fs : FS) : Nat := fs.foldr (fun e d => max e.1.length d) 0

/-- `removeFileRecursion`, that is, `File.remove` -/
def remove (e : Env) (p : Path) (s : St) : Bool × St := removeRec e (depth s.fs + 1) p s

/-- `removeDirectoryWithContents`, 459-467 -/
def removeDirectory (e : Env) (p : Path) (s : St) : Bool × St :=
  match (follow e s.fs p).bind (get s.fs) with
  | some (.dir _ _) => remove e p s
  | some _ => (false, fail p s)
  | none => remove e p s

/-! ## Copying -/

/-- Creates a directory, unless there is one. -/
def ensureDir (e : Env) (p : Path) (s : St) : Bool × St :=
  match get s.fs p with
  | some (.dir _ _) => (true, s)
  | some _ => (false, s)
  | none =>
    if e.ok s.step (.mkdir p) then (true, { s with fs := put s.fs p (.dir true (e.now s.step)), step := s.step + 1 })
    else (false, { s with step := s.step + 1 })

/-- `QDir::mkpath`: the same for all directories on the way. -/
def mkpathFrom (e : Env) (p : Path) : List Name → St → Bool × St
  | [], s => ensureDir e p s
  | n :: l, s =>
    let r := ensureDir e p s
    if r.1 then mkpathFrom e (p ++ [n]) l r.2 else r

def mkpath (e : Env) (p : Path) (s : St) : Bool × St := mkpathFrom e [] p s

/-- `QFileInfo::lastModified`, which follows links; it is before all times if there is nothing. -/
def timeOf (e : Env) (fs : FS) (p : Path) : Nat :=
  match (follow e fs p).bind (get fs) with
  | some (.file _ _ t) => t
  | some (.dir _ t) => t
  | _ => 0

/-- `QFileInfo::exists`, which follows links. -/
def exists? (e : Env) (fs : FS) (p : Path) : Bool := (follow e fs p).isSome

/-- `createSymLink`, 513-532 -/
def createLink (e : Env) (text : String) (tgt : Path) (s : St) : Bool × St :=
  if get s.fs tgt = some (.link text) then (true, s)
  else
    let s1 := (unlink e tgt s).2
    if get s1.fs tgt = none ∧ e.ok s1.step (.symlink tgt) = true then
      (true, { s1 with fs := put s1.fs tgt (.link text), step := s1.step + 1 })
    else (false, { s1 with step := s1.step + 1 })

/-- `QFile::copy`, which fails if there is something at the target already -/
def copyFile (e : Env) (src tgt : Path) (s : St) : Bool × St :=
  match (follow e s.fs src).bind (get s.fs), get s.fs tgt with
  | some (.file c w _), none =>
    if e.ok s.step (.copy src tgt) then
      (true, { s with fs := put s.fs tgt (.file c w (e.now s.step)), step := s.step + 1 })
    else (false, { s with step := s.step + 1 })
  | _, _ => (false, { s with step := s.step + 1 })

/-- 589-607: an existing target is removed before, and its being up to date is judged by time. -/
def replaceFile (e : Env) (src tgt : Path) (s : St) : Bool × St :=
  if exists? e s.fs tgt = true ∧ timeOf e s.fs src ≤ timeOf e s.fs tgt then (true, s)
  else
    let s1 := if exists? e s.fs tgt then (unlink e tgt (chmod e tgt s)).2 else s
    let r := copyFile e src tgt s1
    if r.1 then r else (false, fail tgt r.2)

/-- A loop over the entries of a directory, which ends at the first failure. -/
def eachUntil (f : Path → Path → St → Bool × St) (src tgt : Path) : List Name → St → Bool × St
  | [], s => (true, s)
  | n :: l, s =>
    let r := f (src ++ [n]) (tgt ++ [n]) s
    if r.1 then eachUntil f src tgt l r.2 else r

/-- 551-610, with `preserveSymLinks`, with a bound on the depth -/
def copyRec (e : Env) (contents : Bool) : Nat → Path → Path → St → Bool × St
  | 0, _, _, s => (false, s)
  | k + 1, src, tgt, s =>
    let m := mkpath e tgt.dropLast s
    if m.1 = false then (false, fail tgt.dropLast m.2)
    else
      match get m.2.fs src with
      | some (.link t) =>
        let r := createLink e t tgt m.2
        if r.1 then r else (false, fail tgt r.2)
      | some (.dir _ _) =>
        if contents then eachUntil (copyRec e contents k) src tgt (e.order (names m.2.fs src)) m.2
        else if exists? e m.2.fs tgt = true ∧ timeOf e m.2.fs src ≤ timeOf e m.2.fs tgt then (true, m.2)
        else mkpath e tgt m.2
      | _ => replaceFile e src tgt m.2

/-- `File.copy` -/
def copy (e : Env) (src tgt : Path) (s : St) : Bool × St := copyRec e true (depth s.fs + 1) src tgt s

/-! ## Moving -/

def isDir (e : Env) (fs : FS) (p : Path) : Bool :=
  match (follow e fs p).bind (get fs) with
  | some (.dir _ _) => true
  | _ => false

/-- `QFile::rename`, which fails if there is something at the target, or no directory for it. -/
def rename (e : Env) (src tgt : Path) (s : St) : Bool × St :=
  match get s.fs src, get s.fs tgt, get s.fs tgt.dropLast with
  | some n, none, some (.dir _ _) =>
    if e.ok s.step (.rename src tgt) then (true, { s with fs := put (del s.fs src) tgt n, step := s.step + 1 })
    else (false, { s with step := s.step + 1 })
  | _, _, _ => (false, { s with step := s.step + 1 })

/-- `File.move`, jsextensions/file.cpp 215-254 -/
def move (e : Env) (src tgt : Path) (overwrite : Bool) (s : St) : Bool × St :=
  if isDir e s.fs src then (false, s)
  else if isDir e s.fs tgt then (false, s)
  else
    let r := if overwrite = true ∧ exists? e s.fs tgt = true then unlink e tgt s else (true, s)
    if r.1 = false then r
    else if exists? e r.2.fs tgt then (false, r.2)
    else rename e src tgt r.2

end Verif.Files
