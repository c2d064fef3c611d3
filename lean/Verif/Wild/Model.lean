/-!
# Wildcards in groups (C55)

Model of src/lib/corelib/language/language.cpp 733-841 (`SourceWildCards`), 369, 510-523 (what is restored when a project
is loaded), src/lib/corelib/tools/fileinfo.cpp 188-194, and of loader/productresolver.cpp 829-841 (which build directory
is left out at first).

Hosts with slashes and case-sensitive names. A directory is named by the components of its absolute path, which may be
`.` and `..`. What is in a directory, and which names match a pattern, is given.
`QDirIterator` is modelled by its documented behaviour: it lists what matches, does not descend into symbolic links,
and does not descend into hidden directories unless hidden entries are wanted.
-/
namespace Verif.Wild

abbrev Name := List Char
abbrev Path := List Name

/-- `QFileInfo`: these follow symbolic links, except `isLink`. -/
structure Info where
  isDir : Bool
  isFile : Bool
  isLink : Bool
  found : Bool
deriving DecidableEq, Repr

def dot : Name := ['.']
def dotDot : Name := ['.', '.']
def star : Name := ['*']
def starStar : Name := ['*', '*']

/-- A file system. Apart from symbolic links, directories are nested finitely deep. -/
structure FS where
  entries : Path → List (Name × Info)
  depth : Path → Nat
  nested : ∀ p n i, (n, i) ∈ entries p → i.isDir = true → i.isLink = false → depth (p ++ [n]) < depth p
  inDirs : ∀ p n i, (n, i) ∈ entries p → i.isDir = false → ∀ q, entries (p ++ n :: q) = []

/-- `QFileInfo::isHidden` -/
def hidden (n : Name) : Bool := n.head? = some '.'

/-- `FileInfo::isPattern`, fileinfo.cpp 188-194. -/
def isPattern (n : Name) : Bool := n.any (fun c => c = '*' || c = '?' || c = ']' || c = '[')

/-- The path as a string, with the slash at the beginning; for the root directory, it does not matter. -/
def str (p : Path) : List Char := p.flatMap (fun c => '/' :: c)

/-- `startsWith(buildDir)` -/
def startsWith (p dir : Path) : Bool := (str dir).isPrefixOf (str p)

/-- `QDir::cleanPath`, component by component -/
def cleanStep (acc : Path) (n : Name) : Path :=
  if n = dot then acc else if n = dotDot then acc.dropLast else acc ++ [n]

def clean (p : Path) : Path := p.foldl cleanStep []

/-- What is given: the file system and how names are matched. -/
structure Env where
  fs : FS
  glob : (pattern name : Name) → Bool
  home : List Char

/-- The filters for one part of a pattern, language.cpp 784-813: is it for directories; are hidden entries wanted; and
    `.` and `..`? -/
structure Filters where
  dirs : Bool
  hidden : Bool
  dots : Bool
deriving DecidableEq, Repr

def filtersFor (part : Name) (isDir : Bool) : Filters where
  dirs := isDir
  hidden := !isPattern part && isDir
  dots := part = dotDot || part = dot

def dirInfo : Info := ⟨true, false, false, true⟩

/-- All entries of a directory, including `.` and `..` if these are wanted. -/
def listed (env : Env) (f : Filters) (dir : Path) : List (Name × Info) :=
  (if f.dots then [(dot, dirInfo), (dotDot, dirInfo)] else []) ++ env.fs.entries dir

/-- Does an entry pass name filter and filters? -/
def passes (env : Env) (f : Filters) (part : Name) (e : Name × Info) : Bool :=
  env.glob part e.1 &&
  (f.hidden || e.1 = dot || e.1 = dotDot || !hidden e.1) &&
  (!f.dirs || ((e.2.isFile || e.2.isDir || e.2.isLink) && e.2.found)) &&
  !(f.dirs && (e.2.isFile || !e.2.found))

/-- Does the iterator go down? -/
def descends (f : Filters) (e : Name × Info) : Bool :=
  e.2.isDir && !e.2.isLink && (f.hidden || !hidden e.1)

/-- The directories that the iterator visits. -/
def visited (env : Env) (f : Filters) : Nat → Path → List Path
  | 0, dir => [dir]
  | n + 1, dir => dir :: ((env.fs.entries dir).filter (descends f)).flatMap (fun e => visited env f n (dir ++ [e.1]))

/-- The entries that the iterator finds: directory and entry. -/
def found (env : Env) (part : Name) (f : Filters) (recursive : Bool) (dir : Path) : List (Path × Name × Info) :=
  (if recursive then visited env f (env.fs.depth dir) dir else [dir]).flatMap (fun d =>
    ((listed env f d).filter (passes env f part)).map (fun e => (d, e)))

/-- Skipping `**`, language.cpp 784-797: is the rest to be searched recursively, the part, and what comes after it. -/
def takePart : Name → List Name → Bool × Name × List Name
  | part, [] => if part = starStar then (true, star, []) else (false, part, [])
  | part, next :: rest =>
    if part = starStar then (true, (takePart next rest).2) else (false, part, next :: rest)

theorem takePart_length (part : Name) (rest : List Name) : (takePart part rest).2.2.length ≤ rest.length := by
  induction rest generalizing part with
  | nil => unfold takePart; split <;> simp
  | cons n r ih =>
    unfold takePart
    split
    · exact Nat.le_succ_of_le (ih n)
    · simp

/-- `expandPatterns` for one pattern, language.cpp 770-826. With no part left, there is no first one to take: undefined.
    The number bounds the parts. -/
def expandParts (env : Env) (buildDir : Path) : Nat → List Name → Path → Option (List Path)
  | 0, _, _ => none
  | _, [], base => if startsWith base buildDir then some [] else none
  | n + 1, part :: rest, base =>
    if startsWith base buildDir then some []
    else
      let t := takePart part rest
      let isDir := !t.2.2.isEmpty
      let hits := (found env t.2.1 (filtersFor t.2.1 isDir) t.1 base).filter (fun h => !startsWith h.1 buildDir)
      if isDir then
        (hits.mapM (fun h => expandParts env buildDir n t.2.2 (h.1 ++ [h.2.1]))).map List.flatten
      else some ((hits.filter (fun h => !(h.2.2.isDir && !h.2.2.isLink))).map (fun h => clean (h.1 ++ [h.2.1])))

/-- Splitting at slashes, without empty parts -/
def splitParts : List Char → List Name
  | [] => []
  | c :: cs =>
    if c = '/' then splitParts cs
    else match cs with
      | [] => [[c]]
      | d :: _ => if d = '/' then [c] :: splitParts cs else
        match splitParts cs with
        | [] => [[c]]
        | x :: xs => (c :: x) :: xs

/-- The complete pattern, language.cpp 745-751. -/
def wholePattern (env : Env) (prefix_ pattern : List Char) : List Char :=
  let p := if ['~', '/'].isPrefixOf prefix_ then env.home ++ prefix_.drop 1 else prefix_
  (p ++ pattern).map (fun c => if c = '\\' then '/' else c)

/-- `expandPatterns` for a list, language.cpp 741-768. -/
def expandPattern (env : Env) (buildDir baseDir : Path) (prefix_ pattern : List Char) : Option (List Path) :=
  let p := wholePattern env prefix_ pattern
  let parts := splitParts p
  expandParts env buildDir (parts.length + 1) parts (if p.head? = some '/' then [] else baseDir)

def expandList (env : Env) (buildDir baseDir : Path) (prefix_ : List Char) (patterns : List (List Char)) :
    Option (List Path) :=
  (patterns.mapM (expandPattern env buildDir baseDir prefix_)).map List.flatten

/-- The patterns of a group. -/
structure Wildcards where
  prefix_ : List Char
  baseDir : Path
  patterns : List (List Char)
  excluded : List (List Char)

/-- `expandPatterns`, language.cpp 735-739. `none`: undefined behaviour. -/
def expand (env : Env) (buildDir : Path) (w : Wildcards) : Option (List Path) :=
  match expandList env buildDir w.baseDir w.prefix_ w.patterns, expandList env buildDir w.baseDir w.prefix_ w.excluded with
  | some l, some x => some (l.filter (fun f => !x.contains f))
  | _, _ => none

/-- Comparison of two `Set`s -/
def sameSet (a b : List Path) : Bool := a.all (fun x => b.contains x) && b.all (fun x => a.contains x)

/-- `hasChangedSinceExpansion`, language.cpp 828-841, after loading: the build directory is then that of the product,
    language.cpp 369. Whether a directory with a time stamp is newer is given. -/
def hasChanged (env : Env) (newer : Bool) (productBuildDir : Path) (w : Wildcards) (files : List Path) : Option Bool :=
  if newer then some true
  else (expand env productBuildDir w).map (fun l => !sameSet files l)

end Verif.Wild
