/-! # Names of shared libraries

`cpp.internalVersion`, `cpp.soVersion` and `cpp.shouldCreateSymlinks` (share/qbs/modules/cpp/GenericGCC.qbs 244-280),
`PathTools.dynamicLibraryFilePath` (share/qbs/imports/qbs/PathTools/path-tools.js 78-120), `librarySymlinkArtifacts` and
`librarySymlinkCommands` (share/qbs/modules/cpp/gcc.js 1405-1440) and `UnixUtils.soname` (share/qbs/imports/qbs/UnixUtils/unix-utils.js 33-59).

Simplifications: no bundles and no `cpp.sonamePrefix`; all files are in the product's destination directory, so that names stand for paths.
On ELF systems the target is not Darwin; with the Mach-O format it is. -/

namespace Verif.Soname

abbrev Str := List Char

inductive Format where
  | elf
  | macho
  | pe
  | wasm
deriving DecidableEq, Repr

structure Product where
  /-- `cpp.dynamicLibraryPrefix`, `targetName`, `cpp.variantSuffix`, `cpp.archSuffix`, `cpp.dynamicLibrarySuffix` -/
  pre : Str
  target : Str
  variant : Str
  arch : Str
  suffix : Str
  format : Format
  createSymlinks : Bool
  /-- `cpp.internalVersion` and `cpp.soVersion`, empty if undefined -/
  internal : Str
  soVersion : Str
deriving DecidableEq, Repr

def isDigit (c : Char) : Bool := '0' ≤ c && c ≤ '9'

/-- What a dot of an expression does not match -/
def lineEnd (c : Char) : Bool := c = '\n' || c = '\r' || c = '\u2028' || c = '\u2029'

/-- The ways to match `[0-9]+`, as what is matched and what is left, in the order in which they are tried -/
def digits : Str → List (Str × Str)
  | [] => []
  | c :: s => if isDigit c then (digits s).map (fun p => (c :: p.1, p.2)) ++ [([c], s)] else []

/-- The ways to match `[0-9]+\.` in GenericGCC.qbs 261; the backslash is in a string, where it disappears, so that the dot matches
any character. -/
def group (s : Str) : List (Str × Str) :=
  (digits s).flatMap fun p =>
    match p.2 with
    | [] => []
    | c :: r => if lineEnd c then [] else [(p.1 ++ [c], r)]

/-- The ways to match up to `k` of them -/
def rep : Nat → Str → List (Str × Str)
  | 0, s => [([], s)]
  | k + 1, s => ((group s).flatMap fun p => (rep k p.2).map fun q => (p.1 ++ q.1, q.2)) ++ [([], s)]

/-- `product.version.match("^([0-9]+\.){0,3}[0-9]+")`, GenericGCC.qbs 261 -/
def core (s : Str) : Option Str := ((rep 3 s).flatMap fun p => (digits p.2).map fun q => p.1 ++ q.1).head?

/-- `split('.')` -/
def split : Str → List Str
  | [] => [[]]
  | c :: s =>
    if c = '.' then [] :: split s
    else match split s with
      | [] => [[c]]
      | w :: ws => (c :: w) :: ws

/-- `join('.')` -/
def join : List Str → Str
  | [] => []
  | [w] => w
  | w :: ws => w ++ '.' :: join ws

/-- Padding with zeros, GenericGCC.qbs 269-270 -/
def pad (l : List Str) : List Str := l ++ List.replicate (3 - l.length) ['0']

/-- The default of `cpp.internalVersion`, GenericGCC.qbs 257-273 -/
def defaultInternal (version : Option Str) : Str :=
  match version with
  | none => []
  | some v =>
    match core v with
    | none => []
    | some t => join (pad ((split t).take 3))

/-- The default of `cpp.soVersion`, GenericGCC.qbs 275-280 -/
def defaultSo (internal : Str) : Str := if internal = [] then [] else (split internal).headD []

/-- The version in the name, path-tools.js 89-96; the argument `version` is undefined in all calls here. -/
def nameVersion (p : Product) (maxParts : Option Nat) : Str :=
  match maxParts with
  | none => p.internal
  | some 0 => []
  | some n => if p.internal = [] then [] else join ((split p.internal).take n)

/-- `dynamicLibraryFilePath`, path-tools.js 98-119 -/
def libraryName (p : Product) (maxParts : Option Nat) : Str :=
  let version := nameVersion p maxParts
  p.pre ++ p.target ++ p.variant
    ++ (if version ≠ [] ∧ p.format = .macho then '.' :: version else [])
    ++ p.arch ++ p.suffix
    ++ (if version ≠ [] ∧ (p.format = .elf ∨ p.format = .wasm) then '.' :: version else [])

/-- The loop of `librarySymlinkArtifacts`, gcc.js 1411-1422, from `i` on: names and what the links refer to -/
def linksFrom (p : Product) : Nat → Nat → Option Str → List (Str × Str)
  | 0, _, _ => []
  | n + 1, i, last =>
    let name := libraryName p (some i)
    if i > 0 ∧ last = some name then []
    else (name, libraryName p none) :: linksFrom p n (i + 1) (some name)

/-- `librarySymlinkArtifacts` with `shouldCreateSymlinks`, gcc.js 1405-1425, GenericGCC.qbs 244-246 -/
def links (p : Product) : List (Str × Str) :=
  if p.createSymlinks ∧ p.internal ≠ [] ∧ (p.format = .macho ∨ p.format = .elf) then
    linksFrom p (if p.internal ≠ [] then 3 else 1) 0 none
  else []

/-- `soname`, unix-utils.js 33-59, called with the name of the library, gcc.js 326-330 -/
def soname (p : Product) : Str :=
  let out := libraryName p none
  if p.format = .macho then out
  else if p.soVersion ≠ [] then
    if p.internal ≠ [] then out.take (out.length - p.internal.length) ++ p.soVersion
    else out ++ '.' :: p.soVersion
  else out

end Verif.Soname
