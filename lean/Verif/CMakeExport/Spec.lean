import Verif.CMakeExport.Model
import Verif.CMakeExport.Reader

/-! # Specification: the target that users of the package should get -/

namespace Verif.CMakeExport

/-- Characters without a special meaning in quoted arguments and lists -/
def isPlain (c : Char) : Bool := !(c == '"' || c == '\\' || c == '$' || c == ';')

/-- Characters without any special meaning -/
def isWord (c : Char) : Bool := !(isBlank c) && isPlain c && !(c == '(' || c == ')' || c == '#' || c == '{' || c == '}')

def Plain (v : Text) : Prop := v ≠ [] ∧ ∀ c ∈ v, isPlain c = true
def Word (v : Text) : Prop := v ≠ [] ∧ ∀ c ∈ v, isWord c = true

/-- `v` is the directory `d` or a path in it; the result is the rest. -/
def under (d v : Text) : Option Text :=
  if d <+: v ∧ (v.length = d.length ∨ v[d.length]? = some '/') then some (v.drop d.length) else none

/-- Where a file is after the installed files were moved: files below the install prefix, with or without the install root, are
moved, others are not. `new` is the new place of the install prefix. -/
def moved (p : Product) (new v : Text) : Text :=
  match under (p.installRoot ++ p.installPrefix) v with
  | some rest => new ++ rest
  | none =>
    match under p.installPrefix v with
    | some rest => new ++ rest
    | none => v

/-- The kind of the library, and where the library and its import library are installed: the first artifact that is installed -/
inductive Library (p : Product) : Text → Option Text → Option Text → Prop
  | interface : "dynamiclibrary".toList ∉ p.type → "staticlibrary".toList ∉ p.type → Library p "INTERFACE".toList none none
  | shared {i : Nat} {l} : "dynamiclibrary".toList ∈ p.type → p.dynamicLibrary[i]? = some (some l) →
      (∀ j, j < i → p.dynamicLibrary[j]? = some none) → Library p "SHARED".toList (some l) p.dynamicLibraryImport[i]?.join
  | static {i : Nat} {l} : "dynamiclibrary".toList ∉ p.type → "staticlibrary".toList ∈ p.type → p.staticLibrary[i]? = some (some l) →
      (∀ j, j < i → p.staticLibrary[j]? = some none) → Library p "STATIC".toList (some l) none

/-- `c` is the name of the configuration: the build variant in upper case, or NONE -/
inductive Config (p : Product) : Text → Prop
  | variant {v} : p.buildVariant = some v → v ≠ [] → Config p (v.map Char.toUpper)
  | empty : p.buildVariant = some [] → Config p "NONE".toList
  | none : p.buildVariant = none → Config p "NONE".toList

/-- The flags for the linker, in the notation of CMake: all of them in one option -/
inductive LinkerFlags : Option (List Text) → List Text → Prop
  | none : LinkerFlags none []
  | nil : LinkerFlags (some []) []
  | some {f fs} : LinkerFlags (some (f :: fs)) ["LINKER:".toList ++ f ++ fs.flatMap (',' :: ·)]

/-- The target that users should get. `new` is the place of the install prefix on their machine. -/
def target (p : Product) (c : Cpp) (new kind config : Text) (location import_ : Option Text) (linkerFlags : List Text) : Target where
  name := p.packageName
  kind := kind
  configurations := [config]
  properties := [("IMPORTED_LINK_INTERFACE_LANGUAGES_".toList ++ config, "CXX".toList)] ++
    location.toList.map (fun l => ("IMPORTED_LOCATION_".toList ++ config, moved p new l)) ++
    import_.toList.map (fun l => ("IMPORTED_IMPLIB_".toList ++ config, moved p new l))
  linkDirectories := (c.libraryPaths.getD []).map (moved p new)
  linkLibraries := (c.dynamicLibraries.getD [] ++ c.staticLibraries.getD [] ++ c.libraries.getD []).map (moved p new) ++ p.packages
  linkOptions := c.driverLinkerFlags.getD [] ++ linkerFlags
  includeDirectories := (c.includePaths.getD []).map (moved p new)
  compileDefinitions := c.defines.getD []
  compileOptions := c.commonCompilerFlags.getD [] ++ c.driverFlags.getD [] ++ c.cxxFlags.getD [] ++ c.cFlags.getD []

/-- A value that can be exported as a path: not in the project, except in the install root -/
def Exportable (p : Product) (v : Text) : Prop :=
  Plain v ∧ (p.installRoot <+: v ∨ ¬ p.buildDirectory <+: v ∧ ¬ p.sourceDirectory <+: v)

/-- A directory: full path, no separator at the end, no repeated separators -/
def Directory (d : Text) : Prop :=
  d.head? = some '/' ∧ d.getLast? ≠ some '/' ∧ ∀ a b, d ≠ a ++ '/' :: '/' :: b

/-- Products with values that need no quoting -/
structure Product.ok (p : Product) (c : Cpp) : Prop where
  name : Word p.packageName
  variable_ : Word (p.packageName.map Char.toUpper)
  configuration : ∀ v, Config p v → Word v
  packages : ∀ q ∈ p.packages, Word q
  root : Directory p.installRoot
  pre : Directory p.installPrefix
  separate : ¬ p.installRoot <+: p.installPrefix ∧ ¬ p.installPrefix <+: p.installRoot
  relative : ∀ ch ∈ p.relativePrefix, isPlain ch = true
  paths : ∀ v, (∃ l, c.libraryPaths = some l ∧ v ∈ l) ∨ (∃ l, c.includePaths = some l ∧ v ∈ l) ∨
    (∃ l, c.dynamicLibraries = some l ∧ v ∈ l) ∨ (∃ l, c.staticLibraries = some l ∧ v ∈ l) ∨ (∃ l, c.libraries = some l ∧ v ∈ l) ∨
    some v ∈ p.dynamicLibrary ∨ some v ∈ p.dynamicLibraryImport ∨ some v ∈ p.staticLibrary → Exportable p v
  flags : ∀ v, (∃ l, c.driverLinkerFlags = some l ∧ v ∈ l) ∨ (∃ l, c.linkerFlags = some l ∧ v ∈ l) ∨
    (∃ l, c.defines = some l ∧ v ∈ l) ∨ (∃ l, c.commonCompilerFlags = some l ∧ v ∈ l) ∨ (∃ l, c.driverFlags = some l ∧ v ∈ l) ∨
    (∃ l, c.cxxFlags = some l ∧ v ∈ l) ∨ (∃ l, c.cFlags = some l ∧ v ∈ l) → Plain v

/-- The place of the install prefix: relative to the directory of the file -/
def newPrefix (p : Product) (dir : Text) : Text := dir ++ '/' :: p.relativePrefix

end Verif.CMakeExport
