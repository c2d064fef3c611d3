import Verif.Pc.Model
import Verif.Version.Model

/-! # What becomes of packages: the directories above them, looking for them, and what they require of modules -/

namespace Verif.Pc

/-- `PcPackage::shouldRewriteSysroot` (pcpackage.cpp 127-142) -/
def shouldRewrite (sysroot value : Text) : Bool :=
  if sysroot = [] ∨ value = [] then false
  else if value.head? ≠ some '/' then false
  else if sysroot = ['/'] then false
  else if startsWith value sysroot then false
  else true

/-- The types of flags that the sysroot is put in front of (pcpackage.cpp 157-160) -/
def FlagType.isPath : FlagType → Bool
  | .includePath => true
  | .systemIncludePath => true
  | .dirAfterIncludePath => true
  | .libraryPath => true
  | _ => false

/-- The loop in `PcPackage::prependSysroot` (pcpackage.cpp 154-163) -/
def appendRoot (sysroot : Text) (f : Flag) : Flag :=
  if !shouldRewrite sysroot f.value then f
  else if f.type.isPath then { f with value := sysroot ++ f.value }
  else f

/-- `PcPackage::prependSysroot` (pcpackage.cpp 146-172) -/
def prependSysroot (sysroot : Text) (p : Package) : Package :=
  { p with libs := p.libs.map (appendRoot sysroot), libsPrivate := p.libsPrivate.map (appendRoot sysroot),
           cflags := p.cflags.map (appendRoot sysroot) }

/-- `PcPackage::removeSystemLibraryPaths` (pcpackage.cpp 174-195) -/
def removeSystemPaths (paths : List Text) (p : Package) : Package :=
  let keep (f : Flag) : Bool := !(f.type == .libraryPath && paths.contains f.value)
  { p with libs := p.libs.filter keep, libsPrivate := p.libsPrivate.filter keep }

/-- A package that has been found, which may be broken: `PcPackageVariant` (pcpackage.h 129-175) -/
structure Found where
  base : Text
  package : Except Err Package
  deriving Repr

/-- A file: its path, the directory it is in, and what is in it -/
structure PcFile where
  path : Text
  dir : Text
  contents : Text

/-- One round in `PkgConfig::findPackages` (pkgconfig.cpp 276-295) and the handler in `PcParser::parsePackageFile` (pcparser.cpp
411-413) -/
def load (o : Options) (f : PcFile) : Found :=
  { base := completeBaseName f.path,
    package := (parsePackage o f.path f.dir f.contents).map
      (fun p => prependSysroot o.sysroot (removeSystemPaths o.systemLibraryPaths p)) }

/-- `PkgConfig::findPackages` (pkgconfig.cpp 259-303), without the last step. The files are in the order of the directories
that are searched: first the extra ones, then the others (pkgconfig.cpp 269-272). Files for packages that are not installed have
been left out (pkgconfig.cpp 277-280). -/
def found (o : Options) (files : List PcFile) : List Found := files.map (load o)

/-- The order of `std::string` -/
def textLt : Text → Text → Bool
  | _, [] => false
  | [], _ :: _ => true
  | a :: s, b :: t => if a.toNat < b.toNat then true else if b.toNat < a.toNat then false else textLt s t

/-- What `std::sort` in `PkgConfig::findPackages` (pkgconfig.cpp 297-302) can make of the packages: any arrangement in which no
package is less than one before it. Which one it is is not specified. -/
def SortedAs (l sorted : List Found) : Prop :=
  sorted.Perm l ∧ sorted.Pairwise (fun a b => textLt b.base a.base = false)

/-- `PkgConfig::getPackage` (pkgconfig.cpp 136-156). The packages are sorted, so that `std::lower_bound` gives the first one
that is not less. -/
def getPackage (sorted : List Found) (name : Text) : Option Found :=
  match sorted.dropWhile (fun f => textLt f.base name) with
  | [] => none
  | f :: _ => if f.base = name then some f else none

/-- The packages as seen from scripts: each one is inserted into a map, and replaces one with the same name
(src/lib/corelib/jsextensions/pkgconfigjs.cpp 218-221). -/
def jsPackage (sorted : List Found) (name : Text) : Option Found := (sorted.reverse.find? (fun f => f.base = name))

/-! ## Versions -/

open Verif.Version (Version Range fromString toString)

/-- The next version (pkgconfigjs.cpp 95-100) -/
def nextVersion (v : Text) : Version :=
  let q := fromString v false
  { major := q.major, minor := q.minor, patch := q.patch + 1 }

/-- The properties that tell about versions in the map for a required package: `version`, `versionAtLeast` and `versionBelow`
(`requiredVersionToMap`, pkgconfigjs.cpp 89-125) -/
structure VersionProps where
  version : Option Text := none
  atLeast : Option Text := none
  upTo : Option Text := none
  deriving Repr, DecidableEq

def versionProps (r : Required) : VersionProps :=
  match r.comparison with
  | .lessThan => { upTo := some r.version }
  | .greaterThan => { atLeast := some (toString (nextVersion r.version)) }
  | .lessThanEqual => { upTo := some (toString (nextVersion r.version)) }
  | .greaterThanEqual => { atLeast := some r.version }
  | .equal => { version := some r.version }
  | .notEqual => { upTo := some r.version, atLeast := some (toString (nextVersion r.version)) }
  | .alwaysMatch => {}

/-- The properties are written to the Depends item as they are (share/qbs/module-providers/qbspkgconfig.qbs 193-203), which is
evaluated later (src/lib/corelib/loader/dependenciesresolver.cpp 874-877). There is no property `version` in Depends items
(src/lib/corelib/language/builtindeclarations.cpp 231-260), it is not read, and items in modules are not checked for
undeclared properties (src/lib/corelib/language/propertydeclaration.cpp 449-461). -/
def dependsRange (p : VersionProps) : Range :=
  { minimum := fromString (p.atLeast.getD []) false, maximum := fromString (p.upTo.getD []) false }

/-- Whether a package with that version is accepted. The version is written to the module
(qbspkgconfig.qbs 191) and read from it (src/lib/corelib/loader/productresolver.cpp 330-332). -/
def acceptsVersion (r : Required) (version : Text) : Bool :=
  (dependsRange (versionProps r)).accepts (fromString version false)

end Verif.Pc
