import Verif.PathProbe.Model

/-! # What the module Exporter.cmake writes into package files

share/qbs/modules/Exporter/cmake/cmakeexporter.js and share/qbs/modules/Exporter/exporter.js. Frameworks are left out (the target
is not Darwin). Where artifacts are installed, and the path from the directory of the file to the install prefix
(cmakeexporter.js 71-76), are given. -/

namespace Verif.CMakeExport

open Verif.PathProbe (joinPaths joinSlash)

abbrev Text := List Char

/-- `String.prototype.startsWith` -/
def startsWith (s pre : Text) : Bool := pre.isPrefixOf s

/-- `toUpperCase`, for ASCII only -/
def upper (s : Text) : Text := s.map Char.toUpper

/-- The properties of `exports.cpp` that are used: lists, or undefined -/
structure Cpp where
  libraryPaths : Option (List Text) := none
  dynamicLibraries : Option (List Text) := none
  staticLibraries : Option (List Text) := none
  libraries : Option (List Text) := none
  driverLinkerFlags : Option (List Text) := none
  linkerFlags : Option (List Text) := none
  includePaths : Option (List Text) := none
  defines : Option (List Text) := none
  commonCompilerFlags : Option (List Text) := none
  driverFlags : Option (List Text) := none
  cxxFlags : Option (List Text) := none
  cFlags : Option (List Text) := none
  deriving Repr, DecidableEq

/-- The product and its project. Artifacts are given by the path where they are installed, if they are. -/
structure Product where
  packageName : Text
  buildDirectory : Text
  sourceDirectory : Text
  installRoot : Text
  installPrefix : Text
  /-- from the directory of the file to the install prefix -/
  relativePrefix : Text
  type : List Text := []
  dynamicLibrary : List (Option Text) := []
  dynamicLibraryImport : List (Option Text) := []
  staticLibrary : List (Option Text) := []
  buildVariant : Option Text := none
  cpp : Option Cpp := none
  /-- the package names of the exported dependencies that have the module Exporter.cmake -/
  packages : List Text := []
  deriving Repr, DecidableEq

/-- `getPrefixToStrip` (exporter.js 32-66); the outer `none` is the exception. -/
def prefixToStrip (p : Product) (v : Text) : Option (Option Text) :=
  if ¬ startsWith v p.installRoot ∧ (startsWith v p.buildDirectory ∨ startsWith v p.sourceDirectory) then none
  else
    let full := joinPaths [p.installRoot, p.installPrefix]
    if full.length > 1 ∧ startsWith v full then some (some full)
    else
      let pre := joinPaths [['/'], p.installPrefix]
      if pre.length > 1 ∧ startsWith v pre then some (some pre) else some none

/-- `quote` (cmakeexporter.js 50-53) -/
def quote (v : Text) : Text := '"' :: v ++ ['"']

/-- `data.installPrefixDir` (cmakeexporter.js 47) -/
def prefixVar (p : Product) : Text := '_' :: upper p.packageName ++ "_INSTALL_PREFIX".toList

/-- `quoteAndPrefixify` (cmakeexporter.js 55-69); values are strings. -/
def quoteAndPrefixify (p : Product) (v : Text) : Option Text :=
  match prefixToStrip p v with
  | none => none
  | some none => some (quote v)
  | some (some pre) =>
    if v.length > pre.length ∧ v[pre.length]? ≠ some '/' then some (quote v)
    else some (quote ("${".toList ++ prefixVar p ++ ['}'] ++ v.drop pre.length))

/-- `map` with a function that may throw -/
def mapAll (f : Text → Option Text) : List Text → Option (List Text)
  | [] => some []
  | v :: vs =>
    match f v, mapAll f vs with
    | some w, some ws => some (w :: ws)
    | _, _ => none

/-- `data.type` (cmakeexporter.js 80-107) without frameworks -/
def kind (p : Product) : Text :=
  if p.type.contains "dynamiclibrary".toList then "SHARED".toList
  else if p.type.contains "staticlibrary".toList then "STATIC".toList
  else "INTERFACE".toList

/-- `libArtifacts` -/
def libArtifacts (p : Product) : List (Option Text) :=
  if p.type.contains "dynamiclibrary".toList then p.dynamicLibrary
  else if p.type.contains "staticlibrary".toList then p.staticLibrary
  else []

/-- `libImportArtifacts` -/
def libImportArtifacts (p : Product) : List (Option Text) :=
  if p.type.contains "dynamiclibrary".toList then p.dynamicLibraryImport else []

/-- The loop over the artifacts (cmakeexporter.js 109-122): the installed paths of the library and of its import library -/
def locations : List (Option Text) → List (Option Text) → Option Text × Option Text
  | [], _ => (none, none)
  | none :: libs, imports => locations libs imports.tail
  | some l :: _, imports => (some l, imports.head?.join)

/-- `quoteAndPrefixify` for a path that may be undefined -/
def location (p : Product) : Option Text → Option (Option Text)
  | none => some none
  | some l => (quoteAndPrefixify p l).map some

/-- The data with all quotes (cmakeexporter.js 45-151) -/
structure Data where
  importedLocation : Option Text
  importedImplibLocation : Option Text
  libraryPaths : List Text
  linkLibraries : List Text
  linkOptions : List Text
  includeDirectories : List Text
  compileDefinitions : List Text
  compileOptions : List Text
  deriving Repr, DecidableEq

/-- `Array.prototype.join(",")` -/
def joinComma : List Text → Text
  | [] => []
  | [a] => a
  | a :: l => a ++ ',' :: joinComma l

/-- `data.linkOptions` before quoting (cmakeexporter.js 133-138) -/
def linkOptions (c : Cpp) : List Text :=
  c.driverLinkerFlags.getD [] ++
    if (c.linkerFlags.getD []).length > 0 then ["LINKER:".toList ++ joinComma (c.linkerFlags.getD [])] else []

/-- `data.linkLibraries` before quoting (cmakeexporter.js 127-130) -/
def linkLibraries (c : Cpp) : List Text := c.dynamicLibraries.getD [] ++ c.staticLibraries.getD [] ++ c.libraries.getD []

/-- `data.compileOptions` before quoting (cmakeexporter.js 145-149) -/
def compileOptions (c : Cpp) : List Text :=
  c.commonCompilerFlags.getD [] ++ c.driverFlags.getD [] ++ c.cxxFlags.getD [] ++ c.cFlags.getD []

/-- `collectAutodetectedData` (cmakeexporter.js 41-166); `none` is an exception. Without `exports.cpp` the lists are undefined, and
`writeConfigFile` fails with an exception when it uses `linkLibraries` (line 224). -/
def collect (p : Product) (c : Cpp) : Option Data :=
  let l := locations (libArtifacts p) (libImportArtifacts p)
  match location p l.1, location p l.2, mapAll (quoteAndPrefixify p) (c.libraryPaths.getD []),
      mapAll (quoteAndPrefixify p) (linkLibraries c), mapAll (quoteAndPrefixify p) (c.includePaths.getD []) with
  | some loc, some imp, some dirs, some libs, some incs =>
    some { importedLocation := loc, importedImplibLocation := imp, libraryPaths := dirs, linkLibraries := libs
           linkOptions := (linkOptions c).map quote, includeDirectories := incs
           compileDefinitions := (c.defines.getD []).map quote, compileOptions := (compileOptions c).map quote }
  | _, _, _, _, _ => none

/-- `writeCommand` (cmakeexporter.js 173-182) -/
def writeCommand (pkg command : Text) (lines : List Text) : List Text :=
  if lines = [] then []
  else (command ++ ['('] ++ pkg ++ " INTERFACE".toList) :: lines.map ("  ".toList ++ ·) ++ [[')']]

/-- `configuration` (cmakeexporter.js 203-204) -/
def configuration (p : Product) : Text :=
  match p.buildVariant with
  | some [] => "NONE".toList
  | some v => upper v
  | none => "NONE".toList

/-- The line for the import library (cmakeexporter.js 216-219) -/
def implibLine (p : Product) : Option Text → List Text
  | some l => ["  IMPORTED_IMPLIB_".toList ++ configuration p ++ [' '] ++ l]
  | none => []

/-- The lines of `writeConfigFile` (cmakeexporter.js 186-228) -/
def lines (p : Product) (d : Data) : List Text :=
  ["# Generated by Qbs".toList, "cmake_minimum_required(VERSION 3.5)".toList, "if(TARGET ".toList ++ p.packageName ++ [')'],
    "  return()".toList, "endif()".toList,
    "set(".toList ++ prefixVar p ++ " \"${CMAKE_CURRENT_LIST_DIR}/".toList ++ p.relativePrefix ++ "\")".toList] ++
  p.packages.map (fun q => "find_package(".toList ++ q ++ " REQUIRED SILENT)".toList) ++
  ["add_library(".toList ++ p.packageName ++ [' '] ++ kind p ++ " IMPORTED)".toList,
    "set_property(TARGET ".toList ++ p.packageName ++ " APPEND PROPERTY IMPORTED_CONFIGURATIONS ".toList ++ configuration p ++ [')'],
    "set_target_properties(".toList ++ p.packageName ++ " PROPERTIES".toList,
    "  IMPORTED_LINK_INTERFACE_LANGUAGES_".toList ++ configuration p ++ " CXX".toList] ++
  (if kind p ≠ "INTERFACE".toList then
    ["  IMPORTED_LOCATION_".toList ++ configuration p ++ [' '] ++ d.importedLocation.getD "undefined".toList] else []) ++
  implibLine p d.importedImplibLocation ++
  [[')']] ++
  writeCommand p.packageName "target_link_directories".toList d.libraryPaths ++
  writeCommand p.packageName "target_link_libraries".toList (d.linkLibraries ++ p.packages) ++
  writeCommand p.packageName "target_link_options".toList d.linkOptions ++
  writeCommand p.packageName "target_include_directories".toList d.includeDirectories ++
  writeCommand p.packageName "target_compile_definitions".toList d.compileDefinitions ++
  writeCommand p.packageName "target_compile_options".toList d.compileOptions

/-- `writeConfigFile` (cmakeexporter.js 168-231): the text of the file; `none` is an exception. -/
def configFile (p : Product) : Option Text :=
  match p.cpp with
  | none => none
  | some c => (collect p c).map fun d => (lines p d).flatMap (· ++ ['\n'])

/-- `writeVersionFile` (cmakeexporter.js 233-240) -/
def versionFile (version : Text) : Text :=
  ["# Generated by Qbs".toList, "set(PACKAGE_VERSION \"".toList ++ version ++ "\")".toList].flatMap (· ++ ['\n'])

end Verif.CMakeExport
