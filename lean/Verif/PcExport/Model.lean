import Verif.Pc.Model

/-! # What the module Exporter.pkgconfig writes into .pc files

The files are written by the rule of share/qbs/modules/Exporter/pkgconfig/pkgconfig.qbs with the functions of pkgconfig.js next
to it. They are read by the model of the reader in `Verif.Pc`. -/

namespace Verif.PcExport

open Verif.Pc

/-- `quote` (pkgconfig.js 34-40) -/
def quote (v : Text) : Text :=
  if v.contains ' ' || v.contains '\'' || v.contains '"' then
    '"' :: v.flatMap (fun c => if c = '"' ∨ c = '\'' ∨ c = '\\' then ['\\', c] else [c]) ++ ['"']
  else v

/-- `String.prototype.replace` with a string: the first occurrence is replaced. -/
def replaceFirst (old new : Text) : Text → Text
  | [] => if old = [] then new else []
  | c :: s => if old.isPrefixOf (c :: s) then new ++ (c :: s).drop old.length else c :: replaceFirst old new s

/-- `quoteAndPrefixify` (pkgconfig.js 77-87). `_usePrefix` is set if there is an install prefix (pkgconfig.qbs 25), if the
data are collected at all. `pre` is the install prefix. -/
def quoteAndPrefixify (pre v : Text) : Text :=
  if pre = [] ∨ ¬ startsWith v pre = true ∨ (pre.length < v.length ∧ v[pre.length]? ≠ some '/') then quote v
  else replaceFirst pre "${prefix}".toList (quote v)

/-- The properties of `exports.cpp` that are used: lists, or undefined -/
structure Cpp where
  defines : Option (List Text) := none
  includePaths : Option (List Text) := none
  commonCompilerFlags : Option (List Text) := none
  driverFlags : Option (List Text) := none
  cxxFlags : Option (List Text) := none
  cFlags : Option (List Text) := none
  libraryPaths : Option (List Text) := none
  dynamicLibraries : Option (List Text) := none
  staticLibraries : Option (List Text) := none
  linkerFlags : Option (List Text) := none
  driverLinkerFlags : Option (List Text) := none
  deriving Repr, DecidableEq

/-- A product or a module: the directories where its libraries are installed, without the install root, and its target name;
and what it exports for cpp -/
structure Module where
  installDirs : List Text := []
  targetName : Text := []
  cpp : Cpp := {}
  deriving Repr, DecidableEq

/-- `transformedValue` (pkgconfig.js 89-100) without a transform function: the elements of the list are replaced in the list
itself, so that it is this value that is seen the next time. (`exports` is one object for each product while a command is run,
buildgraph.cpp 182-187 and 441-470.) -/
def transformed (pre : Text) (v : Option (List Text)) : Option (List Text) := v.map (·.map (quoteAndPrefixify pre))

/-- `collectLibs` (pkgconfig.js 102-150): the flags, and the exported properties afterwards. Which libraries are considered is
decided elsewhere. -/
def collectLibs (pre : Text) (m : Module) : List Text × Module :=
  let libs := m.installDirs.flatMap (fun d => ["-L".toList ++ quoteAndPrefixify pre d, "-l".toList ++ quote m.targetName])
  let libPaths := transformed pre m.cpp.libraryPaths
  let libs := libs ++ (libPaths.getD []).map (fun p => "-L".toList ++ p)
  let dlls := transformed pre m.cpp.dynamicLibraries
  let libs := libs ++ (dlls.getD []).map (fun l => "-l".toList ++ l)
  let statics := transformed pre m.cpp.staticLibraries
  let libs := libs ++ (statics.getD []).map (fun l => "-l".toList ++ l)
  let linker := transformed pre m.cpp.linkerFlags
  let libs := libs ++ linker.getD []
  let driver := transformed pre m.cpp.driverFlags
  let libs := libs ++ driver.getD []
  let driverLinker := transformed pre m.cpp.driverLinkerFlags
  (libs ++ driverLinker.getD [],
    { m with cpp := { m.cpp with libraryPaths := libPaths, dynamicLibraries := dlls, staticLibraries := statics,
                                 linkerFlags := linker, driverFlags := driver, driverLinkerFlags := driverLinker } })

/-- `collectCFlags` (pkgconfig.js 152-174). The exported properties are not used again. -/
def collectCFlags (pre : Text) (m : Module) : List Text :=
  let flags := ((transformed pre m.cpp.defines).getD []).map (fun d => "-D".toList ++ d)
  let flags := flags ++ ((transformed pre m.cpp.includePaths).getD []).map (fun p => "-I".toList ++ p)
  let flags := flags ++ (transformed pre m.cpp.commonCompilerFlags).getD []
  let flags := flags ++ (transformed pre m.cpp.driverFlags).getD []
  flags ++ (((transformed pre m.cpp.cxxFlags).or (transformed pre m.cpp.cFlags)).getD [])

/-- The product, and what is said about it (pkgconfig.qbs 12-21). The entries given by the user for flags, and the entries that
refer to other packages, are left out, and so are user-defined variables. -/
structure Product where
  installPrefix : Text := []
  name : Text
  description : Text
  version : Text
  modules : List Module
  deriving Repr, DecidableEq

/-- `collectAutodetectedDataRecursive` (pkgconfig.js 176-181) for the product and the dependencies whose flags are
taken over, in the order in which they are visited: first the libraries, then the compiler flags of each -/
def collect (p : Product) : List Text × List Text :=
  p.modules.foldl (fun (data : List Text × List Text) m =>
    let (libs, m') := collectLibs p.installPrefix m
    (data.1 ++ libs, data.2 ++ collectCFlags p.installPrefix m')) ([], [])

/-- `value.join(' ')` -/
def join : List Text → Text
  | [] => []
  | [a] => a
  | a :: b :: l => a ++ ' ' :: join (b :: l)

/-- `writeEntry` (pkgconfig.js 42-57) for a list; there is no line if the list is empty. -/
def listEntry (key : Text) (l : List Text) : List Text :=
  if l = [] then [] else [key ++ ": ".toList ++ join l]

/-- `writeEntry` (pkgconfig.js 42-57) for a text that is required: an empty one is an error. -/
def textEntry (key v : Text) : Option Text := if v = [] then none else some (key ++ ": ".toList ++ v)

/-- The source code of the command (pkgconfig.qbs 50-75): the lines of the file -/
def pcLines (p : Product) : Option (List Text) :=
  match textEntry "Name".toList p.name, textEntry "Description".toList p.description, textEntry "Version".toList p.version with
  | some n, some d, some v =>
    let data := collect p
    some ((if p.installPrefix ≠ [] then ["prefix=".toList ++ p.installPrefix, []] else []) ++ [n, d, v] ++
      listEntry "Cflags".toList data.2 ++ listEntry "Libs".toList data.1)
  | _, _, _ => none

/-- The contents of the file; `writeLine` ends each line. -/
def pcText (p : Product) : Option Text := (pcLines p).map (fun ls => ls.flatMap (· ++ ['\n']))

end Verif.PcExport
