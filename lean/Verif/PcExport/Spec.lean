import Verif.PcExport.Model

/-! # Specification: the flags a reader of the file should see -/

namespace Verif.PcExport

open Verif.Pc

/-- Compiler flags: the defines, the include paths, and the other flags. Those for C++ are taken if they are set, and those for
C otherwise. -/
def meantCFlags (c : Cpp) : List Flag :=
  (c.defines.getD []).map (Flag.mk .define) ++ (c.includePaths.getD []).map (Flag.mk .includePath) ++
  (c.commonCompilerFlags.getD [] ++ c.driverFlags.getD [] ++ (c.cxxFlags.or c.cFlags).getD []).map (Flag.mk .compilerFlag)

/-- Linker flags: the installed libraries of the product itself, the library paths, the libraries, and the other flags -/
def meantLibs (m : Module) : List Flag :=
  m.installDirs.flatMap (fun d => [⟨.libraryPath, d⟩, ⟨.libraryName, m.targetName⟩]) ++
  (m.cpp.libraryPaths.getD []).map (Flag.mk .libraryPath) ++
  (m.cpp.dynamicLibraries.getD [] ++ m.cpp.staticLibraries.getD []).map (Flag.mk .libraryName) ++
  (m.cpp.linkerFlags.getD [] ++ m.cpp.driverFlags.getD [] ++ m.cpp.driverLinkerFlags.getD []).map (Flag.mk .linkerFlag)

/-- Values without characters that have a meaning in the file, apart from blanks and double quotes -/
def Safe (v : Text) : Prop :=
  ∀ c ∈ v, c ≠ '\\' ∧ c ≠ '\'' ∧ c ≠ '$' ∧ c ≠ '#' ∧ c ≠ Char.ofNat 0 ∧ (isSpace c = true → c = ' ')

/-- No blanks at the beginning and at the end, and not empty -/
def Tight (v : Text) : Prop := (∃ c l, v = c :: l ∧ isSpace c = false) ∧ ∃ l c, v = l ++ [c] ∧ isSpace c = false

def Plain (v : Text) : Prop := ' ' ∉ v ∧ '"' ∉ v

/-- A flag for the compiler that is no define and no include path -/
def OtherC (v : Text) : Prop :=
  ¬ "-I".toList <+: v ∧ ¬ "-D".toList <+: v ∧ v ≠ "-isystem".toList ∧ v ≠ "-idirafter".toList

/-- A flag for the linker that is no library, framework or path -/
def OtherL (v : Text) : Prop :=
  "-".toList <+: v ∧ ¬ "-l".toList <+: v ∧ ¬ "-L".toList <+: v ∧ ¬ "-F".toList <+: v ∧ v ≠ "-framework".toList

def Lib (v : Text) : Prop := ¬ "ib:".toList <+: v

structure Module.ok (m : Module) : Prop where
  defines : ∀ v ∈ m.cpp.defines.getD [], Safe v ∧ Tight v
  includePaths : ∀ v ∈ m.cpp.includePaths.getD [], Safe v ∧ Tight v
  common : ∀ v ∈ m.cpp.commonCompilerFlags.getD [], Safe v ∧ Tight v ∧ OtherC v
  driver : ∀ v ∈ m.cpp.driverFlags.getD [], Safe v ∧ Tight v ∧ OtherC v ∧ OtherL v ∧ Plain v
  cxx : ∀ v ∈ (m.cpp.cxxFlags.or m.cpp.cFlags).getD [], Safe v ∧ Tight v ∧ OtherC v
  installDirs : ∀ v ∈ m.installDirs, Safe v ∧ Tight v
  targetName : m.installDirs ≠ [] → Safe m.targetName ∧ Tight m.targetName ∧ Lib m.targetName
  libraryPaths : ∀ v ∈ m.cpp.libraryPaths.getD [], Safe v ∧ Tight v
  dynamicLibraries : ∀ v ∈ m.cpp.dynamicLibraries.getD [], Safe v ∧ Tight v ∧ Lib v
  staticLibraries : ∀ v ∈ m.cpp.staticLibraries.getD [], Safe v ∧ Tight v ∧ Lib v
  linker : ∀ v ∈ m.cpp.linkerFlags.getD [], Safe v ∧ Tight v ∧ OtherL v
  driverLinker : ∀ v ∈ m.cpp.driverLinkerFlags.getD [], Safe v ∧ Tight v ∧ OtherL v

structure Product.ok (p : Product) : Prop where
  installPrefix : p.installPrefix ≠ [] → Safe p.installPrefix ∧ Tight p.installPrefix ∧ '"' ∉ p.installPrefix
  name : Safe p.name ∧ Tight p.name
  description : Safe p.description ∧ Tight p.description
  version : Safe p.version ∧ Tight p.version
  modules : ∀ m ∈ p.modules, m.ok

/-- The reader does not replace the variable `prefix` by something of its own. -/
def Reads (o : Options) (path : Text) : Prop :=
  path ≠ [] ∧ o.definePrefix = false ∧ look "prefix".toList o.globals = none ∧
  look (varToEnvVar (completeBaseName path) "prefix".toList) o.system = none

end Verif.PcExport
