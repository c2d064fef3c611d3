import Verif.PcExport.Props

/-! # Examples for C126 -/

namespace Verif.PcExport

open Verif.Pc

theorem tight_of {v : Text} (h1 : v.head?.any (fun c => !isSpace c) = true) (h2 : v.getLast?.any (fun c => !isSpace c) = true) : Tight v := by
  constructor
  · cases v with
    | nil => cases h1
    | cons c l => exact ⟨c, l, rfl, by simpa using h1⟩
  · rcases List.eq_nil_or_concat v with h | ⟨l, c, h⟩
    · subst h; cases h1
    · subst h
      refine ⟨l, c, by simp, ?_⟩
      simpa using h2

instance (v : Text) : Decidable (Safe v) := by unfold Safe; infer_instance
instance (v : Text) : Decidable (Plain v) := by unfold Plain; infer_instance
instance (v : Text) : Decidable (OtherC v) := by unfold OtherC; infer_instance
instance (v : Text) : Decidable (OtherL v) := by unfold OtherL; infer_instance
instance (v : Text) : Decidable (Lib v) := by unfold Lib; infer_instance
instance (v : Text) : Decidable (Tight v) :=
  decidable_of_iff (v.head?.any (fun c => !isSpace c) = true ∧ v.getLast?.any (fun c => !isSpace c) = true) (by
    constructor
    · rintro ⟨h1, h2⟩; exact tight_of h1 h2
    · rintro ⟨⟨c, l, rfl, hc⟩, m, d, h2, hd⟩
      refine ⟨by simp [hc], ?_⟩
      rw [h2]; simp [hd])

/-- A library with a define with quotes -/
def own : Module :=
  { installDirs := ["/opt/my lib/lib".toList], targetName := "foo".toList,
    cpp := { defines := some ["GREETING=\"hello world\"".toList, "FOO".toList],
             includePaths := some ["/opt/my lib/include".toList, "/opt/my library".toList, "/usr/include/x".toList],
             driverFlags := some ["-pthread".toList] } }

/-- A dependency -/
def other : Module :=
  { cpp := { cFlags := some ["-std=c99".toList], dynamicLibraries := some ["z".toList],
             libraryPaths := some ["/opt/my lib".toList] } }

/-- A product with an install prefix with a blank -/
def library : Product :=
  { installPrefix := "/opt/my lib".toList, name := "Foo".toList, description := "A library".toList, version := "1.2".toList,
    modules := [own, other] }

theorem own_ok : own.ok where
  defines := by decide +kernel
  includePaths := by decide +kernel
  common := by decide +kernel
  driver := by decide +kernel
  cxx := by decide +kernel
  installDirs := by decide +kernel
  targetName := by decide +kernel
  libraryPaths := by decide +kernel
  dynamicLibraries := by decide +kernel
  staticLibraries := by decide +kernel
  linker := by decide +kernel
  driverLinker := by decide +kernel

theorem other_ok : other.ok where
  defines := by decide +kernel
  includePaths := by decide +kernel
  common := by decide +kernel
  driver := by decide +kernel
  cxx := by decide +kernel
  installDirs := by decide +kernel
  targetName := by decide +kernel
  libraryPaths := by decide +kernel
  dynamicLibraries := by decide +kernel
  staticLibraries := by decide +kernel
  linker := by decide +kernel
  driverLinker := by decide +kernel

theorem library_ok : library.ok where
  installPrefix := by decide +kernel
  name := by decide +kernel
  description := by decide +kernel
  version := by decide +kernel
  modules := by
    intro m hm
    rcases List.mem_cons.1 hm with rfl | hm
    · exact own_ok
    · rcases List.mem_singleton.1 hm with rfl
      exact other_ok

theorem default_reads : Reads {} "/lib/foo.pc".toList := ⟨by decide, rfl, rfl, rfl⟩

/-- `C126_read_back_partial` applies to it. -/
example : ∃ contents pkg, pcText library = some contents ∧ parsePackage {} "/lib/foo.pc".toList "/lib".toList contents = .ok pkg ∧
    pkg.cflags = [⟨.define, "GREETING=\"hello world\"".toList⟩, ⟨.define, "FOO".toList⟩, ⟨.includePath, "/opt/my lib/include".toList⟩,
      ⟨.includePath, "/opt/my library".toList⟩, ⟨.includePath, "/usr/include/x".toList⟩, ⟨.compilerFlag, "-pthread".toList⟩,
      ⟨.compilerFlag, "-std=c99".toList⟩] ∧
    pkg.libs = [⟨.libraryPath, "/opt/my lib/lib".toList⟩, ⟨.libraryName, "foo".toList⟩, ⟨.linkerFlag, "-pthread".toList⟩,
      ⟨.libraryPath, "/opt/my lib".toList⟩, ⟨.libraryName, "z".toList⟩] := by
  obtain ⟨c, pkg, h1, h2, -, -, -, h3, h4, -⟩ := C126_read_back_partial library_ok default_reads "/lib".toList
  exact ⟨c, pkg, h1, h2, h3, h4⟩

/-- The file -/
example : pcText library = some ("prefix=/opt/my lib\n\nName: Foo\nDescription: A library\nVersion: 1.2\n" ++
    "Cflags: -D\"GREETING=\\\"hello world\\\"\" -DFOO -I\"${prefix}/include\" -I\"/opt/my library\" -I/usr/include/x " ++
    "-pthread -std=c99\n" ++
    "Libs: -L\"${prefix}/lib\" -lfoo -pthread -L\"${prefix}\" -lz\n").toList := by decide +kernel

/-- `C126_required`: an empty version -/
example : pcText { library with version := [] } = none ∧ pcText library ≠ none := by
  rw [Ne, C126_required, C126_required]
  decide

end Verif.PcExport
