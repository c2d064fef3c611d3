import Verif.Soname.Props

/-! # Cases of C135, and findings -/

namespace Verif.Soname

open Spec

/-- A library of a product with version `v`, with the default versions -/
def wLib (f : Format) (suffix v : String) : Product :=
  ⟨"lib".toList, "qbs".toList, [], [], suffix.toList, f, true, defaultInternal (some v.toList),
   defaultSo (defaultInternal (some v.toList))⟩

example : libraryName (wLib .elf ".so" "1.20.3") none = "libqbs.so.1.20.3".toList ∧ soname (wLib .elf ".so" "1.20.3") = "libqbs.so.1".toList ∧
    links (wLib .elf ".so" "1.20.3") =
      [("libqbs.so".toList, "libqbs.so.1.20.3".toList), ("libqbs.so.1".toList, "libqbs.so.1.20.3".toList),
       ("libqbs.so.1.20".toList, "libqbs.so.1.20.3".toList)] := by decide +kernel

example : (wLib .elf ".so" "1.20.3").internal = defaultInternal (some "1.20.3".toList) ∧
    (wLib .elf ".so" "1.20.3").soVersion = defaultSo (wLib .elf ".so" "1.20.3").internal := by decide +kernel

example : libraryName (wLib .macho ".dylib" "7") none = "libqbs.7.0.0.dylib".toList ∧
    soname (wLib .macho ".dylib" "7") = "libqbs.7.0.0.dylib".toList ∧
    (links (wLib .macho ".dylib" "7")).map (·.1) = ["libqbs.dylib".toList, "libqbs.7.dylib".toList, "libqbs.7.0.dylib".toList] := by
  decide +kernel

/-- Versions of all lengths -/
example : defaultInternal (some "7".toList) = "7.0.0".toList ∧ defaultInternal (some "12.34".toList) = "12.34.0".toList ∧
    defaultInternal (some "1.2.3.4.5".toList) = "1.2.3".toList ∧ defaultInternal (some "1.2-rc3".toList) = "1.2.0".toList ∧
    defaultInternal (some "beta".toList) = [] ∧ defaultInternal none = [] := by decide +kernel

/-- A `soVersion` with two parts -/
example : soname { wLib .elf ".so" "1.20.3" with soVersion := "1.20".toList } = "libqbs.so.1.20".toList := by decide +kernel

theorem opens_names {links : List (Str × Str)} {lib n : Str} (h : Opens links lib n) : n = lib ∨ n ∈ links.map (·.1) := by
  cases h with
  | file h => exact Or.inl rfl
  | link n t h hu ht => exact Or.inr (List.mem_map.mpr ⟨_, h, rfl⟩)

/-- **C135 finding.** If `cpp.soVersion` is set to something else, as for libraries whose binary interface has its own version, there is no
file with the soname: programs that were linked to the library cannot be started. -/
theorem C135_own_so_version :
    ∃ p : Product, p.internal = defaultInternal (some "1.20.3".toList) ∧ p.soVersion = "5".toList ∧ p.format = .elf ∧ p.createSymlinks = true ∧
      soname p = "libqbs.so.5".toList ∧ ¬ Opens (links p) (libraryName p none) (soname p) := by
  refine ⟨{ wLib .elf ".so" "1.20.3" with soVersion := "5".toList }, by decide +kernel, rfl, rfl, rfl, by decide +kernel, fun h => ?_⟩
  rcases opens_names h with h | h
  · exact absurd h (by decide +kernel)
  · exact absurd h (by decide +kernel)

/-- **C135 finding.** The same without a version of the product. -/
theorem C135_so_version_only :
    ∃ p : Product, p.internal = defaultInternal none ∧ p.soVersion = "5".toList ∧ p.format = .elf ∧ p.createSymlinks = true ∧
      soname p = "libqbs.so.5".toList ∧ ¬ Opens (links p) (libraryName p none) (soname p) := by
  refine ⟨{ wLib .elf ".so" "" with soVersion := "5".toList }, by decide +kernel, rfl, rfl, rfl, by decide +kernel, fun h => ?_⟩
  rcases opens_names h with h | h
  · exact absurd h (by decide +kernel)
  · exact absurd h (by decide +kernel)

/-- **C135 finding.** If `cpp.internalVersion` is set to a version with fewer parts, which the code that creates links expects, a link has the
name of the library and replaces it, and nothing can be opened. -/
theorem C135_link_replaces_library :
    ∃ p : Product, p.internal = "5".toList ∧ p.format = .elf ∧ p.createSymlinks = true ∧
      (libraryName p none, libraryName p none) ∈ links p ∧ ∀ n, ¬ Opens (links p) (libraryName p none) n := by
  refine ⟨{ wLib .elf ".so" "" with internal := "5".toList }, rfl, rfl, rfl, by decide +kernel, ?_⟩
  intro n h
  induction h with
  | file h => exact h ("libqbs.so.5".toList, "libqbs.so.5".toList) (by decide +kernel) (by decide +kernel)
  | link n t h hu ht ih => exact ih

/-- **C135 finding.** The dot in the expression for versions matches any character: a date gets into the names as a whole, instead of its
first number. -/
theorem C135_any_separator :
    defaultInternal (some "2024-01-15".toList) = "2024-01-15.0.0".toList ∧
    soname (wLib .elf ".so" "2024-01-15") = "libqbs.so.2024-01-15".toList ∧
    libraryName (wLib .elf ".so" "1/2") none = "libqbs.so.1/2.0.0".toList := by decide +kernel

end Verif.Soname
