import Verif.Pc.PackProps
import Verif.Pc.Witness

/-! # Examples and findings for packages -/

namespace Verif.Pc

/-- The hypotheses of `C72_libs` -/
example : (∀ a ∈ ["-L/usr/lib".toList, "-lfoo".toList, "-framework".toList, "Cocoa".toList, "libx.a".toList, "-Wl,-x".toList,
      "-F/f".toList, "-framework".toList], Plain a) ∧
    parseLibs ["-L/usr/lib".toList, "-lfoo".toList, "-framework".toList, "Cocoa".toList, "libx.a".toList, "-Wl,-x".toList,
      "-F/f".toList, "-framework".toList] =
      [⟨.libraryPath, "/usr/lib".toList⟩, ⟨.libraryName, "foo".toList⟩, ⟨.framework, "Cocoa".toList⟩, ⟨.staticLibraryName, "libx.a".toList⟩,
       ⟨.linkerFlag, "-Wl,-x".toList⟩, ⟨.frameworkPath, "/f".toList⟩, ⟨.linkerFlag, "-framework".toList⟩] := by
  unfold Plain; decide +kernel

/-- The hypotheses of `C72_cflags` -/
example : (∀ a ∈ ["-I/i".toList, "-DX".toList, "-isystem".toList, "/s".toList, "-idirafter".toList, "/d".toList, "-pthread".toList], Plain a) ∧
    parseCFlags ["-I/i".toList, "-DX".toList, "-isystem".toList, "/s".toList, "-idirafter".toList, "/d".toList, "-pthread".toList] =
      [⟨.includePath, "/i".toList⟩, ⟨.define, "X".toList⟩, ⟨.systemIncludePath, "/s".toList⟩, ⟨.dirAfterIncludePath, "/d".toList⟩,
       ⟨.compilerFlag, "-pthread".toList⟩] := by
  unfold Plain; decide +kernel

/-- A file from its text to its flags -/
example : (load { sysroot := "/root".toList, systemLibraryPaths := ["/usr/lib".toList] }
      ⟨"/p/foo.pc".toList, "/p".toList, exampleFile⟩).package.map (fun p => (p.libs, p.cflags)) =
    .ok ([⟨.libraryName, "foo".toList⟩], [⟨.includePath, "/root/usr/include".toList⟩, ⟨.define, "X=a b".toList⟩]) := by decide +kernel

/-- The hypotheses of `C72_found` -/
example : SortedAs (found {} [⟨"/p/b.pc".toList, "/p".toList, []⟩, ⟨"/p/a.pc".toList, "/p".toList, "x=1\nx=2".toList⟩])
      [load {} ⟨"/p/a.pc".toList, "/p".toList, "x=1\nx=2".toList⟩, load {} ⟨"/p/b.pc".toList, "/p".toList, []⟩] := by
  refine ⟨List.Perm.swap _ _ _, ?_⟩
  simp only [List.pairwise_cons, List.mem_cons, List.not_mem_nil, or_false, forall_eq, List.Pairwise.nil, and_true, false_imp_iff, implies_true]
  decide +kernel

/-- The hypotheses of `C73_versions_partial` -/
example : Dotted "1.20".toList ⟨1, 20, 0, 0⟩ ∧
    acceptsVersion ⟨"a".toList, .greaterThan, "1.20".toList⟩ "1.20.1".toList = true ∧
    acceptsVersion ⟨"a".toList, .greaterThan, "1.20".toList⟩ "1.20.0".toList = false ∧
    acceptsVersion ⟨"a".toList, .lessThanEqual, "1.20".toList⟩ "1.20".toList = true ∧
    acceptsVersion ⟨"a".toList, .lessThan, "1.20".toList⟩ "1.20".toList = false ∧
    acceptsVersion ⟨"a".toList, .greaterThanEqual, "1.20".toList⟩ "1.3".toList = false := by
  refine ⟨Dotted.two "1".toList "20".toList ⟨by decide, by decide, by decide⟩ ⟨by decide, by decide, by decide⟩, ?_⟩
  decide +kernel

/-- **C72 finding.** The sysroot is not put in front of a path that begins with the same characters without being below it. -/
theorem C72_no_boundary :
    appendRoot "/opt/s".toList ⟨.includePath, "/opt/sdk/include".toList⟩ = ⟨.includePath, "/opt/sdk/include".toList⟩ := by decide +kernel

/-- **C72 finding.** An option in two arguments, which compilers understand, becomes an empty path and another flag. -/
theorem C72_two_arguments :
    parseCFlags ["-I".toList, "/i".toList] = [⟨.includePath, []⟩, ⟨.compilerFlag, "/i".toList⟩] ∧
    parseLibs ["-L".toList, "/l".toList] = [⟨.libraryPath, []⟩, ⟨.linkerFlag, "/l".toList⟩] := by decide +kernel

/-- **C72 finding.** The paths of system libraries are removed before the sysroot is put in front of them, and only if they are written
in exactly the same way. -/
theorem C72_same_path :
    (removeSystemPaths ["/usr/lib".toList] { libs := [⟨.libraryPath, "/usr/lib/".toList⟩] }).libs =
      [⟨.libraryPath, "/usr/lib/".toList⟩] := by decide +kernel

/-- **C72 finding.** Of two packages with the same name, scripts see the last one. If sorting leaves them in the order in which they
were found, then that is the one in the directory that is searched last: extra paths do not come first. The C++ function gets the
other one. -/
theorem C72_last_directory :
    let extra : PcFile := ⟨"/extra/a.pc".toList, "/extra".toList, "Version: 2".toList⟩
    let usual : PcFile := ⟨"/usr/lib/pkgconfig/a.pc".toList, "/usr/lib/pkgconfig".toList, "Version: 1".toList⟩
    let l := found {} [extra, usual]
    SortedAs l l ∧ (jsPackage l "a".toList).map (fun f => f.package.map (·.version)) = some (.ok "1".toList) ∧
      (getPackage l "a".toList).map (fun f => f.package.map (·.version)) = some (.ok "2".toList) := by
  refine ⟨⟨List.Perm.refl _, ?_⟩, by decide +kernel, by decide +kernel⟩
  simp only [found, List.map, List.pairwise_cons, List.mem_cons, List.not_mem_nil, or_false, forall_eq, List.Pairwise.nil, and_true,
    false_imp_iff, implies_true]
  decide +kernel

/-- **C72 finding.** And which one it is depends on how the packages are sorted. -/
theorem C72_sorting_matters :
    ∃ (files : List PcFile) (s1 s2 : List Found), SortedAs (found {} files) s1 ∧ SortedAs (found {} files) s2 ∧
      (getPackage s1 "a".toList).map (fun f => f.package.map (·.version)) ≠ (getPackage s2 "a".toList).map (fun f => f.package.map (·.version)) := by
  refine ⟨[⟨"/e/a.pc".toList, "/e".toList, "Version: 2".toList⟩, ⟨"/u/a.pc".toList, "/u".toList, "Version: 1".toList⟩],
    [load {} ⟨"/e/a.pc".toList, "/e".toList, "Version: 2".toList⟩, load {} ⟨"/u/a.pc".toList, "/u".toList, "Version: 1".toList⟩],
    [load {} ⟨"/u/a.pc".toList, "/u".toList, "Version: 1".toList⟩, load {} ⟨"/e/a.pc".toList, "/e".toList, "Version: 2".toList⟩],
    ⟨List.Perm.refl _, ?_⟩, ⟨List.Perm.swap _ _ _, ?_⟩, by decide +kernel⟩ <;>
  · simp only [List.pairwise_cons, List.mem_cons, List.not_mem_nil, or_false, forall_eq, List.Pairwise.nil, and_true,
      false_imp_iff, implies_true]
    decide +kernel

/-- **C73 finding.** Versions with letters or more than three numbers count as 0: a package with version 1.1.1f is not accepted by one
that requires at least 1.1. If they are what is required, then at least 1.1.1f allows everything, at most 1.1.1f nothing but 0, and
more than 9.9.9f everything from 0.0.1. -/
theorem C73_other_versions :
    acceptsVersion ⟨"a".toList, .greaterThanEqual, "1.1".toList⟩ "1.1.1f".toList = false ∧
    acceptsVersion ⟨"a".toList, .greaterThanEqual, "9.9.9f".toList⟩ "1".toList = true ∧
    acceptsVersion ⟨"a".toList, .lessThanEqual, "1.1.1f".toList⟩ "1.0".toList = false ∧
    acceptsVersion ⟨"a".toList, .greaterThan, "9.9.9f".toList⟩ "1".toList = true ∧
    acceptsVersion ⟨"a".toList, .greaterThanEqual, "1.2.3.4".toList⟩ "1".toList = true := by decide +kernel

/-- **C73 finding.** A requirement "< 0" allows everything. -/
theorem C73_less_than_zero : acceptsVersion ⟨"a".toList, .lessThan, "0".toList⟩ "1".toList = true := by decide +kernel

end Verif.Pc
