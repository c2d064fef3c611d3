import Verif.CMakeExport.Props

/-! # The hypotheses of the theorems can be met -/

namespace Verif.CMakeExport

def flags : Cpp where
  libraryPaths := some ["/usr/lib".toList]
  dynamicLibraries := some ["m".toList]
  driverLinkerFlags := some ["-pthread".toList]
  linkerFlags := some ["-z".toList, "defs".toList]
  includePaths := some ["/b/root/usr/include/foo".toList, "/usrlocal/include".toList, "/usr".toList, "/opt/x y".toList]
  defines := some ["FOO=a b".toList]
  cxxFlags := some ["-Wall".toList]

def lib : Product where
  packageName := "Foo".toList
  buildDirectory := "/b".toList
  sourceDirectory := "/home/proj".toList
  installRoot := "/b/root".toList
  installPrefix := "/usr".toList
  relativePrefix := "../../..".toList
  type := ["dynamiclibrary".toList]
  dynamicLibrary := [none, some "/b/root/usr/lib/libfoo.so".toList]
  dynamicLibraryImport := [none, some "/b/root/usr/lib/libfoo.lib".toList]
  buildVariant := some "debug".toList
  cpp := some flags
  packages := ["Bar".toList]

def dirTest (d : Text) : Bool := d.head? = some '/' && d.getLast? ≠ some '/' && (d.zip d.tail).all (fun x => x ≠ ('/', '/'))

theorem directory {d : Text} (h : dirTest d = true) : Directory d := by
  simp only [dirTest, Bool.and_eq_true, decide_eq_true_eq, List.all_eq_true] at h
  refine ⟨h.1.1, h.1.2, fun a b e => ?_⟩
  have : ('/', '/') ∈ d.zip d.tail := by
    rw [e]
    clear e h
    induction a with
    | nil => simp
    | cons c a ih =>
      cases a with
      | nil => simp
      | cons d a => exact List.mem_cons_of_mem _ ih
  exact h.2 _ this rfl

instance (v : Text) : Decidable (Plain v) := inferInstanceAs (Decidable (_ ∧ _))
instance (v : Text) : Decidable (Word v) := inferInstanceAs (Decidable (_ ∧ _))
instance (p : Product) (v : Text) : Decidable (Exportable p v) := inferInstanceAs (Decidable (_ ∧ _))

/-- A library with all kinds of properties -/
theorem lib_ok : lib.ok flags where
  name := by decide +kernel
  variable_ := by decide +kernel
  configuration := by
    intro v hv
    cases hv with
    | variant h _ =>
      cases h
      decide +kernel
    | empty h => cases h
    | none h => cases h
  packages := by decide +kernel
  root := directory (by decide +kernel)
  pre := directory (by decide +kernel)
  separate := by decide +kernel
  relative := by decide +kernel
  paths := by
    have all : ∀ v ∈ ["/usr/lib".toList, "/b/root/usr/include/foo".toList, "/usrlocal/include".toList, "/usr".toList, "/opt/x y".toList, "m".toList,
        "/b/root/usr/lib/libfoo.so".toList, "/b/root/usr/lib/libfoo.lib".toList], Exportable lib v := by decide +kernel
    rintro v (⟨l, hl, h⟩ | ⟨l, hl, h⟩ | ⟨l, hl, h⟩ | ⟨l, hl, h⟩ | ⟨l, hl, h⟩ | h | h | h)
    · cases hl; exact all v (by simp only [List.mem_cons, List.not_mem_nil, or_false] at h ⊢; grind)
    · cases hl; exact all v (by simp only [List.mem_cons, List.not_mem_nil, or_false] at h ⊢; grind)
    · cases hl; exact all v (by simp only [List.mem_cons, List.not_mem_nil, or_false] at h ⊢; grind)
    · cases hl
    · cases hl
    · simp only [lib, List.mem_cons, List.not_mem_nil, or_false, reduceCtorEq, false_or, Option.some.injEq] at h
      exact all v (by simp only [List.mem_cons, List.not_mem_nil, or_false]; grind)
    · simp only [lib, List.mem_cons, List.not_mem_nil, or_false, reduceCtorEq, false_or, Option.some.injEq] at h
      exact all v (by simp only [List.mem_cons, List.not_mem_nil, or_false]; grind)
    · cases h
  flags := by
    have all : ∀ v ∈ ["-pthread".toList, "-z".toList, "defs".toList, "FOO=a b".toList, "-Wall".toList], Plain v := by decide +kernel
    rintro v (⟨l, hl, h⟩ | ⟨l, hl, h⟩ | ⟨l, hl, h⟩ | ⟨l, hl, h⟩ | ⟨l, hl, h⟩ | ⟨l, hl, h⟩ | ⟨l, hl, h⟩) <;> cases hl <;>
      exact all v (by simp only [List.mem_cons, List.not_mem_nil, or_false] at h ⊢; grind)

theorem lib_library : Library lib "SHARED".toList (some "/b/root/usr/lib/libfoo.so".toList) (some "/b/root/usr/lib/libfoo.lib".toList) :=
  Library.shared (i := 1) (by decide +kernel) rfl (fun j hj => by
    have : j = 0 := by omega
    subst this
    rfl)

example (e : Env) (h : "Foo".toList ∉ e.targets) (he : ∀ q, e.sets q = []) :
    ∃ text r, configFile lib = some text ∧ load e "/x".toList text = some r ∧ r.packages = ["Bar".toList] ∧
      ∃ t, r.target = some t ∧ t.includeDirectories =
        ["/x/../../../include/foo".toList, "/usrlocal/include".toList, "/x/../../..".toList, "/opt/x y".toList] ∧
        t.linkOptions = ["-pthread".toList, "LINKER:-z,defs".toList] ∧ t.linkLibraries = ["m".toList, "Bar".toList] := by
  obtain ⟨text, r, h1, h2, h3, h4⟩ := C131_read_back_partial rfl lib_ok lib_library (.variant rfl (by decide)) .some
    (dir := "/x".toList) (by decide) h (by simp [he])
  exact ⟨text, r, h1, h2, h3, _, h4, by decide +kernel, by decide +kernel, by decide +kernel⟩

example : ∃ text r, configFile lib = some text ∧ load ⟨["Foo".toList], fun _ => []⟩ "/x".toList text = some r ∧ r.target = none := by
  obtain ⟨text, r, h1, h2, h3, _⟩ := C131_again rfl lib_ok lib_library (.variant rfl (by decide)) "/x".toList
    (e := ⟨["Foo".toList], fun _ => []⟩) (by decide)
  exact ⟨text, r, h1, h2, h3⟩

example : configFile (small { includePaths := some ["/home/proj/include".toList] }) = none :=
  C131_inside rfl (v := "/home/proj/include".toList) (.inl (by decide)) (.inr (by decide +kernel)) (by decide +kernel)

example : used [] ["-O2".toList, "-g".toList] = ["-O2".toList, "-g".toList] := C131_options (by decide)
example : configFile { small {} with cpp := none } = none := C131_no_cpp rfl
example : accepts (versionFile "1.2".toList) = some false := (C131_version (by decide)).1
/-- The reader accepts versions if a file says so. -/
example : accepts "set(PACKAGE_VERSION_COMPATIBLE TRUE)\n".toList = some true := by decide +kernel

end Verif.CMakeExport
