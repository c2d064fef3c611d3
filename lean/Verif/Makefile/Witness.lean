import Verif.Makefile.Props
/-!
# Examples and findings for C103, C104
-/
namespace Verif.Makefile.Witness

open Verif.Makefile Verif.Makefile.Spec

def lib : Artifact := { path := "/b/lib.1/libx.so".toList, installDir := "/r/usr/lib".toList }

def obj : Artifact := { path := "/b/lib.1/my file.o".toList }

/-- A library from one source file with a space in its name. -/
def product : Product where
  name := "the-lib".toList
  targets := [lib]
  transformers := [
    { inputs := [{ path := "/s/my file.c".toList, generated := false }]
      output := obj
      more := [{ path := "/b/lib.1/dep/my file.d".toList }]
      commands := [.process "/usr/bin/cc".toList ["-DX=\"it's $5\"".toList, "-I/s/inc".toList, "-c".toList, "/s/my file.c".toList,
        "-o".toList, "/b/lib.1/my file.o".toList], .js] },
    { inputs := [obj], output := lib
      commands := [.process "/usr/bin/cc".toList ["-shared".toList, "/b/lib.1/my file.o".toList, "-o".toList, "/b/lib.1/libx.so".toList]] }]
  installables := [lib]
  generated := [obj, lib]

def project : Project where
  srcDir := "/s".toList
  buildDir := "/b".toList
  installRoot := "/r".toList
  products := [product]

/-! Programs that check the hypotheses. -/

def chkDir (d : Str) : Bool := d.head? = some '/' && d.all (fun c => decide (plainChar c))

def chkName (s : Str) : Bool := s ≠ [] && '$' ∉ s && s.all (fun c => decide (c ∉ nameSpecial))

def chkText (s : Str) : Bool :=
  '\n' ∉ s && (List.range (s.length + 1)).all fun i => !("$(SRCDIR)".toList.isPrefixOf (s.drop i)) &&
    !("$(BUILD_ROOT)".toList.isPrefixOf (s.drop i)) && !("$(INSTALL_ROOT)".toList.isPrefixOf (s.drop i))

def chkFile (s : Str) : Bool :=
  s = dirOf s ++ '/' :: nameOf s && '/' ∉ nameOf s && chkDir (dirOf s) && chkText (nameOf s) && nameOf s ≠ []

theorem chkDir_ok {d : Str} (h : chkDir d = true) : PlainDir d := by
  simp only [chkDir, Bool.and_eq_true, decide_eq_true_eq, List.all_eq_true] at h
  exact h

theorem chkName_ok {s : Str} (h : chkName s = true) : PlainName s := by
  simp only [chkName, Bool.and_eq_true, decide_eq_true_eq, List.all_eq_true] at h
  exact ⟨h.1.1, h.1.2, h.2⟩

theorem chkText_ok {s : Str} (h : chkText s = true) : PlainText s := by
  simp only [chkText, Bool.and_eq_true, decide_eq_true_eq, List.all_eq_true, Bool.not_eq_true', List.mem_range] at h
  have key : ∀ w : Str, w <:+: s → ∃ i, i < s.length + 1 ∧ w.isPrefixOf (s.drop i) = true := by
    rintro w ⟨a, b, rfl⟩
    refine ⟨a.length, by simp; omega, ?_⟩
    rw [List.isPrefixOf_iff_prefix, List.append_assoc, List.drop_left]
    exact List.prefix_append w b
  refine ⟨h.1, fun hh => ?_, fun hh => ?_, fun hh => ?_⟩
  · obtain ⟨i, hi, e⟩ := key _ hh; have := (h.2 i hi).1.1; rw [e] at this; exact absurd this (by decide)
  · obtain ⟨i, hi, e⟩ := key _ hh; have := (h.2 i hi).1.2; rw [e] at this; exact absurd this (by decide)
  · obtain ⟨i, hi, e⟩ := key _ hh; have := (h.2 i hi).2; rw [e] at this; exact absurd this (by decide)

theorem chkFile_ok {s : Str} (h : chkFile s = true) : PlainFile s := by
  simp only [chkFile, Bool.and_eq_true, decide_eq_true_eq] at h
  exact ⟨dirOf s, nameOf s, h.1.1.1.1, h.1.1.1.2, chkDir_ok h.1.1.2, chkText_ok h.1.2, h.2⟩

/-- The hypotheses of C103 and C104 hold for it. -/
theorem project_plain : Plain project where
  srcDir := chkDir_ok (by decide +kernel)
  buildDir := chkDir_ok (by decide +kernel)
  installRoot := .inr (chkDir_ok (by decide +kernel))
  products := by
    intro d hd
    rw [List.mem_singleton.mp hd]
    exact {
      name := by decide
      multiplexId := by decide
      targets := fun a ha => chkName_ok (List.all_eq_true.mp
        (show (product.targets.all fun a => chkName a.path) = true by decide +kernel) a ha)
      transformers := fun t ht => {
        inputs := fun a ha => chkName_ok (List.all_eq_true.mp (List.all_eq_true.mp
          (show (product.transformers.all fun t => t.inputs.all fun a => chkName a.path) = true by decide +kernel) t ht) a ha)
        outputs := fun a ha => ⟨
          chkName_ok (List.all_eq_true.mp (List.all_eq_true.mp
            (show (product.transformers.all fun t => (t.output :: t.more).all fun a => chkName a.path) = true by decide +kernel) t ht) a ha),
          chkFile_ok (List.all_eq_true.mp (List.all_eq_true.mp
            (show (product.transformers.all fun t => (t.output :: t.more).all fun a => chkFile a.path) = true by decide +kernel) t ht) a ha)⟩
        commands := by
          intro c hc
          cases c with
          | js => trivial
          | process exe args wd env =>
            have h := List.all_eq_true.mp (List.all_eq_true.mp
              (show (product.transformers.all fun t => t.commands.all fun c => match c with
                | .js => true
                | .process exe args _ _ => exe.head? = some '/' && chkText exe && args.all chkText) = true by decide +kernel) t ht) _ hc
            simp only [Bool.and_eq_true, decide_eq_true_eq] at h
            obtain ⟨⟨h1, h2⟩, h3⟩ := h
            exact ⟨by rw [h1]; decide, by rw [h1]; decide, by rw [h1]; decide, chkText_ok h2,
              fun a ha => chkText_ok (List.all_eq_true.mp h3 a ha)⟩ }
      installables := fun a ha => ⟨
        chkFile_ok (List.all_eq_true.mp (show (product.installables.all fun a => chkFile a.path) = true by decide +kernel) a ha),
        .inr (chkDir_ok (List.all_eq_true.mp (show (product.installables.all fun a => chkDir a.installDir) = true by decide +kernel) a ha))⟩
      generated := fun a ha =>
        chkFile_ok (List.all_eq_true.mp (show (product.generated.all fun a => chkFile a.path) = true by decide +kernel) a ha) }

/-- What make reads. -/
example : (generate project).bind rules = some [
    ⟨"all".toList, [], []⟩,
    ⟨"the_lib".toList, ["/b/lib.1/libx.so".toList], []⟩,
    ⟨"/b/lib.1/my file.o".toList, ["/s/my file.c".toList],
      [["mkdir".toList, "-p".toList, "/b/lib.1".toList], ["mkdir".toList, "-p".toList, "/b/lib.1/dep".toList],
       ["/usr/bin/cc".toList, "-DX=\"it's $5\"".toList, "-I/s/inc".toList, "-c".toList, "/s/my file.c".toList,
        "-o".toList, "/b/lib.1/my file.o".toList]]⟩,
    ⟨"/b/lib.1/dep/my file.d".toList, ["/b/lib.1/my file.o".toList], []⟩,
    ⟨"/b/lib.1/libx.so".toList, ["/b/lib.1/my file.o".toList],
      [["mkdir".toList, "-p".toList, "/b/lib.1".toList],
       ["/usr/bin/cc".toList, "-shared".toList, "/b/lib.1/my file.o".toList, "-o".toList, "/b/lib.1/libx.so".toList]]⟩,
    ⟨"install-the_lib".toList, ["the_lib".toList],
      [["mkdir".toList, "-p".toList, "/r/usr/lib".toList],
       ["install".toList, "-m".toList, "644".toList, "-p".toList, "/b/lib.1/libx.so".toList, "/r/usr/lib".toList]]⟩,
    ⟨"clean-the_lib".toList, [], [["rm".toList, "-f".toList, "/b/lib.1/my file.o".toList], ["rm".toList, "-f".toList, "/b/lib.1/libx.so".toList]]⟩,
    ⟨"all".toList, ["the_lib".toList], []⟩,
    ⟨"install".toList, ["install-the_lib".toList], []⟩,
    ⟨"clean".toList, ["clean-the_lib".toList], []⟩] := by decide +kernel

/-! ### Findings -/

/-- A project with one product that runs one command. -/
def one (exe : Str) (args : List Str) : Project where
  srcDir := "/s".toList
  buildDir := "/b".toList
  products := [{ name := "x".toList, targets := [], generated := []
                 transformers := [{ inputs := [], output := { path := "/b/o".toList }, commands := [.process exe args] }] }]

/-- The commands that make would run for all targets. -/
def commands (p : Project) : Option (List (List Str)) :=
  ((generate p).bind rules).map fun rs => rs.flatMap (·.recipe)

/-- A usual command. -/
example : replacePrefix "/b/x y".toList "/b".toList "BUILD_ROOT".toList = "$(BUILD_ROOT)/x y".toList ∧
    replacePrefix "/bb/x".toList "/b".toList "BUILD_ROOT".toList = "/bb/x".toList := by decide +kernel

example : (∀ c ∈ "the_lib.2".toList, wordChar c) := by
  unfold wordChar; decide +kernel

example : commands (one "/bin/t".toList ["a b".toList, "$x".toList]) =
    some [["mkdir".toList, "-p".toList, "/b".toList], ["/bin/t".toList, "a b".toList, "$x".toList]] := by decide +kernel

/-- **C103 finding.**  An argument that contains the text `$(SRCDIR)` is changed: the dollar sign is
written once, and make puts the source directory in its place. -/
theorem C103_reference :
    commands (one "/bin/t".toList ["$(SRCDIR)".toList]) =
      some [["mkdir".toList, "-p".toList, "/b".toList], ["/bin/t".toList, "/s".toList]] := by decide +kernel

/-- **C103 finding.**  A line break in an argument, for example in a script given to `sh -c`, ends the
command: the rest is a line of the Makefile. -/
theorem C103_line_break : commands (one "/bin/sh".toList ["-c".toList, "a\nb".toList]) = none := by decide +kernel

/-- **C103 finding.**  A program whose name begins with a dash, a plus or an at sign: make takes this
character away. -/
theorem C103_prefix : commandLine? (one [] []) (.process "-t".toList ["x".toList]) = some "\t-t x".toList ∧
    recipeLine [] "-t x".toList = none := by decide +kernel

/-- **C103 finding.**  The working directory and the environment of a command are lost. -/
theorem C103_where (p : Project) (exe : Str) (args : List Str) (wd : Str) (env : List (Str × Str)) :
    commandLine? p (.process exe args wd env) = commandLine? p (.process exe args [] []) := rfl

/-- **C103 finding.**  JavaScript commands are left out, although files may depend on them: make comes
to the end of the rule, and the file is not there. -/
theorem C103_js (p : Project) (t : Transformer) (h : t.commands = [.js]) (hm : t.more = []) :
    transformerLines p t = [outputPath p t.output ++ ":".toList ++ spaced (t.inputs.map (artifactPath p)),
      mkdirLine (inBuild p (dirOf t.output.path))] := by
  simp [transformerLines, h, hm, commandLine?, chain, onceEach]

/-- The same product in a directory with a space, such as an application bundle. -/
def bundle : Project where
  srcDir := "/s".toList
  buildDir := "/b".toList
  products := [{ name := "x".toList, targets := [], transformers := []
                 generated := [{ path := "/b/My App.app/x".toList }] }]

/-- **C103 finding.**  Directories of files are not quoted in the commands that make directories, install
and remove files.  To clean up, `make` would remove the two files `/b/My` and `App.app/x` instead of
`/b/My App.app/x`. -/
theorem C103_clean_other_files :
    commands bundle = some [["rm".toList, "-f".toList, "/b/My".toList, "App.app/x".toList]] := by decide +kernel

/-- **C103 finding.**  A quote in the source directory breaks the quoting of the arguments in which the
variable has taken its place. -/
theorem C103_quote_in_directory :
    commandLine? { one [] [] with srcDir := "/s'".toList } (.process "/usr/t".toList ["/s'/x y".toList]) =
      some "\t/usr/t '$(SRCDIR)/x y'".toList ∧
    recipeLine [("SRCDIR".toList, "/s'".toList)] "/usr/t '$(SRCDIR)/x y'".toList = none := by decide +kernel

/-- **C103 finding.**  Dollar signs in the names of files are not doubled in targets and prerequisites. -/
theorem C103_dollar_in_name :
    outputPath (one [] []) { path := "/b/$x.o".toList } = "$(BUILD_ROOT)/$x.o".toList ∧
    ruleLine [("BUILD_ROOT".toList, "/b".toList)] "$(BUILD_ROOT)/$x.o:".toList = none := by decide +kernel

/-- **C103 finding.**  Files that go to a directory with a space in its name are not installed. -/
theorem C103_not_installed (p : Project) (a : Artifact) (h : ' ' ∈ a.installDir) : installLines p [] [a] = [] := by
  simp [installLines, h]

/-- **C104 finding.**  Two products can have the same target: making one then also makes the other, and
there are two recipes for the same targets of installation and cleaning, of which make only takes the
last. -/
theorem C104_same_target (t : List Artifact) (l : List Transformer) (g : List Artifact) :
    productTarget ⟨"a-b".toList, [], true, t, l, [], g⟩ = productTarget ⟨"a_b".toList, [], true, t, l, [], g⟩ := by
  with_unfolding_all rfl

/-- **C104 finding.**  The same for a product in a certain configuration and another one that has this
in its name. -/
theorem C104_same_target_configuration (t : List Artifact) (l : List Transformer) (g : List Artifact) :
    productTarget ⟨"a".toList, "1f".toList, true, t, l, [], g⟩ = productTarget ⟨"a_1f".toList, [], true, t, l, [], g⟩ := by
  with_unfolding_all rfl

/-- **C104 finding.**  A product with the name `clean` is built when cleaning up. -/
theorem C104_product_clean (t : List Artifact) (l : List Transformer) (g : List Artifact) :
    productTarget ⟨"clean".toList, [], true, t, l, [], g⟩ = "clean".toList := by
  with_unfolding_all rfl

end Verif.Makefile.Witness
