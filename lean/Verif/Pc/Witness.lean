import Verif.Pc.Props

/-! # Examples and findings for .pc files -/

namespace Verif.Pc

deriving instance DecidableEq for Except

/-! ## Lines and arguments -/

example : fileLines "a=1 # one\r\nb=2\\\n3\n\nLibs: -l\\#x \\y\\".toList =
    ["a=1 ".toList, "b=23".toList, [], "Libs: -l#x \\y\\".toList] := by decide +kernel

/-- The hypotheses of `C71_lines` -/
example : (⟨[.plain 'a', .continued, .hash, .escaped 'n'], some "rest".toList⟩ : Line).ok ∧
    fileText [⟨[.plain 'a', .continued, .hash, .escaped 'n'], some "rest".toList⟩] ⟨[.plain 'b'], none⟩ true =
      "a\\\n\\#\\n#rest\nb\\".toList := by
  refine ⟨⟨?_, ?_⟩, by decide +kernel⟩
  · intro p hp
    simp only [List.mem_cons, List.not_mem_nil, or_false] at hp
    rcases hp with rfl | rfl | rfl | rfl <;> simp [LinePart.ok]
  · intro t ht
    cases ht
    exact ⟨by decide, by decide⟩

/-- The hypotheses of `C71_substitution` -/
example : okParts [.lit '$', .lit 'a', .dollar, .lit '{', .var "v".toList, .lit '/'] ∧
    subst (fun n => if n = "v".toList then some "/usr".toList else none) none "$a$${${v}/".toList = .ok "$a${/usr/".toList := by
  refine ⟨?_, by decide +kernel⟩
  simp only [okParts, and_true]
  refine ⟨?_, fun h => absurd h (by decide), fun h => absurd h (by decide), by decide, fun h => absurd h (by decide)⟩
  intro _ d s h
  cases h
  exact ⟨by decide, by decide⟩

example : subst (fun _ => none) none "a${b".toList = .error .missingBrace ∧
    subst (fun _ => none) none "${b}".toList = .error (.undefinedVariable "b".toList) := by decide +kernel

example : split " -DA=\"x y\" '-I/a b'\\ c -l\"q\\\"\\n\"".toList =
    some ["-DA=x y".toList, "-I/a b c".toList, "-lq\"\\n".toList] ∧ split "a\\".toList = none := by decide +kernel

/-- The hypotheses of `C71_arguments` -/
example : (⟨[.plain 'a', .escaped ' ', .quoted '"' [.plain 'x', .quote, .escaped 'n']], [' ']⟩ : Arg).ok ∧
    (Arg.text ⟨[.plain 'a', .escaped ' ', .quoted '"' [.plain 'x', .quote, .escaped 'n']], [' ']⟩) = "a\\ \"x\\\"\\n\" ".toList := by
  refine ⟨⟨?_, by decide, by decide⟩, by decide +kernel⟩
  intro p hp
  simp only [List.mem_cons, List.not_mem_nil, or_false] at hp
  rcases hp with rfl | rfl | rfl
  · exact ⟨by decide, by decide, by decide, by decide, by decide⟩
  · trivial
  · refine ⟨.inl rfl, ?_⟩
    intro x hx
    simp only [List.mem_cons, List.not_mem_nil, or_false] at hx
    rcases hx with rfl | rfl | rfl
    · exact ⟨by decide, by decide⟩
    · trivial
    · show 'n' ≠ '"'; decide

example : parseModuleList "glib-2.0 >= 2.10, zlib ,x != 3".toList =
    .ok [⟨"glib-2.0".toList, .greaterThanEqual, "2.10".toList⟩, ⟨"zlib".toList, .alwaysMatch, []⟩, ⟨"x".toList, .notEqual, "3".toList⟩] := by
  decide +kernel

/-- The hypotheses of `C71_requires` -/
example : okEntries [⟨"a".toList, some ([' '], .lessThan, [' '], "2".toList), [',', ' ']⟩, ⟨"b".toList, none, []⟩] := by
  refine ⟨⟨⟨'a', [], rfl, by decide⟩, by decide, ?_⟩, by decide, by decide, ⟨⟨'b', [], rfl, by decide⟩, by decide, by simp⟩, rfl⟩
  intro b1 op b2 v h
  simp only [Option.some.injEq, Prod.mk.injEq] at h
  obtain ⟨rfl, rfl, rfl, rfl⟩ := h
  exact ⟨by decide, by decide, by decide, by decide, by decide, by decide, by decide⟩

/-! ## Files -/

def exampleFile : Text :=
  ("# A library\r\nprefix = /usr\nlibdir=${prefix}/lib\n\nName: Foo\nVersion: 1.2.3\nRequires: bar >= 2, \\\n  baz\n" ++
   "Libs: -L${libdir} -lfoo\nCflags: -I${prefix}/include \"-DX=a b\"\nOther line\n").toList

def examplePackage : Package :=
  { filePath := "/opt/lib/pkgconfig/foo.pc".toList, baseFileName := "foo".toList, name := "Foo".toList, version := "1.2.3".toList,
    requiresPublic := [⟨"bar".toList, .greaterThanEqual, "2".toList⟩, ⟨"baz".toList, .alwaysMatch, []⟩],
    libs := [⟨.libraryPath, "/usr/lib".toList⟩, ⟨.libraryName, "foo".toList⟩],
    cflags := [⟨.includePath, "/usr/include".toList⟩, ⟨.define, "X=a b".toList⟩],
    variables := [("pcfiledir".toList, "/opt/lib/pkgconfig".toList), ("prefix".toList, "/usr".toList), ("libdir".toList, "/usr/lib".toList)] }

/-- The hypotheses of the theorems on files -/
example : parsePackage {} "/opt/lib/pkgconfig/foo.pc".toList "/opt/lib/pkgconfig".toList exampleFile = .ok examplePackage := by
  decide +kernel

example : Says "prefix = /usr".toList "prefix".toList '=' "/usr".toList ∧ "prefix = /usr".toList ∈ fileLines exampleFile ∧
    fileLines exampleFile = [[], "prefix = /usr".toList] ++ "libdir=${prefix}/lib".toList :: (fileLines exampleFile).drop 3 ∧
    Says "libdir=${prefix}/lib".toList "libdir".toList '=' "${prefix}/lib".toList ∧
    Says "Name: Foo".toList "Name".toList ':' "Foo".toList := by
  refine ⟨⟨[], [' '], [' '], [], by decide +kernel, by decide, by decide, by decide, by decide, by decide, .inr rfl, ?_, ?_⟩,
    by decide +kernel, by decide +kernel,
    ⟨[], [], [], [], by decide +kernel, by decide, by decide, by decide, by decide, by decide, .inr rfl, ?_, ?_⟩,
    ⟨[], [], [' '], [], by decide +kernel, by decide, by decide, by decide, by decide, by decide, .inl rfl, ?_, ?_⟩⟩
  · intro x l h
    have : x = '/' := by
      have := congrArg List.head? h
      simpa using this.symm
    subst this; decide
  · intro x l h
    have : x = 'r' := by
      have := congrArg List.getLast? h
      simpa using this.symm
    subst this; decide
  · intro x l h
    have : x = '$' := by
      have := congrArg List.head? h
      simpa using this.symm
    subst this; decide
  · intro x l h
    have : x = 'b' := by
      have := congrArg List.getLast? h
      simpa using this.symm
    subst this; decide
  · intro x l h
    have : x = 'F' := by
      have := congrArg List.head? h
      simpa using this.symm
    subst this; decide
  · intro x l h
    have : x = 'o' := by
      have := congrArg List.getLast? h
      simpa using this.symm
    subst this; decide

/-- With a new prefix -/
example : (parsePackage { definePrefix := true } "/opt/lib/pkgconfig/foo.pc".toList "/opt/lib/pkgconfig".toList
      "prefix=/usr\nlibdir=/usr/lib\ndatadir=${prefix}/share\nother=/usr2\n".toList).map (·.variables) =
    .ok [("pcfiledir".toList, "/opt/lib/pkgconfig".toList), ("prefix".toList, "/opt".toList), ("libdir".toList, "/opt/lib".toList),
      ("datadir".toList, "/opt/share".toList), ("other".toList, "/usr2".toList)] := by decide +kernel

/-- Where variables come from -/
example :
    let o : Options := { globals := [("v".toList, "g".toList), ("w".toList, "h".toList)], system := [("PKG_CONFIG_FOO_V".toList, "e".toList)] }
    (parsePackage o "foo.pc".toList "/".toList "v=1\nw=2\nu=3\nx=${v}${w}${u}".toList).map (fun p => look "x".toList p.variables) =
      .ok (some "eh3".toList) := by decide +kernel

example : parsePackage {} "a.pc".toList [] "x=${y}\ny=1".toList = .error (.undefinedVariable "y".toList) ∧
    parsePackage {} "a.pc".toList [] "x=1\nx=1".toList = .error (.duplicateVariable "x".toList) ∧
    parsePackage {} "a.pc".toList [] "Name: a\nName: a".toList = .error (.duplicateField "Name".toList) := by decide +kernel

/-! ## Findings -/

/-- **C71 finding.** An empty argument in quotes is lost, so that an option takes the wrong one. -/
theorem C71_empty_argument : split "-isystem \"\" -lx".toList = some ["-isystem".toList, "-lx".toList] := by decide +kernel

/-- **C71 finding.** Quotes that are not closed are not an error. -/
theorem C71_open_quote : split "-DX='a b -ly".toList = some ["-DX=a b -ly".toList] := by decide +kernel

/-- **C71 finding.** Commas count as white space at the beginning of a list of packages and inside of it, but at the end of it they are
an error. -/
theorem C71_last_comma :
    parseModuleList ", a ,, b".toList = .ok [⟨"a".toList, .alwaysMatch, []⟩, ⟨"b".toList, .alwaysMatch, []⟩] ∧
    parseModuleList "a, b,".toList = .error .emptyName := by decide +kernel

/-- **C71 finding.** White space is needed around operators: "a >=1" is an unknown operator, and "a>=1" is the name of a package. -/
theorem C71_blanks : parseModuleList "a >=1".toList = .error .unknownComparison ∧
    parseModuleList "a>=1".toList = .ok [⟨"a>=1".toList, .alwaysMatch, []⟩] := by decide +kernel

/-- **C71 finding.** A field may be there twice if the first one is empty. -/
theorem C71_empty_field_twice :
    (parsePackage {} "a.pc".toList [] "Name:\nName: a".toList).map (·.name) = .ok "a".toList ∧
    parsePackage {} "a.pc".toList [] "Name: a\nName:".toList = .error (.duplicateField "Name".toList) := by decide +kernel

/-- **C71 finding.** One variable in the environment stands for variables of different packages, or for different variables of one. -/
theorem C71_same_environment_variable :
    varToEnvVar "a".toList "b_c".toList = varToEnvVar "a_b".toList "c".toList ∧
    varToEnvVar "a".toList "b.c".toList = varToEnvVar "a".toList "b_c".toList ∧
    varToEnvVar "a".toList "B".toList = varToEnvVar "a".toList "b".toList := by decide +kernel

/-- **C71 finding.** A new prefix is taken for text with variables: if the file is in /opt/a$$b, then the values that begin with the
old prefix end up in another directory. -/
theorem C71_dollar_in_prefix :
    (parsePackage { definePrefix := true } "/opt/a$$b/lib/pkgconfig/x.pc".toList [] "prefix=/usr\nlibdir=/usr/lib".toList).map
      (fun p => (look "prefix".toList p.variables, look "libdir".toList p.variables)) =
    .ok (some "/opt/a$$b".toList, some "/opt/a$b/lib".toList) := by decide +kernel

/-- **C71 finding.** With an empty prefix, every absolute path is one below the new prefix. -/
theorem C71_empty_prefix :
    (parsePackage { definePrefix := true } "/opt/lib/pkgconfig/x.pc".toList [] "prefix=\netcdir=/etc/x".toList).map
      (fun p => look "etcdir".toList p.variables) = .ok (some "/opt/etc/x".toList) := by decide +kernel

/-- **C71 finding.** So is one in a directory that only begins with "pkgconfig". -/
theorem C71_directory_with_suffix :
    newPrefix "/opt/x/pkgconfig.old/a.pc".toList "/usr".toList = "/opt".toList := by decide +kernel

/-- **C71 finding.** An old prefix with a slash at the end is never replaced, although a value begins with it. -/
theorem C71_slash_after_prefix :
    (parsePackage { definePrefix := true } "/opt/lib/pkgconfig/x.pc".toList [] "prefix=/usr/\nlibdir=/usr/lib".toList).map
      (fun p => look "libdir".toList p.variables) = .ok (some "/usr/lib".toList) := by decide +kernel

end Verif.Pc
