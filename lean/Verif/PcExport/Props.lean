import Verif.PcExport.Flags

/-! # C126: what Exporter.pkgconfig writes is read back -/

namespace Verif.PcExport

open Verif.Pc

theorem says_entry {key v : Text} (hk : ∀ c ∈ key, isTag c = true) (hv : Tight v) : Says (key ++ ": ".toList ++ v) key ':' v := by
  obtain ⟨⟨c, l, h1, hc⟩, m, d, h2, hd⟩ := hv
  refine ⟨[], [], [' '], [], by simp, by simp, by simp, by simp [isSpace], by simp, hk, .inl rfl, ?_, ?_⟩
  · intro c' l' e; rw [h1] at e; injection e with e1 _; rw [← e1]; exact hc
  · intro c' l' e
    rw [h2] at e
    have := List.append_inj' e rfl
    simp only [List.cons.injEq, and_true] at this
    rw [← this.2]; exact hd

theorem says_prefix {v : Text} (hv : Tight v) : Says ("prefix=".toList ++ v) "prefix".toList '=' v := by
  obtain ⟨⟨c, l, h1, hc⟩, m, d, h2, hd⟩ := hv
  refine ⟨[], [], [], [], by simp, by simp, by simp, by simp, by simp, by decide, .inr rfl, ?_, ?_⟩
  · intro c' l' e; rw [h1] at e; injection e with e1 _; rw [← e1]; exact hc
  · intro c' l' e
    rw [h2] at e
    have := List.append_inj' e rfl
    simp only [List.cons.injEq, and_true] at this
    rw [← this.2]; exact hd

theorem string_field {o : Options} {pkg : Package} {tag v : Text} (hs : Safe v) (ht : Tight v) :
    stringField o pkg [] tag v = .ok v := by
  unfold stringField trimAndSubstitute
  rw [if_neg (by simp), ht.trimmed]
  exact hs.sub.whole

theorem flags_field {o : Options} {pkg : Package} {parse : List Text → List Flag} {tag : Text} {l m : List Text}
    (h : Words (getVariable o pkg) l m) (hne : l ≠ []) : flagsField o pkg parse [] tag (join l) = .ok (parse m) := by
  obtain ⟨u, h1, h2, h3⟩ := join_split h hne
  unfold flagsField trimAndSubstitute
  rw [if_neg (by simp), (join_tight h hne).trimmed, h1.whole]
  simp only
  rw [if_neg h3, h2]

theorem line_name {o : Options} {pkg : Package} {v : Text} (h : Safe v ∧ Tight v) (h0 : pkg.name = []) :
    parseLine o pkg ("Name".toList ++ ": ".toList ++ v) = .ok { pkg with name := v } := by
  rw [parseLine_field (says_entry (by decide) h.2), parseField, if_pos rfl, h0, string_field h.1 h.2]; rfl

theorem line_description {o : Options} {pkg : Package} {v : Text} (h : Safe v ∧ Tight v) (h0 : pkg.description = []) :
    parseLine o pkg ("Description".toList ++ ": ".toList ++ v) = .ok { pkg with description := v } := by
  rw [parseLine_field (says_entry (by decide) h.2), parseField, if_neg (by decide), if_pos rfl, h0, string_field h.1 h.2]; rfl

theorem line_version {o : Options} {pkg : Package} {v : Text} (h : Safe v ∧ Tight v) (h0 : pkg.version = []) :
    parseLine o pkg ("Version".toList ++ ": ".toList ++ v) = .ok { pkg with version := v } := by
  rw [parseLine_field (says_entry (by decide) h.2), parseField, if_neg (by decide), if_neg (by decide), if_pos rfl, h0,
    string_field h.1 h.2]; rfl

theorem line_cflags {o : Options} {pkg : Package} {l m : List Text} (h : Words (getVariable o pkg) l m) (hne : l ≠ [])
    (h0 : pkg.cflags = []) :
    parseLine o pkg ("Cflags".toList ++ ": ".toList ++ join l) = .ok { pkg with cflags := parseCFlags m } := by
  rw [parseLine_field (says_entry (by decide) (join_tight h hne)), parseField, if_neg (by decide), if_neg (by decide),
    if_neg (by decide), if_neg (by decide), if_neg (by decide), if_neg (by decide), if_neg (by decide), if_pos (.inl rfl), h0,
    flags_field h hne]; rfl

theorem line_libs {o : Options} {pkg : Package} {l m : List Text} (h : Words (getVariable o pkg) l m) (hne : l ≠ [])
    (h0 : pkg.libs = []) :
    parseLine o pkg ("Libs".toList ++ ": ".toList ++ join l) = .ok { pkg with libs := parseLibs m } := by
  rw [parseLine_field (says_entry (by decide) (join_tight h hne)), parseField, if_neg (by decide), if_neg (by decide),
    if_neg (by decide), if_neg (by decide), if_neg (by decide), if_neg (by decide), if_pos rfl, h0, flags_field h hne]; rfl

theorem line_prefix {o : Options} {pkg : Package} {v : Text} (h : Safe v ∧ Tight v) (hd : o.definePrefix = false)
    (h0 : look "prefix".toList pkg.variables = none) :
    parseLine o pkg ("prefix=".toList ++ v) = .ok { pkg with variables := pkg.variables ++ [("prefix".toList, v)] } := by
  rw [parseLine_variable (says_prefix h.2), parseVariable]
  have : evaluateVariable o pkg "prefix".toList v = .ok (v, pkg.oldPrefix) := by
    unfold evaluateVariable trimAndSubstitute
    rw [if_neg (by simp [hd]), h.2.trimmed, h.1.sub.whole]; rfl
  rw [this]
  simp only [h0]
  rfl

theorem Words.nil_iff {f l m} (h : Words f l m) : l = [] ↔ m = [] := by cases h <;> simp

/-- The lines after the variables -/
theorem fields {o : Options} {pkg : Package} {n d v : Text} {lc ll ac al : List Text} (hn : Safe n ∧ Tight n) (hd : Safe d ∧ Tight d)
    (hv : Safe v ∧ Tight v) (hc : Words (getVariable o pkg) lc ac) (hl : Words (getVariable o pkg) ll al)
    (h0 : pkg.name = [] ∧ pkg.description = [] ∧ pkg.version = [] ∧ pkg.cflags = [] ∧ pkg.libs = []) :
    parseFrom o pkg (["Name".toList ++ ": ".toList ++ n, "Description".toList ++ ": ".toList ++ d, "Version".toList ++ ": ".toList ++ v] ++
      listEntry "Cflags".toList lc ++ listEntry "Libs".toList ll) =
    .ok { pkg with name := n, description := d, version := v, cflags := parseCFlags ac, libs := parseLibs al } := by
  obtain ⟨a, b, c, dd, e⟩ := h0
  have hc0 : parseCFlags [] = [] := rfl
  have hl0 : parseLibs [] = [] := rfl
  simp only [List.cons_append, List.nil_append, parseFrom]
  rw [line_name hn a]; simp only
  rw [line_description (pkg := { pkg with name := n }) hd b]; simp only
  rw [line_version (pkg := { pkg with name := n, description := d }) hv c]; simp only
  unfold listEntry
  by_cases hlc : lc = []
  · have := hc.nil_iff.1 hlc
    subst this
    by_cases hll : ll = []
    · have := hl.nil_iff.1 hll
      subst this
      rw [if_pos hlc, if_pos hll, hc0, hl0]
      simp only [List.append_nil, parseFrom]
      rw [dd, e]
    · rw [if_pos hlc, if_neg hll]
      simp only [List.nil_append, parseFrom]
      rw [line_libs (pkg := { pkg with name := n, description := d, version := v }) (m := al) hl hll e, hc0]
      simp only
      rw [dd]
  · by_cases hll : ll = []
    · have := hl.nil_iff.1 hll
      subst this
      rw [if_neg hlc, if_pos hll, hl0]
      simp only [List.append_nil, parseFrom]
      rw [line_cflags (pkg := { pkg with name := n, description := d, version := v }) (m := ac) hc hlc dd]
      simp only
      rw [e]
    · rw [if_neg hlc, if_neg hll]
      simp only [List.cons_append, List.nil_append, parseFrom]
      rw [line_cflags (pkg := { pkg with name := n, description := d, version := v }) (m := ac) hc hlc dd]
      simp only
      rw [line_libs (pkg := { pkg with name := n, description := d, version := v, cflags := parseCFlags ac }) (m := al) hl hll e]

theorem entry_clean {key v : Text} (hk : Clean key) (hv : Clean v) : Clean (key ++ ": ".toList ++ v) :=
  (hk.append (Clean.all (by decide))).append hv

theorem listEntry_clean {f l m} {key : Text} (hk : Clean key) (h : Words f l m) : ∀ x ∈ listEntry key l, Clean x := by
  intro x hx
  unfold listEntry at hx
  split at hx
  · cases hx
  · rcases List.mem_singleton.1 hx with rfl
    exact entry_clean hk (join_clean h)

/-- C126: a package that has been written can be read, and all flags are seen that have been exported, in their order. This is
so for values with blanks and with double quotes, with and without an install prefix. What is missing: values with backslashes,
single quotes, dollar signs and number signs, and driver flags with blanks or quotes; see the other theorems. -/
theorem C126_read_back_partial {p : Product} (h : p.ok) {o : Options} {path : Text} (ho : Reads o path) (dir : Text) :
    ∃ contents pkg, pcText p = some contents ∧ parsePackage o path dir contents = .ok pkg ∧
      pkg.name = p.name ∧ pkg.description = p.description ∧ pkg.version = p.version ∧
      pkg.cflags = p.modules.flatMap (fun m => meantCFlags m.cpp) ∧ pkg.libs = p.modules.flatMap meantLibs ∧
      pkg.requiresPublic = [] ∧ pkg.requiresPrivate = [] ∧ pkg.conflicts = [] := by
  obtain ⟨hpath, hdef, hglob, hsys⟩ := ho
  have hn : p.name ≠ [] := h.name.2.ne
  have hde : p.description ≠ [] := h.description.2.ne
  have hve : p.version ≠ [] := h.version.2.ne
  have hlines : pcLines p = some ((if p.installPrefix ≠ [] then ["prefix=".toList ++ p.installPrefix, []] else []) ++
      ["Name".toList ++ ": ".toList ++ p.name, "Description".toList ++ ": ".toList ++ p.description,
       "Version".toList ++ ": ".toList ++ p.version] ++
      listEntry "Cflags".toList (collect p).2 ++ listEntry "Libs".toList (collect p).1) := by
    unfold pcLines textEntry
    rw [if_neg hn, if_neg hde, if_neg hve]
  have hpre0 : p.installPrefix ≠ [] → Safe p.installPrefix ∧ '"' ∉ p.installPrefix :=
    fun hp => ⟨(h.installPrefix hp).1, (h.installPrefix hp).2.2⟩
  have words : ∀ f : Text → Option Text, Pre f p.installPrefix →
      Words f (collect p).2 (p.modules.flatMap (fun m => argsC m.cpp)) ∧ Words f (collect p).1 (p.modules.flatMap argsL) := by
    intro f hf
    rw [collect_eq]
    exact ⟨Words.flatMap (fun m hm => cflags_words hf (h.modules m hm)), Words.flatMap (fun m hm => libs_words hf (h.modules m hm))⟩
  have parsed : parseCFlags (p.modules.flatMap (fun m => argsC m.cpp)) = p.modules.flatMap (fun m => meantCFlags m.cpp) ∧
      parseLibs (p.modules.flatMap argsL) = p.modules.flatMap meantLibs :=
    ⟨parse_flatMap rfl (fun m hm r => parse_argsC (h.modules m hm) r), parse_flatMap rfl (fun m hm r => parse_argsL (h.modules m hm) r)⟩
  have clean : ∀ l ∈ (if p.installPrefix ≠ [] then ["prefix=".toList ++ p.installPrefix, []] else []) ++
      ["Name".toList ++ ": ".toList ++ p.name, "Description".toList ++ ": ".toList ++ p.description,
       "Version".toList ++ ": ".toList ++ p.version] ++
      listEntry "Cflags".toList (collect p).2 ++ listEntry "Libs".toList (collect p).1, Clean l := by
    obtain ⟨w1, w2⟩ := words (fun _ => some p.installPrefix) ⟨hpre0, fun _ => rfl⟩
    intro l hl
    rcases List.mem_append.1 hl with hl | hl
    · rcases List.mem_append.1 hl with hl | hl
      · rcases List.mem_append.1 hl with hl | hl
        · split at hl
          · rename_i hp
            simp only [List.mem_cons, List.not_mem_nil, or_false] at hl
            rcases hl with rfl | rfl
            · exact Clean.append (Clean.all (by decide)) (h.installPrefix hp).1.clean
            · exact .nil
          · cases hl
        · simp only [List.mem_cons, List.not_mem_nil, or_false] at hl
          rcases hl with rfl | rfl | rfl
          · exact entry_clean (Clean.all (by decide)) h.name.1.clean
          · exact entry_clean (Clean.all (by decide)) h.description.1.clean
          · exact entry_clean (Clean.all (by decide)) h.version.1.clean
      · exact listEntry_clean (Clean.all (by decide)) w1 l hl
    · exact listEntry_clean (Clean.all (by decide)) w2 l hl
  rw [pcText, hlines]
  simp only [Option.map_some]
  have hfile := fileLines_clean clean
  by_cases hp : p.installPrefix = []
  · rw [if_neg (by simpa using hp), List.nil_append] at hfile
    obtain ⟨w1, w2⟩ := words (getVariable o (start path dir)) ⟨hpre0, fun h => absurd hp h⟩
    have := fields h.name h.description h.version w1 w2 ⟨rfl, rfl, rfl, rfl, rfl⟩
    refine ⟨_, { start path dir with name := p.name, description := p.description, version := p.version,
                                     cflags := parseCFlags (p.modules.flatMap (fun m => argsC m.cpp)),
                                     libs := parseLibs (p.modules.flatMap argsL) },
      rfl, ?_, rfl, rfl, rfl, parsed.1, parsed.2, rfl, rfl, rfl⟩
    · rw [parsePackage_eq hpath, if_neg (by simpa using hp), List.nil_append, hfile]
      exact this
  · have hlook : look "prefix".toList (start path dir).variables = none := by
      cases hx : look "prefix".toList (start path dir).variables with
      | none => rfl
      | some x => exact absurd (look_start hx).1 (by decide)
    let pkg : Package := { start path dir with variables := (start path dir).variables ++ [("prefix".toList, p.installPrefix)] }
    have hvar : getVariable o pkg "prefix".toList = some p.installPrefix := by
      have e1 : look "prefix".toList pkg.variables = some p.installPrefix := by
        show look _ ((start path dir).variables ++ _) = _
        rw [look_append, hlook]
        simp [look]
      unfold getVariable
      rw [if_neg (by decide)]
      have e2 : look (varToEnvVar pkg.baseFileName "prefix".toList) o.system = none := hsys
      simp only [e2, hglob, e1]
      split <;> rename_i hh
      · split at hh <;> cases hh
      · rfl
    obtain ⟨w1, w2⟩ := words (getVariable o pkg) ⟨hpre0, fun _ => hvar⟩
    have := fields h.name h.description h.version w1 w2 ⟨rfl, rfl, rfl, rfl, rfl⟩
    refine ⟨_, { pkg with name := p.name, description := p.description, version := p.version,
                          cflags := parseCFlags (p.modules.flatMap (fun m => argsC m.cpp)), libs := parseLibs (p.modules.flatMap argsL) },
      rfl, ?_, rfl, rfl, rfl, parsed.1, parsed.2, rfl, rfl, rfl⟩
    rw [parsePackage_eq hpath, hfile, if_pos hp]
    simp only [List.cons_append, List.nil_append, parseFrom]
    rw [line_prefix ⟨(h.installPrefix hp).1, (h.installPrefix hp).2.1⟩ hdef hlook]
    simp only
    have hempty : parseLine o pkg [] = .ok pkg := rfl
    rw [show parseLine o { start path dir with variables := (start path dir).variables ++ [("prefix".toList, p.installPrefix)] } [] = .ok pkg
      from hempty]
    exact this

/-- C126: nothing is written if and only if the name, the description or the version is empty. -/
theorem C126_required (p : Product) : pcText p = none ↔ p.name = [] ∨ p.description = [] ∨ p.version = [] := by
  have e : ∀ k v, v = [] ↔ textEntry k v = none := by
    intro k v
    unfold textEntry
    by_cases hv : v = []
    · rw [if_pos hv]; exact ⟨fun _ => rfl, fun _ => hv⟩
    · rw [if_neg hv]; exact ⟨fun h => absurd h hv, fun h => by cases h⟩
  rw [e "Name".toList p.name, e "Description".toList p.description, e "Version".toList p.version]
  unfold pcText pcLines
  generalize textEntry "Name".toList p.name = a, textEntry "Description".toList p.description = b,
    textEntry "Version".toList p.version = c
  cases a <;> cases b <;> cases c <;> simp only [Option.map_none, Option.map_some, reduceCtorEq, or_false, or_self, true_or, or_true]

/-- The package that is read from what is written for a module, by default -/
def read (pre : Text) (m : Module) : Option (Except Err Package) :=
  (pcText { installPrefix := pre, name := "n".toList, description := "d".toList, version := "1".toList, modules := [m] }).map
    (parsePackage {} "/lib/n.pc".toList "/lib".toList)

/-- The compiler flags and the linker flags in it -/
def flags (pre : Text) (m : Module) : Option (List Flag × List Flag) :=
  match read pre m with
  | some (.ok pkg) => some (pkg.cflags, pkg.libs)
  | _ => none

/-- The variable that is reported to be unknown -/
def unknownVariable (pre : Text) (m : Module) : Option Text :=
  match read pre m with
  | some (.error (.undefinedVariable v)) => some v
  | _ => none

/-- **C126 finding.** Single quotes get a backslash, which is not removed by the reader. -/
theorem C126_single_quote : flags [] { cpp := { defines := some ["A='x'".toList] } } = some ([⟨.define, "A=\\'x\\'".toList⟩], []) := by
  decide +kernel

/-- **C126 finding.** Backslashes get lost, and in values with blanks there are two afterwards. -/
theorem C126_backslash :
    flags [] { cpp := { includePaths := some ["c:\\inc".toList, "c:\\my inc".toList] } } =
      some ([⟨.includePath, "c:inc".toList⟩, ⟨.includePath, "c:\\\\my inc".toList⟩], []) := by
  decide +kernel

/-- **C126 finding.** Two dollar signs become one, and a file with a value that looks like a variable cannot be read. -/
theorem C126_dollar :
    flags [] { cpp := { defines := some ["A=$$".toList] } } = some ([⟨.define, "A=$".toList⟩], []) ∧
    unknownVariable [] { cpp := { linkerFlags := some ["-Wl,-rpath,${ORIGIN}".toList] } } = some "ORIGIN".toList := by
  decide +kernel

/-- **C126 finding.** A number sign hides everything behind it in the same entry. -/
theorem C126_number_sign :
    flags [] { cpp := { defines := some ["COLOR=#fff".toList, "B".toList], includePaths := some ["/inc".toList] } } =
      some ([⟨.define, "COLOR=".toList⟩], []) := by
  decide +kernel

/-- **C126 finding.** A value is split at a tab, because it is not quoted. -/
theorem C126_tab : flags [] { cpp := { defines := some ["A=1\t2".toList] } } =
    some ([⟨.define, "A=1".toList⟩, ⟨.compilerFlag, "2".toList⟩], []) := by
  decide +kernel

/-- **C126 finding.** Driver flags are quoted for the linker flags, in the exported list itself, and then once more for the
compiler flags: there, the quotes become part of the value. -/
theorem C126_driver_flags : flags [] { cpp := { driverFlags := some ["--sysroot=/my root".toList] } } =
    some ([⟨.compilerFlag, "\"--sysroot=/my root\"".toList⟩], [⟨.linkerFlag, "--sysroot=/my root".toList⟩]) := by
  decide +kernel

end Verif.PcExport
