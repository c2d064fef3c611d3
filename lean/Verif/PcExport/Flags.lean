import Verif.PcExport.Lem

namespace Verif.PcExport

open Verif.Pc

/-! ## How arguments are understood -/

theorem Tight.trimmed {v : Text} (h : Tight v) : trimmed v = v := by
  obtain ⟨⟨c, l, h1, hc⟩, m, d, h2, hd⟩ := h
  refine trimmed_of ?_ ?_
  · intro c' l' e; rw [h1] at e; injection e with e1 _; rw [← e1]; exact hc
  · intro c' l' e
    rw [h2] at e
    have := List.append_inj' e rfl
    simp only [List.cons.injEq, and_true] at this
    rw [← this.2]; exact hd

theorem Tight.option {v : Text} (c : Char) (h : Tight v) : Tight ('-' :: c :: v) :=
  Tight.append (a := ['-', c]) (.inr ⟨'-', [c], rfl, by decide⟩) h

theorem starts_cons (c d : Char) (v : Text) (o : Text) : startsWith (c :: v) (d :: o) = (decide (d = c) && startsWith v o) := by
  simp only [startsWith, List.isPrefixOf, Bool.beq_eq_decide_eq]

theorem starts_iff (v o : Text) : startsWith v o = true ↔ o <+: v := by
  rw [startsWith, List.isPrefixOf_iff_prefix]

theorem starts_false {v o : Text} (h : ¬ o <+: v) : startsWith v o = false := by
  cases hs : startsWith v o with
  | false => rfl
  | true => exact absurd ((starts_iff _ _).1 hs) h

theorem cflag_define {v : Text} (h : Tight v) (l : List Text) : parseCFlags (("-D".toList ++ v) :: l) = ⟨.define, v⟩ :: parseCFlags l := by
  have e : "-D".toList ++ v = '-' :: 'D' :: v := rfl
  rw [e, parseCFlags.eq_def]; simp only; rw [(h.option 'D').trimmed]
  have h1 : startsWith ('-' :: 'D' :: v) "-I".toList = false := by
    show startsWith ('-' :: 'D' :: v) ['-', 'I'] = false
    rw [starts_cons, starts_cons]; rfl
  have h2 : startsWith ('-' :: 'D' :: v) "-D".toList = true := by
    show startsWith ('-' :: 'D' :: v) ['-', 'D'] = true
    rw [starts_cons, starts_cons]; simp [startsWith]
  simp only [h1, h2, if_true, Bool.false_eq_true, if_false, List.drop, h.trimmed]

theorem cflag_include {v : Text} (h : Tight v) (l : List Text) :
    parseCFlags (("-I".toList ++ v) :: l) = ⟨.includePath, v⟩ :: parseCFlags l := by
  have e : "-I".toList ++ v = '-' :: 'I' :: v := rfl
  rw [e, parseCFlags.eq_def]; simp only; rw [(h.option 'I').trimmed]
  have h2 : startsWith ('-' :: 'I' :: v) "-I".toList = true := by
    show startsWith ('-' :: 'I' :: v) ['-', 'I'] = true
    rw [starts_cons, starts_cons]; simp [startsWith]
  simp only [h2, if_true, List.drop, h.trimmed]

theorem cflag_other {v : Text} (h : Tight v) (ho : OtherC v) (l : List Text) :
    parseCFlags (v :: l) = ⟨.compilerFlag, v⟩ :: parseCFlags l := by
  obtain ⟨h1, h2, h3, h4⟩ := ho
  rw [parseCFlags.eq_def]; simp only; rw [h.trimmed]
  simp only [starts_false h1, starts_false h2, Bool.false_eq_true, if_false, decide_eq_false h3, decide_eq_false h4, if_neg h.ne]

theorem lib_path {v : Text} (h : Tight v) (l : List Text) :
    parseLibs (("-L".toList ++ v) :: l) = ⟨.libraryPath, v⟩ :: parseLibs l := by
  have e : "-L".toList ++ v = '-' :: 'L' :: v := rfl
  rw [e, parseLibs.eq_def]; simp only; rw [(h.option 'L').trimmed]
  have h1 : startsWith ('-' :: 'L' :: v) "-l".toList = false := by
    show startsWith ('-' :: 'L' :: v) ['-', 'l'] = false
    rw [starts_cons, starts_cons]; rfl
  have h2 : startsWith ('-' :: 'L' :: v) "-L".toList = true := by
    show startsWith ('-' :: 'L' :: v) ['-', 'L'] = true
    rw [starts_cons, starts_cons]; simp [startsWith]
  simp only [h1, h2, if_true, Bool.false_and, Bool.false_eq_true, if_false, List.drop, h.trimmed]

theorem lib_name {v : Text} (h : Tight v) (hl : Lib v) (l : List Text) :
    parseLibs (("-l".toList ++ v) :: l) = ⟨.libraryName, v⟩ :: parseLibs l := by
  have e : "-l".toList ++ v = '-' :: 'l' :: v := rfl
  rw [e, parseLibs.eq_def]; simp only; rw [(h.option 'l').trimmed]
  have h2 : startsWith ('-' :: 'l' :: v) "-l".toList = true := by
    show startsWith ('-' :: 'l' :: v) ['-', 'l'] = true
    rw [starts_cons, starts_cons]; simp [startsWith]
  have h1 : startsWith ('-' :: 'l' :: v) "-lib:".toList = false := by
    show startsWith ('-' :: 'l' :: v) ('-' :: 'l' :: "ib:".toList) = false
    rw [starts_cons, starts_cons, starts_false hl]; rfl
  simp only [h1, h2, Bool.not_false, Bool.and_self, if_true, List.drop, h.trimmed]

theorem lib_other {v : Text} (h : Tight v) (ho : OtherL v) (l : List Text) :
    parseLibs (v :: l) = ⟨.linkerFlag, v⟩ :: parseLibs l := by
  obtain ⟨h0, h1, h2, h3, h4⟩ := ho
  rw [parseLibs.eq_def]; simp only; rw [h.trimmed]
  simp only [starts_false h1, starts_false h2, starts_false h3, (starts_iff _ _).2 h0, Bool.false_and, Bool.not_true, Bool.false_eq_true,
    if_false, decide_eq_false h4, if_neg h.ne]

/-! ## Collecting -/

/-- The arguments, and how they are written -/
def argsC (c : Cpp) : List Text :=
  (c.defines.getD []).map (fun v => "-D".toList ++ v) ++ (c.includePaths.getD []).map (fun v => "-I".toList ++ v) ++
  c.commonCompilerFlags.getD [] ++ c.driverFlags.getD [] ++ (c.cxxFlags.or c.cFlags).getD []

def argsL (m : Module) : List Text :=
  m.installDirs.flatMap (fun d => ["-L".toList ++ d, "-l".toList ++ m.targetName]) ++
  (m.cpp.libraryPaths.getD []).map (fun v => "-L".toList ++ v) ++ (m.cpp.dynamicLibraries.getD []).map (fun v => "-l".toList ++ v) ++
  (m.cpp.staticLibraries.getD []).map (fun v => "-l".toList ++ v) ++ m.cpp.linkerFlags.getD [] ++ m.cpp.driverFlags.getD [] ++
  m.cpp.driverLinkerFlags.getD []

theorem parse_map {α} {P : List Text → List Flag} {a : α → Text} {b : α → Flag} {l : List α}
    (h : ∀ x ∈ l, ∀ r, P (a x :: r) = b x :: P r) (r : List Text) : P (l.map a ++ r) = l.map b ++ P r := by
  induction l with
  | nil => rfl
  | cons x l ih =>
    rw [List.map_cons, List.cons_append, h x (by simp), ih (fun y hy => h y (by simp [hy]))]
    rfl

theorem parse_self {P : List Text → List Flag} {b : Text → Flag} {l : List Text}
    (h : ∀ x ∈ l, ∀ r, P (x :: r) = b x :: P r) (r : List Text) : P (l ++ r) = l.map b ++ P r := by
  have := parse_map (a := id) h r
  simpa using this

theorem parse_argsC {m : Module} (h : m.ok) (r : List Text) : parseCFlags (argsC m.cpp ++ r) = meantCFlags m.cpp ++ parseCFlags r := by
  unfold argsC meantCFlags
  simp only [List.append_assoc, List.map_append]
  rw [parse_map (fun x hx => cflag_define (h.defines x hx).2), parse_map (fun x hx => cflag_include (h.includePaths x hx).2),
    parse_self (fun x hx => cflag_other (h.common x hx).2.1 (h.common x hx).2.2),
    parse_self (fun x hx => cflag_other (h.driver x hx).2.1 (h.driver x hx).2.2.1),
    parse_self (fun x hx => cflag_other (h.cxx x hx).2.1 (h.cxx x hx).2.2)]

theorem parse_dirs {n : Text} {ds : List Text} (hd : ∀ v ∈ ds, Tight v) (hn : ds ≠ [] → Tight n ∧ Lib n) (r : List Text) :
    parseLibs (ds.flatMap (fun d => ["-L".toList ++ d, "-l".toList ++ n]) ++ r) =
      ds.flatMap (fun d => [⟨.libraryPath, d⟩, ⟨.libraryName, n⟩]) ++ parseLibs r := by
  induction ds with
  | nil => rfl
  | cons d ds ih =>
    have hn' := hn (by simp)
    have e : (d :: ds).flatMap (fun d => ["-L".toList ++ d, "-l".toList ++ n]) ++ r =
      ("-L".toList ++ d) :: ("-l".toList ++ n) :: (ds.flatMap (fun d => ["-L".toList ++ d, "-l".toList ++ n]) ++ r) := by
      rw [List.flatMap_cons]; rfl
    rw [e, lib_path (hd d (by simp)), lib_name hn'.1 hn'.2, ih (fun v hv => hd v (by simp [hv])) (fun _ => hn'), List.flatMap_cons]
    rfl

theorem parse_argsL {m : Module} (h : m.ok) (r : List Text) : parseLibs (argsL m ++ r) = meantLibs m ++ parseLibs r := by
  unfold argsL meantLibs
  simp only [List.append_assoc, List.map_append]
  rw [parse_dirs (fun v hv => (h.installDirs v hv).2) (fun hne => ⟨(h.targetName hne).2.1, (h.targetName hne).2.2⟩),
    parse_map (fun x hx => lib_path (h.libraryPaths x hx).2),
    parse_map (fun x hx => lib_name (h.dynamicLibraries x hx).2.1 (h.dynamicLibraries x hx).2.2),
    parse_map (fun x hx => lib_name (h.staticLibraries x hx).2.1 (h.staticLibraries x hx).2.2),
    parse_self (fun x hx => lib_other (h.linker x hx).2.1 (h.linker x hx).2.2),
    parse_self (fun x hx => lib_other (h.driver x hx).2.1 (h.driver x hx).2.2.2.1),
    parse_self (fun x hx => lib_other (h.driverLinker x hx).2.1 (h.driverLinker x hx).2.2)]

theorem transformed_getD (p : Text) (v : Option (List Text)) : (transformed p v).getD [] = (v.getD []).map (quoteAndPrefixify p) := by
  cases v <;> rfl

theorem quote_plain {v : Text} (hp : Plain v) (h : '\'' ∉ v) : quote v = v := by
  unfold quote
  have h1 : v.contains ' ' = false := by simpa using hp.1
  have h2 : v.contains '\'' = false := by simpa using h
  have h3 : v.contains '"' = false := by simpa using hp.2
  rw [h1, h2, h3]; rfl

theorem twice {p v : Text} (hs : Safe v) (hv : Plain v) (hp : p ≠ [] → Safe p ∧ '"' ∉ p) :
    quoteAndPrefixify p (quoteAndPrefixify p v) = quoteAndPrefixify p v := by
  have hq : quote v = v := quote_plain hv (fun hc => (hs _ hc).2.1 rfl)
  rcases written_eq hs hp with e | ⟨h0, r, rfl, ⟨e1, e2⟩ | ⟨e1, e2⟩⟩
  · rw [e, hq, e, hq]
  · rw [e2]
    have hr : Plain r := ⟨fun hc => hv.1 (by simp [hc]), fun hc => hv.2 (by simp [hc])⟩
    have hr' : '\'' ∉ r := fun hc => (hs '\'' (by simp [hc])).2.1 rfl
    have hst : startsWith ("${prefix}".toList ++ r) p = false := by
      cases p with
      | nil => exact absurd rfl h0
      | cons c p =>
        have hc : c ≠ '$' := ((hp h0).1 c (by simp)).2.2.1
        show startsWith ('$' :: ("{prefix}".toList ++ r)) (c :: p) = false
        rw [starts_cons, decide_eq_false hc]; rfl
    rw [quoteAndPrefixify, if_pos (.inr (.inl (by rw [hst]; decide))), quote_plain]
    · refine ⟨?_, ?_⟩
      · intro hc
        rcases List.mem_append.1 hc with hc | hc
        · exact absurd hc (by decide)
        · exact hr.1 hc
      · intro hc
        rcases List.mem_append.1 hc with hc | hc
        · exact absurd hc (by decide)
        · exact hr.2 hc
    · intro hc
      rcases List.mem_append.1 hc with hc | hc
      · exact absurd hc (by decide)
      · exact hr' hc
  · rw [hq] at e1
    exact absurd (by rw [e1]; simp) hv.2

/-- What has to be known about the prefix -/
structure Pre (f : Text → Option Text) (p : Text) : Prop where
  safe : p ≠ [] → Safe p ∧ '"' ∉ p
  var : p ≠ [] → f "prefix".toList = some p

theorem word_opt {f p v} (hf : Pre f p) (c : Char) (hc : Safe ['-', c]) (hc' : Plain ['-', c]) (h : Safe v ∧ Tight v) :
    Word f (['-', c] ++ quoteAndPrefixify p v) (['-', c] ++ v) :=
  written_word h.1 h.2 hf.safe hf.var hc hc' (.inr ⟨'-', [c], rfl, by decide⟩)

theorem word_self {f p v} (hf : Pre f p) (h : Safe v ∧ Tight v) : Word f (quoteAndPrefixify p v) v :=
  written_word (o := []) h.1 h.2 hf.safe hf.var .nil ⟨by simp, by simp⟩ (.inl rfl)

theorem safe_opt (c : Char) (h : c = 'D' ∨ c = 'I' ∨ c = 'L' ∨ c = 'l') : Safe ['-', c] ∧ Plain ['-', c] := by
  rcases h with rfl | rfl | rfl | rfl <;> (unfold Safe Plain; decide)

theorem words_opt {f p} (hf : Pre f p) (c : Char) (h : c = 'D' ∨ c = 'I' ∨ c = 'L' ∨ c = 'l') {l : List Text}
    (hl : ∀ v ∈ l, Safe v ∧ Tight v) :
    Words f ((l.map (quoteAndPrefixify p)).map (fun d => ['-', c] ++ d)) (l.map (fun v => ['-', c] ++ v)) := by
  rw [List.map_map]
  exact Words.map (fun x hx => word_opt hf c (safe_opt c h).1 (safe_opt c h).2 (hl x hx))

theorem words_self {f p} (hf : Pre f p) {l : List Text} (hl : ∀ v ∈ l, Safe v ∧ Tight v) : Words f (l.map (quoteAndPrefixify p)) l := by
  have := Words.map (b := id) (fun x hx => word_self hf (hl x hx))
  simpa using this

theorem words_dirs {f p n} (hf : Pre f p) {ds : List Text} (hd : ∀ v ∈ ds, Safe v ∧ Tight v) (hn : ds ≠ [] → Safe n ∧ Tight n) :
    Words f (ds.flatMap (fun d => ["-L".toList ++ quoteAndPrefixify p d, "-l".toList ++ quote n]))
      (ds.flatMap (fun d => ["-L".toList ++ d, "-l".toList ++ n])) := by
  induction ds with
  | nil => exact .nil
  | cons d ds ih =>
    have hn' := hn (by simp)
    rw [List.flatMap_cons, List.flatMap_cons]
    refine Words.append (.cons ?_ (.cons ?_ .nil)) (ih (fun v hv => hd v (by simp [hv])) (fun _ => hn'))
    · exact word_opt hf 'L' (safe_opt 'L' (by simp)).1 (safe_opt 'L' (by simp)).2 (hd d (by simp))
    · exact quote_word hn'.1 hn'.2 (safe_opt 'l' (by simp)).1 (safe_opt 'l' (by simp)).2 (.inr ⟨'-', ['l'], rfl, by decide⟩)

theorem libs_words {f p} (hf : Pre f p) {m : Module} (h : m.ok) : Words f (collectLibs p m).1 (argsL m) := by
  unfold collectLibs argsL
  simp only [transformed_getD]
  refine Words.append (Words.append (Words.append (Words.append (Words.append (Words.append ?_ ?_) ?_) ?_) ?_) ?_) ?_
  · exact words_dirs hf h.installDirs (fun hne => ⟨(h.targetName hne).1, (h.targetName hne).2.1⟩)
  · exact words_opt hf 'L' (by simp) h.libraryPaths
  · exact words_opt hf 'l' (by simp) (fun v hv => ⟨(h.dynamicLibraries v hv).1, (h.dynamicLibraries v hv).2.1⟩)
  · exact words_opt hf 'l' (by simp) (fun v hv => ⟨(h.staticLibraries v hv).1, (h.staticLibraries v hv).2.1⟩)
  · exact words_self hf (fun v hv => ⟨(h.linker v hv).1, (h.linker v hv).2.1⟩)
  · exact words_self hf (fun v hv => ⟨(h.driver v hv).1, (h.driver v hv).2.1⟩)
  · exact words_self hf (fun v hv => ⟨(h.driverLinker v hv).1, (h.driverLinker v hv).2.1⟩)

theorem or_transformed (p : Text) (a b : Option (List Text)) : (transformed p a).or (transformed p b) = transformed p (a.or b) := by
  cases a <;> rfl

theorem cflags_words {f p} (hf : Pre f p) {m : Module} (h : m.ok) : Words f (collectCFlags p (collectLibs p m).2) (argsC m.cpp) := by
  have hd : (transformed p (transformed p m.cpp.driverFlags)).getD [] = (m.cpp.driverFlags.getD []).map (quoteAndPrefixify p) := by
    rw [transformed_getD, transformed_getD, List.map_map]
    apply List.map_congr_left
    intro v hv
    exact twice (h.driver v hv).1 (h.driver v hv).2.2.2.2 hf.safe
  unfold collectCFlags argsC
  simp only [collectLibs, hd, or_transformed]
  simp only [transformed_getD]
  refine Words.append (Words.append (Words.append (Words.append ?_ ?_) ?_) ?_) ?_
  · exact words_opt hf 'D' (by simp) h.defines
  · exact words_opt hf 'I' (by simp) h.includePaths
  · exact words_self hf (fun v hv => ⟨(h.common v hv).1, (h.common v hv).2.1⟩)
  · exact words_self hf (fun v hv => ⟨(h.driver v hv).1, (h.driver v hv).2.1⟩)
  · exact words_self hf (fun v hv => ⟨(h.cxx v hv).1, (h.cxx v hv).2.1⟩)

theorem collect_eq (p : Product) : collect p =
    (p.modules.flatMap (fun m => (collectLibs p.installPrefix m).1),
     p.modules.flatMap (fun m => collectCFlags p.installPrefix (collectLibs p.installPrefix m).2)) := by
  unfold collect
  have : ∀ (ms : List Module) (d : List Text × List Text), ms.foldl (fun (data : List Text × List Text) m =>
      let (libs, m') := collectLibs p.installPrefix m
      (data.1 ++ libs, data.2 ++ collectCFlags p.installPrefix m')) d =
      (d.1 ++ ms.flatMap (fun m => (collectLibs p.installPrefix m).1),
       d.2 ++ ms.flatMap (fun m => collectCFlags p.installPrefix (collectLibs p.installPrefix m).2)) := by
    intro ms
    induction ms with
    | nil => intro d; simp
    | cons m ms ih =>
      intro d
      rw [List.foldl_cons, ih]
      simp only [List.flatMap_cons, List.append_assoc]
  rw [this]
  simp

theorem Words.flatMap {α f} {l : List α} {a b : α → List Text} (h : ∀ x ∈ l, Words f (a x) (b x)) : Words f (l.flatMap a) (l.flatMap b) := by
  induction l with
  | nil => exact .nil
  | cons x l ih =>
    rw [List.flatMap_cons, List.flatMap_cons]
    exact Words.append (h x (by simp)) (ih (fun y hy => h y (by simp [hy])))

theorem parse_flatMap {α} {P : List Text → List Flag} {a : α → List Text} {b : α → List Flag} {l : List α} (h0 : P [] = [])
    (h : ∀ x ∈ l, ∀ r, P (a x ++ r) = b x ++ P r) : P (l.flatMap a) = l.flatMap b := by
  induction l with
  | nil => exact h0
  | cons x l ih => rw [List.flatMap_cons, List.flatMap_cons, h x (by simp), ih (fun y hy => h y (by simp [hy]))]

end Verif.PcExport
