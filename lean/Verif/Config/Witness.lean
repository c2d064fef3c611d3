import Verif.Config.Props
/-!
# C109, C110: settings that meet the hypotheses, and findings
-/
namespace Verif.Config

open Verif.Literal (Str Var lit)
open Verif.Settings (externalRepresentation internalRepresentation forbidden)

/-! ### Settings for which the theorems hold -/

/-- A string, a boolean, a number and a list with quotes, spaces and colons. -/
def sample : St :=
  ⟨[("defaultProfile".toList, .plain (.str "gcc: \"best\"".toList)),
    ("preferences/jobs".toList, .hash (.int 8)),
    ("preferences/useColoredOutput".toList, .hash (.bool false)),
    ("profiles/gcc/cpp/defines".toList, .plain (.list [.str "A B".toList, .str "C".toList]))],
   [("profiles/gcc/cpp/compilerName".toList, .plain (.str "gcc".toList))]⟩

theorem sample_tidy : AllTidy sample := by
  refine ⟨⟨by decide +kernel, ?_, ?_⟩, ⟨by decide +kernel, ?_, ?_⟩⟩
  · have : (sample.user.map (·.1)).all (fun k => normalizedKey k == k && k != []) = true := by decide +kernel
    intro e he
    have := List.all_eq_true.1 this e.1 (List.mem_map.2 ⟨e, he, rfl⟩)
    simpa using this
  · have : (sample.user.map (·.1)).all (fun k => !k.contains '.') = true := by decide +kernel
    intro e he
    have := List.all_eq_true.1 this e.1 (List.mem_map.2 ⟨e, he, rfl⟩)
    simpa using this
  · have : (sample.system.map (·.1)).all (fun k => normalizedKey k == k && k != []) = true := by decide +kernel
    intro e he
    have := List.all_eq_true.1 this e.1 (List.mem_map.2 ⟨e, he, rfl⟩)
    simpa using this
  · have : (sample.system.map (·.1)).all (fun k => !k.contains '.') = true := by decide +kernel
    intro e he
    have := List.all_eq_true.1 this e.1 (List.mem_map.2 ⟨e, he, rfl⟩)
    simpa using this

/-- `KeyOk` by computation. -/
def keyOk (k : Str) : Bool :=
  !k.contains ':' && !k.contains '\n' && !(k.head? == some '#') && !(k.head?.any isSpace) &&
    !(k.getLast?.any isSpace) && !forbidden.isPrefixOf k

theorem keyOk_ok {k : Str} (h : keyOk k = true) : KeyOk k := by
  unfold keyOk at h
  simp only [Bool.and_eq_true, Bool.not_eq_true', List.contains_eq_mem, decide_eq_false_iff_not] at h
  obtain ⟨⟨⟨⟨⟨h1, h2⟩, h3⟩, h4⟩, h5⟩, h6⟩ := h
  refine ⟨h1, h2, ?_, ?_, ?_⟩
  · intro he; rw [he] at h3; revert h3; decide
  · rintro c (hc | hc)
    · rw [hc] at h4; simpa using h4
    · rw [hc] at h5; simpa using h5
  · intro hp
    rw [List.isPrefixOf_iff_prefix.2 hp] at h6
    cases h6

theorem sample_vals : ∀ (e : Str × SVal), e ∈ sample.user ++ sample.system → ValOk e.2 := by
  intro e he
  simp only [sample, List.cons_append, List.nil_append, List.mem_cons, List.not_mem_nil, or_false] at he
  rcases he with rfl | rfl | rfl | rfl | rfl
  · show Literal.OneLine _; unfold Literal.OneLine; decide
  · show _ < _; decide
  · trivial
  · refine ⟨?_, ?_⟩
    · refine ⟨?_, ?_, trivial⟩ <;> (show Literal.OneLine _; unfold Literal.OneLine; decide)
    · exact ⟨trivial, trivial, trivial⟩
  · show Literal.OneLine _; unfold Literal.OneLine; decide

theorem value_from (s : St) (k : Str) (o : Scopes) (v : SVal) (h : value s k o = some v)
    (ho : o ≠ .both) : ∃ e ∈ s.user ++ s.system, e.2 = v := by
  unfold value at h
  cases o with
  | both => exact absurd rfl ho
  | user =>
    simp only [Scopes.hasUser, Scopes.hasSystem, if_true, Bool.false_eq_true, if_false] at h
    cases hg : get s.user (fileKey k) with
    | none => rw [hg] at h; cases h
    | some u =>
      rw [hg] at h
      simp only [Option.some.injEq] at h
      subst h
      exact ⟨_, List.mem_append.2 (Or.inl (get_mem hg)), rfl⟩
  | system =>
    simp only [Scopes.hasUser, Scopes.hasSystem, if_true, Bool.false_eq_true, if_false] at h
    exact ⟨_, List.mem_append.2 (Or.inr (get_mem h)), rfl⟩

/-- The theorem for texts is about something: it applies to `sample`. -/
example (t : St) (ht : AllTidy t) (k : Str) :
    value (importText t .user (exportText sample .user)).1 k .user = value sample k .user := by
  refine (C109_text_partial sample t .user sample_tidy ht ?_).2.1 k
  have hk : (allKeys sample .user).all keyOk = true := by decide +kernel
  intro k hm
  refine ⟨keyOk_ok (List.all_eq_true.1 hk k hm), ?_⟩
  intro v hv
  obtain ⟨e, he, rfl⟩ := value_from sample k .user v hv (by decide)
  exact sample_vals e he

/-- What the text looks like. -/
example : exportText ⟨[("a/b".toList, .hash (.bool true)), ("c".toList, .plain (.str "x\"y".toList))], []⟩ .user
    = "a.b: true\nc: \"x\\\"y\"\n".toList := by
  have hk : allKeys ⟨[("a/b".toList, .hash (.bool true)), ("c".toList, .plain (.str "x\"y".toList))], []⟩ .user
      = ["a.b".toList, "c".toList] := by decide +kernel
  unfold exportText
  rw [hk]
  with_unfolding_all rfl

/-- And the one for JSON. -/
def jsonSample : St :=
  ⟨[("defaultProfile".toList, .plain (.str "gcc".toList)),
    ("profiles/gcc/cpp/defines".toList, .plain (.list [.str "A".toList, .str "B".toList])),
    ("profiles/gcc/qbs/toolchain".toList, .plain (.list [.str "gcc".toList]))], []⟩

theorem json_tidy : AllTidy jsonSample := by
  refine ⟨⟨by decide +kernel, ?_, ?_⟩, tidy_nil⟩
  · have : (jsonSample.user.map (·.1)).all (fun k => normalizedKey k == k && k != []) = true := by decide +kernel
    intro e he
    have := List.all_eq_true.1 this e.1 (List.mem_map.2 ⟨e, he, rfl⟩)
    simpa using this
  · have : (jsonSample.user.map (·.1)).all (fun k => !k.contains '.') = true := by decide +kernel
    intro e he
    have := List.all_eq_true.1 this e.1 (List.mem_map.2 ⟨e, he, rfl⟩)
    simpa using this

example (t : St) (ht : AllTidy t) (k : Str) :
    value (importJson t .user (some (exportJson jsonSample .user))).1 k .user = value jsonSample k .user := by
  refine (C109_json_partial jsonSample t .user json_tidy ht ?_ ?_ ?_).2.1 k
  · have hk : (allKeys jsonSample .user).all (fun k => !forbidden.isPrefixOf k) = true := by decide +kernel
    intro k hm hp
    have := List.all_eq_true.1 hk k hm
    rw [List.isPrefixOf_iff_prefix.2 hp] at this
    cases this
  · intro k v hv
    obtain ⟨e, he, rfl⟩ := value_from jsonSample k .user v hv (by decide)
    simp only [jsonSample, List.append_nil, List.mem_cons, List.not_mem_nil, or_false] at he
    rcases he with rfl | rfl | rfl
    · trivial
    · exact ⟨trivial, trivial, trivial⟩
    · exact ⟨trivial, trivial⟩
  · have hk : (allKeys jsonSample .user).all (fun k => (allKeys jsonSample .user).all
        (fun k' => !(k ++ ['.']).isPrefixOf k')) = true := by decide +kernel
    intro k hm k' hm' hp
    have := List.all_eq_true.1 (List.all_eq_true.1 hk k hm) k' hm'
    rw [List.isPrefixOf_iff_prefix.2 hp] at this
    cases this

/-- What the calls look like. -/
example : (calls [] (exportJson jsonSample .user)).map (·.1)
    = ["defaultProfile".toList, "profiles.gcc.cpp.defines".toList, "profiles.gcc.qbs.toolchain".toList] := by
  decide +kernel

/-- The theorem for both scopes: `sample` has no value in both. -/
example : (allKeys sample .both).all keyOk = true ∧
    (∀ k l, value sample k .both = some (.plain (.list l)) → value sample k .system = none) := by
  refine ⟨by decide +kernel, ?_⟩
  intro k l h
  have hsys : value sample k .system = get sample.system (fileKey k) := by
    simp [value, Scopes.hasUser, Scopes.hasSystem]
  rw [hsys]
  cases hg : get sample.system (fileKey k) with
  | none => rfl
  | some w =>
    exfalso
    have hm := get_mem hg
    simp only [sample, List.mem_cons, List.not_mem_nil, or_false, Prod.mk.injEq] at hm
    have hu : get sample.user (fileKey k) = none := by
      rw [hm.1, get_none_iff]
      decide +kernel
    unfold value at h
    simp only [Scopes.hasUser, Scopes.hasSystem, if_true, hu] at h
    rw [hg, hm.2] at h
    simp at h

/-- A profile that replaces another one. -/
example : NameOk "gcc".toList ∧
    (∀ p ∈ [("cpp.defines".toList, "[\"X\"]".toList), ("qbs.optimization".toList, "fast".toList)], PropertyOk p.1) := by
  refine ⟨⟨by decide, by decide, by decide, by decide⟩, ?_⟩
  intro p hp
  simp only [List.mem_cons, List.not_mem_nil, or_false] at hp
  rcases hp with rfl | rfl
  · exact ⟨by decide +kernel, by decide⟩
  · exact ⟨by decide +kernel, by decide⟩

example : ((addProfile sample .user "gcc".toList [("qbs.optimization".toList, "fast".toList)]).1.user.map (·.1))
    = ["profiles/gcc/qbs/optimization".toList, "defaultProfile".toList, "preferences/jobs".toList,
       "preferences/useColoredOutput".toList] := by decide +kernel

/-- Removing two settings of `sample`. -/
example : (unset sample .user ["preferences".toList, "defaultProfile".toList]).user.map (·.1)
    = ["profiles/gcc/cpp/defines".toList] := by decide +kernel

/-- Setting a value. -/
example : fileKey "preferences.jobs".toList ≠ [] ∧ ¬ forbidden <+: "preferences.jobs".toList :=
  ⟨by decide +kernel, by decide +kernel⟩

/-! ### Findings: text -/

theorem readLines_split (text : Str) : (readLines text).filterMap readLine
    = ((readLines text).filterMap splitLine).map (fun p => (p.1, representationToSettingsValue p.2)) := by
  rw [List.map_filterMap]
  rfl

/-- Text that is no literal is a string. -/
theorem representation_string {s : Str} (h0 : s ≠ []) (h : (Literal.evaluate s).isNone = true) :
    representationToSettingsValue s = .plain (.str s) := by
  have hv : variantFromString s = none := by
    unfold variantFromString
    rw [if_neg h0, Option.isNone_iff_eq_none.1 h]
    rfl
  have : representationToVariant s = .str s := by
    unfold representationToVariant
    rw [hv]
  unfold representationToSettingsValue
  rw [this]

/-- **C109 finding.** The second line of a string becomes a setting of its own when exported settings are
imported, and the first line gets a quote in front. Here the string `x`, end of line, `b: evil`. -/
theorem C109_line_break (t : St) (ht : AllTidy t) :
    let s : St := ⟨[("a".toList, .plain (.str "x\nb: evil".toList))], []⟩
    value s "b".toList .user = none ∧
    (importText t .user (exportText s .user)).2 = true ∧
    value (importText t .user (exportText s .user)).1 "a".toList .user = some (.plain (.str "\"x".toList)) ∧
    value (importText t .user (exportText s .user)).1 "b".toList .user = some (.plain (.str "evil\"".toList)) := by
  intro s
  have hk : allKeys s .user = ["a".toList] := by decide +kernel
  have he : exportText s .user = "a: \"x\nb: evil\"\n".toList := by
    unfold exportText
    rw [hk]
    with_unfolding_all rfl
  have hr : (readLines "a: \"x\nb: evil\"\n".toList).filterMap readLine
      = [("a".toList, .plain (.str "\"x".toList)), ("b".toList, .plain (.str "evil\"".toList))] := by
    have : (readLines "a: \"x\nb: evil\"\n".toList).filterMap splitLine
        = [("a".toList, "\"x".toList), ("b".toList, "evil\"".toList)] := by decide +kernel
    rw [readLines_split, this, List.map_cons, List.map_cons, representation_string (by decide) (by decide +kernel),
      representation_string (by decide) (by decide +kernel)]
    rfl
  unfold importText
  rw [he, hr, cleared_nil ht]
  refine ⟨?_, ?_, ?_, ?_⟩ <;> with_unfolding_all rfl

/-- **C109 finding.** A setting whose name begins with `#` is exported, but the line is taken for a comment
when it is imported. -/
theorem C109_comment (t : St) (ht : AllTidy t) :
    let s : St := ⟨[("#x/y".toList, .plain (.str "z".toList))], []⟩
    (importText t .user (exportText s .user)).2 = true ∧
    value s "#x.y".toList .user = some (.plain (.str "z".toList)) ∧
    value (importText t .user (exportText s .user)).1 "#x.y".toList .user = none := by
  intro s
  have hk : allKeys s .user = ["#x.y".toList] := by decide +kernel
  have he : exportText s .user = "#x.y: \"z\"\n".toList := by
    unfold exportText
    rw [hk]
    with_unfolding_all rfl
  have hr : (readLines "#x.y: \"z\"\n".toList).filterMap readLine = [] := by
    with_unfolding_all rfl
  unfold importText
  rw [he, hr, cleared_nil ht]
  refine ⟨?_, ?_, ?_⟩ <;> with_unfolding_all rfl

/-- **C109 finding.** A setting with a colon in its name, such as a property of a profile `a:b`, becomes
another setting. -/
theorem C109_colon (t : St) (ht : AllTidy t) :
    let s : St := ⟨[("profiles/a:b/x".toList, .plain (.str "z".toList))], []⟩
    (importText t .user (exportText s .user)).2 = true ∧
    value (importText t .user (exportText s .user)).1 "profiles.a:b.x".toList .user = none ∧
    value (importText t .user (exportText s .user)).1 "profiles.a".toList .user
      = some (.plain (.str "b.x: \"z\"".toList)) := by
  intro s
  have hk : allKeys s .user = ["profiles.a:b.x".toList] := by decide +kernel
  have he : exportText s .user = "profiles.a:b.x: \"z\"\n".toList := by
    unfold exportText
    rw [hk]
    with_unfolding_all rfl
  have hr : (readLines "profiles.a:b.x: \"z\"\n".toList).filterMap readLine
      = [("profiles.a".toList, .plain (.str "b.x: \"z\"".toList))] := by
    have : (readLines "profiles.a:b.x: \"z\"\n".toList).filterMap splitLine
        = [("profiles.a".toList, "b.x: \"z\"".toList)] := by decide +kernel
    rw [readLines_split, this, List.map_cons, representation_string (by decide) (by decide +kernel)]
    rfl
  unfold importText
  rw [he, hr, cleared_nil ht]
  refine ⟨?_, ?_, ?_⟩ <;> with_unfolding_all rfl

/-- **C109 finding.** Exporting without `--user` and `--system` and importing the file again makes lists
longer: the entries for the whole system are then in the user's list as well. Each time they are added
once more. -/
theorem C109_lists_grow :
    let s : St := ⟨[("p".toList, .plain (.list [.str "u".toList]))], [("p".toList, .plain (.list [.str "w".toList]))]⟩
    value s "p".toList .both = some (.plain (.list [.str "u".toList, .str "w".toList])) ∧
    value (importText s .both (exportText s .both)).1 "p".toList .both
      = some (.plain (.list [.str "u".toList, .str "w".toList, .str "w".toList])) := by
  intro s
  have hk : allKeys s .both = ["p".toList] := by decide +kernel
  have he : exportText s .both = "p: [\"u\", \"w\"]\n".toList := by
    unfold exportText
    rw [hk]
    with_unfolding_all rfl
  have hr : (readLines "p: [\"u\", \"w\"]\n".toList).filterMap readLine
      = [("p".toList, .plain (.list [.str "u".toList, .str "w".toList]))] := by
    have : (readLines "p: [\"u\", \"w\"]\n".toList).filterMap splitLine
        = [("p".toList, "[\"u\", \"w\"]".toList)] := by decide +kernel
    have hl : "[\"u\", \"w\"]".toList
        = settingsValueToRepresentation (.plain (.list [.str "u".toList, .str "w".toList])) := by
      with_unfolding_all rfl
    rw [readLines_split, this, List.map_cons, hl, representation_back]
    · rfl
    · refine ⟨?_, trivial, trivial, trivial⟩
      refine ⟨?_, ?_, trivial⟩ <;> (show Literal.OneLine _; unfold Literal.OneLine; decide)
  have hc : cleared s .both = [] := by
    apply cleared_nil
    refine ⟨⟨by decide, ?_, by decide⟩, ⟨by decide, ?_, by decide⟩⟩ <;>
    · intro e he
      have : e.1 = "p".toList := by simp [s] at he; simp [he]
      rw [this]
      exact ⟨by decide +kernel, by decide⟩
  refine ⟨by with_unfolding_all rfl, ?_⟩
  unfold importText
  rw [he, hr, hc]
  with_unfolding_all rfl

/-- **C109 finding.** An import that fails leaves neither the old settings nor the new ones: everything is
removed first, and what comes after the line that is refused is missing. -/
theorem C109_failed_import (t : St) (ht : AllTidy t) :
    (importText t .user "a: 1\nprofiles.nonesuch.x: 2\nb: 3\n".toList).2 = false ∧
    (importText t .user "a: 1\nprofiles.nonesuch.x: 2\nb: 3\n".toList).1.user = [("a".toList, .hash (.int 1))] := by
  have hr : (readLines "a: 1\nprofiles.nonesuch.x: 2\nb: 3\n".toList).filterMap readLine
      = [("a".toList, .hash (.int 1)), ("profiles.nonesuch.x".toList, .hash (.int 2)), ("b".toList, .hash (.int 3))] := by
    have : (readLines "a: 1\nprofiles.nonesuch.x: 2\nb: 3\n".toList).filterMap splitLine
        = [("a".toList, "1".toList), ("profiles.nonesuch.x".toList, "2".toList), ("b".toList, "3".toList)] := by
      decide +kernel
    have h1 : "1".toList = settingsValueToRepresentation (.hash (.int 1)) := by with_unfolding_all rfl
    have h2 : "2".toList = settingsValueToRepresentation (.hash (.int 2)) := by with_unfolding_all rfl
    have h3 : "3".toList = settingsValueToRepresentation (.hash (.int 3)) := by with_unfolding_all rfl
    rw [readLines_split, this, List.map_cons, List.map_cons, List.map_cons, h1, h2, h3,
      representation_back _ (by show _ < _; decide), representation_back _ (by show _ < _; decide),
      representation_back _ (by show _ < _; decide)]
    rfl
  unfold importText
  rw [hr, cleared_nil ht]
  constructor <;> with_unfolding_all rfl

/-! ### Findings: JSON -/

/-- **C109 finding.** Importing a file that is not valid JSON removes all settings and reports no error. -/
theorem C109_json_not_valid (t : St) (ht : AllTidy t) (o : Scopes) :
    (importJson t o none).2 = true ∧ target (importJson t o none).1 o = [] := by
  unfold importJson
  rw [cleared_nil ht]
  refine ⟨rfl, ?_⟩
  rw [target_setTarget]
  rfl

/-- **C109 finding.** A setting below another setting is not exported to JSON, so it is gone after the
import. -/
theorem C109_json_group (t : St) (ht : AllTidy t) :
    let s : St := ⟨[("a".toList, .plain (.str "x".toList)), ("a/b".toList, .plain (.str "y".toList))], []⟩
    value s "a.b".toList .user = some (.plain (.str "y".toList)) ∧
    value (importJson t .user (some (exportJson s .user))).1 "a.b".toList .user = none := by
  intro s
  have hc : calls [] (exportJson s .user) = [("a".toList, .plain (.str "x".toList))] := by
    have hd : directChildren s [] .user = ["a".toList] := by decide +kernel
    have : exportJson s .user = [("a".toList, .str "x".toList)] := by
      unfold exportJson
      rw [toJson, hd]
      with_unfolding_all rfl
    rw [this]
    rfl
  refine ⟨by with_unfolding_all rfl, ?_⟩
  unfold importJson
  rw [Option.getD_some, hc, cleared_nil ht]
  with_unfolding_all rfl

/-- **C109 finding.** Booleans and integers lose their type on the way through JSON: the next `qbs` reads a
string. -/
theorem C109_json_type (t : St) (ht : AllTidy t) :
    let s : St := ⟨[("a".toList, .hash (.bool false))], []⟩
    (value s "a".toList .user).map (fun v => settingsValueToRepresentation (reread v)) = some "false".toList ∧
    (value (importJson t .user (some (exportJson s .user))).1 "a".toList .user).map
      (fun v => settingsValueToRepresentation (reread v)) = some "\"false\"".toList := by
  intro s
  have hc : calls [] (exportJson s .user) = [("a.".toList, .plain (.bool false))] := by
    have hd : directChildren s [] .user = ["a".toList] := by decide +kernel
    have : exportJson s .user = [("a".toList, .obj [([], .bool false)])] := by
      unfold exportJson
      rw [toJson, hd]
      with_unfolding_all rfl
    rw [this]
    with_unfolding_all rfl
  refine ⟨by with_unfolding_all rfl, ?_⟩
  unfold importJson
  rw [Option.getD_some, hc, cleared_nil ht]
  with_unfolding_all rfl

/-- **C109 finding.** A setting that is a map becomes several settings. -/
theorem C109_json_map (t : St) (ht : AllTidy t) :
    let s : St := ⟨[("a".toList, .plain (.map [("k".toList, .str "x".toList)]))], []⟩
    value (importJson t .user (some (exportJson s .user))).1 "a".toList .user = none ∧
    value (importJson t .user (some (exportJson s .user))).1 "a.k".toList .user = some (.plain (.str "x".toList)) := by
  intro s
  have hc : calls [] (exportJson s .user) = [("a.k".toList, .plain (.str "x".toList))] := by
    have hd : directChildren s [] .user = ["a".toList] := by decide +kernel
    have : exportJson s .user = [("a".toList, .obj [("k".toList, .str "x".toList)])] := by
      unfold exportJson
      rw [toJson, hd]
      with_unfolding_all rfl
    rw [this]
    with_unfolding_all rfl
  unfold importJson
  rw [Option.getD_some, hc, cleared_nil ht]
  constructor <;> with_unfolding_all rfl

/-! ### Findings: profiles and single settings -/

/-- **C110 finding.** No profile can be made whose name begins with "none", such as `nonesuch`: the check
for the special name looks at the beginning only. -/
theorem C110_none (s : St) (o : Scopes) (rest : Str) (p : Str × Str) (l : List (Str × Str)) :
    (addProfile s o ("none".toList ++ rest) (p :: l)).2 = false := by
  unfold addProfile
  simp only [List.map_cons]
  unfold setValues setValue
  rw [if_pos]
  rw [List.isPrefixOf_iff_prefix]
  exact ⟨rest ++ '.' :: p.1, by
    have h1 : forbidden = "profiles.".toList ++ "none".toList := by decide
    rw [h1]
    simp only [List.append_assoc]⟩

/-- **C110 finding.** `--add-profile a.b` makes no profile `a.b`: it replaces properties of profile `a`. -/
theorem C110_dot :
    let s : St := ⟨[("profiles/a/b/x".toList, .plain (.str "old".toList)), ("profiles/a/c".toList, .plain (.str "z".toList))], []⟩
    (addProfile s .user "a.b".toList [("y".toList, "new".toList)]).2 = true ∧
    (addProfile s .user "a.b".toList [("y".toList, "new".toList)]).1.user.map (·.1)
      = ["profiles/a/b/y".toList, "profiles/a/c".toList] := by
  decide +kernel

/-- **C110 finding.** `qbs config --unset ''` removes all settings. -/
theorem C110_unset_nothing (s : St) (o : Scopes) : target (unset s o [[]]) o = [] := by
  unfold unset
  rw [target_setTarget]
  rfl

end Verif.Config
