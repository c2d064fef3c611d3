import Verif.Exported.Props

/-! Concrete cases that meet the hypotheses of the theorems for C123. -/
namespace Verif.Exported

abbrev maps : List (Str × Str) := [("/opt/x".toList, "A".toList), ("/usr".toList, "B".toList),
  ("/usr".toList, "C".toList)]

example : stringMapper (prefixMap maps) "/home/a".toList = "/home/a".toList :=
  C123_unmapped maps _ (by decide)

example : stringMapper (prefixMap maps) "/usr/lib".toList = "C/lib".toList :=
  C123_mapped maps "/usr/lib".toList "/usr".toList "C".toList (by decide) (by decide) (by decide)

example : stringMapper (prefixMap [("/usr".toList, "R".toList), ("/usr/lib".toList, "L".toList)])
    "/usr/lib/a".toList = "R/lib/a".toList :=
  (C123_specific ("/usr".toList, "R".toList) ("/usr/lib".toList, "L".toList) "/a".toList
    (by decide) (by decide)).1

example : stringMapper (prefixMap [([], "R".toList), ("/usr".toList, "L".toList)]) "/usr/lib".toList =
    "R/usr/lib".toList :=
  C123_empty _ "R".toList _ (by decide)

abbrev shadow : Shadow := ⟨"__shadow__p".toList, "/build/s".toList⟩

example : listMapper shadow (prefixMap maps) ["/usr/a".toList, "/build/s/x".toList, "-D__SHADOW__P".toList,
    "b".toList] = ["C/a".toList, "b".toList] := by
  rw [C123_list]; decide +kernel

example : refers shadow "-I/build/s/x".toList = true :=
  (C123_refers _ _).mpr (.inr ⟨"-I".toList, "/x".toList, by decide⟩)

abbrev props : List (Str × Val) := [("a".toList, .str "/usr/a".toList), ("b".toList, .other 3),
  ("c".toList, .str "/build/s/x".toList), ("d".toList, .list ["/usr/a".toList])]

example : (("b".toList, Val.other 3)) ∈ adapt shadow maps props :=
  ((C123_names shadow maps props).2 _ _).mpr (by decide)
example : (("a".toList, Val.str "C/a".toList)) ∈ adapt shadow maps props :=
  (C123_values shadow maps props _).1 "/usr/a".toList (by decide)
example : refers shadow "/build/s/x".toList = true ∧
    ("c".toList, Val.str "/build/s/x".toList) ∈ adapt shadow maps props :=
  ⟨by decide +kernel, C123_string_refers _ _ _ _ (by decide) _ (by decide)⟩
example : ("d".toList, Val.list ["/usr/a".toList]) ∈ adapt shadow maps props :=
  C123_untyped _ _ _ _ _ (by decide)

abbrev exp : Export := ⟨[("k".toList, "v".toList)], [⟨"z".toList, [("o".toList, "p".toList)]⟩, ⟨"b".toList, []⟩,
  ⟨"z".toList, []⟩]⟩

example : "z".toList ∈ depNames exp ∧ depNames exp = ["b".toList, "z".toList] :=
  ⟨((C123_products exp).2 _).mpr ⟨⟨"z".toList, []⟩, by decide, rfl⟩, by decide⟩
example : ("b".toList, [("k".toList, "v".toList)]) ∈ depParams exp :=
  (C123_params exp _).mpr ⟨by decide, rfl, ⟨"b".toList, []⟩, by decide, rfl⟩

/-- Two modules that depend on each other, one that was not found, and `qbs`. -/
abbrev mods : List Mod := [⟨["a".toList], true, false, false, [1, 2, 3]⟩,
  ⟨["b".toList], true, false, false, [0]⟩, ⟨["c".toList], false, false, false, [1]⟩, ⟨[sQbs], true, false, false, []⟩]

theorem mods_one : OneEach mods := by
  rintro i j n ⟨a, ha, pa⟩ ⟨b, hb, pb⟩ ⟨a', ha', na⟩ ⟨b', hb', nb⟩
  rw [ha] at ha'; cases ha'
  rw [hb] at hb'; cases hb'
  have hi := (List.getElem?_eq_some_iff.mp ha).1
  have hj := (List.getElem?_eq_some_iff.mp hb).1
  simp only [mods, List.length_cons, List.length_nil] at hi hj
  match i, hi, j, hj with
  | 0, _, 0, _ | 1, _, 1, _ | 2, _, 2, _ | 3, _, 3, _ => rfl
  | 0, _, 1, _ | 0, _, 2, _ | 0, _, 3, _ | 1, _, 0, _ | 1, _, 2, _ | 1, _, 3, _ | 2, _, 0, _ | 2, _, 1, _
  | 2, _, 3, _ | 3, _, 0, _ | 3, _, 1, _ | 3, _, 2, _ =>
    simp [mods] at ha hb
    subst ha hb
    rw [← nb] at na
    revert na
    decide

example : ["b".toList] ∈ moduleDeps mods [0] :=
  (C123_modules mods [0] mods_one _).mpr
    ⟨1, .sub (i := 0) (.direct (by decide) ⟨_, rfl, rfl, rfl, by decide, rfl⟩) rfl (by decide)
      ⟨_, rfl, rfl, rfl, by decide, rfl⟩, _, rfl, rfl⟩
example : moduleDeps mods [0, 1] = [["a".toList], ["b".toList]] ∧ (moduleDeps mods [0, 1]).Nodup :=
  ⟨by decide, C123_modules_once _ _⟩

end Verif.Exported
