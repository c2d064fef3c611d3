import Verif.Validator.Props

/-! # Cases of C133 -/

namespace Verif.Validator

open Spec

/-- The text is a version with three components; it is valid with 2 to 3, and not with 1 to 2 or 4 to 4. -/
example : IsVersion 3 "10.0.42".toList :=
  ⟨"10".toList, ["0".toList, "42".toList], rfl, ⟨by decide, by decide⟩, by
    intro x hx
    rcases List.mem_cons.mp hx with h | hx
    · subst h; exact ⟨by decide, by decide⟩
    · rw [List.mem_singleton] at hx; subst hx; exact ⟨by decide, by decide⟩, rfl⟩

example : versionValid (some 2) (some 3) false (.str "10.0.42".toList) = true ∧
    versionValid (some 1) (some 2) false (.str "10.0.42".toList) = false ∧
    versionValid (some 4) (some 4) false (.str "10.0.42".toList) = false ∧
    versionValid none none false (.str "10.0.42-rc".toList) = false ∧
    versionValid (some 2) none true (.str "10.0.42-rc".toList) = true ∧
    versionValid (some 4) none true (.str "10.0.42-rc".toList) = false ∧
    versionValid (some 1) (some 2) false (.str "10.".toList) = false ∧
    versionValid none none false .undefined = false := by decide +kernel

/-- `C133_max_one` and `C133_suffix_no_max` on texts -/
example : boundsOk (some 1) (some 1) = true ∧ versionValid (some 1) (some 1) false (.str "1.2.3".toList) = true ∧
    boundsOk (some 2) (some 2) = true ∧ versionValid (some 2) (some 2) true (.str "1.2.3".toList) = true := by decide +kernel

example : rangeValid (some (.fin unit)) none false (.num (.fin (5 * unit))) = true ∧
    rangeValid (some (.fin unit)) none false (.num (.fin 0)) = false ∧
    rangeValid (some (.fin unit)) none false (.num (.fin (unit + 1))) = false ∧
    rangeValid none (some (.fin unit)) true (.num (.fin (unit - 1))) = true ∧
    rangeValid none (some (.fin unit)) true (.num (.inf false)) = false ∧
    rangeValid none (some (.fin unit)) true (.str "1".toList) = false := by decide +kernel

/-- The path was set twice; only the second call counts. -/
def wRequired : List Required :=
  [⟨"path".toList, .undefined, some "set it".toList⟩, ⟨"version".toList, .str [], some "give one".toList⟩,
   ⟨"path".toList, .str "/usr".toList, none⟩]

def wChecks : List Check :=
  [⟨"version".toList, .str "1".toList, versionValid (some 2) (some 3) false, "bad version".toList⟩,
   ⟨"name".toList, .num .nan, fun _ => false, "bad name".toList⟩,
   ⟨"version".toList, .str "1".toList, fun v => v = .str "2".toList, "not 2".toList⟩,
   ⟨"path".toList, .str "/usr".toList, fun _ => true, "bad path".toList⟩]

example : validate wRequired wChecks true =
    .thrown [("version".toList, some "give one".toList)]
      [("version".toList, some "bad version".toList), ("version".toList, some "not 2".toList), ("name".toList, some "bad name".toList)] ∧
    validate wRequired wChecks false = .returned false ∧
    validate (wRequired.drop 2) (wChecks.drop 3) true = .returned true := by decide +kernel

example : Last wRequired ⟨"path".toList, .str "/usr".toList, none⟩ ∧ Missing (.str []) :=
  ⟨⟨wRequired.take 2, [], by decide +kernel, by simp⟩, Or.inr (Or.inr rfl)⟩

example : fileNameValid "a b.txt".toList = true ∧ fileNameValid "a/b".toList = false ∧ fileNameValid "..".toList = false ∧
    fileNameValid "a\n".toList = false ∧ fileNameValid "...".toList = true := by decide +kernel

end Verif.Validator
