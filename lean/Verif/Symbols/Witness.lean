import Verif.Symbols.Props

/-! # Cases of C136, and findings -/

namespace Verif.Symbols

open Spec

def wOld : Nm := ⟨["f T 1000 10".toList, "g W 1100 8".toList, "table D 4000 40".toList, "puts U".toList], ["puts U".toList]⟩

/-- Other addresses -/
def wMoved : Nm := ⟨["f T 1010 10".toList, "g W 1200 8".toList, "table D 4000 40".toList, "puts U".toList], ["puts U".toList]⟩

/-- Another weak symbol, and another undefined one -/
def wWeak : Nm := ⟨["f T 1010 10".toList, "h W 1200 8".toList, "table D 4000 40".toList, "exit U".toList], ["exit U".toList]⟩

/-- A new function -/
def wNew : Nm := ⟨["e T 1000 10".toList, "f T 1010 10".toList, "table D 4000 40".toList], []⟩

example : Proper wOld ∧ Proper wMoved ∧ Proper wWeak ∧ Proper wNew := by
  unfold Proper
  decide +kernel

example : relevant false wOld = [("f".toList, some "T".toList), ("table".toList, some "D".toList)] ∧ relevant true wOld = relevant true wMoved ∧
    relevant false wOld = relevant false wWeak ∧ relevant true wOld ≠ relevant true wWeak := by decide +kernel

example : (history false none [some wOld, some wMoved, some wWeak, none, some wNew]).1 = [true, false, false, false, true] ∧
    (history true none [some wOld, some wMoved, some wWeak, none, some wNew]).1 = [true, false, true, false, true] := by decide +kernel

example : symbol "f T 1000 10".toList = ("f".toList, some "T".toList) ∧ symbol "puts U   ".toList = ("puts".toList, some "U".toList) ∧
    symbol "puts".toList = ("puts".toList, none) := by decide +kernel

/-- **C136 finding.** If `nm` fails, the file is left as it is: after a build with other symbols the users of the library are not linked
again. If it fails in the first build, there is no symbol file at all, although it is an output of the rule. -/
theorem C136_nm_fails (strict : Bool) (file : Option (List Str)) :
    step strict file none = (file, false) ∧ (history strict none [none]).2 = none := ⟨rfl, rfl⟩

/-- **C136 finding.** The sizes of symbols are not compared, in no mode: when an exported variable becomes larger, the executables that have a
copy of it, made by the linker, are not linked again. -/
theorem C136_size :
    ∃ (n m : Nm), Proper n ∧ Proper m ∧ "table D 4000 40".toList ∈ n.all ∧ "table D 4000 80".toList ∈ m.all ∧
      ∀ strict, (history strict none [some n, some m]).1 = [true, false] := by
  refine ⟨⟨["table D 4000 40".toList], []⟩, ⟨["table D 4000 80".toList], []⟩, ?_, ?_, by simp, by simp, ?_⟩
  · unfold Proper; decide +kernel
  · unfold Proper; decide +kernel
  · intro strict
    cases strict <;> decide +kernel

end Verif.Symbols
