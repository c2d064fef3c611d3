import Verif.Command.EqualProps
/-! # Concrete cases for C74, C76, C77, C78 and C79 -/

namespace Verif.Command
open Verif.Shell (Os Str)

/-- The environment of the build in the examples. -/
def buildEnv : Env := [("PATH".toList, "/usr/bin:/bin".toList), ("LANG".toList, "C".toList)]

def entries : List Str := ["LANG=de".toList, "PATH=/opt/bin".toList, "LANG=a=b".toList, "X=".toList, "=y".toList]

/-- C74_value_set: the last entry counts, and only the first equals sign. -/
theorem lang_set : Spec.Sets (sameVar .unix) entries "LANG".toList "a=b".toList := by
  refine ⟨["LANG=de".toList, "PATH=/opt/bin".toList], "LANG=a=b".toList, ["X=".toList, "=y".toList], rfl,
    ⟨by decide, "LANG".toList, by decide, by decide, by decide, rfl⟩, ?_⟩
  intro e he v ⟨hv, name, h1, h2, h3, h4⟩
  have hn : "LANG".toList = name := by simpa [sameVar] using h3
  subst hn
  rcases List.mem_cons.mp he with rfl | he
  · exact absurd h4 (by simp)
  · rw [List.mem_singleton] at he
    subst he
    exact absurd h4 (by simp)

example : lookup .unix (mergeEnvironments .unix buildEnv (fromList .unix entries)) "LANG".toList = some "a=b".toList :=
  C74_value_set .unix buildEnv entries _ _ lang_set (by decide)

/-- C74_search_order. -/
theorem path_set : Spec.Sets (sameVar .unix) entries "PATH".toList "/opt/bin".toList := by
  refine ⟨["LANG=de".toList], "PATH=/opt/bin".toList, ["LANG=a=b".toList, "X=".toList, "=y".toList], rfl,
    ⟨by decide, "PATH".toList, by decide, by decide, by decide, rfl⟩, ?_⟩
  intro e he v ⟨hv, name, h1, h2, h3, h4⟩
  have hn : "PATH".toList = name := by simpa [sameVar] using h3
  subst hn
  simp only [List.mem_cons, List.not_mem_nil, or_false] at he
  rcases he with rfl | rfl | rfl <;> exact absurd h4 (by simp)

example : ∃ z, lookup .unix (mergeEnvironments .unix buildEnv (fromList .unix entries)) "PATH".toList = some z ∧
    Spec.Directories ':' z ["/opt/bin".toList, "/usr/bin".toList, "/bin".toList] :=
  C74_search_order .unix buildEnv entries _ _ "/usr/bin:/bin".toList path_set ⟨"PATH".toList, by decide, by decide⟩ (by decide)
    ["/opt/bin".toList] ["/usr/bin".toList, "/bin".toList]
    ⟨["/opt/bin".toList], by decide, by decide, by decide, by decide⟩
    ⟨["/usr/bin".toList, "/bin".toList], by decide, by decide, by decide, by decide⟩

/-- C74_new_list. -/
example : lookup .unix (mergeEnvironments .unix [] (fromList .unix entries)) "PATH".toList = some "/opt/bin".toList :=
  C74_new_list .unix [] entries _ _ path_set (.inl rfl)

/-- C74_others_kept: `X` is assigned the empty value only; C74_not_emptied. -/
example : lookup .unix (mergeEnvironments .unix [("X".toList, "1".toList)] (fromList .unix ["X=".toList])) "X".toList =
    some "1".toList :=
  C74_not_emptied .unix [("X".toList, "1".toList)] [] "X".toList (by decide) (by simp)

/-- On Windows the names may differ in case. -/
example : lookup .windows (mergeEnvironments .windows [("Path".toList, "C:/a".toList)] (fromList .windows ["PATH=D:/b".toList]))
    "path".toList = some "D:/b;C:/a".toList := by decide +kernel

/-- C76_first_in_path_partial, after another command has looked for the same program. -/
example :
    let exec := fun p => p == "/bin/cc".toList
    Spec.Found exec ["/usr/bin".toList, "/bin".toList] "/w".toList "cc".toList
      (findExecutable exec "/usr/bin:/bin".toList
        (lookups "/usr/bin:/bin".toList [] [⟨exec, "cc".toList, "/v".toList⟩]) "cc".toList "/w".toList).1 :=
  C76_first_in_path_partial _ _ _ _ _ _ (by decide)
    ⟨["/usr/bin".toList, "/bin".toList], by decide, by decide, by decide, by decide⟩
    (by intro l hl; rw [List.mem_singleton] at hl; subst hl; exact ⟨rfl, .inr (by decide)⟩)

example : (findExecutable (fun p => p == "/bin/cc".toList) "/usr/bin:/bin".toList [] "cc".toList "/w".toList).1 =
    "/bin/cc".toList := by decide +kernel

/-- C76_not_found_again. -/
example : (findExecutable (fun _ => true) "/bin".toList
    (lookups "/bin".toList [] [⟨fun _ => false, "cc".toList, []⟩]) "cc".toList []).1 = "cc".toList :=
  C76_not_found_again _ _ _ _ _ _ (by decide) (by decide) ["/bin".toList]
    ⟨["/bin".toList], by decide, by decide, by decide, by decide⟩ (by intros; rfl)

/-- C77_same_arguments_partial: quotes, blanks and a response file among the arguments. -/
def gnuFiles : Str → Option Str := fun f => if f = "objs".toList then some "a.o 'b c.o'".toList else none

theorem objs_complete : Spec.Complete "a.o 'b c.o'".toList := by
  intro b rest hb
  have key : Spec.gnuOptions ("a.o 'b c.o'".toList ++ b :: rest) =
      "a.o".toList :: Spec.gnu none false (some "b c.o".toList) (b :: rest) := by
    show Spec.gnu none false none ('a' :: '.' :: 'o' :: ' ' :: '\'' :: 'b' :: ' ' :: 'c' :: '.' :: 'o' :: '\'' :: (b :: rest)) = _
    generalize b :: rest = r
    simp [Spec.gnu, Spec.isBlank]
  rw [key, gnu_blank b hb]
  rfl

def gnuArgs : List Str := ["-o".toList, "it's".toList, "@objs".toList, [], "-DX=\"y\"".toList]

example :
    ∃ args content, startArguments gnuFiles "tmp".toList "/cc".toList { sample gnuArgs with responseFileArgumentIndex := 1 } =
        .viaFile args content ∧
      Spec.expand (fun f => if f = "tmp".toList then some content else gnuFiles f) ['@'] args =
        ["-o".toList, "it's".toList, "a.o".toList, "b c.o".toList, [], "-DX=\"y\"".toList] := by
  rcases C77_same_arguments_partial gnuFiles "tmp".toList "/cc".toList { sample gnuArgs with responseFileArgumentIndex := 1 }
      (by decide) ⟨by decide, by decide⟩ (by decide)
      (by
        intro a ha hp
        refine ⟨"a.o 'b c.o'".toList, ?_, objs_complete⟩
        have : a = "@objs".toList := by
          simp only [sample, gnuArgs, List.mem_cons, List.not_mem_nil, or_false] at ha
          rcases ha with rfl | rfl | rfl | rfl | rfl
          · exact absurd hp (by decide)
          · exact absurd hp (by decide)
          · rfl
          · exact absurd hp (by decide)
          · exact absurd hp (by decide)
        subst this
        decide)
      (by decide) with h | ⟨args, content, h1, h2⟩
  · exact absurd h (by decide +kernel)
  · exact ⟨args, content, h1, h2.trans (by decide +kernel)⟩

/-- C77_when_used: just at the threshold. -/
example : startArguments gnuFiles [] "/cc".toList { sample ["-c".toList] with responseFileThreshold := 6 } =
      .direct ["-c".toList] ∧
    startArguments gnuFiles [] "/cc".toList { sample ["-c".toList] with responseFileThreshold := 5 } =
      .viaFile [['@']] "-c\n".toList := by
  decide +kernel

/-- C77_negative_index. -/
example : startArguments gnuFiles [] "/cc".toList { sample ["-c".toList] with responseFileArgumentIndex := -1 } = .undefined :=
  C77_negative_index _ _ _ _ (by decide) (by decide) (by decide) (by decide)

/-- C78. -/
example : (getProcessOutput [] "a\n\n b\nc\n\n".toList).lines = ["a".toList, " b".toList, "c".toList] := by decide +kernel

/-- C79: a changed value in the environment is noticed; the order of the variables does not matter. -/
example :
    let c : Command := { program := "cc".toList, arguments := ["-c".toList] }
    equals .unix { c with environment := [("A".toList, "1".toList), ("B".toList, "2".toList)] }
        { c with environment := [("B".toList, "2".toList), ("A".toList, "1".toList)] } = true ∧
      equals .unix { c with environment := [("A".toList, "1".toList)] } { c with environment := [("A".toList, "2".toList)] } = false ∧
      listEquals .unix [c] [c, c] = false := by
  decide +kernel

/-- C76_recorded. -/
example : lookup .unix (recordEnv buildEnv { program := "cc".toList, arguments := [] }) "PATH".toList =
      some "/usr/bin:/bin".toList ∧
    lookup .unix (recordEnv buildEnv { program := "/cc".toList, arguments := [] }) "PATH".toList = none := by
  decide +kernel

end Verif.Command
