import Verif.EnvSetup.Props

/-! Cases that meet the hypotheses of the theorems in `Props`. -/

namespace Verif.EnvSetup.Witness

/-- Environments: lists of assignments. A script adds its mark at the end, or fails. -/
def adds (w : String) : Kind → Option (List String → Option (List String))
  | .build => some (fun e => some (e ++ [w]))
  | .run c => some (fun e => if c = ["bad"] then none else some (e ++ [w ++ "-run"] ++ c))

/-- A diamond: `app` needs `left` and `right`, which both need `base`. -/
def diamond : List (Module String (List String)) :=
  [⟨"app", ["left", "right"], adds "app"⟩, ⟨"left", ["base"], adds "left"⟩,
   ⟨"right", ["base"], adds "right"⟩, ⟨"base", [], adds "base"⟩]

theorem diamond_proper : Proper diamond where
  distinct := by decide
  closed := by decide
  acyclic := by
    refine ⟨fun n => if n = "app" then 2 else if n = "base" then 0 else 1, ?_⟩
    decide

theorem diamond_scripts (k : Kind) : HasScript k diamond := by
  refine ⟨⟨"base", [], adds "base"⟩, by simp [diamond], ?_⟩
  cases k <;> rfl

example := C88_order diamond diamond_proper
example : setupEnvironment .build 4 diamond [] ["PATH=/bin"] =
    some ["PATH=/bin", "base", "left", "right", "app"] := by decide +kernel
example : setupEnvironment (.run ["x"]) 4 diamond [] ["PATH=/bin"] =
    some ["PATH=/bin", "base-run", "x", "left-run", "x", "right-run", "x", "app-run", "x"] := by
  decide +kernel
example : setupEnvironment (.run ["bad"]) 4 diamond [] ["PATH=/bin"] = none := by decide +kernel

example := C88_history_partial [] ["PATH=/bin"] [] diamond diamond_proper diamond_scripts
example : answers [] 4 ["PATH=/bin"] diamond ⟨[], []⟩
    [.build, .askRun ["A"] ["bad"], .askBuild ["PATH=/bin"], .build] =
    [some ["PATH=/bin", "base", "left", "right", "app"], none,
     some ["PATH=/bin", "base", "left", "right", "app"],
     some ["PATH=/bin", "base", "left", "right", "app"]] := by decide +kernel

example := C88_products_independent [] ["PATH=/bin"] [diamond, diamond]
  (by intro ms h; simp only [List.mem_cons, List.not_mem_nil, or_false, or_self] at h; subst h
      exact diamond_proper)
  (by intro ms h; simp only [List.mem_cons, List.not_mem_nil, or_false, or_self] at h; subst h
      exact diamond_scripts _)

example := C88_exponential (E := Unit) 20
example : visits (children (ladder (E := Unit) (fun _ => none) 5)) 5
    (roots (ladder (E := Unit) (fun _ => none) 5)) = 62 := by decide +kernel

example := C88_asking_changes_builds [] ["PATH=/bin"] ["PATH=/usr/bin"] []
  ["PATH=/usr/bin", "base", "left", "right", "app"] diamond diamond_proper (diamond_scripts _)
example : answers [] 4 ["PATH=/bin"] diamond ⟨[], []⟩ [.askBuild ["PATH=/usr/bin"], .build] =
    [some ["PATH=/usr/bin", "base", "left", "right", "app"],
     some ["PATH=/usr/bin", "base", "left", "right", "app"]] := by decide +kernel

end Verif.EnvSetup.Witness
