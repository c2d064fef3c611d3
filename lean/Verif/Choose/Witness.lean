import Verif.Choose.Props
import Verif.Deps.Witness

/-! # Witnesses for the choice of the file for a module -/

namespace Verif.Choose
open Verif.Version

def v1 : File := { path := "v1", version := ⟨1, 0, 0, 0⟩ }
def v2 : File := { path := "v2", version := ⟨2, 0, 0, 0⟩, priority := 1 }
def v3 : File := { path := "v3", version := ⟨3, 0, 0, 0⟩ }
def off : File := { path := "off", condition := false, priority := 7 }

/-- C67_best, C67_order -/
example : Listed [[off, v1], [v2]] := by unfold Listed; decide
example : load [[off, v1], [v2]] {} = .chosen v2 := by decide
example : load [[off, v1], [v2]] { maximum := ⟨2, 0, 0, 0⟩ } = .chosen v1 := by decide
/-- C67_none -/
example : load [[off], []] {} = .none := by decide
/-- C67_ambiguous -/
example : load [[v1, { v1 with path := "other" }], [v1]] {} = .ambiguous := by decide
example : load [[v1], [{ v1 with path := "other" }]] {} = .chosen v1 := by decide

open Verif.Deps in
/-- Two files for the module "m", which can be told from each other by what they depend on -/
def worldOf (depends : List Dep) : World :=
  { prods := [{ name := "app" }], self := 0, depends := depends
    module := fun n r =>
      if n = ["qbs"] then .file {}
      else if n = ["m"] then
        match load [[v2, v3]] r with
        | .chosen f => .file { depends := [{ name := [f.path], required := false }] }
        | .none => .none
        | .ambiguous => .error
      else .none }

def atLeast3 : Range := { minimum := ⟨3, 0, 0, 0⟩ }

open Verif.Deps in
/-- **C67 finding.** The file is chosen for the first `Depends` item only. If a later one is for other versions, the file stays the
same, and its version is not accepted in the end, although there is a file with the right one. In the opposite order it is found. -/
theorem C67_first_range :
    (∃ s m, Success Any (worldOf [{ name := ["m"] }, { name := ["m"], range := atLeast3 }]) s ∧ m ∈ s.modules ∧
      m.name = ["m"] ∧ m.depends = [{ name := ["v2"], required := false }] ∧ m.range.accepts v2.version = false) ∧
    (∃ s m, Success Any (worldOf [{ name := ["m"], range := atLeast3 }, { name := ["m"] }]) s ∧ m ∈ s.modules ∧
      m.name = ["m"] ∧ m.depends = [{ name := ["v3"], required := false }] ∧ m.range.accepts v3.version = true) :=
  ⟨⟨exec _ idle 100 (initial (worldOf [{ name := ["m"] }, { name := ["m"], range := atLeast3 }])),
    (exec _ idle 100 (initial (worldOf [{ name := ["m"] }, { name := ["m"], range := atLeast3 }]))).modules[2]'(by decide +kernel),
    ⟨exec_reach trivial _ _ .initial, by decide +kernel, by decide +kernel⟩, List.getElem_mem _, by decide +kernel, by decide +kernel, by decide +kernel⟩,
   ⟨exec _ idle 100 (initial (worldOf [{ name := ["m"], range := atLeast3 }, { name := ["m"] }])),
    (exec _ idle 100 (initial (worldOf [{ name := ["m"], range := atLeast3 }, { name := ["m"] }]))).modules[2]'(by decide +kernel),
    ⟨exec_reach trivial _ _ .initial, by decide +kernel, by decide +kernel⟩, List.getElem_mem _, by decide +kernel, by decide +kernel, by decide +kernel⟩⟩

end Verif.Choose
