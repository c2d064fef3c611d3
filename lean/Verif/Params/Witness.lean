import Verif.Params.Props

/-! # C70: examples and findings -/

namespace Verif.Params

deriving instance DecidableEq for Except

/-- A map with one or two values in a group `cpp` -/
def one (k v : String) : PM := .sub "cpp" (.leaf k (some v) .nil) .nil
def two (k v k' v' : String) : PM := .sub "cpp" (.leaf k (some v) (.leaf k' (some v') .nil)) .nil

theorem wf_one (k v : String) : WF (one k v) := wf_subC.2 ⟨rfl, wf_leaf.2 ⟨rfl, .nil⟩, .nil⟩

theorem wf_two {k v k' v' : String} (h : k' ≠ k) : WF (two k v k' v') :=
  wf_subC.2 ⟨rfl, wf_leaf.2 ⟨by simp [PM.get, h], wf_leaf.2 ⟨rfl, .nil⟩⟩, .nil⟩

theorem sets_one (k v : String) : Sets (one k v) ["cpp", k] (some v) := .inside .sub (.here .leaf)

theorem sets_one_inv {k a : String} {p : Path} {v : Leaf} (h : Sets (one k a) p v) : p = ["cpp", k] := by
  unfold one at h
  cases h with
  | here h => cases h with
    | skipSub h => cases h
  | inside h hs => cases h with
    | sub => cases hs with
      | here h => cases h with
        | leaf => rfl
        | skipLeaf h => cases h
      | inside h _ => cases h with
        | skipLeaf h => cases h
    | skipSub h => cases h

/-- The product asks for the module twice, and two other modules do. -/
def sample : List Context :=
  [⟨0, one "link" "true", 1⟩, ⟨1, two "link" "false" "whole" "yes", 2⟩, ⟨0, one "link" "true", 1⟩, ⟨2, one "whole" "yes", 2⟩]

theorem sample_input : Input (one "libs" "none") sample := by
  refine ⟨wf_one _ _, ?_, ?_, ?_⟩
  · intro r hr
    simp only [sample, List.mem_cons, List.not_mem_nil, or_false] at hr
    rcases hr with rfl | rfl | rfl | rfl
    · exact wf_one _ _
    · exact wf_two (by decide)
    · exact wf_one _ _
    · exact wf_one _ _
  · decide
  · decide

def noneAbsent : Nat → Bool := fun _ => false

theorem sample_result : parameters (one "libs" "none") noneAbsent sample =
    .ok (.sub "cpp" (.leaf "libs" (some "none") (.leaf "whole" (some "yes") (.leaf "link" (some "true") .nil))) .nil) := by
  decide +kernel

theorem mentions_at {m : PM} (h : WF m) {p : Path} (hp : p ≠ []) (hs : says m p = false) : ¬ Mentions m p := by
  rw [← says_iff h p hp, hs]; simp

/-- The hypotheses of `C70_value` are met, and what it says is so. -/
example : Sets (.sub "cpp" (.leaf "libs" (some "none") (.leaf "whole" (some "yes") (.leaf "link" (some "true") .nil))) .nil)
    ["cpp", "whole"] (some "yes") := by
  refine C70_value sample_input sample_result (r := ⟨2, one "whole" "yes", 2⟩) (by decide) rfl (sets_one _ _) ?_ ?_
  · intro r' hr' _ hlt
    have hw := sample_input.wf r' hr'
    refine mentions_at hw (by simp) ?_
    clear hw; revert hlt; revert r'; decide
  · intro r' hr' _ hg
    have hw := sample_input.wf r' hr'
    obtain ⟨m, hm⟩ := (at_group hw _ (by simp)).2 hg
    simp only [sample, List.mem_cons, List.not_mem_nil, or_false] at hr'
    rcases hr' with rfl | rfl | rfl | rfl <;> cases hm

/-- The hypotheses of `C70_default` are met. -/
example : Sets (.sub "cpp" (.leaf "libs" (some "none") (.leaf "whole" (some "yes") (.leaf "link" (some "true") .nil))) .nil)
    ["cpp", "libs"] (some "none") := by
  refine C70_default sample_input sample_result (sets_one _ _) ?_
  intro r' hr' _
  refine mentions_at (sample_input.wf r' hr') (by simp) ?_
  revert r'; decide

/-- Two modules that disagree -/
def disagreeing : List Context := [⟨1, one "link" "true", 2⟩, ⟨2, one "link" "false", 2⟩]

theorem disagreeing_input : Input .nil disagreeing := by
  refine ⟨.nil, ?_, by decide, by decide⟩
  intro r hr
  simp only [disagreeing, List.mem_cons, List.not_mem_nil, or_false] at hr
  rcases hr with rfl | rfl <;> exact wf_one _ _

/-- The hypotheses of `C70_conflict` are met. -/
example : ∃ e, parameters .nil noneAbsent disagreeing = .error e := by
  refine C70_conflict disagreeing_input (r := ⟨1, one "link" "true", 2⟩) (r' := ⟨2, one "link" "false", 2⟩) (by decide)
    (by decide) rfl rfl rfl (sets_one _ _) (sets_one _ _) (by decide) ?_ ?_
  · intro r' hr' _ hlt; exfalso; revert hlt; revert r'; decide
  · intro r' hr' _ hg
    obtain ⟨m, hm⟩ := (at_group (disagreeing_input.wf r' hr') _ (by simp)).2 hg
    simp only [disagreeing, List.mem_cons, List.not_mem_nil, or_false] at hr'
    rcases hr' with rfl | rfl <;> cases hm

/-- The conflict is gone if the product itself sets the parameter. -/
example : parameters .nil noneAbsent (⟨0, one "link" "auto", 1⟩ :: disagreeing) = .ok (one "link" "auto") := by decide +kernel

/-- Modules that are not present do not count. -/
example : parameters .nil (fun l => l == 2) disagreeing = .ok (one "link" "true") := by decide +kernel

/-- The hypotheses of `C70_justified_partial` are met, with an error. -/
example : ∃ c ∈ disagreeing, ∃ c' ∈ disagreeing, c.chain = c'.chain ∧ ∃ p v w, Sets c.params p v ∧ Sets c'.params p w ∧ v ≠ w := by
  obtain ⟨c, hc, c', hc', _, _, he, p, v, w, h1, h2, h3, _⟩ :=
    C70_justified_partial (d := .nil) (absent := noneAbsent) (e := [["cpp", "link"]]) .nil disagreeing_input.wf
      disagreeing_input.int (by
        intro c hc c' hc' _ _ _ _ _ p ⟨v, hv⟩
        have hk : p = ["cpp", "link"] := by
          simp only [disagreeing, List.mem_cons, List.not_mem_nil, or_false] at hc
          rcases hc with rfl | rfl <;> exact sets_one_inv hv
        subst hk
        simp only [disagreeing, List.mem_cons, List.not_mem_nil, or_false] at hc'
        rcases hc' with rfl | rfl <;> exact ⟨_, sets_one _ _⟩) (by decide +kernel)
  exact ⟨c, hc, c', hc', he, p, v, w, h1, h2, h3⟩

/-- The hypotheses of `C70_no_conflict` are met. -/
example : ∃ m, moduleParameters (one "link" "x") noneAbsent [⟨1, one "link" "true", 2⟩, ⟨0, one "link" "false", 1⟩] = .ok m := by
  refine C70_no_conflict (wf_one _ _) ?_ (by decide) (by decide)
  intro r hr
  simp only [List.mem_cons, List.not_mem_nil, or_false] at hr
  rcases hr with rfl | rfl <;> exact wf_one _ _

/-- The hypotheses of `C70_same_loader` are met. -/
example : contexts [] [⟨1, one "link" "true", 2⟩, ⟨1, one "link" "false", 2⟩] = .error [["cpp", "link"]] := by decide +kernel

/-- **C70 finding.** A single `Depends` item sets a parameter that also has a default. Another module, equally far away from
the product, sets a different parameter. This is reported as a conflict, or not, depending on the order of the items: the
value is compared with the default, which has a lower priority. -/
theorem C70_false_conflict :
    parameters (one "link" "false") noneAbsent [⟨1, one "link" "true", 2⟩, ⟨2, one "whole" "yes", 2⟩] = .error [["cpp", "link"]] ∧
    parameters (one "link" "false") noneAbsent [⟨2, one "whole" "yes", 2⟩, ⟨1, one "link" "true", 2⟩] =
      .ok (.sub "cpp" (.leaf "link" (some "true") (.leaf "whole" (some "yes") .nil)) .nil) := by
  decide +kernel

/-- **C70 finding.** Two modules disagree about a parameter, but one that is closer to the product sets it. The conflict is
still reported if that one is not the first to be looked at among those of its distance. -/
theorem C70_overridden_conflict :
    parameters .nil noneAbsent
        [⟨1, one "link" "a", 3⟩, ⟨2, one "link" "b", 3⟩, ⟨3, one "link" "c", 2⟩, ⟨4, one "whole" "yes", 2⟩] =
      .error [["cpp", "link"], ["cpp", "link"]] ∧
    (∃ m, parameters .nil noneAbsent
        [⟨1, one "link" "a", 3⟩, ⟨2, one "link" "b", 3⟩, ⟨4, one "whole" "yes", 2⟩, ⟨3, one "link" "c", 2⟩] = .ok m) := by
  constructor
  · decide +kernel
  · exact ⟨.sub "cpp" (.leaf "link" (some "c") (.leaf "whole" (some "yes") .nil)) .nil, by decide +kernel⟩

/-- **C70 finding.** A value and a group of parameters of the same name and the same priority are a conflict in one order,
and in the other one the value is dropped without an error. -/
theorem C70_value_and_group :
    parameters .nil noneAbsent [⟨1, one "link" "true", 2⟩, ⟨2, .leaf "cpp" (some "x") .nil, 2⟩] = .ok (one "link" "true") ∧
    parameters .nil noneAbsent [⟨2, .leaf "cpp" (some "x") .nil, 2⟩, ⟨1, one "link" "true", 2⟩] = .error [["cpp"]] := by
  decide +kernel

/-- **C70 finding.** A value and an undefined one of the same priority are a conflict in one order, and none in the other
one. -/
theorem C70_undefined :
    parameters .nil noneAbsent [⟨1, .leaf "a" (some "x") .nil, 2⟩, ⟨2, .leaf "a" none .nil, 2⟩] = .ok (.leaf "a" (some "x") .nil) ∧
    parameters .nil noneAbsent [⟨2, .leaf "a" none .nil, 2⟩, ⟨1, .leaf "a" (some "x") .nil, 2⟩] = .error [["a"]] := by
  decide +kernel

end Verif.Params
