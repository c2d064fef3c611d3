import Verif.Present.Link
import Verif.Deps.Witness

/-! # Witnesses for which modules are present -/

namespace Verif.Present
open Verif.Version
open Verif

/-- Probes succeed, the version is 1, and validation fails for these. -/
def env (bad : List Nat) : Env := { probes := fun _ _ => true, version := fun _ _ => ⟨1, 0, 0, 0⟩, valid := fun i _ => !bad.contains i }

def on : Nat → Bool := fun _ => false

/-- An application that needs "a" and would like to have "b". Both need "c", and "b" needs "d". -/
def wA : Deps.World :=
  { prods := [{ name := "app" }], self := 0, depends := [{ name := ["a"] }, { name := ["b"], required := false }]
    module := Deps.files [(["a"], { depends := [{ name := ["c"] }] }), (["b"], { depends := [{ name := ["c"] }, { name := ["d"] }] }), (["c"], {}), (["d"], {})] }

def sA : Deps.St := Deps.exec wA Deps.idle 100 (Deps.initial wA)

theorem successA : Deps.Success Deps.Any wA sA := ⟨Deps.exec_reach trivial _ _ .initial, by decide +kernel, by decide +kernel⟩

example : sA.modules.map (fun m => (m.id, m.name, m.required)) = [(0, ["qbs"], true), (2, ["c"], true), (1, ["a"], true), (4, ["d"], false), (3, ["b"], false)] := by
  decide +kernel

/-- C69_complete, C69_checked, C69_imported, C69_resolved_complete, C69_resolved_present: if the validation of "d" fails, then "b" is not present, but "a" and "c" are. -/
example : (resolved on (env [4]) sA).errors = [] ∧ (resolved on (env [4]) sA).gone = [3, 4] := by decide +kernel

/-- If the validation of "b" fails, then "d" is not present, as nothing else needs it. -/
example : resolved on (env [3]) sA = { gone := [4, 3], errors := [] } := by decide +kernel

/-- C69_errors: "c" is required. -/
example : resolved on (env [2]) sA = { gone := [], errors := [2] } := by decide +kernel

/-- C69_wf, and the hypothesis on the product -/
example : WF (sA.modules.map (ofEntry on)) := C69_wf rfl successA on

/-- C69_resolved_required: the hypotheses -/
example : ∀ m ∈ sA.modules, m.required = true → m.present = true ∧ ∀ p, m.product = some p → on p = false := by
  intro m hm _
  have h : ∀ m ∈ sA.modules, m.present = true := by decide +kernel
  exact ⟨h m hm, fun _ _ => rfl⟩

def namesA : List Deps.Name := [["qbs"], ["a"], ["b"], ["c"], ["d"]]

example : Deps.Bounded wA namesA where
  base := by decide
  product := by
    intro d hd
    simp only [wA, List.mem_cons, List.not_mem_nil, or_false] at hd
    rcases hd with rfl | rfl
    · exact ⟨rfl, fun n hn => by rcases hn with ⟨_, rfl⟩ | ⟨_, h, _⟩; decide; cases h⟩
    · exact ⟨rfl, fun n hn => by rcases hn with ⟨_, rfl⟩ | ⟨_, h, _⟩; decide; cases h⟩
  exports := by
    intro q hq d hd
    simp only [wA, List.mem_cons, List.not_mem_nil, or_false] at hq
    subst hq; cases hd
  files := by
    intro n hn r f h d hd
    have : d = { name := ["c"] } ∨ d = { name := ["d"] } := by
      simp only [namesA, List.mem_cons, List.not_mem_nil, or_false] at hn
      rcases hn with rfl | rfl | rfl | rfl | rfl <;> simp only [wA, Deps.files, List.lookup] at h <;> simp at h <;> subst h <;> simp at hd
      · exact Or.inl hd
      · exact hd
    rcases this with rfl | rfl
    · exact ⟨rfl, fun n hn => by rcases hn with ⟨_, rfl⟩ | ⟨_, h, _⟩; decide; cases h⟩
    · exact ⟨rfl, fun n hn => by rcases hn with ⟨_, rfl⟩ | ⟨_, h, _⟩; decide; cases h⟩

/-- C69_kept: nothing is wrong with "a" and "c", whatever holds for the others. -/
def msA : List Mod := [{ id := 0, name := ["qbs"], loaders := [] }, { id := 2, name := ["c"], loaders := [.module 1, .module 3] },
  { id := 1, name := ["a"], loaders := [.product], locals := [(0, true), (2, true)] },
  { id := 3, name := ["b"], required := false, loaders := [.product], locals := [(0, true), (2, true)] }]

theorem healthy0 : Healthy (env [3]) msA [] { id := 0, name := ["qbs"], loaders := [] } :=
  .intro (by simp) rfl (fun _ => ⟨rfl, rfl, rfl⟩) (by simp) (by simp)

theorem healthy2 : Healthy (env [3]) msA [] { id := 2, name := ["c"], loaders := [.module 1, .module 3] } :=
  .intro (by simp) rfl (fun _ => ⟨rfl, rfl, rfl⟩) (by simp) (by simp)

theorem healthy1 : Healthy (env [3]) msA [] { id := 1, name := ["a"], loaders := [.product], locals := [(0, true), (2, true)] } := by
  refine .intro (by simp) rfl (fun _ => ⟨rfl, rfl, rfl⟩) ?_ ?_
  · intro i hi
    simp only [List.mem_cons, Prod.mk.injEq, and_true, List.not_mem_nil, or_false] at hi
    rcases hi with rfl | rfl
    · exact ⟨_, List.mem_cons_self, rfl⟩
    · exact ⟨_, List.mem_cons_of_mem _ List.mem_cons_self, rfl⟩
  · intro d hd hl
    simp only [msA, List.mem_cons, List.not_mem_nil, or_false] at hd
    rcases hd with rfl | rfl | rfl | rfl
    · exact healthy0
    · exact healthy2
    · simp at hl
    · simp at hl

example : Present (run (env [3]) msA []) { id := 2, name := ["c"], loaders := [.module 1, .module 3] } :=
  C69_kept (by decide) _ (by simp [msA]) healthy2 (.indirect (d := { id := 1, name := ["a"], loaders := [.product], locals := [(0, true), (2, true)] })
    (by simp [msA]) healthy1 (.direct (by simp)) (by simp))

/-! ## Findings -/

/-- The module "m" would like to have "b" in one place and needs it in another one. -/
def wB : Deps.World :=
  { prods := [{ name := "app" }], self := 0, depends := [{ name := ["m"], required := false }]
    module := Deps.files [(["m"], { depends := [{ name := ["b"], required := false }, { name := ["b"] }] }), (["b"], {})] }

def sB : Deps.St := Deps.exec wB Deps.idle 100 (Deps.initial wB)

/-- **C69 finding.** If a module has two `Depends` items for the same module, only the first one is looked at: the module "m" is present although "b", which it requires,
is not. -/
theorem C69_first_item : Deps.Success Deps.Any wB sB ∧ (resolved on (env [2]) sB).errors = [] ∧
    ∃ m ∈ sB.modules, ∃ b ∈ sB.modules, m.name = ["m"] ∧ b.name = ["b"] ∧ ({ name := ["b"] } : Deps.Dep) ∈ m.depends ∧ Deps.Loader.module m.id ∈ b.loaders ∧
      m.id ∉ (resolved on (env [2]) sB).gone ∧ b.id ∈ (resolved on (env [2]) sB).gone :=
  ⟨⟨Deps.exec_reach trivial _ _ .initial, by decide +kernel, by decide +kernel⟩, by decide +kernel,
    sB.modules[2]'(by decide +kernel), List.getElem_mem _, sB.modules[1]'(by decide +kernel), List.getElem_mem _, by decide +kernel, by decide +kernel, by decide +kernel,
    by decide +kernel, by decide +kernel, by decide +kernel⟩

/-- The module "m" is not required, and asks for products by type. -/
def wC : Deps.World :=
  { prods := [{ name := "app" }, { name := "plugin" }], self := 0, depends := [{ name := ["m"], required := false }]
    module := Deps.files [(["m"], { depends := [{ productTypes := some ["plugin"] }] })] }

def nowC : Deps.Now := { Deps.idle with ofType := fun t => if t = ["plugin"] then [1] else [] }

def sC : Deps.St := Deps.exec wC nowC 100 (Deps.initial wC)

/-- **C69 finding.** What a module asks for by product type counts as required, even if the module itself is not required: an error in such a product, which
nothing else needs, is an error of the product that would merely like to have the module. -/
theorem C69_type_required : Deps.Success Deps.Any wC sC ∧ (∀ d ∈ wC.depends, d.required = false) ∧
    ∃ p ∈ sC.modules, p.name = ["plugin"] ∧ Deps.Loader.product ∉ p.loaders ∧ resolved on (env [p.id]) sC = { gone := [], errors := [p.id] } :=
  ⟨⟨Deps.exec_reach trivial _ _ .initial, by decide +kernel, by decide +kernel⟩, by decide +kernel,
    sC.modules[1]'(by decide +kernel), List.getElem_mem _, by decide +kernel, by decide +kernel, by decide +kernel⟩

/-- A library for two profiles. The application would like to have both, and so does the module "m". -/
def wD : Deps.World :=
  { prods := [{ name := "app" }, { name := "lib", profile := "A", muxId := "a" }, { name := "lib", profile := "B", muxId := "b" }], self := 0
    depends := [{ name := ["lib"], profiles := some ["A"], required := false }, { name := ["lib"], profiles := some ["B"], required := false }, { name := ["m"], required := false }]
    module := Deps.files [(["m"], { depends := [{ name := ["lib"], profiles := some ["A"] }, { name := ["lib"], profiles := some ["B"] }] })] }

def sD : Deps.St := Deps.exec wD Deps.idle 100 (Deps.initial wD)

/-- **C69 finding.** If a module requires a product for two profiles, and the product had both before, then only the first one is looked at: the module "m" is present although
the library for "B", which it requires, is not. -/
theorem C69_second_profile : Deps.Success Deps.Any wD sD ∧ (resolved on (env [2]) sD).errors = [] ∧
    ∃ m ∈ sD.modules, ∃ b ∈ sD.modules, m.name = ["m"] ∧ b.product = some 2 ∧ ({ name := ["lib"], profiles := some ["B"] } : Deps.Dep) ∈ m.depends ∧
      (∀ d ∈ m.depends, d.required = true) ∧ Deps.Loader.module m.id ∈ b.loaders ∧
      m.id ∉ (resolved on (env [2]) sD).gone ∧ b.id ∈ (resolved on (env [2]) sD).gone :=
  ⟨⟨Deps.exec_reach trivial _ _ .initial, by decide +kernel, by decide +kernel⟩, by decide +kernel,
    sD.modules[3]'(by decide +kernel), List.getElem_mem _, sD.modules[2]'(by decide +kernel), List.getElem_mem _, by decide +kernel, by decide +kernel, by decide +kernel,
    by decide +kernel, by decide +kernel, by decide +kernel, by decide +kernel⟩

end Verif.Present
