import Verif.JsImport.Props

/-! Concrete cases that meet the hypotheses of the theorems for C124 and C125. -/
namespace Verif.JsImport

/-- `function f(){ var x }  const c = function(){};  if (..) { var v; }  g(function(){ var y })`. -/
abbrev prog : Node :=
  .fdecl ['f'] (.var false ['x'] .nil .nil) (.var true ['c'] (.fexpr .nil .nil)
    (.block (.var false ['v'] .nil .nil) (.fexpr (.var false ['y'] .nil .nil) .nil)))

example : ∃ l, importSource [] prog = .ok l ∧ ∀ n, n ∈ l ↔ Declares true prog n :=
  C124_names_partial [] prog (by decide) (by simp [NoBlockConst])
example : importSource [] prog = .ok [['f'], ['c'], ['v']] := by decide
example : ['v'] ∈ [['f'], ['c'], ['v']] :=
  (C124_provides [] prog _ (by decide)).1 _ (.fdecl_next (.var_next (.block .var)))
example : ∃ m, importSource [] (.fexpr (.var false ['a'] .nil .nil)
    (.fexpr (.var false ['b'] .nil .nil) prog)) = .referenceError m :=
  C124_second_function [] _ _ _ prog ['b'] (by decide)
    (by rw [← mem_declares]; decide) (by decide)
example : importSource [['F']] (.fexpr (.var false ['F'] .nil .nil) (.fexpr (.var false ['F'] .nil .nil) .nil)) =
    .ok [['F']] := C124_global _ _ (by decide)
example : ∃ m, importSource [] (.block (.var true ['k'] .nil .nil) prog) = .referenceError m :=
  C124_block_constant [] _ .nil prog ['k'] (by rw [← mem_declares]; decide)
    (by rw [← mem_declares]; decide) (by decide)

/-- The file 0 requires 1 and 2, and 1 requires 2. -/
abbrev files : World :=
  { files := [⟨0, [.require ['a'] false, .require ['b'] false]⟩, ⟨1, [.require ['c'] false]⟩, ⟨2, []⟩]
    resolve := fun _ p => if p = ['a'] then 1 else 2 }

abbrev rk (f : Nat) : Nat := if f = 0 then 2 else if f = 1 then 1 else 0

theorem files_ranked : Ranked files rk := by
  intro f c hf p b h
  match f, hf with
  | 0, hf =>
    simp at hf; subst hf
    simp at h
    rcases h with ⟨rfl, _⟩ | ⟨rfl, _⟩ <;> decide
  | 1, hf =>
    simp at hf; subst hf
    simp at h
    rcases h with ⟨rfl, _⟩; decide
  | 2, hf => simp at hf; subst hf; simp at h
  | n + 3, hf => simp at hf

theorem files_nocatch : NoCatch files := by
  intro c hc p b h
  simp at hc
  rcases hc with rfl | rfl | rfl <;> simp at h
  · rcases h with h | h <;> exact h.2
  · exact h.2

example : (importFile files 3 { stack := [7] } 0).2.starts = [0, 1, 2] ∧
    (importFile files 3 { stack := [7] } 0).2.starts.Nodup :=
  ⟨by decide, (C125_require_partial files rk files_ranked files_nocatch 7 0 3 (by decide)).2.1⟩
example : (importFile files 3 (importFile files 3 { stack := [7] } 1).2 0).2.starts.Nodup ∧
    (importFile files 3 { stack := [7] } 1).2.stack = [7] :=
  C125_next_partial files rk files_ranked files_nocatch 7 1 0 3 (by decide) (by decide) (by decide)
example : importFile files 1 (importFile files 3 { stack := [7] } 0).2 0 =
    (.ok, (importFile files 3 { stack := [7] } 0).2) :=
  C125_cached files 3 0 _ 0 (by decide)
example : (importFile ⟨[⟨0, [.require [] true]⟩], fun _ _ => 0⟩ 100 {} 0).1 = .overflow :=
  C125_circle _ 0 _ [] true [] rfl rfl rfl 100 _ (by simp)

end Verif.JsImport
