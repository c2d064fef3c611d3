import Verif.SetT.Model

/-! # Specification of `Set<T>`: finite mathematical sets as predicates -/

namespace Verif.SetT

variable {α : Type _}

/-- The mathematical set a client program denotes. -/
def Expr.denote : Expr α → α → Prop
  | .empty => fun _ => False
  | .init l => fun x => x ∈ l
  | .insert s v => fun x => x = v ∨ s.denote x
  | .remove s v => fun x => s.denote x ∧ x ≠ v
  | .unite s t => fun x => s.denote x ∨ t.denote x
  | .intersect s t => fun x => s.denote x ∧ t.denote x
  | .subtract s t => fun x => s.denote x ∧ ¬ t.denote x
  | .minus s t => fun x => s.denote x ∧ ¬ t.denote x
  | .inter s t => fun x => s.denote x ∧ t.denote x
  | .filtered p s => fun x => s.denote x ∧ p x = true

/-- Strictly increasing, hence duplicate free. -/
def StrictInc [LT α] (l : List α) : Prop := l.Pairwise (· < ·)

end Verif.SetT
