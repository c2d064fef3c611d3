import Verif.Validator.Model

/-! # What validation means -/

namespace Verif.Validator.Spec

open Verif.Validator

def IsNumber (w : Str) : Prop := w ≠ [] ∧ ∀ c ∈ w, '0' ≤ c ∧ c ≤ '9'

/-- A version with `k` components: numbers separated by dots -/
def IsVersion (k : Nat) (s : Str) : Prop :=
  ∃ (w : Str) (ws : List Str), k = ws.length + 1 ∧ IsNumber w ∧ (∀ x ∈ ws, IsNumber x) ∧ s = w ++ (ws.map ('.' :: ·)).flatten

/-- The call that counts for a name is the last one. -/
def Last (rs : List Required) (r : Required) : Prop :=
  ∃ pre post : List Required, rs = pre ++ r :: post ∧ ∀ x ∈ post, x.name ≠ r.name

/-- There is no value. -/
def Missing (v : Value) : Prop := v = .undefined ∨ v = .null ∨ v = .str []

end Verif.Validator.Spec
