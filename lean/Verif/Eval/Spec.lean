import Verif.Eval.Model
/-!
# What properties evaluate to (C60, C61)
-/
namespace Verif.Eval

/-! ## Values without `overrideListProperties` -/

mutual
/-- No Properties item sets `overrideListProperties`. If conditions may be ignored because they cannot be evaluated, there
    are none. -/
def Value.Plain (ignored : Bool) : Value → Prop
  | .source _ base alts cands => base.Plain ignored ∧ alts.Plain ignored ∧ cands.Plain ignored
  | .variant _ => True
  | .item _ => True
def Base.Plain (ignored : Bool) : Base → Prop
  | .none => True
  | .some v => v.Plain ignored
def Alts.Plain (ignored : Bool) : Alts → Prop
  | .nil => True
  | .cons _ over _ base more =>
    ignored = false ∧ over = .ret (some (.atom (.bool false))) ∧ base.Plain ignored ∧ more.Plain ignored
def Values.Plain (ignored : Bool) : Values → Prop
  | .nil => True
  | .cons v more => v.Plain ignored ∧ more.Plain ignored
end

/-- No Properties item in the project sets `overrideListProperties`, and there are no conditions on properties in items for
    modules that may be missing. -/
def World.Plain (w : World) : Prop := ∀ i n v, w.value i n = some v → v.Plain (w.swallow i)

/-! ## What properties are, however they are evaluated

A list of properties with their values is established if the value of each one can be worked out from those that come
before it. -/

abbrev Table := List ((Item × Name) × Res)

/-- Looking up properties in a table: those that are not there cannot be used. -/
def known (w : World) (t : Table) : Reader Unit := fun i n =>
  if n = "parent" then pure (.val (some (.atom (match w.parent i with | some p => .item p | none => .undef))))
  else
    match w.find i n with
    | none => pure .missing
    | some _ =>
      match t.lookup (i, n) with
      | some r => pure (.val r)
      | none => do
        setErr
        pure .exc

/-- A fresh start -/
def fresh {σ : Type} (m : σ) : St σ := ⟨false, [], m⟩

/-- The property has this value if the table is right. -/
def Follows (w : World) (t : Table) (i : Item) (n : Name) (r : Res) : Prop :=
  n ≠ "parent" ∧ ∃ obj owner v, w.find i n = some (obj, owner, v) ∧
    (evalTop w (known w t) ⟨obj, i, owner, n, w.ty owner n⟩ v (fresh ())).1 = r ∧
    (evalTop w (known w t) ⟨obj, i, owner, n, w.ty owner n⟩ v (fresh ())).2.err = false

inductive Established (w : World) : Table → Prop
  | nil : Established w []
  | snoc {t : Table} {i : Item} {n : Name} {r : Res} : Established w t → Follows w t i n r →
      Established w (t ++ [((i, n), r)])

/-- What is known of a property from a table: its value; what is not declared anywhere is undefined. -/
def Knows (w : World) (t : Table) (i : Item) (n : Name) (r : Res) : Prop :=
  (known w t i n (fresh ())).1 = .val r ∨ ((known w t i n (fresh ())).1 = .missing ∧ r = some undef)

/-- The property has a value. -/
def HasValue (w : World) (i : Item) (n : Name) (r : Res) : Prop := ∃ t, Established w t ∧ Knows w t i n r

/-! ## Properties that never get back to the same declaration

A default value in a module belongs to the module, not to those that use it: such declarations are numbered here so that
each one only makes use of smaller ones. -/

/-- The item that declares the property -/
def declares (w : World) (i : Item) (n : Name) : Item × Name :=
  match w.find i n with
  | some (_, owner, _) => (owner, n)
  | none => (i, n)

inductive Layered (w : World) (rank : Item × Name → Nat) : Table → Prop
  | nil : Layered w rank []
  | snoc {t : Table} {i : Item} {n : Name} {r : Res} : Layered w rank t →
      Follows w (t.filter (fun e => decide (rank (declares w e.1.1 e.1.2) < rank (declares w i n)))) i n r →
      Layered w rank (t ++ [((i, n), r)])

def HasLayeredValue (w : World) (i : Item) (n : Name) (r : Res) : Prop :=
  ∃ rank t, Layered w rank t ∧ Knows w t i n r

/-! ## Histories -/

/-- The project is finite: all declarations that can be found are in the list. -/
def Declarations (w : World) (keys : List (Item × Name)) : Prop :=
  ∀ i n obj owner v, w.find i n = some (obj, owner, v) → (owner, n) ∈ keys

/-- Evaluating properties one after the other: the results, and the values that are kept. -/
def evaluateAll (w : World) (on : Bool) (bot : Reader Cache) (k : Nat) :
    List (Item × Name) → List Nat → Cache → List (Option Res) × List Nat × Cache
  | [], x, c => ([], x, c)
  | (i, n) :: more, x, c =>
    let r := evaluate w on bot k i n x c
    let rs := evaluateAll w on bot k more r.2.1 r.2.2
    (r.1 :: rs.1, rs.2)

end Verif.Eval
