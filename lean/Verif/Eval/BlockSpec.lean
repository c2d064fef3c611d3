import Verif.Eval.Blocks
/-!
# What Properties items mean (C60)

As documented in doc/reference/items/language/properties.qdoc 30-145.
-/
namespace Verif.Eval

/-- The code has this result, given the values of other properties. -/
def Gives (w : World) (t : Table) (scopes : List Scope) (c : Code) (r : Res) : Prop :=
  run (known w t) scopes c (fresh ()) = (r, fresh ())

/-- A binding that uses none of the special values `base` and `original` -/
def Head.Simple (h : Head) : Prop := h.usesBase = false ∧ h.usesOriginal = false ∧ h.fallback = false

/-- What comes of a Properties item: if the condition is true, if `overrideListProperties` is, the value. -/
structure Outcome where
  fallback : Bool
  holds : Bool
  over : Bool
  value : Js

/-- In the binding and in the condition, `outer` is the value outside of Properties items. Nothing is asked of the binding
    if the condition is false. -/
def Block.Gives (w : World) (t : Table) (e : Env) (outer : Res) (b : Block) (o : Outcome) : Prop :=
  b.head.Simple ∧ o.fallback = b.cond.isNone ∧
  (∀ c, b.cond = some c → ∃ r,
    Eval.Gives w t (scopeChain w e b.head (if b.head.usesOuter then [("outer", convenience e.ty outer)] else [])) c r ∧
    o.holds = truthy r) ∧
  ((o.fallback || o.holds) = true → ∃ r,
    Eval.Gives w t (scopeChain w e b.head (if b.head.usesOuter then [("outer", convenience e.ty outer)] else [])) b.over r ∧
    o.over = truthy r ∧
    Eval.Gives w t (scopeChain w e b.head (if b.head.usesOuter then [("outer", convenience e.ty outer)] else [])) b.head.code
      (some o.value))

/-- A binding outside of Properties items, or in a module -/
def Head.Gives (w : World) (t : Table) (e : Env) (h : Head) (j : Js) : Prop :=
  h.Simple ∧ h.usesOuter = false ∧ h.byBlock = false ∧ Eval.Gives w t (scopeChain w e h []) h.code (some j)

/-- What `outer` stands for: the value outside of Properties items; without one, an empty list for properties that may be
    lists. -/
def outerOf (t : Ty) (outside : Option Js) : Res :=
  match outside with
  | some j => some j
  | none => if t = .strings ∨ t = .paths ∨ t = .var ∨ t = .vars then some (.arr []) else none

/-- The binding outside of Properties items, if there is one -/
def OutsideGives (w : World) (t : Table) (e : Env) : Option Head → Option Js → Prop
  | some h, some j => h.Gives w t e j
  | none, none => True
  | _, _ => False

/-- Each one of a list has the outcome at the same place of the other list. -/
inductive Each {α β : Type} (p : α → β → Prop) : List α → List β → Prop
  | nil : Each p [] []
  | cons {a : α} {b : β} {l : List α} {m : List β} : p a b → Each p l m → Each p (a :: l) (b :: m)

/-- The Properties items that apply: those whose condition is true; if there are none, that whose condition is
    `undefined`. -/
def applying (os : List Outcome) : List Outcome :=
  if (os.filter (fun o => !o.fallback && o.holds)).isEmpty then os.filter (·.fallback)
  else os.filter (fun o => !o.fallback && o.holds)

/-- The value of a property that is no list: the first one that applies, or that outside of Properties items, or that from
    the module. -/
def scalarValue (os : List Outcome) (outside : Option Js) (modules : List Js) : Option Js :=
  ((applying os).head?.map (·.value)).or (outside.or modules.head?)

/-- The value is a string, or a list of strings. -/
inductive Strings : Js → List String → Prop
  | one (s : String) : Strings (.atom (.str s)) [s]
  | list (l : List String) : Strings (.arr (l.map .str)) l

/-- A module may leave a list undefined. -/
def ModuleStrings (j : Js) (l : List String) : Prop := Strings j l ∨ j = undef ∧ l = []

/-- The value of a list of strings: the values that apply, that outside of Properties items, and those from modules unless
    one that applies overrides them. -/
def listValue (os : List Outcome) (values : Outcome → List String) (outside : Option (List String))
    (modules : List (List String)) : List String :=
  ((applying os).map values).flatten ++ outside.getD [] ++
    (if (applying os).any (·.over) then [] else modules.flatten)

end Verif.Eval
