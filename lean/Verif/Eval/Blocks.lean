import Verif.Eval.Main
/-!
# Properties items (C60)

Model of src/lib/corelib/loader/astpropertiesitemhandler.cpp 138-280, language/value.cpp 172-180: how the bindings of a
property in Properties items and outside of them become one value.
-/
namespace Verif.Eval

/-- A Properties item, as far as one property is concerned: the condition, nothing if it is the word `undefined`;
    `overrideListProperties`; the binding. -/
structure Block where
  cond : Option Code
  over : Code
  head : Head

/-- `JSSourceValue::Alternative` -/
structure Alt where
  cond : Code
  over : Code
  head : Head

/-- 236-247 -/
def Block.alt (b : Block) : Alt :=
  ⟨b.cond.getD (.ret (some undef)), b.over, { b.head with fallback := b.cond.isNone || b.head.fallback }⟩

/-- `addAlternative`, value.cpp 172-180; `none` if the check fails. -/
def addAlternative (l : List Alt) (a : Alt) : Option (List Alt) :=
  match l.getLast? with
  | some b => if b.head.fallback then (if a.head.fallback then none else some (l.dropLast ++ [a, b])) else some (l ++ [a])
  | none => some [a]

def addAll (l : List Alt) : List Block → Option (List Alt)
  | [] => some l
  | b :: more => (addAlternative l b.alt).bind (fun l' => addAll l' more)

def Alts.of : List Alt → Alts
  | [] => .nil
  | a :: l => .cons a.cond a.over a.head .none (.of l)

def Values.of : List Head → Values
  | [] => .nil
  | h :: l => .cons (.source h .none .nil .nil) (.of l)

/-- The value outside of Properties items, or the one that is created if there is none, 233-243. -/
def topHead (id : Nat) : Option Head → Head
  | some h => h
  | none => { id := id, code := .read "base" .ret, usesBase := true, byBlock := true }

/-- The value of a property that is bound outside of Properties items, perhaps, and in Properties items, and in modules. -/
def propertyOf (id : Nat) (outside : Option Head) (blocks : List Block) (modules : List Head) : Option Value :=
  (addAll [] blocks).map (fun l => .source (topHead id outside) .none (.of l) (.of modules))

end Verif.Eval
