import Verif.Decl.Model

/-! Which properties must be reported. -/
namespace Verif.Decl

/-- The item `i` sets the property `n` to `v`, and the property is not declared. -/
def Sets (h : Heap) (i : Nat) (n : Str) (v : Val) : Prop :=
  ∃ it, h[i]? = some it ∧ (n, v) ∈ it.props ∧ n ∉ it.decls

/-- The property of products for module providers is not a module. -/
def ProviderMap (h : Heap) (i : Nat) (n : Str) : Prop :=
  ∃ it, h[i]? = some it ∧ it.type = .product ∧ n = sProviders

def HasType (h : Heap) (i : Nat) (t : Ty) : Prop := ∃ it, h[i]? = some it ∧ it.type = t

/-- A group, or the first part of the name of a module that is used in a group. -/
inductive InGroup (h : Heap) : Nat → Prop where
  | group {i : Nat} : HasType h i .group → InGroup h i
  | pre {i j : Nat} {n : Str} {b : Bool} : InGroup h i → Sets h i n (.item j b) →
      HasType h j .modulePrefix → InGroup h j

/-- The use of something that is no module: `n` is set as if it were an item, but it is neither a
module the product depends on, nor an id, and it does not come from a `Properties` item. -/
def NoModule (h : Heap) (i : Nat) (n : Str) (j : Nat) (b : Bool) : Prop :=
  ¬ HasType h j .moduleInstance ∧ ¬ HasType h j .modulePrefix ∧
    (∀ it, h[i]? = some it → n ∉ it.ids) ∧ b = false

/-- Where values that are items are not checked: in `Artifact` and `Properties` items (QBS-1030), and
in groups if there is no such module. -/
def Unchecked (h : Heap) (i j : Nat) : Prop :=
  HasType h i .artifact ∨ HasType h i .properties ∨ (HasType h j .placeholder ∧ InGroup h i)

/-- Items that are looked into: not what is disabled, not modules that were not found, and not the
definitions of modules and exports, which are checked where they are used. -/
def Looked (h : Heap) (i : Nat) : Prop :=
  ∃ it, h[i]? = some it ∧ it.disabled = false ∧
    it.type ∉ [Ty.module, .export, .properties, .propertiesInSubProject] ∧
    (it.type = .moduleInstance → it.present = true)

/-- Items that belong together: children, and modules whose properties are set. -/
inductive Edge (h : Heap) : Nat → Nat → Prop where
  | child {i c : Nat} {it t : Item} : h[i]? = some it → c ∈ it.children → h[c]? = some t →
      t.type ∉ [Ty.export, .depends, .parameter, .parameters] →
      (t.type = .group → it.type ≠ .module ∧ it.type ≠ .moduleInstance) → Edge h i c
  | value {i j : Nat} {n : Str} {b : Bool} : Sets h i n (.item j b) → ¬ ProviderMap h i n →
      ¬ Unchecked h i j → ¬ NoModule h i n j b → Edge h i j

/-- When a project is checked, its products are not: they are checked on their own. -/
def Enter (h : Heap) (proj : Bool) (i : Nat) : Prop :=
  ∃ it, h[i]? = some it ∧ ¬ (proj = true ∧ it.type = .product)

/-- The items that are checked. -/
inductive Checked (h : Heap) (proj : Bool) (root : Nat) : Nat → Prop where
  | root : Enter h proj root → Checked h proj root root
  | edge {x y : Nat} : Checked h proj root x → Looked h x → Edge h x y → Enter h proj y →
      Checked h proj root y

/-- What is wrong with the property `n` of item `i` itself: `k` tells whether it is set like an item. -/
def Wrong (h : Heap) (i : Nat) (n : Str) : Bool → Prop
  | false => Sets h i n (.js false)
  | true => ∃ j b, Sets h i n (.item j b) ∧ (∃ t, h[j]? = some t) ∧ ¬ ProviderMap h i n ∧
      ¬ Unchecked h i j ∧ NoModule h i n j b

/-- The name of a module up to here. -/
inductive PathTo (h : Heap) : Nat → List Str → Prop where
  | start {i : Nat} : ¬ HasType h i .modulePrefix → PathTo h i []
  | next {i j : Nat} {n : Str} {b : Bool} {l : List Str} : PathTo h i l → Sets h i n (.item j b) →
      HasType h j .modulePrefix → PathTo h j (l ++ [n])

/-- The shape of the items: a property is set once, and an item for the first part of a module name
belongs to one property of one item and is not a child. -/
structure Shape (h : Heap) : Prop where
  names : ∀ it ∈ h, (it.props.map (·.1)).Nodup
  owner : ∀ i i' n n' j b b', Sets h i n (.item j b) → Sets h i' n' (.item j b') →
    HasType h j .modulePrefix → i = i'
  child : ∀ it ∈ h, ∀ c ∈ it.children, ¬ HasType h c .modulePrefix

end Verif.Decl

namespace Verif.Decl

/-- Whether the check was started for a project. -/
def projRoot (h : Heap) (root : Nat) : Bool := (h[root]?).map (·.type) == some .project

/-- There is a report for property `n` of item `i`. -/
def Reported (h : Heap) (root i : Nat) (n : Str) : Prop :=
  ∃ r ∈ check h root, r.item = i ∧ r.name = n

/-- The items a user sees inside a product: the product, the items in it, the items in these, and
the modules that are used there.  Left out are those that are not evaluated in place (exports,
dependencies, parameters, `Properties` items), groups of modules, and what is disabled or absent. -/
inductive Inside (h : Heap) (root : Nat) : Nat → Prop where
  | root {it : Item} : h[root]? = some it → it.type ≠ .module → it.type ≠ .export →
      it.type ≠ .properties → it.type ≠ .propertiesInSubProject →
      it.type ≠ .moduleInstance → it.disabled = false → Inside h root root
  | child {i c : Nat} {it t : Item} : Inside h root i → h[i]? = some it → c ∈ it.children →
      h[c]? = some t →
      t.type ∉ [Ty.export, .depends, .parameter, .parameters, .module, .moduleInstance, .properties,
        .propertiesInSubProject] →
      ¬ (t.type = .group ∧ (it.type = .module ∨ it.type = .moduleInstance)) →
      (projRoot h root = true → t.type ≠ .product) →
      t.disabled = false → Inside h root c
  | module {i j : Nat} {n : Str} {b : Bool} {it t : Item} : Inside h root i → h[i]? = some it →
      (n, Val.item j b) ∈ it.props → n ∉ it.decls → it.type ≠ .artifact →
      ¬ (it.type = .product ∧ n = sProviders) → h[j]? = some t →
      (t.type = .moduleInstance ∧ t.present = true) ∨ t.type = .modulePrefix → t.disabled = false →
      Inside h root j

end Verif.Decl
