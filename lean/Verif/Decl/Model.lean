/-
The check for properties that are set without being declared.

Sources modelled:
  src/lib/corelib/language/propertydeclaration.cpp 386-525
  src/lib/corelib/tools/error.cpp 357-363
  src/lib/corelib/loader/astpropertiesitemhandler.cpp 173-230 (where the mark on values comes from)

Simplifications: the pool of items is a list, pointers are indexes.  The declarations of an item are
given with those of its prototypes.  Deprecated properties, source locations and the texts of the
messages are left out, except for the names in them.
-/
namespace Verif.Decl

abbrev Str := List Char

/-- The types of items (language/itemtype.h 48-84), as far as the check distinguishes them.  `other`
stands for FileTagger, JobLimit, ModuleProvider, Probe, Profile, Rule, Scanner and so on. -/
inductive Ty where
  | artifact | depends | export | group | module | moduleInstance | placeholder | modulePrefix
  | parameter | parameters | product | project | properties | propertiesInSubProject | other
  deriving DecidableEq, Repr

/-- The values of properties: source code, another item (as in `cpp.defines: ...`, where `cpp` is the
property), or a value set by qbs itself.  The flag says that the value was created for a `Properties`
item (astpropertiesitemhandler.cpp 187-191, 219-225). -/
inductive Val where
  | js (block : Bool)
  | item (target : Nat) (block : Bool)
  | variant
  deriving DecidableEq, Repr

/-- An item: its type, its own properties in the order of their names, the declared properties, the
child items, whether it is a module that was found, whether it is disabled, and the ids that are
used in its file. -/
structure Item where
  type : Ty
  props : List (Str × Val)
  decls : List Str
  children : List Nat
  present : Bool
  disabled : Bool
  ids : List Str
  deriving DecidableEq, Repr

abbrev Heap := List Item

/-- A report: the item and the property, whether it is said to be an undeclared item or an undeclared
property, and the name in the message. -/
structure Report where
  item : Nat
  name : Str
  isItem : Bool
  path : List Str
  deriving DecidableEq, Repr

structure St where
  handled : List Nat
  reports : List Report
  deriving DecidableEq, Repr

/-- The loop over the parent items (propertydeclaration.cpp 421-427). -/
def inGroup (h : Heap) : List Nat → Bool
  | [] => false
  | i :: st =>
    match h[i]? with
    | none => false
    | some it =>
      match it.type with
      | .group => true
      | .modulePrefix => inGroup h st
      | _ => false

inductive Verdict where
  | stop | error | descend
  deriving DecidableEq, Repr

/-- `checkItemValue` (propertydeclaration.cpp 410-446).  `quiet` is the result of the loop. -/
def checkItem (it t : Item) (name : Str) (block quiet : Bool) : Verdict :=
  if it.type = .artifact then .stop
  else if it.type = .properties then .stop
  else if t.type = .placeholder ∧ quiet = true then .stop
  else if t.type ≠ .moduleInstance ∧ t.type ≠ .modulePrefix ∧ name ∉ it.ids ∧ block = false then .error
  else .descend

/-- The items that are not looked into (propertydeclaration.cpp 453-463). -/
def skipped (it : Item) : Bool :=
  it.type == .module || it.type == .export || (it.type == .moduleInstance && !it.present)
    || it.type == .properties || it.type == .propertiesInSubProject || it.disabled

def sProviders : Str := ['m','o','d','u','l','e','P','r','o','v','i','d','e','r','s']

def isItemVal : Val → Bool
  | .item _ _ => true
  | _ => false

/-- One round of the loop over the properties (propertydeclaration.cpp 466-489), with the handlers for
the kinds of values (397-409, 507-509). -/
def propStep (h : Heap) (rec : List Nat → List Str → Nat → St → St) (st : List Nat) (m : List Str)
    (i : Nat) (it : Item) (s : St) (p : Str × Val) : St :=
  if it.type = .product ∧ p.1 = sProviders ∧ isItemVal p.2 = true then s
  else if p.1 ∈ it.decls then s
  else
    let path := (if it.type = .modulePrefix then m else []) ++ [p.1]
    match p.2 with
    | .variant => s
    | .js block => if block then s else { s with reports := s.reports ++ [⟨i, p.1, false, path⟩] }
    | .item j block =>
      match h[j]? with
      | none => s
      | some t =>
        match checkItem it t p.1 block (inGroup h (i :: st)) with
        | .stop => s
        | .error => { s with reports := s.reports ++ [⟨i, p.1, true, path⟩] }
        | .descend => rec (i :: st) path j s

/-- The children that are looked at (propertydeclaration.cpp 491-505). -/
def childOk (it c : Item) : Bool :=
  match c.type with
  | .export | .depends | .parameter | .parameters => false
  | .group => !(it.type == .module || it.type == .moduleInstance)
  | _ => true

/-- One round of the loop over the children (propertydeclaration.cpp 491-505). -/
def childStep (h : Heap) (rec : List Nat → List Str → Nat → St → St) (st : List Nat) (m : List Str)
    (it : Item) (s : St) (c : Nat) : St :=
  match h[c]? with
  | none => s
  | some t => if childOk it t then rec st m c s else s

/-- `handleItem` (propertydeclaration.cpp 447-506).  The first argument bounds the depth; `check`
gives one that is always enough. -/
def handle (h : Heap) (proj : Bool) : Nat → List Nat → List Str → Nat → St → St
  | 0, _, _, _, s => s
  | n + 1, st, m, i, s =>
    match h[i]? with
    | none => s
    | some it =>
      if proj = true ∧ it.type = .product then s
      else if i ∈ s.handled then s
      else
        let s := { s with handled := i :: s.handled }
        if skipped it then s
        else
          let s := it.props.foldl (propStep h (handle h proj n) st m i it) s
          it.children.foldl (childStep h (handle h proj n) st m it) s

/-- `checkPropertyDeclarations` (propertydeclaration.cpp 390-394, 522-525) when errors are only
printed: everything that is reported. -/
def check (h : Heap) (root : Nat) : List Report :=
  (handle h ((h[root]?).map (·.type) == some .project) (h.length + 1) [] [] root ⟨[], []⟩).reports

/-- With strict checking the first report is thrown (error.cpp 357-363). -/
def checkStrict (h : Heap) (root : Nat) : Option Report := (check h root).head?

end Verif.Decl
