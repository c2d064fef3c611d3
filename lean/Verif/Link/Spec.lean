import Verif.Link.Model
/-!
# C105 and C106: specification
-/
namespace Verif.Link

/-- The dependencies of the product, those of its dependencies, and so on. -/
inductive In (roots : List Dep) : Dep → Prop
  | root (d : Dep) : d ∈ roots → In roots d
  | child (e d : Dep) : In roots e → d ∈ e.deps → In roots d

/-- The dependency is on a library, and it is one to link against. -/
def Dep.Links (d : Dep) : Prop := d.params.link = true ∧ d.prod.kind ≠ none

/-- A dependency of a dependency is one to link against, and not one on another variant of the same product. -/
def Step (e d : Dep) : Prop := d ∈ e.deps ∧ d.name ≠ e.name ∧ d.Links

/-- What has to be linked in: the libraries that the product depends on, and those that a static or object library that
    has to be linked in depends on. -/
inductive Linked (roots : List Dep) : Dep → Prop
  | root (d : Dep) : d ∈ roots → d.Links → Linked roots d
  | step (e d : Dep) : Linked roots e → e.prod.kind ≠ some .dynamic → Step e d → Linked roots d

/-- What is below a dynamic library that is linked against. -/
inductive Hidden (roots : List Dep) : Dep → Prop
  | under (e d : Dep) : Linked roots e → e.prod.kind = some .dynamic → Step e d → Hidden roots d
  | step (e d : Dep) : Hidden roots e → Step e d → Hidden roots d

/-- What goes into a static library (or a dynamic one, by the definition of `Linked`) on the way to it: the dependency is
    reached from one on a static library, over object libraries. -/
inductive Consumed (roots : List Dep) : Dep → Prop
  | static (e d : Dep) : Linked roots e → e.prod.kind = some .static → Step e d → Consumed roots d
  | step (e d : Dep) : Consumed roots e → Step e d → Consumed roots d

/-- A project in order: what has the same name is the same product, files belong to one product, files of products are
    not given as external libraries as well, and no product has the name of a property of all JavaScript objects. -/
structure Fine (external : List Str) (roots : List Dep) : Prop where
  same : ∀ d e, In roots d → In roots e → d.name = e.name → d.prod = e.prod ∧ d.deps = e.deps
  distinct : ∀ d e p, In roots d → In roots e → p ∈ d.prod.files → p ∈ e.prod.files → d.name = e.name
  apart : ∀ d p, In roots d → p ∈ d.prod.files → p ∉ external ∧ ∀ e, In roots e → p ∉ e.prod.external
  names : ∀ d, In roots d → d.name ∉ inherited

/-- The libraries' files, in order. -/
def linkedFiles (c : Cfg) (external : List Str) (roots : List Dep) : List Str :=
  (libraries (collect c external roots)).map (·.path)

/-- One comes before the other. -/
def Before (l : List Str) (p q : Str) : Prop := ∃ a b c, l = a ++ p :: b ++ q :: c

/-- What a linker understands: a flag turns taking archives as a whole on or off; anything else is a library, and is
    taken as a whole if that is turned on. The result is nothing if it is still turned on at the end. -/
def linkerReads (driver : Bool) : Bool → List Str → Option (List (Str × Bool))
  | active, [] => if active then none else some []
  | active, a :: l =>
    if a = escaped driver wholeOn then linkerReads driver true l
    else if a = escaped driver wholeOff then linkerReads driver false l
    else (linkerReads driver active l).map ((a, active) :: ·)

/-- Of several entries with the same path in a row, the first. -/
def rowFirst : Option Str → List Obj → List Obj
  | _, [] => []
  | prev, o :: l => if prev = some o.path then rowFirst prev l else o :: rowFirst (some o.path) l

end Verif.Link
