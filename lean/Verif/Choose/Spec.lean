import Verif.Choose.Model
import Verif.Version.Spec

/-! # Specification for the choice of the file for a module -/

namespace Verif.Choose
open Verif.Version

/-- The file is a module in the directory with this number, counted from the first search path, and its condition is true. -/
def Usable (dirs : List (List File)) (i : Nat) (f : File) : Prop := ∃ d, dirs[i]? = some d ∧ f ∈ d ∧ f.isModule = true ∧ f.condition = true

/-- The version is in the range: `versionAtLeast` and `versionBelow` of the `Depends` item, if they are given. -/
def InRange (r : Range) (f : File) : Prop :=
  (r.minimum ≠ {} → ¬ LexLt f.version r.minimum) ∧ (r.maximum ≠ {} → LexLt f.version r.maximum)

/-- A file is preferred to another one: by the version, then by the priority, then by the search path. -/
def Better (r : Range) (i : Nat) (f : File) (j : Nat) (g : File) : Prop :=
  (InRange r f ∧ ¬ InRange r g) ∨
  ((InRange r f ↔ InRange r g) ∧ (f.priority > g.priority ∨ (f.priority = g.priority ∧ i < j)))

/-- All files are preferred to, apart from the file itself. -/
def Best (dirs : List (List File)) (r : Range) (i : Nat) (f : File) : Prop :=
  Usable dirs i f ∧ ∀ j g, Usable dirs j g → (j = i ∧ g = f) ∨ Better r i f j g

/-- No file is listed twice. -/
def Listed (dirs : List (List File)) : Prop := ∀ d ∈ dirs, d.Nodup

end Verif.Choose
