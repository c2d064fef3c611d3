import Verif.SettingsTree.Model

/-!
# Specification of the settings tree
-/

namespace Verif.SettingsTree

/-- A node without children, reached by these names, is shown with this value. -/
inductive Shows : Forest → List Str → Str → Prop
  | here {n v b r} : Shows (.cons n v b .nil r) [n] v
  | sub {n w b s r p v} : Shows s p v → Shows (.cons n w b s r) (n :: p) v
  | rest {n w b s r p v} : Shows r p v → Shows (.cons n w b s r) p v

/-- The value stored under a key. -/
inductive Stored {V : Type} : Trie V → List Str → V → Prop
  | here {n v s r} : Stored (.cons n (some v) s r) [n] v
  | sub {n w s r p v} : Stored s p v → Stored (.cons n w s r) (n :: p) v
  | rest {n w s r p v} : Stored r p v → Stored (.cons n w s r) p v

/-- No two siblings have the same name. -/
def Distinct : Forest → Prop
  | .nil => True
  | .cons n _ _ s r => n ∉ names r ∧ Distinct s ∧ Distinct r

/-- A name without dots and slashes. -/
def PlainName (n : Str) : Prop := n ≠ [] ∧ '.' ∉ n ∧ '/' ∉ n

/-- All names are plain. -/
def Plain : Forest → Prop
  | .nil => True
  | .cons n _ _ s r => PlainName n ∧ Plain s ∧ Plain r

/-- The names of some siblings in the stored settings. -/
def tnames {V : Type} : Trie V → List Str
  | .nil => []
  | .cons n _ _ r => n :: tnames r

/-- What holds for all stored settings: every name once, and no dots and slashes
in names. -/
def Sound {V : Type} : Trie V → Prop
  | .nil => True
  | .cons n _ s r => n ∉ tnames r ∧ PlainName n ∧ Sound s ∧ Sound r

/-- A name has either a value or further names below it, not both. -/
def Leafy {V : Type} : Trie V → Prop
  | .nil => True
  | .cons _ v s r => (v.isSome ↔ s matches .nil) ∧ Leafy s ∧ Leafy r

/-- The names of the nodes on the way to the node in a row below an index. -/
def pathTo : List Nat → Nat → Forest → Option (List Str)
  | [], i, f => (rowAt i f).map (fun x => [x.1])
  | j :: ix, i, f => match rowAt j f with
    | none => none
    | some (n, _, _, s) => (pathTo ix i s).map (n :: ·)

/-- The new names that the user enters are plain. -/
def PlainOp : Op → Prop
  | .rename _ _ s => PlainName s
  | _ => True

end Verif.SettingsTree
