import Verif.Desktop.Model

/-! # Specification: desktop files, after the Desktop Entry Specification -/

namespace Verif.Desktop

/-- What a line is -/
inductive Line where
  | blank
  | comment (t : Text)
  | sect (name : Text)
  | entry (key value : Text)

/-- How it is written -/
def Line.body : Line → Text
  | .blank => []
  | .comment t => '#' :: t
  | .sect n => '[' :: n ++ [']']
  | .entry k v => k ++ '=' :: v

def NoSpaceAround (t : Text) : Prop := (∀ c, t.head? = some c → isSpace c = false) ∧ (∀ c, t.getLast? = some c → isSpace c = false)

/-- The names and values that can be written -/
def Line.Ok : Line → Prop
  | .blank => True
  | .comment _ => True
  | .sect n => n ≠ []
  | .entry k v => k ≠ [] ∧ k.head? ≠ some '#' ∧ k.head? ≠ some '[' ∧ '=' ∉ k ∧ NoSpaceAround k ∧ NoSpaceAround v

/-- A line of a file is one of these, maybe with spaces around it. -/
def Written (raw : Text) (l : Line) : Prop :=
  ∃ a b, raw = a ++ l.body ++ b ∧ (∀ c ∈ a, isSpace c = true) ∧ (∀ c ∈ b, isSpace c = true)

inductive AllWritten : List Text → List Line → Prop
  | nil : AllWritten [] []
  | cons {r l rs ls} : Written r l → AllWritten rs ls → AllWritten (r :: rs) (l :: ls)

/-- The section has the entry: between the two lines no other section begins. -/
def Has (ls : List Line) (s k v : Text) : Prop :=
  ∃ a b c, ls = a ++ .sect s :: (b ++ .entry k v :: c) ∧ ∀ n, Line.sect n ∉ b

/-- A valid file -/
structure Valid (ls : List Line) : Prop where
  ok : ∀ l ∈ ls, l.Ok
  /-- entries belong to sections -/
  first : ∀ a k v b, ls = a ++ .entry k v :: b → ∃ s, Line.sect s ∈ a
  /-- no section occurs twice -/
  sections : ∀ a s b, ls = a ++ .sect s :: b → Line.sect s ∉ b
  /-- no key occurs twice in a section -/
  keys : ∀ a k v b v' c, ls = a ++ .entry k v :: (b ++ .entry k v' :: c) → ∃ n, Line.sect n ∈ b
  main : Line.sect mainSection ∈ ls

/-- What the code cannot deal with: values with an equals sign, and sections without entries in front of others. -/
structure Simple (ls : List Line) : Prop where
  values : ∀ k v, Line.entry k v ∈ ls → '=' ∉ v
  nonempty : ∀ a s b s' c, ls = a ++ .sect s :: (b ++ .sect s' :: c) → ∃ k v, Line.entry k v ∈ b

/-- What the user gives -/
structure KeysOk (keys : List (Text × Text)) : Prop where
  ok : ∀ e ∈ keys, (Line.entry e.1 e.2).Ok
  nodup : (keys.map Prod.fst).Nodup

end Verif.Desktop
