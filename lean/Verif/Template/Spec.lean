import Verif.Template.Model

/-! # Specification: templates as sequences of characters and placeholders -/

namespace Verif.Template

/-- The character that is special -/
def Style.special : Style → Char
  | .dollar => '$'
  | .at => '@'

/-- How a placeholder is written -/
def Style.wrap : Style → Text → Text
  | .dollar, n => '$' :: '{' :: n ++ ['}']
  | .at, n => '@' :: n ++ ['@']

/-- The names of placeholders: words, or the special character -/
def Name (st : Style) (n : Text) : Prop := n = [st.special] ∨ (n ≠ [] ∧ ∀ c ∈ n, c.isAlphanum = true ∨ c = '_')

inductive Part where
  | lit (c : Char)
  | var (n : Text)

def Part.text (st : Style) : Part → Text
  | .lit c => [c]
  | .var n => st.wrap n

def template (st : Style) (ps : List Part) : Text := ps.flatMap (Part.text st)

/-- No placeholder begins where a character is meant. -/
def Ok (st : Style) : List Part → Prop
  | [] => True
  | .lit c :: ps => (∀ n rest, Name st n → c :: template st ps ≠ st.wrap n ++ rest) ∧ Ok st ps
  | .var n :: ps => Name st n ∧ Ok st ps

/-- What a name stands for -/
def Value (st : Style) (d : Dict) (n x : Text) : Prop :=
  (n = [st.special] ∧ x = [st.special]) ∨ (n ≠ [st.special] ∧ d.get n = some x)

/-- The result -/
inductive Rendered (st : Style) (d : Dict) : List Part → Text → Prop
  | nil : Rendered st d [] []
  | lit {c ps t} : Rendered st d ps t → Rendered st d (.lit c :: ps) (c :: t)
  | var {n x ps t} : Value st d n x → Rendered st d ps t → Rendered st d (.var n :: ps) (x ++ t)

/-- A placeholder that stands for nothing -/
def Unknown (st : Style) (d : Dict) (n : Text) : Prop := Name st n ∧ n ≠ [st.special] ∧ d.get n = none

/-- A template for a given text: the special character is written as a placeholder. -/
def quote (st : Style) (s : Text) : Text := s.flatMap (fun c => if c = st.special then st.wrap [c] else [c])

/-- The text of a file with the given lines -/
def file (ls : List Text) : Text := ls.flatMap (· ++ ['\n'])

/-- The lines of a file are rendered one by one. -/
inductive AllRendered (st : Style) (d : Dict) : List (List Part) → List Text → Prop
  | nil : AllRendered st d [] []
  | cons {ps t pss ts} : Rendered st d ps t → AllRendered st d pss ts → AllRendered st d (ps :: pss) (t :: ts)

end Verif.Template
