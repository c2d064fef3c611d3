import Verif.Updater.Model
import Verif.Literal.Spec
/-
What the edited texts mean. `Literal.evaluate` is an evaluator for JavaScript literals.
-/

namespace Verif.Updater

/-- Elements of an array literal, each with a comma after it, and white space around them. -/
inductive Items : List Str → Str → Prop
  | nil (w : Str) (hw : ∀ c ∈ w, Literal.isSpace c = true) : Items [] w
  | cons (w e w' : Str) (es : List Str) (t : Str) (hw : ∀ c ∈ w, Literal.isSpace c = true)
      (hw' : ∀ c ∈ w', Literal.isSpace c = true) (h : Items es t) :
      Items (e :: es) (w ++ e ++ w' ++ ',' :: t)

/-- The text of an array literal with the given elements. -/
def ArrayLit (es : List Str) (t : Str) : Prop := ∃ b, t = '[' :: b ++ [']'] ∧ Items es b

/-- Texts of string literals with the given values. -/
def StringLits (es : List Str) (values : List Str) : Prop :=
  es.map Literal.evaluate = values.map (fun v => some (Literal.JsVal.str v))

/-- The file with the text of the member after the members `a` replaced. -/
def textWith (d : Doc) (a : List (Member × Str)) (t g : Str) (b : List (Member × Str)) : Str :=
  d.pre ++ '{' :: d.gap ++ membersText a ++ t ++ g ++ membersText b ++ '}' :: d.post

/-- A statement that is followed by the text `g` and the members `b` ends: there is a semicolon, or the
line ends, or there is nothing more in the item. -/
def Ends (semicolon : Str) (g : Str) (b : List (Member × Str)) : Prop :=
  (semicolon = [';'] ∨ semicolon = [] ∧ ('\n' ∈ g ∨ b = []))

/-- The name starts with `files`. -/
def NamedFiles (m : Member) : Prop := ∃ name s, m.kind = .binding name s ∧ name.head? = some filesName

/-- The item has the binding `files` with the given statement, between the members `a` and `b`, and
no other one. -/
structure FilesBinding (d : Doc) (a : List (Member × Str)) (head : Str) (s : Stmt) (g : Str)
    (b : List (Member × Str)) : Prop where
  eq : d.members = a ++ (⟨.binding [filesName] s, head⟩, g) :: b
  before : ∀ p ∈ a, ¬ NamedFiles p.1
  after : ∀ p ∈ b, ¬ NamedFiles p.1

/-- Characters that stand for themselves in a string literal. -/
def Plain (s : Str) : Prop := ∀ c ∈ s, c ≠ '"' ∧ c ≠ '\\' ∧ Literal.isLineEnd c = false

/-- A place for a new item among the members: the file is `u` up to there, and `v` after it. It is
right after the opening brace or after an item. -/
def ItemPlace (d : Doc) (u v : Str) : Prop :=
  d.text = u ++ v ∧
    (u = d.pre ++ ['{'] ∨ ∃ a m g b, d.members = a ++ (m, g) :: b ∧ m.kind = .object ∧
      u = d.pre ++ '{' :: d.gap ++ membersText a ++ m.text)

/-- White space. -/
def White (w : Str) : Prop := ∀ c ∈ w, Literal.isSpace c = true

/-- An empty group with the given name, over several lines. -/
def IsGroup (name t : Str) : Prop :=
  ∃ w1 w2 w3 w4 lit, White w1 ∧ White w2 ∧ White w3 ∧ White w4 ∧ '\n' ∈ w3 ∧
    t = w1 ++ "Group {".toList ++ w2 ++ "name: ".toList ++ lit ++ w3 ++ "files: []".toList ++ w4 ++ ['}'] ∧
    Literal.evaluate lit = some (.str name)

/-- A `Depends` item with the given name. -/
def IsDepends (name t : Str) : Prop :=
  ∃ w lit, White w ∧ t = w ++ "Depends { name: ".toList ++ lit ++ " }".toList ∧
    Literal.evaluate lit = some (.str name)

/-! ### Removing items -/

/-- White space in project files. -/
def SpaceChar (c : Char) : Prop := c = ' ' ∨ '\t' ≤ c ∧ c ≤ '\r'

/-- A part of the file that ends where a line starts. -/
def AtLineStart (p : Str) : Prop := p = [] ∨ p.getLast? = some '\n'

/-- What follows the text is the first thing in its line. -/
def FirstInLine (u : Str) : Prop :=
  ∃ p w, u = p ++ w ∧ AtLineStart p ∧ '\n' ∉ w ∧ ∀ c ∈ w, SpaceChar c

/-- The last line of the text, `q`, comes after an empty one; `p` is the text up to the latter. -/
structure AfterBlank (u p q : Str) : Prop where
  start : AtLineStart p
  line : '\n' ∉ q
  blank : ∃ w, u = p ++ w ++ '\n' :: q ∧ '\n' ∉ w ∧ (∀ c ∈ w, SpaceChar c) ∧ p ++ w ≠ []

/-- `t` is what is between `u` and `v`, without white space at the end of `u` and the start of `v`; if
this had a line end, there is one still. -/
def Joined (u v t : Str) : Prop :=
  ∃ u0 w1 w2 v0, u = u0 ++ w1 ∧ v = w2 ++ v0 ∧ (∀ c ∈ w1, SpaceChar c) ∧ (∀ c ∈ w2, SpaceChar c) ∧
    ((t = u0 ++ v0 ∧ ('\n' ∈ w1 ++ w2 → AtLineStart u0)) ∨ t = u0 ++ '\n' :: v0 ∧ '\n' ∈ w2)

/-! ### Line ends -/

/-- All lines end with a line feed only. -/
def UnixText (s : Str) : Prop := ∀ a b, s ≠ a ++ '\r' :: '\n' :: b

/-- All lines end with a carriage return and a line feed. -/
def WindowsText (s : Str) : Prop := ∀ a b, s = a ++ '\n' :: b → a.getLast? = some '\r'

/-- The second text is the first one with other line ends. -/
inductive LineEndsOnly : Str → Str → Prop
  | nil : LineEndsOnly [] []
  | same (c : Char) (s t : Str) (h : LineEndsOnly s t) : LineEndsOnly (c :: s) (c :: t)
  | ret (s t : Str) (h : LineEndsOnly s t) : LineEndsOnly ('\n' :: s) ('\r' :: '\n' :: t)

end Verif.Updater
