import Verif.CString.Model

/-! # Specification: what string literals mean in C++ and C -/

namespace Verif.CString

/-- A character in UTF-16 -/
def utf16 (c : Nat) : Units := if c < 0x10000 then [c] else [0xD800 + (c - 0x10000) / 1024, 0xDC00 + (c - 0x10000) % 1024]

/-- A text in UTF-16 -/
def units (t : List Char) : Units := t.flatMap (fun c => utf16 c.toNat)

/-- Hexadecimal digits and their values -/
def hexValue (d : Nat) : Option Nat :=
  if 48 ≤ d ∧ d ≤ 57 then some (d - 48)
  else if 65 ≤ d ∧ d ≤ 70 then some (d - 55)
  else if 97 ≤ d ∧ d ≤ 102 then some (d - 87)
  else none

/-- A sequence of digits -/
inductive Hex : Units → Nat → Prop
  | nil : Hex [] 0
  | snoc {l n d x} : Hex l n → hexValue d = some x → Hex (l ++ [d]) (n * 16 + x)

/-- The escape sequences for single characters that are the same in both languages: the character after the backslash and the
one that is meant -/
def shorts : List (Nat × Nat) := [(34, 34), (92, 92), (39, 39), (63, 63), (97, 7), (98, 8), (102, 12), (110, 10), (114, 13), (116, 9), (118, 11)]

/-- The characters that can be given by their number: in C++, in a string literal, all Unicode scalar values -/
def Cpp (n : Nat) : Prop := n < 0xD800 ∨ (0xE000 ≤ n ∧ n < 0x110000)

/-- In C, not those below 0xA0, with three exceptions (6.4.3 of the C99 standard) -/
def C (n : Nat) : Prop := Cpp n ∧ (0xA0 ≤ n ∨ n = 0x24 ∨ n = 0x40 ∨ n = 0x60)

/-- What is between the quotes, and the string that is meant, in UTF-16. `ok` says which characters may be given by their
number. -/
inductive Means (ok : Nat → Prop) : Units → Units → Prop
  | nil : Means ok [] []
  | plain {c l v} : c ≠ 34 → c ≠ 92 → c ≠ 10 → c ≠ 13 → Means ok l v → Means ok (c :: l) (c :: v)
  | short {e c l v} : (e, c) ∈ shorts → Means ok l v → Means ok (92 :: e :: l) (c :: v)
  | number4 {d n l v} : d.length = 4 → Hex d n → ok n → Means ok l v → Means ok (92 :: 117 :: (d ++ l)) (utf16 n ++ v)
  | number8 {d n l v} : d.length = 8 → Hex d n → ok n → Means ok l v → Means ok (92 :: 85 :: (d ++ l)) (utf16 n ++ v)

/-- A literal -/
def Literal (ok : Nat → Prop) (text value : Units) : Prop := ∃ b, text = 34 :: b ++ [34] ∧ Means ok b value

/-- What is assumed of `QChar::isPrint`: control characters and surrogates are not printable. -/
structure Printable (pr : Nat → Bool) : Prop where
  control : ∀ u, u < 32 → pr u = false
  surrogate : ∀ u, 0xD800 ≤ u → u < 0xE000 → pr u = false

end Verif.CString
