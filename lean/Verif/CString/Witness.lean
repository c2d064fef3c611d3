import Verif.CString.Props

/-! # Examples for C127 -/

namespace Verif.CString

/-- ASCII and most of what is above, without surrogates -/
def ascii (u : Nat) : Bool := (32 ≤ u && u < 127) || (0xA1 ≤ u && u < 0xD800)

theorem ascii_ok : Printable ascii where
  control := by intro u h; simp [ascii]; omega
  surrogate := by intro u h h'; simp [ascii]; omega

/-- A path of Windows, a quote, a line break, a letter with an accent, a bell and an emoji -/
def text : List Char := "C:\\a \"é\n".toList ++ [Char.ofNat 7, Char.ofNat 0x1F600]

example : Literal Cpp (cStringQuote ascii (units text)) (units text) := C127_cpp ascii_ok text

example : cStringQuote ascii (units text) = units ("\"C:\\\\a \\\"é\\n\\u0007\\U0001F600\"".toList) := by decide +kernel

/-- In C, it works without the bell, -/
example : Literal C (cStringQuote ascii (units ("C:\\a \"é\n".toList ++ [Char.ofNat 0x1F600])))
    (units ("C:\\a \"é\n".toList ++ [Char.ofNat 0x1F600])) :=
  C127_c_partial ascii_ok (by decide +kernel)

/-- but not with it. -/
example (v : Units) : ¬ Literal C (cStringQuote ascii (units ("ring".toList ++ Char.ofNat 7 :: "!".toList))) v :=
  C127_c_control ascii_ok "ring".toList "!".toList (by decide) (by decide) v

example (v : Units) : ¬ Literal Cpp (cStringQuote ascii [0xDC12]) v := C127_surrogate ascii_ok (by decide) (by decide) v

/-- `C127_unique`: not every text is a literal. -/
example : Literal Cpp [34, 97, 34] [97] := ⟨[97], rfl, .plain (by decide) (by decide) (by decide) (by decide) .nil⟩

end Verif.CString
