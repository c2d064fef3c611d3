/-! # `Utilities.cStringQuote`

Strings are lists of UTF-16 units, as in `QString`. -/

namespace Verif.CString

abbrev Units := List Nat

/-- `toHexUpper` (utilitiesextension.cpp 245-248): the last four bits -/
def toHexUpper (v : Nat) : Nat := if v % 16 < 10 then 48 + v % 16 else 55 + v % 16

/-- `QChar::isHighSurrogate`, `QChar::isLowSurrogate` and `QChar::surrogateToUcs4` -/
def isHigh (u : Nat) : Bool := 0xD800 ≤ u && u < 0xDC00
def isLow (u : Nat) : Bool := 0xDC00 ≤ u && u < 0xE000
def toUcs4 (h l : Nat) : Nat := (h - 0xD800) * 1024 + (l - 0xDC00) + 0x10000

/-- The escape sequence with four digits (utilitiesextension.cpp 359-364) -/
def escape4 (u : Nat) : Units :=
  [92, 117, toHexUpper (u / 4096), toHexUpper (u / 256), toHexUpper (u / 16), toHexUpper u]

/-- The one with eight digits (utilitiesextension.cpp 343-352) -/
def escape8 (c : Nat) : Units :=
  [92, 85, 48, 48, toHexUpper (c / 0x100000), toHexUpper (c / 65536), toHexUpper (c / 4096), toHexUpper (c / 256), toHexUpper (c / 16),
    toHexUpper c]

/-- The short escape sequences (utilitiesextension.cpp 304-323) -/
def simple (u : Nat) : Option Nat :=
  if u = 34 ∨ u = 92 then some u
  else if u = 8 then some 98
  else if u = 12 then some 102
  else if u = 10 then some 110
  else if u = 13 then some 114
  else if u = 9 then some 116
  else none

/-- The loop in `escapedString` for UTF-16 (utilitiesextension.cpp 271-367). A run of printable characters is copied one by one.
`pr` is `QChar::isPrint`. The break of hexadecimal escape sequences is left out, because there are none in this case. -/
def body (pr : Nat → Bool) : Units → Units
  | [] => []
  | u :: s =>
    if pr u && u != 92 && u != 34 then u :: body pr s
    else
      match simple u with
      | some e => 92 :: e :: body pr s
      | none =>
        match s with
        | [] => escape4 u
        | v :: t =>
          if isHigh u && isLow v then
            (if pr (toUcs4 u v) then [u, v] else escape8 (toUcs4 u v)) ++ body pr t
          else escape4 u ++ body pr (v :: t)

/-- `escapedString` (utilitiesextension.cpp 263-371), as called by `UtilitiesExtension::js_cStringQuote` (utilitiesextension.cpp
373-383) -/
def cStringQuote (pr : Nat → Bool) (s : Units) : Units := 34 :: body pr s ++ [34]

end Verif.CString
