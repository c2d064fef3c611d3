import Verif.Lexer.Model
/-!
# What the tokens of a project file are

These definitions use the data of the model, not its functions.
-/
namespace Verif.Lexer

/-- What is assumed about the Unicode tables. -/
structure UniOk (u : Uni) : Prop where
  newline : u.isSpace '\n' = true
  nulNoSpace : u.isSpace nul = false
  backslash : u.isLetterOrNumber '\\' = false
  nulNoWord : u.isLetterOrNumber nul = false
  asciiDigits : ∀ c : Char, c.toNat < 128 → (u.isDigit c = true ↔ 48 ≤ c.toNat ∧ c.toNat ≤ 57)
  asciiLetters : ∀ c : Char, c.toNat < 128 → (u.isLetter c = true ↔
    (65 ≤ c.toNat ∧ c.toNat ≤ 90) ∨ (97 ≤ c.toNat ∧ c.toNat ≤ 122))

/-- White space and comments lead from the text `s` to its end `r`. A comment that begins with two
slashes goes to the end of the line, the others to the first `*/`. `nl`: there may be newlines that
are not in comments. -/
inductive Skips (u : Uni) (nl : Bool) : Str → Str → Prop where
  | done (r : Str) : Skips u nl r r
  | space (c : Char) (s r : Str) : u.isSpace c = true → (c = '\n' → nl = true) → Skips u nl s r →
      Skips u nl (c :: s) r
  | line (body s r : Str) : (∀ c ∈ body, c ≠ '\n' ∧ c ≠ nul) →
      (s = [] ∨ s.head? = some '\n' ∨ s.head? = some nul) → Skips u nl s r →
      Skips u nl ('/' :: '/' :: body ++ s) r
  | block (body s r : Str) : (∀ c ∈ body, c ≠ nul) →
      (∀ p q, body ++ ['*', '/'] = p ++ '*' :: '/' :: q → q = []) → Skips u nl s r →
      Skips u nl ('/' :: '*' :: body ++ '*' :: '/' :: s) r

/-- The line of an offset, if the text begins in line `line0`. -/
def lineOf (code : Str) (line0 off : Nat) : Nat := line0 + (code.take off).count '\n'

/-- The column of an offset: one more than the number of characters since the last newline. -/
def columnOf (code : Str) (off : Nat) : Nat :=
  ((code.take off).reverse.takeWhile (· ≠ '\n')).length + 1

/-- How the tokens that are not words, numbers or strings are written. -/
def spelling : Kind → Option String
  | .tilde => "~" | .rbrace => "}" | .orOr => "||" | .orEq => "|=" | .or => "|" | .lbrace => "{"
  | .xorEq => "^=" | .xor => "^" | .rbracket => "]" | .lbracket => "[" | .question => "?"
  | .gtGtGtEq => ">>>=" | .gtGtGt => ">>>" | .gtGtEq => ">>=" | .gtGt => ">>" | .ge => ">="
  | .gt => ">" | .eqEqEq => "===" | .eqEq => "==" | .eq => "=" | .le => "<=" | .ltLtEq => "<<="
  | .ltLt => "<<" | .lt => "<" | .semicolon => ";" | .colon => ":" | .divideEq => "/="
  | .divide => "/" | .dot => "." | .minusEq => "-=" | .minusMinus => "--" | .minus => "-"
  | .comma => "," | .plusEq => "+=" | .plusPlus => "++" | .plus => "+" | .starEq => "*="
  | .star => "*" | .rparen => ")" | .lparen => "(" | .andEq => "&=" | .andAnd => "&&"
  | .and => "&" | .remainderEq => "%=" | .remainder => "%" | .notEqEq => "!==" | .notEq => "!="
  | .not => "!"
  | _ => none

/-- The words that are not identifiers in project files and in JavaScript files. -/
def keywords (qml : Bool) : List (String × Kw) :=
  [("do", .kDo), ("if", .kIf), ("in", .kIn), ("for", .kFor), ("new", .kNew), ("try", .kTry),
   ("var", .kVar), ("case", .kCase), ("else", .kElse), ("null", .kNull), ("this", .kThis),
   ("true", .kTrue), ("void", .kVoid), ("with", .kWith), ("break", .kBreak), ("catch", .kCatch),
   ("const", .kConst), ("false", .kFalse), ("throw", .kThrow), ("while", .kWhile),
   ("delete", .kDelete), ("return", .kReturn), ("switch", .kSwitch), ("typeof", .kTypeof),
   ("default", .kDefault), ("finally", .kFinally), ("continue", .kContinue),
   ("debugger", .kDebugger), ("function", .kFunction), ("instanceof", .kInstanceof)] ++
  (["int", "byte", "char", "enum", "goto", "long", "class", "final", "float", "short", "super",
    "double", "export", "native", "static", "throws", "boolean", "extends", "package", "private",
    "abstract", "volatile", "interface", "protected", "transient", "implements",
    "synchronized"].map fun w => (w, .kReserved)) ++
  (if qml then
    [("as", .kAs), ("on", .kOn), ("import", .kImport), ("public", .kPublic), ("signal", .kSignal),
     ("property", .kProperty), ("readonly", .kReadonly)]
  else [("as", .kReserved), ("import", .kReserved), ("public", .kReserved)])

/-- A character of a word. -/
def wordChar (u : Uni) (c : Char) : Prop := u.isLetterOrNumber c = true ∨ c = '$' ∨ c = '_'

/-- Whether a semicolon is not in the text but was inserted. -/
def Inserted (code : Str) (t : Tok) : Prop :=
  t.kind = .semicolon ∧ (code.drop t.start).head? ≠ some ';'

instance (code : Str) (t : Tok) : Decidable (Inserted code t) := by
  unfold Inserted; infer_instance

/-- Where the text is read on after a token. -/
def endOf (code : Str) (t : Tok) : Nat := if Inserted code t then t.start else t.start + t.length

/-- The tokens follow each other in the text, beginning at `pos`: there is nothing but white space
and comments between them. -/
def Laid (u : Uni) (code : Str) : Nat → List Tok → Prop
  | _, [] => True
  | pos, t :: ts => pos ≤ t.start ∧ t.start + t.length ≤ code.length ∧
      Skips u true (code.drop pos) (code.drop t.start) ∧ Laid u code (endOf code t) ts

/-- The words that must not be separated by a newline from what belongs to them (ECMA-262 7.9.1). -/
def restrictedWord (k : Kind) : Prop :=
  k = .word .kContinue ∨ k = .word .kBreak ∨ k = .word .kReturn ∨ k = .word .kThrow

/-- The hexadecimal digits. -/
def hexTable : List (Char × Nat) :=
  [('0', 0), ('1', 1), ('2', 2), ('3', 3), ('4', 4), ('5', 5), ('6', 6), ('7', 7), ('8', 8), ('9', 9),
   ('a', 10), ('b', 11), ('c', 12), ('d', 13), ('e', 14), ('f', 15),
   ('A', 10), ('B', 11), ('C', 12), ('D', 13), ('E', 14), ('F', 15)]

/-- The escape sequences of one character, ECMA-262 7.8.4 (`SingleEscapeCharacter`). -/
def singleEscapes : List (Char × Char) :=
  [('b', '\x08'), ('f', '\x0c'), ('n', '\n'), ('r', '\r'), ('t', '\t'), ('v', '\x0b'),
   ('\\', '\\'), ('\'', '\''), ('"', '"')]

/-- The line terminators, ECMA-262 7.3. -/
def lineTerminators : List Char := ['\n', '\r', '\u2028', '\u2029']

/-- The value of what is between the quotes of a string literal, ECMA-262 7.8.4. As in all JavaScript
of project files, there may be line terminators in it. `strict`: without escape sequences that the
lexer does not understand (see the findings): line continuations, `\X`, and `\0` if the second
character after it is a digit. -/
inductive Denotes (u : Uni) (strict : Bool) (q : Char) : Str → Str → Prop where
  | nil : Denotes u strict q [] []
  | plain (c : Char) (s v : Str) : c ≠ q → c ≠ '\\' → c ≠ nul → Denotes u strict q s v →
      Denotes u strict q (c :: s) (c :: v)
  | single (c x : Char) (s v : Str) : (c, x) ∈ singleEscapes → Denotes u strict q s v →
      Denotes u strict q ('\\' :: c :: s) (x :: v)
  | other (c : Char) (s v : Str) : (∀ x, (c, x) ∉ singleEscapes) → c ∉ lineTerminators → c ≠ nul →
      (c.toNat < 48 ∨ 57 < c.toNat) → c ≠ 'x' → c ≠ 'u' → (strict = true → c ≠ 'X') →
      Denotes u strict q s v → Denotes u strict q ('\\' :: c :: s) (c :: v)
  | hex (c1 c2 : Char) (n1 n2 : Nat) (s v : Str) : (c1, n1) ∈ hexTable → (c2, n2) ∈ hexTable →
      Denotes u strict q s v →
      Denotes u strict q ('\\' :: 'x' :: c1 :: c2 :: s) (Char.ofNat (n1 * 16 + n2) :: v)
  | unicode (c1 c2 c3 c4 : Char) (n1 n2 n3 n4 : Nat) (s v : Str) : (c1, n1) ∈ hexTable →
      (c2, n2) ∈ hexTable → (c3, n3) ∈ hexTable → (c4, n4) ∈ hexTable →
      (((n1 * 16 + n2) * 16 + n3) * 16 + n4).isValidChar → Denotes u strict q s v →
      Denotes u strict q ('\\' :: 'u' :: c1 :: c2 :: c3 :: c4 :: s)
        (Char.ofNat (((n1 * 16 + n2) * 16 + n3) * 16 + n4) :: v)
  | zero (s v : Str) : (∀ d, s.head? = some d → u.isDigit d = false) →
      (strict = true → ∀ d, s.tail.head? = some d → u.isDigit d = false) →
      Denotes u strict q s v → Denotes u strict q ('\\' :: '0' :: s) (nul :: v)
  | continuation (c : Char) (s v : Str) : strict = false → c ∈ lineTerminators →
      Denotes u strict q s v → Denotes u strict q ('\\' :: c :: s) v

/-- The text of a token. -/
def textOf (code : Str) (t : Tok) : Str := (code.drop t.start).take t.length

end Verif.Lexer
