import Verif.Lexer.Keywords
/-!
# The lexer for project files

Models src/lib/corelib/parser/qmljslexer.cpp 56-1028 (`Lexer`), which splits project files and the
JavaScript in them into tokens.

The text is an array of characters that ends with a NUL. The state has the rest of the text from
`_char` on (`cur`; `[]`: `_char` is the NUL at the end), and `_codePtr` as an offset, which is always
one more than the offset of `_char`. Reading behind the NUL at the end is undefined behaviour; the
functions give `none` (or `oob`) then.

Simplifications:
* A `QChar` is a `Char`. Characters outside of the basic plane (two `QChar`s) and escape sequences
  for half of such a character are not modelled.
* The Unicode tables of `QChar` are the parameter `Uni`, as is what `qstrntod` accepts.
* Values of numbers and error messages are left out. There is always an `Engine`.
-/
namespace Verif.Lexer

abbrev Str := List Char

/-- `QChar::isSpace`, `isLetter`, `isDigit`, `isLetterOrNumber`; `numOk`: `qstrntod` reads the text
to its end. -/
structure Uni where
  isSpace : Char → Bool
  isLetter : Char → Bool
  isDigit : Char → Bool
  isLetterOrNumber : Char → Bool
  numOk : Str → Bool

/-- The kinds of tokens (`QmlJSGrammar`, src/lib/corelib/parser/qmljsgrammar_p.h). -/
inductive Kind where
  | eof | error
  | tilde | rbrace | orOr | orEq | or | lbrace | xorEq | xor | rbracket | lbracket | question
  | gtGtGtEq | gtGtGt | gtGtEq | gtGt | ge | gt | eqEqEq | eqEq | eq | le | ltLtEq | ltLt | lt
  | semicolon | colon | divideEq | divide | dot | minusEq | minusMinus | minus | comma
  | plusEq | plusPlus | plus | starEq | star | rparen | lparen | andEq | andAnd | and
  | remainderEq | remainder | notEqEq | notEq | not
  | stringLiteral | multilineStringLiteral | numericLiteral | identifier
  | word (k : Kw)
deriving DecidableEq, Repr

/-- The NUL character. -/
def nul : Char := '\x00'

/-- `_char`, the first character of the rest. -/
def hd : Str → Char
  | [] => nul
  | c :: _ => c

/-- What has been read as one token after its first character. -/
inductive Body where
  /-- a token, its text as the lexer understands it (`none`: as it is written), and the rest -/
  | tok (k : Kind) (text : Option Str) (rest : Str)
  /-- a comment; `tail` characters at its end do not belong to it -/
  | comment (tail : Nat) (rest : Str)
  /-- the text was read behind its end -/
  | oob

/-- qmljslexer.cpp 999-1004 `isHexDigit`. -/
def isHexDigit (c : Char) : Bool :=
  ('0' ≤ c && c ≤ '9') || ('a' ≤ c && c ≤ 'f') || ('A' ≤ c && c ≤ 'F')

/-- qmljslexer.cpp 67-74 `convertHex`. -/
def convertHex (c : Char) : Nat :=
  if '0' ≤ c ∧ c ≤ '9' then c.toNat - 48
  else if 'a' ≤ c ∧ c ≤ 'f' then c.toNat - 97 + 10
  else c.toNat - 65 + 10

/-- qmljslexer.cpp 76-79. -/
def convertHex2 (c1 c2 : Char) : Char := Char.ofNat (convertHex c1 * 16 + convertHex c2)

/-- qmljslexer.cpp 81-85; the first two characters make the higher byte. -/
def convertUnicode (c1 c2 c3 c4 : Char) : Char :=
  Char.ofNat ((convertHex c1 * 16 + convertHex c2) * 256 + (convertHex c3 * 16 + convertHex c4))

/-- qmljslexer.cpp 238-275 `isUnicodeEscapeSequence`, `decodeUnicodeEscapeCharacter`; `s` begins
with `_char`. The characters are looked at one after the other, so nothing behind the end is read. -/
def decodeUnicode : Str → Option (Char × Str)
  | 'u' :: c1 :: c2 :: c3 :: c4 :: r =>
    if isHexDigit c1 && isHexDigit c2 && isHexDigit c3 && isHexDigit c4 then
      some (convertUnicode c1 c2 c3 c4, r)
    else none
  | _ => none

/-- qmljslexer.cpp 411-433: the inside of a comment `/* */`; `false`: it is not closed. -/
def blockComment : Str → Bool × Str
  | [] => (false, [])
  | c :: r =>
    if c = nul then (false, c :: r)
    else if c = '*' then (match r with
      | '/' :: r' => (true, r')
      | _ => blockComment r)
    else blockComment r

/-- qmljslexer.cpp 435-437: the rest of a line. -/
def lineComment : Str → Str
  | [] => []
  | c :: r => if c ≠ nul ∧ c ≠ '\n' then lineComment r else c :: r

/-- The loops `while (_char.isDigit())`: the digits and the rest. -/
def digits (u : Uni) : Str → Str × Str
  | [] => ([], [])
  | c :: r => if u.isDigit c then (c :: (digits u r).1, (digits u r).2) else ([], c :: r)

/-- qmljslexer.cpp 461-478, 802-818, 819-836: an exponent, if there is one. -/
def exponent (u : Uni) : Str → Str × Str
  | [] => ([], [])
  | e :: r =>
    if e = 'e' ∨ e = 'E' then
      if u.isDigit (hd r) then (e :: (digits u r).1, (digits u r).2)
      else (match r with
        | s :: r' =>
          if (s = '+' ∨ s = '-') ∧ u.isDigit (hd r') then
            (e :: s :: (digits u r').1, (digits u r').2)
          else ([], e :: r)
        | [] => ([], e :: r))
    else ([], e :: r)

/-- The loop `while (isHexDigit(_char))`. -/
def hexDigits : Str → Str
  | [] => []
  | c :: r => if isHexDigit c then hexDigits r else c :: r

/-- qmljslexer.cpp 843-856, 480-492. -/
def decimal (u : Uni) (chars rest : Str) : Body :=
  if u.numOk chars then .tok .numericLiteral none rest else .tok .error none rest

/-- qmljslexer.cpp 453-494: after a point. -/
def pointNumber (u : Uni) (s : Str) : Body :=
  decimal u ('.' :: (digits u s).1 ++ (exponent u (digits u s).2).1) (exponent u (digits u s).2).2

/-- qmljslexer.cpp 745-856 `scanNumber`. -/
def scanNumber (u : Uni) (ch : Char) (s : Str) : Body :=
  let d := digits u s
  if ch ≠ '0' ∧ hd d.2 ≠ '.' ∧ hd d.2 ≠ 'e' ∧ hd d.2 ≠ 'E' then .tok .numericLiteral none d.2
  else if ch = '0' ∧ (hd s = 'x' ∨ hd s = 'X') then
    .tok .numericLiteral none (hexDigits s.tail)
  else match d.2 with
    | '.' :: r =>
      let d2 := digits u r
      decimal u (ch :: d.1 ++ '.' :: d2.1 ++ (exponent u d2.2).1) (exponent u d2.2).2
    | _ =>
      let e := exponent u d.2
      if d.1 = [] ∧ e.1 = [] then .tok .numericLiteral none e.2
      else decimal u (ch :: d.1 ++ e.1) e.2

/-- qmljslexer.cpp 556-568: the first loop, for literals without escape sequences: what was read
and the rest. -/
def strPlain (q : Char) : Str → Str × Str
  | [] => ([], [])
  | c :: r =>
    if c = nul ∨ c = '\n' ∨ c = '\\' ∨ c = q then ([], c :: r)
    else (c :: (strPlain q r).1, (strPlain q r).2)

/-- qmljslexer.cpp 591-666: an escape sequence after the backslash: the character it stands for, and
the rest. `none`: reads behind the end of the text. -/
def escape (u : Uni) : Str → Option (Char × Str)
  | [] => none -- the NUL at the end is taken for an escaped character
  | c :: r =>
    if c = 'u' then
      match decodeUnicode (c :: r) with
      | some x => some x
      | none => some (c, c :: r)
    else if c = 'x' ∨ c = 'X' then
      match r with
      | c1 :: c2 :: r' =>
        if isHexDigit c1 && isHexDigit c2 then some (convertHex2 c1 c2, r') else some (c, c :: r)
      | _ => some (c, c :: r)
    else if c = 'b' then some ('\x08', r)
    else if c = 'f' then some ('\x0c', r)
    else if c = 'n' then some ('\n', r)
    else if c = 'r' then some ('\r', r)
    else if c = 't' then some ('\t', r)
    else if c = 'v' then some ('\x0b', r)
    else if c = '0' then
      match r with -- `_codePtr[1]` is the second character after the zero
      | [] => none
      | _ :: r' => if u.isDigit (hd r') = false then some (nul, r) else some (c, c :: r)
    else if c = '\r' then
      match r.dropWhile (· == '\r') with
      | '\n' :: r' => some ('\n', r')
      | r' => some ('\n', r')
    else some (c, r) -- including the backslash, the quotes and the newline

/-- qmljslexer.cpp 576-676: the second loop; `n` bounds the number of rounds. -/
def strLoop (u : Uni) (q : Char) : Nat → Bool → Str → Str → Body
  | 0, _, _, _ => .oob
  | n + 1, multi, acc, s =>
    match s with
    | [] => .tok .error none []
    | c :: r =>
      if c = nul then .tok .error none (c :: r)
      else if c = '\n' then strLoop u q n true (acc ++ [c]) r
      else if c = q then
        .tok (if multi then .multilineStringLiteral else .stringLiteral) (some acc) r
      else if c = '\\' then
        match escape u r with
        | none => .oob
        | some (x, r') => strLoop u q n multi (acc ++ [x]) r'
      else strLoop u q n multi (acc ++ [c]) r

/-- qmljslexer.cpp 548-680: a string after its quote. -/
def scanString (u : Uni) (q : Char) (s : Str) : Body :=
  let p := strPlain q s
  if hd p.2 = q then .tok .stringLiteral (some p.1) p.2.tail
  else strLoop u q (p.2.length + 1) false p.1 p.2

/-- qmljslexer.cpp 709-740: the loop over the characters of a word. `esc`: there was an escape
sequence; `text`: what was read so far. -/
def identLoop (u : Uni) (qml : Bool) (esc : Bool) (text : Str) : Str → Body
  | '\\' :: 'u' :: c1 :: c2 :: c3 :: c4 :: r =>
    if u.isLetterOrNumber '\\' then .oob -- does not happen
    else match decodeUnicode ('u' :: c1 :: c2 :: c3 :: c4 :: r) with
      | some (x, _) => identLoop u qml true (text ++ [x]) r
      | none => .tok .error none ('u' :: c1 :: c2 :: c3 :: c4 :: r)
  | '\\' :: 'u' :: r => .tok .error none ('u' :: r)
  | [] => endOfWord esc text []
  | c :: r =>
    if u.isLetterOrNumber c || c == '$' || c == '_' then identLoop u qml esc (text ++ [c]) r
    else endOfWord esc text (c :: r)
where
  /-- qmljslexer.cpp 726-741. -/
  endOfWord (esc : Bool) (text rest : Str) : Body :=
    if esc then .tok .identifier (some text) rest
    else match classify qml text with
      | none => .tok .identifier none rest
      | some k => .tok (.word k) none rest

/-- qmljslexer.cpp 695-741: a word with the first character `ch`. -/
def scanWord (u : Uni) (qml : Bool) (ch : Char) (s : Str) : Body :=
  if ch = '\\' then
    match decodeUnicode s with
    | some (x, r) => identLoop u qml true [x] r
    | none => .tok .error none s
  else identLoop u qml false [ch] s

/-- qmljslexer.cpp 318-546, 681-743: the token that begins with `ch`; `s`: what follows. -/
def body (u : Uni) (qml : Bool) (ch : Char) (s : Str) : Body :=
  let t (k : Kind) (r : Str) : Body := .tok k none r
  match ch with
  | '~' => t .tilde s
  | '}' => t .rbrace s
  | '|' => match s with
    | '|' :: r => t .orOr r
    | '=' :: r => t .orEq r
    | _ => t .or s
  | '{' => t .lbrace s
  | '^' => match s with
    | '=' :: r => t .xorEq r
    | _ => t .xor s
  | ']' => t .rbracket s
  | '[' => t .lbracket s
  | '?' => t .question s
  | '>' => match s with
    | '>' :: '>' :: '=' :: r => t .gtGtGtEq r
    | '>' :: '>' :: r => t .gtGtGt r
    | '>' :: '=' :: r => t .gtGtEq r
    | '>' :: r => t .gtGt r
    | '=' :: r => t .ge r
    | _ => t .gt s
  | '=' => match s with
    | '=' :: '=' :: r => t .eqEqEq r
    | '=' :: r => t .eqEq r
    | _ => t .eq s
  | '<' => match s with
    | '=' :: r => t .le r
    | '<' :: '=' :: r => t .ltLtEq r
    | '<' :: r => t .ltLt r
    | _ => t .lt s
  | ';' => t .semicolon s
  | ':' => t .colon s
  | '/' => match s with
    | '*' :: r =>
      match blockComment r with
      | (true, r') => .comment 2 r'
      | (false, r') => t .divide r'
    | '/' :: r => .comment 0 (lineComment ('/' :: r))
    | '=' :: r => t .divideEq r
    | _ => t .divide s
  | '.' => if u.isDigit (hd s) then pointNumber u s else t .dot s
  | '-' => match s with
    | '=' :: r => t .minusEq r
    | '-' :: r => t .minusMinus r
    | _ => t .minus s
  | ',' => t .comma s
  | '+' => match s with
    | '=' :: r => t .plusEq r
    | '+' :: r => t .plusPlus r
    | _ => t .plus s
  | '*' => match s with
    | '=' :: r => t .starEq r
    | _ => t .star s
  | ')' => t .rparen s
  | '(' => t .lparen s
  | '&' => match s with
    | '=' :: r => t .andEq r
    | '&' :: r => t .andAnd r
    | _ => t .and s
  | '%' => match s with
    | '=' :: r => t .remainderEq r
    | _ => t .remainder s
  | '!' => match s with
    | '=' :: '=' :: r => t .notEqEq r
    | '=' :: r => t .notEq r
    | _ => t .not s
  | '\'' => scanString u ch s
  | '"' => scanString u ch s
  | _ =>
    if '0' ≤ ch ∧ ch ≤ '9' then scanNumber u ch s
    else if u.isLetter ch || ch == '$' || ch == '_' || (ch == '\\' && hd s == 'u') then
      scanWord u qml ch s
    else t .error s

/-- `ParenthesesState`, qmljslexer_p.h 170-174. -/
inductive Paren where
  | ignore | count | balanced
deriving DecidableEq, Repr

/-- The members of `Lexer` (qmljslexer_p.h 195-235); pointers are offsets. -/
structure Lx where
  cur : Str
  codePtr : Nat
  lastLinePtr : Nat
  line : Nat
  tokenLinePtr : Nat
  tokenStart : Nat
  tokenLine : Nat
  tokenLength : Nat
  tokenKind : Kind
  tokenText : Option Str
  stackToken : Option Kind
  paren : Paren
  parenCount : Int
  prohibit : Bool
  restricted : Bool
  terminator : Bool
  followsClosingBrace : Bool
  delimited : Bool
  /-- offset, length, line and column of the comments (`Engine::addComment`) -/
  comments : List (Nat × Nat × Nat × Nat)

/-- qmljslexer.cpp 130-170 `setCode`: `_char` is a newline that is not in the text. -/
def setCode (code : Str) (lineno : Nat) : Lx where
  cur := '\n' :: code
  codePtr := 0
  lastLinePtr := 0
  line := lineno
  tokenLinePtr := 0
  tokenStart := 0
  tokenLine := lineno
  tokenLength := 0
  tokenKind := .eof
  tokenText := none
  stackToken := none
  paren := .ignore
  parenCount := 0
  prohibit := false
  restricted := false
  terminator := false
  followsClosingBrace := false
  delimited := true
  comments := []

/-- qmljslexer.cpp 172-180 `scanChar`. -/
def scanChar (l : Lx) : Option Lx :=
  match l.cur with
  | [] => none
  | _ :: r =>
    let l1 := { l with cur := r, codePtr := l.codePtr + 1 }
    if hd r = '\n' then some { l1 with lastLinePtr := l1.codePtr, line := l1.line + 1 } else some l1

/-- Calls `scanChar` `n` times. -/
def scanChars : Nat → Lx → Option Lx
  | 0, l => some l
  | n + 1, l =>
    match scanChar l with
    | none => none
    | some l1 => scanChars n l1

/-- qmljslexer.cpp 1044-1055 `syncProhibitAutomaticSemicolon`. -/
def sync (l : Lx) : Lx :=
  if l.paren = .balanced then { l with prohibit := true, paren := .ignore }
  else { l with prohibit := false }

/-- What comes after white space. -/
inductive Spaces where
  | oob
  /-- a semicolon was inserted -/
  | semi (l : Lx)
  | done (l : Lx)

/-- qmljslexer.cpp 291-306: the loop over white space; `n` bounds the number of rounds. -/
def spaces (u : Uni) : Nat → Lx → Spaces
  | 0, _ => .oob
  | n + 1, l =>
    if u.isSpace (hd l.cur) then
      if hd l.cur = '\n' then
        if l.restricted then
          .semi { l with tokenLinePtr := l.codePtr, tokenLine := l.line, tokenStart := l.codePtr - 1 }
        else
          match scanChar (sync { l with tokenLinePtr := l.codePtr, terminator := true }) with
          | none => .oob
          | some l1 => spaces u n l1
      else
        match scanChar l with
        | none => .oob
        | some l1 => spaces u n l1
    else .done l

/-- qmljslexer.cpp 287-743: `scanToken` from the label `again`; `n` bounds the number of rounds. -/
def again (u : Uni) (qml : Bool) : Nat → Lx → Option (Lx × Kind)
  | 0, _ => none
  | n + 1, l =>
    match spaces u (l.cur.length + 1)
        { l with tokenText := none, tokenLinePtr := l.lastLinePtr } with
    | .oob => none
    | .semi l1 => some (l1, .semicolon)
    | .done l1 =>
      let l2 := { l1 with tokenStart := l1.codePtr - 1, tokenLine := l1.line }
      if hd l2.cur = nul then some (l2, .eof)
      else
        match scanChar l2 with
        | none => none
        | some l3 =>
          match body u qml (hd l2.cur) l3.cur with
          | .oob => none
          | .comment tail rest =>
            match scanChars (l3.cur.length - rest.length) l3 with
            | none => none
            | some l4 =>
              again u qml n { l4 with comments := l4.comments ++
                [(l4.tokenStart + 2, l4.codePtr - l4.tokenStart - 1 - 2 - tail, l4.tokenLine,
                  l4.tokenStart - l4.tokenLinePtr + 1 + 2)] }
          | .tok k text rest =>
            match scanChars (l3.cur.length - rest.length) l3 with
            | none => none
            | some l4 =>
              let l5 := { l4 with tokenText := text }
              if (k = .minusMinus ∨ k = .plusPlus) ∧ l5.terminator = true ∧ l5.delimited = false ∧
                  l5.prohibit = false then some ({ l5 with stackToken := some k }, .semicolon)
              else some (l5, k)

/-- qmljslexer.cpp 277-286 `scanToken`. -/
def scanToken (u : Uni) (qml : Bool) (l : Lx) : Option (Lx × Kind) :=
  match l.stackToken with
  | some k => some ({ l with stackToken := none }, k)
  | none => again u qml (l.cur.length + 1) { l with terminator := false }

/-- qmljslexer.cpp 215-233: the state of the parentheses. -/
def updateParen (l : Lx) : Lx :=
  match l.paren with
  | .ignore => l
  | .count =>
    if l.tokenKind = .rparen then
      if l.parenCount - 1 = 0 then { l with parenCount := l.parenCount - 1, paren := .balanced }
      else { l with parenCount := l.parenCount - 1 }
    else if l.tokenKind = .lparen then { l with parenCount := l.parenCount + 1 }
    else l
  | .balanced => { l with paren := .ignore }

/-- qmljslexer.cpp 190-213: the flags. -/
def updateFlags (l : Lx) : Lx :=
  match l.tokenKind with
  | .lbrace | .semicolon | .colon => { l with delimited := true }
  | .word .kIf | .word .kFor | .word .kWhile | .word .kWith =>
    { l with paren := .count, parenCount := 0 }
  | .word .kDo => { l with paren := .balanced }
  | .word .kContinue | .word .kBreak | .word .kReturn | .word .kThrow =>
    { l with restricted := true }
  | _ => l

/-- qmljslexer.cpp 182-236 `lex`. -/
def lex (u : Uni) (qml : Bool) (l : Lx) : Option Lx :=
  match scanToken u qml l with
  | none => none
  | some (l1, k) =>
    some (updateParen (updateFlags { l1 with
      tokenKind := k
      tokenLength := l1.codePtr - l1.tokenStart - 1
      delimited := false
      restricted := false
      followsClosingBrace := decide (l.tokenKind = .rbrace) }))

/-- A token as the parser sees it: `tokenKind`, `tokenOffset`, `tokenLength`, `tokenStartLine`,
`tokenStartColumn`, `tokenText` (qmljslexer_p.h 150-165, qmljslexer.cpp 1021-1030). The column is an
integer because it can be too small. -/
structure Tok where
  kind : Kind
  start : Nat
  length : Nat
  line : Nat
  column : Int
  text : Option Str
deriving DecidableEq, Repr

/-- The current token. -/
def token (l : Lx) : Tok :=
  ⟨l.tokenKind, l.tokenStart, l.tokenLength, l.tokenLine,
    (l.tokenStart : Int) - l.tokenLinePtr + 1, l.tokenText⟩

/-- All tokens up to the end of the text or an error, as far as `n` calls of `lex` get. The parser
(src/lib/corelib/parser/qmljsparser.cpp) asks for them one after the other; it reads regular
expressions with `scanRegExp`. -/
def tokens (u : Uni) (qml : Bool) : Nat → Lx → Option (List Tok)
  | 0, _ => some []
  | n + 1, l =>
    match lex u qml l with
    | none => none
    | some l1 =>
      if l1.tokenKind = .eof ∨ l1.tokenKind = .error then some [token l1]
      else match tokens u qml n l1 with
        | none => none
        | some ts => some (token l1 :: ts)

end Verif.Lexer
