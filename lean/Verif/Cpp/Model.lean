/-!
# Scanning C++ files for dependencies (C58, C59)

Model of src/lib/corelib/cppscanner/cppscanner.cpp 76-247, 304-316 (`doScanCppFile`, `scanCppFile`) and of
src/lib/corelib/cppscanner/Lexer.cpp 58-1104, Lexer.h 75-98, 128-137 (the lexer, as it is used there: no tokens for
comments, no preprocessor mode, no language features).

A byte is the character with its code. `std::isspace`, `std::isalpha` and so on are those of the C locale. A file has less
than 4 GB. What the lexer keeps between tokens about an unfinished token matters only at the end of the file and is left
out; so are line numbers.
-/
namespace Verif.Cpp

abbrev Str := List Char

/-- What the lexer takes for one character: its first byte, and the bytes that are skipped along with it. -/
abbrev Cp := Char × Str

/-- How many bytes are skipped after this one, Lexer.h 80-93: one, and one more for each bit that is set in a row, from
    the third on. -/
def trailing (c : Char) : Nat :=
  if c.toNat < 128 then 0
  else 1 + (([5, 4, 3, 2, 1, 0].map (fun i => c.toNat.testBit i)).takeWhile id).length

/-- The characters that `yyinp` goes through, Lexer.h 75-98; the number says how many bytes are still to be skipped.
    After the end there is a NUL; the file may end in the middle of a character. -/
def decode : Str → Nat → List Cp
  | [], _ => []
  | c :: s, 0 => (c, s.take (trailing c)) :: decode s (trailing c)
  | _ :: s, k + 1 => decode s k

/-- `setSource`, Lexer.cpp 64-72: there is a line break before the first character. A NUL is the end. -/
def input (content : Str) : List Cp := ('\n', []) :: (decode content 0).takeWhile (fun u => u.1 ≠ '\x00')

/-- The byte order mark is skipped, cppscanner.cpp 304-309. -/
def stripBom (content : Str) : Str :=
  if content.take 3 = ['\xef', '\xbb', '\xbf'] then content.drop 3 else content

/-- The bytes -/
def bytes (l : List Cp) : Str := l.flatMap (fun u => u.1 :: u.2)

def isSpace (c : Char) : Bool := [' ', '\t', '\n', '\x0b', '\x0c', '\r'].contains c

/-- Letters, digits and underscore -/
def wordChar (u : Cp) : Bool := u.1.isAlphanum || u.1 = '_'

/-- What can be in an identifier, Lexer.cpp 1052-1055. -/
def identChar (u : Cp) : Bool := u.1.isAlphanum || u.1 = '_' || u.1 = '$' || 128 ≤ u.1.toNat

/-- The next character -/
def peek (s : List Cp) : Char :=
  match s with
  | [] => '\x00'
  | u :: _ => u.1

/-- How far the lexer is in a line break that is escaped, `scanBackslash`, Lexer.cpp 1071-1094. -/
inductive Esc
  | no
  | backslash
  | space
deriving DecidableEq, Repr

/-- `scanUntilQuote` and `scanCppComment`, Lexer.cpp 858-870, 1096-1104: what comes after the quote, or from the line
    break on. -/
def untilEol (q : Option Char) : Esc → List Cp → List Cp
  | _, [] => []
  | .no, u :: r =>
    if some u.1 = q then r
    else if u.1 = '\n' then u :: r
    else if u.1 = '\\' then untilEol q .backslash r
    else untilEol q .no r
  | .backslash, u :: r =>
    if isSpace u.1 then
      if u.1 = '\n' then untilEol q .no r else untilEol q .space r
    else untilEol q .no r
  | .space, u :: r =>
    if u.1 = '\n' then untilEol q .no r
    else if isSpace u.1 then untilEol q .space r
    else if some u.1 = q then r
    else if u.1 = '\\' then untilEol q .backslash r
    else untilEol q .no r

/-- What is being skipped: blanks (and whether a line break is expected because of a backslash), a comment to the end of
    the line, the `*` that opens a comment, a comment (and whether there was a `*` just before). -/
inductive Mode
  | ws (expected : Bool)
  | line (e : Esc)
  | opened
  | block (star : Bool)
deriving DecidableEq, Repr

/-- Blanks and comments, Lexer.cpp 129-145, 157-160, 213-215, 425-476: is the token the first of its line, and what
    follows. That some characters are skipped for comments that are documentation makes no difference. -/
def skip : Mode → Bool → List Cp → Bool × List Cp
  | _, nl, [] => (nl, [])
  | .ws e, nl, u :: r =>
    if isSpace u.1 then
      if u.1 = '\n' then skip (.ws false) (!e) r else skip (.ws e) nl r
    else if u.1 = '\\' then skip (.ws true) nl r
    else if u.1 = '/' ∧ peek r = '/' then skip (.line .no) nl r
    else if u.1 = '/' ∧ peek r = '*' then skip .opened nl r
    else (nl, u :: r)
  | .line .no, nl, u :: r =>
    if u.1 = '\n' then skip (.ws false) true r
    else if u.1 = '\\' then skip (.line .backslash) nl r
    else skip (.line .no) nl r
  | .line .backslash, nl, u :: r =>
    if isSpace u.1 then
      if u.1 = '\n' then skip (.line .no) nl r else skip (.line .space) nl r
    else skip (.line .no) nl r
  | .line .space, nl, u :: r =>
    if u.1 = '\n' then skip (.line .no) nl r
    else if isSpace u.1 then skip (.line .space) nl r
    else if u.1 = '\\' then skip (.line .backslash) nl r
    else skip (.line .no) nl r
  | .opened, nl, _ :: r => skip (.block false) nl r
  | .block star, nl, u :: r =>
    if star = true ∧ u.1 = '/' then skip (.ws false) nl r else skip (.block (u.1 = '*')) nl r

/-- The body of a raw string, Lexer.cpp 740-772: what comes after it. What is still to match of the delimiter after a
    parenthesis, if anything. Characters are compared rather than their first bytes. -/
def rawBody (delim : List Cp) : Option (List Cp) → List Cp → List Cp
  | _, [] => []
  | st, u :: r =>
    if u.1 = ')' then rawBody delim (some delim) r
    else if u.1 = '"' ∧ st = some [] then r
    else rawBody delim (match st with
      | some (x :: xs) => if x = u then some xs else none
      | _ => none) r

/-- `scanRawStringLiteral`, Lexer.cpp 724-804: what comes after it. -/
def raw (delim : List Cp) : List Cp → List Cp
  | [] => []
  | u :: r =>
    if u.1 = '(' then rawBody delim none r
    else if u.1 = ')' then r
    else if u.1 = '\\' ∨ isSpace u.1 = true then u :: r
    else raw (delim ++ [u]) r

/-- The kinds of tokens that are told apart -/
inductive Kind
  | eof
  | ident
  | pound
  | string
  | angle
  | dot
  | colon
  | semicolon
  | less
  | greater
  | other
deriving DecidableEq, Repr

/-- Operators and punctuation, Lexer.cpp 225-560: the longest that fits is taken. -/
def ops : List (Str × Kind) :=
  [("...".toList, .other), ("..".toList, .other), (".*".toList, .other), (".".toList, .dot),
   ("##".toList, .other), ("#".toList, .pound),
   ("::".toList, .other), (":>".toList, .other), (":".toList, .colon), (";".toList, .semicolon),
   ("++".toList, .other), ("+=".toList, .other), ("--".toList, .other), ("-=".toList, .other),
   ("->*".toList, .other), ("->".toList, .other), ("*=".toList, .other), ("/=".toList, .other),
   ("%=".toList, .other), ("%>".toList, .other), ("%:%:".toList, .other), ("%:".toList, .pound),
   ("^=".toList, .other), ("&&".toList, .other), ("&=".toList, .other), ("||".toList, .other),
   ("|=".toList, .other), ("~=".toList, .other), ("!=".toList, .other), ("==".toList, .other),
   ("<<=".toList, .other), ("<<".toList, .other), ("<=".toList, .other), ("<%".toList, .other), ("<".toList, .less),
   (">>=".toList, .other), (">>".toList, .other), (">=".toList, .other), (">".toList, .greater)]

/-- The operator at the beginning; anything else is one character. -/
def lexOp (u : Cp) (r : List Cp) : Kind × List Cp :=
  match ops.find? (fun o => o.1.isPrefixOf ((u :: r).map (·.1))) with
  | some o => (o.2, (u :: r).drop o.1.length)
  | none => (.other, r)

/-- `scanExponentPart` and what is taken to belong to the number after it, Lexer.cpp 882-890, 1010-1017. -/
def afterExponent (r : List Cp) : List Cp :=
  if peek r = 'e' ∨ peek r = 'E' then
    if peek r.tail = '+' ∨ peek r.tail = '-' then r.tail.tail.dropWhile wordChar else r.tail.dropWhile wordChar
  else r.dropWhile wordChar

/-- `scanNumericLiteral`, Lexer.cpp 956-1018. The suffixes and the characters that make it an error are taken
    together. -/
def number (u : Cp) (r : List Cp) : List Cp :=
  if u.1 = '0' ∧ "xXbB01234567".toList.contains (peek r) = true then r.dropWhile wordChar
  else
    let r1 := r.dropWhile (fun v => v.1.isDigit)
    if peek r1 = '.' then afterExponent (r1.tail.dropWhile (fun v => v.1.isDigit)) else afterExponent r1

/-- `scanIdentifier`, Lexer.cpp 1049-1069. Which words are keywords or operators is given. -/
def ident (reserved : Str → Bool) (u : Cp) (r : List Cp) : Kind × List Cp :=
  let rest := r.dropWhile identChar
  (if reserved (bytes (u :: r.takeWhile identChar)) then .other else .ident, rest)

/-- A word that begins with L, u, U or R may begin a literal, Lexer.cpp 638-678. -/
def prefixed (reserved : Str → Bool) (u : Cp) (r : List Cp) : Kind × List Cp :=
  if peek r = '"' then
    if u.1 = 'R' then (.other, raw [] r.tail) else (.other, untilEol (some '"') .no r.tail)
  else if peek r = '\'' then (.other, untilEol (some '\'') .no r.tail)
  else if u.1 ≠ 'R' ∧ peek r = 'R' then
    if peek r.tail = '"' then (.other, raw [] r.tail.tail) else ident reserved u r
  else if u.1 = 'u' ∧ peek r = '8' then
    if peek r.tail = '"' then (.other, untilEol (some '"') .no r.tail.tail)
    else if peek r.tail = '\'' then (.other, untilEol (some '\'') .no r.tail.tail)
    else if peek r.tail = 'R' ∧ peek r.tail.tail = '"' then (.other, raw [] r.tail.tail.tail)
    else ident reserved u r
  else ident reserved u r

/-- `scan_helper` from the first character of the token on, Lexer.cpp 207-690: its kind and what comes after it. -/
def lexOne (reserved : Str → Bool) (angle : Bool) (u : Cp) (r : List Cp) : Kind × List Cp :=
  if u.1 = '"' then (.string, untilEol (some '"') .no r)
  else if u.1 = '\'' then (.other, untilEol (some '\'') .no r)
  else if u.1 = '.' ∧ (peek r).isDigit = true then
    (.other, afterExponent (r.dropWhile (fun v => v.1.isDigit)))
  else if u.1 = '<' ∧ angle = true then (.angle, (r.dropWhile (fun v => v.1 ≠ '>')).tail)
  else if u.1 = '<' ∧ peek r = ':' then
    if peek r.tail ≠ ':' ∨ peek r.tail.tail = ':' ∨ peek r.tail.tail = '>' then (.other, r.tail) else (.less, r)
  else if u.1 = 'L' ∨ u.1 = 'u' ∨ u.1 = 'U' ∨ u.1 = 'R' then prefixed reserved u r
  else if u.1.isDigit then (.other, number u r)
  else if identChar u then ident reserved u r
  else lexOp u r

/-- A token: is it the first in its line, its kind and its text (lengths have 16 bits, Token.h 411), and the file from
    there on. -/
structure Tok where
  newline : Bool
  kind : Kind
  text : Str
  from_ : Str
deriving DecidableEq, Repr

/-- `scan`, Lexer.cpp 105-111. -/
def scan (reserved : Str → Bool) (angle : Bool) (s : List Cp) : Tok × List Cp :=
  match skip (.ws false) false s with
  | (nl, []) => (⟨nl, .eof, [], []⟩, [])
  | (nl, u :: r) =>
    let k := lexOne reserved angle u r
    let t := bytes ((u :: r).take ((u :: r).length - k.2.length))
    (⟨nl, k.1, t.take (t.length % 65536), bytes (u :: r)⟩, k.2)

/-- `fileContent.substr(tk.bytesBegin() + 1, tk.bytes() - 2)`, cppscanner.cpp 215-216: the length is unsigned. -/
def inner (t : Tok) : Str :=
  if 2 ≤ t.text.length then (t.text.drop 1).take (t.text.length - 2) else t.from_.drop 1

/-- `CppScannerContext`, cppscanner.h 68-107: the results. -/
structure Result where
  /-- for each include: is it local, and the name -/
  includes : List (Bool × Str)
  provides : Str
  part : Str
  isInterface : Bool
  requiresModules : List Str
  qobject : Bool
  plugin : Bool
deriving DecidableEq, Repr

/-- How a file is scanned -/
structure Opts where
  reserved : Str → Bool
  fileTags : Bool
  deps : Bool
  /-- module interface -/
  cppm : Bool
  /-- source file, rather than header -/
  source : Bool

/-- The token before, the token, and what follows. -/
structure St where
  old : Tok
  tk : Tok
  rest : List Cp

/-- `stepLexer`, cppscanner.cpp 101-104. -/
def St.step (o : Opts) (s : St) : St :=
  let k := scan o.reserved false s.rest
  ⟨s.tk, k.1, k.2⟩

/-- Reading the name of a module, cppscanner.cpp 109-126. The number bounds the steps; `none` if it is too small. -/
def moduleName (o : Opts) : Nat → St → Str → Option (Str × St)
  | 0, _, _ => none
  | n + 1, s, name =>
    if s.tk.kind = .eof ∨ s.tk.kind = .semicolon then some (name, s)
    else
      let s1 := s.step o
      if s1.tk.kind = .dot then
        let s2 := s1.step o
        moduleName o n s2 (name ++ '.' :: s2.tk.text)
      else if s1.tk.kind = .colon then
        let s2 := s1.step o
        some (name ++ ':' :: s2.tk.text, s2)
      else moduleName o n s1 name

/-- `parseModule`, cppscanner.cpp 106-133. -/
def parseModule (o : Opts) (n : Nat) (s : St) (res : Result) : Option (St × Result) :=
  match moduleName o n s s.tk.text with
  | none => none
  | some (name, s') =>
    some (s', if o.cppm then { res with part := name, provides := name }
              else { res with part := name, requiresModules := res.requiresModules ++ [name] })

/-- Reading the name of an imported module, cppscanner.cpp 159-168. -/
def importName (o : Opts) : Nat → St → Str → Option (Str × St)
  | 0, _, _ => none
  | n + 1, s, name =>
    if s.tk.kind = .eof ∨ s.tk.kind = .semicolon ∨ s.tk.kind = .greater then some (name, s)
    else
      let s1 := s.step o
      if s1.tk.kind = .dot then
        let s2 := s1.step o
        importName o n s2 (name ++ '.' :: s2.tk.text)
      else importName o n s1 name

/-- `parseImport`, cppscanner.cpp 134-173. -/
def parseImport (o : Opts) (n : Nat) (s : St) (res : Result) : Option (St × Result) :=
  if s.tk.kind = .colon then
    let s1 := s.step o
    some (s1, if res.part.isEmpty then res
              else { res with requiresModules :=
                       res.requiresModules ++ [res.part.takeWhile (· ≠ ':') ++ ':' :: s1.tk.text] })
  else
    let global := s.tk.kind = .less
    let s1 := if global then s.step o else s
    if s1.tk.kind ≠ .ident then some (s1, res)
    else
      match importName o n s1 s1.tk.text with
      | none => none
      | some (name, s2) =>
        some (s2, { res with requiresModules :=
                      res.requiresModules ++ [if global then '<' :: name ++ ['>'] else name] })

/-- A directive: `tk` is the first token of its line and `#`, cppscanner.cpp 199-220. -/
def directive (o : Opts) (s : St) (res : Result) : St × Result :=
  let a := scan o.reserved false s.rest
  if o.deps = true ∧ a.1.newline = false ∧ a.1.kind = .ident ∧
      (a.1.text = "include".toList ∨ a.1.text = "import".toList) then
    let b := scan o.reserved true a.2
    if b.1.newline = false ∧ (b.1.kind = .string ∨ b.1.kind = .angle) then
      (⟨s.old, b.1, b.2⟩, { res with includes := res.includes ++ [(decide (b.1.kind = .string), inner b.1)] })
    else (⟨s.old, b.1, b.2⟩, res)
  else (⟨s.old, a.1, a.2⟩, res)

/-- Macros that call for moc, cppscanner.cpp 222-244: the result, and whether the scan is over. -/
def macros (o : Opts) (s : St) (res : Result) : Result × Bool :=
  if o.fileTags = true ∧ ¬ (s.old.kind = .ident ∧ s.old.text = "define".toList) then
    let res' :=
      if s.tk.text = "Q_OBJECT".toList ∨ s.tk.text = "Q_GADGET".toList ∨ s.tk.text = "Q_NAMESPACE".toList ∨
          s.tk.text = "Q_NAMESPACE_EXPORT".toList then { res with qobject := true }
      else if s.tk.text = "Q_PLUGIN_METADATA".toList then { res with plugin := true }
      else res
    (res', !o.deps && res'.qobject && (res'.plugin || o.source))
  else (res, false)

/-- The part of the loop after module declarations, cppscanner.cpp 199-246: the next state, and whether the scan is
    over. -/
def rest (o : Opts) (s : St) (res : Result) : St × Result × Bool :=
  if s.tk.newline = true ∧ s.tk.kind = .pound then
    let d := directive o s res
    (d.1.step o, d.2, false)
  else if s.tk.kind = .ident then
    let m := macros o s res
    (s.step o, m.1, m.2)
  else (s.step o, res, false)

/-- The loop, cppscanner.cpp 175-247. -/
def loop (o : Opts) : Nat → St → Result → Option Result
  | 0, _, _ => none
  | n + 1, s, res =>
    if s.tk.kind = .eof then some res
    else if o.deps = true ∧ s.tk.newline = true ∧ s.tk.kind = .ident ∧
        (s.tk.text = "module".toList ∨ s.tk.text = "import".toList ∨ s.tk.text = "export".toList) then
      let s1 := s.step o
      if s.tk.text = "module".toList then
        if s1.tk.kind = .ident then
          match parseModule o n s1 res with
          | none => none
          | some (s2, res') => loop o n s2 res'
        else loop o n s1 res
      else if s.tk.text = "import".toList then
        match parseImport o n s1 res with
        | none => none
        | some (s2, res') => loop o n s2 res'
      else if s1.tk.text = "module".toList then
        match parseModule o n (s1.step o) res with
        | none => none
        | some (s2, res') => loop o n s2 { res' with isInterface := true }
      else if s1.tk.text = "import".toList then
        match parseImport o n (s1.step o) res with
        | none => none
        | some (s2, res') => loop o n s2 res'
      else
        let t := rest o s1 res
        if t.2.2 then some t.2.1 else loop o n t.1 t.2.1
    else
      let t := rest o s res
      if t.2.2 then some t.2.1 else loop o n t.1 t.2.1

/-- `doScanCppFile` and `scanCppFile`, cppscanner.cpp 76-247, 304-316. -/
def scanFile (o : Opts) (content : Str) : Option Result :=
  let s := input (stripBom content)
  let k := scan o.reserved false s
  loop o (s.length + 2) ⟨⟨false, .eof, [], []⟩, k.1, k.2⟩ ⟨[], [], [], false, [], false, false⟩

end Verif.Cpp
