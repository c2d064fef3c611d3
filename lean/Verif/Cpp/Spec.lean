import Verif.Cpp.Model
/-!
# C58, C59: which files a C++ file includes, which modules it provides and needs

A file is a list of lines. Each line is made of parts whose meaning is that of the C++ standard: blanks, comments, escaped
line breaks, literals, raw strings (these two may extend over more than one line of text) and other characters. A line can
be an `#include` directive, another directive, a declaration or import of a module, or code.
-/
namespace Verif.Cpp

/-- A character that is a single byte -/
def ch (c : Char) : Cp := (c, [])

/-- Part of a literal or of a comment that goes to the end of the line: a character, a backslash with the character
    after it, or a backslash at the end of the line, with blanks after it. -/
inductive Part
  | ch (u : Cp)
  | esc (u : Cp)
  | splice (ws : List Cp)

/-- Something between tokens: a blank, a comment, or a backslash at the end of the line. -/
inductive Gap
  | space (u : Cp)
  | block (text : List Cp)
  | splice (ws : List Cp)

/-- Part of a line: a character of code, a gap, a literal with its prefix and quote, a raw string. -/
inductive Elem
  | plain (u : Cp)
  | gap (g : Gap)
  | literal (pre : Str) (quote : Char) (ps : List Part)
  | raw (pre : Str) (delim body : List Cp)

/-- A dot or a colon with a word after it, and the gaps before and after the dot -/
structure Step where
  before : List Gap
  after : List Gap
  word : List Cp

/-- What is imported: a module with the words of its name, a partition of this module, a header in angle brackets that is
    written like the name of a module (and perhaps gaps before the bracket), or a header in quotes. -/
inductive Target
  | module (first : List Cp) (more : List Step)
  | partition (g : List Gap) (name : List Cp)
  | angle (g : List Gap) (first : List Cp) (more : List Step) (g' : List Gap)
  | quoted (ps : List Part)

inductive Line
  /-- `#include` or `#import`, perhaps with `%:` for `#`, a name in quotes or angle brackets, and whatever follows -/
  | incl (lead : List Gap) (di : Bool) (g1 : List Gap) (import_ : Bool) (g2 : List Gap) (quoted : Bool) (name : List Cp) (after : List Elem)
      (comment : Option (List Part))
  /-- another directive -/
  | directive (lead : List Gap) (di : Bool) (g1 : List Gap) (es : List Elem) (comment : Option (List Part))
  /-- code, perhaps none -/
  | code (es : List Elem) (comment : Option (List Part))
  /-- `export` and code -/
  | exported (lead g : List Gap) (es : List Elem) (comment : Option (List Part))
  /-- `module;` or `module :private;` -/
  | fragment (lead g : List Gap) (es : List Elem) (comment : Option (List Part))
  /-- `module`, perhaps with `export` before it, the words of the name, perhaps a partition -/
  | declared (lead : List Gap) (export_ : Option (List Gap)) (g : List Gap) (first : List Cp) (more : List Step)
      (part : Option Step) (g' : List Gap) (after : List Elem) (comment : Option (List Part))
  /-- `import`, perhaps with `export` before it -/
  | imported (lead : List Gap) (export_ : Option (List Gap)) (g : List Gap) (target : Target) (g' : List Gap)
      (after : List Elem) (comment : Option (List Part))

/-! ## The text -/

def Part.text : Part → List Cp
  | .ch u => [u]
  | .esc u => [Verif.Cpp.ch '\\', u]
  | .splice ws => Verif.Cpp.ch '\\' :: ws ++ [Verif.Cpp.ch '\n']

def partsText (ps : List Part) : List Cp := ps.flatMap Part.text

def Gap.text : Gap → List Cp
  | .space u => [u]
  | .block t => ch '/' :: ch '*' :: t ++ [ch '*', ch '/']
  | .splice ws => ch '\\' :: ws ++ [ch '\n']

def gapsText (gs : List Gap) : List Cp := gs.flatMap Gap.text

def Elem.text : Elem → List Cp
  | .plain u => [u]
  | .gap g => g.text
  | .literal pre q ps => pre.map ch ++ ch q :: partsText ps ++ [ch q]
  | .raw pre d b => pre.map ch ++ ch 'R' :: ch '"' :: d ++ ch '(' :: b ++ ch ')' :: d ++ [ch '"']

def elemsText (es : List Elem) : List Cp := es.flatMap Elem.text

/-- The comment at the end of the line, if there is one -/
def commentText : Option (List Part) → List Cp
  | none => []
  | some ps => ch '/' :: ch '/' :: partsText ps

def word (s : String) : List Cp := s.toList.map ch

def stepText (c : Char) (s : Step) : List Cp := gapsText s.before ++ ch c :: (gapsText s.after ++ s.word)

def stepsText (ss : List Step) : List Cp := ss.flatMap (stepText '.')

def Target.text : Target → List Cp
  | .module w ss => w ++ stepsText ss
  | .partition g w => ch ':' :: (gapsText g ++ w)
  | .angle g w ss g' => ch '<' :: (gapsText g ++ (w ++ (stepsText ss ++ (gapsText g' ++ [ch '>']))))
  | .quoted ps => ch '"' :: (partsText ps ++ [ch '"'])

def exportText : Option (List Gap) → List Cp
  | none => []
  | some g => word "export" ++ gapsText g

/-- `#`, or two characters that stand for it -/
def pound (di : Bool) : List Cp := if di then [ch '%', ch ':'] else [ch '#']

def Line.text : Line → List Cp
  | .incl lead di g1 imp g2 q name after c =>
    gapsText lead ++ (pound di ++ (gapsText g1 ++ (word (if imp then "import" else "include") ++ (gapsText g2 ++
      ch (if q then '"' else '<') :: (name ++ ch (if q then '"' else '>') :: (elemsText after ++ commentText c))))))
  | .directive lead di g1 es c => gapsText lead ++ (pound di ++ (gapsText g1 ++ (elemsText es ++ commentText c)))
  | .code es c => elemsText es ++ commentText c
  | .exported lead g es c => gapsText lead ++ (word "export" ++ (gapsText g ++ (elemsText es ++ commentText c)))
  | .fragment lead g es c => gapsText lead ++ (word "module" ++ (gapsText g ++ (elemsText es ++ commentText c)))
  | .declared lead ex g w ss part g' after c =>
    gapsText lead ++ (exportText ex ++ (word "module" ++ (gapsText g ++ (w ++ (stepsText ss ++
      ((match part with
        | none => []
        | some s => stepText ':' s) ++ (gapsText g' ++ ch ';' :: (elemsText after ++ commentText c))))))))
  | .imported lead ex g t g' after c =>
    gapsText lead ++ (exportText ex ++ (word "import" ++ (gapsText g ++ (t.text ++ (gapsText g' ++
      ch ';' :: (elemsText after ++ commentText c))))))

/-- The lines, with a line break before each -/
def tailText (ls : List Line) : List Cp := ls.flatMap (fun l => ch '\n' :: l.text)

/-- The file: there is no line break before the first line. -/
def fileText (ls : List Line) : List Cp := (tailText ls).tail

/-- What the file includes: is the name in quotes, and the name -/
def Line.included : Line → Option (Bool × Str)
  | .incl _ _ _ _ _ q name _ _ => some (q, bytes name)
  | _ => none

/-- The name of a module -/
def moduleText (w : List Cp) (ss : List Step) : Str := bytes w ++ ss.flatMap (fun s => '.' :: bytes s.word)

/-- The module that the line declares: is it exported, its name, the name of the partition -/
def Line.declares : Line → Option (Bool × Str × Option Str)
  | .declared _ ex _ w ss part _ _ _ => some (ex.isSome, moduleText w ss, part.map (fun s => bytes s.word))
  | _ => none

/-- The module or unit that the line imports, if the module that is declared is this one -/
def Line.imports (own : Option Str) : Line → Option Str
  | .imported _ _ _ t _ _ _ =>
    match t with
    | .module w ss => some (moduleText w ss)
    | .partition _ w => own.map (fun m => m ++ ':' :: bytes w)
    | .angle _ w ss _ => some ('<' :: moduleText w ss ++ ['>'])
    | .quoted _ => none
  | _ => none

/-- The name of the module and its partition -/
def fullName (name : Str) (part : Option Str) : Str :=
  match part with
  | none => name
  | some p => name ++ ':' :: p

/-- What the file has to do with modules, from the module that is declared before these lines on (its name without the
    partition): which it provides, of which it is a part, whether it is an interface, which others it needs. A file that
    is no module interface unit needs the module it is a part of. -/
structure Modules where
  own : Option Str
  full : Str
  provides : Str
  isInterface : Bool
  needs : List Str

def Modules.add (cppm : Bool) (m : Modules) (l : Line) : Modules :=
  match l.declares with
  | some (ex, name, part) =>
    { own := some name
      full := fullName name part
      provides := if cppm then fullName name part else m.provides
      isInterface := m.isInterface || ex
      needs := if cppm then m.needs else m.needs ++ [fullName name part] }
  | none => { m with needs := m.needs ++ (l.imports m.own).toList }

def modules (cppm : Bool) (ls : List Line) : Modules := ls.foldl (Modules.add cppm) ⟨none, [], [], false, []⟩

/-! ## Which of these are meant -/

/-- What `isSpace`, `identChar`, `peek` and `bytes` mean where they are used here: blanks, characters of words, the first
    byte and the bytes. -/
theorem isSpace_meaning (c : Char) : isSpace c = true ↔ c.toNat ∈ [9, 10, 11, 12, 13, 32] := by
  unfold isSpace
  simp only [List.contains_eq_mem, decide_eq_true_eq, List.mem_cons, List.not_mem_nil, or_false, ← Char.toNat_inj]
  simp (config := { decide := true })
  omega

theorem identChar_meaning (u : Cp) : identChar u = true ↔
    (u.1.isAlpha = true ∨ u.1.isDigit = true ∨ u.1 = '_' ∨ u.1 = '$' ∨ 128 ≤ u.1.toNat) := by
  unfold identChar
  simp only [Char.isAlphanum, Bool.or_eq_true, decide_eq_true_eq]
  grind

theorem peek_meaning (s : List Cp) : peek s = ((s.map Prod.fst).head?).getD '\x00' := by cases s <;> rfl

theorem bytes_meaning (l : List Cp) : bytes l = (l.map (fun u => u.1 :: u.2)).flatten := by
  simp [bytes, List.flatMap]

/-- A character in UTF-8: its first byte says how many bytes of the form 10xxxxxx follow. -/
def Utf8 (u : Cp) : Prop :=
  (∀ c ∈ u.2, 0x80 ≤ c.toNat ∧ c.toNat < 0xc0) ∧
  ((u.1.toNat < 0x80 ∧ u.2.length = 0) ∨ (0xc2 ≤ u.1.toNat ∧ u.1.toNat < 0xe0 ∧ u.2.length = 1) ∨
   (0xe0 ≤ u.1.toNat ∧ u.1.toNat < 0xf0 ∧ u.2.length = 2) ∨ (0xf0 ≤ u.1.toNat ∧ u.1.toNat < 0xf5 ∧ u.2.length = 3))

instance (u : Cp) : Decidable (Utf8 u) := inferInstanceAs (Decidable (_ ∧ _))

/-- UTF-8, and no NUL. -/
def CpOk (u : Cp) : Prop := Utf8 u ∧ u.1 ≠ '\x00'

/-- Blanks other than a line break -/
def Blank (u : Cp) : Prop := isSpace u.1 = true ∧ u.1 ≠ '\n'

/-- Neither the quote, nor a backslash, nor a line break -/
def Part.Ok (q : Option Char) : Part → Prop
  | .ch u => u.1 ≠ '\n' ∧ u.1 ≠ '\\' ∧ some u.1 ≠ q
  | .esc u => isSpace u.1 = false
  | .splice ws => ∀ u ∈ ws, Blank u

/-- A comment does not contain its end. -/
def noEnd : List Cp → Prop
  | [] => True
  | u :: r => ¬ (u.1 = '*' ∧ peek r = '/') ∧ noEnd r

def Gap.Ok : Gap → Prop
  | .space u => Blank u
  | .block t => noEnd t
  | .splice ws => ∀ u ∈ ws, Blank u

/-- A character of code: no quote, blank, backslash -/
def Plain (c : Char) : Prop := c ≠ '"' ∧ c ≠ '\'' ∧ c ≠ '\\' ∧ isSpace c = false

/-- A literal with a prefix may follow this character directly: it cannot be part of a word or number. -/
def Sep (c : Char) : Prop := identChar (ch c) = false ∧ c ≠ '.' ∧ c ≠ '+' ∧ c ≠ '-'

/-- Parts of a line: the character directly before, and what follows the parts. A slash does not begin a comment; a word
    directly before a quote does not end like a prefix; there are no numbers with digit separators; a raw string does not
    contain its end. -/
def Ok (after : List Cp) : Option Char → List Elem → Prop
  | _, [] => True
  | _, .plain u :: es =>
    Plain u.1 ∧ (u.1 = '/' → ∀ c ∈ ['/', '*', '\\'], peek (elemsText es ++ after) ≠ c) ∧ Ok after (some u.1) es
  | _, .gap g :: es => g.Ok ∧ Ok after none es
  | p, .literal pre q ps :: es =>
    (q = '"' ∨ q = '\'') ∧ pre ∈ [[], ['L'], ['u'], ['U'], ['u', '8']] ∧ (∀ x ∈ ps, x.Ok (some q)) ∧
    (∀ c, p = some c → if pre = [] then c ∉ ['L', 'u', 'U', '8', 'R'] else Sep c) ∧
    (∀ c, p = some c → q = '\'' → identChar (ch c) = false) ∧ Ok after none es
  | p, .raw pre d b :: es =>
    pre ∈ [[], ['L'], ['u'], ['U'], ['u', '8']] ∧
    (∀ u ∈ d, u.1 ≠ '(' ∧ u.1 ≠ ')' ∧ u.1 ≠ '\\' ∧ isSpace u.1 = false) ∧
    (¬ (ch ')' :: d ++ [ch '"']) <:+: b) ∧ (∀ u ∈ b, u.1 = ')' ∨ u.1 = '"' → u.2 = []) ∧
    (∀ c, p = some c → Sep c) ∧ Ok after none es

def CommentOk : Option (List Part) → Prop
  | none => True
  | some ps => ∀ x ∈ ps, x.Ok none

def Gap.isSplice : Gap → Bool
  | .splice _ => true
  | _ => false

/-- The text of parts of a line from the first token on -/
def fromToken : List Elem → List Cp
  | .gap _ :: es => fromToken es
  | es => elemsText es

/-- The word at the beginning -/
def firstWord (t : List Cp) : Str := bytes (t.takeWhile identChar)

/-- A word: it does not begin with a digit, and is in UTF-8. -/
def WordOk (w : List Cp) : Prop :=
  w ≠ [] ∧ (∀ u ∈ w, identChar u = true) ∧ (peek w).isDigit = false ∧ (bytes w).length < 65536 ∧
  ∀ u ∈ w, ∀ c ∈ u.2, 128 ≤ c.toNat

/-- A word that is not a keyword -/
def NameOk (reserved : Str → Bool) (w : List Cp) : Prop := WordOk w ∧ reserved (bytes w) = false

def GapsOk (gs : List Gap) : Prop := ∀ g ∈ gs, g.Ok

def Step.Ok (s : Step) : Prop := GapsOk s.before ∧ GapsOk s.after ∧ WordOk s.word

/-- There is a gap after a word if another word follows. -/
def Target.Ok (reserved : Str → Bool) (g : List Gap) : Target → Prop
  | .module w ss => g ≠ [] ∧ NameOk reserved w ∧ ∀ s ∈ ss, s.Ok
  | .partition g' w => GapsOk g' ∧ WordOk w
  | .angle g' w ss g'' => GapsOk g' ∧ NameOk reserved w ∧ (∀ s ∈ ss, s.Ok) ∧ GapsOk g''
  | .quoted ps => ∀ x ∈ ps, x.Ok (some '"')

def LeadOk (gs : List Gap) : Prop := ∀ g ∈ gs, g.Ok ∧ g.isSplice = false

def ExportOk (ex : Option (List Gap)) : Prop := ∀ g, ex = some g → g ≠ [] ∧ GapsOk g

/-- A line. An include directive, or a declaration that has to do with modules, does not begin with an escaped line break.
    Another directive has a name, which is not include or import. Code begins neither with `#` nor with one of the words
    that have to do with modules. -/
def Line.Ok (reserved : Str → Bool) : Line → Prop
  | .incl lead di g1 _ g2 q name after c =>
    LeadOk lead ∧ GapsOk g1 ∧ GapsOk g2 ∧
    (∀ u ∈ name, u.1 ≠ '\n' ∧ (if q then u.1 ≠ '"' ∧ u.1 ≠ '\\' else u.1 ≠ '>')) ∧ (bytes name).length < 65534 ∧
    Cpp.Ok (commentText c) none after ∧ CommentOk c
  | .directive lead di g1 es c =>
    LeadOk lead ∧ GapsOk g1 ∧ Cpp.Ok (commentText c) none es ∧
    fromToken es ≠ [] ∧ peek (gapsText g1 ++ elemsText es) ≠ (if di then '%' else '#') ∧ (firstWord (fromToken es)).length < 65536 ∧
    firstWord (fromToken es) ∉ ["include".toList, "import".toList] ∧ CommentOk c
  | .code es c =>
    Cpp.Ok (commentText c) none es ∧ CommentOk c ∧ peek (fromToken es) ≠ '#' ∧
    ¬ (peek (fromToken es) = '%' ∧ peek (fromToken es).tail = ':') ∧ (firstWord (fromToken es)).length < 65536 ∧
    firstWord (fromToken es) ∉ ["module".toList, "import".toList, "export".toList]
  | .exported lead g es c =>
    LeadOk lead ∧ GapsOk g ∧ g ≠ [] ∧ Cpp.Ok (commentText c) none es ∧ CommentOk c ∧
    fromToken es ≠ [] ∧ (firstWord (fromToken es)).length < 65536 ∧
    firstWord (fromToken es) ∉ ["module".toList, "import".toList]
  | .fragment lead g es c =>
    LeadOk lead ∧ GapsOk g ∧ Cpp.Ok (commentText c) none es ∧ CommentOk c ∧
    (peek (fromToken es) = ';' ∨ peek (fromToken es) = ':')
  | .declared lead ex g w ss part g' after c =>
    LeadOk lead ∧ ExportOk ex ∧ GapsOk g ∧ g ≠ [] ∧ NameOk reserved w ∧ (∀ s ∈ ss, s.Ok) ∧ (∀ s, part = some s → s.Ok) ∧
    GapsOk g' ∧ Cpp.Ok (commentText c) none after ∧ CommentOk c
  | .imported lead ex g t g' after c =>
    LeadOk lead ∧ ExportOk ex ∧ GapsOk g ∧ t.Ok reserved g ∧ GapsOk g' ∧ Cpp.Ok (commentText c) none after ∧ CommentOk c

/-- A file with at least one line (which may be empty), in UTF-8. -/
structure FileOk (reserved : Str → Bool) (ls : List Line) : Prop where
  lines : ∀ l ∈ ls, l.Ok reserved
  some : ls ≠ []
  utf8 : ∀ u ∈ fileText ls, CpOk u
  noBom : (bytes (fileText ls)).take 3 ≠ ['\xef', '\xbb', '\xbf']

/-- The words that the scanner looks for are not keywords. -/
structure WordsOk (reserved : Str → Bool) : Prop where
  incl : reserved "include".toList = false
  impt : reserved "import".toList = false
  modl : reserved "module".toList = false
  expt : reserved "export".toList = false

end Verif.Cpp
