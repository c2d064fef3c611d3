import Verif.Pc.Model

/-! # Specification for .pc files: how each kind of text is written down, and what it means -/

namespace Verif.Pc

/-! ## Lines -/

/-- Parts of a line: a character, a number sign that does not start a comment, a character after a backslash, or the end of
a line after a backslash -/
inductive LinePart where
  | plain (c : Char)
  | hash
  | escaped (c : Char)
  | continued

def LinePart.text : LinePart → Text
  | .plain c => [c]
  | .hash => ['\\', '#']
  | .escaped c => ['\\', c]
  | .continued => ['\\', '\n']

def LinePart.value : LinePart → Text
  | .plain c => [c]
  | .hash => ['#']
  | .escaped c => ['\\', c]
  | .continued => []

def LinePart.ok : LinePart → Prop
  | .plain c => c ≠ '#' ∧ c ≠ '\\' ∧ c ≠ '\n' ∧ c ≠ '\r'
  | .escaped c => c ≠ '#' ∧ c ≠ '\n' ∧ c ≠ '\r'
  | _ => True

/-- A line with its comment -/
structure Line where
  parts : List LinePart
  comment : Option Text

def Line.text (l : Line) : Text :=
  l.parts.flatMap LinePart.text ++ match l.comment with | none => [] | some t => '#' :: t

/-- What is left of it -/
def Line.value (l : Line) : Text := l.parts.flatMap LinePart.value

def Line.ok (l : Line) : Prop := (∀ p ∈ l.parts, p.ok) ∧ ∀ t, l.comment = some t → '\n' ∉ t ∧ '\r' ∉ t

/-- Lines, where the last one is not ended, or ended by a backslash -/
def fileText (ls : List Line) (last : Line) (backslash : Bool) : Text :=
  ls.flatMap (fun l => l.text ++ ['\n']) ++ last.text ++ if backslash then ['\\'] else []

/-! ## Variables -/

inductive Part where
  | lit (c : Char)
  | dollar
  | var (name : Text)

def Part.text : Part → Text
  | .lit c => [c]
  | .dollar => ['$', '$']
  | .var n => ['$', '{'] ++ n ++ ['}']

/-- A dollar sign as such is not followed by a dollar sign or a brace, and names contain no closing brace. -/
def okParts : List Part → Prop
  | [] => True
  | .lit c :: l => (c = '$' → ∀ d s, l.flatMap Part.text = d :: s → d ≠ '$' ∧ d ≠ '{') ∧ okParts l
  | .dollar :: l => okParts l
  | .var n :: l => '}' ∉ n ∧ okParts l

/-- The text with all variables replaced, if they are all defined -/
inductive Replaced (lookup : Text → Option Text) : List Part → Text → Prop
  | nil : Replaced lookup [] []
  | lit {c l t} : Replaced lookup l t → Replaced lookup (.lit c :: l) (c :: t)
  | dollar {l t} : Replaced lookup l t → Replaced lookup (.dollar :: l) ('$' :: t)
  | var {n x l t} : lookup n = some x → Replaced lookup l t → Replaced lookup (.var n :: l) (x ++ t)

/-! ## Arguments -/

/-- Inside of quotes: a character, the quote after a backslash, or another character after a backslash -/
inductive Quoted where
  | plain (c : Char)
  | quote
  | escaped (c : Char)

def Quoted.text (q : Char) : Quoted → Text
  | .plain c => [c]
  | .quote => ['\\', q]
  | .escaped c => ['\\', c]

def Quoted.value (q : Char) : Quoted → Text
  | .plain c => [c]
  | .quote => [q]
  | .escaped c => ['\\', c]

def Quoted.ok (q : Char) : Quoted → Prop
  | .plain c => c ≠ q ∧ c ≠ '\\'
  | .quote => True
  | .escaped c => c ≠ q

/-- Parts of an argument -/
inductive ArgPart where
  | plain (c : Char)
  | escaped (c : Char)
  | quoted (q : Char) (l : List Quoted)

def ArgPart.text : ArgPart → Text
  | .plain c => [c]
  | .escaped c => ['\\', c]
  | .quoted q l => [q] ++ l.flatMap (Quoted.text q) ++ [q]

def ArgPart.value : ArgPart → Text
  | .plain c => [c]
  | .escaped c => [c]
  | .quoted q l => l.flatMap (Quoted.value q)

def ArgPart.ok : ArgPart → Prop
  | .plain c => c ≠ Char.ofNat 0 ∧ isSpace c = false ∧ c ≠ '"' ∧ c ≠ '\'' ∧ c ≠ '\\'
  | .escaped _ => True
  | .quoted q l => (q = '"' ∨ q = '\'') ∧ ∀ x ∈ l, x.ok q

/-- An argument, and the white space behind it -/
structure Arg where
  parts : List ArgPart
  blanks : Text

def Arg.text (a : Arg) : Text := a.parts.flatMap ArgPart.text ++ a.blanks
def Arg.value (a : Arg) : Text := a.parts.flatMap ArgPart.value
def Arg.ok (a : Arg) : Prop := (∀ p ∈ a.parts, p.ok) ∧ a.blanks ≠ [] ∧ ∀ c ∈ a.blanks, isSpace c = true

/-- How a text can stop in the middle of something: after a backslash, or inside of quotes -/
inductive Tail where
  | done
  | backslash
  | quoted (q : Char) (l : List Quoted)
  | quotedBackslash (q : Char) (l : List Quoted)

def Tail.text : Tail → Text
  | .done => []
  | .backslash => ['\\']
  | .quoted q l => q :: l.flatMap (Quoted.text q)
  | .quotedBackslash q l => q :: l.flatMap (Quoted.text q) ++ ['\\']

def Tail.value : Tail → Option Text
  | .done => some []
  | .backslash => none
  | .quoted q l => some (l.flatMap (Quoted.value q))
  | .quotedBackslash _ _ => none

def Tail.ok : Tail → Prop
  | .done => True
  | .backslash => True
  | .quoted q l => (q = '"' ∨ q = '\'') ∧ ∀ x ∈ l, x.ok q
  | .quotedBackslash q l => (q = '"' ∨ q = '\'') ∧ ∀ x ∈ l, x.ok q

/-- Arguments in general: white space, arguments with white space behind them, and the last one -/
def argsText (lead : Text) (args : List Arg) (last : List ArgPart) (tail : Tail) : Text :=
  lead ++ args.flatMap Arg.text ++ last.flatMap ArgPart.text ++ tail.text

/-! ## Lists of packages -/

/-- An entry in a list of packages: a name, and maybe an operator and a version with white space before them; and what
separates it from the next one. -/
structure Entry where
  name : Text
  version : Option (Text × Comparison × Text × Text)
  separators : Text

/-- How the operators are written -/
def Comparison.text : Comparison → Text
  | .lessThan => ['<']
  | .greaterThan => ['>']
  | .lessThanEqual => ['<', '=']
  | .greaterThanEqual => ['>', '=']
  | .equal => ['=']
  | .notEqual => ['!', '=']
  | .alwaysMatch => []

def Entry.body (e : Entry) : Text :=
  e.name ++ match e.version with | none => [] | some (b1, op, b2, v) => b1 ++ op.text ++ b2 ++ v

def Entry.text (e : Entry) : Text := e.body ++ e.separators

def Entry.value (e : Entry) : Required :=
  match e.version with
  | none => ⟨e.name, .alwaysMatch, []⟩
  | some (_, op, _, v) => ⟨e.name, op, v⟩

/-- A name does not begin with an operator and contains no separators, and neither does a version. -/
structure Entry.ok (e : Entry) : Prop where
  name : ∃ c l, e.name = c :: l ∧ isOperator c = false
  noSep : ∀ c ∈ e.name, isSeparator c = false
  version : ∀ b1 op b2 v, e.version = some (b1, op, b2, v) →
    op ≠ .alwaysMatch ∧ b1 ≠ [] ∧ b2 ≠ [] ∧ v ≠ [] ∧ (∀ c ∈ b1, isSpace c = true) ∧ (∀ c ∈ b2, isSpace c = true) ∧
      ∀ c ∈ v, isSeparator c = false

/-- Entries are separated, and nothing follows the last one. -/
def okEntries : List Entry → Prop
  | [] => True
  | [e] => e.ok ∧ e.separators = []
  | e :: f :: l => e.ok ∧ e.separators ≠ [] ∧ (∀ c ∈ e.separators, isSeparator c = true) ∧ okEntries (f :: l)

/-! ## Files -/

/-- A line says something about `tag`, with a colon or an equality sign, and white space around everything. -/
def Says (line tag : Text) (sign : Char) (value : Text) : Prop :=
  ∃ a b c d, line = a ++ tag ++ b ++ [sign] ++ c ++ value ++ d ∧
    (∀ x ∈ a, isSpace x = true) ∧ (∀ x ∈ b, isSpace x = true) ∧ (∀ x ∈ c, isSpace x = true) ∧ (∀ x ∈ d, isSpace x = true) ∧
    (∀ x ∈ tag, isTag x = true) ∧ (sign = ':' ∨ sign = '=') ∧ (∀ x l, value = x :: l → isSpace x = false) ∧
    (∀ x l, value = l ++ [x] → isSpace x = false)

/-- The variable of the environment for a variable of a package: upper case, and an underscore for everything that is not a
letter or a digit -/
def envName (base var : Text) : Text :=
  ("PKG_CONFIG_".toList ++ base ++ "_".toList ++ var).map (fun c => if c.toUpper.isAlphanum then c.toUpper else '_')

/-- The value of a variable: from the environment, else what has been set for all packages, else the one in the file -/
inductive Known (o : Options) (base : Text) (vars : List (Text × Text)) (n x : Text) : Prop
  | env : n ≠ [] → base ≠ [] → look (envName base n) o.system = some x → Known o base vars n x
  | global : n ≠ [] → (base = [] ∨ look (envName base n) o.system = none) → look n o.globals = some x → Known o base vars n x
  | own : n ≠ [] → (base = [] ∨ look (envName base n) o.system = none) → look n o.globals = none → look n vars = some x →
      Known o base vars n x

/-- The fields of a package with a single text, and the keywords for them -/
inductive TextField where
  | name | description | version | url
  deriving DecidableEq

def TextField.get (p : Package) : TextField → Text
  | .name => p.name
  | .description => p.description
  | .version => p.version
  | .url => p.url

def TextField.keywords : TextField → List Text
  | .name => ["Name".toList]
  | .description => ["Description".toList]
  | .version => ["Version".toList]
  | .url => ["URL".toList]

/-- The fields with flags -/
inductive FlagsField where
  | libs | libsPrivate | cflags
  deriving DecidableEq

def FlagsField.get (p : Package) : FlagsField → List Flag
  | .libs => p.libs
  | .libsPrivate => p.libsPrivate
  | .cflags => p.cflags

def FlagsField.keywords : FlagsField → List Text
  | .libs => ["Libs".toList]
  | .libsPrivate => ["Libs.private".toList]
  | .cflags => ["Cflags".toList, "CFlags".toList]

/-- How arguments become flags -/
def FlagsField.parse : FlagsField → List Text → List Flag
  | .libs => parseLibs
  | .libsPrivate => parseLibs
  | .cflags => parseCFlags

/-- The fields with other packages -/
inductive PackagesField where
  | requires | requiresPrivate | conflicts
  deriving DecidableEq

def PackagesField.get (p : Package) : PackagesField → List Required
  | .requires => p.requiresPublic
  | .requiresPrivate => p.requiresPrivate
  | .conflicts => p.conflicts

def PackagesField.keywords : PackagesField → List Text
  | .requires => ["Requires".toList]
  | .requiresPrivate => ["Requires.private".toList]
  | .conflicts => ["Conflicts".toList]

end Verif.Pc
