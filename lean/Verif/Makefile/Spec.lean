import Verif.Shell.Spec
/-!
# How make reads a Makefile

From the manual of GNU make, for the part of the language that is needed here; `none` stands for text
that make takes for something else, or that this specification does not know.  No reference to the
generator.
-/
namespace Verif.Makefile.Spec

/-- A text. -/
local notation "Str" => List Char

/-- Where in the text the expansion is: outside, after a dollar sign, in the name of a variable. -/
inductive At where
  | text | dollar | name (n : Str)
  deriving DecidableEq

/-- Expansion ("How to Use Variables"): `$$` is a dollar sign, `$(NAME)` the value of a variable.  All
other uses of `$` are something else, and so is a line break, which ends the line. -/
def expandAt (vars : List (Str × Str)) : At → Str → Option Str
  | .text, [] => some []
  | _, [] => none
  | .text, c :: s =>
    if c = '$' then expandAt vars .dollar s
    else if c = '\n' then none
    else (expandAt vars .text s).map (c :: ·)
  | .dollar, c :: s =>
    if c = '$' then (expandAt vars .text s).map ('$' :: ·)
    else if c = '(' then expandAt vars (.name []) s
    else none
  | .name n, c :: s =>
    if c = ')' then
      match vars.lookup n with
      | none => none
      | some v => (expandAt vars .text s).map (v ++ ·)
    else expandAt vars (.name (n ++ [c])) s

def expand (vars : List (Str × Str)) (s : Str) : Option Str := expandAt vars .text s

/-- Characters with a meaning in the names of targets and prerequisites: comments, patterns, further
rules, recipes on the same line, assignments, wildcards, order-only prerequisites, archive members,
the home directory. -/
def nameSpecial : Str := ['#', '%', ':', ';', '=', '*', '?', '[', ']', '~', '|', '(', ')', '&', '\n', '\t', '\\']

/-- The names in a list of names; a backslash before a space makes it a part of the name.  The first
argument tells whether the character before is a backslash, the second is the name being read. -/
def namesAt : Bool → Option Str → Str → Option (List Str)
  | true, _, [] => none
  | false, w, [] => some w.toList
  | true, w, c :: s => if c = ' ' then namesAt false (some (w.getD [] ++ [' '])) s else none
  | false, w, c :: s =>
    if c = ' ' then (namesAt false none s).map (w.toList ++ ·)
    else if c = '\\' then namesAt true w s
    else if c ∈ nameSpecial then none
    else namesAt false (some (w.getD [] ++ [c])) s

def names (s : Str) : Option (List Str) := namesAt false none s

/-- A rule: its target, its prerequisites and the commands of its recipe, as lists of arguments. -/
structure Rule where
  target : Str
  needs : List Str
  recipe : List (List Str)
  deriving DecidableEq, Repr

/-- A line that begins a rule: the text before and after the first colon, after expansion. -/
def ruleLine (vars : List (Str × Str)) (line : Str) : Option Rule :=
  (expand vars line).bind fun s =>
    let l := s.takeWhile (· ≠ ':')
    match s.drop l.length with
    | ':' :: r =>
      match names l, names r with
      | some [t], some needs => some ⟨t, needs, []⟩
      | _, _ => none
    | _ => none

/-- A line of a recipe, without the tab: the arguments that the shell makes of it after expansion.
Some characters at its beginning are for make. -/
def recipeLine (vars : List (Str × Str)) (s : Str) : Option (List Str) :=
  if s.head? = some '@' ∨ s.head? = some '-' ∨ s.head? = some '+' then none
  else (expand vars s).bind Verif.Shell.Spec.posixWords

/-- The definition of a variable, `NAME = value`.  Values with characters that have a meaning are left
out. -/
def definition (line : Str) : Option (Str × Str) :=
  let name := line.takeWhile fun c => c.isUpper || c = '_'
  match line.drop name.length with
  | ' ' :: '=' :: ' ' :: v =>
    if name = [] ∨ v = [] ∨ v.head? = some ' ' ∨ v.any (fun c => c ∈ ['$', '#', '\\', '\n', '\t']) then none
    else some (name, v)
  | _ => none

/-- The file so far: variables, and rules, the last one first. -/
structure Read where
  vars : List (Str × Str) := []
  rules : List Rule := []
  deriving DecidableEq, Repr

/-- One line. -/
def readLine (m : Read) (line : Str) : Option Read :=
  match line with
  | [] => some m
  | '#' :: _ => some m
  | '\t' :: s =>
    match m.rules, recipeLine m.vars s with
    | r :: rs, some c => some { m with rules := { r with recipe := r.recipe ++ [c] } :: rs }
    | _, _ => none
  | _ =>
    match definition line with
    | some d => some { m with vars := d :: m.vars }
    | none => (ruleLine m.vars line).map fun r => { m with rules := r :: m.rules }

def readLines : Read → List Str → Option Read
  | m, [] => some m
  | m, l :: ls => (readLine m l).bind fun m => readLines m ls

/-- The rules of a Makefile. -/
def rules (lines : List Str) : Option (List Rule) := (readLines {} lines).map fun m => m.rules.reverse

end Verif.Makefile.Spec
