/-
What a shell makes of a command line, written down from the documentation of the shells and without
reference to the quoting functions.
-/

namespace Verif.Shell.Spec

abbrev Str := List Char

/-! ### POSIX shell (IEEE 1003.1, Shell Command Language, 2.2 Quoting and 2.3 Token Recognition)

`none` means: the text is not just a list of words; an operator, an expansion, a comment or a
pattern would come into play, or a quote is not closed. Characters which have a special meaning in
some places only (such as `#`, `~`, `!`, braces) are counted as special everywhere. -/

def posixSpecial : Str :=
  ['|', '&', ';', '<', '>', '(', ')', '$', '`', '"', '*', '?', '[', ']', '#', '~', '!', '{', '}',
   '\n', '\x00']

def addChar (w : Option Str) (c : Char) : Option Str := some (w.getD [] ++ [c])

mutual
/-- Outside quotes; the first argument is the word being read, if there is one. -/
def posix : Option Str → Str → Option (List Str)
  | w, [] => some w.toList
  | w, '\\' :: cs => posixEsc w cs
  | w, '\'' :: cs => posixSingle (w.getD []) cs
  | w, c :: cs =>
    if c = ' ' ∨ c = '\t' then (posix none cs).map (w.toList ++ ·)
    else if c ∈ posixSpecial then none
    else posix (addChar w c) cs

/-- After a backslash; backslash-newline disappears. -/
def posixEsc : Option Str → Str → Option (List Str)
  | _, [] => none
  | w, c :: cs => if c = '\n' then posix w cs else posix (addChar w c) cs

/-- Inside single quotes. -/
def posixSingle : Str → Str → Option (List Str)
  | _, [] => none
  | w, c :: cs => if c = '\'' then posix (some w) cs else posixSingle (w ++ [c]) cs
end

/-- The words a POSIX shell makes of a text. -/
def posixWords (s : Str) : Option (List Str) := posix none s

/-- An assignment word (2.9.1): a name, then an equals sign, nothing quoted. -/
def isAssignment (text : Str) : Bool :=
  match text.span (fun c => c.isAlphanum || c == '_') with
  | (n :: _, '=' :: _) => !n.isDigit
  | _ => false

/-! ### cmd.exe

Quotes toggle the quoting state and are passed on; outside quotes the circumflex makes the next
character literal and is itself removed; other active characters make the text more than one
command. Percent signs (variable expansion) and line breaks are special everywhere. -/

def cmdSpecial : Str := ['&', '|', '<', '>', '(', ')']

mutual
def cmd : Bool → Str → Option Str
  | _, [] => some []
  | q, c :: cs =>
    if c = '\n' ∨ c = '\r' ∨ c = '%' ∨ c = '\x00' then none
    else if c = '"' then (cmd (!q) cs).map ('"' :: ·)
    else if q then (cmd q cs).map (c :: ·)
    else if c = '^' then cmdEsc cs
    else if c ∈ cmdSpecial then none
    else (cmd q cs).map (c :: ·)
def cmdEsc : Str → Option Str
  | [] => none
  | c :: cs =>
    if c = '\n' ∨ c = '\r' ∨ c = '%' ∨ c = '\x00' then none
    else (cmd false cs).map (c :: ·)
end

/-! ### The argument parser of the Microsoft C run-time

("Parsing C command-line arguments", 2008 and later.) `n` counts the backslashes just read. -/

def addBack (w : Option Str) (n : Nat) : Option Str :=
  if n = 0 then w else some (w.getD [] ++ List.replicate n '\\')

/-- Outside quotes, inside, or just after a quote that closed (a second quote there stands for a
    literal one and re-opens). -/
inductive Mode where
  | outside | inside | closed
  deriving DecidableEq

def argv : Mode → Nat → Option Str → Str → List Str
  | _, n, w, [] => (addBack w n).toList
  | q, n, w, c :: cs =>
    if c = '\\' then argv (if q = .inside then .inside else .outside) (n + 1) w cs
    else if c = '"' then
      if n % 2 = 1 then argv q 0 (some ((addBack w (n / 2)).getD [] ++ ['"'])) cs
      else if q = .inside then argv .closed 0 (some ((addBack w (n / 2)).getD [])) cs
      else if q = .closed then argv .inside 0 (some (w.getD [] ++ ['"'])) cs
      else argv .inside 0 (some ((addBack w (n / 2)).getD [])) cs
    else if q ≠ .inside ∧ (c = ' ' ∨ c = '\t') then
      (addBack w n).toList ++ argv .outside 0 none cs
    else argv (if q = .inside then .inside else .outside) 0 (some ((addBack w n).getD [] ++ [c])) cs

/-- The arguments a Windows program gets from the part of the command line after its name. -/
def argvWords (s : Str) : List Str := argv .outside 0 none s

end Verif.Shell.Spec
