/-!
# What is expected of the process of a command

From the documentation of `Command` (doc/reference/jsextensions and doc/reference/commands.qdoc), of environment variables and
of response files, without reference to the model.
-/

namespace Verif.Command.Spec

abbrev Str := List Char

/-! ## Environments -/

/-- An entry of `environment` assigns a non-empty value to a variable: `NAME=value`. `same` says which names mean the same
variable. -/
def Assigns (same : Str → Str → Bool) (entry var val : Str) : Prop :=
  val ≠ [] ∧ ∃ name, name ≠ [] ∧ '=' ∉ name ∧ same var name = true ∧ entry = name ++ '=' :: val

/-- A list of entries assigns a value to a variable: the last entry for it counts. -/
def Sets (same : Str → Str → Bool) (entries : List Str) (var val : Str) : Prop :=
  ∃ before e after, entries = before ++ e :: after ∧ Assigns same e var val ∧ ∀ e' ∈ after, ∀ v, ¬Assigns same e' var v

/-- The directories in a list of directories such as PATH. -/
def Directories (sep : Char) (text : Str) (dirs : List Str) : Prop :=
  ∃ parts : List Str, (∀ p ∈ parts, sep ∉ p) ∧ parts ≠ [] ∧ text = ((parts.intersperse [sep]).flatten) ∧
    dirs = parts.filter (· ≠ [])

/-- The lines of a text that are not empty. -/
def NonEmptyLines (text : Str) (lines : List Str) : Prop :=
  ∃ parts : List Str, (∀ p ∈ parts, '\n' ∉ p) ∧ parts ≠ [] ∧ text = ((parts.intersperse ['\n']).flatten) ∧
    lines = parts.filter (· ≠ [])

/-! ## The program -/

/-- The path of a program in a directory. -/
def inDirectory (dir program : Str) : Str :=
  if dir = [] ∨ dir.getLast? = some '/' ∨ dir.getLast? = some '\\' then dir ++ program else dir ++ '/' :: program

/-- The result of looking for a program: the one in the first of the directories that has one, or just the name. A directory
`.` is the working directory. -/
def Found (exec : Str → Bool) (dirs : List Str) (workingDir program result : Str) : Prop :=
  let dir := fun d => if d = ['.'] then workingDir else d
  (∃ before d after, dirs = before ++ d :: after ∧ result = inDirectory (dir d) program ∧ exec result = true ∧
      ∀ d' ∈ before, exec (inDirectory (dir d') program) = false) ∨
  (result = program ∧ ∀ d ∈ dirs, exec (inDirectory (dir d) program) = false)

/-! ## Response files

GCC's manual, "Overall Options", on `@file`: "The options read are inserted in place of the original @file option. If file does
not exist, or cannot be read, then the option will be treated literally, and not removed. Options in file are separated by
whitespace. A whitespace character may be included in an option by surrounding the entire option in either single or double
quotes. Any character (including a backslash) may be included by prefixing the character to be included with a backslash." -/

def isBlank (c : Char) : Bool := c == ' ' || c == '\t' || c == '\n' || c == '\r' || c == '\x0b' || c == '\x0c'

/-- The quote we are in, whether a backslash precedes, and the option being read. -/
def gnu (q : Option Char) (esc : Bool) (w : Option Str) : Str → List Str
  | [] => w.toList
  | c :: cs =>
    if esc then gnu q false (some (w.getD [] ++ [c])) cs
    else if c = '\\' then gnu q true (some (w.getD [])) cs
    else match q with
      | some d => if c = d then gnu none false w cs else gnu q false (some (w.getD [] ++ [c])) cs
      | none =>
        if c = '\'' ∨ c = '"' then gnu (some c) false (some (w.getD [])) cs
        else if isBlank c then w.toList ++ gnu none false none cs
        else gnu none false (some (w.getD [] ++ [c])) cs

/-- The options in a file. -/
def gnuOptions (content : Str) : List Str := gnu none false none content

/-- The arguments as the program sees them. -/
def expand (files : Str → Option Str) (pre : Str) (args : List Str) : List Str :=
  args.flatMap fun a =>
    if pre.isPrefixOf a then
      match files (a.drop pre.length) with
      | some content => gnuOptions content
      | none => [a]
    else [a]

/-- The options in the file end with the file: no quote is left open. -/
def Complete (content : Str) : Prop :=
  ∀ b rest, isBlank b = true → gnuOptions (content ++ b :: rest) = gnuOptions content ++ gnuOptions rest

end Verif.Command.Spec
