/-
Command line quoting: src/lib/corelib/tools/shellutils.cpp.
Simplification: a QString is a sequence of `Char`s instead of UTF-16 code units; the code only looks
at characters below 128.
-/

namespace Verif.Shell

abbrev Str := List Char

/-- isSpecialChar, shellutils.cpp:69-72. -/
def isSpecialChar (iqm : List Nat) (c : Char) : Bool :=
  c.toNat < 16 * 8 && (iqm.getD (c.toNat / 8) 0).testBit (c.toNat % 8)

/-- hasSpecialChars, shellutils.cpp:74-81. -/
def hasSpecialChars (iqm : List Nat) (arg : Str) : Bool := arg.reverse.any (isSpecialChar iqm)

/-- The table in shellQuoteUnix, shellutils.cpp:86-89. -/
def iqmUnix : List Nat :=
  [0xff, 0xff, 0xff, 0xff, 0xdf, 0x07, 0x00, 0xd8, 0x00, 0x00, 0x00, 0x38, 0x01, 0x00, 0x00, 0x78]

/-- `ret.replace('\'', "'\\''")`, shellutils.cpp:96. -/
def replaceQuotes : Str → Str
  | [] => []
  | c :: cs => (if c = '\'' then ['\'', '\\', '\'', '\''] else [c]) ++ replaceQuotes cs

/-- shellQuoteUnix, shellutils.cpp:83-101. -/
def shellQuoteUnix (arg : Str) : Str :=
  if arg = [] then ['\'', '\'']
  else if hasSpecialChars iqmUnix arg then ['\''] ++ replaceQuotes arg ++ ['\''] else arg

/-- The tables in shellQuoteWin, shellutils.cpp:109-118. -/
def iqmWin : List Nat :=
  [0xff, 0xff, 0xff, 0xff, 0x45, 0x13, 0x00, 0x78, 0x00, 0x00, 0x00, 0x40, 0x00, 0x00, 0x00, 0x10]
def ismWin : List Nat :=
  [0x00, 0x00, 0x00, 0x00, 0x40, 0x03, 0x00, 0x50, 0x00, 0x00, 0x00, 0x40, 0x00, 0x00, 0x00, 0x10]

def bs (n : Nat) : Str := List.replicate n '\\'

/-- Replacing `(\\*)"` by `\1\1\"`, shellutils.cpp:128; the first argument counts the backslashes
    passed and not yet written. -/
def escapeQuotes : Nat → Str → Str
  | n, [] => bs n
  | n, c :: cs =>
    if c = '\\' then escapeQuotes (n + 1) cs
    else if c = '"' then bs n ++ bs n ++ '\\' :: '"' :: escapeQuotes 0 cs
    else bs n ++ c :: escapeQuotes 0 cs

/-- Replacing `(\\+)$` by `\1\1`, shellutils.cpp:130. In Qt's (Perl's) regular expressions `$` also
    matches before a newline at the end. -/
def doubleTrailing (s : Str) : Str :=
  match s.reverse with
  | '\n' :: r => r.reverse ++ r.takeWhile (· == '\\') ++ ['\n']
  | r => s ++ r.takeWhile (· == '\\')

/-- The loop inserting circumflexes, shellutils.cpp:135-143. -/
def insertCarets : Bool → Str → Str
  | quoted, [] => if quoted then [] else ['^']
  | quoted, c :: cs =>
    if c = '"' then c :: insertCarets (!quoted) cs
    else if !quoted && isSpecialChar ismWin c then '^' :: c :: insertCarets quoted cs
    else c :: insertCarets quoted cs

/-- shellQuoteWin, shellutils.cpp:103-149. -/
def shellQuoteWin (arg : Str) : Str :=
  if arg = [] then ['"', '"']
  else if hasSpecialChars iqmWin arg then
    ['"'] ++ (insertCarets true (doubleTrailing (escapeQuotes 0 arg)) ++ ['"'])
  else arg

inductive Os where
  | unix | windows
  deriving DecidableEq

/-- shellQuote(arg, os), shellutils.cpp:151-154. -/
def shellQuote (os : Os) (arg : Str) : Str :=
  match os with
  | .windows => shellQuoteWin arg
  | .unix => shellQuoteUnix arg

/-- shellQuote(args, os), shellutils.cpp:161-170. -/
def shellQuoteList (os : Os) : List Str → Str
  | [] => []
  | a :: as => shellQuote os a ++ (as.map fun b => ' ' :: shellQuote os b).flatten

/-- shellQuote(program, args, os), shellutils.cpp:187-193. -/
def shellQuoteCommand (os : Os) (program : Str) (args : List Str) : Str :=
  shellQuote os program ++ (if args = [] then [] else ' ' :: shellQuoteList os args)

/-- CommandLine::Argument, shellutils.h. -/
structure Argument where
  value : Str
  isFilePath : Bool := false
  shouldQuote : Bool := true

/-- PathUtils::toNativeSeparators, pathutils.h: slashes become backslashes on Windows. -/
def toNativeSeparators (os : Os) (s : Str) : Str :=
  match os with
  | .windows => s.map fun c => if c = '/' then '\\' else c
  | .unix => s

/-- CommandLine::toCommandLine, shellutils.cpp:247-259. -/
def toCommandLine (os : Os) (program : Str) (isRawProgram : Bool) (args : List Argument) : Str :=
  let p := toNativeSeparators os program
  (if isRawProgram then p else shellQuote os p) ++
    (args.map fun a =>
      let value := if a.isFilePath then toNativeSeparators os a.value else a.value
      ' ' :: (if a.shouldQuote then shellQuote os value else value)).flatten

end Verif.Shell
