import Verif.Path.Model

/-! # Where the output of lex is expected

share/qbs/modules/lex_yacc/lexyacc.js: the artifact that the rule for lex declares, and the arguments of lex. On Unix. Paths have no
repeated slashes. `lexFlags` is empty. -/

namespace Verif.LexOut

open Verif.Path (isAbsolute)

abbrev Str := List Char

/-- The names of the settings that matter (lexyacc.js 31, 33). -/
def kOutfile : Str := "outfile".toList

@[inherit_doc kOutfile]
def kPrefix : Str := "prefix".toList

/-- A setting in a line `%option` of the input, such as `noyywrap` or `outfile="scanner.c"`. The value is without quotes. -/
structure Setting where
  name : Str
  value : Option Str
deriving DecidableEq

/-- An input: `outputDir`, `uniqueSymbolPrefix` and `lexOutputFilePath` of its module properties, its base name, and the settings in
each of its lines `%option` before the first `%%`. -/
structure Input where
  outDir : Str
  unique : Bool
  outputProp : Option Str
  base : Str
  lines : List (List Setting)

/-- `readLexOptions` (lexyacc.js 9-25), for one key: the regular expression matches the first setting of a line; later lines win.
Settings without values have the value `true`, which is left out: `outfile` and `prefix` have values. -/
def readOption (lines : List (List Setting)) (key : Str) : Option Str :=
  (lines.filterMap List.head?).foldl (fun acc s => if s.name = key then s.value else acc) none

/-- `FileInfo.joinPaths` with two arguments (fileinfoextension.cpp 278-289). -/
def join (dir f : Str) : Str := if isAbsolute f then dir ++ f else dir ++ '/' :: f

/-- The file name in `lexOutputFilePath`, with the option that `lexOutputArtifacts` sets (lexyacc.js 30-42, 133-137). -/
def outputName (i : Input) : Str :=
  match (readOption i.lines kOutfile).or i.outputProp with
  | some f => f
  | none =>
    match readOption i.lines kPrefix with
    | some p => "lex".toList ++ '.' :: p ++ '.' :: "c".toList
    | none => if i.unique then i.base ++ "lex.yy.c".toList else "lex.yy.c".toList

/-- The path of the artifact in `lexOutputArtifacts` (lexyacc.js 43, 138). -/
def declared (i : Input) : Str := join i.outDir (outputName i)

/-- `useOutfileFromModule` (lexyacc.js 134-137), as the value of `lexOutputFilePath` in that case. -/
def fromModule (i : Input) : Option Str := if readOption i.lines kOutfile = none then i.outputProp else none

/-- The values of the arguments `-o` and `-P` in `lexCommands` (lexyacc.js 148-152). -/
def arguments (i : Input) : Option Str × Option Str :=
  match fromModule i with
  | some f => (some f, none)
  | none => if i.unique then (some (declared i), some i.base) else (none, none)

end Verif.LexOut
