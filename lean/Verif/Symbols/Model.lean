/-! # Checking the symbols of shared libraries

`getSymbolInfo`, `createSymbolFile`, `readSymbolFile` and `createSymbolCheckingCommands` in share/qbs/modules/cpp/gcc.js 1202-1347. Products that
link to a shared library depend on its symbol file and not on the library itself; they are linked again when the symbol file is written.

Simplifications: text files are lists of lines, reading and writing them works, and white space is that of ASCII. -/

namespace Verif.Symbols

abbrev Str := List Char

/-- What `nm` prints for a library: all global symbols, and the undefined ones; lines that are not empty (gcc.js 1196) -/
structure Nm where
  all : List Str
  undefined_ : List Str
deriving DecidableEq, Repr

/-- `\s` -/
def isSpace (c : Char) : Bool := c = ' ' || c = '\t' || c = '\n' || c = '\r' || c = '\x0b' || c = '\x0c'

/-- `line.split(/\s+/)[0]` -/
def elem0 (s : Str) : Str := s.takeWhile (fun c => !isSpace c)

/-- `line.split(/\s+/)[1]`; `none` is undefined -/
def elem1 (s : Str) : Option Str :=
  match s.dropWhile (fun c => !isSpace c) with
  | [] => none
  | r => some ((r.dropWhile isSpace).takeWhile (fun c => !isSpace c))

/-- `definedGlobalSymbols`, gcc.js 1215-1216 -/
def defined_ (n : Nm) : List Str := n.all.filter fun l => !n.undefined_.contains l

def separator : Str := ['=', '=', '=']

/-- `createSymbolFile`, gcc.js 1226-1240: the lines of the file -/
def fileLines (n : Nm) : List Str := n.all ++ separator :: defined_ n

/-- The loop of `readSymbolFile`, gcc.js 1248-1258: `all` and `defined` so far, and to which the next line is added. It ends with an
empty line. -/
def readLoop : List Str → Bool → List Str × List Str → List Str × List Str
  | [], _, r => r
  | l :: ls, second, r =>
    if l = [] then r
    else if l = separator then readLoop ls true r
    else if second then readLoop ls second (r.1, r.2 ++ [l])
    else readLoop ls second (r.1 ++ [l], r.2)

/-- `readSymbolFile`, gcc.js 1242-1267 -/
def readFile (ls : List Str) : List Str × List Str := readLoop ls false ([], [])

/-- `weakFilter`, gcc.js 1316-1320 -/
def notWeak (l : Str) : Bool :=
  elem1 l ≠ some ['v'] && elem1 l ≠ some ['V'] && elem1 l ≠ some ['w'] && elem1 l ≠ some ['W']

/-- The symbols that are compared, gcc.js 1308-1323 -/
def relevantLines (strict : Bool) (p : List Str × List Str) : List Str := if strict then p.1 else p.2.filter notWeak

/-- The loop over the lines, gcc.js 1330-1342, for lists of the same length -/
def differ : List Str → List Str → Bool
  | o :: os, n :: ns => if elem0 o ≠ elem0 n || elem1 o ≠ elem1 n then true else differ os ns
  | _, _ => false

/-- The command, gcc.js 1285-1343: the symbol file before (`none` if it does not exist), what `nm` prints (`none` if it fails); the file
afterwards, and whether it was written. -/
def step (strict : Bool) (file : Option (List Str)) (nm : Option Nm) : Option (List Str) × Bool :=
  match nm with
  | none => (file, false)
  | some n =>
    match file with
    | none => (some (fileLines n), true)
    | some ls =>
      let old := relevantLines strict (readFile ls)
      let new := relevantLines strict (n.all, defined_ n)
      if old.length ≠ new.length then (some (fileLines n), true)
      else if differ old new then (some (fileLines n), true)
      else (file, false)

/-- One build after the other -/
def history (strict : Bool) : Option (List Str) → List (Option Nm) → List Bool × Option (List Str)
  | file, [] => ([], file)
  | file, nm :: h =>
    let r := history strict (step strict file nm).1 h
    ((step strict file nm).2 :: r.1, r.2)

end Verif.Symbols
