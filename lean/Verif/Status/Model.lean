/-!
# `qbs status`

Model of `src/app/qbs/status.cpp`: which files of the project directory are
reported as untracked, and which files of the project as missing.

Simplifications.  A directory is given with its entries already in the order
in which `entryInfoList` returns them; symbolic links are left out.  Of the
regular expressions only those are interpreted that consist of single
characters, dots, escaped characters and the quantifiers `*`, `+` and `?` with
their possessive and lazy forms; what any other expression matches is a
parameter.  The output lines for products and groups are left out except for
the names of the files.
-/

namespace Verif.Status

/-- A path or a name, character by character. -/
abbrev Str := List Char

/-! ## Regular expressions -/

/-- What one position of a pattern accepts: `.` is any character except the end
of a line, `[^/]` comes from the wildcards. -/
inductive Atom where
  | lit (c : Char)
  | any
  | notSlash
deriving DecidableEq, Repr

/-- The quantifier after a position.  The possessive forms do not give back
what they have taken. -/
inductive Quant where
  | one | star | plus | opt | starPoss | plusPoss | optPoss
deriving DecidableEq, Repr

/-- The characters that one position of a pattern accepts. -/
def Atom.accepts : Atom → Char → Bool
  | .lit c, d => c == d
  | .any, d => d != '\n'
  | .notSlash, d => d != '/'

/-- A greedy repetition with backtracking: some number of accepted characters,
and the rest of the pattern accepts what follows. -/
def starM (ok : Char → Bool) (k : Str → Bool) : Str → Bool
  | [] => k []
  | c :: cs => k (c :: cs) || (ok c && starM ok k cs)

/-- Matching of a whole string, as `QRegularExpression::anchoredPattern` asks
for (status.cpp 58, 73-79). -/
def matchAll : List (Atom × Quant) → Str → Bool
  | [], s => s.isEmpty
  | (a, .one) :: r, s => match s with
    | [] => false
    | c :: cs => a.accepts c && matchAll r cs
  | (a, .star) :: r, s => starM a.accepts (matchAll r) s
  | (a, .plus) :: r, s => match s with
    | [] => false
    | c :: cs => a.accepts c && starM a.accepts (matchAll r) cs
  | (a, .opt) :: r, s => match s with
    | [] => matchAll r []
    | c :: cs => (a.accepts c && matchAll r cs) || matchAll r (c :: cs)
  | (a, .starPoss) :: r, s => matchAll r (s.dropWhile a.accepts)
  | (a, .plusPoss) :: r, s => match s with
    | [] => false
    | c :: cs => a.accepts c && matchAll r (cs.dropWhile a.accepts)
  | (a, .optPoss) :: r, s => match s with
    | [] => matchAll r []
    | c :: cs => if a.accepts c then matchAll r cs else matchAll r (c :: cs)

/-- The characters with a meaning of their own in a regular expression. -/
def special : List Char :=
  ['\\', '^', '$', '.', '[', ']', '|', '(', ')', '?', '*', '+', '{', '}']

/-- The quantifier at the start of a string, and what follows it. -/
def readQuant : Str → Quant × Str
  | '*' :: '+' :: r => (.starPoss, r)
  | '*' :: '?' :: r => (.star, r)
  | '*' :: r => (.star, r)
  | '+' :: '+' :: r => (.plusPoss, r)
  | '+' :: '?' :: r => (.plus, r)
  | '+' :: r => (.plus, r)
  | '?' :: '+' :: r => (.optPoss, r)
  | '?' :: '?' :: r => (.opt, r)
  | '?' :: r => (.opt, r)
  | r => (.one, r)

/-- The position at the start of a string; nothing for the expressions that are
not interpreted. -/
def readAtom : Str → Option (Atom × Str)
  | [] => none
  | '.' :: r => some (.any, r)
  | '\\' :: c :: r => if c.isAlphanum then none else some (.lit c, r)
  | c :: r => if c ∈ special then none else some (.lit c, r)

/-- A pattern as a list of positions with their quantifiers.  The first argument
bounds the number of positions. -/
def parsePat : Nat → Str → Option (List (Atom × Quant))
  | _, [] => some []
  | 0, _ :: _ => none
  | n + 1, c :: s =>
    match readAtom (c :: s) with
    | none => none
    | some (a, r) =>
      let q := readQuant r
      (parsePat n q.2).map ((a, q.1) :: ·)

/-- `QRegularExpression(anchoredPattern(pat)).match(s).hasMatch()`
(status.cpp 58, 73-79, 97).  `other` stands for the expressions that are not
interpreted. -/
def matchPat (other : Str → Str → Bool) (pat s : Str) : Bool :=
  match parsePat pat.length pat with
  | some p => matchAll p s
  | none => other pat s

/-- `QRegularExpression::wildcardToRegularExpression` for the wildcards used
here (status.cpp 59-63): a star is any number of characters other than a
slash, the other characters stand for themselves, and the expression is
anchored at both ends. -/
def wildcard (w : Str) : List (Atom × Quant) :=
  w.map fun c => if c = '*' then (.notSlash, .star) else (.lit c, .one)

/-! ## The ignore list -/

/-- The built-in wildcards (status.cpp 59-63). -/
def wildcards : List Str :=
  ["*.qbs".toList, "*.pro".toList, "*Makefile".toList, "*.so*".toList, "*.o".toList]

/-- `QByteArray::split('\n')`. -/
def splitLines : Str → List Str
  | [] => [[]]
  | c :: r =>
    if c = '\n' then [] :: splitLines r
    else match splitLines r with
      | [] => [[c]]
      | l :: ls => (c :: l) :: ls

/-- The pattern made from one line of `.qbsignore` (status.cpp 71-81). -/
def linePattern (root line : Str) : Option Str :=
  match line with
  | [] => none
  | '/' :: _ => some (root ++ line ++ ['.', '*'])
  | _ => some line

/-- The anchored patterns: the one for the build directories and those of the
file `.qbsignore`, if there is one (status.cpp 55-85). -/
def patterns (root : Str) (ignoreFile : Option Str) : List Str :=
  (root ++ "/build.*".toList) ::
    (match ignoreFile with
     | none => []
     | some t => (splitLines t).filterMap (linePattern root))

/-- Whether a path is in the ignore list (status.cpp 94-101). -/
def ignored (other : Str → Str → Bool) (root : Str) (ignoreFile : Option Str) (p : Str) : Bool :=
  (patterns root ignoreFile).any (fun pat => matchPat other pat p) ||
    wildcards.any (fun w => matchAll (wildcard w) p)

/-! ## The walk through the project directory -/

/-- The entries of a directory, in order: a file or a directory with entries of
its own, and the remaining entries. -/
inductive Entries where
  | nil
  | file (name : Str) (rest : Entries)
  | dir (name : Str) (sub rest : Entries)

/-- Without `QDir::Hidden`, `entryInfoList` leaves out the names starting with a
dot (status.cpp 92). -/
def hidden : Str → Bool
  | '.' :: _ => true
  | _ => false

/-- The absolute path of an entry. -/
def child (d n : Str) : Str := d ++ '/' :: n

/-- `allFilesInDirectoryRecursive` (status.cpp 87-113). -/
def walk (ign : Str → Bool) (d : Str) : Entries → List Str
  | .nil => []
  | .file n r =>
    (if hidden n then [] else
      if ign (child d n) then [] else [child d n]) ++ walk ign d r
  | .dir n s r =>
    (if hidden n then [] else
      if ign (child d n) then [] else walk ign (child d n) s) ++ walk ign d r

/-! ## The report -/

/-- A group lists its files; a product is the list of its groups. -/
abbrev Group := List Str
abbrev Product := List Group

/-- The lists that `printStatus` builds: the names printed under the groups, the
missing files and the untracked files. -/
structure Report where
  listed : List Str
  missing : List Str
  untracked : List Str
deriving DecidableEq, Repr

/-- The loop body for one source file (status.cpp 147-152).  `sorted` has no
effect on which files are handled and is left out. -/
def addFile (exist : Str → Bool) (root : Str) (r : Report) (f : Str) : Report :=
  { listed := r.listed ++ [f.drop (root.length + 1)]
    missing := if exist f then r.missing else r.missing ++ [f]
    untracked := r.untracked.erase f }

/-- The loops over the products and their groups (status.cpp 138-154). -/
def addAll (exist : Str → Bool) (root : Str) (r : Report) (ps : List Product) : Report :=
  ps.foldl (fun r p => p.foldl (fun r g => g.foldl (addFile exist root) r) r) r

/-- `printStatus` (status.cpp 130-165): the untracked files start as all files
in the project directory that are not ignored, and the two lists are printed
without the project directory. -/
def printStatus (other : Str → Str → Bool) (exist : Str → Bool) (root : Str)
    (ignoreFile : Option Str) (tree : Entries) (ps : List Product) : Report :=
  let r := addAll exist root
    { listed := [], missing := [], untracked := walk (ignored other root ignoreFile) root tree } ps
  { r with
    missing := r.missing.map (·.drop (root.length + 1))
    untracked := r.untracked.map (·.drop (root.length + 1)) }

end Verif.Status
