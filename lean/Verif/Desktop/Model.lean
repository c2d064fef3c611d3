import Verif.Common.Snoc

/-! # Model: merging of desktop files (share/qbs/modules/freedesktop/freedesktop.js)

Files are lists of lines (see `Verif.TextF` for reading and writing them). Objects keep the order in which properties were added;
that names which look like numbers come first is left out, as are properties that all objects have. -/

namespace Verif.Desktop

abbrev Text := List Char

/-- The object `o[k] = v` -/
def set {α : Type} (k : Text) (v : α) : List (Text × α) → List (Text × α)
  | [] => [(k, v)]
  | p :: o => if p.1 = k then (k, v) :: o else p :: set k v o

/-- The value `o[k]`; `none` if the property does not exist -/
def get {α : Type} (k : Text) : List (Text × α) → Option α
  | [] => none
  | p :: o => if p.1 = k then some p.2 else get k o

/-- What `trim` removes -/
def isSpace (c : Char) : Bool :=
  [9, 10, 11, 12, 13, 32, 0xA0, 0x1680, 0x2028, 0x2029, 0x202F, 0x205F, 0x3000, 0xFEFF].contains c.toNat
    || (0x2000 ≤ c.toNat && c.toNat ≤ 0x200A)

def trimStart : Text → Text
  | [] => []
  | c :: s => if isSpace c then trimStart s else c :: s

/-- `trim` (freedesktop.js 39) -/
def trim (s : Text) : Text := (trimStart (trimStart s).reverse).reverse

/-- The regular expression for sections (freedesktop.js 37): the group, if it matches from the beginning. Line terminators within
lines are left out. -/
def sectionName (line : Text) : Option Text :=
  if 3 ≤ line.length ∧ line.head? = some '[' ∧ line.getLast? = some ']' then some (line.drop 1).dropLast else none

/-- `line.split('=', 2)` (freedesktop.js 49): the first two parts; the second one can be `undefined`. -/
def split2 (line : Text) : Text × Option Text :=
  let k := line.takeWhile (· != '=')
  match line.drop k.length with
  | [] => (k, none)
  | _ :: r => (k, some (r.takeWhile (· != '=')))

/-- A section of the file; the value `none` is `undefined`. -/
abbrev Obj := List (Text × Option Text)

/-- The variables of `parseDesktopFile` (freedesktop.js 35-37). `again` means that `lastIndex` of the regular expression is not zero:
it has the flag `g`, so that it goes on behind the last match, and there `^` matches nothing. -/
structure PState where
  file : List (Text × Obj)
  cur : Option Text
  again : Bool

/-- One round of the loop (freedesktop.js 39-50) -/
def parseLine (st : PState) (raw : Text) : PState :=
  let line := trim raw
  if line = [] then st
  else if line.head? = some '#' then st
  else
    match (if st.again then none else sectionName line) with
    | some n => { file := set n [] st.file, cur := some n, again := true }
    | none =>
      let p := split2 line
      match st.cur with
      | none => { st with again := false }
      | some n => { file := set n (set p.1 p.2 ((get n st.file).getD [])) st.file, cur := some n, again := false }

/-- `parseDesktopFile` (freedesktop.js 33-54) -/
def parse (lines : List Text) : List (Text × Obj) := (lines.foldl parseLine ⟨[], none, false⟩).file

/-- Conversion to text, where a value is appended to a string (freedesktop.js 62) -/
def text : Option Text → Text
  | none => "undefined".toList
  | some v => v

/-- `dumpDesktopFile` (freedesktop.js 56-69) -/
def dump (file : List (Text × Obj)) : List Text :=
  file.flatMap fun s => ('[' :: s.1 ++ [']']) :: s.2.map (fun e => e.1 ++ '=' :: text e.2) ++ [[]]

def mainSection : Text := "Desktop Entry".toList

/-- The loop for the user's keys (freedesktop.js 81-85) -/
def override (keys : List (Text × Text)) (o : Obj) : Obj := keys.foldl (fun o e => set e.1 (some e.2) o) o

/-- The loop for the default values (freedesktop.js 88-92) -/
def addDefaults (defaults : List (Text × Text)) (o : Obj) : Obj :=
  defaults.foldl (fun o e => if (get e.1 o).isSome then o else set e.1 (some e.2) o) o

/-- The command (freedesktop.js 77-95); `none` if it fails because there is no main section. -/
def generate (lines : List Text) (keys defaults : List (Text × Text)) : Option (List Text) :=
  let file := parse lines
  match get mainSection file with
  | some o => some (dump (set mainSection (addDefaults defaults (override keys o)) file))
  | none => if keys = [] ∧ defaults = [] then some (dump file) else none

end Verif.Desktop
