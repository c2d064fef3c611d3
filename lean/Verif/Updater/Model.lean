import Verif.Literal.Model
import Verif.Edit.Model
import Verif.Common.Sort
/-
Editing of project files: src/lib/corelib/api/projectfileupdater.cpp and the parts of
src/lib/corelib/api/qmljsrewriter.cpp it uses.

Not modelled: the parser. A project file comes in pieces, as the parser sees it: the item in question
with its members, and what is between them. The items of one file are found by their locations; here
the item is given. No member other than a script binding is called `files`. File names are put in order
by code points, not by UTF-16 units. Line offsets and item positions, which nobody reads, are left out.
-/

namespace Verif.Updater

abbrev Str := List Char

/-- An element of an array literal: its text and, for a string literal, its value. -/
structure Elem where
  source : Str
  literal : Option Str
  deriving DecidableEq

/-- The expressions that are told apart, projectfileupdater.cpp 344-391. -/
inductive Expr
  | array (elems : List Elem)
  | str (value : Str)
  | other
  deriving DecidableEq

/-- The statement of a binding, with the semicolon at its end, if there is one; for an expression
statement, the text of the expression and what it is. -/
structure Stmt where
  source : Str
  expr : Option (Str × Expr)
  deriving DecidableEq

/-- A member of an item: a script binding with its (qualified) name, where `head` is the text up to the
statement; or an item or anything else, where `head` is its text. -/
inductive Kind
  | binding (name : List Str) (stmt : Stmt)
  | object
  | other
  deriving DecidableEq

structure Member where
  kind : Kind
  head : Str
  deriving DecidableEq

def Member.body (m : Member) : Str :=
  match m.kind with
  | .binding _ s => s.source
  | _ => []

def Member.text (m : Member) : Str := m.head ++ m.body

/-- A project file and an item in it: the text up to the opening brace of the item, its members, with
the text between them, and the text after the closing brace. -/
structure Doc where
  pre : Str
  gap : Str
  members : List (Member × Str)
  post : Str
  deriving DecidableEq

def membersText : List (Member × Str) → Str
  | [] => []
  | (m, g) :: ms => m.text ++ g ++ membersText ms

def Doc.text (d : Doc) : Str := d.pre ++ '{' :: d.gap ++ membersText d.members ++ '}' :: d.post

/-! ### The new list of files -/

def indent (n : Nat) : Str := List.replicate n ' '

/-- `addToFilesRepr`, projectfileupdater.cpp 289-295. -/
def addRepr (n : Nat) (repr : Str) : Str := indent n ++ repr ++ ",\n".toList

/-- `addToFilesRepr` for all of them, projectfileupdater.cpp 297-302; `completeFilesRepr`, 304-308. -/
def filesRepr (elemInd bindInd : Nat) (reprs : List Str) : Str :=
  "[\n".toList ++ (reprs.map (addRepr elemInd)).flatten ++ indent bindInd ++ [']']

def leStr (a b : Str) : Bool := !decide (b < a)

/-- `QStringList::sort`. -/
def sortFiles (l : List Str) : List Str := Common.isort leStr l

/-- The new files come before the first old one that is greater, projectfileupdater.cpp 353-362. -/
def mergeReprs (first : Str) (new : List Str) : List Str → List Str
  | [] => new
  | o :: os => if first < o then new ++ o :: os else o :: mergeReprs first new os

/-- `ProjectFileFilesAdder::doApply`, projectfileupdater.cpp 310-410, the new right-hand side, if there
is a binding. `none`: an error. -/
def addedRhs (ind : Nat) (files : List Str) (s : Stmt) : Option Str :=
  let sorted := sortFiles files
  match s.expr with
  | none => none
  | some (_, .array elems) =>
    some (filesRepr (ind + 8) (ind + 4)
      (mergeReprs (Literal.litStr (sorted.headD [])) (sorted.map Literal.litStr)
        (elems.map (·.source))))
  | some (_, .str v) =>
    some (filesRepr (ind + 8) (ind + 4) ((sortFiles (sorted ++ [v])).map Literal.litStr))
  | some (src, .other) =>
    some (filesRepr (ind + 8) (ind + 4) (sorted.map Literal.litStr) ++ ".concat(".toList ++ src ++ [')'])

/-- The loop over the elements in `ProjectFileFilesRemover::doApply`, projectfileupdater.cpp 458-476:
the files that stay, and the ones that have not been found. `none`: an element that is no string. -/
def removeLoop : List Str → List Elem → Option (List Str × List Str)
  | toRemove, [] => some ([], toRemove)
  | toRemove, e :: es =>
    match e.literal with
    | none => none
    | some f =>
      if f ∈ toRemove then removeLoop (toRemove.erase f) es
      else (removeLoop toRemove es).map (fun r => (f :: r.1, r.2))

/-- `ProjectFileFilesRemover::doApply`, projectfileupdater.cpp 421-516, the new right-hand side. -/
def removedRhs (ind : Nat) (files : List Str) (s : Stmt) : Option Str :=
  match s.expr with
  | none => none
  | some (_, .array elems) =>
    match removeLoop files elems with
    | some (stay, []) => some (filesRepr (ind + 8) (ind + 4) (stay.map (fun f => '"' :: f ++ ['"'])))
    | _ => none
  | some (_, .str v) => if files = [v] then some "[]".toList else none
  | some (_, .other) => none

/-! ### The rewriter -/

def filesName : Str := "files".toList

/-- `FilesBindingFinder`, projectfileupdater.cpp 87-115: the last one whose name starts with `files`. -/
def findFiles : List (Member × Str) → Option Stmt
  | [] => none
  | (m, _) :: ms =>
    match findFiles ms with
    | some s => some s
    | none =>
      match m.kind with
      | .binding name s => if name.head? = some filesName then some s else none
      | _ => none

/-- `isMatchingPropertyMember`, qmljsrewriter.cpp 351-363. -/
def isFiles (m : Member) : Bool :=
  match m.kind with
  | .binding name _ => name == [filesName]
  | _ => false

/-- `changeBinding`, qmljsrewriter.cpp 265-309, with `replaceMemberValue`, 311-349, and
`nextMemberOnSameLine`, 365-370; `off` is the position of the first of the members. -/
def changeBinding (new : Str) : Nat → List (Member × Str) → List Edit.Op
  | _, [] => []
  | off, (m, g) :: ms =>
    if isFiles m then
      [.replace (off + m.head.length : Nat) (m.body.length : Nat)
        (new ++ if ms ≠ [] ∧ '\n' ∉ g then [';'] else [])]
    else changeBinding new (off + m.text.length + g.length) ms

/-- `addBinding`, qmljsrewriter.cpp 72-159, without an order of properties: as the first member. -/
def addBinding (name value : Str) (d : Doc) : List Edit.Op :=
  let oneLiner := '\n' ∉ d.gap
  let t := name ++ ": ".toList ++ value
  [.insert (d.pre.length + 1 : Nat)
    (if oneLiner then ' ' :: t ++ (if d.members ≠ [] then [';'] else []) else '\n' :: t)]

/-- `searchMemberToInsertAfter`, qmljsrewriter.cpp 161-191, without an order of properties: the end of
the last item among the members, which start at `off`. -/
def lastObjectEnd : Nat → List (Member × Str) → Option Nat
  | _, [] => none
  | off, (m, g) :: ms =>
    match lastObjectEnd (off + m.text.length + g.length) ms with
    | some e => some e
    | none => if m.kind = .object then some (off + m.text.length) else none

/-- `addObject`, qmljsrewriter.cpp 616-637. -/
def addObject (content : Str) (d : Doc) : Edit.Op :=
  match lastObjectEnd (d.pre.length + 1 + d.gap.length) d.members with
  | some e => .insert (e : Nat) ('\n' :: '\n' :: content)
  | none => .insert (d.pre.length + 1 : Nat) ('\n' :: content)

/-- `changeSet.apply(&fileContent)`. -/
def edit (ops : List Edit.Op) (d : Doc) : Str := (Edit.changes ops).apply d.text

/-- `ProjectFileFilesAdder::doApply`, projectfileupdater.cpp 310-410; `ind`: the column of the item. -/
def addFiles (ind : Nat) (files : List Str) (d : Doc) : Option Str :=
  if files = [] then some d.text
  else
    match findFiles d.members with
    | some s =>
      (addedRhs ind files s).map fun rhs =>
        edit (changeBinding rhs (d.pre.length + 1 + d.gap.length) d.members) d
    | none =>
      some (edit (addBinding (indent (ind + 4) ++ filesName)
        (filesRepr (ind + 8) (ind + 4) ((sortFiles files).map Literal.litStr)) d) d)

/-- `ProjectFileFilesRemover::doApply`, projectfileupdater.cpp 421-516. -/
def removeFiles (ind : Nat) (files : List Str) (d : Doc) : Option Str :=
  if files = [] then some d.text
  else
    match findFiles d.members with
    | some s =>
      (removedRhs ind files s).map fun rhs =>
        edit (changeBinding rhs (d.pre.length + 1 + d.gap.length) d.members) d
    | none => none

/-- The new item, `ProjectFileGroupInserter::doApply`, projectfileupdater.cpp 227-237. -/
def groupText (ind : Nat) (name : Str) : Str :=
  let i := indent (ind + 4)
  i ++ "Group {\n".toList ++ i ++ i ++ "name: \"".toList ++ name ++ "\"\n".toList ++ i ++ i ++
    "files: []\n".toList ++ i ++ ['}']

/-- `ProjectFileGroupInserter::doApply`, projectfileupdater.cpp 216-253. -/
def addGroup (ind : Nat) (name : Str) (d : Doc) : Str := edit [addObject (groupText ind name) d] d

/-- The new items, `ProjectFileDependenciesAdder::doApply`, projectfileupdater.cpp 582-590. -/
def dependsText (ind : Nat) (name : Str) : Str :=
  indent (ind + 4) ++ "Depends { name: \"".toList ++ name ++ "\" }".toList

/-- `ProjectFileDependenciesAdder::doApply`, projectfileupdater.cpp 564-592. -/
def addDepends (ind : Nat) (names : List Str) (d : Doc) : Str :=
  if names = [] then d.text
  else edit ((sortFiles names).map (fun n => addObject (dependsText ind n) d)) d

/-- `ProjectPrivate::addFiles`, project.cpp 441-466, for files that exist and match no wildcards:
`known` are the files of the group (relative to the group's base directory), from the time when the
project was resolved. Editing the project file does not change them. -/
def apiAddFiles (known : List Str) (ind : Nat) (files : List Str) (d : Doc) : Option Str :=
  if files.any (fun f => decide (f ∈ known)) then none else addFiles ind files d

/-- `ProjectPrivate::removeFiles`, project.cpp 487-514. -/
def apiRemoveFiles (known : List Str) (ind : Nat) (files : List Str) (d : Doc) : Option Str :=
  if files.all (fun f => decide (f ∈ known)) then removeFiles ind files d else none

/-! ### Removing a group -/

/-- `QChar::isSpace` (ASCII). -/
def isSpace (c : Char) : Bool := c = ' ' || ('\t' ≤ c && c ≤ '\r')

/-- The white space after an item, up to the end of the line, `includeSurroundingWhitespace`,
qmljsrewriter.cpp 455-471: what follows, and whether a line end has been passed. -/
def spanEnd : Str → Str × Bool
  | [] => ([], false)
  | c :: v => if isSpace c then if c = '\n' then (v, true) else spanEnd v else (c :: v, false)

/-- The white space before it, in the same line, qmljsrewriter.cpp 476-490: what is before that, with
the last character first, and whether this is a line end. -/
def spanStart : Str → Str × Bool
  | [] => ([], false)
  | c :: r => if c = '\n' then (c :: r, true) else if isSpace c then spanStart r else (c :: r, false)

/-- `includeSurroundingWhitespace`, qmljsrewriter.cpp 449-494, for an item after the text `ru` (with the
last character first) and before the text `v`: what remains of them. -/
def surrounding (ru v : Str) : Str × Str :=
  let e := spanEnd v
  if e.2 then
    let s := spanStart ru
    if s.2 then (s.1, e.1) else (s.1, '\n' :: e.1)
  else (ru, e.1)

/-- `includeLeadingEmptyLine`, qmljsrewriter.cpp 496-509: what remains of the text before the item (with
the last character first). The search for a line end starts at the first character that is removed,
which is not a line end. -/
def leadingEmptyLine (ru : Str) : Str :=
  match ru.dropWhile (· ≠ '\n') with
  | [] => ru
  | _ :: rp =>
    if rp = [] then ru
    else if (rp.takeWhile (· ≠ '\n')).all isSpace then rp.dropWhile (· ≠ '\n') else ru

/-- `removeObjectMember`, qmljsrewriter.cpp 662-677, with `ProjectFileGroupRemover::doApply`,
projectfileupdater.cpp 526-554, for an item between the texts `u` and `v`. The name of its parent item
starts with an upper-case letter. -/
def removeItem (u v : Str) : Str :=
  let r := surrounding u.reverse v
  (leadingEmptyLine r.1).reverse ++ r.2

/-! ### Writing the file -/

/-- The kinds of line ends, projectfileupdater.h. -/
inductive LineEnds
  | unknown
  | unix
  | windows
  | mixed
  deriving DecidableEq

/-- The loop of `guessLineEndingType`, projectfileupdater.cpp 126-138: the numbers of line ends without
and with a carriage return; `before` is the preceding character. -/
def countLines (before : Char) : Str → Nat × Nat
  | [] => (0, 0)
  | c :: s =>
    let r := countLines c s
    if c = '\n' then if before = '\r' then (r.1, r.2 + 1) else (r.1 + 1, r.2) else r

/-- `guessLineEndingType`, projectfileupdater.cpp 124-146. -/
def guess (s : Str) : LineEnds :=
  let n := countLines '\x00' s
  if n.1 = 0 ∧ n.2 = 0 then .unknown else if n.2 = 0 then .unix else if n.1 = 0 then .windows else .mixed

/-- `replace("\r\n", "\n")`. -/
def toLf : Str → Str
  | [] => []
  | [c] => [c]
  | c :: c' :: s => if c = '\r' ∧ c' = '\n' then '\n' :: toLf s else c :: toLf (c' :: s)

/-- `replace('\n', "\r\n")`. -/
def toCrLf : Str → Str
  | [] => []
  | c :: s => if c = '\n' then '\r' :: '\n' :: toCrLf s else c :: toCrLf s

/-- `convertToUnixLineEndings`, projectfileupdater.cpp 148-153. -/
def toUnix (k : LineEnds) (s : Str) : Str := if k = .unix then s else toLf s

/-- `convertFromUnixLineEndings`, projectfileupdater.cpp 155-161. -/
def fromUnix (windowsHost : Bool) (k : LineEnds) (s : Str) : Str :=
  if k = .windows ∨ k ≠ .unix ∧ windowsHost then toCrLf s else s

/-- What can happen while the file is written: nothing special; at most so many characters can be
written; the process ends when so many have been written. -/
inductive Disk
  | fine
  | full (n : Nat)
  | killed (n : Nat)

/-- `ProjectFileUpdater::apply`, projectfileupdater.cpp 163-201, for an edit of the text: the content of
the file afterwards, and whether success is reported (`none`: the process has ended). Opening for
writing makes the file empty; the result of `write` is not looked at. -/
def applyFile (windowsHost : Bool) (f : Str → Str) (old : Str) : Disk → Str × Option Bool
  | .fine => (fromUnix windowsHost (guess old) (f (toUnix (guess old) old)), some true)
  | .full n => ((fromUnix windowsHost (guess old) (f (toUnix (guess old) old))).take n, some true)
  | .killed n => ((fromUnix windowsHost (guess old) (f (toUnix (guess old) old))).take n, none)

end Verif.Updater
