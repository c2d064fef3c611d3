import Verif.Literal.Model
import Verif.Common.Sort
/-!
# Creating a project for an existing source tree (C107, C108)

Model of src/app/qbs-create-project/createproject.cpp.  What is written is given as items; the strings in them are the
texts of JavaScript expressions.  Not modelled: failures to write, symbolic links, hidden files (which the tool does not
see), the pattern language of the lists of files to take and to leave out, and the comments in the project files.
-/
namespace Verif.Create

abbrev Str := List Char

/-- A file; its text is none if it cannot be read. -/
structure File where
  name : Str
  text : Option Str
  deriving DecidableEq, Repr

/-- A directory, as `QDirIterator` gives it: in no particular order.  That files and directories come in two lists does
not matter. -/
inductive Dir where
  | mk (name : Str) (files : List File) (dirs : List Dir)
  deriving Repr

def Dir.name : Dir → Str | .mk n _ _ => n
def Dir.files : Dir → List File | .mk _ f _ => f
def Dir.dirs : Dir → List Dir | .mk _ _ l => l

/-- `ProjectCreator::Project`, createproject.h. -/
inductive Proj where
  | mk (name : Str) (files : List File) (subs : List Proj)
  deriving Repr

def Proj.name : Proj → Str | .mk n _ _ => n
def Proj.files : Proj → List File | .mk _ f _ => f
def Proj.subs : Proj → List Proj | .mk _ _ l => l

/-- The settings: the order of strings (`QString::operator<`), the files to leave out, those to take (all, if there are
no patterns), and whether there is to be one file only. -/
structure Cfg where
  le : Str → Str → Bool
  black : List (Str → Bool) := []
  white : List (Str → Bool) := []
  flat : Bool := false

/-- `isSourceFile`, createproject.cpp 159-166. -/
def isSource (c : Cfg) (f : Str) : Bool := !c.black.any (fun m => m f) && (c.white.isEmpty || c.white.any (fun m => m f))

/-- `endsWith(".qbs")`, createproject.cpp 78. -/
def isQbs (s : Str) : Bool := ".qbs".toList.isSuffixOf s

/-- createproject.cpp 87. -/
def Proj.isEmpty (p : Proj) : Bool := p.files.isEmpty && p.subs.isEmpty

mutual
/-- `setupProject`, createproject.cpp 72-95; none is the exception in line 79. -/
def setup (c : Cfg) : Dir → Option Proj
  | .mk n fs ds =>
    if fs.any (fun f => isQbs f.name) then none
    else match setupAll c ds with
      | none => none
      | some subs => some (.mk n (Common.isort (fun a b => c.le a.name b.name) (fs.filter (fun f => isSource c f.name)))
          (Common.isort (fun a b => c.le a.name b.name) subs))
/-- The sub-directories, createproject.cpp 82-89. -/
def setupAll (c : Cfg) : List Dir → Option (List Proj)
  | [] => some []
  | d :: l => match setup c d with
    | none => none
    | some p => match setupAll c l with
      | none => none
      | some ps => some (if p.isEmpty then ps else p :: ps)
end

/-! ## What is in the files -/

/-- `ProductFlags`. -/
structure Flags where
  app : Bool := false
  qt : Bool := false
  cpp : Bool := false
  deriving DecidableEq, Repr

/-- `QFileInfo::suffix`: what follows the last dot. -/
def suffix (s : Str) : Str := if '.' ∈ s then (s.reverse.takeWhile (· ≠ '.')).reverse else []

/-- `QFileInfo::completeBaseName`: what is before the last dot. -/
def completeBaseName (s : Str) : Str := if '.' ∈ s then ((s.reverse.dropWhile (· ≠ '.')).drop 1).reverse else s

/-- `QFileInfo::baseName`: what is before the first dot. -/
def baseName (s : Str) : Str := s.takeWhile (· ≠ '.')

mutual
/-- The order in which `getFlagsFromFileNames` and `getFlagsFromFileContents` visit the files. -/
def Proj.all : Proj → List File
  | .mk _ fs subs => fs ++ allOf subs
def allOf : List Proj → List File
  | [] => []
  | p :: l => p.all ++ allOf l
end

/-- One round of the loop of `getFlagsFromFileNames`, createproject.cpp 182-197.  Returning, when there is nothing more to
find out, has the same effect as passing over the rest. -/
def nameFlags (f : Flags) (x : File) : Flags :=
  if f.app && f.qt then f
  else if suffix x.name = "qrc".toList then { f with qt := true }
  else
    let f := if suffix x.name ∈ ["cpp".toList, "c".toList, "m".toList, "mm".toList] then { f with cpp := true } else f
    if f.cpp && completeBaseName x.name = "main".toList then { f with app := true } else f

/-- Does the text contain the other one? -/
def contains (t : Str) : Str → Bool
  | [] => t.isEmpty
  | c :: s => t.isPrefixOf (c :: s) || contains t s

/-- One round of the loop of `getFlagsFromFileContents`, createproject.cpp 208-223.  As what is searched for has no ends
of lines, searching line by line is searching in the text. -/
def contentFlags (f : Flags) (x : File) : Flags :=
  if f.app && f.qt then f
  else match x.text with
    | none => f
    | some t => { f with qt := f.qt || contains "#include <Q".toList t, app := f.app || contains "int main".toList t }

/-- `getFlags`, createproject.cpp 168-178. -/
def getFlags (p : Proj) : Flags :=
  let f := p.all.foldl nameFlags {}
  if f.app && f.qt then f
  else if !f.cpp then f
  else p.all.foldl contentFlags f

/-! ## The project files -/

/-- A Group item. -/
structure Grp where
  name : Str
  pre : Str
  files : List Str
  deriving DecidableEq, Repr

inductive Item where
  /-- with the type "application" or not, and what it depends on -/
  | product (app : Bool) (dep : Option Str) (files : List Str) (groups : List Grp)
  | project (references : List Str)
  deriving DecidableEq, Repr

open Verif.Literal (litStr)

mutual
/-- `addGroups`, createproject.cpp 141-157; `rel` is the relative path of the directory above, with a slash at its end if
it is not empty. -/
def groups (rel : Str) : Proj → List Grp
  | .mk n fs subs =>
    { name := litStr n, pre := litStr (rel ++ n ++ ['/']), files := fs.map (fun f => litStr f.name) } ::
      groupsAll (rel ++ n ++ ['/']) subs
def groupsAll (rel : Str) : List Proj → List Grp
  | [] => []
  | p :: l => groups rel p ++ groupsAll rel l
end

/-- What a product depends on, createproject.cpp 115-123. -/
def Flags.dep (f : Flags) : Option Str :=
  if f.qt then some "Qt".toList else if f.cpp then some "cpp".toList else none

mutual
/-- `serializeProject`, createproject.cpp 97-139: what is written to which file of which directory. -/
def serialize (c : Cfg) (path : List Str) : Proj → List ((List Str × Str) × Item)
  | .mk n fs subs =>
    let file := baseName n ++ ".qbs".toList
    if !fs.isEmpty || c.flat then
      let flags := getFlags (.mk n fs subs)
      [((path, file), .product flags.app flags.dep (fs.map (fun f => litStr f.name)) (groupsAll [] subs))]
    else ((path, file), .project (subs.map (fun p => litStr p.name))) :: serializeAll c path subs
def serializeAll (c : Cfg) (path : List Str) : List Proj → List ((List Str × Str) × Item)
  | [] => []
  | p :: l => serialize c (path ++ [p.name]) p ++ serializeAll c path l
end

/-- `run`, createproject.cpp 59-70. -/
def create (c : Cfg) (path : List Str) (d : Dir) : Option (List ((List Str × Str) × Item)) :=
  (setup c d).map (serialize c path)

end Verif.Create
