import Verif.Create.Model
import Verif.Literal.Spec
/-!
# C107 and C108: specification

How qbs reads what was written, and the files of a source tree.
-/
namespace Verif.Create

/-- A path as text. -/
def str (p : List Str) : Str := p.flatMap (fun c => '/' :: c)

/-- A file in a directory. -/
def file (p : List Str) (f : Str) : Str := str p ++ '/' :: f

mutual
/-- The source files of a tree. -/
def Dir.sources (c : Cfg) (path : List Str) : Dir → List Str
  | .mk _ fs ds => (fs.filter (fun f => isSource c f.name)).map (fun f => file path f.name) ++ sourcesAll c path ds
def sourcesAll (c : Cfg) (path : List Str) : List Dir → List Str
  | [] => []
  | d :: l => d.sources c (path ++ [d.name]) ++ sourcesAll c path l
end

mutual
/-- All files of a tree. -/
def Dir.all : Dir → List File
  | .mk _ fs ds => fs ++ dirsAll ds
def dirsAll : List Dir → List File
  | [] => []
  | d :: l => d.all ++ dirsAll l
end

/-- A product as qbs reads it. -/
structure Product where
  name : Str
  sources : List Str
  deriving DecidableEq, Repr

/-- The value of an expression that is a string. -/
def text (e : Str) : Option Str :=
  match Literal.evaluate e with
  | some (.str s) => some s
  | _ => none

/-- `FileInfo::isPattern`, fileinfo.cpp 188-194. -/
def isPattern (s : Str) : Bool := s.any (fun c => c = '*' || c = '?' || c = ']' || c = '[')

/-- The name of a file in a list of files; none if it is taken for a pattern (productresolver.cpp 795-798). -/
def fileText (e : Str) : Option Str :=
  match text e with
  | some s => if isPattern s then none else some s
  | none => none

def groupFiles (dir : List Str) (g : Grp) : Option (List Str) :=
  match text g.pre, g.files.mapM fileText with
  | some pre, some fs => some (fs.map (fun f => file dir (pre ++ f)))
  | _, _ => none

/-- The project files in a directory, among what was written and the sub-directories (productscollector.cpp 505-520). -/
def qbsNames (out : List ((List Str × Str) × Item)) (dirs : List Str → List Str) (dir : List Str) : List Str :=
  (out.filter (fun x => x.1.1 = dir)).map (fun x => x.1.2) ++ (dirs dir).filter isQbs

/-- Reading a project file: its products with their source files, productscollector.cpp 269-274 and 498-538,
productresolver.cpp 794-840 and 898-899. -/
def load (out : List ((List Str × Str) × Item)) (dirs : List Str → List Str) : Nat → List Str → Str → Option (List Product)
  | 0, _, _ => none
  | n + 1, dir, f =>
    match out.lookup (dir, f) with
    | none => none
    | some (.product _ _ fs gs) =>
      match fs.mapM fileText, gs.mapM (groupFiles dir) with
      | some fs, some gs => some [⟨completeBaseName f, fs.map (file dir) ++ gs.flatten⟩]
      | _, _ => none
    | some (.project refs) =>
      match refs.mapM text with
      | none => none
      | some names =>
        (names.mapM (fun s => match qbsNames out dirs (dir ++ [s]) with
          | [f'] => load out dirs n (dir ++ [s]) f'
          | _ => none)).map List.flatten

/-- The project is read completely, and these are the products. -/
def Loads (out : List ((List Str × Str) × Item)) (dirs : List Str → List Str) (dir : List Str) (f : Str) (ps : List Product) : Prop :=
  ∃ N, ∀ n, N ≤ n → load out dirs n dir f = some ps

mutual
/-- Names without ends of lines, and of files without characters of patterns; no directory with two entries of the same
name. -/
def Dir.Good : Dir → Prop
  | .mk n fs ds => Literal.OneLine n ∧ (∀ f ∈ fs, Literal.OneLine f.name ∧ isPattern f.name = false) ∧
      (fs.map File.name).Nodup ∧ (ds.map Dir.name).Nodup ∧ GoodAll ds
def GoodAll : List Dir → Prop
  | [] => True
  | d :: l => d.Good ∧ GoodAll l
end

/-- The same tree, in another order. -/
inductive Reorder : Dir → Dir → Prop where
  | perm {n f f' l l'} : f.Perm f' → l.Perm l' → Reorder (.mk n f l) (.mk n f' l')
  | child {n f a d d' b} : Reorder d d' → Reorder (.mk n f (a ++ d :: b)) (.mk n f (a ++ d' :: b))
  | trans {d e f} : Reorder d e → Reorder e f → Reorder d f

/-- A total order on strings. -/
structure Order (le : Str → Str → Bool) : Prop where
  total : ∀ a b, le a b = true ∨ le b a = true
  trans : ∀ a b c, le a b = true → le b c = true → le a c = true
  antisymm : ∀ a b, le a b = true → le b a = true → a = b

end Verif.Create
