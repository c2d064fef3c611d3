import Verif.Status.Model

/-!
# Specification of `qbs status`
-/

namespace Verif.Status

/-- In the directory with these entries there is a file with this list of
directory names followed by a file name. -/
inductive FileAt : Entries → List Str → Prop
  | file {n r} : FileAt (.file n r) [n]
  | fileRest {n r cs} : FileAt r cs → FileAt (.file n r) cs
  | dir {n s r cs} : FileAt s cs → FileAt (.dir n s r) (n :: cs)
  | dirRest {n s r cs} : FileAt r cs → FileAt (.dir n s r) cs

/-- The path of what is called `cs` in directory `root`. -/
def pathOf (root : Str) (cs : List Str) : Str := cs.foldl (fun d n => d ++ '/' :: n) root

/-- The same path relative to the directory. -/
def rel : List Str → Str
  | [] => []
  | [n] => n
  | n :: cs => n ++ '/' :: rel cs

/-- The names of the entries of a directory. -/
def names : Entries → List Str
  | .nil => []
  | .file n r => n :: names r
  | .dir n _ r => n :: names r

/-- What every file system ensures: the names in a directory are different, and
have no slash in them. -/
def Wf : Entries → Prop
  | .nil => True
  | .file n r => '/' ∉ n ∧ n ∉ names r ∧ Wf r
  | .dir n s r => '/' ∉ n ∧ n ∉ names r ∧ Wf s ∧ Wf r

/-- No name on the way to the file starts with a dot, and neither the file nor a
directory on the way to it is to be ignored. -/
def Visible (ign : Str → Bool) (root : Str) (cs : List Str) : Prop :=
  (∀ c ∈ cs, c.head? ≠ some '.') ∧
    ∀ k, 0 < k → k ≤ cs.length → ign (pathOf root (cs.take k)) = false

/-- The file belongs to a group of a product. -/
def Tracked (ps : List Product) (f : Str) : Prop := ∃ p ∈ ps, ∃ g ∈ p, f ∈ g

/-- A text in which no character has a meaning in regular expressions. -/
def Plain (s : Str) : Prop := ∀ c ∈ s, c ∉ special

end Verif.Status
