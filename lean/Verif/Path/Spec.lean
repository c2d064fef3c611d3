/-
The meaning of paths: walking through directories, component by component.
-/

namespace Verif.Path.Spec

abbrev Str := List Char

/-- The text between slashes. -/
def split (cur : Str) : Str → List Str
  | [] => [cur]
  | c :: cs => if c = '/' then cur :: split [] cs else split (cur ++ [c]) cs

/-- The components of a path; double slashes and slashes at the ends do not matter. -/
def components (s : Str) : List Str := (split [] s).filter (· ≠ [])

/-- One step: `.` stays, `..` goes up (the root is its own parent), a name goes down. -/
def step (dir : List Str) (c : Str) : List Str :=
  if c = ['.'] then dir else if c = ['.', '.'] then dir.dropLast else dir ++ [c]

/-- Walking from a directory, given as the list of names below the root. -/
def walk (dir : List Str) (cs : List Str) : List Str := cs.foldl step dir

/-- The place an absolute path denotes. -/
def place (s : Str) : List Str := walk [] (components s)

/-- A proper name of a file or directory. -/
def IsName (n : Str) : Prop := n ≠ [] ∧ '/' ∉ n ∧ n ≠ ['.'] ∧ n ≠ ['.', '.']

instance (n : Str) : Decidable (IsName n) := by unfold IsName; infer_instance

/-- The clean absolute path of a place. -/
def absolute (dir : List Str) : Str :=
  if dir = [] then ['/'] else (dir.map ('/' :: ·)).flatten

end Verif.Path.Spec
