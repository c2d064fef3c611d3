/-! # Environment variables that are lists

`ModUtils.EnvironmentVariable` (share/qbs/imports/qbs/ModUtils/utils.js 269-303), with which modules change variables such as `PATH` in
their setup scripts. The environment is a function; `Environment.putEnv` and `unsetEnv` are its updates. -/

namespace Verif.EnvVar

abbrev Str := List Char

/-- The environment of the product -/
abbrev Env := Str → Option Str

/-- The object; the separator is one character, as in all uses for lists, or none. -/
structure Var where
  name : Str
  value : Str
  separator : Option Char
  convert : Bool
deriving DecidableEq, Repr

/-- The constructor, utils.js 270-277; `none` is the exception. -/
def make (e : Env) (name : Str) (separator : Option Char) (convert : Bool) : Option Var :=
  if name = [] then none else some ⟨name, (e name).getD [], separator, convert⟩

/-- `FileInfo.toWindowsSeparators` -/
def toWindows (s : Str) : Str := s.map fun c => if c = '/' then '\\' else c

/-- The value that is added, utils.js 281-282, 289-290 -/
def added (x : Var) (v : Str) : Str := if x.convert then toWindows v else v

/-- `prepend`, utils.js 278-284. The first character is never equal to an empty separator. -/
def prepend (x : Var) (v : Str) : Var :=
  let value := if x.value.length > 0 ∧ (x.separator = none ∨ x.value.head? ≠ x.separator) then x.separator.toList ++ x.value else x.value
  { x with value := added x v ++ value }

/-- `append`, utils.js 286-292 -/
def append (x : Var) (v : Str) : Var :=
  let value := if x.value.length > 0 then x.value ++ x.separator.toList else x.value
  { x with value := value ++ added x v }

/-- `set`, utils.js 294-296 -/
def set (x : Var) (e : Env) : Env := fun n => if n = x.name then some x.value else e n

/-- `unset`, utils.js 298-300 -/
def unset (x : Var) (e : Env) : Env := fun n => if n = x.name then none else e n

/-- A call of a method that adds something -/
inductive Op where
  | prepend (v : Str)
  | append (v : Str)
deriving DecidableEq, Repr

def Op.run (x : Var) : Op → Var
  | .prepend v => EnvVar.prepend x v
  | .append v => EnvVar.append x v

/-- A setup script: make the object, add things, set the variable. -/
def script (e : Env) (name : Str) (sep : Option Char) (convert : Bool) (ops : List Op) : Option Env :=
  (make e name sep convert).map fun x => set (ops.foldl Op.run x) e

end Verif.EnvVar
