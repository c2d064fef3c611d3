import Verif.Common.Digits
/-!
# JavaScript literals (C38)

Model of src/lib/corelib/tools/jsliterals.cpp 50-130 (`toJSLiteral`).

Simplifications: all integer types are one. A `double` is given by its text (`QVariant::toString`),
as are other types that can be converted to a string; types that cannot by their name.
-/
namespace Verif.Literal

abbrev Str := List Char

/-- The variants that occur in settings and properties. -/
inductive Var where
  | invalid
  | bool (b : Bool)
  | int (n : Int)
  | str (s : Str)
  | list (l : List Var)
  /-- `QVariantMap`: keys are different -/
  | map (l : List (Str × Var))
  /-- a floating point number, given by its text -/
  | double (text : Str)
  /-- a type that has no conversion to a string -/
  | other (typeName : Str)

/-- `toJSLiteral(bool)`, jsliterals.cpp 50-53. -/
def litBool (b : Bool) : Str := if b then "true".toList else "false".toList

/-- `toJSLiteral(long long)`, jsliterals.cpp 55-63. -/
def litInt (n : Int) : Str :=
  if n < 0 then '-' :: Digits.number n.natAbs else Digits.number n.natAbs

/-- `js.replace(QRegularExpression("([\\\\\"])"), "\\\\1")`, jsliterals.cpp 68: the second backslash of
the replacement and the digit stand for what was found. -/
def escape : Str → Str
  | [] => []
  | c :: s => if c = '\\' ∨ c = '"' then '\\' :: c :: escape s else c :: escape s

/-- `toJSLiteral(QString)`, jsliterals.cpp 65-72. -/
def litStr (s : Str) : Str := '"' :: escape s ++ ['"']

/-- `toJSLiteral(QStringList)`, jsliterals.cpp 74-84; `first`: `i == 0`. -/
def litStrsLoop (first : Bool) : List Str → Str
  | [] => [']']
  | s :: l => (if first then [] else ", ".toList) ++ litStr s ++ litStrsLoop false l

def litStrs (l : List Str) : Str := '[' :: litStrsLoop true l

mutual
/-- `toJSLiteral(QVariant)`, jsliterals.cpp 86-130. -/
def lit : Var → Str
  | .invalid => "undefined".toList
  | .list l => '[' :: litItems [] l ++ [']']
  | .map l => '{' :: litEntries true l ++ ['}']
  | .bool b => litBool b
  | .int n => litInt n
  | .str s => litStr s
  | .double text => litStr text
  | .other name => "Unconvertible type ".toList ++ name
termination_by v => sizeOf v
/-- jsliterals.cpp 93-98: `res` is what there is already. -/
def litItems (res : Str) : List Var → Str
  | [] => res
  | v :: l => litItems ((if res.length ≠ 0 then res ++ ", ".toList else res) ++ lit v) l
termination_by l => sizeOf l
/-- jsliterals.cpp 105-109. -/
def litEntries (first : Bool) : List (Str × Var) → Str
  | [] => []
  | (k, v) :: l => (if first then [] else [',']) ++ (litStr k ++ ':' :: lit v) ++ litEntries false l
termination_by l => sizeOf l
end

end Verif.Literal
