/-! # The validator of properties

`PropertyValidator` in share/qbs/imports/qbs/ModUtils/utils.js 305-424, which modules use to check their properties.

Simplifications: names of properties are such that objects have no property of this name from the beginning (`constructor`, for
instance) and do not look like numbers, so that objects keep the order in which names were added. Messages for the user are texts given
with the calls; validators given as functions are functions here. -/

namespace Verif.Validator

abbrev Str := List Char

/-- A number of JavaScript; finite ones are multiples of 2^-1074. Zero has no sign here, which none of the operations can tell. -/
inductive Num where
  | nan
  | inf (negative : Bool)
  | fin (k : Int)
deriving DecidableEq, Repr

/-- How many of the units of `Num.fin` are 1 -/
def unit : Int := 2 ^ 1074

inductive Value where
  | undefined
  | null
  | bool (b : Bool)
  | num (x : Num)
  | str (s : Str)
  | list (l : List Str)
deriving DecidableEq, Repr

/-- `a < b` for numbers (JavaScript) -/
def lt : Num → Num → Bool
  | .nan, _ => false
  | _, .nan => false
  | .inf a, .inf b => a && !b
  | .inf a, .fin _ => a
  | .fin _, .inf b => !b
  | .fin a, .fin b => a < b

/-- `value % 1 !== 0` (JavaScript): also true for numbers that are not finite, where the remainder is not a number -/
def hasFraction : Num → Bool
  | .fin k => k % unit != 0
  | _ => true

/-- The function of `addRangeValidator`, utils.js 324-334 -/
def rangeValid (min max : Option Num) (allowFloats : Bool) : Value → Bool
  | .num x =>
    if !allowFloats && hasFraction x then false
    else if min.any (fun m => lt x m) then false
    else if max.any (fun m => lt m x) then false
    else true
  | _ => false

/-! ## Versions -/

def isDigit (c : Char) : Bool := '0' ≤ c && c ≤ '9'

/-- What can be left of the text after `[0-9]+` -/
def plus : Str → List Str
  | [] => []
  | c :: s => if isDigit c then s :: plus s else []

/-- What can be left after `\.[0-9]+` -/
def dotPlus : Str → List Str
  | [] => []
  | c :: s => if c = '.' then plus s else []

/-- What can be left after `(\.[0-9]+){n}` -/
def times : Nat → Str → List Str
  | 0, s => [s]
  | n + 1, s => (dotPlus s).flatMap (times n)

/-- Does `^[0-9]+(\.[0-9]+){lo,hi}`, followed by `$` if `anchored`, match? Without `hi` there is no upper bound; the text bounds the number
of repetitions. -/
def matchVersion (lo : Nat) (hi : Option Nat) (anchored : Bool) (s : Str) : Bool :=
  (plus s).any fun r => (List.range (s.length + 1)).any fun n =>
    decide (lo ≤ n) && hi.all (fun h => decide (n ≤ h)) && (times n r).any (fun t => !anchored || t.isEmpty)

/-- `(minComponents - 1) || 0`, utils.js 347 -/
def lowerBound (min : Option Nat) : Nat := (min.map (· - 1)).getD 0

/-- `(maxComponents - 1) || ""`, utils.js 347: zero counts as false, and the bound is missing then. -/
def upperBound (max : Option Nat) : Option Nat :=
  match max with
  | none => none
  | some m => if m - 1 = 0 then none else some (m - 1)

/-- The tests of the arguments of `addVersionValidator`, utils.js 339-342; `false` is an exception. A comparison with undefined is
false. (A maximum of 0 without a minimum, which is not refused and gives a meaningless expression, is left out.) -/
def boundsOk (min max : Option Nat) : Bool :=
  min.all (fun a => decide (1 ≤ a)) && max.all (fun b => min.all (fun a => decide (a ≤ b)))

/-- The function of `addVersionValidator`, utils.js 344-347 -/
def versionValid (min max : Option Nat) (allowSuffixes : Bool) : Value → Bool
  | .str s => s != [] && matchVersion (lowerBound min) (upperBound max) (!allowSuffixes) s
  | _ => false

/-! ## File names -/

/-- `[/?<>\\:*|"\u0000-\u001f\u0080-\u009f]`, utils.js 356 -/
def reserved (c : Char) : Bool :=
  c ∈ ['/', '?', '<', '>', '\\', ':', '*', '|', '"'] || decide (c.toNat ≤ 0x1f) || (decide (0x80 ≤ c.toNat) && decide (c.toNat ≤ 0x9f))

/-- The function of `addFileNameValidator`, utils.js 355-357, for texts -/
def fileNameValid (s : Str) : Bool := !s.any reserved && s != ['.'] && s != ['.', '.']

/-! ## Validation -/

/-- `propertyValue === undefined || propertyValue === null || propertyValue === ""`, utils.js 378 -/
def isMissing : Value → Bool
  | .undefined => true
  | .null => true
  | .str s => s.isEmpty
  | _ => false

/-- Setting a property of an object: a new one comes last, others keep their place. -/
def put {β : Type} (l : List (Str × β)) (k : Str) (v : β) : List (Str × β) :=
  match l with
  | [] => [(k, v)]
  | (k', v') :: l => if k' = k then (k, v) :: l else (k', v') :: put l k v

/-- `invalidProperties[v.propertyName]` with one message more, utils.js 388-390 -/
def addMessage (l : List (Str × List Str)) (k m : Str) : List (Str × List Str) :=
  match l with
  | [] => [(k, [m])]
  | (k', ms) :: l => if k' = k then (k, ms ++ [m]) :: l else (k', ms) :: addMessage l k m

/-- A call of `addCustomValidator`, utils.js 361-368 -/
structure Check where
  name : Str
  value : Value
  validator : Value → Bool
  message : Str

/-- A call of `setRequiredProperty`, utils.js 313-315 -/
structure Required where
  name : Str
  value : Value
  message : Option Str
deriving DecidableEq, Repr

/-- The object `requiredProperties` after the calls -/
def requiredMap (rs : List Required) : List (Str × (Value × Option Str)) :=
  rs.foldl (fun l r => put l r.name (r.value, r.message)) []

/-- A line of the error message: the name and the text after the colon, if any -/
abbrev Line := Str × Option Str

/-- Lines for missing properties, utils.js 374-381, 395-403 -/
def missingLines (rs : List Required) : List Line :=
  ((requiredMap rs).filter (fun p => isMissing p.2.1)).map fun p =>
    (p.1, match p.2.2 with | none => none | some m => if m = [] then none else some m)

/-- `invalidProperties`, utils.js 383-392 -/
def invalidMap (cs : List Check) : List (Str × List Str) :=
  cs.foldl (fun l c => if c.validator c.value then l else addMessage l c.name c.message) []

/-- Lines for properties with invalid values, utils.js 405-416 -/
def invalidLines (cs : List Check) : List Line :=
  (invalidMap cs).flatMap fun p => p.2.map fun m => (p.1, some m)

inductive Result where
  | returned (valid : Bool)
  | thrown (missing invalid : List Line)
deriving DecidableEq, Repr

/-- `validate`, utils.js 370-422; `throwOnError` is whether the argument is not `false`. -/
def validate (rs : List Required) (cs : List Check) (throwOnError : Bool) : Result :=
  let empty := (missingLines rs).isEmpty && (invalidLines cs).isEmpty
  if throwOnError && !empty then .thrown (missingLines rs) (invalidLines cs) else .returned empty

end Verif.Validator
