import Verif.Literal.Model
/-!
# C38: JavaScript expressions

An evaluator for literals of ECMAScript: `undefined`, booleans, decimal integers, double quoted strings,
arrays and objects. Everything else is refused. Numbers are doubles, given by their (integer) values.
-/
namespace Verif.Literal

inductive JsVal where
  | undefined
  | bool (b : Bool)
  | num (n : Int)
  | str (s : Str)
  | arr (l : List JsVal)
  | obj (entries : List (Str × JsVal))

/-- The double next to an integer (ties to even). -/
def toDouble (n : Nat) : Nat :=
  if n ≤ 2 ^ 53 then n
  else
    let unit := 2 ^ (n.log2 - 52)
    let low := n / unit
    if 2 * (n % unit) < unit then low * unit
    else if 2 * (n % unit) > unit then (low + 1) * unit
    else if low % 2 = 0 then low * unit
    else (low + 1) * unit

def isLineEnd (c : Char) : Bool := c = '\n' || c = '\r'

def isSpace (c : Char) : Bool := c = ' ' || c = '\t' || isLineEnd c

/-- White space before a token. -/
def skip : Str → Str
  | [] => []
  | c :: s => if isSpace c then skip s else c :: s

/-- `SingleEscapeCharacter` and others; escapes with digits, `x` and `u` are refused. -/
def unescape (c : Char) : Option (List Char) :=
  if c = 'n' then some ['\n'] else if c = 't' then some ['\t'] else if c = 'r' then some ['\r']
  else if c = 'b' then some ['\x08'] else if c = 'f' then some ['\x0c']
  else if c = 'v' then some ['\x0b'] else if c.isDigit || c = 'x' || c = 'u' then none
  else if isLineEnd c then some [] else some [c]

/-- The rest of a string after the opening quote: its value and what follows. A line may not end
within a string. -/
def parseStr : Str → Option (Str × Str)
  | [] => none
  | c :: s =>
    if c = '"' then some ([], s)
    else if isLineEnd c then none
    else if c = '\\' then
      match s with
      | [] => none
      | e :: s' => do
        let x ← unescape e
        let (t, r) ← parseStr s'
        some (x ++ t, r)
    else do
      let (t, r) ← parseStr s
      some (c :: t, r)

/-- A decimal integer; no zeros in front of others. -/
def parseNat (s : Str) : Option (Nat × Str) :=
  let (d, r) := Digits.spanDigits s
  if d = [] then none
  else if d.head? = some '0' ∧ d ≠ ['0'] then none
  else some (toDouble (Digits.value d), r)

/-- An identifier. -/
def word (s : Str) : Str × Str := (s.takeWhile (·.isAlpha), s.dropWhile (·.isAlpha))

/-- `CreateDataProperty`, and the special role of `__proto__` in object literals (ECMAScript B.3.1): it
does not make a property. -/
def put (o : List (Str × JsVal)) (k : Str) (v : JsVal) : List (Str × JsVal) :=
  if k = "__proto__".toList then o
  else if o.any (fun e => e.1 == k) then o.map (fun e => if e.1 == k then (k, v) else e)
  else o ++ [(k, v)]

mutual
/-- An expression at the beginning of a text: its value and the rest. The number bounds the depth. -/
def parse : Nat → Str → Option (JsVal × Str)
  | 0, _ => none
  | n + 1, s =>
    match skip s with
    | [] => none
    | c :: r =>
      if c = '"' then (parseStr r).map (fun p => (.str p.1, p.2))
      else if c = '[' then
        if (skip r).head? = some ']' then some (.arr [], (skip r).tail)
        else (parseItems n r).map (fun p => (.arr p.1, p.2))
      else if c = '{' then
        if (skip r).head? = some '}' then some (.obj [], (skip r).tail)
        else (parseEntries n [] r).map (fun p => (.obj p.1, p.2))
      else if c = '-' then (parseNat r).map (fun p => (.num (-p.1), p.2))
      else if c.isDigit then (parseNat (c :: r)).map (fun p => (.num p.1, p.2))
      else if (word (c :: r)).1 = "true".toList then some (.bool true, (word (c :: r)).2)
      else if (word (c :: r)).1 = "false".toList then some (.bool false, (word (c :: r)).2)
      else if (word (c :: r)).1 = "undefined".toList then some (.undefined, (word (c :: r)).2)
      else none
/-- The elements of an array and the closing bracket. -/
def parseItems : Nat → Str → Option (List JsVal × Str)
  | 0, _ => none
  | n + 1, s =>
    match parse n s with
    | none => none
    | some (v, r) =>
      if (skip r).head? = some ']' then some ([v], (skip r).tail)
      else if (skip r).head? = some ',' then
        (parseItems n (skip r).tail).map (fun p => (v :: p.1, p.2))
      else none
/-- The entries of an object and the closing brace; `o`: what there is already. -/
def parseEntries : Nat → List (Str × JsVal) → Str → Option (List (Str × JsVal) × Str)
  | 0, _, _ => none
  | n + 1, o, s =>
    if (skip s).head? = some '"' then
      match parseStr (skip s).tail with
      | none => none
      | some (k, r) =>
        if (skip r).head? = some ':' then
          match parse n (skip r).tail with
          | none => none
          | some (v, r) =>
            if (skip r).head? = some '}' then some (put o k v, (skip r).tail)
            else if (skip r).head? = some ',' then parseEntries n (put o k v) (skip r).tail
            else none
        else none
    else none
end

/-- The value of an expression. -/
def evaluate (s : Str) : Option JsVal :=
  match parse s.length s with
  | some (v, r) => if skip r = [] then some v else none
  | none => none

mutual
/-- The JavaScript value that is the same as a variant. -/
def value : Var → JsVal
  | .invalid => .undefined
  | .bool b => .bool b
  | .int n => .num n
  | .str s => .str s
  | .list l => .arr (values l)
  | .map l => .obj (entryValues l)
  | .double _ => .undefined
  | .other _ => .undefined
def values : List Var → List JsVal
  | [] => []
  | v :: l => value v :: values l
def entryValues : List (Str × Var) → List (Str × JsVal)
  | [] => []
  | (k, v) :: l => (k, value v) :: entryValues l
end

/-- No ends of lines. -/
def OneLine (s : Str) : Prop := ∀ c ∈ s, isLineEnd c = false

mutual
/-- Variants with values in JavaScript: integers that are doubles, strings and keys without ends of
lines, different keys other than `__proto__`; no floating point numbers and other types. -/
def Good : Var → Prop
  | .invalid => True
  | .bool _ => True
  | .int n => n.natAbs ≤ 2 ^ 53
  | .str s => OneLine s
  | .list l => GoodAll l
  | .map l => (l.map (·.1)).Nodup ∧ GoodEntries l
  | .double _ => False
  | .other _ => False
def GoodAll : List Var → Prop
  | [] => True
  | v :: l => Good v ∧ GoodAll l
def GoodEntries : List (Str × Var) → Prop
  | [] => True
  | (k, v) :: l => OneLine k ∧ k ≠ "__proto__".toList ∧ Good v ∧ GoodEntries l
end

end Verif.Literal
