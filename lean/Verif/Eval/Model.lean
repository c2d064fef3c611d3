/-!
# Evaluating properties (C60, C61)

Model of src/lib/corelib/language/evaluator.cpp 335-350, 423-605 (conversion), 605-950 (`ValueEvaluator`), 980-1085 (looking
up properties), language/scriptengine.cpp 135-161, 838-858, 906-925 (scopes and errors), language/value.h 195-203.

JavaScript code is what it reads and what it makes of it; it catches no exceptions. Items and names stand for pointers and
strings. Arrays have no arrays as elements. Where chains of prototypes and scopes lead is given for each item. Conditions
of groups for bindings with the prefix `product` are left out, so is the list of dependencies between properties. A value
belongs to one item and one name.
-/
namespace Verif.Eval

abbrev Name := String
abbrev Item := Nat

inductive Atom
  | undef
  | null
  | bool (b : Bool)
  | num (n : Int)
  | str (s : String)
  | item (i : Item)
deriving DecidableEq, Repr

inductive Js
  | atom (a : Atom)
  | arr (l : List Atom)
deriving DecidableEq, Repr

abbrev undef : Js := .atom .undef

/-- A value, or none: `JS_UNINITIALIZED`. -/
abbrev Res := Option Js

/-- `JS_ToBool` -/
def truthy : Res → Bool
  | some (.atom .undef) => false
  | some (.atom .null) => false
  | some (.atom (.bool b)) => b
  | some (.atom (.num n)) => n ≠ 0
  | some (.atom (.str s)) => s ≠ ""
  | _ => true

/-- `PropertyDeclaration::Type` -/
inductive Ty
  | unknown
  | bool
  | int
  | path
  | string
  | var
  | paths
  | strings
  | vars
deriving DecidableEq, Repr

/-- `PropertyDeclaration::isScalar`, language/propertydeclaration.cpp 137-141. -/
def Ty.scalar (t : Ty) : Bool := t ≠ .paths && t ≠ .strings && t ≠ .vars

/-- What code does: it ends with a value or an exception, or looks up a name in the scopes or in an item and goes on with
    what it finds there. -/
inductive Code
  | ret (r : Res)
  | fail
  | read (n : Name) (k : Res → Code)
  | member (i : Item) (n : Name) (k : Res → Code)

/-- A scope: an object with variables, or an item. -/
inductive Scope
  | vars (l : List (Name × Res))
  | item (i : Item)

/-- What is known about a value with source code. Scopes are listed from the outermost on. -/
structure Head where
  id : Nat
  code : Code
  usesBase : Bool := false
  usesOuter : Bool := false
  usesOriginal : Bool := false
  /-- created by a Properties item -/
  byBlock : Bool := false
  /-- the Properties item's condition is `undefined` -/
  fallback : Bool := false
  hasScope : Bool := false
  scopes : List Scope := []
  fileScope : List Scope := []
  imports : List (Name × Res) := []

mutual
/-- Values: source code with the value in the base item, alternatives and candidates, or constants, or items. -/
inductive Value
  | source (h : Head) (base : Base) (alts : Alts) (cands : Values)
  | variant (j : Js)
  | item (i : Item)
inductive Base
  | none
  | some (v : Value)
/-- Alternatives: the condition, `overrideListProperties`, the value. -/
inductive Alts
  | nil
  | cons (cond over : Code) (h : Head) (base : Base) (more : Alts)
inductive Values
  | nil
  | cons (v : Value) (more : Values)
end

def Value.hasScope : Value → Bool
  | .source h _ _ _ => h.hasScope
  | _ => false

/-- The items -/
structure World where
  /-- the item and its prototypes, as far as they are searched for properties -/
  protos : Item → List Item
  parent : Item → Option Item
  /-- the scope of the item, the scope of this scope and so on, from the outermost on -/
  scopes : Item → List Scope
  outer : Item → Option Item
  /-- a module instance, or a placeholder for one -/
  inst : Item → Bool
  /-- a placeholder for a module instance: conditions that cannot be evaluated are ignored -/
  swallow : Item → Bool
  value : Item → Name → Option Value
  ty : Item → Name → Ty
  /-- `FileInfo::resolvePath` and `QDir::cleanPath` -/
  resolve : String → String

/-! ## Conversion -/

/-- Elements of lists of strings and paths, 505-545. -/
def elems (f : String → String) : List Atom → Option (List Atom)
  | [] => some []
  | .str s :: l => (elems f l).map (.str (f s) :: ·)
  | _ :: _ => none

def toArr : Js → List Atom
  | .atom a => [a]
  | .arr l => l

/-- `convertToPropertyType_impl` with `ConversionType::Full`, 423-605: `none` is an error. -/
def convert (resolve : String → String) (t : Ty) (r : Res) : Option Res :=
  match r with
  | none => some none
  | some j =>
    if j = undef then some (some j)
    else match t with
      | .unknown | .var => some (some j)
      | .bool => some (some (.atom (.bool (truthy (some j)))))
      | .int => match j with
        | .atom (.num n) => some (some (.atom (.num n)))
        | _ => none
      | .string => match j with
        | .atom (.str s) => some (some (.atom (.str s)))
        | _ => none
      | .path => match j with
        | .atom (.str s) => some (some (.atom (.str (resolve s))))
        | _ => none
      | .strings => (elems id (toArr j)).map (fun l => some (.arr l))
      | .paths => (elems resolve (toArr j)).map (fun l => some (.arr l))
      | .vars => some (some (.arr (toArr j)))

/-- The type of elements, 438-450. -/
def Ty.elem : Ty → Ty
  | .strings => .string
  | .paths => .path
  | .vars => .var
  | t => t

/-- The same with `ConversionType::ElementsOnly`: if it is no array, it is converted as an element before. -/
def convertElems (resolve : String → String) (t : Ty) (r : Res) : Option Res :=
  match r with
  | some (.atom a) =>
    if t.scalar then convert resolve t r
    else (convert resolve t.elem (some (.atom a))).bind (convert resolve t)
  | _ => convert resolve t r

/-! ## State -/

/-- Whether there is an error (`m_jsError`), which values are exclusive (`ExclusiveListValue`), and more. -/
structure St (σ : Type) where
  err : Bool
  excl : List Nat
  more : σ

abbrev M (σ α : Type) := St σ → α × St σ

def M.pure {σ α : Type} (a : α) : M σ α := fun s => (a, s)
def M.bind {σ α β : Type} (m : M σ α) (f : α → M σ β) : M σ β := fun s => f (m s).1 (m s).2

instance {σ : Type} : Monad (M σ) where
  pure := M.pure
  bind := M.bind

/-- `setJsError` -/
def setErr {σ : Type} : M σ Unit := fun s => ((), { s with err := true })
def clearErr {σ : Type} : M σ Unit := fun s => ((), { s with err := false })
/-- `checkForJsError` -/
def getErr {σ : Type} : M σ Bool := fun s => (s.err, s)
def setExcl {σ : Type} (n : Nat) : M σ Unit := fun s => ((), { s with excl := n :: s.excl })
def getExcl {σ : Type} (n : Nat) : M σ Bool := fun s => (s.excl.contains n, s)

/-- What comes of looking up a property: a value, nothing, or an exception. -/
inductive Found
  | val (r : Res)
  | missing
  | exc
deriving DecidableEq, Repr

/-- How properties of items are looked up -/
abbrev Reader (σ : Type) := Item → Name → M σ Found

/-! ## Running code -/

/-- `doExtraScopeLookup`, scriptengine.cpp 135-161: the innermost scope comes first here. -/
def lookup {σ : Type} (rd : Reader σ) (n : Name) : List Scope → M σ Found
  | [] => pure .missing
  | .vars l :: more =>
    match l.lookup n with
    | some r => pure (.val r)
    | none => lookup rd n more
  | .item i :: more => do
    match ← rd i n with
    | .missing => lookup rd n more
    | f => pure f

/-- `ScriptEngine::evaluate`, scriptengine.cpp 838-858, and `checkForJsError` after it: an exception becomes an error. -/
def run {σ : Type} (rd : Reader σ) (scopes : List Scope) : Code → M σ Res
  | .ret r => pure r
  | .fail => do
    setErr
    pure none
  | .read n k => do
    match ← lookup rd n scopes with
    | .val r => run rd scopes (k r)
    | _ => do
      setErr
      pure none
  | .member i n k => do
    match ← rd i n with
    | .val r => run rd scopes (k r)
    | .missing => run rd scopes (k (some undef))
    | .exc => do
      setErr
      pure none

/-- `ValueEvaluator`, 605-630: the object, the item, the item that has the property, the name and the type. -/
structure Env where
  obj : Item
  item : Item
  owner : Item
  name : Name
  ty : Ty

/-- `setupConvenienceProperty`, 627-642. -/
def convenience (t : Ty) (r : Res) : Res :=
  if (t = .strings ∨ t = .paths ∨ t = .var ∨ t = .vars) ∧ (r = none ∨ r = some undef) then some (.arr []) else r

/-- `base` in `createExtraScope`, 647-660. The argument evaluates the value in the base item. -/
def baseVars {σ : Type} (e : Env) (h : Head) (base : M σ Res) : M σ (List (Name × Res)) :=
  if h.usesBase then do
    let b ← base
    pure [("base", convenience e.ty b)]
  else pure []

/-- `outer` in `createExtraScope`, 661-677; `none` if there is an error. -/
def outerVars {σ : Type} (rd : Reader σ) (e : Env) (h : Head) (outerItem : Option Item) (outerValue : Option Res) :
    M σ (Option (List (Name × Res))) :=
  if h.usesOuter then
    match outerItem with
    | some o => do
      match ← rd o e.name with
      | .val r => do
        if ← getErr then pure none else pure (some [("outer", convenience e.ty r)])
      | .missing => do
        if ← getErr then pure none else pure (some [("outer", convenience e.ty (some undef))])
      | .exc => do
        setErr
        pure none
    | none =>
      match outerValue with
      | some r => pure (some [("outer", convenience e.ty r)])
      | none => pure (some [])
  else pure (some [])

/-- `original` in `createExtraScope`, 678-721. `orig` evaluates the value to be used, if there is one. -/
def originalVars {σ : Type} (w : World) (e : Env) (h : Head) (orig : Option (M σ Res)) : M σ (List (Name × Res)) :=
  if h.usesOriginal then
    if e.ty.scalar then
      if w.inst e.owner && h.hasScope then
        match orig with
        | some act => do
          let r ← act
          pure [("original", convenience e.ty r)]
        | none => do
          setErr
          pure []
      else do
        setErr
        pure []
    else pure [("original", convenience e.ty (some (.arr [])))]
  else pure []

/-- `createExtraScope`, 644-723. -/
def extraScope {σ : Type} (w : World) (rd : Reader σ) (e : Env) (h : Head) (base : M σ Res) (orig : Option (M σ Res))
    (outerItem : Option Item) (outerValue : Option Res) : M σ (List (Name × Res)) := do
  let vars1 ← baseVars e h base
  match ← outerVars rd e h outerItem outerValue with
  | none => pure []
  | some l => do
    let vars3 ← originalVars w e h orig
    pure (vars3 ++ l ++ vars1)

/-- The scopes, 866-880, the innermost first. -/
def scopeChain (w : World) (e : Env) (h : Head) (extra : List (Name × Res)) : List Scope :=
  .vars h.imports :: .vars extra :: (h.scopes.reverse ++
    (if w.inst e.owner = false ∨ h.hasScope = false then [.item e.obj] else []) ++
    (w.scopes e.item).reverse ++ h.fileScope.reverse)

/-- `evaluateJSSourceValue` without an alternative, 847-880, 925-930. -/
def evalSource {σ : Type} (w : World) (rd : Reader σ) (e : Env) (h : Head) (base : M σ Res) (orig : Option (M σ Res))
    (outerItem : Option Item) : M σ Res := do
  let extra ← extraScope w rd e h base orig outerItem none
  if ← getErr then pure none
  else run rd (scopeChain w e h extra) h.code

/-- The condition of an alternative, 881-890. -/
def condValue {σ : Type} (rd : Reader σ) (scopes : List Scope) (h : Head) (cond : Code) : M σ Res :=
  if h.fallback then pure (some (.atom (.bool true))) else run rd scopes cond

/-- `setIsExclusiveListValue`, 917-923. -/
def markExclusive {σ : Type} (top : Nat) (o : Res) : M σ Unit := if truthy o then setExcl top else pure ()

/-- `evaluateJSSourceValue` for an alternative, 847-930. `top` is the value that the alternative belongs to. -/
def evalAlt {σ : Type} (w : World) (rd : Reader σ) (e : Env) (top : Nat) (cond over : Code) (h : Head) (base : M σ Res)
    (orig : Option (M σ Res)) (outerValue : Res) : M σ Res := do
  let extra ← extraScope w rd e h base orig (w.outer e.owner) (some outerValue)
  if ← getErr then pure none
  else
    let scopes := scopeChain w e h extra
    let c ← condValue rd scopes h cond
    if ← getErr then
      if w.swallow e.owner then do
        clearErr
        pure (some undef)
      else pure none
    else if truthy c = false then pure none
    else
      let o ← run rd scopes over
      if ← getErr then pure none
      else
        markExclusive top o
        run rd scopes h.code

/-- `mergeValues`, 719-737. -/
def mergeValues (l : List Js) : Js := .arr (l.flatMap toArr)

/-- The unconditional value as `outer` for alternatives, 745-753; `own` evaluates it without outer item. -/
def nextOuter {σ : Type} (w : World) (e : Env) (h : Head) (own : M σ Res) (outerValue : Res) : M σ Res :=
  if h.usesOuter && (w.outer e.owner).isNone && outerValue == some undef then own else pure outerValue

/-- What comes of the alternatives: a result, or a list of values so far. -/
inductive AltOut
  | done (r : Res)
  | list (l : List Js)

/-- The end of `handleAlternatives`, 769-785. -/
def finishAlts {σ : Type} (e : Env) (byBlock : Bool) (own : M σ Res) (lst : List Js) : M σ Res :=
  if lst.isEmpty || !byBlock then do
    let v ← own
    if ← getErr then pure none
    else if e.ty.scalar then pure v
    else
      let lst' := match v with
        | some j => if j = undef then lst else lst ++ [j]
        | none => lst
      pure (if lst'.isEmpty then none else some (mergeValues lst'))
  else pure (if lst.isEmpty then none else some (mergeValues lst))

/-- `handleAlternatives`, 735-785, after the loop. -/
def altsResult {σ : Type} (e : Env) (byBlock : Bool) (own : M σ Res) : AltOut → M σ Res
  | .done r => pure r
  | .list l => finishAlts e byBlock own l

/-- `convertToPropertyType`, 570-590, with errors: -/
def conv {σ : Type} (f : Res → Option Res) (r : Res) : M σ Res :=
  match f r with
  | some r' => pure r'
  | none => do
    setErr
    pure none

/-- `eval`, 622-632, after the value has been handled; a constant that is undefined is an empty list. -/
def finish {σ : Type} (w : World) (e : Env) (isVariant : Bool) (r : Res) : M σ Res := do
  if ← getErr then pure (some undef)
  else
    let r' := match r with
      | none => some undef
      | r => r
    if isVariant = true ∧ r' = some undef ∧ e.ty.scalar = false then pure (some (.arr []))
    else conv (convert w.resolve e.ty) r'

def Value.isVariant : Value → Bool
  | .variant _ => true
  | _ => false

/-- Which value `original` stands for: that of the value itself, or a given one. -/
inductive Orig (σ : Type)
  | own
  | given (o : Option (M σ Res))

def pickOrig {σ : Type} (o : Orig σ) (own : Option (M σ Res)) : Option (M σ Res) :=
  match o with
  | .own => own
  | .given a => a

mutual
/-- `doHandle`, 813-833, 932-945. The value for `original` is that of the value which is being evaluated. -/
def handle {σ : Type} (w : World) (rd : Reader σ) (e : Env) (orig0 : Orig σ) : Value → M σ Res
  | .variant j => pure (some j)
  | .item i => pure (some (.atom (.item i)))
  | .source h base alts cands => do
    let orig := pickOrig orig0 (originalOf w rd e cands)
    let baseAct := evalBase w rd e base
    let own := fun o => evalSource w rd e h baseAct orig o
    let x ← handleAlts w rd e orig h.id (own none) (some undef) [] alts
    let r ← altsResult e h.byBlock (own (w.outer e.owner)) x
    if ← getErr then pure none
    else
      let ex ← getExcl h.id
      if r.isSome && ex then pure r
      else if e.ty.scalar then
        if r.isSome || !h.byBlock then pure r else firstCandidate w rd e orig cands
      else
        match cands with
        | .nil => pure r
        | _ =>
          let start := match r with
            | some j => if j = undef then [] else [j]
            | none => []
          match ← mergeCandidates w rd e orig start cands with
          | none => pure none
          | some [] => pure r
          | some l => pure (some (mergeValues l))

/-- `ValueEvaluator::eval` for the value in the base item, 648-658. -/
def evalBase {σ : Type} (w : World) (rd : Reader σ) (e : Env) : Base → M σ Res
  | .none => pure none
  | .some v => do
    let r ← handle w rd e .own v
    finish w e v.isVariant r

/-- The loop in `handleAlternatives`, 739-768. `own` is the unconditional value without outer item. -/
def handleAlts {σ : Type} (w : World) (rd : Reader σ) (e : Env) (orig : Option (M σ Res)) (top : Nat) (own : M σ Res)
    (outerValue : Res) (lst : List Js) : Alts → M σ AltOut
  | .nil => pure (.list lst)
  | .cons cond over h base more => do
    if h.fallback && !lst.isEmpty then pure (.list lst)
    else
      let ov ← nextOuter w e h own outerValue
      if ← getErr then pure (.done none)
      else
        let v ← evalAlt w rd e top cond over h (evalBase w rd e base) orig ov
        if ← getErr then pure (.done none)
        else
          match v with
          | none => handleAlts w rd e orig top own ov lst more
          | some j =>
            if e.ty.scalar then pure (.done v)
            else handleAlts w rd e orig top own ov (if j = undef then lst else lst ++ [j]) more

/-- The candidates if a scalar value of a Properties item does not apply, 822-831. -/
def firstCandidate {σ : Type} (w : World) (rd : Reader σ) (e : Env) (orig : Option (M σ Res)) : Values → M σ Res
  | .nil => pure none
  | .cons v more => do
    let r ← handle w rd e (.given orig) v
    if r.isSome then pure r else firstCandidate w rd e orig more

/-- `mergeWithCandidates`, 787-811; `none` if there is an error. -/
def mergeCandidates {σ : Type} (w : World) (rd : Reader σ) (e : Env) (orig : Option (M σ Res)) (lst : List Js) :
    Values → M σ (Option (List Js))
  | .nil => pure (some lst)
  | .cons v more => do
    let r ← handle w rd e (.given orig) v
    if ← getErr then pure none
    else
      match r with
      | none => mergeCandidates w rd e orig lst more
      | some j =>
        if j = undef then mergeCandidates w rd e orig lst more
        else
          let r' ← conv (convertElems w.resolve e.ty) r
          mergeCandidates w rd e orig (lst ++ (r'.toList)) more

/-- The value for `original`: the first candidate that has no scope, 690-710. -/
def originalOf {σ : Type} (w : World) (rd : Reader σ) (e : Env) : Values → Option (M σ Res)
  | .nil => none
  | .cons v more =>
    if v.hasScope then originalOf w rd e more
    else some (do
      let r ← handle w rd e .own v
      finish w e v.isVariant r)
end

/-- `ValueEvaluator::eval`, 622-632. -/
def evalTop {σ : Type} (w : World) (rd : Reader σ) (e : Env) (v : Value) : M σ Res := do
  let r ← handle w rd e .own v
  finish w e v.isVariant r

/-! ## Looking up properties -/

/-- The item that has the property, 983-993, 1062-1071: in the item and its prototypes, then in the parent and its
    prototypes. -/
def World.find (w : World) (i : Item) (n : Name) : Option (Item × Item × Value) :=
  let own := fun o => (w.value o n).map (fun v => (o, v))
  match (w.protos i).findSome? own with
  | some (o, v) => some (i, o, v)
  | none =>
    match w.parent i with
    | none => none
    | some p => ((w.protos p).findSome? own).map (fun (o, v) => (p, o, v))

/-- The cache: values by item and name -/
abbrev Cache := List ((Item × Name) × Res)

def getCache (on : Bool) (i : Item) (n : Name) : M Cache (Option Res) :=
  fun s => (if on then s.more.lookup (i, n) else none, s)
/-- Values are recorded here even if caching is disabled, but never used then; caching is not enabled or disabled in between. -/
def setCache (i : Item) (n : Name) (r : Res) : M Cache Unit := fun s => ((), { s with more := ((i, n), r) :: s.more })

/-- `getEvalProperty`, 980-1085. `on` tells if values are cached, `stack` is the stack of properties being evaluated; `bot` is what happens if the number
    of nested evaluations is used up. A property that is on the stack already makes for an exception, 952-972. -/
def getProperty (w : World) (on : Bool) (bot : Reader Cache) : Nat → List (Item × Name) → Reader Cache
  | 0, _ => bot
  | k + 1, stack => fun i n =>
    if n = "parent" then pure (.val (some (.atom (match w.parent i with | some p => .item p | none => .undef))))
    else
      match w.find i n with
      | none => pure .missing
      | some (obj, owner, v) =>
        if stack.contains (owner, n) then do
          setErr
          pure .exc
        else do
          let cached ← getCache on i n
          match cached with
          | some r => pure (.val r)
          | none => do
            let r ← evalTop w (getProperty w on bot k ((owner, n) :: stack)) ⟨obj, i, owner, n, w.ty owner n⟩ v
            setCache i n r
            pure (.val r)

/-- What the loader gets, 241-262 (`evaluateProperty`, `handleEvaluationError`): a value or an error. -/
def evaluate (w : World) (on : Bool) (bot : Reader Cache) (k : Nat) (i : Item) (n : Name) (excl : List Nat) (c : Cache) :
    Option Res × List Nat × Cache :=
  let r := getProperty w on bot k [] i n ⟨false, excl, c⟩
  (if r.2.err then none
   else match r.1 with
     | .val v => some v
     | .missing => some (some undef)
     | .exc => none, r.2.excl, r.2.more)

end Verif.Eval
