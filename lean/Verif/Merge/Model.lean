import Verif.Common.Sort
/-!
# Merging of module property values (C44)

Model of src/lib/corelib/loader/modulepropertymerger.cpp 139-291, of
src/lib/corelib/language/value.cpp 58-113, 238-281, and of the creation of values from profiles and the
command line (src/lib/corelib/loader/moduleloader.cpp 318-331, src/lib/corelib/language/item.cpp 515-539).

Simplifications: scopes are reduced to what `calculatePriority` looks at, scope names to their rank in
the order of strings. A value's priority is computed when it is merged and cached (value.cpp 64-69), and
again after `resetPriority` in the final merge: each value has two scopes, as seen at these two times
(the length of the dependency chain to the module may grow between them, and the module may turn out not
to be present). Properties are declared and not deprecated. Checks (`QBS_CHECK`) are preconditions.
-/
namespace Verif.Merge

def intMax : Nat := 2147483647

/-- How a value was made: from source code, or a constant set internally, on the command line or by the
profile. -/
inductive Kind where
  | js | internal | commandLine | profile
deriving DecidableEq, Repr

/-- The item in which a value was set: none (the module itself), the product, a module with the
length of the longest dependency chain to it. -/
inductive Scope where
  | none | product
  | module (present : Bool) (chain : Nat)
deriving DecidableEq, Repr

/-- `Value::calculatePriority`, value.cpp 71-90. -/
def priority (k : Kind) (s : Scope) : Nat :=
  match k, s with
  | .internal, _ => intMax
  | .commandLine, _ => intMax - 1
  | .profile, _ => 2
  | .js, .none => 1
  | .js, .product => intMax - 2
  | .js, .module false _ => 0
  | .js, .module true chain => intMax - 3 - chain

structure Val where
  id : Nat
  kind : Kind
  /-- the scope at the time of merging -/
  scopeM : Scope
  /-- the scope at the time of the final merge -/
  scopeF : Scope
  /-- the scope's name -/
  name : Nat
  /-- the source code -/
  src : String
deriving DecidableEq, Repr

def Val.prioM (v : Val) : Nat := priority v.kind v.scopeM
def Val.prioF (v : Val) : Nat := priority v.kind v.scopeF

/-- `compareValuePriorities(v, w) < 0`, modulepropertymerger.cpp 139-154. -/
def less (prio : Val → Nat) (v w : Val) : Bool :=
  if prio v ≠ prio w then prio v < prio w else v.name < w.name

/-- A property of the global instance: its value and the value's candidates. -/
structure Prop' where
  value : Val
  cands : List Val
deriving DecidableEq, Repr

/-- `mergePropertyFromLocalInstance`, modulepropertymerger.cpp 179-205. -/
def mergeLocal (p : Prop') (v : Val) : Prop' :=
  if v.kind = .internal then ⟨v, []⟩
  else if p.value.kind = .internal ∨ p.value.kind = .commandLine then p
  else if less Val.prioM p.value v then ⟨v, p.cands ++ [p.value]⟩
  else ⟨p.value, p.cands ++ [v]⟩

/-- The loop in `doFinalMerge`, modulepropertymerger.cpp 232-244: priority and values. -/
def scan : Nat × List Val → List Val → Nat × List Val
  | best, [] => best
  | best, v :: l =>
    if v.prioF < best.1 then scan best l
    else if v.prioF > best.1 then scan (v.prioF, [v]) l
    else scan (best.1, best.2 ++ [v]) l

/-- `finalizeCandidates`, modulepropertymerger.cpp 281-291: expired values are removed, the others
sorted, those with higher priorities first. -/
def finalize (cs : List Val) : List Val :=
  Common.isort (fun v w => !less Val.prioF v w) (cs.filter (fun v => v.prioF ≠ 0))

/-- Result of the final merge and whether there is a warning about conflicting scalar values. -/
structure Final where
  value : Val
  cands : List Val
  warning : Bool
deriving DecidableEq, Repr

/-- `doFinalMerge`, modulepropertymerger.cpp 219-279. -/
def doFinalMerge (scalar : Bool) (p : Prop') : Final :=
  if p.value.kind ≠ .js then ⟨p.value, p.cands, false⟩
  else if p.cands.isEmpty then ⟨p.value, p.cands, false⟩
  else
    let best := scan (p.value.prioF, [p.value]) p.cands
    let chosen := best.2.headD p.value
    let warning := scalar && decide (best.2.length > 1) && best.2.tail.any (fun v => v.src != chosen.src)
    if p.value = chosen then ⟨p.value, finalize p.cands, warning⟩
    else ⟨chosen, finalize (p.cands.erase chosen ++ [p.value]), warning⟩

/-- All values set for a property are merged, in the order in which the items are visited. -/
def merged (g : Val) (vs : List Val) : Prop' := vs.foldl mergeLocal ⟨g, []⟩

def result (scalar : Bool) (g : Val) (vs : List Val) : Final := doFinalMerge scalar (merged g vs)

/-! ## Constants -/

/-- The flags of a constant. -/
structure Flags where
  profile : Bool
  commandLine : Bool
deriving DecidableEq, Repr

inductive Const where
  | undefined
  | bool (b : Bool)
  | other (n : Nat)
deriving DecidableEq, Repr

/-- The constants in memory: their flags, and the next free address. Addresses 0, 1 and 2 are those of
`invalidValue()`, `falseValue()` and `trueValue()`, value.cpp 263-281. -/
structure Heap where
  flags : Nat → Flags
  next : Nat

def Heap.empty : Heap := ⟨fun _ => ⟨false, false⟩, 3⟩

/-- `VariantValue::create`, value.cpp 238-251: the address of the value. -/
def Heap.create (h : Heap) : Const → Nat × Heap
  | .undefined => (0, h)
  | .bool false => (1, h)
  | .bool true => (2, h)
  | .other _ => (h.next, { h with next := h.next + 1 })

def Heap.set (h : Heap) (a : Nat) (f : Flags) : Heap :=
  { h with flags := fun b => if b = a then f else h.flags b }

/-- A property set by the profile, moduleloader.cpp 326-330. -/
def Heap.fromProfile (h : Heap) (c : Const) : Nat × Heap :=
  let (a, h) := h.create c
  (a, h.set a { h.flags a with profile := true })

/-- A property set on the command line, item.cpp 535-537. -/
def Heap.fromCommandLine (h : Heap) (c : Const) : Nat × Heap :=
  let (a, h) := h.create c
  (a, h.set a { h.flags a with commandLine := true })

/-- What `setInternally`, `setByCommandLine` and `setByProfile` say of a constant, value.cpp 108-111; in
the order in which they are asked. -/
def Heap.kind (h : Heap) (a : Nat) : Kind :=
  if !(h.flags a).profile && !(h.flags a).commandLine then .internal
  else if (h.flags a).commandLine then .commandLine
  else .profile

end Verif.Merge
