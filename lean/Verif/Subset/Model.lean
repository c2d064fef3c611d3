/-!
# Which products are built, and their priorities (C46)

Model of `setProducts`, `setupAuxiliaryProducts` and `ProductPrioritySetter`,
src/lib/corelib/buildgraph/executor.cpp 165-245, of the flag for partial builds, 149, and its use, 975-988,
of the comparison of priorities, 82-85, and of the total effort, 771-782.

Products are numbers. The recursions need no bound in the code, as the loader refuses circular
dependencies; here they get fuel, and the theorems hold for all sufficiently large fuel. A `QHash` is a list
of entries, in any order.
-/
namespace Verif.Subset

abbrev Product := Nat

/-- `ProductDependency`, language.h. -/
structure Dep where
  product : Product
  minimal : Bool
deriving DecidableEq, Repr

/-- `dependencies[p]` with its new value, executor.cpp 185-187. -/
def touch (acc : List (Product × Bool)) (p : Product) (full : Bool) : List (Product × Bool) :=
  if acc.any (·.1 == p) then acc.map (fun e => if e.1 == p then (e.1, e.2 || full) else e)
  else acc ++ [(p, full)]

/-- `addDependency`, executor.cpp 183-190. -/
def addDependency (deps : Product → List Dep) : Nat → Product → Bool → List (Product × Bool) →
    List (Product × Bool)
  | 0, _, _, acc => acc
  | fuel + 1, p, minimal, acc =>
    (deps p).foldl (fun acc d => addDependency deps fuel d.product (minimal || d.minimal) acc)
      (touch acc p (!minimal))

/-- The number of calls of `addDependency` that a call makes, itself included. -/
def calls (deps : Product → List Dep) : Nat → Product → Nat
  | 0, _ => 0
  | fuel + 1, p => 1 + ((deps p).map (fun d => calls deps fuel d.product)).sum

structure Products where
  primary : List Product
  buildable : List Product
deriving DecidableEq, Repr

/-- The dependencies that are collected, executor.cpp 181-195. -/
def collect (deps : Product → List Dep) (fuel : Nat) (requested : List Product) : List (Product × Bool) :=
  requested.foldl (fun acc p =>
    (deps p).foldl (fun acc d => addDependency deps fuel d.product d.minimal acc) acc) []

/-- `setupAuxiliaryProducts`, executor.cpp 174-203. -/
def setup (deps : Product → List Dep) (fuel : Nat) (all requested : List Product) : Products :=
  if requested.length = all.length then ⟨requested, requested⟩
  else
    let c := collect deps fuel requested
    ⟨requested ++ (c.filter (·.2)).map (·.1), requested ++ c.map (·.1)⟩

/-- `m_partialBuild`, executor.cpp 149. -/
def partialBuild (all : List Product) (s : Products) : Bool := s.primary.length != all.length

/-- `checkNodeProduct`, executor.cpp 975-988: is a node of the product considered in the build? -/
def considered (all : List Product) (s : Products) (p : Product) : Bool :=
  !partialBuild all s || s.buildable.contains p

/-- `setupProgressObserver`, executor.cpp 771-782; `rules` is the number of a product's rule nodes. -/
def totalEffort (rules : Product → Nat) (s : Products) : Nat := 1 + (s.buildable.map rules).sum

/-! ## Priorities -/

/-- `UINT_MAX` -/
def uintMax : Nat := 4294967295

structure PState where
  seen : List Product
  next : Nat
  prio : Product → Option Nat

/-- `setBuildPriority(m_priority--)`, executor.cpp 238-240; unsigned numbers wrap around. -/
def assign (hasData : Product → Bool) (p : Product) (s : PState) : PState :=
  if hasData p then
    ⟨s.seen, if s.next = 0 then uintMax else s.next - 1, fun q => if q = p then some s.next else s.prio q⟩
  else s

/-- `traverse`, executor.cpp 232-241. -/
def traverse (deps : Product → List Dep) (hasData : Product → Bool) : Nat → PState → Product → PState
  | 0, s, _ => s
  | fuel + 1, s, p =>
    if s.seen.contains p then s
    else assign hasData p ((deps p).foldl (fun s d => traverse deps hasData fuel s d.product)
      ⟨p :: s.seen, s.next, s.prio⟩)

/-- The root products, executor.cpp 218-225. -/
def roots (deps : Product → List Dep) (all : List Product) : List Product :=
  all.filter (fun p => !(all.any (fun q => (deps q).any (·.product == p))))

/-- `apply`, executor.cpp 216-230; products had no priority before (it is unset or from an earlier build). -/
def priorities (deps : Product → List Dep) (hasData : Product → Bool) (fuel : Nat) (all : List Product) :
    Product → Option Nat :=
  ((roots deps all).foldl (traverse deps hasData fuel) ⟨[], uintMax, fun _ => none⟩).prio

/-- The queue of the leaves gives one of the nodes whose product has the highest priority
(`ComparePriority`, executor.cpp 82-85). -/
def MayBeNext (prio : Product → Option Nat) (leaves : List Product) (p : Product) : Prop :=
  p ∈ leaves ∧ ∀ q ∈ leaves, ∀ a b, prio q = some a → prio p = some b → a ≤ b

end Verif.Subset
