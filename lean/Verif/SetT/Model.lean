import Mathlib.Order.Defs.LinearOrder
import Mathlib.Order.Nat

/-!
# Model of `qbs::Internal::Set<T>` (src/lib/corelib/tools/set.h)

`Set<T>` is a `std::vector<T>` that is meant to be sorted and duplicate free.  The model is a
`List α` over a linear order (`T::operator<` is assumed to be a strict total order whose induced
equality is `T::operator==`).  Iterators become splits of the list.

`std::lower_bound`, `std::binary_search`, `std::sort` and `std::unique` are modelled by the result
the C++ standard specifies for sorted input (first position not less than the value, ...); their
internal algorithm is not modelled.
-/

namespace Verif.SetT

variable {α : Type _} [LinearOrder α]

/-- `std::sort(m_data.begin(), m_data.end())`, set.h:160.  Modelled as insertion of each element in
order; any sorting algorithm gives the same list for a total order. -/
def sort : List α → List α
  | [] => []
  | a :: as =>
    let rec ins (a : α) : List α → List α
      | [] => [a]
      | b :: bs => if b < a then b :: ins a bs else a :: b :: bs
    ins a (sort as)

/-- `std::unique` followed by the `erase` of the tail, set.h:172-173. -/
def uniq : List α → List α
  | [] => []
  | [a] => [a]
  | a :: b :: bs => if a = b then uniq (b :: bs) else a :: uniq (b :: bs)

/-- `Set::Set(const std::initializer_list<T> &)`, set.h:169-174. -/
def ofInit (l : List α) : List α := uniq (sort l)

/-- `Set::Set(InputIterator, InputIterator)`, set.h:176-183.  Sorts, but does *not* drop
duplicates. -/
def ofRange (l : List α) : List α := sort l

/-- `std::lower_bound(first, last, v)` on the range `l`: the elements before and from the found
position (set.h:207, 252, 266, 332). -/
def lowerBound (v : α) : List α → List α × List α
  | [] => ([], [])
  | a :: as => if a < v then ((a :: (lowerBound v as).1), (lowerBound v as).2) else ([], a :: as)

/-- `Set::insert`, set.h:205-211.  Second component: the `bool` of the returned pair. -/
def insert (l : List α) (v : α) : List α × Bool :=
  match lowerBound v l with
  | (pre, []) => (pre ++ [v], true)
  | (pre, a :: as) => if v < a then (pre ++ v :: a :: as, true) else (pre ++ a :: as, false)

/-- `Set::remove`, set.h:264-272. -/
def remove (l : List α) (v : α) : List α × Bool :=
  match lowerBound v l with
  | (pre, []) => (pre, false)
  | (pre, a :: as) => if v < a then (pre ++ a :: as, false) else (pre ++ as, true)

/-- `Set::contains(const T &)` via `std::binary_search`, set.h:125: the element at the lower bound
exists and is not greater than `v`. -/
def containsElem (l : List α) (v : α) : Bool :=
  match lowerBound v l with
  | (_, []) => false
  | (_, a :: _) => !(decide (v < a))

/-- The loop of `Set::intersect`, set.h:189-201.  The elements already passed by `it` are emitted
in front of the recursive result. -/
def intersect : List α → List α → List α
  | [], _ => []
  | _ :: _, [] => []
  | a :: as, b :: bs =>
    if a < b then intersect as (b :: bs)
    else if ¬ (b < a) then a :: intersect as bs
    else intersect (a :: as) bs
termination_by l m => l.length + m.length

/-- `Set::contains(const Set<T> &other)`, set.h:213-225 (`l` is `*this`, `m` is `other`). -/
def containsSet : List α → List α → Bool
  | _, [] => true
  | [], _ :: _ => false
  | a :: as, b :: bs =>
    if b < a then false
    else if ¬ (a < b) then containsSet as bs
    else containsSet as (b :: bs)
termination_by l m => l.length + m.length

/-- `Set::intersects`, set.h:227-240. -/
def intersects : List α → List α → Bool
  | [], _ => false
  | _ :: _, [] => false
  | a :: as, b :: bs =>
    if a < b then intersects as (b :: bs)
    else if b < a then intersects (a :: as) bs
    else true
termination_by l m => l.length + m.length

/-- The `for` loop of `Set::unite`, set.h:251-260.  `pre` are the elements before the iterator
`lowerBound`, `rest` those from it on. -/
def uniteLoop (pre rest : List α) : List α → List α
  | [] => pre ++ rest
  | o :: os =>
    match lowerBound o rest with
    | (lt, []) => pre ++ lt ++ (o :: os)
    | (lt, g :: gs) =>
      if o < g then uniteLoop (pre ++ lt) (o :: g :: gs) os
      else uniteLoop (pre ++ lt) (g :: gs) os

/-- `Set::unite`, set.h:242-262 (also `operator+=`, `operator|=`, `operator+`, `operator|`,
set.h:108-109, 341-350). -/
def unite (l other : List α) : List α :=
  match other, l with
  | [], _ => l
  | _ :: _, [] => other
  | _ :: _, _ :: _ => uniteLoop [] l other

/-- The `for` loop of `Set::subtract`, set.h:331-337. -/
def subtractLoop (pre rest : List α) : List α → List α
  | [] => pre ++ rest
  | o :: os =>
    match lowerBound o rest with
    | (lt, []) => pre ++ lt
    | (lt, g :: gs) =>
      if ¬ (o < g) then subtractLoop (pre ++ lt) gs os
      else subtractLoop (pre ++ lt) (g :: gs) os

/-- `Set::subtract`, set.h:326-339 (also `operator-=(const Set &)`, set.h:112). -/
def subtract (l other : List α) : List α :=
  match l, other with
  | [], _ => l
  | _ :: _, [] => l
  | _ :: _, _ :: _ => subtractLoop [] l other

/-- Outcome of a call that may be undefined behaviour. -/
inductive Outcome (β : Type _)
  | ok (b : β)
  | undefined
  deriving DecidableEq

/-- `a.subtract(b)` seen as a call on two objects.  If both are the same object
(`sameObject = true`), the `erase` at set.h:336 invalidates `otherIt`, which is used afterwards:
undefined behaviour as soon as one element is erased, i.e. if the set is not empty. -/
def subtractCall (sameObject : Bool) (l other : List α) : Outcome (List α) :=
  if sameObject then (if l.isEmpty then .ok l else .undefined) else .ok (subtract l other)

/-- The loop of `operator-(const Set &, const Set &)`, set.h:359-372. -/
def minusLoop : List α → List α → List α
  | [], _ => []
  | a :: as, [] => a :: as
  | a :: as, b :: bs =>
    if a < b then a :: minusLoop as (b :: bs)
    else if b < a then minusLoop (a :: as) bs
    else minusLoop as bs
termination_by l m => l.length + m.length

/-- `operator-(const Set &, const Set &)`, set.h:352-374. -/
def minus (l m : List α) : List α :=
  if l.isEmpty || m.isEmpty then l else minusLoop l m

/-- `operator&(const Set &, const Set &)`, set.h:376-395. -/
def inter : List α → List α → List α
  | [], _ => []
  | _ :: _, [] => []
  | a :: as, b :: bs =>
    if a < b then inter as (b :: bs)
    else if b < a then inter (a :: as) bs
    else a :: inter as bs
termination_by l m => l.length + m.length

/-- `Set::filtered`, set.h:314-324: keeps the elements of the wanted dynamic type, in order.  The
down-cast does not change the pointer's position in the order (simplification: the same element
type is kept). -/
def filtered (p : α → Bool) (s : List α) : List α :=
  s.foldl (fun acc u => if p u then acc ++ [u] else acc) []

/-- `operator==`, set.h:153: compares the underlying vectors. -/
def eqSet (l m : List α) : Bool := l == m

/-- `Set::load` after `Set::store`, set.h:274-290: the elements arrive in stored order, pointer
types are sorted afterwards.  `relabel` is the (injective) change of element identity by loading:
pointers get new addresses, values stay the same. -/
def reload {β : Type _} [LinearOrder β] (pointerType : Bool) (relabel : α → β) (l : List α) :
    List β :=
  if pointerType then sort (l.map relabel) else l.map relabel

/-! ## Programs over sets -/

/-- All ways a client can obtain a set through the interface of `Set`, other than the iterator
range constructor (see `ofRange`). -/
inductive Expr (α : Type _)
  | empty
  | init (l : List α)
  | insert (s : Expr α) (v : α)
  | remove (s : Expr α) (v : α)
  | unite (s t : Expr α)
  | intersect (s t : Expr α)
  | subtract (s t : Expr α)
  | minus (s t : Expr α)
  | inter (s t : Expr α)
  | filtered (p : α → Bool) (s : Expr α)

/-- The vector a client program ends up with. -/
def Expr.eval : Expr α → List α
  | .empty => []
  | .init l => ofInit l
  | .insert s v => (SetT.insert s.eval v).1
  | .remove s v => (SetT.remove s.eval v).1
  | .unite s t => SetT.unite s.eval t.eval
  | .intersect s t => SetT.intersect s.eval t.eval
  | .subtract s t => SetT.subtract s.eval t.eval
  | .minus s t => SetT.minus s.eval t.eval
  | .inter s t => SetT.inter s.eval t.eval
  | .filtered p s => SetT.filtered p s.eval

end Verif.SetT
