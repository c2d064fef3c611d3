import Verif.SetT.Lemmas

/-! # C01: `Set<T>` behaves as a finite mathematical set -/

namespace Verif.SetT

variable {α : Type _} [LinearOrder α]

/-- C01, main theorem.  Whatever a client does through `Set`'s interface (initializer list, insert,
remove, unite, intersect, subtract, `-`, `&`, filtered; in any order and nesting), the vector is
strictly increasing and its members are exactly those of the mathematical set the program
denotes. -/
theorem C01_refines_math_set (e : Expr α) :
    StrictInc e.eval ∧ ∀ x, x ∈ e.eval ↔ e.denote x := by
  induction e with
  | empty => simp [Expr.eval, Expr.denote, StrictInc]
  | init l =>
    refine ⟨uniq_strict _ (sort_pairwise l), fun x => ?_⟩
    simp [Expr.eval, Expr.denote, ofInit, mem_uniq, mem_sort]
  | insert s v ih =>
    obtain ⟨h1, h2, _⟩ := insert_spec s.eval v ih.1
    exact ⟨h1, fun x => by simp [Expr.eval, Expr.denote, h2, ih.2]⟩
  | remove s v ih =>
    obtain ⟨h1, h2, _⟩ := remove_spec s.eval v ih.1
    exact ⟨h1, fun x => by simp [Expr.eval, Expr.denote, h2, ih.2]⟩
  | unite s t ihs iht =>
    obtain ⟨h1, h2⟩ := unite_spec s.eval t.eval ihs.1 iht.1
    exact ⟨h1, fun x => by simp [Expr.eval, Expr.denote, h2, ihs.2, iht.2]⟩
  | intersect s t ihs iht =>
    refine ⟨ihs.1.sublist (intersect_sublist _ _), fun x => ?_⟩
    simp [Expr.eval, Expr.denote, intersect_mem _ _ ihs.1 iht.1, ihs.2, iht.2]
  | subtract s t ihs iht =>
    obtain ⟨h1, h2⟩ := subtract_spec s.eval t.eval ihs.1 iht.1
    exact ⟨ihs.1.sublist h1, fun x => by simp [Expr.eval, Expr.denote, h2, ihs.2, iht.2]⟩
  | minus s t ihs iht =>
    obtain ⟨h1, h2⟩ := minus_spec s.eval t.eval ihs.1 iht.1
    exact ⟨ihs.1.sublist h1, fun x => by simp [Expr.eval, Expr.denote, h2, ihs.2, iht.2]⟩
  | inter s t ihs iht =>
    refine ⟨?_, fun x => ?_⟩
    · simp only [Expr.eval, inter_eq_intersect]; exact ihs.1.sublist (intersect_sublist _ _)
    · simp [Expr.eval, Expr.denote, inter_eq_intersect, intersect_mem _ _ ihs.1 iht.1, ihs.2,
        iht.2]
  | filtered p s ih =>
    refine ⟨?_, fun x => ?_⟩
    · simp only [Expr.eval, filtered_eq]; exact ih.1.sublist List.filter_sublist
    · simp [Expr.eval, Expr.denote, filtered_eq, ih.2]

/-- A non-trivial program: `({3,1,2} ∪ {5,3}) \ {1}` evaluates to `[2, 3, 5]`. -/
example : (Expr.subtract (.unite (.init [3, 1, 2]) (.init [5, 3, 5])) (.init [1, 9])).eval
    = ([2, 3, 5] : List Nat) := by
  simp (decide := true) [Expr.eval, ofInit, sort, sort.ins, uniq, unite, uniteLoop, lowerBound,
    subtract, subtractLoop]

/-- C01, queries.  On any two client programs the query functions answer the mathematical
question: element membership, subset, non-disjointness and extensional equality; `insert` and
`remove` tell whether they changed the set. -/
theorem C01_queries (s t : Expr α) (v : α) :
    (containsElem s.eval v = true ↔ s.denote v) ∧
    (containsSet s.eval t.eval = true ↔ ∀ x, t.denote x → s.denote x) ∧
    (intersects s.eval t.eval = true ↔ ∃ x, s.denote x ∧ t.denote x) ∧
    (eqSet s.eval t.eval = true ↔ ∀ x, s.denote x ↔ t.denote x) ∧
    ((insert s.eval v).2 = true ↔ ¬ s.denote v) ∧
    ((remove s.eval v).2 = true ↔ s.denote v) := by
  obtain ⟨hs, ms⟩ := C01_refines_math_set s
  obtain ⟨ht, mt⟩ := C01_refines_math_set t
  refine ⟨?_, ?_, ?_, ?_, ?_, ?_⟩
  · rw [containsElem_spec _ _ hs, ms]
  · rw [containsSet_spec _ _ hs ht]; simp only [ms, mt]
  · rw [intersects_spec _ _ hs ht]; simp only [ms, mt]
  · rw [eqSet, beq_iff_eq]
    constructor
    · intro h x; rw [← ms, ← mt, h]
    · intro h; exact strictInc_ext hs ht (fun x => by rw [ms, mt, h])
  · rw [(insert_spec _ _ hs).2.2, ms]
  · rw [(remove_spec _ _ hs).2.2, ms]

example : containsSet (Expr.init [3, 1, 2]).eval (Expr.init [3, 2]).eval = true ∧
    intersects (Expr.init [3, 1]).eval (Expr.init [2, 4]).eval = false := by
  simp (decide := true) [Expr.eval, ofInit, sort, sort.ins, uniq, containsSet, intersects]

/-- C01, persistence.  Storing a set and loading it back (pointers may get arbitrary new distinct
addresses, `relabel`) gives a set again, with the images of the old members; for value types the
relabelling is the identity and the set is unchanged. -/
theorem C01_store_load {β : Type _} [LinearOrder β] (e : Expr α) (relabel : α → β)
    (hinj : ∀ a b, relabel a = relabel b → a = b) :
    (StrictInc (reload true relabel e.eval) ∧
      ∀ y, y ∈ reload true relabel e.eval ↔ ∃ x, e.denote x ∧ relabel x = y) ∧
    reload false (fun x : α => x) e.eval = e.eval := by
  obtain ⟨hs, ms⟩ := C01_refines_math_set e
  refine ⟨⟨?_, ?_⟩, by simp [reload]⟩
  · simp only [reload, if_true]
    refine strictInc_of_le_nodup (sort_pairwise _) ?_
    rw [(sort_perm _).nodup_iff]
    have hnd : (e.eval).Nodup := hs.imp (fun h => ne_of_lt h)
    exact List.Pairwise.map relabel (fun a b hab h => hab (hinj a b h)) hnd
  · intro y
    simp [reload, mem_sort, ms]

example : reload true (fun x : Nat => 10 - x) [1, 4] = [6, 9] := by
  simp (decide := true) [reload, sort, sort.ins]

/-- Full statement for the iterator-range constructor, which does **not** hold: a set constructed
from a range has the range's members *and is duplicate free*. -/
def RangeCtorIsSet : Prop := ∀ l : List Nat, StrictInc (ofRange l)

/-- C01, finding: `Set(first, last)` (set.h:176-183, used by `rangeTo<Set<..>>`) keeps duplicates,
so the result is not a set: it has two elements instead of one, differs from the set with the same
members, and still contains the element after `remove`. -/
theorem C01_range_ctor_not_a_set :
    ¬ RangeCtorIsSet ∧
    eqSet (ofRange [7, 7]) (ofInit [7, 7]) = false ∧
    containsElem (remove (ofRange [7, 7]) 7).1 (7 : Nat) = true := by
  refine ⟨fun h => ?_, by decide, by decide⟩
  have := h [7, 7]
  simp (decide := true) [ofRange, sort, sort.ins, StrictInc] at this

/-- What does hold for the iterator-range constructor: the members are right, the vector is sorted
in the weak sense, and it is a proper set whenever the range has no duplicates.  Missing with
respect to the full statement (`RangeCtorIsSet`): ranges with duplicates. -/
theorem C01_range_ctor_partial (l : List α) :
    (∀ x, x ∈ ofRange l ↔ x ∈ l) ∧ (ofRange l).Pairwise (· ≤ ·) ∧
    (l.Nodup → StrictInc (ofRange l) ∧ ofRange l = (Expr.init l).eval) := by
  refine ⟨fun x => mem_sort x l, sort_pairwise l, fun h => ?_⟩
  have hs : StrictInc (ofRange l) :=
    strictInc_of_le_nodup (sort_pairwise _) ((sort_perm l).nodup_iff.mpr h)
  refine ⟨hs, strictInc_ext hs (C01_refines_math_set _).1 (fun x => ?_)⟩
  rw [(C01_refines_math_set _).2]; exact mem_sort x l

example : (([3, 1, 2] : List Nat).Nodup) ∧ ofRange [3, 1, 2] = [1, 2, 3] := by decide

/-- C01, aliasing: `s.subtract(s)` is undefined behaviour for every non-empty set (the iterator into
the erased vector is used after `erase`), while on distinct objects the call is always defined. -/
theorem C01_subtract_aliasing (l m : List α) :
    (subtractCall true l l = .undefined ↔ l ≠ []) ∧
    subtractCall false l m = .ok (subtract l m) := by
  constructor
  · cases l <;> simp [subtractCall]
  · simp [subtractCall]

end Verif.SetT
