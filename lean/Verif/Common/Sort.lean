/-!
# Insertion sort

Stands for `QStringList::sort`; a structural recursion, so that it can be evaluated in proofs.
-/
namespace Verif.Common

variable {α : Type}

/-- Insert into a sorted list, before the first element that is not smaller. -/
def insertS (le : α → α → Bool) (a : α) : List α → List α
  | [] => [a]
  | b :: l => if le a b then a :: b :: l else b :: insertS le a l

/-- The sorted list. -/
def isort (le : α → α → Bool) : List α → List α
  | [] => []
  | a :: l => insertS le a (isort le l)

theorem insertS_perm (le : α → α → Bool) (a : α) : ∀ l, (insertS le a l).Perm (a :: l) := by
  intro l
  induction l with
  | nil => exact List.Perm.refl _
  | cons b l ih =>
    simp only [insertS]
    split
    · exact List.Perm.refl _
    · exact (List.Perm.cons b ih).trans (List.Perm.swap a b l)

theorem isort_perm (le : α → α → Bool) : ∀ l : List α, (isort le l).Perm l := by
  intro l
  induction l with
  | nil => exact List.Perm.refl _
  | cons a l ih => exact (insertS_perm le a _).trans (List.Perm.cons a ih)

theorem mem_isort (le : α → α → Bool) (l : List α) (x : α) : x ∈ isort le l ↔ x ∈ l :=
  (isort_perm le l).mem_iff

theorem insertS_sorted (le : α → α → Bool) (htot : ∀ a b, le a b = true ∨ le b a = true)
    (htr : ∀ a b c, le a b = true → le b c = true → le a c = true) (a : α) : ∀ l : List α,
    l.Pairwise (fun x y => le x y = true) → (insertS le a l).Pairwise (fun x y => le x y = true) := by
  intro l
  induction l with
  | nil => intro _; simp [insertS]
  | cons b l ih =>
    intro h
    rw [List.pairwise_cons] at h
    simp only [insertS]
    by_cases hab : le a b = true
    · rw [if_pos hab, List.pairwise_cons, List.pairwise_cons]
      refine ⟨?_, h⟩
      intro x hx
      rcases List.mem_cons.1 hx with rfl | hx
      · exact hab
      · exact htr a b x hab (h.1 x hx)
    · rw [if_neg hab, List.pairwise_cons]
      refine ⟨?_, ih h.2⟩
      intro x hx
      rcases List.mem_cons.1 ((insertS_perm le a l).mem_iff.1 hx) with rfl | hx
      · rcases htot b x with h' | h'
        · exact h'
        · exact absurd h' hab
      · exact h.1 x hx

theorem isort_sorted (le : α → α → Bool) (htot : ∀ a b, le a b = true ∨ le b a = true)
    (htr : ∀ a b c, le a b = true → le b c = true → le a c = true) : ∀ l : List α,
    (isort le l).Pairwise (fun x y => le x y = true) := by
  intro l
  induction l with
  | nil => simp [isort]
  | cons a l ih => exact insertS_sorted le htot htr a _ ih

end Verif.Common
