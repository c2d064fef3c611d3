import Verif.Files.Spec
import Verif.Common.Snoc
/-!
# Lemmas on files
-/
namespace Verif.Files

theorem get_cons (q : Path) (n : Node) (fs : FS) (p : Path) : get ((q, n) :: fs) p = if p = q then some n else get fs p := by
  unfold get
  rw [List.lookup_cons]
  by_cases h : p = q
  · subst h; simp
  · rw [beq_eq_false_iff_ne.mpr h, if_neg h]

theorem get_del (fs : FS) (p q : Path) : get (del fs p) q = if q = p then none else get fs q := by
  induction fs with
  | nil => unfold del get; simp
  | cons a fs ih =>
    obtain ⟨r, n⟩ := a
    unfold del at ih ⊢
    rw [List.filter_cons]
    by_cases h : r = p
    · subst h
      simp only [ne_eq, not_true_eq_false, decide_false, Bool.false_eq_true, if_false]
      rw [ih, get_cons]
      by_cases hq : q = r <;> simp [hq]
    · simp only [ne_eq, h, not_false_eq_true, decide_true, if_true]
      rw [get_cons, get_cons, ih]
      by_cases hq : q = r
      · subst hq; simp [h]
      · simp [hq]

theorem get_put (fs : FS) (p q : Path) (n : Node) : get (put fs p n) q = if q = p then some n else get fs q := by
  unfold put
  rw [get_cons, get_del]
  by_cases h : q = p <;> simp [h]

theorem childName_eq (p q : Path) (n : Name) : childName p q = some n ↔ q = p ++ [n] := by
  unfold childName
  constructor
  · intro h
    split at h
    · split at h
      · simp only [Option.some.injEq] at h
        rename_i h1
        rw [h1, h]
      · simp at h
    · simp at h
  · intro h
    subst h
    simp

theorem mem_of_get {fs : FS} {p : Path} {n : Node} (h : get fs p = some n) : (p, n) ∈ fs := by
  induction fs with
  | nil => simp [get] at h
  | cons a fs ih =>
    obtain ⟨q, m⟩ := a
    rw [get_cons] at h
    split at h
    · rename_i e
      simp only [Option.some.injEq] at h
      rw [e, h]
      exact List.mem_cons_self
    · exact List.mem_cons_of_mem _ (ih h)

theorem get_of_mem {fs : FS} {p : Path} {n : Node} (h : (p, n) ∈ fs) : get fs p ≠ none := by
  induction fs with
  | nil => simp at h
  | cons a fs ih =>
    obtain ⟨q, m⟩ := a
    rw [get_cons]
    split
    · simp
    · rename_i hq
      rcases List.mem_cons.mp h with h | h
      · simp only [Prod.mk.injEq] at h
        exact absurd h.1 hq
      · exact ih h

theorem mem_names {fs : FS} {p : Path} {n : Name} : n ∈ names fs p ↔ get fs (p ++ [n]) ≠ none := by
  unfold names
  rw [List.mem_eraseDups, List.mem_filterMap]
  constructor
  · rintro ⟨⟨q, m⟩, hm, hc⟩
    rw [childName_eq] at hc
    dsimp only at hc
    subst hc
    exact get_of_mem hm
  · intro h
    cases hg : get fs (p ++ [n]) with
    | none => exact absurd hg h
    | some m => exact ⟨_, mem_of_get hg, (childName_eq _ _ _).mpr rfl⟩

theorem names_nil {fs : FS} {p : Path} : names fs p = [] ↔ ∀ n, get fs (p ++ [n]) = none := by
  constructor
  · intro h n
    cases hg : get fs (p ++ [n]) with
    | none => rfl
    | some m =>
      have : n ∈ names fs p := mem_names.mpr (by rw [hg]; simp)
      rw [h] at this
      simp at this
  · intro h
    cases hn : names fs p with
    | nil => rfl
    | cons n l =>
      have : n ∈ names fs p := by rw [hn]; exact List.mem_cons_self
      exact absurd (h n) (mem_names.mp this)

theorem depth_bound {fs : FS} {p : Path} (h : get fs p ≠ none) : p.length ≤ depth fs := by
  cases hg : get fs p with
  | none => exact absurd hg h
  | some n =>
    have hm := mem_of_get hg
    clear h hg
    unfold depth
    induction fs with
    | nil => simp at hm
    | cons a fs ih =>
      rw [List.foldr_cons]
      rcases List.mem_cons.mp hm with h | h
      · rw [← h]; exact Nat.le_max_left _ _
      · exact Nat.le_trans (ih h) (Nat.le_max_right _ _)

/-- If there is nothing at a path, there is nothing below it. -/
theorem WF.below {fs : FS} (h : WF fs) {p q : Path} (hp : get fs p = none) (hq : p <+: q) : get fs q = none := by
  obtain ⟨r, rfl⟩ := hq
  induction r using Verif.snoc_induction with
  | nil => simpa using hp
  | append_singleton r n ih =>
    cases hg : get fs (p ++ (r ++ [n])) with
    | none => rfl
    | some m =>
      rw [← List.append_assoc] at hg
      obtain ⟨w, t, hd⟩ := h.parents (p ++ r) n (by rw [hg]; simp)
      rw [ih] at hd
      simp at hd

end Verif.Files
