import Verif.Updater.Spec

namespace Verif.Updater

theorem spanEnd_eq (v : Str) : ∃ w, v = w ++ (spanEnd v).1 ∧ (∀ c ∈ w, isSpace c = true) ∧
    ((spanEnd v).2 = true → '\n' ∈ w) ∧ ((spanEnd v).2 = false → '\n' ∉ w) ∧
    ((spanEnd v).2 = false → ∀ c, (spanEnd v).1.head? = some c → isSpace c = false) := by
  induction v with
  | nil => exact ⟨[], rfl, by simp, by simp [spanEnd], by simp, by simp [spanEnd]⟩
  | cons c v ih =>
    unfold spanEnd
    by_cases hs : isSpace c = true
    · rw [if_pos hs]
      by_cases hn : c = '\n'
      · rw [if_pos hn]
        refine ⟨[c], rfl, by simpa using hs, by simp [hn], by simp, by simp⟩
      · rw [if_neg hn]
        obtain ⟨w, h1, h2, h3, h4, h5⟩ := ih
        refine ⟨c :: w, by rw [List.cons_append, ← h1], ?_, fun h => by simp [h3 h], fun h => ?_, h5⟩
        · intro x hx
          rcases List.mem_cons.1 hx with e | e
          · subst e; exact hs
          · exact h2 x e
        · simp only [List.mem_cons, not_or]
          exact ⟨fun e => hn e.symm, h4 h⟩
    · rw [if_neg hs]
      refine ⟨[], rfl, by simp, by simp, by simp, ?_⟩
      intro _ x hx
      simp at hx
      subst hx
      simpa using hs

theorem spanStart_eq (r : Str) : ∃ w, r = w ++ (spanStart r).1 ∧ (∀ c ∈ w, isSpace c = true) ∧
    '\n' ∉ w ∧ ((spanStart r).2 = true → (spanStart r).1.head? = some '\n') ∧
    ((spanStart r).2 = false → (spanStart r).1.head? ≠ some '\n') := by
  induction r with
  | nil => exact ⟨[], rfl, by simp, by simp, by simp [spanStart], by simp [spanStart]⟩
  | cons c r ih =>
    unfold spanStart
    by_cases hn : c = '\n'
    · rw [if_pos hn]
      exact ⟨[], rfl, by simp, by simp, by simp [hn], by simp⟩
    · rw [if_neg hn]
      by_cases hs : isSpace c = true
      · rw [if_pos hs]
        obtain ⟨w, h1, h2, h3, h4, h5⟩ := ih
        refine ⟨c :: w, by rw [List.cons_append, ← h1], ?_, ?_, h4, h5⟩
        · intro x hx
          rcases List.mem_cons.1 hx with e | e
          · subst e; exact hs
          · exact h2 x e
        · simp only [List.mem_cons, not_or]
          exact ⟨fun e => hn e.symm, h3⟩
      · rw [if_neg hs]
        refine ⟨[], rfl, by simp, by simp, by simp, ?_⟩
        intro _ he
        simp at he
        exact hn he

theorem dropWhile_head (r : Str) : r.dropWhile (· ≠ '\n') = [] ∨
    (r.dropWhile (· ≠ '\n')).head? = some '\n' := by
  induction r with
  | nil => left; rfl
  | cons c r ih =>
    by_cases h : c = '\n'
    · right; simp [h]
    · simpa [List.dropWhile_cons, h] using ih

theorem takeWhile_no_nl (r : Str) : '\n' ∉ r.takeWhile (· ≠ '\n') := by
  induction r with
  | nil => simp
  | cons c r ih =>
    by_cases h : c = '\n'
    · simp [h]
    · rw [List.takeWhile_cons_of_pos (by simpa using h)]
      simp only [List.mem_cons, not_or]
      exact ⟨fun e => h e.symm, ih⟩

theorem takeWhile_nl (q t : Str) (h : '\n' ∉ q) : (q ++ '\n' :: t).takeWhile (· ≠ '\n') = q ∧
    (q ++ '\n' :: t).dropWhile (· ≠ '\n') = '\n' :: t := by
  induction q with
  | nil => simp
  | cons c q ih =>
    simp only [List.mem_cons, not_or] at h
    have hc : c ≠ '\n' := fun e => h.1 e.symm
    rw [List.cons_append, List.takeWhile_cons_of_pos (by simpa using hc), List.dropWhile_cons_of_pos (by simpa using hc), (ih h.2).1, (ih h.2).2]
    exact ⟨rfl, rfl⟩

theorem all_mem {w : Str} (h : w.all isSpace = true) : ∀ c ∈ w, isSpace c = true := by
  simpa using h

/-- What the removal of an empty line does: nothing, or it takes away what is before the item in its
line and the empty line. -/
theorem leadingEmptyLine_eq (r : Str) : leadingEmptyLine r = r ∨
    ∃ q blank, r = q ++ '\n' :: blank ++ leadingEmptyLine r ∧ '\n' ∉ q ∧ '\n' ∉ blank ∧
      (∀ c ∈ blank, isSpace c = true) ∧
      (leadingEmptyLine r = [] ∨ (leadingEmptyLine r).head? = some '\n') := by
  unfold leadingEmptyLine
  have hsplit := List.takeWhile_append_dropWhile (p := (· ≠ '\n')) (l := r)
  rcases dropWhile_head r with h | h
  · rw [h]; left; rfl
  · cases hd : r.dropWhile (· ≠ '\n') with
    | nil => left; rfl
    | cons c rp =>
      rw [hd] at h hsplit
      simp at h
      subst h
      simp only
      by_cases h1 : rp = []
      · rw [if_pos h1]; left; rfl
      · rw [if_neg h1]
        by_cases h2 : (rp.takeWhile (· ≠ '\n')).all isSpace = true
        · rw [if_pos h2]
          right
          refine ⟨r.takeWhile (· ≠ '\n'), rp.takeWhile (· ≠ '\n'), ?_, ?_, ?_, all_mem h2,
            dropWhile_head rp⟩
          · rw [List.append_assoc, List.cons_append, List.takeWhile_append_dropWhile]
            exact hsplit.symm
          · intro hm
            exact takeWhile_no_nl _ hm
          · intro hm
            exact takeWhile_no_nl _ hm
        · rw [if_neg h2]; left; rfl

theorem leadingEmptyLine_blank (q blank p : Str) (hq : '\n' ∉ q) (hb : '\n' ∉ blank)
    (hw : ∀ c ∈ blank, isSpace c = true) (hp : p = [] ∨ p.head? = some '\n') (hne : blank ++ p ≠ []) :
    leadingEmptyLine (q ++ '\n' :: (blank ++ p)) = p := by
  unfold leadingEmptyLine
  rw [(takeWhile_nl q (blank ++ p) hq).2]
  simp only
  rw [if_neg hne]
  have h1 : (blank ++ p).takeWhile (· ≠ '\n') = blank ∧ (blank ++ p).dropWhile (· ≠ '\n') = p := by
    rcases hp with h | h
    · subst h
      have : ∀ l : Str, '\n' ∉ l → l.takeWhile (· ≠ '\n') = l ∧ l.dropWhile (· ≠ '\n') = [] := by
        intro l
        induction l with
        | nil => intro _; simp
        | cons c l ih =>
          intro hl
          simp only [List.mem_cons, not_or] at hl
          have hc : c ≠ '\n' := fun e => hl.1 e.symm
          rw [List.takeWhile_cons_of_pos (by simpa using hc), List.dropWhile_cons_of_pos (by simpa using hc), (ih hl.2).1, (ih hl.2).2]
          exact ⟨rfl, rfl⟩
      simpa using this blank hb
    · cases p with
      | nil => simp at h
      | cons c p =>
        simp at h
        subst h
        exact takeWhile_nl blank p hb
  rw [h1.1, h1.2, if_pos (by simpa using hw)]

theorem isSpace_iff (c : Char) : isSpace c = true ↔ SpaceChar c := by
  unfold isSpace SpaceChar
  simp only [Bool.or_eq_true, decide_eq_true_eq, Bool.and_eq_true]

end Verif.Updater
