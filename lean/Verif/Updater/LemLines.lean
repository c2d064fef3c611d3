import Verif.Updater.Spec

namespace Verif.Updater

theorem toCrLf_append (s t : Str) : toCrLf (s ++ t) = toCrLf s ++ toCrLf t := by
  induction s with
  | nil => rfl
  | cons c s ih =>
    by_cases h : c = '\n'
    · simp [toCrLf, h, ih]
    · simp [toCrLf, h, ih]

theorem toCrLf_lines (s : Str) : LineEndsOnly s (toCrLf s) := by
  induction s with
  | nil => exact .nil
  | cons c s ih =>
    unfold toCrLf
    by_cases h : c = '\n'
    · rw [if_pos h, h]; exact .ret s _ ih
    · rw [if_neg h]; exact .same c s _ ih

theorem lines_refl (s : Str) : LineEndsOnly s s := by
  induction s with
  | nil => exact .nil
  | cons c s ih => exact .same c s s ih

theorem toCrLf_none (s : Str) (h : '\n' ∉ s) : toCrLf s = s := by
  induction s with
  | nil => rfl
  | cons c s ih =>
    simp only [List.mem_cons, not_or] at h
    rw [toCrLf, if_neg (fun e => h.1 e.symm), ih h.2]

theorem toLf_none (s : Str) (h : '\n' ∉ s) : toLf s = s := by
  induction s with
  | nil => rfl
  | cons c s ih =>
    simp only [List.mem_cons, not_or] at h
    cases s with
    | nil => rfl
    | cons c' s =>
      rw [toLf, if_neg, ih h.2]
      intro e
      exact h.2 (by simp [e.2])

theorem windows_tail {c : Char} {s : Str} (h : WindowsText (c :: s)) (hs : s.head? ≠ some '\n') :
    WindowsText s := by
  intro a b e
  have := h (c :: a) b (by rw [e]; rfl)
  cases a with
  | nil => subst e; simp at hs
  | cons x a => simpa using this

theorem windows_head {c : Char} {s : Str} (h : WindowsText (c :: s)) : c ≠ '\n' := by
  intro e
  have := h [] s (by rw [e]; rfl)
  simp at this

theorem toCrLf_toLf : ∀ (n : Nat) (s : Str), s.length ≤ n → WindowsText s → toCrLf (toLf s) = s := by
  intro n
  induction n with
  | zero =>
    intro s hn _
    cases s with
    | nil => rfl
    | cons _ _ => simp at hn
  | succ n ih =>
    intro s hn h
    cases s with
    | nil => rfl
    | cons c s =>
      have hc := windows_head h
      cases s with
      | nil => simp [toLf, toCrLf, hc]
      | cons c' s =>
        rw [toLf]
        by_cases hcc : c = '\r' ∧ c' = '\n'
        · rw [if_pos hcc]
          obtain ⟨rfl, rfl⟩ := hcc
          have h2 : s.head? ≠ some '\n' := by
            intro e
            cases s with
            | nil => simp at e
            | cons x s =>
              simp at e
              subst e
              have := h ['\r', '\n'] s rfl
              simp at this
          have h3 : WindowsText s := by
            intro a b e
            cases a with
            | nil => subst e; simp at h2
            | cons x a =>
              have := h ('\r' :: '\n' :: x :: a) b (by rw [e]; rfl)
              simpa using this
          rw [toCrLf, if_pos rfl, ih s (by simp at hn; omega) h3]
        · rw [if_neg hcc, toCrLf, if_neg hc, ih (c' :: s) (by simp at hn; simp; omega) (windows_tail h ?_)]
          intro e
          simp at e
          subst e
          have := h [c] s rfl
          simp at this
          exact hcc ⟨this, rfl⟩

theorem toLf_unix (s : Str) (h : UnixText s) : toLf s = s := by
  induction s with
  | nil => rfl
  | cons c s ih =>
    have h2 : UnixText s := fun a b e => h (c :: a) b (by rw [e]; rfl)
    cases s with
    | nil => rfl
    | cons c' s =>
      rw [toLf, if_neg, ih h2]
      rintro ⟨rfl, rfl⟩
      exact h [] s rfl

/-- Line feeds after a carriage return, and others. -/
theorem countLines_sum (b : Char) (s : Str) :
    (countLines b s).1 + (countLines b s).2 = s.count '\n' := by
  induction s generalizing b with
  | nil => rfl
  | cons c s ih =>
    have := ih c
    unfold countLines
    by_cases h : c = '\n'
    · by_cases hb : b = '\r'
      · simp [h, hb]; rw [h] at this; omega
      · simp [h, hb]; rw [h] at this; omega
    · simp [h]; exact this

theorem countLines_bare (b : Char) (s : Str) : (countLines b s).1 = 0 ↔
    ∀ x y, s = x ++ '\n' :: y → (b :: x).getLast? = some '\r' := by
  induction s generalizing b with
  | nil => simp [countLines]
  | cons c s ih =>
    unfold countLines
    have hstep : (∀ x y, c :: s = x ++ '\n' :: y → (b :: x).getLast? = some '\r') ↔
        ((c = '\n' → b = '\r') ∧ ∀ x y, s = x ++ '\n' :: y → (c :: x).getLast? = some '\r') := by
      constructor
      · intro h
        refine ⟨fun e => ?_, fun x y e => ?_⟩
        · have := h [] s (by rw [e]; rfl)
          simpa using this
        · have := h (c :: x) y (by rw [e]; rfl)
          simpa using this
      · rintro ⟨h1, h2⟩ x y e
        cases x with
        | nil =>
          simp at e
          simp [h1 e.1]
        | cons z x =>
          simp at e
          have := h2 x y e.2
          rw [e.1] at this
          simpa using this
    rw [hstep, ← ih c]
    by_cases h : c = '\n'
    · by_cases hb : b = '\r'
      · simp [h, hb]
      · simp [h, hb]
    · simp [h]

theorem countLines_ret (b : Char) (s : Str) : (countLines b s).2 = 0 ↔
    ∀ x y, s = x ++ '\n' :: y → (b :: x).getLast? ≠ some '\r' := by
  induction s generalizing b with
  | nil => simp [countLines]
  | cons c s ih =>
    unfold countLines
    have hstep : (∀ x y, c :: s = x ++ '\n' :: y → (b :: x).getLast? ≠ some '\r') ↔
        ((c = '\n' → b ≠ '\r') ∧ ∀ x y, s = x ++ '\n' :: y → (c :: x).getLast? ≠ some '\r') := by
      constructor
      · intro h
        refine ⟨fun e => ?_, fun x y e => ?_⟩
        · have := h [] s (by rw [e]; rfl)
          simpa using this
        · have := h (c :: x) y (by rw [e]; rfl)
          simpa using this
      · rintro ⟨h1, h2⟩ x y e
        cases x with
        | nil =>
          simp at e
          simp [h1 e.1]
        | cons z x =>
          simp at e
          have := h2 x y e.2
          rw [e.1] at this
          simpa using this
    rw [hstep, ← ih c]
    by_cases h : c = '\n'
    · by_cases hb : b = '\r'
      · simp [h, hb]
      · simp [h, hb]
    · simp [h]

theorem bare_windows (s : Str) : (countLines '\x00' s).1 = 0 ↔ WindowsText s := by
  rw [countLines_bare]
  constructor
  · intro h a b e
    have := h a b e
    cases a with
    | nil => simp at this
    | cons x a => simpa using this
  · intro h a b e
    have := h a b e
    cases a with
    | nil => simp at this
    | cons x a => simpa using this

theorem ret_unix (s : Str) : (countLines '\x00' s).2 = 0 ↔ UnixText s := by
  rw [countLines_ret]
  constructor
  · intro h a b e
    have := h (a ++ ['\r']) b (by rw [e]; simp)
    rw [show '\x00' :: (a ++ ['\r']) = ('\x00' :: a) ++ ['\r'] from rfl, List.getLast?_append] at this
    simp at this
  · intro h a b e hl
    cases a with
    | nil => simp at hl
    | cons x a =>
      have hx : (x :: a).getLast? = some '\r' := by simpa using hl
      obtain ⟨a', ha'⟩ := List.getLast?_eq_some_iff.1 hx
      exact h a' b (by rw [e, ha']; simp)

theorem guess_eq (s : Str) : (guess s = .unknown ↔ '\n' ∉ s) ∧ (guess s = .unix ↔ '\n' ∈ s ∧ UnixText s) ∧
    (guess s = .windows ↔ '\n' ∈ s ∧ WindowsText s) := by
  have hsum := countLines_sum '\x00' s
  have hc : '\n' ∈ s ↔ 0 < s.count '\n' := List.count_pos_iff.symm
  rw [← ret_unix, ← bare_windows, hc]
  unfold guess
  simp only
  generalize (countLines '\x00' s).1 = x at *
  generalize (countLines '\x00' s).2 = y at *
  generalize s.count '\n' = k at *
  clear hc
  subst hsum
  by_cases h1 : x = 0 <;> by_cases h2 : y = 0 <;> simp [h1, h2] <;> omega

theorem toCrLf_windows (t : Str) : WindowsText (toCrLf t) := by
  induction t with
  | nil => intro a b e; simp [toCrLf] at e
  | cons c t ih =>
    unfold toCrLf
    by_cases h : c = '\n'
    · rw [if_pos h]
      intro a b e
      cases a with
      | nil => simp at e
      | cons x a =>
        cases a with
        | nil => simp at e; simp [← e.1]
        | cons y a =>
          simp at e
          have := ih a b e.2.2
          cases a with
          | nil => simp at this
          | cons z a => simpa using this
    · rw [if_neg h]
      intro a b e
      cases a with
      | nil => simp at e; exact absurd e.1 h
      | cons x a =>
        simp at e
        have := ih a b e.2
        cases a with
        | nil => simp at this
        | cons z a => simpa using this

theorem toLf_length : ∀ (n : Nat) (s : Str), s.length ≤ n → (toLf s).length ≤ s.length := by
  intro n
  induction n with
  | zero =>
    intro s hn
    cases s with
    | nil => simp [toLf]
    | cons _ _ => simp at hn
  | succ n ih =>
    intro s hn
    cases s with
    | nil => simp [toLf]
    | cons c s =>
      cases s with
      | nil => simp [toLf]
      | cons c' s =>
        rw [toLf]
        by_cases h : c = '\r' ∧ c' = '\n'
        · rw [if_pos h]
          have := ih s (by simp at hn; omega)
          simp; omega
        · rw [if_neg h]
          have := ih (c' :: s) (by simp at hn; simp; omega)
          simp at this ⊢; omega

theorem unix_of_toLf (s : Str) (h : toLf s = s) : UnixText s := by
  induction s with
  | nil => intro a b e; simp at e
  | cons c s ih =>
    cases s with
    | nil =>
      intro a b e
      have := congrArg List.length e
      simp at this
      omega
    | cons c' s =>
      rw [toLf] at h
      by_cases hc : c = '\r' ∧ c' = '\n'
      · rw [if_pos hc] at h
        have h1 := congrArg List.length h
        have h2 := toLf_length _ s (Nat.le_refl _)
        simp at h1
        omega
      · rw [if_neg hc] at h
        have := ih (List.cons.inj h).2
        intro a b e
        cases a with
        | nil => simp at e; exact hc ⟨e.1, e.2.1⟩
        | cons x a =>
          simp at e
          exact this a b e.2

end Verif.Updater
