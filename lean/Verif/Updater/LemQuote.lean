import Verif.Updater.LemMore

namespace Verif.Updater

theorem unescape_length (c : Char) (x : List Char) (h : Literal.unescape c = some x) : x.length ≤ 1 := by
  unfold Literal.unescape at h
  repeat' split at h
  all_goals first | (cases h; simp; done) | simp at h

theorem parseStr_length : ∀ (n : Nat) (s t r : Str), s.length ≤ n → Literal.parseStr s = some (t, r) →
    t.length + r.length + 1 ≤ s.length := by
  intro n
  induction n with
  | zero =>
    intro s t r hn h
    cases s with
    | nil => simp [Literal.parseStr] at h
    | cons c s => simp at hn
  | succ n ih =>
    intro s t r hn h
    cases s with
    | nil => simp [Literal.parseStr] at h
    | cons c s =>
      rw [Literal.parseStr.eq_def] at h
      simp only at h
      by_cases h1 : c = '"'
      · rw [if_pos h1] at h; cases h; simp
      · rw [if_neg h1] at h
        by_cases h2 : Literal.isLineEnd c = true
        · rw [if_pos h2] at h; exact absurd h (by simp)
        · rw [if_neg h2] at h
          by_cases h3 : c = '\\'
          · rw [if_pos h3] at h
            cases s with
            | nil => simp at h
            | cons e s' =>
              simp only at h
              cases hu : Literal.unescape e with
              | none => simp [hu] at h
              | some x =>
                cases hp : Literal.parseStr s' with
                | none => simp [hu, hp] at h
                | some p =>
                  obtain ⟨t', r'⟩ := p
                  simp [hu, hp] at h
                  obtain ⟨rfl, rfl⟩ := h
                  have := ih s' t' r' (by simp at hn; omega) hp
                  have := unescape_length e x hu
                  simp; omega
          · rw [if_neg h3] at h
            cases hp : Literal.parseStr s with
            | none => simp [hp] at h
            | some p =>
              obtain ⟨t', r'⟩ := p
              simp [hp] at h
              obtain ⟨rfl, rfl⟩ := h
              have := ih s t' r' (by simp at hn; omega) hp
              simp; omega

theorem plain_of_parse (v : Str) (h : Literal.parseStr (v ++ ['"']) = some (v, [])) : Plain v := by
  induction v with
  | nil => intro c hc; simp at hc
  | cons c v ih =>
    rw [List.cons_append, Literal.parseStr.eq_def] at h
    simp only at h
    by_cases h1 : c = '"'
    · rw [if_pos h1] at h; simp at h
    · rw [if_neg h1] at h
      by_cases h2 : Literal.isLineEnd c = true
      · rw [if_pos h2] at h; simp at h
      · rw [if_neg h2] at h
        by_cases h3 : c = '\\'
        · exfalso
          rw [if_pos h3] at h
          have hl : (v ++ ['"']).length = v.length + 1 := by simp
          cases hs : v ++ ['"'] with
          | nil => simp at hs
          | cons e s' =>
            rw [hs] at h hl
            simp only at h
            cases hu : Literal.unescape e with
            | none => simp [hu] at h
            | some x =>
              cases hp : Literal.parseStr s' with
              | none => simp [hu, hp] at h
              | some p =>
                obtain ⟨t', r'⟩ := p
                simp [hu, hp] at h
                have h5 := parseStr_length _ s' t' r' (Nat.le_refl _) hp
                have h6 := unescape_length e x hu
                have h7 := congrArg List.length h.1
                simp at h7 hl
                omega
        · rw [if_neg h3] at h
          cases hp : Literal.parseStr (v ++ ['"']) with
          | none => simp [hp] at h
          | some p =>
            obtain ⟨t', r'⟩ := p
            simp [hp] at h
            obtain ⟨rfl, rfl⟩ := h
            have := ih hp
            intro x hx
            rcases List.mem_cons.1 hx with e | e
            · subst e
              exact ⟨h1, h3, by simpa using h2⟩
            · exact this x e

/-- A text between quotes is a literal of this text just if it is plain. -/
theorem quoted_iff (v : Str) : Literal.evaluate ('"' :: v ++ ['"']) = some (.str v) ↔ Plain v := by
  refine ⟨fun h => ?_, plain_eval v⟩
  unfold Literal.evaluate at h
  have hp : Literal.parse ('"' :: v ++ ['"']).length ('"' :: v ++ ['"']) =
      (Literal.parseStr (v ++ ['"'])).map (fun p => (Literal.JsVal.str p.1, p.2)) := by
    rw [show ('"' :: v ++ ['"']).length = v.length + 1 + 1 by simp, Literal.parse.eq_def]
    simp [Literal.skip, Literal.isSpace, Literal.isLineEnd]
  rw [hp] at h
  cases hq : Literal.parseStr (v ++ ['"']) with
  | none => simp [hq] at h
  | some p =>
    obtain ⟨t, r⟩ := p
    simp only [hq, Option.map_some] at h
    split at h
    · simp at h
      subst h
      have := parseStr_length _ _ _ _ (Nat.le_refl _) hq
      have hr : r = [] := by
        cases r with
        | nil => rfl
        | cons _ _ => simp at this; omega
      subst hr
      exact plain_of_parse t hq
    · simp at h

end Verif.Updater
