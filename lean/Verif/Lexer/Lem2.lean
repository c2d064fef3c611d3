import Verif.Lexer.Lem1
/-!
# Positions in the text
-/
namespace Verif.Lexer

/-- The offset after the last newline before the offset `k`. -/
def lineStart (code : Str) (k : Nat) : Nat :=
  (code.take k).length - ((code.take k).reverse.takeWhile (· ≠ '\n')).length

theorem takeWhile_le (p : Char → Bool) (l : Str) : (l.takeWhile p).length ≤ l.length :=
  (List.takeWhile_prefix p).length_le

theorem take_succ_of_drop (code : Str) (k : Nat) (c : Char) (r : Str)
    (h : code.drop k = c :: r) : code.take (k + 1) = code.take k ++ [c] := by
  have hk : k < code.length := by
    rcases Nat.lt_or_ge k code.length with h1 | h1
    · exact h1
    · rw [List.drop_eq_nil_of_le h1] at h; cases h
  rw [List.take_succ_eq_append_getElem hk]
  congr
  have := List.getElem_cons_drop (h := hk)
  rw [h] at this
  grind

theorem take_succ_of_nil (code : Str) (k : Nat) (h : code.drop k = []) :
    code.take (k + 1) = code.take k := by
  have : code.length ≤ k := by simpa using h
  rw [List.take_of_length_le this, List.take_of_length_le (by omega)]

theorem lineStart_newline (code : Str) (k : Nat) (r : Str) (h : code.drop k = '\n' :: r) :
    lineStart code (k + 1) = k + 1 := by
  have hk : k < code.length := by
    rcases Nat.lt_or_ge k code.length with h1 | h1
    · exact h1
    · rw [List.drop_eq_nil_of_le h1] at h; cases h
  unfold lineStart
  rw [take_succ_of_drop code k _ r h]
  simp
  omega

theorem lineStart_other (code : Str) (k : Nat) (h : hd (code.drop k) ≠ '\n') :
    lineStart code (k + 1) = lineStart code k := by
  unfold lineStart
  cases hd' : code.drop k with
  | nil => rw [take_succ_of_nil code k hd']
  | cons c r =>
    rw [hd'] at h
    have hc : c ≠ '\n' := h
    rw [take_succ_of_drop code k c r hd']
    simp [hc]

theorem columnOf_eq (code : Str) (k : Nat) (hk : k ≤ code.length) :
    (columnOf code k : Int) = (k : Int) - lineStart code k + 1 := by
  have h := takeWhile_le (· ≠ '\n') (code.take k).reverse
  simp only [List.length_reverse, List.length_take] at h
  unfold columnOf lineStart
  simp only [List.length_take]
  have hm : min k code.length = k := by omega
  rw [hm] at h ⊢
  omega

/-- The state of the lexer belongs to the text. -/
structure At (code : Str) (line0 : Nat) (l : Lx) : Prop where
  place : (l.codePtr = 0 ∧ l.cur = '\n' :: code) ∨
    (0 < l.codePtr ∧ l.codePtr ≤ code.length + 1 ∧ l.cur = code.drop (l.codePtr - 1))
  line : l.line = line0 + (code.take l.codePtr).count '\n'
  last : l.lastLinePtr = lineStart code l.codePtr

theorem at_setCode (code : Str) (line0 : Nat) : At code line0 (setCode code line0) :=
  ⟨Or.inl ⟨rfl, rfl⟩, by simp [setCode], by simp [setCode, lineStart]⟩

/-- Members of the state that reading a character does not change. -/
structure Keep (l l' : Lx) : Prop where
  tokenLinePtr : l'.tokenLinePtr = l.tokenLinePtr
  tokenStart : l'.tokenStart = l.tokenStart
  tokenLine : l'.tokenLine = l.tokenLine
  tokenText : l'.tokenText = l.tokenText
  tokenKind : l'.tokenKind = l.tokenKind
  stackToken : l'.stackToken = l.stackToken
  restricted : l'.restricted = l.restricted
  terminator : l'.terminator = l.terminator
  delimited : l'.delimited = l.delimited
  prohibit : l'.prohibit = l.prohibit
  comments : l'.comments = l.comments

theorem Keep.refl (l : Lx) : Keep l l := ⟨rfl, rfl, rfl, rfl, rfl, rfl, rfl, rfl, rfl, rfl, rfl⟩

theorem Keep.trans {a b c : Lx} (h : Keep a b) (k : Keep b c) : Keep a c :=
  ⟨k.1.trans h.1, k.2.trans h.2, k.3.trans h.3, k.4.trans h.4, k.5.trans h.5, k.6.trans h.6,
    k.7.trans h.7, k.8.trans h.8, k.9.trans h.9, k.10.trans h.10, k.11.trans h.11⟩

theorem scanChar_some (l : Lx) (c : Char) (r : Str) (h : l.cur = c :: r) :
    ∃ l', scanChar l = some l' ∧ l'.cur = r ∧ l'.codePtr = l.codePtr + 1 ∧ Keep l l' := by
  unfold scanChar
  rw [h]
  simp only
  split
  · exact ⟨_, rfl, rfl, rfl, ⟨rfl, rfl, rfl, rfl, rfl, rfl, rfl, rfl, rfl, rfl, rfl⟩⟩
  · exact ⟨_, rfl, rfl, rfl, ⟨rfl, rfl, rfl, rfl, rfl, rfl, rfl, rfl, rfl, rfl, rfl⟩⟩

theorem at_cur (code : Str) (line0 : Nat) (l : Lx) (h : At code line0 l) (c : Char) (r : Str)
    (hc : l.cur = c :: r) : r = code.drop l.codePtr := by
  rcases h.place with ⟨h1, h2⟩ | ⟨h1, h2, h3⟩
  · rw [h2] at hc; cases hc; simp [h1]
  · rw [h3] at hc
    have : code.drop l.codePtr = (code.drop (l.codePtr - 1)).drop 1 := by
      rw [List.drop_drop]; congr 1; omega
    rw [this, hc]; rfl

theorem at_scanChar (code : Str) (line0 : Nat) (l l' : Lx) (h : At code line0 l)
    (hs : scanChar l = some l') : At code line0 l' ∧ l'.codePtr = l.codePtr + 1 ∧
      l'.cur = code.drop l.codePtr ∧ l.cur.length = l'.cur.length + 1 := by
  cases hc : l.cur with
  | nil => simp [scanChar, hc] at hs
  | cons c r =>
    have hr := at_cur code line0 l h c r hc
    have hle : l.codePtr ≤ code.length := by
      rcases h.place with ⟨h1, _⟩ | ⟨h1, h2, h3⟩
      · omega
      · rw [h3] at hc
        rcases Nat.lt_or_ge (l.codePtr - 1) code.length with h4 | h4
        · omega
        · rw [List.drop_eq_nil_of_le h4] at hc; cases hc
    unfold scanChar at hs
    rw [hc] at hs
    simp only at hs
    split at hs
    · rename_i hn
      cases hs
      have hcons : ∃ r', code.drop l.codePtr = '\n' :: r' := by
        rw [← hr]
        cases hr' : r with
        | nil => rw [hr'] at hn; cases hn
        | cons d r' => rw [hr'] at hn; exact ⟨r', by rw [← show d = '\n' from hn]⟩
      obtain ⟨r', hr'⟩ := hcons
      refine ⟨⟨Or.inr ⟨by simp, by simp; omega, by simp [hr]⟩, ?_, ?_⟩, rfl, hr, by simp⟩
      · simp only
        rw [take_succ_of_drop code l.codePtr _ r' hr', h.line]
        simp; omega
      · simp only
        rw [lineStart_newline code _ r' hr']
    · rename_i hn
      cases hs
      rw [hr] at hn
      refine ⟨⟨Or.inr ⟨by simp, by simp; omega, by simp [hr]⟩, ?_, ?_⟩, rfl, hr, by simp⟩
      · simp only
        rw [h.line]
        cases hr' : code.drop l.codePtr with
        | nil => rw [take_succ_of_nil code _ hr']
        | cons d r' =>
          rw [hr'] at hn
          rw [take_succ_of_drop code _ d r' hr']
          have : d ≠ '\n' := hn
          simp [this]
      · simp only
        rw [lineStart_other code _ hn, h.last]

theorem at_scanChars (code : Str) (line0 : Nat) : ∀ (n : Nat) (l : Lx), At code line0 l →
    n ≤ l.cur.length → ∃ l', scanChars n l = some l' ∧ At code line0 l' ∧
      l'.codePtr = l.codePtr + n ∧ l'.cur = l.cur.drop n ∧ Keep l l' := by
  intro n
  induction n with
  | zero => intro l h _; exact ⟨l, rfl, h, rfl, rfl, Keep.refl l⟩
  | succ n ih =>
    intro l h hn
    cases hc : l.cur with
    | nil => rw [hc] at hn; simp at hn
    | cons c r =>
      obtain ⟨l1, h1, h2, h3, h4⟩ := scanChar_some l c r hc
      obtain ⟨ha, _, _, _⟩ := at_scanChar code line0 l l1 h h1
      obtain ⟨l2, g1, g2, g3, g4, g5⟩ := ih l1 ha (by rw [h2]; rw [hc] at hn; simpa using hn)
      refine ⟨l2, ?_, g2, by omega, ?_, h4.trans g5⟩
      · simp only [scanChars, h1, g1]
      · rw [g4, h2]; simp

/-- Skipping to an end of the text. -/
theorem at_skip (code : Str) (line0 : Nat) (l : Lx) (rest : Str) (h : At code line0 l)
    (hs : rest <:+ l.cur) :
    ∃ l', scanChars (l.cur.length - rest.length) l = some l' ∧ At code line0 l' ∧
      l'.codePtr = l.codePtr + (l.cur.length - rest.length) ∧ l'.cur = rest ∧ Keep l l' := by
  obtain ⟨l', h1, h2, h3, h4, h5⟩ := at_scanChars code line0 (l.cur.length - rest.length) l h
    (Nat.sub_le _ _)
  exact ⟨l', h1, h2, h3, by rw [h4]; exact (List.suffix_iff_eq_drop.1 hs).symm, h5⟩

end Verif.Lexer
