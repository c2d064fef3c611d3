import Verif.Lexer.Lem7
/-!
# Strings, and reading behind the end
-/
namespace Verif.Lexer

/-! ### Reading behind the end -/

/-- The text ends in the middle of an escape sequence. -/
def BadEnd (s : Str) : Prop := ['\\'] <:+ s ∨ ['\\', '0'] <:+ s

theorem badEnd_mono {a b : Str} (h : BadEnd a) (k : a <:+ b) : BadEnd b := by
  rcases h with h | h
  · exact Or.inl (h.trans k)
  · exact Or.inr (h.trans k)

theorem escape_none (u : Uni) (s : Str) (h : escape u s = none) : s = [] ∨ s = ['0'] := by
  unfold escape at h
  (repeat' split at h) <;> first | (cases h; done) | (left; rfl) | (right; subst_vars; rfl)

theorem strLoop_oob (u : Uni) (q : Char) : ∀ n multi acc s, s.length < n →
    strLoop u q n multi acc s = .oob → BadEnd s := by
  intro n
  induction n with
  | zero => intro _ _ _ h; omega
  | succ n ih =>
    intro multi acc s hn h
    unfold strLoop at h
    split at h
    · cases h
    · rename_i c r
      simp only [List.length_cons] at hn
      split at h
      · cases h
      split at h
      · exact badEnd_mono (ih _ _ _ (by omega) h) (List.suffix_cons _ _)
      split at h
      · cases h
      split at h
      · rename_i hc
        split at h
        · rename_i he
          subst hc
          rcases escape_none u r he with rfl | rfl
          · exact Or.inl List.suffix_rfl
          · exact Or.inr List.suffix_rfl
        · rename_i x r' he
          have hs := escape_suffix u r x r' he
          have := hs.length_le
          exact badEnd_mono (ih _ _ _ (by omega) h) (suffix_cons _ hs)
      · exact badEnd_mono (ih _ _ _ (by omega) h) (List.suffix_cons _ _)

theorem scanString_oob (u : Uni) (q : Char) (s : Str) (h : scanString u q s = .oob) :
    BadEnd s := by
  unfold scanString at h
  simp only at h
  split at h
  · cases h
  · exact badEnd_mono (strLoop_oob u q _ _ _ _ (Nat.lt_succ_self _) h) (strPlain_suffix q s)

theorem identLoop_oob (u : Uni) (hu : UniOk u) (qml : Bool) : ∀ esc t s,
    identLoop u qml esc t s ≠ .oob := by
  intro esc t s
  have hend : ∀ esc t r, identLoop.endOfWord qml esc t r ≠ .oob := by
    intro esc t r h
    unfold identLoop.endOfWord at h
    split at h
    · cases h
    · split at h <;> cases h
  fun_induction identLoop u qml esc t s
  case case1 => rename_i h; rw [hu.backslash] at h; cases h
  case case2 => rename_i ih; exact ih
  case case3 => intro h; cases h
  case case4 => intro h; cases h
  case case5 => exact hend _ _ _
  case case6 => rename_i ih; exact ih
  case case7 => exact hend _ _ _

theorem body_oob (u : Uni) (hu : UniOk u) (qml : Bool) (ch : Char) (s : Str)
    (h : body u qml ch s = .oob) : BadEnd s := by
  have hdec : ∀ a b, decimal u a b ≠ .oob := by
    intro a b h; unfold decimal at h; split at h <;> cases h
  have hnum : scanNumber u ch s ≠ .oob := by
    intro h
    unfold scanNumber at h
    simp only at h
    split at h
    · cases h
    split at h
    · cases h
    split at h
    · exact hdec _ _ h
    · split at h
      · cases h
      · exact hdec _ _ h
  have hw : scanWord u qml ch s ≠ .oob := by
    intro h
    unfold scanWord at h
    split at h
    · split at h
      · exact identLoop_oob u hu qml _ _ _ h
      · cases h
    · exact identLoop_oob u hu qml _ _ _ h
  unfold body at h
  simp only at h
  split at h <;> (repeat' split at h) <;>
    first
    | exact scanString_oob u _ s h
    | exact absurd h hnum
    | exact absurd h hw
    | exact absurd h (hdec _ _)
    | (cases h; done)

/-! ### The values of strings -/

theorem hex_ok : ∀ e ∈ hexTable, isHexDigit e.1 = true ∧ convertHex e.1 = e.2 := by
  decide +kernel

theorem escape_single (u : Uni) (c x : Char) (r : Str) (h : (c, x) ∈ singleEscapes) :
    escape u (c :: r) = some (x, r) := by
  simp only [singleEscapes, List.mem_cons, Prod.mk.injEq, List.not_mem_nil, or_false] at h
  rcases h with ⟨rfl, rfl⟩ | ⟨rfl, rfl⟩ | ⟨rfl, rfl⟩ | ⟨rfl, rfl⟩ | ⟨rfl, rfl⟩ | ⟨rfl, rfl⟩ |
    ⟨rfl, rfl⟩ | ⟨rfl, rfl⟩ | ⟨rfl, rfl⟩ <;> simp [escape]

theorem escape_other (u : Uni) (c : Char) (r : Str) (h1 : ∀ x, (c, x) ∉ singleEscapes)
    (h2 : c ∉ lineTerminators) (h4 : c.toNat < 48 ∨ 57 < c.toNat) (h5 : c ≠ 'x') (h6 : c ≠ 'u')
    (h7 : c ≠ 'X') : escape u (c :: r) = some (c, r) := by
  have e : ∀ d x, (d, x) ∈ singleEscapes → c ≠ d := by
    rintro d x hd rfl; exact h1 x hd
  have e0 : c ≠ '0' := by rintro rfl; simp at h4
  have e1 : c ≠ '\r' := by rintro rfl; simp [lineTerminators] at h2
  unfold escape
  simp only
  rw [if_neg h6, if_neg (by simp [h5, h7]), if_neg (e 'b' '\x08' (by decide)),
    if_neg (e 'f' '\x0c' (by decide)), if_neg (e 'n' '\n' (by decide)),
    if_neg (e 'r' '\r' (by decide)), if_neg (e 't' '\t' (by decide)),
    if_neg (e 'v' '\x0b' (by decide)), if_neg e0, if_neg e1]

theorem escape_hex (u : Uni) (c1 c2 : Char) (n1 n2 : Nat) (r : Str) (h1 : (c1, n1) ∈ hexTable)
    (h2 : (c2, n2) ∈ hexTable) :
    escape u ('x' :: c1 :: c2 :: r) = some (Char.ofNat (n1 * 16 + n2), r) := by
  obtain ⟨a1, a2⟩ := hex_ok _ h1
  obtain ⟨b1, b2⟩ := hex_ok _ h2
  simp only at a1 a2 b1 b2
  simp [escape, a1, b1, convertHex2, a2, b2]

theorem escape_unicode (u : Uni) (c1 c2 c3 c4 : Char) (n1 n2 n3 n4 : Nat) (r : Str)
    (h1 : (c1, n1) ∈ hexTable) (h2 : (c2, n2) ∈ hexTable) (h3 : (c3, n3) ∈ hexTable)
    (h4 : (c4, n4) ∈ hexTable) : escape u ('u' :: c1 :: c2 :: c3 :: c4 :: r) =
      some (Char.ofNat (((n1 * 16 + n2) * 16 + n3) * 16 + n4), r) := by
  obtain ⟨a1, a2⟩ := hex_ok _ h1
  obtain ⟨b1, b2⟩ := hex_ok _ h2
  obtain ⟨d1, d2⟩ := hex_ok _ h3
  obtain ⟨e1, e2⟩ := hex_ok _ h4
  simp only at a1 a2 b1 b2 d1 d2 e1 e2
  simp [escape, decodeUnicode, a1, b1, d1, e1, convertUnicode, a2, b2, d2, e2]
  congr 1; omega

theorem quote_digit (u : Uni) (hu : UniOk u) (q : Char) (hq : q = '"' ∨ q = '\'') :
    u.isDigit q = false := by
  cases h : u.isDigit q with
  | false => rfl
  | true =>
    rcases hq with rfl | rfl
    · have := (hu.asciiDigits '"' (by decide)).1 h
      exact absurd this (by decide)
    · have := (hu.asciiDigits '\'' (by decide)).1 h
      exact absurd this (by decide)

theorem escape_zero (u : Uni) (hu : UniOk u) (q : Char) (hq : q = '"' ∨ q = '\'') (s rest : Str)
    (h : ∀ d, s.tail.head? = some d → u.isDigit d = false) (hr : u.isDigit (hd rest) = false) :
    escape u ('0' :: (s ++ q :: rest)) = some (nul, s ++ q :: rest) := by
  have hqd := quote_digit u hu q hq
  unfold escape
  simp only [show ('0' : Char) ≠ 'u' by decide, if_false]
  rw [if_neg (by decide), if_neg (by decide), if_neg (by decide), if_neg (by decide),
    if_neg (by decide), if_neg (by decide), if_neg (by decide), if_pos trivial]
  cases s with
  | nil => simp [hr]
  | cons a s =>
    cases s with
    | nil => simp [hd, hqd]
    | cons b s => simp [hd, h b rfl]

theorem strLoop_denotes (u : Uni) (hu : UniOk u) (q : Char) (hq : q = '"' ∨ q = '\'') (rest : Str)
    (hr : u.isDigit (hd rest) = false) (src v : Str) (h : Denotes u true q src v) :
    ∀ n multi acc, src.length < n → strLoop u q n multi acc (src ++ q :: rest) =
      .tok (if multi = true ∨ '\n' ∈ src then .multilineStringLiteral else .stringLiteral)
        (some (acc ++ v)) rest := by
  have q1 : q ≠ nul := by rcases hq with rfl | rfl <;> decide
  have q2 : q ≠ '\n' := by rcases hq with rfl | rfl <;> decide
  have q3 : q ≠ '\\' := by rcases hq with rfl | rfl <;> decide
  have step : ∀ n multi acc r x r', escape u r = some (x, r') →
      strLoop u q (n + 1) multi acc ('\\' :: r) = strLoop u q n multi (acc ++ [x]) r' := by
    intro n multi acc r x r' he
    conv => lhs; unfold strLoop
    simp only
    rw [if_neg (by decide), if_neg (by decide), if_neg (Ne.symm q3), if_pos trivial, he]
  induction h with
  | nil =>
    intro n multi acc hn
    obtain ⟨n, rfl⟩ : ∃ m, n = m + 1 := ⟨n - 1, by simp at hn; omega⟩
    simp only [List.nil_append]
    unfold strLoop
    simp only
    rw [if_neg q1, if_neg q2, if_pos trivial]
    simp
  | plain c s v h1 h2 h3 _ ih =>
    intro n multi acc hn
    obtain ⟨n, rfl⟩ : ∃ m, n = m + 1 := ⟨n - 1, by simp at hn; omega⟩
    simp only [List.length_cons] at hn
    simp only [List.cons_append]
    conv => lhs; unfold strLoop
    simp only
    rw [if_neg h3]
    by_cases hc : c = '\n'
    · rw [if_pos hc, ih n _ _ (by omega)]
      simp [hc]
    · rw [if_neg hc, if_neg h1, if_neg h2, ih n _ _ (by omega)]
      simp [Ne.symm hc]
  | single c x s v h1 _ ih =>
    intro n multi acc hn
    obtain ⟨n, rfl⟩ : ∃ m, n = m + 1 := ⟨n - 1, by simp at hn; omega⟩
    simp only [List.length_cons] at hn
    have hc : c ≠ '\n' := by
      rintro rfl; revert h1; simp [singleEscapes]
    rw [List.cons_append, List.cons_append, step n multi acc _ x _ (escape_single u c x _ h1),
      ih n _ _ (by omega)]
    simp [Ne.symm hc]
  | other c s v h1 h2 h3 h4 h5 h6 h7 _ ih =>
    intro n multi acc hn
    obtain ⟨n, rfl⟩ : ∃ m, n = m + 1 := ⟨n - 1, by simp at hn; omega⟩
    simp only [List.length_cons] at hn
    have hc : c ≠ '\n' := by
      rintro rfl; simp [lineTerminators] at h2
    rw [List.cons_append, List.cons_append, step n multi acc _ c _
      (escape_other u c _ h1 h2 h4 h5 h6 (h7 rfl)), ih n _ _ (by omega)]
    simp [Ne.symm hc]
  | hex c1 c2 n1 n2 s v h1 h2 _ ih =>
    intro n multi acc hn
    obtain ⟨n, rfl⟩ : ∃ m, n = m + 1 := ⟨n - 1, by simp at hn; omega⟩
    simp only [List.length_cons] at hn
    have hx : ∀ e ∈ hexTable, e.1 ≠ '\n' := by decide
    have e1 := hx _ h1
    have e2 := hx _ h2
    simp only at e1 e2
    simp only [List.cons_append]
    rw [step n multi acc _ _ _ (escape_hex u c1 c2 n1 n2 _ h1 h2), ih n _ _ (by omega)]
    simp [Ne.symm e1, Ne.symm e2]
  | unicode c1 c2 c3 c4 n1 n2 n3 n4 s v h1 h2 h3 h4 _ _ ih =>
    intro n multi acc hn
    obtain ⟨n, rfl⟩ : ∃ m, n = m + 1 := ⟨n - 1, by simp at hn; omega⟩
    simp only [List.length_cons] at hn
    have hx : ∀ e ∈ hexTable, e.1 ≠ '\n' := by decide
    have e1 := hx _ h1
    have e2 := hx _ h2
    have e3 := hx _ h3
    have e4 := hx _ h4
    simp only at e1 e2 e3 e4
    simp only [List.cons_append]
    rw [step n multi acc _ _ _ (escape_unicode u c1 c2 c3 c4 n1 n2 n3 n4 _ h1 h2 h3 h4),
      ih n _ _ (by omega)]
    simp [Ne.symm e1, Ne.symm e2, Ne.symm e3, Ne.symm e4]
  | zero s v _ h2 _ ih =>
    intro n multi acc hn
    obtain ⟨n, rfl⟩ : ∃ m, n = m + 1 := ⟨n - 1, by simp at hn; omega⟩
    simp only [List.length_cons] at hn
    simp only [List.cons_append]
    rw [step n multi acc _ _ _ (escape_zero u hu q hq s rest (h2 rfl) hr), ih n _ _ (by omega)]
    simp
  | continuation c s v h => cases h

theorem strPlain_denotes (u : Uni) (q : Char) (rest src v : Str)
    (h : Denotes u true q src v) : ∃ a b v', strPlain q (src ++ q :: rest) = (a, b ++ q :: rest) ∧
      src = a ++ b ∧ '\n' ∉ a ∧ v = a ++ v' ∧ Denotes u true q b v' ∧
      (b = [] ∨ b.head? = some '\n' ∨ b.head? = some '\\') := by
  have stop : ∀ r v, Denotes u true q ('\\' :: r) v →
      ∃ a b v', strPlain q ('\\' :: r ++ q :: rest) = (a, b ++ q :: rest) ∧
        '\\' :: r = a ++ b ∧ '\n' ∉ a ∧ v = a ++ v' ∧ Denotes u true q b v' ∧
        (b = [] ∨ b.head? = some '\n' ∨ b.head? = some '\\') := by
    intro r v hd
    refine ⟨[], '\\' :: r, v, ?_, rfl, by simp, rfl, hd, Or.inr (Or.inr rfl)⟩
    simp [strPlain]
  induction h with
  | nil => exact ⟨[], [], [], by simp [strPlain], rfl, by simp, rfl, .nil, Or.inl rfl⟩
  | plain c s v h1 h2 h3 hd ih =>
    obtain ⟨a, b, v', g1, g2, g3, g4, g5, g6⟩ := ih
    by_cases hc : c = '\n'
    · refine ⟨[], c :: s, c :: v, ?_, rfl, by simp, rfl, .plain c s v h1 h2 h3 hd,
        Or.inr (Or.inl (by simp [hc]))⟩
      simp [strPlain, hc]
    · refine ⟨c :: a, b, v', ?_, by simp [g2], by simp [g3, Ne.symm hc], by simp [g4], g5, g6⟩
      simp only [List.cons_append, strPlain]
      rw [if_neg (by simp [h1, h2, h3, hc]), g1]
  | single c x s v h1 hd _ => exact stop _ _ (.single c x s v h1 hd)
  | other c s v h1 h2 h3 h4 h5 h6 h7 hd _ => exact stop _ _ (.other c s v h1 h2 h3 h4 h5 h6 h7 hd)
  | hex c1 c2 n1 n2 s v h1 h2 hd _ => exact stop _ _ (.hex c1 c2 n1 n2 s v h1 h2 hd)
  | unicode c1 c2 c3 c4 n1 n2 n3 n4 s v h1 h2 h3 h4 h5 hd _ =>
    exact stop _ _ (.unicode c1 c2 c3 c4 n1 n2 n3 n4 s v h1 h2 h3 h4 h5 hd)
  | zero s v h1 h2 hd _ => exact stop _ _ (.zero s v h1 h2 hd)
  | continuation c s v h => cases h

theorem scanString_denotes (u : Uni) (hu : UniOk u) (q : Char) (hq : q = '"' ∨ q = '\'')
    (rest : Str) (hr : u.isDigit (hd rest) = false) (src v : Str) (h : Denotes u true q src v) :
    scanString u q (src ++ q :: rest) =
      .tok (if '\n' ∈ src then .multilineStringLiteral else .stringLiteral) (some v) rest := by
  obtain ⟨a, b, v', g1, g2, g3, g4, g5, g6⟩ := strPlain_denotes u q rest src v h
  unfold scanString
  simp only [g1]
  by_cases hb : b = []
  · subst hb
    cases g5
    simp only [List.append_nil] at g2 g4
    subst g2; subst g4
    simp [hd, g3]
  · have hne : hd (b ++ q :: rest) ≠ q := by
      obtain ⟨c, b', rfl⟩ := List.exists_cons_of_ne_nil hb
      rcases g6 with g6 | g6 | g6
      · cases g6
      · simp at g6; subst g6; rcases hq with rfl | rfl <;> simp [hd]
      · simp at g6; subst g6; rcases hq with rfl | rfl <;> simp [hd]
    rw [if_neg hne, strLoop_denotes u hu q hq rest hr b v' g5 _ _ _ (by simp; omega)]
    rw [← g4]
    have : '\n' ∈ src ↔ '\n' ∈ b := by rw [g2]; simp [g3]
    simp [this]

theorem body_string (u : Uni) (hu : UniOk u) (qml : Bool) (q : Char) (hq : q = '"' ∨ q = '\'')
    (rest : Str) (hr : u.isDigit (hd rest) = false) (src v : Str) (h : Denotes u true q src v) :
    body u qml q (src ++ q :: rest) =
      .tok (if '\n' ∈ src then .multilineStringLiteral else .stringLiteral) (some v) rest := by
  rw [← scanString_denotes u hu q hq rest hr src v h]
  rcases hq with rfl | rfl <;> rfl

end Verif.Lexer
