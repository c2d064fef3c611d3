import Verif.CString.Lem

/-! # C127: `Utilities.cStringQuote` makes string literals -/

namespace Verif.CString

theorem body_text {pr : Nat → Bool} (hp : Printable pr) {ok : Nat → Prop} {t : List Char}
    (ho : ∀ c ∈ t, (if c.toNat < 0x10000 then pr c.toNat = false ∧ simple c.toNat = none else pr c.toNat = false) → ok c.toNat) :
    Means ok (body pr (units t)) (units t) := by
  induction t with
  | nil => exact .nil
  | cons c t ih =>
    have e : units (c :: t) = utf16 c.toNat ++ units t := by simp [units]
    rw [e]
    obtain ⟨b, h1, h2⟩ := body_char hp (char_cpp c) (ho c (by simp)) (units t)
    rw [h1]
    exact h2.append (ih (fun d hd => ho d (by simp [hd])))

/-- C127: for every text, the result is a string literal of C++ that means this text. -/
theorem C127_cpp {pr : Nat → Bool} (hp : Printable pr) (t : List Char) : Literal Cpp (cStringQuote pr (units t)) (units t) :=
  ⟨body pr (units t), rfl, body_text hp (fun c _ _ => char_cpp c)⟩

theorem append_last {a b : Units} {x y : Nat} (h : a ++ [x] = b ++ [y]) : a = b := (List.append_inj' h rfl).1

/-- C127: a literal means one text only. -/
theorem C127_unique {ok : Nat → Prop} {text v w : Units} (h : Literal ok text v) (h' : Literal ok text w) : v = w := by
  obtain ⟨b, rfl, hb⟩ := h
  obtain ⟨b', e, hb'⟩ := h'
  rw [List.cons_append, List.cons_append] at e
  injection e with _ e
  have := append_last e
  subst this
  exact means_unique hb hb'

/-- C127: so different texts have different results. -/
theorem C127_different {pr : Nat → Bool} (hp : Printable pr) {s t : List Char}
    (h : cStringQuote pr (units s) = cStringQuote pr (units t)) : units s = units t := by
  have h1 := C127_cpp hp s
  rw [h] at h1
  exact C127_unique h1 (C127_cpp hp t)

/-- C127: it is a literal of C with the same meaning if characters below U+00A0 are printable or have a short escape sequence.
What is missing: other control characters. -/
theorem C127_c_partial {pr : Nat → Bool} (hp : Printable pr) {t : List Char}
    (ht : ∀ c ∈ t, c.toNat < 0xA0 → pr c.toNat = true ∨ c.toNat ∈ [8, 9, 10, 12, 13]) :
    Literal C (cStringQuote pr (units t)) (units t) := by
  refine ⟨body pr (units t), rfl, body_text hp (fun c hc h => ⟨char_cpp c, ?_⟩)⟩
  by_cases hs : c.toNat < 0xA0
  · exfalso
    rw [if_pos (by omega)] at h
    rcases ht c hc hs with h1 | h1
    · rw [h.1] at h1; cases h1
    · have h2 := h.2
      simp only [List.mem_cons, List.not_mem_nil, or_false] at h1
      rcases h1 with h1 | h1 | h1 | h1 | h1 <;> rw [h1] at h2 <;> simp [simple] at h2
  · exact .inl (by omega)

theorem escape4_ok {ok : Nat → Prop} {u : Nat} {s v : Units} (hu : u < 65536) (h : Means ok (escape4 u ++ s) v) : ok u := by
  generalize hk : escape4 u ++ s = k at h
  simp only [escape4, List.cons_append, List.nil_append] at hk
  cases h with
  | nil => cases hk
  | plain _ hc => injection hk with e _; exact absurd e.symm hc
  | @short e c l v hs _ =>
    injection hk with _ e2; injection e2 with e2 _
    subst e2; unfold shorts at hs; simp at hs
  | @number4 d n l v h1 h2 h3 _ =>
    injection hk with _ e2; injection e2 with _ e2
    have e2' : [toHexUpper (u / 4096), toHexUpper (u / 256), toHexUpper (u / 16), toHexUpper u] ++ s = d ++ l := e2
    obtain ⟨e3, -⟩ := List.append_inj e2' (by rw [h1]; rfl)
    rw [← e3] at h2
    rw [hex_unique (hex4 u hu) h2]
    exact h3
  | number8 => injection hk with _ e2; injection e2 with e2 _; cases e2

/-- What follows a readable part is readable. -/
theorem rest_means {ok ok' : Nat → Prop} {a b v w : Units} (h : Means ok a v) (h' : Means ok' (a ++ b) w)
    (hb : ∀ w, ¬ Means ok' b w) : False := by
  induction h generalizing w with
  | nil => exact hb _ h'
  | @plain c l v h1 h2 h3 h4 _ ih =>
    generalize hl : c :: l ++ b = k at h'
    cases h' with
    | nil => cases hl
    | @plain c' l' v' _ _ _ _ ht => injection hl with _ e2; exact ih (e2 ▸ ht)
    | short => injection hl with e1 _; exact h2 e1
    | number4 => injection hl with e1 _; exact h2 e1
    | number8 => injection hl with e1 _; exact h2 e1
  | @short e c l v h1 _ ih =>
    generalize hl : 92 :: e :: l ++ b = k at h'
    cases h' with
    | nil => cases hl
    | plain _ hc => injection hl with e1 _; exact hc e1.symm
    | @short e' c' l' v' hs ht => injection hl with _ e2; injection e2 with _ e3; exact ih (e3 ▸ ht)
    | number4 => injection hl with _ e2; injection e2 with e2 _; subst e2; unfold shorts at h1; simp at h1
    | number8 => injection hl with _ e2; injection e2 with e2 _; subst e2; unfold shorts at h1; simp at h1
  | @number4 d n l v h1 h2 _ _ ih =>
    generalize hl : 92 :: 117 :: (d ++ l) ++ b = k at h'
    simp only [List.cons_append, List.append_assoc] at hl
    cases h' with
    | nil => cases hl
    | plain _ hc => injection hl with e1 _; exact hc e1.symm
    | @short e' c' l' v' hs ht => injection hl with _ e2; injection e2 with e2 _; subst e2; unfold shorts at hs; simp at hs
    | @number4 d' n' l' v' k1 k2 k3 k4 =>
      injection hl with _ e2; injection e2 with _ e2
      obtain ⟨-, e3⟩ := List.append_inj e2 (by rw [h1, k1])
      exact ih (e3 ▸ k4)
    | number8 => injection hl with _ e2; injection e2 with e2 _; cases e2
  | @number8 d n l v h1 h2 _ _ ih =>
    generalize hl : 92 :: 85 :: (d ++ l) ++ b = k at h'
    simp only [List.cons_append, List.append_assoc] at hl
    cases h' with
    | nil => cases hl
    | plain _ hc => injection hl with e1 _; exact hc e1.symm
    | @short e' c' l' v' hs ht => injection hl with _ e2; injection e2 with e2 _; subst e2; unfold shorts at hs; simp at hs
    | number4 => injection hl with _ e2; injection e2 with e2 _; cases e2
    | @number8 d' n' l' v' k1 k2 k3 k4 =>
      injection hl with _ e2; injection e2 with _ e2
      obtain ⟨-, e3⟩ := List.append_inj e2 (by rw [h1, k1])
      exact ih (e3 ▸ k4)

/-- **C127 finding.** A control character without short escape sequence, as the bell, makes a literal that is not valid in C,
wherever it is in the text. -/
theorem C127_c_control {pr : Nat → Bool} (hp : Printable pr) (s t : List Char) {c : Char} (hc : c.toNat < 32)
    (hc' : c.toNat ∉ [8, 9, 10, 12, 13]) (v : Units) : ¬ Literal C (cStringQuote pr (units (s ++ c :: t))) v := by
  rintro ⟨b, hb, h⟩
  unfold cStringQuote at hb
  rw [List.cons_append, List.cons_append] at hb
  injection hb with _ hb
  have := append_last hb
  subst this
  simp only [List.mem_cons, List.not_mem_nil, or_false, not_or] at hc'
  have hn : simple c.toNat = none := by
    unfold simple
    rw [if_neg (by omega), if_neg (by omega), if_neg (by omega), if_neg (by omega), if_neg (by omega), if_neg (by omega)]
  have hh : isHigh c.toNat = false := by
    cases hx : isHigh c.toNat with
    | false => rfl
    | true => simp only [isHigh, Bool.and_eq_true, decide_eq_true_eq] at hx; omega
  -- the part before the character is read first
  have key : ∀ (s : List Char) (v : Units), ¬ Means C (body pr (units (s ++ c :: t))) v := by
    intro s
    induction s with
    | nil =>
      intro v hv
      have e : units ([] ++ c :: t) = c.toNat :: units t := by simp [units, utf16, show c.toNat < 0x10000 by omega]
      rw [e, body_number (hp.control _ hc) hn hh] at hv
      have := (escape4_ok (by omega) hv).2
      omega
    | cons d s ih =>
      intro v hv
      have e : units (d :: s ++ c :: t) = utf16 d.toNat ++ units (s ++ c :: t) := by simp [units]
      obtain ⟨b, h1, h2⟩ := body_char (ok := Cpp) hp (char_cpp d) (fun _ => char_cpp d) (units (s ++ c :: t))
      rw [e, h1] at hv
      exact rest_means h2 hv ih
  exact key s v h

/-- C127: half of a surrogate pair, which is not part of a text, makes a literal that is not valid. -/
theorem C127_surrogate {pr : Nat → Bool} (hp : Printable pr) {u : Nat} (h1 : 0xD800 ≤ u) (h2 : u < 0xE000) (v : Units) :
    ¬ Literal Cpp (cStringQuote pr [u]) v := by
  rintro ⟨b, hb, h⟩
  unfold cStringQuote at hb
  rw [List.cons_append, List.cons_append] at hb
  injection hb with _ hb
  have := append_last hb
  subst this
  have hn : simple u = none := by
    unfold simple
    rw [if_neg (by omega), if_neg (by omega), if_neg (by omega), if_neg (by omega), if_neg (by omega), if_neg (by omega)]
  have e : body pr [u] = escape4 u ++ [] := by
    rw [body.eq_def]
    simp only
    rw [if_neg (by simp [hp.surrogate u h1 h2]), hn, List.append_nil]
  rw [e] at h
  have := escape4_ok (by omega) h
  unfold Cpp at this
  omega

end Verif.CString
