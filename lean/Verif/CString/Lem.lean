import Verif.CString.Spec

namespace Verif.CString

theorem hex_digit (v : Nat) : hexValue (toHexUpper v) = some (v % 16) := by
  unfold toHexUpper hexValue
  by_cases h : v % 16 < 10
  · rw [if_pos h, if_pos (by omega)]; congr 1; omega
  · have : v % 16 < 16 := Nat.mod_lt _ (by decide)
    rw [if_neg h, if_neg (by omega), if_pos (by omega)]; congr 1; omega

theorem hex_snoc {l : Units} {n v : Nat} (h : Hex l n) : Hex (l ++ [toHexUpper v]) (n * 16 + v % 16) := .snoc h (hex_digit v)

theorem hex4 (u : Nat) (h : u < 65536) : Hex [toHexUpper (u / 4096), toHexUpper (u / 256), toHexUpper (u / 16), toHexUpper u] u := by
  have := hex_snoc (v := u) (hex_snoc (v := u / 16) (hex_snoc (v := u / 256) (hex_snoc (v := u / 4096) .nil)))
  simp only [List.nil_append, List.cons_append] at this
  have e : (((0 * 16 + u / 4096 % 16) * 16 + u / 256 % 16) * 16 + u / 16 % 16) * 16 + u % 16 = u := by omega
  rwa [e] at this

theorem hex8 (c : Nat) (h : c < 0x1000000) : Hex [48, 48, toHexUpper (c / 0x100000), toHexUpper (c / 65536), toHexUpper (c / 4096),
    toHexUpper (c / 256), toHexUpper (c / 16), toHexUpper c] c := by
  have h0 : Hex [48, 48] 0 := .snoc (l := [48]) (n := 0) (x := 0) (.snoc (l := []) (n := 0) (x := 0) .nil (by decide)) (by decide)
  have := hex_snoc (v := c) (hex_snoc (v := c / 16) (hex_snoc (v := c / 256) (hex_snoc (v := c / 4096) (hex_snoc (v := c / 65536)
    (hex_snoc (v := c / 0x100000) h0)))))
  simp only [List.nil_append, List.cons_append] at this
  have e : (((((0 * 16 + c / 0x100000 % 16) * 16 + c / 65536 % 16) * 16 + c / 4096 % 16) * 16 + c / 256 % 16) * 16 + c / 16 % 16) * 16 +
    c % 16 = c := by omega
  rwa [e] at this

theorem hex_unique {l : Units} {n m : Nat} (h : Hex l n) (h' : Hex l m) : n = m := by
  induction h generalizing m with
  | nil =>
    generalize hl : ([] : Units) = l at h'
    cases h' with
    | nil => rfl
    | snoc => simp at hl
  | @snoc l n d x hn hd ih =>
    generalize hl : l ++ [d] = k at h'
    cases h' with
    | nil => simp at hl
    | @snoc l' n' d' x' hn' hd' =>
      obtain ⟨rfl, e⟩ := List.append_inj' hl rfl
      simp only [List.cons.injEq, and_true] at e
      subst e
      rw [hd] at hd'
      cases hd'
      rw [ih hn']

theorem simple_short {u e : Nat} (h : simple u = some e) : (e, u) ∈ shorts := by
  unfold simple at h
  unfold shorts
  repeat' split at h
  all_goals first | cases h | skip
  all_goals (first | (rename_i hu; rcases hu with rfl | rfl <;> simp) | (subst_vars; simp) )

theorem Means.append {ok} {a b v w : Units} (h : Means ok a v) (h' : Means ok b w) : Means ok (a ++ b) (v ++ w) := by
  induction h with
  | nil => exact h'
  | plain h1 h2 h3 h4 _ ih => exact .plain h1 h2 h3 h4 ih
  | short h1 _ ih => exact .short h1 ih
  | number4 h1 h2 h3 _ ih =>
    rw [List.append_assoc]
    have := Means.number4 h1 h2 h3 ih
    simpa using this
  | number8 h1 h2 h3 _ ih =>
    rw [List.append_assoc]
    have := Means.number8 h1 h2 h3 ih
    simpa using this

theorem escape4_means {ok : Nat → Prop} {u : Nat} (h : u < 65536) (hu : ok u) : Means ok (escape4 u) [u] := by
  have := Means.number4 (ok := ok) (l := []) (v := []) rfl (hex4 u h) hu .nil
  simpa [escape4, utf16, h] using this

theorem escape8_means {ok : Nat → Prop} {c : Nat} (h : c < 0x1000000) (hu : ok c) : Means ok (escape8 c) (utf16 c) := by
  have := Means.number8 (ok := ok) (l := []) (v := []) rfl (hex8 c h) hu .nil
  simpa [escape8] using this

/-! The steps of the loop -/

theorem body_print {pr : Nat → Bool} {u : Nat} {s : Units} (h : pr u = true) (h1 : u ≠ 92) (h2 : u ≠ 34) :
    body pr (u :: s) = u :: body pr s := by
  rw [body.eq_def]; simp [h, h1, h2]

theorem body_simple {pr : Nat → Bool} {u e : Nat} {s : Units} (hp : pr u = false ∨ u = 92 ∨ u = 34) (h : simple u = some e) :
    body pr (u :: s) = 92 :: e :: body pr s := by
  rw [body.eq_def]
  simp only
  rw [if_neg (by rcases hp with h | h | h <;> simp [h]), h]

theorem body_number {pr : Nat → Bool} {u : Nat} {s : Units} (hp : pr u = false) (h : simple u = none) (hs : isHigh u = false) :
    body pr (u :: s) = escape4 u ++ body pr s := by
  rw [body.eq_def]
  simp only
  rw [if_neg (by simp [hp]), h]
  cases s with
  | nil => simp [body]
  | cons v t => simp [hs]

theorem body_pair {pr : Nat → Bool} {u v : Nat} {s : Units} (hp : pr u = false) (hu : isHigh u = true) (hv : isLow v = true) :
    body pr (u :: v :: s) = (if pr (toUcs4 u v) then [u, v] else escape8 (toUcs4 u v)) ++ body pr s := by
  have h : simple u = none := by
    simp only [isHigh, Bool.and_eq_true, decide_eq_true_eq] at hu
    unfold simple
    rw [if_neg (by omega), if_neg (by omega), if_neg (by omega), if_neg (by omega), if_neg (by omega), if_neg (by omega)]
  rw [body.eq_def]
  simp only
  rw [if_neg (by simp [hp]), h]
  simp [hu, hv]

theorem simple_some (u : Nat) (h : u = 34 ∨ u = 92) : ∃ e, simple u = some e := ⟨u, by unfold simple; rw [if_pos h]⟩

theorem pair_value {c : Nat} (h : 0x10000 ≤ c) (h' : c < 0x110000) :
    isHigh (0xD800 + (c - 0x10000) / 1024) = true ∧ isLow (0xDC00 + (c - 0x10000) % 1024) = true ∧
    toUcs4 (0xD800 + (c - 0x10000) / 1024) (0xDC00 + (c - 0x10000) % 1024) = c := by
  refine ⟨?_, ?_, ?_⟩
  · simp only [isHigh, Bool.and_eq_true, decide_eq_true_eq]; omega
  · simp only [isLow, Bool.and_eq_true, decide_eq_true_eq]; omega
  · unfold toUcs4; omega

/-- One character -/
theorem body_char {pr : Nat → Bool} (hp : Printable pr) {ok : Nat → Prop} {c : Nat} (hc : Cpp c)
    (ho : (if c < 0x10000 then pr c = false ∧ simple c = none else pr c = false) → ok c) (s : Units) :
    ∃ b, body pr (utf16 c ++ s) = b ++ body pr s ∧ Means ok b (utf16 c) := by
  unfold Cpp at hc
  by_cases h : c < 0x10000
  · rw [if_pos h] at ho
    simp only [utf16, if_pos h, List.singleton_append]
    by_cases hq : c = 34 ∨ c = 92
    · obtain ⟨e, he⟩ := simple_some c hq
      exact ⟨[92, e], by rw [body_simple (.inr (Or.symm hq)) he]; rfl, .short (simple_short he) .nil⟩
    · simp only [not_or] at hq
      cases hpr : pr c with
      | true =>
        refine ⟨[c], by rw [body_print hpr hq.2 hq.1]; rfl, .plain hq.1 hq.2 ?_ ?_ .nil⟩
        · rintro rfl; rw [hp.control 10 (by decide)] at hpr; cases hpr
        · rintro rfl; rw [hp.control 13 (by decide)] at hpr; cases hpr
      | false =>
        cases hs : simple c with
        | some e => exact ⟨[92, e], by rw [body_simple (.inl hpr) hs]; rfl, .short (simple_short hs) .nil⟩
        | none =>
          have hh : isHigh c = false := by
            cases hx : isHigh c with
            | false => rfl
            | true => simp only [isHigh, Bool.and_eq_true, decide_eq_true_eq] at hx; omega
          exact ⟨escape4 c, body_number hpr hs hh, escape4_means h (ho ⟨hpr, hs⟩)⟩
  · rw [if_neg h] at ho
    obtain ⟨h1, h2, h3⟩ := pair_value (c := c) (by omega) (by omega)
    simp only [utf16, if_neg h, List.cons_append, List.nil_append]
    have hu : pr (0xD800 + (c - 0x10000) / 1024) = false := hp.surrogate _ (by omega) (by omega)
    rw [body_pair hu h1 h2, h3]
    refine ⟨_, rfl, ?_⟩
    by_cases hpr : pr c = true
    · rw [if_pos hpr]
      exact .plain (by omega) (by omega) (by omega) (by omega) (.plain (by omega) (by omega) (by omega) (by omega) .nil)
    · rw [if_neg hpr]
      have hpr' : pr c = false := by simpa using hpr
      have := escape8_means (ok := ok) (c := c) (by omega) (ho hpr')
      simpa [utf16, h] using this

theorem char_cpp (c : Char) : Cpp c.toNat := by
  unfold Cpp
  have h := c.valid
  unfold UInt32.isValidChar Nat.isValidChar at h
  have e : c.toNat = c.val.toNat := rfl
  rw [e]
  omega

/-- Literals have one meaning. -/
theorem means_unique {ok} {b v w : Units} (h : Means ok b v) (h' : Means ok b w) : v = w := by
  induction h generalizing w with
  | nil =>
    generalize hl : ([] : Units) = l at h'
    cases h' <;> first | rfl | cases hl
  | @plain c l v h1 h2 h3 h4 _ ih =>
    generalize hl : c :: l = k at h'
    cases h' with
    | nil => cases hl
    | plain => injection hl with e1 e2; subst e1; subst e2; rw [ih (by assumption)]
    | short => injection hl with e1 _; exact absurd e1 h2
    | number4 => injection hl with e1 _; exact absurd e1 h2
    | number8 => injection hl with e1 _; exact absurd e1 h2
  | @short e c l v h1 _ ih =>
    generalize hl : 92 :: e :: l = k at h'
    cases h' with
    | nil => cases hl
    | plain _ hc => injection hl with e1 _; exact absurd e1.symm hc
    | @short e' c' l' v' hs ht =>
      injection hl with _ e2
      injection e2 with e2 e3
      subst e2; subst e3
      have : c = c' := by
        unfold shorts at h1 hs
        simp only [List.mem_cons, Prod.mk.injEq, List.not_mem_nil, or_false] at h1 hs
        omega
      rw [this, ih ht]
    | number4 =>
      injection hl with _ e2; injection e2 with e2 _
      subst e2; unfold shorts at h1; simp at h1
    | number8 =>
      injection hl with _ e2; injection e2 with e2 _
      subst e2; unfold shorts at h1; simp at h1
  | @number4 d n l v h1 h2 _ _ ih =>
    generalize hl : 92 :: 117 :: (d ++ l) = k at h'
    cases h' with
    | nil => cases hl
    | plain _ hc => injection hl with e1 _; exact absurd e1.symm hc
    | @short e' c' l' v' hs ht =>
      injection hl with _ e2; injection e2 with e2 _
      subst e2; unfold shorts at hs; simp at hs
    | @number4 d' n' l' v' k1 k2 k3 k4 =>
      injection hl with _ e2; injection e2 with _ e2
      obtain ⟨rfl, rfl⟩ := List.append_inj e2 (by rw [h1, k1])
      rw [hex_unique h2 k2, ih k4]
    | number8 => injection hl with _ e2; injection e2 with e2 _; cases e2
  | @number8 d n l v h1 h2 _ _ ih =>
    generalize hl : 92 :: 85 :: (d ++ l) = k at h'
    cases h' with
    | nil => cases hl
    | plain _ hc => injection hl with e1 _; exact absurd e1.symm hc
    | @short e' c' l' v' hs ht =>
      injection hl with _ e2; injection e2 with e2 _
      subst e2; unfold shorts at hs; simp at hs
    | number4 => injection hl with _ e2; injection e2 with e2 _; cases e2
    | @number8 d' n' l' v' k1 k2 k3 k4 =>
      injection hl with _ e2; injection e2 with _ e2
      obtain ⟨rfl, rfl⟩ := List.append_inj e2 (by rw [h1, k1])
      rw [hex_unique h2 k2, ih k4]

end Verif.CString
