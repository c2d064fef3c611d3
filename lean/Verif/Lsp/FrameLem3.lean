import Verif.Lsp.FrameLem2

namespace Verif.Lsp

theorem run_err (known : List Char → Bool) (xs : List (List Char)) : ∀ (fs : List Frame)
    (_ : ∀ f ∈ fs, f.Ok known) (R : List Char) (s : Rx), Inv fs R s →
    R ++ xs.flatten <+: stream fs → ∀ e, .parseError e ∈ (receiveAll true known s xs).2 →
    ∃ k done f rest p, fs = done ++ f :: rest ∧ R ++ (xs.take k).flatten = stream done ++ p ∧
      p.length < f.header.length ∧ p <+: f.header ∧
      (headerLoop known {} none 0 (linesOf p)).2 = some e := by
  induction xs with
  | nil => intro fs _ R s _ _ e he; cases he
  | cons x xs ih =>
    intro fs hfs R s hi hx e he
    rw [List.flatten_cons, ← List.append_assoc] at hx
    have hx1 : R ++ x <+: stream fs := (List.prefix_append _ _).trans hx
    simp only [receiveAll, List.mem_append] at he
    rcases step known fs hfs R x s hi hx1 with ⟨f, fs', R', rfl, h1, h2, h3⟩ | ⟨h1, h2⟩
    · have hx2 : R' ++ xs.flatten <+: stream fs' := by
        rw [h2] at hx
        have : stream (f :: fs') = f.text ++ stream fs' := by simp [stream]
        rw [this, List.append_assoc, List.prefix_append_right_inj] at hx
        exact hx
      rcases he with he | he
      · rw [h1] at he
        simp [Frame.event] at he
      · obtain ⟨k, done, g, rest, p, e1, e2, e3⟩ :=
          ih fs' (fun g hg => hfs g (by simp [hg])) R' _ h3 hx2 e he
        refine ⟨k + 1, f :: done, g, rest, p, by rw [e1]; rfl, ?_, e3⟩
        rw [List.take_succ_cons, List.flatten_cons, ← List.append_assoc, h2, List.append_assoc, e2]
        simp [stream]
    · rcases he with he | he
      · rcases h2 with h2 | ⟨f, fs', e', rfl, a1, a2, a3, a4⟩
        · rw [h2] at he; cases he
        · rw [a4] at he
          simp only [List.mem_singleton, Event.parseError.injEq] at he
          subst he
          exact ⟨1, [], f, fs', R ++ x, rfl, by simp [stream], a1, a2, a3⟩
      · obtain ⟨k, done, g, rest, p, e1, e2, e3⟩ := ih fs hfs (R ++ x) _ h1 hx e he
        refine ⟨k + 1, done, g, rest, p, e1, ?_, e3⟩
        rw [List.take_succ_cons, List.flatten_cons, ← List.append_assoc, e2]

theorem foldl_ge (b : List Char) : ∀ a : Nat, a ≤ Nat.ofDigitChars 10 b a := by
  induction b with
  | nil => intro a; simp [Nat.ofDigitChars]
  | cons c cs ih =>
    intro a
    have := ih (10 * a + (c.toNat - '0'.toNat))
    rw [Nat.ofDigitChars_cons]
    omega

theorem value_prefix (a b : List Char) : Digits.value a ≤ Digits.value (a ++ b) := by
  unfold Digits.value
  rw [Nat.ofDigitChars_append]
  exact foldl_ge b _

theorem toInt_digits (d : List Char) (h0 : d ≠ []) (hd : ∀ c ∈ d, c.isDigit = true)
    (h : Digits.value d < 2 ^ 31) : toInt d = some (Digits.value d : Int) := by
  have e : digits d = some (Digits.value d) := by
    unfold digits
    rw [if_pos ⟨h0, by simpa using hd⟩]
  have hm : ∀ x, x = d → (match x with
    | '-' :: r => (digits r).map fun n => -(n : Int)
    | '+' :: r => (digits r).map fun n => (n : Int)
    | r => (digits r).map fun n => (n : Int)) = some (Digits.value d : Int) := by
    intro x hx
    split
    · exact absurd (hd '-' (by rw [← hx]; simp)) (by decide)
    · exact absurd (hd '+' (by rw [← hx]; simp)) (by decide)
    · rw [hx, e]; rfl
  have hr : (-(2 ^ 31 : Int)) ≤ (Digits.value d : Int) ∧ (Digits.value d : Int) < 2 ^ 31 := by omega
  have hm := hm d rfl
  unfold toInt
  show (match (match d with
    | '-' :: r => (digits r).map fun n => -(n : Int)
    | '+' :: r => (digits r).map fun n => (n : Int)
    | r => (digits r).map fun n => (n : Int)) with
    | some i => if -(2 ^ 31 : Int) ≤ i ∧ i < 2 ^ 31 then some i else none
    | none => none) = _
  rw [hm]
  exact if_pos hr

/-- The header of a message without further fields. -/
theorem plain_header (f : Frame) (h1 : f.before = []) (h2 : f.behind = []) :
    f.header = contentLengthName ++ ':' :: ' ' :: (Digits.number f.content.length ++ ['\r', '\n', '\r', '\n']) := by
  unfold Frame.header
  rw [h1, h2, lengthPre, crlf]
  simp only [List.map_nil, List.flatten_nil, List.nil_append, List.append_assoc, List.cons_append]

theorem splitField_noColon (s : List Char) (h : ∀ a b, s ≠ a ++ ':' :: ' ' :: b) :
    splitField s = none := by
  induction s with
  | nil => rfl
  | cons c cs ih =>
    unfold splitField
    rw [if_neg, ih]
    · rfl
    · intro a b e
      exact h (c :: a) b (by rw [e]; rfl)
    · rintro ⟨rfl, hh⟩
      cases cs with
      | nil => cases hh
      | cons d ds =>
        simp only [List.head?_cons, Option.some.injEq] at hh
        subst hh
        exact h [] ds rfl

/-- The length of "Content-Length: ". -/
theorem headerLine_part (known : List Char → Bool) (d t : List Char) (n : Nat) (hn : n < 2 ^ 31)
    (h0 : d ≠ []) (hd : d <+: Digits.number n) (ht : t = [] ∨ t = ['\r']) :
    headerLine known {} none (contentLengthName ++ ':' :: ' ' :: (d ++ t))
      = ({ contentLength := Digits.value d }, none) := by
  have hdig : ∀ c ∈ d, c.isDigit = true := fun c hc => Digits.number_isDigit n c (hd.subset hc)
  rw [headerLine_split known {} none _ contentLengthName (d ++ t) (splitField_append _ _ (by decide))]
  have t1 : trimmed contentLengthName = contentLengthName := by decide
  have t2 : trimmed (d ++ t) = d := by
    have := trimmed_plain [] d t (fun x hx => by cases hx)
      (by rcases ht with rfl | rfl <;> decide)
      (fun x hx => digit_notBlank (hdig x hx))
    rw [List.nil_append] at this
    exact this
  rw [t1, if_pos rfl, t2, parseContentLength, toInt_digits d h0 hdig]
  obtain ⟨r, hr⟩ := hd
  have := value_prefix d r
  rw [hr, Digits.value_number] at this
  omega

theorem loop_one (known : List Char → Bool) (l : List Char) (h : '\n' ∉ l)
    (he : (headerLine known {} none l).2 = none) :
    (headerLoop known {} none 0 (linesOf l)).2 = none := by
  by_cases h0 : l = []
  · subst h0; rfl
  · rw [linesOf_part l h h0, headerLoop, if_neg, headerLoop]
    · exact he
    · intro e
      apply h
      rw [e]
      decide

theorem plain_part (known : List Char → Bool) (f : Frame) (h1 : f.before = []) (h2 : f.behind = [])
    (hl : f.content.length < 2 ^ 31) (p : List Char) (hp : p <+: f.header)
    (hlt : p.length < f.header.length) (hne : p ≠ "Content-Length: ".toList) :
    (headerLoop known {} none 0 (linesOf p)).2 = none := by
  rw [plain_header f h1 h2] at hp hlt
  generalize hn : f.content.length = n at *
  have hN : contentLengthName.length = 14 := by decide
  rcases Nat.lt_or_ge p.length 16 with hs | hs
  · -- before the value
    have hp' : p <+: contentLengthName ++ [':'] := by
      apply List.prefix_of_prefix_length_le hp
      · rw [List.prefix_append_right_inj]
        exact ⟨_, rfl⟩
      · rw [List.length_append, hN, List.length_singleton]; omega
    apply loop_one
    · intro hm
      have := hp'.subset hm
      revert this; decide
    · have hs : splitField p = none := by
        apply splitField_noColon
        intro a b e
        have hm : ' ' ∈ p := by rw [e]; simp
        have := hp'.subset hm
        revert this; decide
      unfold headerLine
      rw [hs]
  · have hpre : contentLengthName ++ [':', ' '] <+: p := by
      apply List.prefix_of_prefix_length_le _ hp
      · rw [List.length_append, hN]; exact hs
      · rw [List.prefix_append_right_inj]
        exact ⟨_, rfl⟩
    obtain ⟨q, rfl⟩ := hpre
    have hq : q <+: Digits.number n ++ ['\r', '\n', '\r', '\n'] := by
      rw [List.append_assoc, List.prefix_append_right_inj] at hp
      simpa using hp
    have hq0 : q ≠ [] := by
      intro e
      subst e
      exact hne (by rw [lengthPre, List.append_nil])
    have hqlt : q.length < (Digits.number n).length + 4 := by
      simp only [List.length_append, List.length_cons, List.length_nil, hN] at hlt
      omega
    have form : contentLengthName ++ [':', ' '] ++ q = contentLengthName ++ ':' :: ' ' :: q := by
      rw [List.append_assoc]; rfl
    rw [form]
    have nameOk : '\n' ∉ contentLengthName := by decide
    rcases Nat.lt_or_ge (Digits.number n).length q.length with hb | hb
    · obtain ⟨t, rfl⟩ : Digits.number n <+: q :=
        List.prefix_of_prefix_length_le (List.prefix_append _ _) hq (Nat.le_of_lt hb)
      rw [List.prefix_append_right_inj] at hq
      obtain ⟨u, hu⟩ := hq
      have hnd := Digits.number_ne_nil n
      match t, hu with
      | [], _ => simp at hb
      | [a], hu =>
        simp at hu
        obtain ⟨rfl, _⟩ := hu
        apply loop_one
        · simp only [List.mem_append, List.mem_cons, not_or]
          exact ⟨nameOk, by decide, by decide, number_noNewline n, by decide, by simp⟩
        · rw [headerLine_part known (Digits.number n) ['\r'] n hl hnd (List.prefix_refl _) (Or.inr rfl)]
      | [a, b], hu =>
        simp at hu
        obtain ⟨rfl, rfl, _⟩ := hu
        have := headerLoop_line known {} none 0
          ("Content-Length: ".toList ++ Digits.number n ++ "\r\n".toList) [] (length_isLine n)
        rw [headerLine_length known _ _ _ hl, lengthPre, crlf, List.append_nil] at this
        have e2 : contentLengthName ++ ':' :: ' ' :: (Digits.number n ++ ['\r', '\n'])
            = contentLengthName ++ [':', ' '] ++ Digits.number n ++ ['\r', '\n'] := by
          simp only [List.append_assoc, List.cons_append, List.nil_append]
        rw [e2, this]
        rfl
      | [a, b, c], hu =>
        simp at hu
        obtain ⟨rfl, rfl, rfl, _⟩ := hu
        have := headerLoop_line known {} none 0
          ("Content-Length: ".toList ++ Digits.number n ++ "\r\n".toList) ['\r'] (length_isLine n)
        rw [headerLine_length known _ _ _ hl, lengthPre, crlf] at this
        have e2 : contentLengthName ++ ':' :: ' ' :: (Digits.number n ++ ['\r', '\n', '\r'])
            = contentLengthName ++ [':', ' '] ++ Digits.number n ++ ['\r', '\n'] ++ ['\r'] := by
          simp only [List.append_assoc, List.cons_append, List.nil_append]
        rw [e2, this]
        rfl
      | a :: b :: c :: d :: v, hu =>
        simp only [List.length_append, List.length_cons] at hqlt
        omega
    · have hd : q <+: Digits.number n := by
        apply List.prefix_of_prefix_length_le hq (List.prefix_append _ _) hb
      apply loop_one
      · simp only [List.mem_append, List.mem_cons, not_or]
        exact ⟨nameOk, by decide, by decide, fun hm => number_noNewline n (hd.subset hm)⟩
      · have := headerLine_part known q [] n hl hq0 hd (Or.inl rfl)
        rw [List.append_nil] at this
        rw [this]

/-- Both kinds of buffer do the same when there is nothing behind the position. -/
theorem write_same (b : Buf) (x : List Char) (h : x = [] ∨ b.pos = b.data.length) :
    b.write false x = b.write true x := by
  unfold Buf.write
  rcases h with rfl | h
  · simp
  · simp [h]

theorem receive_same (known : List Char → Bool) (s : Rx) (x : List Char)
    (h : x = [] ∨ s.buf.pos = s.buf.data.length) :
    receive false known s x = receive true known s x := by
  unfold receive
  rw [write_same _ _ h]

theorem run_over (known : List Char → Bool) (xs : List (List Char)) : ∀ (fs : List Frame)
    (_ : ∀ f ∈ fs, f.Ok known) (R : List Char) (s : Rx), Inv fs R s →
    R ++ xs.flatten <+: stream fs →
    (∀ ys x zs, xs = ys ++ x :: zs → x ≠ [] → (receiveAll false known s ys).1.pending = false ∧
      ¬ InHeader fs (R ++ ys.flatten).length) →
    receiveAll false known s xs = receiveAll true known s xs := by
  induction xs with
  | nil => intros; rfl
  | cons x xs ih =>
    intro fs hfs R s hi hx hc
    have hsame : receive false known s x = receive true known s x := by
      apply receive_same
      by_cases h0 : x = []
      · exact Or.inl h0
      · right
        obtain ⟨hp, hn⟩ := hc [] x xs rfl h0
        simp only [receiveAll, List.flatten_nil, List.append_nil] at hp hn
        obtain ⟨hR, ⟨_, hb, h3⟩ | ⟨_, _, _, _, _, _, _, _, hb⟩⟩ := hi
        · have : R = [] := by
            cases fs with
            | nil => simpa [stream] using hR
            | cons f fs =>
              have hlt := h3 hp f fs rfl
              by_cases hR0 : R = []
              · exact hR0
              · exfalso
                apply hn
                refine ⟨[], f, fs, rfl, ?_, ?_⟩
                · simp [stream]
                  exact List.length_pos_iff.mpr hR0
                · simpa [stream] using hlt
          rw [hb, this]
          rfl
        · rw [hb]
    rw [List.flatten_cons, ← List.append_assoc] at hx
    have hx1 : R ++ x <+: stream fs := (List.prefix_append _ _).trans hx
    simp only [receiveAll, hsame]
    have key : receiveAll false known (receive true known s x).1 xs
        = receiveAll true known (receive true known s x).1 xs := by
      rcases step known fs hfs R x s hi hx1 with ⟨f, fs', R', rfl, h1, h2, h3⟩ | ⟨h1, h2⟩
      · have hst : stream (f :: fs') = f.text ++ stream fs' := by simp [stream]
        refine ih fs' (fun g hg => hfs g (by simp [hg])) R' _ h3 ?_ ?_
        · rw [h2, hst, List.append_assoc, List.prefix_append_right_inj] at hx
          exact hx
        · intro ys y zs e hy
          obtain ⟨a1, a2⟩ := hc (x :: ys) y zs (by rw [e]; rfl) hy
          simp only [receiveAll, hsame] at a1
          refine ⟨a1, ?_⟩
          rintro ⟨done, g, rest, e1, e2, e3⟩
          apply a2
          refine ⟨f :: done, g, rest, by rw [e1]; rfl, ?_, ?_⟩
          · rw [List.flatten_cons, ← List.append_assoc, h2]
            have : stream (f :: done) = f.text ++ stream done := by simp [stream]
            rw [this]
            simp only [List.length_append] at e2 ⊢
            omega
          · rw [List.flatten_cons, ← List.append_assoc, h2]
            have : stream (f :: done) = f.text ++ stream done := by simp [stream]
            rw [this]
            simp only [List.length_append] at e3 ⊢
            omega
      · refine ih fs hfs (R ++ x) _ h1 hx ?_
        intro ys y zs e hy
        obtain ⟨a1, a2⟩ := hc (x :: ys) y zs (by rw [e]; rfl) hy
        simp only [receiveAll, hsame] at a1
        rw [List.flatten_cons, ← List.append_assoc] at a2
        exact ⟨a1, a2⟩
    rw [key]

end Verif.Lsp
