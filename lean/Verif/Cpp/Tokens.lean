import Verif.Cpp.Lem
/-!
# C58: tokens of well-formed lines
-/
namespace Verif.Cpp

/-! ## Parts of literals and comments -/

theorem untilEol_blanks (q : Option Char) : ∀ (ws : List Cp) (t : List Cp), (∀ u ∈ ws, Blank u) →
    untilEol q .space (ws ++ ch '\n' :: t) = untilEol q .no t := by
  intro ws
  induction ws with
  | nil => intro t _; simp [untilEol, ch]
  | cons u ws ih =>
    intro t h
    obtain ⟨h1, h2⟩ := h u (by simp)
    simp only [List.cons_append, untilEol, h1, h2, if_true, if_false]
    exact ih t (fun v hv => h v (by simp [hv]))

theorem untilEol_part (q : Option Char) (hq : q ≠ some '\\') (p : Part) (t : List Cp) (h : p.Ok q) :
    untilEol q .no (p.text ++ t) = untilEol q .no t := by
  have hb : some '\\' ≠ q := fun e => hq e.symm
  have hs : isSpace '\\' = false := by decide
  have hsn : isSpace '\n' = true := by decide
  cases p with
  | ch u =>
    obtain ⟨h1, h2, h3⟩ := h
    simp [Part.text, untilEol, h1, h2, h3]
  | esc u =>
    have h' : isSpace u.1 = false := h
    simp [Part.text, untilEol, ch, hb, h']
  | splice ws =>
    have h' : ∀ u ∈ ws, Blank u := h
    simp only [Part.text, List.cons_append, List.append_assoc, List.nil_append]
    rw [untilEol]
    simp only [ch, hb, if_false]
    rw [if_neg (by decide), if_pos trivial]
    cases ws with
    | nil => simp [untilEol, hsn]
    | cons u ws =>
      obtain ⟨h1, h2⟩ := h' u (by simp)
      simp only [List.cons_append, untilEol, h1, h2, if_true, if_false]
      exact untilEol_blanks q ws t (fun v hv => h' v (by simp [hv]))

theorem untilEol_parts (q : Option Char) (hq : q ≠ some '\\') : ∀ (ps : List Part) (t : List Cp), (∀ p ∈ ps, p.Ok q) →
    untilEol q .no (partsText ps ++ t) = untilEol q .no t := by
  intro ps
  induction ps with
  | nil => intro t _; rfl
  | cons p ps ih =>
    intro t h
    have : partsText (p :: ps) ++ t = p.text ++ (partsText ps ++ t) := by simp [partsText]
    rw [this, untilEol_part q hq p _ (h p (by simp)), ih t (fun x hx => h x (by simp [hx]))]

theorem literal_rest (q : Char) (hq : q = '"' ∨ q = '\'') (ps : List Part) (t : List Cp) (h : ∀ p ∈ ps, p.Ok (some q)) :
    untilEol (some q) .no (partsText ps ++ ch q :: t) = t := by
  rw [untilEol_parts (some q) (by rcases hq with rfl | rfl <;> decide) ps _ h]
  simp [untilEol, ch]

/-! ## Gaps -/

theorem skip_blanks (nl e : Bool) : ∀ (ws : List Cp) (t : List Cp), (∀ u ∈ ws, Blank u) →
    skip (.ws e) nl (ws ++ t) = skip (.ws e) nl t := by
  intro ws
  induction ws with
  | nil => intro t _; rfl
  | cons u ws ih =>
    intro t h
    obtain ⟨h1, h2⟩ := h u (by simp)
    simp only [List.cons_append, skip, h1, h2, if_true, if_false]
    exact ih t (fun v hv => h v (by simp [hv]))

theorem skip_block (nl : Bool) : ∀ (x : List Cp) (t : List Cp) (star : Bool), noEnd x → (star = true → peek x ≠ '/') →
    skip (.block star) nl (x ++ ch '*' :: ch '/' :: t) = skip (.ws false) nl t := by
  intro x
  induction x with
  | nil =>
    intro t star _ _
    cases star <;> simp [skip, ch]
  | cons u x ih =>
    intro t star h hs
    obtain ⟨h1, h2⟩ := h
    simp only [List.cons_append, skip]
    rw [if_neg (fun hh => hs hh.1 (by simpa [peek] using hh.2))]
    apply ih t _ h2
    intro hu hp
    exact h1 ⟨by simpa using hu, hp⟩

/-- A gap is skipped; an escaped line break makes the token not the first in its line. -/
theorem skip_gap (nl : Bool) (g : Gap) (t : List Cp) (h : g.Ok) :
    skip (.ws false) nl (g.text ++ t) = skip (.ws false) (if g.isSplice then false else nl) t := by
  cases g with
  | space u =>
    exact skip_blanks nl false [u] t (by intro v hv; rw [List.mem_singleton.1 hv]; exact h)
  | block x =>
    have h0 : isSpace '/' = false := by decide
    simp only [Gap.text, List.cons_append, List.append_assoc, List.nil_append, Gap.isSplice, skip, ch, h0]
    rw [if_neg (by simp), if_neg (by decide), if_neg (by simp [peek]), if_pos (by simp [peek])]
    exact skip_block nl x t false h (by simp)
  | splice ws =>
    have h0 : isSpace '\\' = false := by decide
    simp only [Gap.text, List.cons_append, List.append_assoc, List.nil_append, Gap.isSplice, if_true]
    rw [skip]
    simp only [ch, h0]
    rw [if_neg (by simp), if_pos trivial, skip_blanks nl true ws _ h]
    rw [skip]
    simp [isSpace]

/-- Gaps are skipped. -/
theorem skip_gaps : ∀ (gs : List Gap) (nl : Bool) (t : List Cp), (∀ g ∈ gs, g.Ok) →
    ∃ nl', skip (.ws false) nl (gapsText gs ++ t) = skip (.ws false) nl' t ∧ (nl = false → nl' = false) ∧
      ((∀ g ∈ gs, g.isSplice = false) → nl' = nl) := by
  intro gs
  induction gs with
  | nil => intro nl t _; exact ⟨nl, rfl, id, fun _ => rfl⟩
  | cons g gs ih =>
    intro nl t h
    have : gapsText (g :: gs) ++ t = g.text ++ (gapsText gs ++ t) := by simp [gapsText]
    rw [this, skip_gap nl g _ (h g (by simp))]
    obtain ⟨nl', h1, h2, h3⟩ := ih (if g.isSplice then false else nl) t (fun x hx => h x (by simp [hx]))
    refine ⟨nl', h1, ?_, ?_⟩
    · intro he; apply h2; rw [he]; simp
    · intro hs
      rw [h3 (fun x hx => hs x (by simp [hx])), hs g (by simp)]
      simp

/-! ## Comments at the end of a line -/

theorem skip_line_blanks (nl : Bool) : ∀ (ws : List Cp) (t : List Cp), (∀ u ∈ ws, Blank u) →
    skip (.line .space) nl (ws ++ ch '\n' :: t) = skip (.line .no) nl t := by
  intro ws
  induction ws with
  | nil => intro t _; simp [skip, ch]
  | cons u ws ih =>
    intro t h
    obtain ⟨h1, h2⟩ := h u (by simp)
    simp only [List.cons_append, skip, h1, h2, if_true, if_false]
    exact ih t (fun v hv => h v (by simp [hv]))

theorem skip_part (nl : Bool) (p : Part) (t : List Cp) (h : p.Ok none) :
    skip (.line .no) nl (p.text ++ t) = skip (.line .no) nl t := by
  have hsn : isSpace '\n' = true := by decide
  cases p with
  | ch u =>
    obtain ⟨h1, h2, h3⟩ := h
    simp [Part.text, skip, h1, h2]
  | esc u =>
    have h' : isSpace u.1 = false := h
    simp [Part.text, skip, ch, h']
  | splice ws =>
    have h' : ∀ u ∈ ws, Blank u := h
    simp only [Part.text, List.cons_append, List.append_assoc, List.nil_append]
    rw [skip]
    simp only [ch]
    rw [if_neg (by decide), if_pos trivial]
    cases ws with
    | nil => simp [skip, hsn]
    | cons u ws =>
      obtain ⟨h1, h2⟩ := h' u (by simp)
      simp only [List.cons_append, skip, h1, h2, if_true, if_false]
      exact skip_line_blanks nl ws t (fun v hv => h' v (by simp [hv]))

theorem skip_parts (nl : Bool) : ∀ (ps : List Part) (t : List Cp), (∀ p ∈ ps, p.Ok none) →
    skip (.line .no) nl (partsText ps ++ t) = skip (.line .no) nl t := by
  intro ps
  induction ps with
  | nil => intro t _; rfl
  | cons p ps ih =>
    intro t h
    have : partsText (p :: ps) ++ t = p.text ++ (partsText ps ++ t) := by simp [partsText]
    rw [this, skip_part nl p _ (h p (by simp)), ih t (fun x hx => h x (by simp [hx]))]

/-- The end of a line, if there is another. -/
theorem skip_eol (nl : Bool) (c : Option (List Part)) (hc : CommentOk c) (t : List Cp) :
    skip (.ws false) nl (commentText c ++ ch '\n' :: t) = skip (.ws false) true t := by
  cases c with
  | none => simp [commentText, skip, ch, isSpace]
  | some ps =>
    have h0 : isSpace '/' = false := by decide
    simp only [commentText, List.cons_append, skip, ch, h0]
    rw [if_neg (by simp), if_neg (by decide), if_pos (by simp [peek]), if_neg (by decide), if_neg (by decide)]
    rw [skip_parts nl ps _ hc]
    simp [skip]

/-- The end of the last line. -/
theorem skip_eof (nl : Bool) (c : Option (List Part)) (hc : CommentOk c) :
    (skip (.ws false) nl (commentText c)).2 = [] := by
  cases c with
  | none => simp [commentText, skip]
  | some ps =>
    have h0 : isSpace '/' = false := by decide
    simp only [commentText, skip, ch, h0]
    rw [if_neg (by simp), if_neg (by decide), if_pos (by simp [peek]), if_neg (by decide), if_neg (by decide)]
    have := skip_parts nl ps [] hc
    rw [List.append_nil] at this
    rw [this]
    rfl

/-! ## A character of code -/

/-- What a token can consist of after its first character: none of these begin anything else. -/
inductive Chain : Char → List Cp → Prop
  | nil (w : Char) : Chain w []
  | cons {w : Char} {v : Cp} {m : List Cp} : Plain v.1 → v.1 ≠ '/' → (identChar v = true → ¬ Sep w) → Chain v.1 m →
      Chain w (v :: m)

theorem chain_append {w : Char} {a b : List Cp} (h : Chain w a) (hb : ∀ w', (a = [] → w' = w) → (∀ x ∈ a.getLast?, w' = x.1) → Chain w' b) :
    Chain w (a ++ b) := by
  induction h with
  | nil w => exact hb w (fun _ => rfl) (by simp)
  | @cons w v m h1 h2 h3 h4 ih =>
    refine .cons h1 h2 h3 (ih ?_)
    intro w' e1 e2
    refine hb w' (by simp) ?_
    intro x hx
    cases m with
    | nil => simp at hx; rw [e1 rfl, hx]
    | cons y m => exact e2 x (by simpa using hx)

theorem ident_plain {v : Cp} (h : identChar v = true) : Plain v.1 ∧ v.1 ≠ '/' := by
  refine ⟨⟨?_, ?_, ?_, ?_⟩, ?_⟩
  · intro e; revert h; unfold identChar; rw [e]; decide
  · intro e; revert h; unfold identChar; rw [e]; decide
  · intro e; revert h; unfold identChar; rw [e]; decide
  · cases hs : isSpace v.1 with
    | false => rfl
    | true =>
      exfalso
      unfold isSpace at hs
      simp only [List.contains_eq_mem, List.mem_cons, List.not_mem_nil, or_false, decide_eq_true_eq] at hs
      unfold identChar at h
      rcases hs with e | e | e | e | e | e <;> rw [e] at h <;> revert h <;> decide
  · intro e; revert h; unfold identChar; rw [e]; decide

theorem not_sep_ident {v : Cp} (h : identChar v = true) : ¬ Sep v.1 := by
  intro hs
  have : identChar (ch v.1) = identChar v := rfl
  rw [← this, hs.1] at h
  cases h

theorem word_ident {v : Cp} (h : wordChar v = true) : identChar v = true := by
  unfold wordChar at h
  unfold identChar
  simp only [Bool.or_eq_true] at h ⊢
  exact .inl (.inl h)

theorem digit_ident {v : Cp} (h : v.1.isDigit = true) : identChar v = true := by
  unfold identChar
  have : v.1.isAlphanum = true := by unfold Char.isAlphanum; simp [h]
  simp [this]

/-- A word that continues -/
theorem chain_word {w : Char} (hw : ¬ Sep w) (f : Cp → Bool) (hf : ∀ v, f v = true → identChar v = true) (r : List Cp) :
    Chain w (r.takeWhile f) := by
  induction r generalizing w with
  | nil => exact .nil w
  | cons v r ih =>
    cases h : f v with
    | false => rw [List.takeWhile_cons_of_neg (by simp [h])]; exact .nil w
    | true =>
      rw [List.takeWhile_cons_of_pos h]
      obtain ⟨h1, h2⟩ := ident_plain (hf v h)
      exact .cons h1 h2 (fun _ => hw) (ih (not_sep_ident (hf v h)))

theorem tw_dw (f : Cp → Bool) (r : List Cp) : r = r.takeWhile f ++ r.dropWhile f := List.takeWhile_append_dropWhile.symm

theorem peek_cons {r : List Cp} {c : Char} (h : peek r = c) (hc : c ≠ '\x00') : ∃ v r', r = v :: r' ∧ v.1 = c := by
  cases r with
  | nil => exact absurd h.symm hc
  | cons v r' => exact ⟨v, r', rfl, h⟩

theorem chain_afterExponent {w : Char} (hw : ¬ Sep w) (r : List Cp) :
    ∃ m, r = m ++ afterExponent r ∧ Chain w m := by
  unfold afterExponent
  by_cases h : peek r = 'e' ∨ peek r = 'E'
  · rw [if_pos h]
    obtain ⟨v, r', rfl, hv⟩ : ∃ v r', r = v :: r' ∧ (v.1 = 'e' ∨ v.1 = 'E') := by
      rcases h with h | h
      · obtain ⟨v, r', h1, h2⟩ := peek_cons h (by decide); exact ⟨v, r', h1, .inl h2⟩
      · obtain ⟨v, r', h1, h2⟩ := peek_cons h (by decide); exact ⟨v, r', h1, .inr h2⟩
    have hi : identChar v = true := by unfold identChar; rcases hv with e | e <;> rw [e] <;> decide
    obtain ⟨p1, p2⟩ := ident_plain hi
    by_cases h' : peek (v :: r').tail = '+' ∨ peek (v :: r').tail = '-'
    · rw [if_pos h']
      obtain ⟨x, r'', rfl, hx⟩ : ∃ x r'', r' = x :: r'' ∧ (x.1 = '+' ∨ x.1 = '-') := by
        rcases h' with h | h
        · obtain ⟨v, r', h1, h2⟩ := peek_cons h (by decide); exact ⟨v, r', h1, .inl h2⟩
        · obtain ⟨v, r', h1, h2⟩ := peek_cons h (by decide); exact ⟨v, r', h1, .inr h2⟩
      refine ⟨v :: x :: r''.takeWhile wordChar, ?_, .cons p1 p2 (fun _ => hw) (.cons ?_ ?_ (fun _ => not_sep_ident hi)
        (chain_word ?_ wordChar (fun _ => word_ident) r''))⟩
      · simp only [List.tail_cons, List.cons_append]; rw [← tw_dw]
      · rcases hx with e | e <;> rw [e] <;> (unfold Plain; decide)
      · rcases hx with e | e <;> rw [e] <;> decide
      · rcases hx with e | e <;> rw [e] <;> (unfold Sep; decide)
    · rw [if_neg h']
      refine ⟨v :: r'.takeWhile wordChar, ?_, .cons p1 p2 (fun _ => hw)
        (chain_word (not_sep_ident hi) wordChar (fun _ => word_ident) r')⟩
      simp only [List.tail_cons, List.cons_append]; rw [← tw_dw]
  · rw [if_neg h]
    exact ⟨r.takeWhile wordChar, tw_dw _ _, chain_word hw wordChar (fun _ => word_ident) r⟩

/-- The digits, and then something else. -/
theorem chain_digits {w : Char} (hw : ¬ Sep w) (r : List Cp) (b : List Cp) (hb : ∀ w', ¬ Sep w' → Chain w' b) :
    Chain w (r.takeWhile (fun v => v.1.isDigit) ++ b) := by
  apply chain_append (chain_word hw _ (fun v h => digit_ident h) r)
  intro w' h1 h2
  apply hb
  cases hl : (r.takeWhile (fun v => v.1.isDigit)).getLast? with
  | none => rw [h1 (List.getLast?_eq_none_iff.1 hl)]; exact hw
  | some x =>
    rw [h2 x (by rw [hl]; rfl)]
    have hx : x ∈ r.takeWhile (fun v => v.1.isDigit) := List.mem_of_getLast? hl
    exact not_sep_ident (digit_ident (by simpa using List.all_eq_true.1 (List.all_takeWhile (p := fun v : Cp => v.1.isDigit) (l := r)) x hx))

theorem chain_number (u : Cp) (r : List Cp) (hw : ¬ Sep u.1) : ∃ m, r = m ++ number u r ∧ Chain u.1 m := by
  unfold number
  split
  · exact ⟨r.takeWhile wordChar, tw_dw _ _, chain_word hw wordChar (fun _ => word_ident) r⟩
  · simp only
    by_cases h : peek (r.dropWhile (fun v => v.1.isDigit)) = '.'
    · rw [if_pos h]
      obtain ⟨v, r', h1, h2⟩ := peek_cons h (by decide)
      have hs : ¬ Sep v.1 := by rw [h2]; unfold Sep; decide
      rw [h1]
      simp only [List.tail_cons]
      obtain ⟨m, hm1, -⟩ := chain_afterExponent hs (r'.dropWhile (fun v => v.1.isDigit))
      refine ⟨r.takeWhile (fun v => v.1.isDigit) ++ v :: (r'.takeWhile (fun v => v.1.isDigit) ++ m), ?_, ?_⟩
      · have := tw_dw (fun v => v.1.isDigit) r
        rw [h1] at this
        have h3 := tw_dw (fun v => v.1.isDigit) r'
        simp only [List.append_assoc, List.cons_append]
        rw [← hm1, ← h3, ← this]
      · apply chain_digits hw
        intro w' hw'
        refine .cons ?_ ?_ ?_ ?_
        · rw [h2]; unfold Plain; decide
        · rw [h2]; decide
        · intro hi; unfold identChar at hi; rw [h2] at hi; exact absurd hi (by decide)
        · apply chain_digits hs
          intro w'' hw''
          obtain ⟨m', e1, e2⟩ := chain_afterExponent hw'' (r'.dropWhile (fun v => v.1.isDigit))
          have : m' = m := by
            have := hm1.symm.trans e1
            exact (List.append_cancel_right this).symm
          rw [← this]; exact e2
    · rw [if_neg h]
      obtain ⟨m, hm1, -⟩ := chain_afterExponent hw (r.dropWhile (fun v => v.1.isDigit))
      refine ⟨r.takeWhile (fun v => v.1.isDigit) ++ m, ?_, ?_⟩
      · rw [List.append_assoc, ← hm1, ← tw_dw]
      · apply chain_digits hw
        intro w'' hw''
        obtain ⟨m', e1, e2⟩ := chain_afterExponent hw'' (r.dropWhile (fun v => v.1.isDigit))
        have : m' = m := (List.append_cancel_right (hm1.symm.trans e1)).symm
        rw [← this]; exact e2

theorem ops_ok : ∀ o ∈ ops, o.1 ≠ [] ∧ o.2 ≠ .eof ∧ o.2 ≠ .ident ∧ (o.2 = .pound → o.1 = ['#'] ∨ o.1 = ['%', ':']) ∧
    ∀ c ∈ o.1.tail, (c ≠ '"' ∧ c ≠ '\'' ∧ c ≠ '\\' ∧ isSpace c = false) ∧ c ≠ '/' ∧ identChar (c, []) = false := by
  decide +kernel

theorem chain_punct : ∀ (m : List Cp) (w : Char), (∀ v ∈ m, Plain v.1 ∧ v.1 ≠ '/' ∧ identChar v = false) → Chain w m := by
  intro m
  induction m with
  | nil => intro w _; exact .nil w
  | cons v m ih =>
    intro w h
    obtain ⟨h1, h2, h3⟩ := h v (by simp)
    exact .cons h1 h2 (by rw [h3]; intro e; cases e) (ih v.1 (fun x hx => h x (by simp [hx])))

theorem chain_op (u : Cp) (r : List Cp) : ∃ m, r = m ++ (lexOp u r).2 ∧ Chain u.1 m ∧ (lexOp u r).1 ≠ .eof ∧
    (lexOp u r).1 ≠ .ident ∧ ((lexOp u r).1 = .pound → u.1 = '#' ∨ u.1 = '%' ∧ peek r = ':') := by
  unfold lexOp
  cases h : ops.find? (fun o => o.1.isPrefixOf ((u :: r).map (·.1))) with
  | none => exact ⟨[], rfl, .nil _, Kind.noConfusion, Kind.noConfusion, Kind.noConfusion⟩
  | some o =>
    simp only
    obtain ⟨h1, h2, h3, h4, h5⟩ := ops_ok o (List.mem_of_find?_eq_some h)
    have hp := List.find?_some h
    simp only [List.isPrefixOf_iff_prefix, List.map_cons] at hp
    obtain ⟨t, ht⟩ := hp
    obtain ⟨c, cs, hc⟩ := List.exists_cons_of_ne_nil h1
    rw [hc] at ht h4 h5 ⊢
    simp only [List.cons_append, List.cons.injEq, List.tail_cons] at ht h5
    obtain ⟨e1, e2⟩ := ht
    simp only [List.length_cons, List.drop_succ_cons]
    refine ⟨r.take cs.length, (List.take_append_drop _ _).symm, ?_, h2, h3, ?_⟩
    · apply chain_punct
      intro v hv
      have : v.1 ∈ cs := by
        have : v.1 ∈ (r.take cs.length).map (·.1) := List.mem_map.2 ⟨v, hv, rfl⟩
        rw [List.map_take, ← e2, List.take_left] at this
        exact this
      have h6 := h5 v.1 this
      exact ⟨h6.1, h6.2.1, h6.2.2⟩
    · intro hk
      rcases h4 hk with e | e
      · simp only [List.cons.injEq] at e; exact .inl (by rw [← e1, e.1])
      · simp only [List.cons.injEq] at e
        refine .inr ⟨by rw [← e1, e.1], ?_⟩
        rw [e.2] at e2
        cases r with
        | nil => simp at e2
        | cons v r => simp at e2; exact e2.1.symm

/-- This is not where a literal with a prefix begins. -/
def NoPre (u : Cp) (r : List Cp) : Prop :=
  (u.1 = 'L' ∨ u.1 = 'u' ∨ u.1 = 'U' ∨ u.1 = 'R' → peek r ≠ '"' ∧ peek r ≠ '\'') ∧
  (u.1 = 'L' ∨ u.1 = 'u' ∨ u.1 = 'U' → peek r = 'R' → peek r.tail ≠ '"') ∧
  (u.1 = 'u' → peek r = '8' → peek r.tail ≠ '"' ∧ peek r.tail ≠ '\'' ∧ (peek r.tail = 'R' → peek r.tail.tail ≠ '"'))

theorem prefixed_word (reserved : Str → Bool) (u : Cp) (r : List Cp) (h : NoPre u r)
    (hu : u.1 = 'L' ∨ u.1 = 'u' ∨ u.1 = 'U' ∨ u.1 = 'R') : prefixed reserved u r = ident reserved u r := by
  obtain ⟨h1, h2, h3⟩ := h
  obtain ⟨a, b⟩ := h1 hu
  unfold prefixed
  rw [if_neg a, if_neg b]
  by_cases h4 : u.1 ≠ 'R' ∧ peek r = 'R'
  · rw [if_pos h4, if_neg (h2 (by rcases hu with e | e | e | e <;> simp_all) h4.2)]
  · rw [if_neg h4]
    by_cases h5 : u.1 = 'u' ∧ peek r = '8'
    · obtain ⟨c, d, e⟩ := h3 h5.1 h5.2
      rw [if_pos h5, if_neg c, if_neg d, if_neg (fun hh => e hh.1 hh.2)]
    · rw [if_neg h5]

/-- A token that begins with a character of code and is not a literal -/
theorem lexOne_plain (reserved : Str → Bool) (u : Cp) (r : List Cp) (hu : Plain u.1) (hn : NoPre u r) :
    ∃ m, r = m ++ (lexOne reserved false u r).2 ∧ Chain u.1 m ∧ (lexOne reserved false u r).1 ≠ .eof ∧
      ((lexOne reserved false u r).1 = .pound → u.1 = '#' ∨ u.1 = '%' ∧ peek r = ':') ∧
      ((lexOne reserved false u r).1 = .ident → identChar u = true ∧ m = r.takeWhile identChar) := by
  have hident : identChar u = true → ∃ m, r = m ++ (ident reserved u r).2 ∧ Chain u.1 m ∧ (ident reserved u r).1 ≠ .eof ∧
      ((ident reserved u r).1 = .pound → u.1 = '#' ∨ u.1 = '%' ∧ peek r = ':') ∧
      ((ident reserved u r).1 = .ident → identChar u = true ∧ m = r.takeWhile identChar) := by
    intro hi
    refine ⟨r.takeWhile identChar, tw_dw _ _, chain_word (not_sep_ident hi) _ (fun _ h => h) r, ?_, ?_, fun _ => ⟨hi, rfl⟩⟩
    · unfold ident; simp only; split <;> exact Kind.noConfusion
    · unfold ident; simp only; split <;> exact Kind.noConfusion
  obtain ⟨q1, q2, q3, q4⟩ := hu
  unfold lexOne
  rw [if_neg q1, if_neg q2]
  by_cases a : u.1 = '.' ∧ (peek r).isDigit = true
  · rw [if_pos a]
    have hs : ¬ Sep u.1 := by rw [a.1]; unfold Sep; decide
    obtain ⟨m, hm1, -⟩ := chain_afterExponent hs (r.dropWhile (fun v => v.1.isDigit))
    refine ⟨r.takeWhile (fun v => v.1.isDigit) ++ m, ?_, ?_, Kind.noConfusion, Kind.noConfusion, Kind.noConfusion⟩
    · rw [List.append_assoc, ← hm1, ← tw_dw]
    · apply chain_digits hs
      intro w'' hw''
      obtain ⟨m', e1, e2⟩ := chain_afterExponent hw'' (r.dropWhile (fun v => v.1.isDigit))
      have : m' = m := (List.append_cancel_right (hm1.symm.trans e1)).symm
      rw [← this]; exact e2
  · rw [if_neg a, if_neg (by simp)]
    by_cases b : u.1 = '<' ∧ peek r = ':'
    · rw [if_pos b]
      obtain ⟨v, r', rfl, hv⟩ := peek_cons b.2 (by decide)
      split
      · refine ⟨[v], rfl, .cons ?_ ?_ ?_ (.nil _), Kind.noConfusion, Kind.noConfusion, Kind.noConfusion⟩
        · rw [hv]; unfold Plain; decide
        · rw [hv]; decide
        · intro hi; unfold identChar at hi; rw [hv] at hi; exact absurd hi (by decide)
      · exact ⟨[], rfl, .nil _, Kind.noConfusion, Kind.noConfusion, Kind.noConfusion⟩
    · rw [if_neg b]
      by_cases c : u.1 = 'L' ∨ u.1 = 'u' ∨ u.1 = 'U' ∨ u.1 = 'R'
      · rw [if_pos c, prefixed_word reserved u r hn c]
        apply hident
        unfold identChar
        rcases c with e | e | e | e <;> rw [e] <;> decide
      · rw [if_neg c]
        by_cases d : u.1.isDigit = true
        · rw [if_pos d]
          obtain ⟨m, h1, h2⟩ := chain_number u r (not_sep_ident (digit_ident d))
          exact ⟨m, h1, h2, Kind.noConfusion, Kind.noConfusion, Kind.noConfusion⟩
        · rw [if_neg d]
          by_cases e : identChar u = true
          · rw [if_pos e]; exact hident e
          · rw [if_neg e]
            obtain ⟨m, h1, h2, h3, h4, h5⟩ := chain_op u r
            exact ⟨m, h1, h2, h3, h5, fun h => absurd h h4⟩

end Verif.Cpp
