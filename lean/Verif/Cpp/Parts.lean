import Verif.Cpp.Tokens
/-!
# C58: what a token takes away from the parts of a line
-/
namespace Verif.Cpp

/-! ## Raw strings -/

theorem rawBody_delim (d : List Cp) (t : List Cp) : ∀ (d2 : List Cp), (∀ u ∈ d2, u.1 ≠ ')') →
    rawBody d (some d2) (d2 ++ ch '"' :: t) = t := by
  intro d2
  induction d2 with
  | nil => intro _; simp [rawBody, ch]
  | cons u d2 ih =>
    intro h
    simp only [List.cons_append, rawBody]
    rw [if_neg (h u (by simp)), if_neg (by simp)]
    simp only [if_true]
    exact ih (fun v hv => h v (by simp [hv]))

theorem rawBody_rest (d t : List Cp) (hd : ∀ u ∈ d, u.1 ≠ ')') : ∀ (b pre : List Cp) (st : Option (List Cp)),
    (¬ (ch ')' :: d ++ [ch '"']) <:+: pre ++ b) → (∀ u ∈ b, u.1 = ')' ∨ u.1 = '"' → u.2 = []) →
    (∀ d2, st = some d2 → ∃ d1, d = d1 ++ d2 ∧ (ch ')' :: d1) <:+ pre) →
    rawBody d st (b ++ ch ')' :: (d ++ ch '"' :: t)) = t := by
  intro b
  induction b with
  | nil =>
    intro pre st _ _ _
    simp only [List.nil_append, rawBody, ch, if_true]
    exact rawBody_delim d t d hd
  | cons u b ih =>
    intro pre st h1 h2 h3
    have h1' : ¬ (ch ')' :: d ++ [ch '"']) <:+: (pre ++ [u]) ++ b := by simpa using h1
    have h2' : ∀ u ∈ b, u.1 = ')' ∨ u.1 = '"' → u.2 = [] := fun v hv => h2 v (by simp [hv])
    simp only [List.cons_append, rawBody]
    by_cases a : u.1 = ')'
    · rw [if_pos a]
      apply ih (pre ++ [u]) (some d) h1' h2'
      intro d2 e
      obtain rfl := Option.some.inj e
      refine ⟨[], rfl, pre, ?_⟩
      have : u = ch ')' := Prod.ext a (h2 u (by simp) (.inl a))
      rw [this]
    · rw [if_neg a]
      rw [if_neg]
      · apply ih (pre ++ [u]) _ h1' h2'
        intro d2 e
        match st, h3 with
        | none, _ => cases e
        | some [], _ => cases e
        | some (x :: xs), h3 =>
          simp only at e
          split at e
          · rename_i hx
            obtain rfl := Option.some.inj e
            obtain ⟨d1, e1, p, e2⟩ := h3 _ rfl
            exact ⟨d1 ++ [x], by simp [e1], p, by rw [← e2, hx]; simp⟩
          · cases e
      · rintro ⟨e1, e2⟩
        obtain ⟨d1, e3, p, e4⟩ := h3 _ e2
        rw [List.append_nil] at e3
        apply h1
        have : u = ch '"' := Prod.ext e1 (h2 u (by simp) (.inr e1))
        exact ⟨p, b, by rw [this, ← e4, e3]; simp⟩

theorem raw_delim (b : List Cp) : ∀ (d acc : List Cp), (∀ u ∈ d, u.1 ≠ '(' ∧ u.1 ≠ ')' ∧ u.1 ≠ '\\' ∧ isSpace u.1 = false) →
    raw acc (d ++ ch '(' :: b) = rawBody (acc ++ d) none b := by
  intro d
  induction d with
  | nil => intro acc _; simp [raw, ch]
  | cons u d ih =>
    intro acc h
    obtain ⟨h1, h2, h3, h4⟩ := h u (by simp)
    simp only [List.cons_append, raw]
    rw [if_neg h1, if_neg h2, if_neg (by simp [h3, h4]), ih _ (fun v hv => h v (by simp [hv]))]
    simp

theorem raw_rest (d b t : List Cp) (h1 : ∀ u ∈ d, u.1 ≠ '(' ∧ u.1 ≠ ')' ∧ u.1 ≠ '\\' ∧ isSpace u.1 = false)
    (h2 : ¬ (ch ')' :: d ++ [ch '"']) <:+: b) (h3 : ∀ u ∈ b, u.1 = ')' ∨ u.1 = '"' → u.2 = []) :
    raw [] (d ++ ch '(' :: (b ++ ch ')' :: (d ++ ch '"' :: t))) = t := by
  rw [raw_delim _ d [] h1, List.nil_append]
  exact rawBody_rest d t (fun u hu => (h1 u hu).2.1) b [] none h2 h3 (by simp)

/-! ## The characters that follow -/

/-- What follows the parts of a line: the end of the file, a comment, or a line break. -/
def After (a : List Cp) : Prop := a = [] ∨ ∃ u r, a = u :: r ∧ (u.1 = '/' ∨ u.1 = '\n')

theorem pre_ident {pre : Str} (h : pre ∈ [[], ['L'], ['u'], ['U'], ['u', '8']]) (hne : pre ≠ []) :
    ∃ c cs, pre = c :: cs ∧ identChar (ch c) = true := by
  simp only [List.mem_cons, List.not_mem_nil, or_false] at h
  rcases h with rfl | rfl | rfl | rfl | rfl
  · exact absurd rfl hne
  all_goals exact ⟨_, _, rfl, by decide⟩

/-- The character that begins the parts, if it is one of code directly after another such character -/
theorem next_plain {after : List Cp} (ha : After after) {w : Char} {es : List Elem} (h : Ok after (some w) es) {v : Cp} {t : List Cp}
    (e : elemsText es ++ after = v :: t) (h1 : Plain v.1) (h2 : v.1 ≠ '/') (h3 : identChar v = true → ¬ Sep w) :
    ∃ es', es = .plain v :: es' ∧ elemsText es' ++ after = t := by
  obtain ⟨q1, q2, q3, q4⟩ := h1
  cases es with
  | nil =>
    simp only [elemsText, List.flatMap_nil, List.nil_append] at e
    rcases ha with ha | ⟨u, r, ha, hu⟩
    · rw [ha] at e; cases e
    · rw [ha] at e
      injection e with e1 e2
      subst e1
      rcases hu with hu | hu
      · exact absurd hu h2
      · rw [hu] at q4; exact absurd q4 (by decide)
  | cons x es =>
    have e' : x.text ++ (elemsText es ++ after) = v :: t := by simpa [elemsText] using e
    cases x with
    | plain u =>
      simp only [Elem.text, List.cons_append, List.nil_append] at e'
      injection e' with e1 e2
      subst e1
      exact ⟨es, rfl, e2⟩
    | gap g =>
      exfalso
      cases g with
      | space u =>
        simp only [Elem.text, Gap.text, List.cons_append, List.nil_append] at e'
        injection e' with e1 e2
        subst e1
        have := h.1.1
        rw [q4] at this; cases this
      | block b =>
        simp only [Elem.text, Gap.text, List.cons_append, List.nil_append] at e'
        injection e' with e1 e2
        subst e1
        exact h2 rfl
      | splice ws =>
        simp only [Elem.text, Gap.text, List.cons_append, List.nil_append] at e'
        injection e' with e1 e2
        subst e1
        exact q3 rfl
    | literal pre q ps =>
      exfalso
      obtain ⟨a1, a2, -, a4, -⟩ := h
      by_cases hp : pre = []
      · subst hp
        simp only [Elem.text, List.map_nil, List.nil_append, List.cons_append] at e'
        injection e' with e1 e2
        subst e1
        rcases a1 with rfl | rfl
        · exact q1 rfl
        · exact q2 rfl
      · obtain ⟨c, cs, rfl, hc⟩ := pre_ident a2 hp
        simp only [Elem.text, List.map_cons, List.cons_append] at e'
        injection e' with e1 e2
        subst e1
        have := a4 w rfl
        rw [if_neg hp] at this
        exact h3 hc this
    | raw pre d b =>
      exfalso
      obtain ⟨a1, -, -, -, a5, -⟩ := h
      by_cases hp : pre = []
      · subst hp
        simp only [Elem.text, List.map_nil, List.nil_append, List.cons_append] at e'
        injection e' with e1 e2
        subst e1
        exact h3 (by decide) (a5 w rfl)
      · obtain ⟨c, cs, rfl, hc⟩ := pre_ident a1 hp
        simp only [Elem.text, List.map_cons, List.cons_append] at e'
        injection e' with e1 e2
        subst e1
        exact h3 hc (a5 w rfl)

theorem chain_parts {after : List Cp} (ha : After after) {w : Char} {m : List Cp} (hm : Chain w m) :
    ∀ {es : List Elem} {t : List Cp}, Ok after (some w) es → elemsText es ++ after = m ++ t →
      ∃ es' w', es = m.map .plain ++ es' ∧ t = elemsText es' ++ after ∧ Ok after (some w') es' := by
  induction hm with
  | nil w => intro es t h e; exact ⟨es, w, rfl, e.symm, h⟩
  | @cons w v m h1 h2 h3 _ ih =>
    intro es t h e
    obtain ⟨es1, rfl, e1⟩ := next_plain ha h e h1 h2 h3
    obtain ⟨es', w', e2, e3, e4⟩ := ih h.2.2 e1
    exact ⟨es', w', by rw [e2]; rfl, e3, e4⟩

/-- After a character of code, a quote has no prefix. -/
theorem next_quote {after : List Cp} (ha : After after) {w : Char} {es : List Elem} (h : Ok after (some w) es)
    (hq : peek (elemsText es ++ after) = '"' ∨ peek (elemsText es ++ after) = '\'') : w ∉ ['L', 'u', 'U', '8', 'R'] := by
  cases es with
  | nil =>
    exfalso
    simp only [elemsText, List.flatMap_nil, List.nil_append] at hq
    rcases ha with ha | ⟨u, r, ha, hu⟩
    · rw [ha] at hq; revert hq; decide
    · rw [ha] at hq
      simp only [peek] at hq
      rcases hu with hu | hu <;> rw [hu] at hq <;> revert hq <;> decide
  | cons x es =>
    have e : elemsText (x :: es) ++ after = x.text ++ (elemsText es ++ after) := by simp [elemsText]
    rw [e] at hq
    cases x with
    | plain u =>
      exfalso
      obtain ⟨⟨q1, q2, -, -⟩, -⟩ := h
      simp only [Elem.text, List.cons_append, peek] at hq
      exact hq.elim q1 q2
    | gap g =>
      exfalso
      cases g with
      | space u =>
        simp only [Elem.text, Gap.text, List.cons_append, peek] at hq
        have := h.1.1
        rcases hq with hq | hq <;> rw [hq] at this <;> exact absurd this (by decide)
      | block b => simp only [Elem.text, Gap.text, List.cons_append, peek] at hq; revert hq; decide
      | splice b => simp only [Elem.text, Gap.text, List.cons_append, peek] at hq; revert hq; decide
    | literal pre q ps =>
      obtain ⟨a1, a2, -, a4, -⟩ := h
      by_cases hp : pre = []
      · have := a4 w rfl
        rw [if_pos hp] at this
        exact this
      · exfalso
        obtain ⟨c, cs, rfl, hc⟩ := pre_ident a2 hp
        simp only [Elem.text, List.map_cons, List.cons_append, peek] at hq
        rcases hq with hq | hq <;> rw [show c = _ from hq] at hc <;> exact absurd hc (by decide)
    | raw pre d b =>
      exfalso
      obtain ⟨a1, -⟩ := h
      by_cases hp : pre = []
      · subst hp
        simp only [Elem.text, List.map_nil, List.nil_append, List.cons_append, peek] at hq
        revert hq; decide
      · obtain ⟨c, cs, rfl, hc⟩ := pre_ident a1 hp
        simp only [Elem.text, List.map_cons, List.cons_append, peek] at hq
        rcases hq with hq | hq <;> rw [show c = _ from hq] at hc <;> exact absurd hc (by decide)

/-- The next character, if it is a letter or digit directly after another -/
theorem next_word {after : List Cp} (ha : After after) {w : Char} (hw : ¬ Sep w) {es : List Elem} (h : Ok after (some w) es)
    {c : Char} (hc : identChar (ch c) = true) (hq : peek (elemsText es ++ after) = c) :
    ∃ (v : Cp) (es' : List Elem), v.1 = c ∧ es = .plain v :: es' := by
  obtain ⟨v, t, e1, e2⟩ := peek_cons hq (by intro e; rw [e] at hc; exact absurd hc (by decide))
  have hv : identChar v = true := by
    have : identChar v = identChar (ch v.1) := rfl
    rw [this, e2]; exact hc
  obtain ⟨p1, p2⟩ := ident_plain hv
  obtain ⟨es', h1, -⟩ := next_plain ha h e1 p1 p2 (fun _ => hw)
  exact ⟨v, es', e2, h1⟩

theorem noPre_parts {after : List Cp} (ha : After after) {u : Cp} {es : List Elem} (h : Ok after (some u.1) es) :
    NoPre u (elemsText es ++ after) := by
  refine ⟨?_, ?_, ?_⟩
  · intro hu
    refine ⟨fun e => ?_, fun e => ?_⟩
    · have := next_quote ha h (.inl e)
      rcases hu with e | e | e | e <;> rw [e] at this <;> exact absurd this (by decide)
    · have := next_quote ha h (.inr e)
      rcases hu with e | e | e | e <;> rw [e] at this <;> exact absurd this (by decide)
  · intro hu hr hq
    have hs : ¬ Sep u.1 := by rcases hu with e | e | e <;> rw [e] <;> (unfold Sep; decide)
    obtain ⟨v, es', e1, rfl⟩ := next_word ha hs h (c := 'R') (by decide) hr
    have hq' : peek (elemsText es' ++ after) = '"' := by simpa [elemsText, Elem.text] using hq
    have := next_quote ha h.2.2 (.inl hq')
    rw [e1] at this
    exact absurd this (by decide)
  · intro hu h8
    have hs : ¬ Sep u.1 := by rw [hu]; unfold Sep; decide
    obtain ⟨v, es', e1, rfl⟩ := next_word ha hs h (c := '8') (by decide) h8
    have ht : (elemsText (.plain v :: es') ++ after).tail = elemsText es' ++ after := by simp [elemsText, Elem.text]
    rw [ht]
    have h' : Ok after (some v.1) es' := h.2.2
    refine ⟨?_, ?_, ?_⟩
    · intro e
      have := next_quote ha h' (.inl e)
      rw [e1] at this; exact absurd this (by decide)
    · intro e
      have := next_quote ha h' (.inr e)
      rw [e1] at this; exact absurd this (by decide)
    · intro hr hq
      have hs' : ¬ Sep v.1 := by rw [e1]; unfold Sep; decide
      obtain ⟨x, es'', e2, rfl⟩ := next_word ha hs' h' (c := 'R') (by decide) hr
      have hq' : peek (elemsText es'' ++ after) = '"' := by simpa [elemsText, Elem.text] using hq
      have := next_quote ha h'.2.2 (.inl hq')
      rw [e2] at this
      exact absurd this (by decide)

/-! ## A token -/

theorem skip_stay (nl : Bool) (u : Cp) (r : List Cp) (h1 : isSpace u.1 = false) (h2 : u.1 ≠ '\\')
    (h3 : u.1 = '/' → peek r ≠ '/' ∧ peek r ≠ '*') : skip (.ws false) nl (u :: r) = (nl, u :: r) := by
  simp only [skip, h1]
  rw [if_neg (by simp), if_neg h2, if_neg (fun h => (h3 h.1).1 h.2), if_neg (fun h => (h3 h.1).2 h.2)]

/-- What is known about the token at the beginning of the parts of a line -/
structure TokenAt (reserved : Str → Bool) (after : List Cp) (es : List Elem) (u : Cp) (r : List Cp) (es' : List Elem) (p' : Option Char) : Prop where
  text : elemsText es ++ after = u :: r
  stay : ∀ nl, skip (.ws false) nl (u :: r) = (nl, u :: r)
  rest : (lexOne reserved false u r).2 = elemsText es' ++ after
  ok : Ok after p' es'
  notEof : (lexOne reserved false u r).1 ≠ .eof
  pound : (lexOne reserved false u r).1 = .pound → u.1 = '#' ∨ u.1 = '%' ∧ peek r = ':'
  ident : (lexOne reserved false u r).1 = .ident → identChar u = true ∧ r = r.takeWhile identChar ++ (lexOne reserved false u r).2

def isGap : Elem → Bool
  | .gap _ => true
  | _ => false

theorem tokenAt (reserved : Str → Bool) {after : List Cp} (ha : After after) {p : Option Char} {x : Elem} {es : List Elem}
    (h : Ok after p (x :: es)) (hx : isGap x = false) : ∃ u r es' p', TokenAt reserved after (x :: es) u r es' p' := by
  have e : elemsText (x :: es) ++ after = x.text ++ (elemsText es ++ after) := by simp [elemsText]
  cases x with
  | gap g => cases hx
  | plain u =>
    obtain ⟨hp, hs, ho⟩ := h
    obtain ⟨m, h1, h2, h3, h4, h5⟩ := lexOne_plain reserved u (elemsText es ++ after) hp (noPre_parts ha ho)
    obtain ⟨es', w', -, e3, e4⟩ := chain_parts ha h2 ho h1
    refine ⟨u, elemsText es ++ after, es', some w', e, ?_, e3, e4, h3, h4, ?_⟩
    · intro nl
      exact skip_stay nl u _ hp.2.2.2 hp.2.2.1 (fun hu => ⟨hs hu '/' (by simp), hs hu '*' (by simp)⟩)
    · intro hk
      obtain ⟨i1, i2⟩ := h5 hk
      exact ⟨i1, by rw [← i2]; exact h1⟩
  | literal pre q ps =>
    obtain ⟨a1, a2, a3, -, -, a5⟩ := h
    have hl := literal_rest q a1 ps (elemsText es ++ after) a3
    simp only [List.mem_cons, List.not_mem_nil, or_false] at a2
    rcases a2 with rfl | rfl | rfl | rfl | rfl
    · refine ⟨ch q, partsText ps ++ ch q :: (elemsText es ++ after), es, none, by rw [e]; simp [Elem.text], ?_, ?_, a5, ?_, ?_, ?_⟩
      · intro nl; rcases a1 with rfl | rfl <;> exact skip_stay nl _ _ (by decide) (by decide) (fun h => absurd h (by decide))
      · rcases a1 with rfl | rfl
        · unfold lexOne; rw [if_pos (by rfl)]; exact hl
        · unfold lexOne; rw [if_neg (by decide), if_pos (by rfl)]; exact hl
      all_goals
        rcases a1 with rfl | rfl
        · unfold lexOne; rw [if_pos (by rfl)]; exact Kind.noConfusion
        · unfold lexOne; rw [if_neg (by decide), if_pos (by rfl)]; exact Kind.noConfusion
    all_goals
      refine ⟨ch _, _, es, none, by rw [e]; simp only [Elem.text, List.map_cons, List.map_nil, List.cons_append]; rfl, ?_, ?_, a5, ?_, ?_, ?_⟩
      · intro nl; exact skip_stay nl _ _ (by decide) (by decide) (fun h => absurd h (by decide))
      · rcases a1 with rfl | rfl <;> simpa [lexOne, prefixed, ch, peek] using hl
      all_goals (rcases a1 with rfl | rfl <;> simp [lexOne, prefixed, ch, peek])
  | raw pre d b =>
    obtain ⟨a1, a2, a3, a4, -, a6⟩ := h
    have hl := raw_rest d b (elemsText es ++ after) a2 a3 a4
    simp only [List.mem_cons, List.not_mem_nil, or_false] at a1
    rcases a1 with rfl | rfl | rfl | rfl | rfl
    all_goals
      refine ⟨ch _, _, es, none, by rw [e]; simp only [Elem.text, List.map_cons, List.map_nil, List.cons_append, List.nil_append, List.append_assoc]; rfl, ?_, ?_, a6, ?_, ?_, ?_⟩
      · intro nl; exact skip_stay nl _ _ (by decide) (by decide) (fun h => absurd h (by decide))
      · simpa [lexOne, prefixed, ch, peek] using hl
      all_goals simp [lexOne, prefixed, ch, peek]

end Verif.Cpp
