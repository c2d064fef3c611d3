import Verif.Cpp.Found
/-!
# C58, C59: the scanner goes from line to line
-/
namespace Verif.Cpp

/-! ## The parts of a line, from the first token on -/

theorem tail_begin (ls : List Line) : tailText ls = [] ∨ ∃ r, tailText ls = ch '\n' :: r := by
  cases ls with
  | nil => exact .inl rfl
  | cons l ls => exact .inr ⟨l.text ++ tailText ls, by simp [tailText]⟩

theorem after_ok (c : Option (List Part)) (ls : List Line) : After (commentText c ++ tailText ls) := by
  cases c with
  | none =>
    rcases tail_begin ls with h | ⟨r, h⟩
    · exact .inl (by simp [commentText, h])
    · exact .inr ⟨ch '\n', r, by simp [commentText, h], .inr rfl⟩
  | some ps => exact .inr ⟨ch '/', _, rfl, .inl rfl⟩

theorem ok_after {a t : List Cp} (ht : t = [] ∨ ∃ r, t = ch '\n' :: r) : ∀ (es : List Elem) (p : Option Char), Ok a p es → Ok (a ++ t) p es := by
  intro es
  induction es with
  | nil => intro p _; trivial
  | cons x es ih =>
    intro p h
    cases x with
    | plain u =>
      obtain ⟨h1, h2, h3⟩ := h
      refine ⟨h1, ?_, ih _ h3⟩
      intro hu c hc
      have := h2 hu c hc
      rw [← List.append_assoc]
      cases hx : elemsText es ++ a with
      | nil =>
        simp only [List.mem_cons, List.not_mem_nil, or_false] at hc
        rcases ht with rfl | ⟨r, rfl⟩
        · rcases hc with rfl | rfl | rfl <;> decide
        · rcases hc with rfl | rfl | rfl <;> (simp only [List.nil_append, peek, ch]; decide)
      | cons v y => rw [hx] at this; exact this
    | gap g => exact ⟨h.1, ih _ h.2⟩
    | literal pre q ps =>
      obtain ⟨h1, h2, h3, h4, h5, h6⟩ := h
      exact ⟨h1, h2, h3, h4, h5, ih _ h6⟩
    | raw pre d b =>
      obtain ⟨h1, h2, h3, h4, h5, h6⟩ := h
      exact ⟨h1, h2, h3, h4, h5, ih _ h6⟩

theorem ok_sep {a : List Cp} {c : Char} (hc : Sep c) {es : List Elem} (h : Ok a none es) : Ok a (some c) es := by
  cases es with
  | nil => trivial
  | cons x es =>
    cases x with
    | plain u => exact h
    | gap g => exact h
    | literal pre q ps =>
      obtain ⟨h1, h2, h3, h4, h5, h6⟩ := h
      refine ⟨h1, h2, h3, ?_, ?_, h6⟩
      · intro c' e
        obtain rfl := Option.some.inj e
        split
        · intro hm
          have := hc.1
          simp only [List.mem_cons, List.not_mem_nil, or_false] at hm
          rcases hm with rfl | rfl | rfl | rfl | rfl <;> exact absurd this (by decide)
        · exact hc
      · intro c' e _
        obtain rfl := Option.some.inj e
        exact hc.1
    | raw pre d b =>
      obtain ⟨h1, h2, h3, h4, h5, h6⟩ := h
      refine ⟨h1, h2, h3, h4, ?_, h6⟩
      intro c' e
      obtain rfl := Option.some.inj e
      exact hc

theorem ok_gaps {a : List Cp} {es : List Elem} : ∀ (gs : List Gap) (p : Option Char), GapsOk gs → (∀ p, Ok a p es) →
    Ok a p (gs.map .gap ++ es) := by
  intro gs
  induction gs with
  | nil => intro p _ h; exact h p
  | cons g gs ih => intro p h1 h2; exact ⟨h1 g (by simp), ih none (fun x hx => h1 x (by simp [hx])) h2⟩

theorem gaps_text (gs : List Gap) (es : List Elem) : elemsText (gs.map .gap ++ es) = gapsText gs ++ elemsText es := by
  induction gs with
  | nil => rfl
  | cons g gs ih =>
    simp only [List.map_cons, List.cons_append, elemsText, List.flatMap_cons, Elem.text, gapsText, List.append_assoc] at ih ⊢
    rw [ih]

/-- The gaps at the beginning, and the rest -/
theorem split_gaps {a : List Cp} : ∀ (es : List Elem) (p : Option Char), Ok a p es → ∃ gs rest p',
    elemsText es = gapsText gs ++ elemsText rest ∧ GapsOk gs ∧ Ok a p' rest ∧ fromToken es = elemsText rest ∧
    (rest = [] ∨ ∃ x es', rest = x :: es' ∧ isGap x = false) := by
  intro es
  induction es with
  | nil => intro p _; exact ⟨[], [], none, rfl, by simp [GapsOk], trivial, rfl, .inl rfl⟩
  | cons x es ih =>
    intro p h
    cases x with
    | gap g =>
      obtain ⟨gs, rest, p', h1, h2, h3, h4, h5⟩ := ih none h.2
      refine ⟨g :: gs, rest, p', ?_, ?_, h3, h4, h5⟩
      · have : elemsText (.gap g :: es) = g.text ++ elemsText es := by simp [elemsText, Elem.text]
        rw [this, h1]; simp [gapsText]
      · intro y hy
        rcases List.mem_cons.1 hy with rfl | hy
        · exact h.1
        · exact h2 y hy
    | plain u => exact ⟨[], _, p, rfl, by simp [GapsOk], h, rfl, .inr ⟨_, _, rfl, rfl⟩⟩
    | literal pre q ps => exact ⟨[], _, p, rfl, by simp [GapsOk], h, rfl, .inr ⟨_, _, rfl, rfl⟩⟩
    | raw pre d b => exact ⟨[], _, p, rfl, by simp [GapsOk], h, rfl, .inr ⟨_, _, rfl, rfl⟩⟩

/-- The end of a line -/
theorem scanFrom_eol (f : Str → Bool) (nl : Bool) (c : Option (List Part)) (hc : CommentOk c) :
    (∀ l ls, scanFrom f false nl (commentText c ++ tailText (l :: ls)) = scanFrom f false true (l.text ++ tailText ls)) ∧
    (scanFrom f false nl (commentText c ++ tailText [])).1.kind = .eof := by
  constructor
  · intro l ls
    have : tailText (l :: ls) = ch '\n' :: (l.text ++ tailText ls) := by simp [tailText]
    rw [this]
    exact scanFrom_congr (skip_eol nl c hc _)
  · have : commentText c ++ tailText [] = commentText c := by simp [tailText]
    rw [this]
    have h := skip_eof nl c hc
    unfold scanFrom
    cases hs : skip (.ws false) nl (commentText c) with
    | mk a b =>
      rw [hs] at h
      simp only at h
      subst h
      rfl

/-! ## The first token of the parts -/

theorem lexOne_letter {f : Str → Bool} {u : Cp} {r : List Cp} (hu : u.1 = 'm' ∨ u.1 = 'i') :
    lexOne f false u r = ident f u r := by
  have hi : identChar u = true := by unfold identChar; rcases hu with e | e <;> rw [e] <;> decide
  unfold lexOne
  rw [if_neg (by rcases hu with e | e <;> rw [e] <;> decide), if_neg (by rcases hu with e | e <;> rw [e] <;> decide),
    if_neg (by rcases hu with e | e <;> rw [e] <;> simp), if_neg (by simp),
    if_neg (by rcases hu with e | e <;> rw [e] <;> simp), if_neg (by rcases hu with e | e <;> rw [e] <;> decide),
    if_neg (by rcases hu with e | e <;> rw [e] <;> decide), if_pos hi]

theorem elem_text_ne {x : Elem} (hx : isGap x = false) : x.text ≠ [] := by
  cases x with
  | gap g => cases hx
  | plain u => simp [Elem.text]
  | literal pre q ps => simp [Elem.text]
  | raw pre d b => simp [Elem.text]

theorem takeWhile_after {e a : List Cp} (ha : After a) : (e ++ a).takeWhile identChar = e.takeWhile identChar := by
  induction e with
  | nil =>
    rcases ha with rfl | ⟨u, r, rfl, hu⟩
    · rfl
    · have : identChar u = false := by unfold identChar; rcases hu with e | e <;> rw [e] <;> decide
      simp [this]
  | cons v e ih =>
    simp only [List.cons_append, List.takeWhile_cons, ih]

/-- The token with which the parts begin -/
structure FirstTok (text : List Cp) (after : List Cp) (tk : Tok) (es' : List Elem) (p' : Option Char) : Prop where
  ok : Ok after p' es'
  notEof : tk.kind ≠ .eof
  pound : tk.kind = .pound → peek text = '#' ∨ peek text = '%' ∧ peek text.tail = ':'
  ident : tk.kind = .ident → (firstWord text).length < 65536 → tk.text = firstWord text
  word : tk.text = "module".toList ∨ tk.text = "import".toList → (firstWord text).length < 65536 → tk.text = firstWord text
  semi : peek text = ';' ∨ peek text = ':' → tk.kind ≠ .ident

theorem firstTok (f : Str → Bool) {after : List Cp} (ha : After after) {p : Option Char} {x : Elem} {es : List Elem}
    (h : Ok after p (x :: es)) (hx : isGap x = false) : ∃ tk es' p',
      (∀ nl, scanFrom f false nl (elemsText (x :: es) ++ after) = ({ tk with newline := nl }, elemsText es' ++ after)) ∧
      FirstTok (elemsText (x :: es)) after tk es' p' := by
  obtain ⟨u, r, es', p', ht⟩ := tokenAt f ha h hx
  obtain ⟨v, y, e⟩ : ∃ v y, elemsText (x :: es) = v :: y := by
    have := elem_text_ne hx
    obtain ⟨v, y, e⟩ := List.exists_cons_of_ne_nil this
    exact ⟨v, y ++ elemsText es, by simp [elemsText, e]⟩
  have e2 := ht.text
  rw [e, List.cons_append] at e2
  injection e2 with e3 e4
  subst e3
  have hfw : firstWord (elemsText (x :: es)) = bytes ((v :: r).takeWhile identChar) := by
    unfold firstWord
    rw [← takeWhile_after ha, ht.text]
  have key : identChar v = true → r = r.takeWhile identChar ++ (lexOne f false v r).2 →
      (firstWord (elemsText (x :: es))).length < 65536 → (lexAt f false false v r).1.text = firstWord (elemsText (x :: es)) := by
    intro h1 h2 h3
    rw [hfw, List.takeWhile_cons_of_pos h1] at h3 ⊢
    rw [lexAt_short h2 h3]
  refine ⟨(lexAt f false false v r).1, es', p', ?_, ht.ok, ht.notEof, ?_, ?_, ?_, ?_⟩
  · intro nl
    rw [ht.text, scanFrom_stay (ht.stay nl), ← ht.rest]
    rfl
  · intro hk
    rcases ht.pound hk with h1 | ⟨h1, h2⟩
    · left; rw [e]; exact h1
    · right
      rw [e]
      refine ⟨h1, ?_⟩
      simp only [List.tail_cons]
      cases y with
      | nil =>
        exfalso
        rw [← e4, List.nil_append] at h2
        rcases ha with rfl | ⟨w, z, rfl, hw⟩
        · revert h2; decide
        · simp only [peek] at h2; rcases hw with hw | hw <;> rw [hw] at h2 <;> revert h2 <;> decide
      | cons w z => rw [← e4] at h2; exact h2
  · intro hk hl
    obtain ⟨h1, h2⟩ := ht.ident hk
    exact key h1 h2 hl
  · intro hk hl
    have hu : v.1 = 'm' ∨ v.1 = 'i' := by
      have hh : (lexAt f false false v r).1.text ≠ [] → (lexAt f false false v r).1.text.head? = some v.1 := by
        intro hne
        unfold lexAt at hne ⊢
        simp only at hne ⊢
        cases hk' : (v :: r).length - (lexOne f false v r).2.length with
        | zero => rw [hk'] at hne; simp [bytes] at hne
        | succ k =>
          rw [hk'] at hne
          simp only [List.take_succ_cons, bytes, List.flatMap_cons, List.cons_append] at hne ⊢
          rw [List.head?_take]
          split
          · rename_i hz
            rw [hz] at hne; simp at hne
          · rfl
      rcases hk with hk | hk
      · rw [hk] at hh; have := hh (by decide); left; simpa using this.symm
      · rw [hk] at hh; have := hh (by decide); right; simpa using this.symm
    have hi : identChar v = true := by unfold identChar; rcases hu with e | e <;> rw [e] <;> decide
    refine key hi ?_ hl
    rw [lexOne_letter hu]
    exact tw_dw _ _
  · intro hk hi
    obtain ⟨h1, -⟩ := ht.ident hi
    rw [e] at hk
    simp only [peek] at hk
    unfold identChar at h1
    rcases hk with hk | hk <;> rw [hk] at h1 <;> exact absurd h1 (by decide)

end Verif.Cpp
