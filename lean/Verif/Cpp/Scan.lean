import Verif.Cpp.Parts
/-!
# C58, C59: tokens of known texts
-/
namespace Verif.Cpp

/-- The token at this character -/
def lexAt (f : Str → Bool) (angle nl : Bool) (u : Cp) (r : List Cp) : Tok × List Cp :=
  let k := lexOne f angle u r
  let t := bytes ((u :: r).take ((u :: r).length - k.2.length))
  (⟨nl, k.1, t.take (t.length % 65536), bytes (u :: r)⟩, k.2)

/-- `scan`, knowing whether there was a line break before -/
def scanFrom (f : Str → Bool) (angle nl : Bool) (s : List Cp) : Tok × List Cp :=
  match skip (.ws false) nl s with
  | (nl, []) => (⟨nl, .eof, [], []⟩, [])
  | (nl, u :: r) => lexAt f angle nl u r

theorem scan_eq (f : Str → Bool) (angle : Bool) (s : List Cp) : scan f angle s = scanFrom f angle false s := rfl

theorem scanFrom_congr {f : Str → Bool} {angle nl nl' : Bool} {s s' : List Cp}
    (h : skip (.ws false) nl s = skip (.ws false) nl' s') : scanFrom f angle nl s = scanFrom f angle nl' s' := by
  unfold scanFrom; rw [h]

theorem scanFrom_stay {f : Str → Bool} {angle nl : Bool} {u : Cp} {r : List Cp}
    (h : skip (.ws false) nl (u :: r) = (nl, u :: r)) : scanFrom f angle nl (u :: r) = lexAt f angle nl u r := by
  unfold scanFrom; rw [h]

theorem scanFrom_gaps (f : Str → Bool) (angle nl : Bool) (gs : List Gap) (t : List Cp) (h : GapsOk gs) :
    ∃ nl', scanFrom f angle nl (gapsText gs ++ t) = scanFrom f angle nl' t ∧ (nl = false → nl' = false) ∧
      ((∀ g ∈ gs, g.isSplice = false) → nl' = nl) := by
  obtain ⟨nl', h1, h2, h3⟩ := skip_gaps gs nl t h
  exact ⟨nl', scanFrom_congr h1, h2, h3⟩

theorem scan_gaps (f : Str → Bool) (angle : Bool) (gs : List Gap) (t : List Cp) (h : GapsOk gs) :
    scan f angle (gapsText gs ++ t) = scan f angle t := by
  obtain ⟨nl', h1, h2, -⟩ := scanFrom_gaps f angle false gs t h
  rw [scan_eq, scan_eq, h1, h2 rfl]

theorem scanFrom_lead (f : Str → Bool) (angle nl : Bool) (gs : List Gap) (t : List Cp) (h : LeadOk gs) :
    scanFrom f angle nl (gapsText gs ++ t) = scanFrom f angle nl t := by
  obtain ⟨nl', h1, -, h3⟩ := scanFrom_gaps f angle nl gs t (fun g hg => (h g hg).1)
  rw [h1, h3 (fun g hg => (h g hg).2)]

/-- The token's text, if it is short -/
theorem lexAt_text {f : Str → Bool} {angle nl : Bool} {u : Cp} {r m : List Cp} (h : r = m ++ (lexOne f angle u r).2) :
    lexAt f angle nl u r = (⟨nl, (lexOne f angle u r).1, (bytes (u :: m)).take ((bytes (u :: m)).length % 65536),
      bytes (u :: r)⟩, (lexOne f angle u r).2) := by
  unfold lexAt
  simp only
  have h1 : (u :: r).take ((u :: r).length - (lexOne f angle u r).2.length) = u :: m := by
    generalize (lexOne f angle u r).2 = x at h
    subst h
    have : (u :: (m ++ x)).length - x.length = (u :: m).length := by simp; omega
    rw [this]
    have : u :: (m ++ x) = (u :: m) ++ x := rfl
    rw [this, List.take_left]
  rw [h1]

theorem take_short {l : Str} (h : l.length < 65536) : l.take (l.length % 65536) = l := by
  rw [Nat.mod_eq_of_lt h, List.take_length]

theorem lexAt_short {f : Str → Bool} {angle nl : Bool} {u : Cp} {r m : List Cp} (h : r = m ++ (lexOne f angle u r).2)
    (hl : (bytes (u :: m)).length < 65536) :
    lexAt f angle nl u r = (⟨nl, (lexOne f angle u r).1, bytes (u :: m), bytes (u :: r)⟩, (lexOne f angle u r).2) := by
  rw [lexAt_text h, take_short hl]

/-- Something that is not part of a word and not a quote follows. -/
def WordEnd (t : List Cp) : Prop :=
  t = [] ∨ ∃ u r, t = u :: r ∧ identChar u = false ∧ u.1 ≠ '"' ∧ u.1 ≠ '\''

theorem takeWhile_word {w t : List Cp} (hw : ∀ u ∈ w, identChar u = true) (ht : t = [] ∨ ∃ u r, t = u :: r ∧ identChar u = false) :
    (w ++ t).takeWhile identChar = w ∧ (w ++ t).dropWhile identChar = t := by
  induction w with
  | nil =>
    rcases ht with rfl | ⟨u, r, rfl, h⟩
    · exact ⟨rfl, rfl⟩
    · simp [h]
  | cons u w ih =>
    obtain ⟨h1, h2⟩ := ih (fun v hv => hw v (by simp [hv]))
    have hu := hw u (by simp)
    simp [hu, h1, h2]

theorem noPre_word {u : Cp} {w t : List Cp} (hw : ∀ v ∈ w, identChar v = true) (ht : WordEnd t) : NoPre u (w ++ t) := by
  have key : ∀ (w' : List Cp), (∀ v ∈ w', identChar v = true) → peek (w' ++ t) ≠ '"' ∧ peek (w' ++ t) ≠ '\'' := by
    intro w' h'
    cases w' with
    | nil =>
      rcases ht with rfl | ⟨x, r, rfl, h1, h2, h3⟩
      · exact ⟨by decide, by decide⟩
      · exact ⟨h2, h3⟩
    | cons v w' =>
      have := ident_plain (h' v (by simp))
      exact ⟨this.1.1, this.1.2.1⟩
  have tl : ∀ (w' : List Cp) (c : Char), (∀ v ∈ w', identChar v = true) → identChar (ch c) = true → peek (w' ++ t) = c →
      ∃ v w'', w' = v :: w'' := by
    intro w' c _ hc hp
    cases w' with
    | nil =>
      exfalso
      rcases ht with rfl | ⟨x, r, rfl, h1, -, -⟩
      · rw [← show '\x00' = c from hp] at hc; exact absurd hc (by decide)
      · rw [← show x.1 = c from hp] at hc
        have : identChar (ch x.1) = identChar x := rfl
        rw [this, h1] at hc; cases hc
    | cons v w' => exact ⟨v, w', rfl⟩
  refine ⟨fun _ => key w hw, ?_, ?_⟩
  · intro _ hr
    obtain ⟨v, w', rfl⟩ := tl w 'R' hw (by decide) hr
    exact (key w' (fun x hx => hw x (by simp [hx]))).1
  · intro _ hr
    obtain ⟨v, w', rfl⟩ := tl w '8' hw (by decide) hr
    have hw' : ∀ x ∈ w', identChar x = true := fun x hx => hw x (by simp [hx])
    refine ⟨(key w' hw').1, (key w' hw').2, ?_⟩
    intro hr'
    obtain ⟨v', w'', rfl⟩ := tl w' 'R' hw' (by decide) hr'
    exact (key w'' (fun x hx => hw' x (by simp [hx]))).1

theorem lexOne_word {f : Str → Bool} {angle : Bool} {u : Cp} {w t : List Cp} (hu : identChar u = true) (hd : u.1.isDigit = false)
    (hw : ∀ v ∈ w, identChar v = true) (ht : t = [] ∨ ∃ x r, t = x :: r ∧ identChar x = false) (hn : NoPre u (w ++ t)) :
    lexOne f angle u (w ++ t) = (if f (bytes (u :: w)) then .other else .ident, t) := by
  obtain ⟨h1, h2⟩ := takeWhile_word hw ht
  obtain ⟨⟨q1, q2, q3, q4⟩, q5⟩ := ident_plain hu
  have hi : ident f u (w ++ t) = (if f (bytes (u :: w)) then .other else .ident, t) := by
    unfold ident; simp only [h1, h2]
  have hdot : u.1 ≠ '.' := by intro e; unfold identChar at hu; rw [e] at hu; exact absurd hu (by decide)
  have hlt : u.1 ≠ '<' := by intro e; unfold identChar at hu; rw [e] at hu; exact absurd hu (by decide)
  unfold lexOne
  rw [if_neg q1, if_neg q2, if_neg (fun h => hdot h.1), if_neg (fun h => hlt h.1), if_neg (fun h => hlt h.1)]
  by_cases c : u.1 = 'L' ∨ u.1 = 'u' ∨ u.1 = 'U' ∨ u.1 = 'R'
  · rw [if_pos c, prefixed_word f u _ hn c, hi]
  · rw [if_neg c, if_neg (by simp [hd]), if_pos hu, hi]

theorem scanFrom_word {f : Str → Bool} {nl : Bool} {w t : List Cp} (hw : WordOk w)
    (ht : t = [] ∨ ∃ x r, t = x :: r ∧ identChar x = false) (hn : ∀ u w', w = u :: w' → NoPre u (w' ++ t)) :
    scanFrom f false nl (w ++ t) =
      (⟨nl, if f (bytes w) then .other else .ident, bytes w, bytes (w ++ t)⟩, t) := by
  obtain ⟨h1, h2, h3, h4, -⟩ := hw
  obtain ⟨u, w', rfl⟩ := List.exists_cons_of_ne_nil h1
  have hu := h2 u (by simp)
  obtain ⟨⟨q1, q2, q3, q4⟩, q5⟩ := ident_plain hu
  have hl := lexOne_word (f := f) (angle := false) (u := u) (w := w') (t := t) hu h3 (fun v hv => h2 v (by simp [hv])) ht (hn u w' rfl)
  rw [List.cons_append, scanFrom_stay (skip_stay nl u _ q4 q3 (fun h => absurd h q5)),
    lexAt_short (m := w') (by rw [hl]) h4, hl]

theorem scan_word {f : Str → Bool} {w t : List Cp} (hw : WordOk w) (ht : WordEnd t) :
    scan f false (w ++ t) = (⟨false, if f (bytes w) then .other else .ident, bytes w, bytes (w ++ t)⟩, t) := by
  rw [scan_eq]
  apply scanFrom_word hw
  · rcases ht with h | ⟨x, r, h1, h2, -⟩
    · exact .inl h
    · exact .inr ⟨x, r, h1, h2⟩
  · intro u w' e
    exact noPre_word (fun v hv => hw.2.1 v (by rw [e]; simp [hv])) ht

theorem bytes_ch (s : Str) : bytes (s.map ch) = s := by
  induction s with
  | nil => rfl
  | cons c s ih => simp only [List.map_cons, bytes, List.flatMap_cons, ch] at ih ⊢; rw [ih]; rfl

/-- One of the words that are looked for -/
theorem scanFrom_keyword {f : Str → Bool} {nl : Bool} {s : String} {t : List Cp}
    (hs : s = "include" ∨ s = "import" ∨ s = "module" ∨ s = "export") (hf : f s.toList = false)
    (ht : t = [] ∨ ∃ x r, t = x :: r ∧ identChar x = false) :
    scanFrom f false nl (word s ++ t) = (⟨nl, .ident, s.toList, bytes (word s ++ t)⟩, t) := by
  have hb : bytes (word s) = s.toList := bytes_ch _
  have hok : WordOk (word s) := by
    unfold WordOk
    rw [hb]
    rcases hs with rfl | rfl | rfl | rfl <;> exact ⟨by decide, by decide, by decide, by decide, by decide⟩
  rw [scanFrom_word hok ht, hb, hf]
  · rfl
  · intro u w' e
    have : u.1 ≠ 'L' ∧ u.1 ≠ 'u' ∧ u.1 ≠ 'U' ∧ u.1 ≠ 'R' := by
      rcases hs with rfl | rfl | rfl | rfl <;> (injection e with e1 e2; subst e1; decide)
    obtain ⟨a, b, c, d⟩ := this
    unfold NoPre
    simp [a, b, c, d]

/-- Punctuation: nothing follows with which it would be another token. -/
theorem lexOne_punct {f : Str → Bool} {c : Char} {k : Kind} {t : List Cp}
    (h : (c = '.' ∧ k = .dot ∧ peek t ≠ '.' ∧ peek t ≠ '*' ∧ (peek t).isDigit = false) ∨
      (c = ':' ∧ k = .colon ∧ peek t ≠ ':' ∧ peek t ≠ '>') ∨ (c = ';' ∧ k = .semicolon) ∨
      (c = '#' ∧ k = .pound ∧ peek t ≠ '#') ∨
      (c = '<' ∧ k = .less ∧ peek t ≠ '<' ∧ peek t ≠ '=' ∧ peek t ≠ '%' ∧ peek t ≠ ':') ∨
      (c = '>' ∧ k = .greater ∧ peek t ≠ '>' ∧ peek t ≠ '=')) :
    lexOne f false (ch c) t = (k, t) := by
  cases t with
  | nil =>
    rcases h with ⟨rfl, rfl, -⟩ | ⟨rfl, rfl, -⟩ | ⟨rfl, rfl⟩ | ⟨rfl, rfl, -⟩ | ⟨rfl, rfl, -⟩ | ⟨rfl, rfl, -⟩ <;> rfl
  | cons v t =>
    simp only [peek] at h
    rcases h with ⟨rfl, rfl, h1, h2, h3⟩ | ⟨rfl, rfl, h1, h2⟩ | ⟨rfl, rfl⟩ | ⟨rfl, rfl, h1⟩ | ⟨rfl, rfl, h1, h2, h3, h4⟩ | ⟨rfl, rfl, h1, h2⟩
    all_goals
      simp (config := { decide := true }) [lexOne, ch, peek, lexOp, ops, identChar, List.find?_cons, List.isPrefixOf, List.isPrefixOf_cons₂, Ne.symm, *]

end Verif.Cpp
