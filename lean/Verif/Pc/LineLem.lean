import Verif.Pc.Spec

/-! # Lemmas about lines and variables -/

namespace Verif.Pc

theorem readLines_cr (s : Text) (q c a : Bool) (line : Text) :
    readLines q c a line s = readLines q c a line (s.filter (fun c => decide (c ≠ '\r'))) := by
  induction s generalizing q c a line with
  | nil => rfl
  | cons x s ih =>
    by_cases hx : x = '\r'
    · subst hx
      rw [List.filter_cons_of_neg (by simp)]
      simp only [readLines, if_true]
      exact ih ..
    · rw [List.filter_cons_of_pos (by simp [hx])]
      simp only [readLines, hx, if_false]
      simp only [ih]

theorem readLines_parts {ps : List LinePart} (h : ∀ p ∈ ps, p.ok) (a : Bool) (line s : Text) :
    readLines false false a line (ps.flatMap LinePart.text ++ s) =
      readLines false false (a || !ps.isEmpty) (line ++ ps.flatMap LinePart.value) s := by
  induction ps generalizing a line with
  | nil => simp
  | cons p ps ih =>
    have hp := h p (by simp)
    have ih' := fun a line => ih (fun q hq => h q (by simp [hq])) a line
    have hr : ∀ x : Bool, (true || x) = (a || !(p :: ps).isEmpty) := by simp
    cases p with
    | plain c =>
      simp only [LinePart.ok] at hp
      simp only [List.flatMap_cons, LinePart.text, LinePart.value, List.append_assoc, List.cons_append, List.nil_append,
        readLines, hp, if_false, Bool.false_eq_true]
      rw [ih']
      simp
    | hash =>
      simp only [List.flatMap_cons, LinePart.text, LinePart.value, List.append_assoc, List.cons_append, List.nil_append,
        readLines]
      simp only [show ('\\' : Char) ≠ '\r' by decide, show ('\\' : Char) ≠ '#' by decide, show ('#' : Char) ≠ '\r' by decide,
        if_false, if_true, Bool.false_eq_true, Bool.not_false]
      rw [ih']
      simp
    | escaped c =>
      simp only [LinePart.ok] at hp
      simp only [List.flatMap_cons, LinePart.text, LinePart.value, List.append_assoc, List.cons_append, List.nil_append,
        readLines]
      simp only [show ('\\' : Char) ≠ '\r' by decide, show ('\\' : Char) ≠ '#' by decide, hp,
        if_false, if_true, Bool.false_eq_true, Bool.not_false]
      rw [ih']
      simp
    | continued =>
      simp only [List.flatMap_cons, LinePart.text, LinePart.value, List.append_assoc, List.cons_append, List.nil_append,
        readLines]
      simp only [show ('\\' : Char) ≠ '\r' by decide, show ('\\' : Char) ≠ '#' by decide, show ('\n' : Char) ≠ '\r' by decide,
        show ('\n' : Char) ≠ '#' by decide, if_false, if_true, Bool.false_eq_true, Bool.not_false]
      rw [ih']
      simp

theorem readLines_comment {t : Text} (h : '\n' ∉ t ∧ '\r' ∉ t) (line s : Text) :
    readLines false true true line (t ++ s) = readLines false true true line s := by
  induction t with
  | nil => rfl
  | cons c t ih =>
    simp only [List.mem_cons, not_or] at h
    have ih' := ih ⟨h.1.2, h.2.2⟩
    simp only [List.cons_append, readLines, Ne.symm h.2.1, Ne.symm h.1.1, if_false, if_true, Bool.false_eq_true, Bool.not_true]
    rw [ih']
    simp

theorem readLines_line {l : Line} (h : l.ok) (s : Text) :
    readLines false false false [] (l.text ++ '\n' :: s) = l.value :: readLines false false false [] s := by
  unfold Line.text Line.value
  cases hc : l.comment with
  | none =>
    simp only [List.append_nil]
    rw [readLines_parts h.1]
    simp [readLines]
  | some t =>
    simp only [List.append_assoc]
    rw [readLines_parts h.1]
    simp only [List.cons_append, readLines]
    simp only [show ('#' : Char) ≠ '\r' by decide, if_false, if_true, Bool.false_eq_true]
    rw [readLines_comment (h.2 t hc)]
    simp [readLines]

theorem readLines_last {l : Line} (h : l.ok) (b : Bool) (hb : b = true → l.comment = none) :
    readLines false false false [] (l.text ++ if b then ['\\'] else []) =
      if l.text = [] ∧ b = false then [] else [l.value ++ if b then ['\\'] else []] := by
  unfold Line.text Line.value
  cases hc : l.comment with
  | none =>
    simp only [List.append_nil]
    rw [readLines_parts h.1]
    have hps : l.parts.flatMap LinePart.text = [] ↔ l.parts = [] := by
      constructor
      · intro he
        cases hp : l.parts with
        | nil => rfl
        | cons p ps =>
          rw [hp] at he
          cases p <;> simp [LinePart.text] at he
      · intro he; simp [he]
    cases b with
    | true => simp [readLines]
    | false =>
      simp only [Bool.false_eq_true, if_false, readLines]
      by_cases hp : l.parts = []
      · simp [hp]
      · have : l.parts.isEmpty = false := by simp [hp]
        simp [this, hps, hp]
  | some t =>
    have hb' : b = false := by
      cases b with
      | false => rfl
      | true => rw [hc] at hb; simp at hb
    subst hb'
    simp only [List.append_assoc, Bool.false_eq_true, if_false, List.append_nil]
    rw [readLines_parts h.1]
    simp only [readLines]
    simp only [show ('#' : Char) ≠ '\r' by decide, if_false, if_true, Bool.false_eq_true]
    rw [show t = t ++ [] by simp, readLines_comment (h.2 t hc)]
    simp [readLines]

theorem fileLines_text {ls : List Line} {last : Line} {b : Bool} (h : ∀ l ∈ ls, l.ok) (hl : last.ok)
    (hb : b = true → last.comment = none) :
    fileLines (fileText ls last b) =
      ls.map Line.value ++ if last.text = [] ∧ b = false then [] else [last.value ++ if b then ['\\'] else []] := by
  unfold fileLines fileText
  induction ls with
  | nil => simp only [List.flatMap_nil, List.nil_append, List.map_nil]; exact readLines_last hl b hb
  | cons l ls ih =>
    simp only [List.flatMap_cons, List.append_assoc, List.cons_append, List.nil_append, List.map_cons]
    rw [readLines_line (h l (by simp))]
    congr 1
    rw [← ih (fun x hx => h x (by simp [hx]))]
    simp

theorem split_at {α} [DecidableEq α] (a : α) (s : List α) : a ∉ s ∨ ∃ t u, s = t ++ a :: u ∧ a ∉ t := by
  induction s with
  | nil => simp
  | cons x s ih =>
    by_cases hx : a = x
    · subst hx; exact .inr ⟨[], s, rfl, by simp⟩
    · rcases ih with ih | ⟨t, u, rfl, ih⟩
      · left; simp [hx, ih]
      · exact .inr ⟨x :: t, u, rfl, by simp [hx, ih]⟩

/-- A part can be put at the beginning. -/
theorem fileText_cons (p : LinePart) (hp : p.ok) (ls : List Line) (last : Line) (b : Bool) (h : ∀ l ∈ ls, l.ok) (hl : last.ok)
    (hb : b = true → last.comment = none) :
    ∃ ls' last', (∀ l ∈ ls', l.ok) ∧ last'.ok ∧ (b = true → last'.comment = none) ∧
      fileText ls' last' b = p.text ++ fileText ls last b := by
  cases ls with
  | nil =>
    refine ⟨[], ⟨p :: last.parts, last.comment⟩, by simp, ⟨?_, hl.2⟩, hb, ?_⟩
    · intro q hq
      simp only [List.mem_cons] at hq
      rcases hq with rfl | hq
      · exact hp
      · exact hl.1 q hq
    · simp [fileText, Line.text]
  | cons l ls =>
    refine ⟨⟨p :: l.parts, l.comment⟩ :: ls, last, ?_, hl, hb, ?_⟩
    · intro x hx
      simp only [List.mem_cons] at hx
      rcases hx with rfl | hx
      · refine ⟨?_, (h l (by simp)).2⟩
        intro q hq
        simp only [List.mem_cons] at hq
        rcases hq with rfl | hq
        · exact hp
        · exact (h l (by simp)).1 q hq
      · exact h x (by simp [hx])
    · simp [fileText, Line.text]

theorem fileText_exists (n : Nat) : ∀ s : Text, s.length ≤ n → '\r' ∉ s →
    ∃ ls last b, (∀ l ∈ ls, Line.ok l) ∧ last.ok ∧ (b = true → last.comment = none) ∧ s = fileText ls last b := by
  induction n with
  | zero =>
    intro s hs _
    have : s = [] := by cases s <;> simp_all
    subst this
    exact ⟨[], ⟨[], none⟩, false, by simp, ⟨by simp, by simp⟩, by simp, by simp [fileText, Line.text]⟩
  | succ n ih =>
    intro s hs hcr
    cases s with
    | nil => exact ⟨[], ⟨[], none⟩, false, by simp, ⟨by simp, by simp⟩, by simp, by simp [fileText, Line.text]⟩
    | cons c s =>
      simp only [List.length_cons] at hs
      simp only [List.mem_cons, not_or] at hcr
      by_cases h1 : c = '\n'
      · subst h1
        obtain ⟨ls, last, b, k1, k2, k3, rfl⟩ := ih s (by omega) hcr.2
        refine ⟨⟨[], none⟩ :: ls, last, b, ?_, k2, k3, by simp [fileText, Line.text]⟩
        intro l hl
        simp only [List.mem_cons] at hl
        rcases hl with rfl | hl
        · exact ⟨by simp, by simp⟩
        · exact k1 l hl
      by_cases h2 : c = '#'
      · subst h2
        rcases split_at '\n' s with hn | ⟨t, u, rfl, hn⟩
        · refine ⟨[], ⟨[], some s⟩, false, by simp, ⟨by simp, ?_⟩, by simp, by simp [fileText, Line.text]⟩
          intro t ht; cases ht; exact ⟨hn, hcr.2⟩
        · simp only [List.mem_append, List.mem_cons, not_or] at hcr
          obtain ⟨ls, last, b, k1, k2, k3, rfl⟩ := ih u (by simp only [List.length_append, List.length_cons] at hs; omega) hcr.2.2.2
          refine ⟨⟨[], some t⟩ :: ls, last, b, ?_, k2, k3, by simp [fileText, Line.text]⟩
          intro l hl
          simp only [List.mem_cons] at hl
          rcases hl with rfl | hl
          · refine ⟨by simp, ?_⟩
            intro t' ht; cases ht; exact ⟨hn, hcr.2.1⟩
          · exact k1 l hl
      by_cases h3 : c = '\\'
      · subst h3
        cases s with
        | nil => exact ⟨[], ⟨[], none⟩, true, by simp, ⟨by simp, by simp⟩, by simp, by simp [fileText, Line.text]⟩
        | cons d s =>
          simp only [List.length_cons] at hs
          simp only [List.mem_cons, not_or] at hcr
          obtain ⟨ls, last, b, k1, k2, k3, rfl⟩ := ih s (by omega) hcr.2.2
          have key : ∃ p : LinePart, p.ok ∧ p.text = ['\\', d] := by
            by_cases d1 : d = '#'
            · exact ⟨.hash, trivial, by simp [LinePart.text, d1]⟩
            by_cases d2 : d = '\n'
            · exact ⟨.continued, trivial, by simp [LinePart.text, d2]⟩
            · exact ⟨.escaped d, ⟨d1, d2, fun h => hcr.2.1 h.symm⟩, rfl⟩
          obtain ⟨p, hp, ht⟩ := key
          obtain ⟨ls', last', e1, e2, e3, e4⟩ := fileText_cons p hp ls last b k1 k2 k3
          exact ⟨ls', last', b, e1, e2, e3, by rw [e4, ht]; rfl⟩
      · obtain ⟨ls, last, b, k1, k2, k3, rfl⟩ := ih s (by omega) hcr.2
        obtain ⟨ls', last', e1, e2, e3, e4⟩ := fileText_cons (.plain c) ⟨h2, h3, h1, fun h => hcr.1 h.symm⟩ ls last b k1 k2 k3
        exact ⟨ls', last', b, e1, e2, e3, by rw [e4]; rfl⟩

/-! ## Variables -/

theorem subst_name (lookup : Text → Option Text) {n : Text} (h : '}' ∉ n) (v s : Text) :
    subst lookup (some v) (n ++ s) = subst lookup (some (v ++ n)) s := by
  induction n generalizing v with
  | nil => simp
  | cons c n ih =>
    simp only [List.mem_cons, not_or] at h
    rw [List.cons_append, subst.eq_7, if_neg (fun hc => h.1 hc.symm), ih h.2]
    simp

theorem subst_lit (lookup : Text → Option Text) (c : Char) (s : Text)
    (h : c = '$' → ∀ d s', s = d :: s' → d ≠ '$' ∧ d ≠ '{') :
    subst lookup none (c :: s) = (subst lookup none s).map (c :: ·) := by
  by_cases hc : c = '$'
  · subst hc
    cases s with
    | nil => simp [subst, Except.map]
    | cons d s =>
      have := h rfl d s rfl
      rw [subst]
      · intro s' he; cases he
      · intro s' _ he; cases he; exact this.1 rfl
      · intro s' _ he; cases he; exact this.2 rfl
  · rw [subst]
    · intro he _; exact hc he
    · intro s' he _; exact hc he
    · intro s' he _; exact hc he

theorem subst_parts (lookup : Text → Option Text) {l : List Part} (h : okParts l) (t : Text) :
    subst lookup none (l.flatMap Part.text) = .ok t ↔ Replaced lookup l t := by
  induction l generalizing t with
  | nil =>
    constructor
    · intro h'; simp [subst] at h'; subst h'; exact .nil
    · intro h'; cases h'; simp [subst]
  | cons p l ih =>
    cases p with
    | lit c =>
      simp only [okParts] at h
      rw [List.flatMap_cons, show Part.text (.lit c) = [c] from rfl, List.cons_append, List.nil_append, subst_lit lookup c _ h.1]
      constructor
      · intro h'
        cases hs : subst lookup none (l.flatMap Part.text) with
        | error e => rw [hs] at h'; cases h'
        | ok x => rw [hs] at h'; cases h'; exact .lit ((ih h.2 x).1 hs)
      · intro h'
        cases h' with
        | lit h' => rw [(ih h.2 _).2 h']; rfl
    | dollar =>
      simp only [okParts] at h
      rw [List.flatMap_cons, show Part.text .dollar = ['$', '$'] from rfl, List.cons_append, List.cons_append, List.nil_append, subst]
      constructor
      · intro h'
        cases hs : subst lookup none (l.flatMap Part.text) with
        | error e => rw [hs] at h'; cases h'
        | ok x => rw [hs] at h'; cases h'; exact .dollar ((ih h x).1 hs)
      · intro h'
        cases h' with
        | dollar h' => rw [(ih h _).2 h']; rfl
    | var n =>
      simp only [okParts] at h
      rw [List.flatMap_cons, show Part.text (.var n) = '$' :: '{' :: (n ++ ['}']) by simp [Part.text]]
      rw [List.cons_append, List.cons_append, List.append_assoc, subst, subst_name lookup h.1, List.nil_append, List.cons_append,
        List.nil_append, subst.eq_7, if_pos rfl]
      cases hl : lookup n with
      | none =>
        constructor
        · intro h'; cases h'
        · intro h'; cases h' with
          | var hx _ => rw [hl] at hx; cases hx
      | some x =>
        simp only
        constructor
        · intro h'
          cases hs : subst lookup none (l.flatMap Part.text) with
          | error e => rw [hs] at h'; cases h'
          | ok y => rw [hs] at h'; cases h'; exact .var hl ((ih h.2 y).1 hs)
        · intro h'
          cases h' with
          | var hx h' => rw [hl] at hx; cases hx; rw [(ih h.2 _).2 h']; rfl

end Verif.Pc
