import Verif.Template.Spec

namespace Verif.Template

theorem takeWhile_append {n s : Text} {c : Char} (hn : ∀ x ∈ n, isWord x = true) (hc : isWord c = false) :
    (n ++ c :: s).takeWhile isWord = n := by
  induction n with
  | nil => simp [hc]
  | cons x n ih =>
    rw [List.cons_append, List.takeWhile_cons_of_pos (hn x (by simp)), ih (fun y hy => hn y (by simp [hy]))]

theorem isWord_iff (c : Char) : isWord c = true ↔ c.isAlphanum = true ∨ c = '_' := by
  simp [isWord]

theorem takeWhile_all (s : Text) : ∀ x ∈ s.takeWhile isWord, isWord x = true := by
  induction s with
  | nil => intro x hx; cases hx
  | cons c s ih =>
    intro x hx
    by_cases h : isWord c = true
    · rw [List.takeWhile_cons_of_pos h] at hx
      rcases List.mem_cons.1 hx with rfl | hx
      · exact h
      · exact ih x hx
    · rw [List.takeWhile_cons_of_neg h] at hx; cases hx

theorem takeWhile_drop (s : Text) : s = s.takeWhile isWord ++ s.drop (s.takeWhile isWord).length := by
  induction s with
  | nil => rfl
  | cons c s ih =>
    by_cases h : isWord c = true
    · rw [List.takeWhile_cons_of_pos h, List.cons_append, List.length_cons, List.drop_succ_cons, ← ih]
    · rw [List.takeWhile_cons_of_neg h]; rfl

theorem wrap_eq (st : Style) (n : Text) : st.wrap n = st.opening ++ n ++ [st.closing] := by cases st <;> rfl

theorem closing_word (st : Style) : isWord st.closing = false := by cases st <;> decide
theorem self_word (st : Style) : isWord st.special = false := by cases st <;> decide
theorem self_eq (st : Style) : st.self = st.special := by cases st <;> rfl

theorem name_cases {st : Style} {n : Text} (h : Name st n) : n = [st.special] ∨ (n ≠ [] ∧ ∀ x ∈ n, isWord x = true) := by
  rcases h with h | ⟨h1, h2⟩
  · exact .inl h
  · exact .inr ⟨h1, fun x hx => (isWord_iff x).2 (h2 x hx)⟩

/-- A placeholder is found where it begins. -/
theorem match_wrap {st : Style} {n : Text} (hn : Name st n) (rest : Text) :
    matchHere st (st.wrap n ++ rest) = some (n, (st.wrap n).length) := by
  have e : st.wrap n ++ rest = st.opening ++ (n ++ st.closing :: rest) := by rw [wrap_eq]; simp
  have hlen : (st.wrap n).length = st.opening.length + n.length + 1 := by rw [wrap_eq]; simp; omega
  unfold matchHere
  rw [e, if_pos (by rw [List.isPrefixOf_iff_prefix]; exact List.prefix_append _ _)]
  simp only [List.drop_left, self_eq]
  rcases name_cases hn with rfl | ⟨h1, h2⟩
  · rw [if_pos (by simp), hlen]; rfl
  · have hno : ¬ [st.special, st.closing].isPrefixOf (n ++ st.closing :: rest) = true := by
      rw [List.isPrefixOf_iff_prefix]
      rintro ⟨t, ht⟩
      cases n with
      | nil => exact h1 rfl
      | cons x n =>
        rw [List.cons_append, List.cons_append] at ht
        injection ht with hx _
        have := h2 x (by simp)
        rw [← hx, self_word] at this
        cases this
    rw [if_neg hno, takeWhile_append h2 (closing_word st), if_pos ⟨h1, by simp⟩, hlen]

/-- What is found is a placeholder. -/
theorem match_some {st : Style} {s n : Text} {len : Nat} (h : matchHere st s = some (n, len)) :
    Name st n ∧ len = (st.wrap n).length ∧ ∃ rest, s = st.wrap n ++ rest := by
  unfold matchHere at h
  split at h
  · rename_i hp
    rw [List.isPrefixOf_iff_prefix] at hp
    obtain ⟨r, rfl⟩ := hp
    simp only [List.drop_left, self_eq] at h
    split at h
    · rename_i hs
      rw [List.isPrefixOf_iff_prefix] at hs
      obtain ⟨t, rfl⟩ := hs
      cases h
      refine ⟨.inl rfl, ?_, t, ?_⟩
      · rw [wrap_eq]; simp
      · rw [wrap_eq]; simp
    · split at h
      · rename_i hc
        cases h
        obtain ⟨h1, h2⟩ := hc
        refine ⟨.inr ⟨h1, fun c hc => (isWord_iff c).1 (takeWhile_all r c hc)⟩, ?_, ?_⟩
        · rw [wrap_eq]; simp; omega
        · cases hd : r.drop (r.takeWhile isWord).length with
          | nil => rw [hd] at h2; cases h2
          | cons c t =>
            rw [hd] at h2
            injection h2 with h2
            refine ⟨t, ?_⟩
            have := takeWhile_drop r
            rw [hd, h2] at this
            rw [wrap_eq, List.append_assoc, List.append_assoc]
            congr 1
      · cases h
  · cases h

theorem wrap_ne (st : Style) (n : Text) : ∃ c t, st.wrap n = c :: t := by cases st <;> exact ⟨_, _, rfl⟩

theorem skip_matches (st : Style) (a s : Text) (i : Nat) : matchesFrom st a.length i (a ++ s) = matchesFrom st 0 (i + a.length) s := by
  induction a generalizing i with
  | nil => rfl
  | cons c a ih =>
    rw [List.length_cons, List.cons_append, matchesFrom]
    rw [ih]
    congr 1
    omega

theorem matches_var {st : Style} {n : Text} (hn : Name st n) (s : Text) (i : Nat) :
    matchesFrom st 0 i (st.wrap n ++ s) = ⟨i, n, (st.wrap n).length⟩ :: matchesFrom st 0 (i + (st.wrap n).length) s := by
  have hm := match_wrap hn s
  obtain ⟨c, t, e⟩ := wrap_ne st n
  rw [e, List.cons_append] at hm
  rw [e, List.cons_append, matchesFrom]
  simp only [hm]
  congr 1
  rw [List.length_cons, Nat.add_sub_cancel, skip_matches]
  congr 1
  omega

theorem matches_lit {st : Style} {c : Char} {s : Text} (h : ∀ n rest, Name st n → c :: s ≠ st.wrap n ++ rest) (i : Nat) :
    matchesFrom st 0 i (c :: s) = matchesFrom st 0 (i + 1) s := by
  rw [matchesFrom]
  cases hm : matchHere st (c :: s) with
  | none => rfl
  | some p =>
    obtain ⟨n, len⟩ := p
    obtain ⟨h1, -, rest, h2⟩ := match_some hm
    exact absurd h2 (h n rest h1)

/-- The loop of replacements -/
def run (st : Style) (d : Dict) (ms : List Match) (line : Text) : Except Text Text :=
  ms.foldr (fun m r =>
    match r with
    | .error e => .error e
    | .ok l => replaceOne st d m l) (.ok line)

/-- The result as a function: an error has the name of the last unknown placeholder. -/
def value (st : Style) (d : Dict) : List Part → Except Text Text
  | [] => .ok []
  | .lit c :: ps => (value st d ps).map (c :: ·)
  | .var n :: ps =>
    match value st d ps with
    | .error e => .error e
    | .ok t =>
      match replacement st d n with
      | none => .error n
      | some x => .ok (x ++ t)

theorem run_parts {st : Style} {d : Dict} {ps : List Part} (h : Ok st ps) (pre : Text) :
    run st d (matchesFrom st 0 pre.length (template st ps)) (pre ++ template st ps) = (value st d ps).map (pre ++ ·) := by
  induction ps generalizing pre with
  | nil => simp [template, matchesFrom, run, value, Except.map]
  | cons p ps ih =>
    cases p with
    | lit c =>
      obtain ⟨h1, h2⟩ := h
      have e : template st (.lit c :: ps) = c :: template st ps := rfl
      have := ih h2 (pre ++ [c])
      rw [e, matches_lit h1]
      simp only [List.length_append, List.length_cons, List.length_nil, List.append_assoc, List.cons_append, List.nil_append] at this
      rw [this, value]
      cases value st d ps <;> simp [Except.map]
    | var n =>
      obtain ⟨h1, h2⟩ := h
      have e : template st (.var n :: ps) = st.wrap n ++ template st ps := rfl
      have := ih h2 (pre ++ st.wrap n)
      rw [List.length_append, List.append_assoc] at this
      rw [e, matches_var h1]
      unfold run at this ⊢
      rw [List.foldr_cons, this, value]
      cases value st d ps with
      | error e => rfl
      | ok t =>
        simp only [Except.map, replaceOne]
        cases replacement st d n with
        | none => rfl
        | some x =>
          simp only
          rw [List.append_assoc pre, List.take_left]
          congr 1
          rw [← List.append_assoc pre, ← List.length_append, List.drop_left, List.append_assoc]

theorem render_parts {st : Style} {d : Dict} {ps : List Part} (h : Ok st ps) : renderLine st d (template st ps) = value st d ps := by
  have := run_parts (d := d) h []
  have e : renderLine st d (template st ps) = run st d (matchesFrom st 0 0 (template st ps)) (template st ps) := by
    unfold renderLine run
    rfl
  simp only [List.length_nil, List.nil_append] at this
  rw [e, this]
  cases value st d ps <;> rfl

theorem value_iff {st : Style} {d : Dict} {n x : Text} : replacement st d n = some x ↔ Value st d n x := by
  unfold replacement Value
  cases st <;> simp only [Style.special, true_and, ne_eq, not_true_eq_false, false_and, if_false, reduceCtorEq, not_false_eq_true]
  all_goals
    split
    · rename_i h; simp [h, eq_comm]
    · rename_i h; simp [h]

theorem value_none {st : Style} {d : Dict} {n : Text} : replacement st d n = none ↔ n ≠ [st.special] ∧ d.get n = none := by
  unfold replacement
  cases st <;> simp only [Style.special, true_and, ne_eq, not_true_eq_false, false_and, if_false, reduceCtorEq, not_false_eq_true]
  all_goals
    split
    · rename_i h; simp [h]
    · rename_i h; simp [h]

theorem rendered_iff {st : Style} {d : Dict} {ps : List Part} {t : Text} : value st d ps = .ok t ↔ Rendered st d ps t := by
  induction ps generalizing t with
  | nil =>
    simp only [value]
    constructor
    · intro h; cases h; exact .nil
    · intro h; cases h; rfl
  | cons p ps ih =>
    cases p with
    | lit c =>
      simp only [value]
      constructor
      · intro h
        cases hv : value st d ps with
        | error e => rw [hv] at h; cases h
        | ok u => rw [hv] at h; cases h; exact .lit (ih.1 hv)
      · intro h
        cases h with
        | lit h => rw [ih.2 h]; rfl
    | var n =>
      simp only [value]
      constructor
      · intro h
        cases hv : value st d ps with
        | error e => rw [hv] at h; cases h
        | ok u =>
          rw [hv] at h
          simp only at h
          cases hr : replacement st d n with
          | none => rw [hr] at h; cases h
          | some x => rw [hr] at h; cases h; exact .var (value_iff.1 hr) (ih.1 hv)
      · intro h
        cases h with
        | var hx h => rw [ih.2 h]; simp only [value_iff.2 hx]

/-- Every line is a sequence of characters and placeholders. -/
theorem parts_exist (st : Style) : ∀ (k : Nat) (s : Text), s.length ≤ k → ∃ ps, Ok st ps ∧ template st ps = s := by
  intro k
  induction k with
  | zero =>
    intro s hs
    cases s with
    | nil => exact ⟨[], trivial, rfl⟩
    | cons => simp at hs
  | succ k ih =>
    intro s hs
    cases s with
    | nil => exact ⟨[], trivial, rfl⟩
    | cons c s =>
      simp only [List.length_cons, Nat.add_le_add_iff_right] at hs
      cases hm : matchHere st (c :: s) with
      | none =>
        obtain ⟨ps, h1, h2⟩ := ih s hs
        refine ⟨.lit c :: ps, ⟨?_, h1⟩, ?_⟩
        · intro n rest hn he
          rw [h2] at he
          have := match_wrap hn rest
          rw [← he, hm] at this
          cases this
        · show c :: template st ps = c :: s
          rw [h2]
      | some p =>
        obtain ⟨n, len⟩ := p
        obtain ⟨h1, -, rest, h2⟩ := match_some hm
        have hl : rest.length ≤ k := by
          obtain ⟨x, t, e⟩ := wrap_ne st n
          have := congrArg List.length h2
          rw [e] at this
          simp only [List.length_cons, List.length_append] at this
          omega
        obtain ⟨ps, h3, h4⟩ := ih rest hl
        refine ⟨.var n :: ps, ⟨h1, h3⟩, ?_⟩
        show st.wrap n ++ template st ps = _
        rw [h4, h2]

/-! ## Files -/

theorem fileLines_line {l : Text} (h : '\n' ∉ l) (cur : Option Text) (s : Text) :
    fileLines cur (l ++ '\n' :: s) = (cur.getD [] ++ l) :: fileLines none s := by
  induction l generalizing cur with
  | nil => simp [fileLines]
  | cons c l ih =>
    simp only [List.mem_cons, not_or] at h
    rw [List.cons_append, fileLines, if_neg (fun e => h.1 e.symm), ih h.2]
    simp

theorem fileLines_last {l : Text} (h : '\n' ∉ l) (cur : Option Text) (hne : l ≠ []) : fileLines cur l = [cur.getD [] ++ l] := by
  induction l generalizing cur with
  | nil => exact absurd rfl hne
  | cons c l ih =>
    simp only [List.mem_cons, not_or] at h
    rw [fileLines, if_neg (fun e => h.1 e.symm)]
    cases l with
    | nil => simp [fileLines]
    | cons d l => rw [ih h.2 _ (by simp)]; simp

theorem fileLines_text {ls : List Text} (h : ∀ l ∈ ls, '\n' ∉ l) {last : Text} (hl : '\n' ∉ last) :
    fileLines none (ls.flatMap (· ++ ['\n']) ++ last) = ls ++ if last = [] then [] else [last] := by
  induction ls with
  | nil =>
    by_cases e : last = []
    · rw [if_pos e, e]; rfl
    · rw [if_neg e, List.flatMap_nil, List.nil_append, fileLines_last hl _ e]; rfl
  | cons l ls ih =>
    have := ih (fun x hx => h x (by simp [hx]))
    have e : (l :: ls).flatMap (· ++ ['\n']) ++ last = l ++ '\n' :: (ls.flatMap (· ++ ['\n']) ++ last) := by simp
    rw [e, fileLines_line (h l (by simp)), this]
    rfl

end Verif.Template
