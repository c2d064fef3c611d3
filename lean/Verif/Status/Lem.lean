import Verif.Status.Spec

namespace Verif.Status

/-! ## Paths -/

theorem pathOf_nil (d : Str) : pathOf d [] = d := rfl

theorem pathOf_cons (d n : Str) (cs : List Str) : pathOf d (n :: cs) = pathOf (child d n) cs := rfl

theorem pathOf_append (d x : Str) (cs : List Str) : pathOf (x ++ d) cs = x ++ pathOf d cs := by
  induction cs generalizing d with
  | nil => rfl
  | cons n cs ih =>
    rw [pathOf_cons, pathOf_cons]
    have : child (x ++ d) n = x ++ child d n := by simp [child]
    rw [this, ih]

theorem pathOf_eq (d : Str) (cs : List Str) : pathOf d cs = d ++ pathOf [] cs := by
  have := pathOf_append [] d cs
  simpa using this

theorem pathOf_rel (n : Str) (cs : List Str) : pathOf [] (n :: cs) = '/' :: rel (n :: cs) := by
  induction cs generalizing n with
  | nil => rfl
  | cons m cs ih =>
    rw [pathOf_cons, pathOf_eq, ih]
    simp [child, rel]

theorem drop_pathOf (d n : Str) (cs : List Str) :
    (pathOf d (n :: cs)).drop (d.length + 1) = rel (n :: cs) := by
  rw [pathOf_eq, pathOf_rel, List.drop_append]
  simp

theorem fileAt_ne {t : Entries} {cs : List Str} (h : FileAt t cs) : cs ≠ [] := by
  induction h with
  | file => simp
  | fileRest _ ih => exact ih
  | dir => simp
  | dirRest _ ih => exact ih

theorem fileAt_head {t : Entries} {n : Str} {cs : List Str} (h : FileAt t (n :: cs)) :
    n ∈ names t := by
  generalize hl : n :: cs = l at h
  induction h with
  | file => cases hl; simp [names]
  | fileRest _ ih => simp [names, ih hl]
  | dir => cases hl; simp [names]
  | dirRest _ ih => simp [names, ih hl]

theorem names_noslash {t : Entries} (w : Wf t) : ∀ n ∈ names t, '/' ∉ n := by
  induction t with
  | nil => simp [names]
  | file n r ih =>
    intro m hm
    simp only [names, List.mem_cons] at hm
    rcases hm with rfl | hm
    · exact w.1
    · exact ih w.2.2 m hm
  | dir n s r _ ih =>
    intro m hm
    simp only [names, List.mem_cons] at hm
    rcases hm with rfl | hm
    · exact w.1
    · exact ih w.2.2.2 m hm

theorem hidden_iff (n : Str) : hidden n = true ↔ n.head? = some '.' := by
  cases n with
  | nil => simp [hidden]
  | cons c n =>
    by_cases h : c = '.'
    · subst h; simp [hidden]
    · have : hidden (c :: n) = false := by
        unfold hidden
        split <;> simp_all
      simp [this, h]

/-! ## The walk -/

theorem visible_cons (ign : Str → Bool) (d n : Str) (cs : List Str) :
    Visible ign d (n :: cs) ↔
      hidden n = false ∧ ign (child d n) = false ∧ Visible ign (child d n) cs := by
  constructor
  · rintro ⟨h1, h2⟩
    refine ⟨?_, ?_, ?_, ?_⟩
    · have := h1 n (by simp)
      rw [Ne, ← hidden_iff] at this
      simpa using this
    · exact h2 1 (by omega) (by simp)
    · exact fun c hc => h1 c (by simp [hc])
    · intro k hk hl
      exact h2 (k + 1) (by omega) (by simp; omega)
  · rintro ⟨h1, h2, h3, h4⟩
    refine ⟨?_, ?_⟩
    · intro c hc
      rcases List.mem_cons.mp hc with rfl | hc
      · rw [Ne, ← hidden_iff]; simp [h1]
      · exact h3 c hc
    · intro k hk hl
      match k, hk with
      | 1, _ => exact h2
      | k + 2, _ => exact h4 (k + 1) (by omega) (by simpa using hl)

theorem visible_nil (ign : Str → Bool) (d : Str) : Visible ign d [] := by
  refine ⟨by simp, fun k hk hl => ?_⟩
  simp at hl; omega

theorem walk_mem (ign : Str → Bool) (t : Entries) (d p : Str) :
    p ∈ walk ign d t ↔ ∃ cs, FileAt t cs ∧ p = pathOf d cs ∧ Visible ign d cs := by
  induction t generalizing d with
  | nil =>
    simp only [walk, List.not_mem_nil, false_iff]
    rintro ⟨cs, h, -⟩
    cases h
  | file n r ih =>
    rw [walk, List.mem_append, ih]
    constructor
    · rintro (h | ⟨cs, h1, h2, h3⟩)
      · refine ⟨[n], .file, ?_, ?_⟩
        · by_cases a : hidden n = true <;> by_cases b : ign (child d n) = true <;> simp_all [pathOf_cons, pathOf_nil]
        · rw [visible_cons]
          by_cases a : hidden n = true <;> by_cases b : ign (child d n) = true <;> simp_all [visible_nil]
      · exact ⟨cs, .fileRest h1, h2, h3⟩
    · rintro ⟨cs, h1, h2, h3⟩
      cases h1 with
      | file =>
        left
        rw [visible_cons] at h3
        simp [h3.1, h3.2.1, h2, pathOf_cons, pathOf_nil]
      | fileRest h1 => exact .inr ⟨cs, h1, h2, h3⟩
  | dir n s r ihs ih =>
    rw [walk, List.mem_append, ih]
    constructor
    · rintro (h | ⟨cs, h1, h2, h3⟩)
      · by_cases a : hidden n = true
        · simp [a] at h
        · by_cases b : ign (child d n) = true
          · simp [b] at h
          · rw [if_neg a, if_neg b, ihs] at h
            obtain ⟨cs, h1, h2, h3⟩ := h
            refine ⟨n :: cs, .dir h1, h2, ?_⟩
            rw [visible_cons]
            exact ⟨by simpa using a, by simpa using b, h3⟩
      · exact ⟨cs, .dirRest h1, h2, h3⟩
    · rintro ⟨cs, h1, h2, h3⟩
      cases h1 with
      | dir h1 =>
        rename_i cs
        left
        rw [visible_cons] at h3
        rw [if_neg (by simp [h3.1]), if_neg (by simp [h3.2.1]), ihs]
        exact ⟨cs, h1, h2, h3.2.2⟩
      | dirRest h1 => exact .inr ⟨cs, h1, h2, h3⟩

/-! ## No file twice -/

/-- Nothing, or something after a slash. -/
theorem pathOf_shape (cs : List Str) : pathOf [] cs = [] ∨ ∃ x, pathOf [] cs = '/' :: x := by
  cases cs with
  | nil => exact .inl rfl
  | cons n cs => exact .inr ⟨_, pathOf_rel n cs⟩

theorem split_slash : ∀ (n m x y : Str), '/' ∉ n → '/' ∉ m →
    (x = [] ∨ ∃ z, x = '/' :: z) → (y = [] ∨ ∃ z, y = '/' :: z) → n ++ x = m ++ y → n = m ∧ x = y
  | [], [], x, y, _, _, _, _, h => ⟨rfl, by simpa using h⟩
  | [], c :: m, x, y, _, hm, hx, _, h => by
    rcases hx with rfl | ⟨z, rfl⟩
    · simp at h
    · simp at h; simp [← h.1] at hm
  | c :: n, [], x, y, hn, _, _, hy, h => by
    rcases hy with rfl | ⟨z, rfl⟩
    · simp at h
    · simp at h; simp [h.1] at hn
  | c :: n, e :: m, x, y, hn, hm, hx, hy, h => by
    simp only [List.cons_append, List.cons.injEq] at h
    obtain ⟨rfl, h⟩ := h
    have := split_slash n m x y (by simp_all) (by simp_all) hx hy h
    exact ⟨by rw [this.1], this.2⟩

theorem walk_starts {ign : Str → Bool} {t : Entries} {d p : Str} (h : p ∈ walk ign d t) :
    ∃ n ∈ names t, ∃ x, (x = [] ∨ ∃ z, x = '/' :: z) ∧ p = d ++ '/' :: (n ++ x) := by
  rw [walk_mem] at h
  obtain ⟨cs, h1, rfl, -⟩ := h
  cases cs with
  | nil => exact absurd rfl (fileAt_ne h1)
  | cons n cs =>
    refine ⟨n, fileAt_head h1, pathOf [] cs, pathOf_shape cs, ?_⟩
    rw [pathOf_cons, pathOf_eq]
    simp [child]

theorem walk_nodup (ign : Str → Bool) (t : Entries) (d : Str) (w : Wf t) :
    (walk ign d t).Nodup := by
  induction t generalizing d with
  | nil => simp [walk]
  | file n r ih =>
    rw [walk, List.nodup_append]
    refine ⟨?_, ih d w.2.2, ?_⟩
    · split
      · simp
      · split <;> simp
    · intro a ha b hb
      have ha' : a = child d n := by
        by_cases x : hidden n = true <;> by_cases y : ign (child d n) = true <;> simp_all
      obtain ⟨m, hm, x, hx, rfl⟩ := walk_starts hb
      rintro rfl
      have e : n ++ [] = m ++ x := by
        have := ha'; simp only [child, List.append_cancel_left_eq, List.cons.injEq, true_and] at this
        simpa using this.symm
      have := (split_slash n m [] x w.1 (names_noslash w.2.2 m hm) (.inl rfl) hx e).1
      exact w.2.1 (this ▸ hm)
  | dir n s r ihs ih =>
    rw [walk, List.nodup_append]
    refine ⟨?_, ih d w.2.2.2, ?_⟩
    · split
      · simp
      · split
        · simp
        · exact ihs _ w.2.2.1
    · intro a ha b hb
      have ha' : a ∈ walk ign (child d n) s := by
        by_cases x : hidden n = true <;> by_cases y : ign (child d n) = true <;> simp_all
      obtain ⟨k, -, z, -, rfl⟩ := walk_starts ha'
      obtain ⟨m, hm, x, hx, rfl⟩ := walk_starts hb
      intro e
      have e : n ++ ('/' :: (k ++ z)) = m ++ x := by
        simp only [child, List.append_assoc, List.cons_append, List.append_cancel_left_eq,
          List.cons.injEq, true_and] at e
        exact e
      have := (split_slash n m _ x w.1 (names_noslash w.2.2.2 m hm) (.inr ⟨_, rfl⟩) hx e).1
      exact w.2.1 (this ▸ hm)

/-! ## The report -/

theorem addAll_eq (exist : Str → Bool) (root : Str) (r : Report) (ps : List Product) :
    addAll exist root r ps = ps.flatten.flatten.foldl (addFile exist root) r := by
  unfold addAll
  induction ps generalizing r with
  | nil => rfl
  | cons p ps ih =>
    rw [List.foldl_cons, ih]
    simp only [List.flatten_cons, List.flatten_append, List.foldl_append]
    congr 1
    induction p generalizing r with
    | nil => rfl
    | cons g p ih2 => simp [List.foldl_append, ih2]

theorem files_listed (exist : Str → Bool) (root : Str) (fs : List Str) (r : Report) :
    (fs.foldl (addFile exist root) r).listed = r.listed ++ fs.map (·.drop (root.length + 1)) := by
  induction fs generalizing r with
  | nil => simp
  | cons f fs ih => rw [List.foldl_cons, ih]; simp [addFile]

theorem files_missing (exist : Str → Bool) (root : Str) (fs : List Str) (r : Report) :
    (fs.foldl (addFile exist root) r).missing = r.missing ++ fs.filter (fun f => !exist f) := by
  induction fs generalizing r with
  | nil => simp
  | cons f fs ih =>
    rw [List.foldl_cons, ih, List.filter_cons]
    by_cases h : exist f = true <;> simp [addFile, h]

theorem files_untracked (exist : Str → Bool) (root : Str) (fs : List Str) (r : Report)
    (h : r.untracked.Nodup) (p : Str) :
    p ∈ (fs.foldl (addFile exist root) r).untracked ↔ p ∈ r.untracked ∧ p ∉ fs := by
  induction fs generalizing r with
  | nil => simp
  | cons f fs ih =>
    rw [List.foldl_cons, ih _ (by simpa [addFile] using h.erase f)]
    simp only [addFile, h.mem_erase_iff, List.mem_cons, not_or]
    constructor
    · rintro ⟨⟨a, b⟩, c⟩; exact ⟨b, a, c⟩
    · rintro ⟨b, a, c⟩; exact ⟨⟨a, b⟩, c⟩

theorem tracked_iff (ps : List Product) (f : Str) : f ∈ ps.flatten.flatten ↔ Tracked ps f := by
  simp only [List.mem_flatten, Tracked]
  constructor
  · rintro ⟨g, ⟨p, hp, hg⟩, hf⟩; exact ⟨p, hp, g, hg, hf⟩
  · rintro ⟨p, hp, g, hg, hf⟩; exact ⟨g, ⟨p, hp, hg⟩, hf⟩

/-! ## Patterns without special characters -/

theorem plain_ne {c : Char} (h : c ∉ special) :
    c ≠ '*' ∧ c ≠ '+' ∧ c ≠ '?' ∧ c ≠ '.' ∧ c ≠ '\\' := by
  refine ⟨?_, ?_, ?_, ?_, ?_⟩ <;> rintro rfl <;> exact h (by decide)

theorem readQuant_one {c : Char} (s : Str) (h1 : c ≠ '*') (h2 : c ≠ '+') (h3 : c ≠ '?') :
    readQuant (c :: s) = (.one, c :: s) := by
  unfold readQuant
  split <;> simp_all

theorem readAtom_plain {c : Char} (s : Str) (h : c ∉ special) :
    readAtom (c :: s) = some (.lit c, s) := by
  have := plain_ne h
  unfold readAtom
  split <;> simp_all

/-- A text that does not start with a quantifier. -/
def NoQuant (s : Str) : Prop := ∀ c, s.head? = some c → c ≠ '*' ∧ c ≠ '+' ∧ c ≠ '?'

theorem readQuant_no {s : Str} (h : NoQuant s) : readQuant s = (.one, s) := by
  cases s with
  | nil => rfl
  | cons c s =>
    obtain ⟨a, b, d⟩ := h c rfl
    exact readQuant_one s a b d

theorem noQuant_plain {a s : Str} (ha : Plain a) (hs : NoQuant s) : NoQuant (a ++ s) := by
  cases a with
  | nil => exact hs
  | cons c a =>
    intro d hd
    simp at hd
    subst hd
    have := plain_ne (ha c (by simp))
    exact ⟨this.1, this.2.1, this.2.2.1⟩

theorem parse_plain (a s : Str) (n : Nat) (ha : Plain a) (hs : NoQuant s) :
    parsePat (a.length + n) (a ++ s)
      = (parsePat n s).map (a.map (fun c => (Atom.lit c, Quant.one)) ++ ·) := by
  induction a with
  | nil => simp
  | cons c a ih =>
    have ha' : Plain a := fun d hd => ha d (by simp [hd])
    have hl : (c :: a).length + n = (a.length + n) + 1 := by simp; omega
    rw [hl, List.cons_append, parsePat, readAtom_plain _ (ha c (by simp))]
    simp only [readQuant_no (noQuant_plain ha' hs)]
    rw [ih ha']
    cases parsePat n s <;> simp

theorem match_lits (a : Str) (r : List (Atom × Quant)) (p : Str) :
    matchAll (a.map (fun c => (Atom.lit c, Quant.one)) ++ r) p = true ↔
      ∃ t, p = a ++ t ∧ matchAll r t = true := by
  induction a generalizing p with
  | nil => simp
  | cons c a ih =>
    cases p with
    | nil => simp [matchAll]
    | cons d p =>
      rw [List.map_cons, List.cons_append, matchAll]
      simp only [Atom.accepts, Bool.and_eq_true, beq_iff_eq, ih, List.cons_append, List.cons.injEq]
      constructor
      · rintro ⟨rfl, t, rfl, h⟩; exact ⟨t, ⟨rfl, rfl⟩, h⟩
      · rintro ⟨t, ⟨rfl, rfl⟩, h⟩; exact ⟨rfl, t, rfl, h⟩

theorem match_rest (t : Str) : matchAll [(.any, .star)] t = true ↔ '\n' ∉ t := by
  show starM _ _ t = true ↔ _
  induction t with
  | nil => simp [starM, matchAll]
  | cons c t ih =>
    rw [starM]
    simp only [Bool.or_eq_true, Bool.and_eq_true, ih, Atom.accepts, bne_iff_ne, List.mem_cons,
      not_or]
    have : ¬ matchAll [] (c :: t) = true := by simp [matchAll]
    constructor
    · rintro (h | ⟨h, h'⟩)
      · exact absurd h this
      · exact ⟨fun e => h e.symm, h'⟩
    · rintro ⟨h, h'⟩; exact .inr ⟨fun e => h e.symm, h'⟩

theorem matchPat_prefix (other : Str → Str → Bool) (a p : Str) (ha : Plain a) :
    matchPat other (a ++ ['.', '*']) p = true ↔ ∃ t, p = a ++ t ∧ '\n' ∉ t := by
  have h : parsePat (a ++ ['.', '*']).length (a ++ ['.', '*'])
      = some (a.map (fun c => (Atom.lit c, Quant.one)) ++ [(.any, .star)]) := by
    have := parse_plain a ['.', '*'] 2 ha (by intro c hc; simp at hc; subst hc; decide)
    rw [List.length_append]
    exact this
  unfold matchPat
  rw [h]
  simp only [match_lits, match_rest]

theorem matchPat_plain (other : Str → Str → Bool) (a p : Str) (ha : Plain a) :
    matchPat other a p = true ↔ p = a := by
  have h : parsePat a.length a = some (a.map (fun c => (Atom.lit c, Quant.one))) := by
    have := parse_plain a [] 0 ha (by intro c hc; simp at hc)
    simpa [parsePat] using this
  unfold matchPat
  rw [h]
  have := match_lits a [] p
  simp only [List.append_nil] at this
  simp [this, matchAll]

theorem wildcard_absolute (w : Str) (hw : w ∈ wildcards) (p : Str) :
    matchAll (wildcard w) ('/' :: p) = false := by
  simp only [wildcards, List.mem_cons, List.not_mem_nil, or_false] at hw
  rcases hw with rfl | rfl | rfl | rfl | rfl <;>
    simp [wildcard, matchAll, starM, Atom.accepts]

theorem splitLines_mem (a line b : Str) (h : '\n' ∉ line)
    (ha : a = [] ∨ ∃ x, a = x ++ ['\n']) (hb : b = [] ∨ ∃ x, b = '\n' :: x) :
    line ∈ splitLines (a ++ line ++ b) := by
  have key : ∀ (l : Str), '\n' ∉ l → ∃ ls, splitLines (l ++ b) = l :: ls := by
    intro l
    induction l with
    | nil =>
      intro _
      rcases hb with rfl | ⟨x, rfl⟩
      · exact ⟨[], rfl⟩
      · exact ⟨splitLines x, by simp [splitLines]⟩
    | cons c l ih =>
      intro hl
      simp only [List.mem_cons, not_or] at hl
      obtain ⟨ls, e⟩ := ih hl.2
      refine ⟨ls, ?_⟩
      rw [List.cons_append, splitLines, if_neg (fun e => hl.1 e.symm), e]
  rcases ha with rfl | ⟨x, rfl⟩
  · obtain ⟨ls, e⟩ := key line h
    simp [e]
  · have tl : ∀ (x y : Str), line ∈ splitLines y → line ∈ (splitLines (x ++ '\n' :: y)).tail := by
      intro x y hy
      induction x with
      | nil => simp [splitLines, hy]
      | cons c x ih =>
        rw [List.cons_append, splitLines]
        split
        · exact List.mem_of_mem_tail ih
        · split
          · next e => simp [e] at ih
          · next e => simpa [e] using ih
    obtain ⟨ls, e⟩ := key line h
    have := List.mem_of_mem_tail (tl x (line ++ b) (by simp [e]))
    simpa using this

end Verif.Status
