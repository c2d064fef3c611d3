import Verif.Cpp.Scan
/-!
# C58, C59: the scanner finds what the lines say
-/
namespace Verif.Cpp

/-! ## What follows a word -/

def NoIdent (t : List Cp) : Prop := t = [] ∨ ∃ x r, t = x :: r ∧ identChar x = false

theorem WordEnd.noIdent {t : List Cp} (h : WordEnd t) : NoIdent t := by
  rcases h with h | ⟨x, r, h1, h2, -⟩
  · exact .inl h
  · exact .inr ⟨x, r, h1, h2⟩

theorem space_ne {c : Char} (h : isSpace c = true ∨ c = '/' ∨ c = '\\') :
    c ∉ ['.', '*', ':', '>', '#', '<', '=', '%', '"', '\''] ∧ c.isDigit = false ∧ identChar (ch c) = false := by
  have h' : c ∈ [' ', '\t', '\n', '\x0b', '\x0c', '\r', '/', '\\'] := by
    rcases h with h | h | h
    · unfold isSpace at h
      simp only [List.contains_eq_mem, List.mem_cons, List.not_mem_nil, or_false, decide_eq_true_eq] at h
      simp only [List.mem_cons, List.not_mem_nil, or_false]
      rcases h with h | h | h | h | h | h <;> simp [h]
    · simp [h]
    · simp [h]
  simp only [List.mem_cons, List.not_mem_nil, or_false] at h'
  rcases h' with h | h | h | h | h | h | h | h <;> rw [h] <;> exact ⟨by decide, by decide, by decide⟩

/-- What a gap begins with -/
theorem gaps_begin {gs : List Gap} (h : GapsOk gs) (t : List Cp) :
    gs = [] ∨ ∃ u r, gapsText gs ++ t = u :: r ∧ (isSpace u.1 = true ∨ u.1 = '/' ∨ u.1 = '\\') := by
  cases gs with
  | nil => exact .inl rfl
  | cons g gs =>
    refine .inr ?_
    have hg := h g (by simp)
    cases g with
    | space u => exact ⟨u, gapsText gs ++ t, by simp [gapsText, Gap.text], .inl hg.1⟩
    | block x => exact ⟨ch '/', _, by simp only [gapsText, List.flatMap_cons, Gap.text, List.cons_append]; rfl, .inr (.inl rfl)⟩
    | splice x => exact ⟨ch '\\', _, by simp only [gapsText, List.flatMap_cons, Gap.text, List.cons_append]; rfl, .inr (.inr rfl)⟩

theorem wordEnd_gaps {gs : List Gap} (h : GapsOk gs) {t : List Cp} (ht : gs = [] → WordEnd t) : WordEnd (gapsText gs ++ t) := by
  rcases gaps_begin h t with rfl | ⟨u, r, e, hu⟩
  · exact ht rfl
  · obtain ⟨h1, h2, h3⟩ := space_ne hu
    refine .inr ⟨u, r, e, h3, ?_, ?_⟩ <;> (intro e; rw [e] at h1; exact h1 (by simp))

theorem noIdent_gaps {gs : List Gap} (h : GapsOk gs) {t : List Cp} (ht : gs = [] → NoIdent t) : NoIdent (gapsText gs ++ t) := by
  rcases gaps_begin h t with rfl | ⟨u, r, e, hu⟩
  · exact ht rfl
  · exact .inr ⟨u, r, e, (space_ne hu).2.2⟩

theorem wordEnd_ch {c : Char} (h : c = '.' ∨ c = ':' ∨ c = ';' ∨ c = '>' ∨ c = '<') (t : List Cp) : WordEnd (ch c :: t) := by
  refine .inr ⟨ch c, t, rfl, ?_⟩
  rcases h with rfl | rfl | rfl | rfl | rfl <;> exact ⟨by decide, by decide, by decide⟩

/-- What gaps and a word, or gaps and a semicolon, begin with -/
theorem begin_word {gs : List Gap} (h : GapsOk gs) {w : List Cp} (hw : WordOk w) (t : List Cp) :
    peek (gapsText gs ++ (w ++ t)) ∉ ['.', '*', ':', '>', '#', '<', '=', '%', '"', '\''] ∧ (peek (gapsText gs ++ (w ++ t))).isDigit = false := by
  rcases gaps_begin h (w ++ t) with rfl | ⟨u, r, e, hu⟩
  · obtain ⟨h1, h2, h3, -⟩ := hw
    obtain ⟨u, w', rfl⟩ := List.exists_cons_of_ne_nil h1
    refine ⟨?_, h3⟩
    intro hm
    have hi : identChar (ch u.1) = true := h2 u (by simp)
    simp only [gapsText, List.flatMap_nil, List.nil_append, List.cons_append, peek, List.mem_cons, List.not_mem_nil, or_false] at hm
    rcases hm with e | e | e | e | e | e | e | e | e | e <;> rw [e] at hi <;> exact absurd hi (by decide)
  · rw [e]
    obtain ⟨h1, h2, -⟩ := space_ne hu
    exact ⟨h1, h2⟩

theorem begin_semicolon {gs : List Gap} (h : GapsOk gs) (t : List Cp) :
    peek (gapsText gs ++ ch ';' :: t) ∉ ['.', '*', ':', '>', '#', '<', '=', '%', '"', '\''] := by
  rcases gaps_begin h (ch ';' :: t) with rfl | ⟨u, r, e, hu⟩
  · simp only [gapsText, List.flatMap_nil, List.nil_append, peek]; decide
  · rw [e]; exact (space_ne hu).1

/-! ## Punctuation as tokens -/

theorem scanFrom_punct {f : Str → Bool} {nl : Bool} {c : Char} {k : Kind} {t : List Cp}
    (h : (c = '.' ∧ k = .dot ∧ peek t ≠ '.' ∧ peek t ≠ '*' ∧ (peek t).isDigit = false) ∨
      (c = ':' ∧ k = .colon ∧ peek t ≠ ':' ∧ peek t ≠ '>') ∨ (c = ';' ∧ k = .semicolon) ∨
      (c = '#' ∧ k = .pound ∧ peek t ≠ '#') ∨
      (c = '<' ∧ k = .less ∧ peek t ≠ '<' ∧ peek t ≠ '=' ∧ peek t ≠ '%' ∧ peek t ≠ ':') ∨
      (c = '>' ∧ k = .greater ∧ peek t ≠ '>' ∧ peek t ≠ '=')) :
    (scanFrom f false nl (ch c :: t)).1.newline = nl ∧ (scanFrom f false nl (ch c :: t)).1.kind = k ∧
      (scanFrom f false nl (ch c :: t)).2 = t := by
  have hc : isSpace c = false ∧ c ≠ '\\' ∧ c ≠ '/' := by
    rcases h with ⟨rfl, -⟩ | ⟨rfl, -⟩ | ⟨rfl, -⟩ | ⟨rfl, -⟩ | ⟨rfl, -⟩ | ⟨rfl, -⟩ <;> decide
  rw [scanFrom_stay (skip_stay nl (ch c) t hc.1 hc.2.1 (fun h => absurd h hc.2.2))]
  have hl := lexOne_punct (f := f) h
  unfold lexAt
  simp only [hl, and_self]

theorem step_word {f : Str → Bool} {gs : List Gap} (hg : GapsOk gs) {w t : List Cp} (hw : WordOk w) (ht : WordEnd t) :
    (scan f false (gapsText gs ++ (w ++ t))).1.newline = false ∧
    (scan f false (gapsText gs ++ (w ++ t))).1.kind = (if f (bytes w) then .other else .ident) ∧
    (scan f false (gapsText gs ++ (w ++ t))).1.text = bytes w ∧
    (scan f false (gapsText gs ++ (w ++ t))).2 = t := by
  rw [scan_gaps f false gs _ hg, scan_word hw ht]
  simp

theorem step_punct {f : Str → Bool} {gs : List Gap} (hg : GapsOk gs) {c : Char} {k : Kind} {t : List Cp}
    (h : (c = '.' ∧ k = .dot ∧ peek t ≠ '.' ∧ peek t ≠ '*' ∧ (peek t).isDigit = false) ∨
      (c = ':' ∧ k = .colon ∧ peek t ≠ ':' ∧ peek t ≠ '>') ∨ (c = ';' ∧ k = .semicolon) ∨
      (c = '#' ∧ k = .pound ∧ peek t ≠ '#') ∨
      (c = '<' ∧ k = .less ∧ peek t ≠ '<' ∧ peek t ≠ '=' ∧ peek t ≠ '%' ∧ peek t ≠ ':') ∨
      (c = '>' ∧ k = .greater ∧ peek t ≠ '>' ∧ peek t ≠ '=')) :
    (scan f false (gapsText gs ++ ch c :: t)).1.newline = false ∧ (scan f false (gapsText gs ++ ch c :: t)).1.kind = k ∧
      (scan f false (gapsText gs ++ ch c :: t)).2 = t := by
  rw [scan_gaps f false gs _ hg]
  exact scanFrom_punct h

/-! ## Names of modules -/

def partText (part : Option Step) : List Cp :=
  match part with
  | none => []
  | some s => stepText ':' s

def stepsName (ss : List Step) : Str := ss.flatMap (fun s => '.' :: bytes s.word)

def partName (part : Option Step) : Str :=
  match part with
  | none => []
  | some s => ':' :: bytes s.word

theorem wordEnd_steps (ss : List Step) (hs : ∀ s ∈ ss, s.Ok) (t : List Cp) (ht : WordEnd t) : WordEnd (stepsText ss ++ t) := by
  cases ss with
  | nil => exact ht
  | cons s ss =>
    obtain ⟨h1, h2, h3⟩ := hs s (by simp)
    simp only [stepsText, List.flatMap_cons, stepText, List.append_assoc, List.cons_append]
    exact wordEnd_gaps h1 (fun _ => wordEnd_ch (.inl rfl) _)

theorem wordEnd_part (part : Option Step) (hs : ∀ s, part = some s → s.Ok) (t : List Cp) (ht : WordEnd t) : WordEnd (partText part ++ t) := by
  cases part with
  | none => exact ht
  | some s =>
    obtain ⟨h1, h2, h3⟩ := hs s rfl
    simp only [partText, stepText, List.append_assoc, List.cons_append]
    exact wordEnd_gaps h1 (fun _ => wordEnd_ch (.inr (.inl rfl)) _)

theorem moduleName_found (o : Opts) (part : Option Step) (hp : ∀ s, part = some s → s.Ok) (g' : List Gap) (hg' : GapsOk g') (x : List Cp) :
    ∀ (n : Nat) (ss : List Step) (s s' : St) (name nm : Str), (∀ t ∈ ss, t.Ok) → s.tk.kind ≠ .eof → s.tk.kind ≠ .semicolon →
      s.rest = stepsText ss ++ (partText part ++ (gapsText g' ++ ch ';' :: x)) → moduleName o n s name = some (nm, s') →
      nm = name ++ stepsName ss ++ partName part ∧ s'.tk.newline = false ∧ s'.tk.kind ≠ .eof ∧
        s'.rest = (match part with | none => x | some _ => gapsText g' ++ ch ';' :: x) := by
  intro n
  induction n with
  | zero => intro ss s s' name nm _ _ _ _ h; cases h
  | succ n ih =>
    intro ss s s' name nm hss h1 h2 hr h
    have hend : WordEnd (partText part ++ (gapsText g' ++ ch ';' :: x)) :=
      wordEnd_part part hp _ (wordEnd_gaps hg' (fun _ => wordEnd_ch (by simp) _))
    unfold moduleName at h
    rw [if_neg (by simp [h1, h2])] at h
    simp only at h
    cases ss with
    | nil =>
      simp only [stepsText, List.flatMap_nil, List.nil_append] at hr
      cases part with
      | none =>
        simp only [partText, List.nil_append] at hr
        obtain ⟨k1, k2, k3⟩ := step_punct (f := o.reserved) hg' (c := ';') (k := .semicolon) (t := x) (by simp)
        rw [← hr] at k1 k2 k3
        change (s.step o).tk.newline = false at k1
        change (s.step o).tk.kind = _ at k2
        change (s.step o).rest = _ at k3
        rw [if_neg (by rw [k2]; exact Kind.noConfusion), if_neg (by rw [k2]; exact Kind.noConfusion)] at h
        cases n with
        | zero => cases h
        | succ n =>
          unfold moduleName at h
          rw [if_pos (by simp [k2])] at h
          injection h with h
          injection h with e1 e2
          subst e1 e2
          exact ⟨by simp [stepsName, partName], k1, by simp only [k2]; exact Kind.noConfusion, k3⟩
      | some p =>
        obtain ⟨p1, p2, p3⟩ := hp p rfl
        simp only [partText, stepText, List.append_assoc, List.cons_append] at hr
        have hw := begin_word p2 p3 (gapsText g' ++ ch ';' :: x)
        obtain ⟨k1, k2, k3⟩ := step_punct (f := o.reserved) p1 (c := ':') (k := .colon)
          (t := gapsText p.after ++ (p.word ++ (gapsText g' ++ ch ';' :: x)))
          (.inr (.inl ⟨rfl, rfl, fun e => hw.1 (by rw [e]; decide), fun e => hw.1 (by rw [e]; decide)⟩))
        rw [← hr] at k1 k2 k3
        change (s.step o).tk.newline = false at k1
        change (s.step o).tk.kind = _ at k2
        change (s.step o).rest = _ at k3
        rw [if_neg (by rw [k2]; exact Kind.noConfusion), if_pos k2] at h
        obtain ⟨j1, j2, j3, j4⟩ := step_word (f := o.reserved) p2 p3 (t := gapsText g' ++ ch ';' :: x)
          (wordEnd_gaps hg' (fun _ => wordEnd_ch (by simp) _))
        rw [← k3] at j1 j2 j3 j4
        change ((s.step o).step o).tk.newline = false at j1
        change ((s.step o).step o).tk.kind = _ at j2
        change ((s.step o).step o).tk.text = _ at j3
        change ((s.step o).step o).rest = _ at j4
        injection h with h
        injection h with e1 e2
        subst e1 e2
        refine ⟨by simp [stepsName, partName, j3], j1, ?_, j4⟩
        simp only [j2]; split <;> exact Kind.noConfusion
    | cons t ss =>
      obtain ⟨t1, t2, t3⟩ := hss t (by simp)
      have hss' : ∀ t ∈ ss, t.Ok := fun y hy => hss y (by simp [hy])
      simp only [stepsText, List.flatMap_cons, stepText, List.append_assoc, List.cons_append] at hr
      have hw := begin_word t2 t3 (stepsText ss ++ (partText part ++ (gapsText g' ++ ch ';' :: x)))
      obtain ⟨k1, k2, k3⟩ := step_punct (f := o.reserved) t1 (c := '.') (k := .dot)
        (t := gapsText t.after ++ (t.word ++ (stepsText ss ++ (partText part ++ (gapsText g' ++ ch ';' :: x)))))
        (.inl ⟨rfl, rfl, fun e => hw.1 (by rw [e]; decide), fun e => hw.1 (by rw [e]; decide), hw.2⟩)
      change s.rest = gapsText t.before ++ ch '.' :: (gapsText t.after ++ (t.word ++ (stepsText ss ++ (partText part ++ (gapsText g' ++ ch ';' :: x))))) at hr
      rw [← hr] at k1 k2 k3
      change (s.step o).tk.newline = false at k1
      change (s.step o).tk.kind = _ at k2
      change (s.step o).rest = _ at k3
      rw [if_pos k2] at h
      obtain ⟨j1, j2, j3, j4⟩ := step_word (f := o.reserved) t2 t3
        (t := stepsText ss ++ (partText part ++ (gapsText g' ++ ch ';' :: x))) (wordEnd_steps ss hss' _ hend)
      rw [← k3] at j1 j2 j3 j4
      change ((s.step o).step o).tk.newline = false at j1
      change ((s.step o).step o).tk.kind = _ at j2
      change ((s.step o).step o).tk.text = _ at j3
      change ((s.step o).step o).rest = _ at j4
      obtain ⟨i1, i2, i3, i4⟩ := ih ss _ s' _ nm hss' (by simp only [j2]; split <;> exact Kind.noConfusion)
        (by simp only [j2]; split <;> exact Kind.noConfusion) j4 h
      refine ⟨?_, i2, i3, i4⟩
      rw [i1, j3]
      simp [stepsName]

theorem importName_found (o : Opts) (g : List Gap) (hg : GapsOk g) (c : Char) (k : Kind) (x : List Cp)
    (hc : (c = ';' ∧ k = .semicolon) ∨ (c = '>' ∧ k = .greater ∧ peek x ≠ '>' ∧ peek x ≠ '=')) :
    ∀ (n : Nat) (ss : List Step) (s s' : St) (name nm : Str), (∀ t ∈ ss, t.Ok) → s.tk.kind = .ident ∨ s.tk.kind = .other →
      s.rest = stepsText ss ++ (gapsText g ++ ch c :: x) → importName o n s name = some (nm, s') →
      nm = name ++ stepsName ss ∧ s'.tk.newline = false ∧ s'.tk.kind ≠ .eof ∧ s'.rest = x := by
  intro n
  induction n with
  | zero => intro ss s s' name nm _ _ _ h; cases h
  | succ n ih =>
    intro ss s s' name nm hss h1 hr h
    have hend : WordEnd (gapsText g ++ ch c :: x) :=
      wordEnd_gaps hg (fun _ => wordEnd_ch (by rcases hc with ⟨rfl, -⟩ | ⟨rfl, -⟩ <;> simp) _)
    unfold importName at h
    rw [if_neg (by rcases h1 with h1 | h1 <;> simp [h1])] at h
    simp only at h
    cases ss with
    | nil =>
      simp only [stepsText, List.flatMap_nil, List.nil_append] at hr
      obtain ⟨k1, k2, k3⟩ := step_punct (f := o.reserved) hg (c := c) (k := k) (t := x)
        (by rcases hc with h | h
            · exact .inr (.inr (.inl h))
            · exact .inr (.inr (.inr (.inr (.inr h)))))
      rw [← hr] at k1 k2 k3
      change (s.step o).tk.newline = false at k1
      change (s.step o).tk.kind = _ at k2
      change (s.step o).rest = _ at k3
      have hk : k ≠ .dot ∧ k ≠ .eof ∧ (k = .eof ∨ k = .semicolon ∨ k = .greater) := by
        rcases hc with ⟨-, rfl⟩ | ⟨-, rfl, -⟩ <;> simp
      rw [if_neg (by rw [k2]; exact hk.1)] at h
      cases n with
      | zero => cases h
      | succ n =>
        unfold importName at h
        rw [if_pos (by simp only [k2]; exact hk.2.2)] at h
        injection h with h
        injection h with e1 e2
        subst e1 e2
        exact ⟨by simp [stepsName], k1, by simp only [k2]; exact hk.2.1, k3⟩
    | cons t ss =>
      obtain ⟨t1, t2, t3⟩ := hss t (by simp)
      have hss' : ∀ t ∈ ss, t.Ok := fun y hy => hss y (by simp [hy])
      simp only [stepsText, List.flatMap_cons, stepText, List.append_assoc, List.cons_append] at hr
      have hw := begin_word t2 t3 (stepsText ss ++ (gapsText g ++ ch c :: x))
      obtain ⟨k1, k2, k3⟩ := step_punct (f := o.reserved) t1 (c := '.') (k := .dot)
        (t := gapsText t.after ++ (t.word ++ (stepsText ss ++ (gapsText g ++ ch c :: x))))
        (.inl ⟨rfl, rfl, fun e => hw.1 (by rw [e]; decide), fun e => hw.1 (by rw [e]; decide), hw.2⟩)
      change s.rest = gapsText t.before ++ ch '.' :: (gapsText t.after ++ (t.word ++ (stepsText ss ++ (gapsText g ++ ch c :: x)))) at hr
      rw [← hr] at k1 k2 k3
      change (s.step o).tk.newline = false at k1
      change (s.step o).tk.kind = _ at k2
      change (s.step o).rest = _ at k3
      rw [if_pos k2] at h
      obtain ⟨j1, j2, j3, j4⟩ := step_word (f := o.reserved) t2 t3
        (t := stepsText ss ++ (gapsText g ++ ch c :: x)) (wordEnd_steps ss hss' _ hend)
      rw [← k3] at j1 j2 j3 j4
      change ((s.step o).step o).tk.newline = false at j1
      change ((s.step o).step o).tk.kind = _ at j2
      change ((s.step o).step o).tk.text = _ at j3
      change ((s.step o).step o).rest = _ at j4
      obtain ⟨i1, i2, i3, i4⟩ := ih ss _ s' _ nm hss' (by simp only [j2]; split <;> simp) j4 h
      refine ⟨?_, i2, i3, i4⟩
      rw [i1, j3]
      simp [stepsName]

end Verif.Cpp
