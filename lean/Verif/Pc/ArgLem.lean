import Verif.Pc.LineLem

/-! # Lemmas about arguments -/

namespace Verif.Pc

theorem subst_cases (n : Nat) : ∀ s : Text, s.length ≤ n →
    (∃ l, okParts l ∧ s = l.flatMap Part.text) ∨
    ((∃ l v, okParts l ∧ '}' ∉ v ∧ s = l.flatMap Part.text ++ ['$', '{'] ++ v) ∧ ∀ lookup t, subst lookup none s ≠ .ok t) := by
  induction n with
  | zero =>
    intro s hs
    have : s = [] := by cases s <;> simp_all
    subst this
    exact .inl ⟨[], trivial, rfl⟩
  | succ n ih =>
    intro s hs
    cases s with
    | nil => exact .inl ⟨[], trivial, rfl⟩
    | cons c s =>
      simp only [List.length_cons] at hs
      -- a literal character
      have lit : (c = '$' → ∀ d s', s = d :: s' → d ≠ '$' ∧ d ≠ '{') →
          (∃ l, okParts l ∧ c :: s = l.flatMap Part.text) ∨
          ((∃ l v, okParts l ∧ '}' ∉ v ∧ c :: s = l.flatMap Part.text ++ ['$', '{'] ++ v) ∧
            ∀ lookup t, subst lookup none (c :: s) ≠ .ok t) := by
        intro hc
        rcases ih s (by omega) with ⟨l, hl, rfl⟩ | ⟨⟨l, v, hl, hv, he⟩, herr⟩
        · exact .inl ⟨.lit c :: l, ⟨hc, hl⟩, by simp [Part.text]⟩
        · refine .inr ⟨⟨.lit c :: l, v, ⟨?_, hl⟩, hv, by simp [Part.text, he]⟩, ?_⟩
          · intro hc' d s' hd
            exact hc hc' d (s' ++ ['$', '{'] ++ v) (by rw [he, hd]; simp)
          · intro lookup t ht
            rw [subst_lit lookup c s hc] at ht
            cases hs' : subst lookup none s with
            | error e => rw [hs'] at ht; cases ht
            | ok x => exact herr lookup x hs'
      by_cases hc : c = '$'
      · subst hc
        cases s with
        | nil => exact lit (by intro _ d s' h; cases h)
        | cons d s =>
          simp only [List.length_cons] at hs
          by_cases h1 : d = '$'
          · subst h1
            rcases ih s (by omega) with ⟨l, hl, rfl⟩ | ⟨⟨l, v, hl, hv, he⟩, herr⟩
            · exact .inl ⟨.dollar :: l, hl, by simp [Part.text]⟩
            · refine .inr ⟨⟨.dollar :: l, v, hl, hv, by simp [Part.text, he]⟩, ?_⟩
              intro lookup t ht
              rw [subst] at ht
              cases hs' : subst lookup none s with
              | error e => rw [hs'] at ht; cases ht
              | ok x => exact herr lookup x hs'
          by_cases h2 : d = '{'
          · subst h2
            rcases split_at '}' s with hn | ⟨v, u, rfl, hn⟩
            · refine .inr ⟨⟨[], s, trivial, hn, by simp⟩, ?_⟩
              intro lookup t ht
              rw [subst, ← List.append_nil s, subst_name lookup hn, subst] at ht
              cases ht
            · rcases ih u (by simp only [List.length_append, List.length_cons] at hs; omega) with ⟨l, hl, rfl⟩ | ⟨⟨l, w, hl, hv, he⟩, herr⟩
              · exact .inl ⟨.var v :: l, ⟨hn, hl⟩, by simp [Part.text]⟩
              · refine .inr ⟨⟨.var v :: l, w, ⟨hn, hl⟩, hv, by simp [Part.text, he]⟩, ?_⟩
                intro lookup t ht
                rw [subst, subst_name lookup hn, subst.eq_7, if_pos rfl] at ht
                cases hlk : lookup ([] ++ v) with
                | none => rw [hlk] at ht; cases ht
                | some x =>
                  rw [hlk] at ht
                  cases hs' : subst lookup none u with
                  | error e => simp only [hs'] at ht; cases ht
                  | ok x => exact herr lookup x hs'
          · exact lit (by intro _ d' s' h; cases h; exact ⟨h1, h2⟩)
      · exact lit (fun h => absurd h hc)

/-! ## White space -/

theorem dropWhile_spaces {a s : Text} (ha : ∀ c ∈ a, isSpace c = true) (hs : ∀ c l, s = c :: l → isSpace c = false) :
    (a ++ s).dropWhile isSpace = s := by
  induction a with
  | nil =>
    cases s with
    | nil => rfl
    | cons c l => simp [List.dropWhile, hs c l rfl]
  | cons x a ih =>
    simp only [List.cons_append, List.dropWhile, ha x (by simp)]
    exact ih (fun c hc => ha c (by simp [hc]))

theorem trimmed_eq {a t b : Text} (ha : ∀ c ∈ a, isSpace c = true) (hb : ∀ c ∈ b, isSpace c = true)
    (h1 : ∀ c l, t = c :: l → isSpace c = false) (h2 : ∀ c l, t = l ++ [c] → isSpace c = false) :
    trimmed (a ++ t ++ b) = t := by
  unfold trimmed
  cases t with
  | nil =>
    rw [List.append_nil]
    have : (a ++ b).dropWhile isSpace = [] := by
      have := dropWhile_spaces (a := a ++ b) (s := []) (by intro c hc; simp only [List.mem_append] at hc; rcases hc with h | h; exact ha c h; exact hb c h) (by intro c l h; cases h)
      simpa using this
    rw [this]; rfl
  | cons x t =>
    rw [List.append_assoc, dropWhile_spaces ha (by intro c l h; cases h; exact h1 _ _ rfl)]
    rw [List.reverse_append, dropWhile_spaces (by simpa using hb)]
    · simp
    · intro c l h
      have : x :: t = l.reverse ++ [c] := by
        have := congrArg List.reverse h
        simpa using this
      exact h2 c _ this

theorem dropWhile_decomp (s : Text) : ∃ a, (∀ c ∈ a, isSpace c = true) ∧ s = a ++ s.dropWhile isSpace ∧
    ∀ c l, s.dropWhile isSpace = c :: l → isSpace c = false := by
  induction s with
  | nil => exact ⟨[], by simp, rfl, by simp⟩
  | cons x s ih =>
    by_cases hx : isSpace x = true
    · obtain ⟨a, h1, h2, h3⟩ := ih
      simp only [List.dropWhile, hx]
      refine ⟨x :: a, ?_, by rw [List.cons_append, ← h2], h3⟩
      intro c hc; simp only [List.mem_cons] at hc; rcases hc with rfl | hc; exact hx; exact h1 c hc
    · have hx' : isSpace x = false := by simpa using hx
      simp only [List.dropWhile, hx']
      refine ⟨[], by simp, rfl, ?_⟩
      intro c l h; cases h; exact hx'

theorem trimmed_decomp (s : Text) : ∃ a b, s = a ++ trimmed s ++ b ∧ (∀ c ∈ a, isSpace c = true) ∧ (∀ c ∈ b, isSpace c = true) ∧
    (∀ c l, trimmed s = c :: l → isSpace c = false) ∧ ∀ c l, trimmed s = l ++ [c] → isSpace c = false := by
  obtain ⟨a, h1, h2, h3⟩ := dropWhile_decomp s
  obtain ⟨b, k1, k2, k3⟩ := dropWhile_decomp (s.dropWhile isSpace).reverse
  have e : s.dropWhile isSpace = trimmed s ++ b.reverse := by
    have := congrArg List.reverse k2
    simp only [List.reverse_reverse, List.reverse_append] at this
    exact this
  refine ⟨a, b.reverse, ?_, h1, by simpa using k1, ?_, ?_⟩
  · rw [List.append_assoc, ← e]; exact h2
  · intro c l h
    exact h3 c (l ++ b.reverse) (by rw [e, h]; rfl)
  · intro c l h
    refine k3 c l.reverse ?_
    have := congrArg List.reverse h
    unfold trimmed at this
    simpa using this

theorem trimmed_nil_iff (s : Text) : trimmed s = [] ↔ ∀ c ∈ s, isSpace c = true := by
  obtain ⟨a, b, h, ha, hb, -, -⟩ := trimmed_decomp s
  constructor
  · intro h0 c hc
    rw [h, h0] at hc
    simp only [List.append_nil, List.mem_append] at hc
    rcases hc with hc | hc
    · exact ha c hc
    · exact hb c hc
  · intro h0
    have := trimmed_eq (a := s) (t := []) (b := []) h0 (by simp) (by simp) (by simp)
    simpa using this

/-! ## Quotes -/

theorem quote_ne {q : Char} (hq : q = '"' ∨ q = '\'') : q ≠ Char.ofNat 0 ∧ q ≠ '\\' ∧ isSpace q = false := by
  rcases hq with rfl | rfl <;> decide

theorem splitCommand_nil (quote : Char) (arg : Text) (result : List Text) :
    splitCommand quote arg result [] = some (if arg = [] then result else result ++ [arg]) := by
  rw [splitCommand.eq_def]

theorem splitCommand_cons (quote : Char) (arg : Text) (result : List Text) (c : Char) (s : Text) :
    splitCommand quote arg result (c :: s) =
      if quote = c then splitCommand (Char.ofNat 0) arg result s
      else if quote ≠ Char.ofNat 0 then
        if c = '\\' then
          match s with
          | [] => none
          | d :: s' => splitCommand quote (arg ++ (if d ≠ quote then ['\\', d] else [d])) result s'
        else splitCommand quote (arg ++ [c]) result s
      else if isSpace c then
        if arg = [] then splitCommand quote [] result s else splitCommand quote [] (result ++ [arg]) s
      else if c = '"' ∨ c = '\'' then splitCommand c arg result s
      else if c = '\\' then
        match s with
        | [] => none
        | d :: s' => splitCommand quote (arg ++ [d]) result s'
      else splitCommand quote (arg ++ [c]) result s := by
  rw [splitCommand.eq_def]
  cases s <;> rfl

theorem splitCommand_quoted {q : Char} (hq : q = '"' ∨ q = '\'') {l : List Quoted} (h : ∀ x ∈ l, x.ok q) (arg : Text)
    (res : List Text) (s : Text) :
    splitCommand q arg res (l.flatMap (Quoted.text q) ++ s) = splitCommand q (arg ++ l.flatMap (Quoted.value q)) res s := by
  obtain ⟨hq0, hqb, -⟩ := quote_ne hq
  induction l generalizing arg with
  | nil => simp
  | cons x l ih =>
    have hx := h x (by simp)
    have ih' := fun a => ih (fun y hy => h y (by simp [hy])) a
    cases x with
    | plain c =>
      simp only [Quoted.ok] at hx
      simp only [List.flatMap_cons, Quoted.text, Quoted.value, List.append_assoc, List.cons_append, List.nil_append]
      rw [splitCommand_cons, if_neg (fun h => hx.1 h.symm), if_pos hq0, if_neg hx.2, ih']
      simp
    | quote =>
      simp only [List.flatMap_cons, Quoted.text, Quoted.value, List.append_assoc, List.cons_append, List.nil_append]
      rw [splitCommand_cons, if_neg hqb, if_pos hq0, if_pos rfl]
      simp only [ne_eq, not_true_eq_false, if_false]
      rw [ih']
      simp
    | escaped c =>
      simp only [Quoted.ok] at hx
      simp only [List.flatMap_cons, Quoted.text, Quoted.value, List.append_assoc, List.cons_append, List.nil_append]
      rw [splitCommand_cons, if_neg hqb, if_pos hq0, if_pos rfl]
      simp only [ne_eq, hx, not_false_eq_true, if_true]
      rw [ih']
      simp

theorem splitCommand_parts {l : List ArgPart} (h : ∀ x ∈ l, x.ok) (arg : Text) (res : List Text) (s : Text) :
    splitCommand (Char.ofNat 0) arg res (l.flatMap ArgPart.text ++ s) =
      splitCommand (Char.ofNat 0) (arg ++ l.flatMap ArgPart.value) res s := by
  induction l generalizing arg with
  | nil => simp
  | cons x l ih =>
    have hx := h x (by simp)
    have ih' := fun a => ih (fun y hy => h y (by simp [hy])) a
    cases x with
    | plain c =>
      simp only [ArgPart.ok] at hx
      obtain ⟨h1, h2, h3, h4, h5⟩ := hx
      simp only [List.flatMap_cons, ArgPart.text, ArgPart.value, List.append_assoc, List.cons_append, List.nil_append]
      rw [splitCommand_cons, if_neg (fun h => h1 h.symm), if_neg (by simp), if_neg (by simp [h2]), if_neg (by simp [h3, h4]), if_neg h5, ih']
      simp
    | escaped c =>
      simp only [List.flatMap_cons, ArgPart.text, ArgPart.value, List.append_assoc, List.cons_append, List.nil_append]
      rw [splitCommand_cons, if_neg (by decide), if_neg (by simp), if_neg (by decide), if_neg (by decide), if_pos rfl]
      simp only
      rw [ih']
      simp
    | quoted q l' =>
      simp only [ArgPart.ok] at hx
      obtain ⟨hq0, hqb, hqs⟩ := quote_ne hx.1
      simp only [List.flatMap_cons, ArgPart.text, ArgPart.value, List.append_assoc, List.cons_append, List.nil_append]
      rw [splitCommand_cons, if_neg (fun h => hq0 h.symm), if_neg (by simp), if_neg (by simp [hqs]), if_pos hx.1,
        splitCommand_quoted hx.1 hx.2, splitCommand_cons, if_pos rfl, ih']
      simp

theorem space_ne {c : Char} (h : isSpace c = true) : Char.ofNat 0 ≠ c := by
  intro h'; subst h'; revert h; decide

theorem splitCommand_blanks {b : Text} (h : ∀ c ∈ b, isSpace c = true) (res : List Text) (s : Text) :
    splitCommand (Char.ofNat 0) [] res (b ++ s) = splitCommand (Char.ofNat 0) [] res s := by
  induction b with
  | nil => rfl
  | cons c b ih =>
    have hc := h c (by simp)
    rw [List.cons_append, splitCommand_cons, if_neg (space_ne hc), if_neg (by simp), if_pos hc, if_pos rfl,
      ih (fun x hx => h x (by simp [hx]))]

theorem splitCommand_arg {a : Arg} (h : a.ok) (res : List Text) (s : Text) :
    splitCommand (Char.ofNat 0) [] res (a.text ++ s) =
      splitCommand (Char.ofNat 0) [] (res ++ [a.value].filter (fun x => decide (x ≠ []))) s := by
  obtain ⟨hp, hb, hbs⟩ := h
  unfold Arg.text Arg.value
  rw [List.append_assoc, splitCommand_parts hp, List.nil_append]
  cases hbl : a.blanks with
  | nil => exact absurd hbl hb
  | cons c b =>
    rw [hbl] at hbs
    have hc := hbs c (by simp)
    have hrest := fun res => splitCommand_blanks (b := b) (fun x hx => hbs x (by simp [hx])) res s
    rw [List.cons_append, splitCommand_cons, if_neg (space_ne hc), if_neg (by simp), if_pos hc]
    by_cases hv : a.parts.flatMap ArgPart.value = []
    · rw [if_pos hv, hrest, hv]; simp
    · rw [if_neg hv, hrest]; simp [hv]

theorem splitCommand_args {l : List Arg} (h : ∀ a ∈ l, a.ok) (res : List Text) (s : Text) :
    splitCommand (Char.ofNat 0) [] res (l.flatMap Arg.text ++ s) =
      splitCommand (Char.ofNat 0) [] (res ++ (l.map Arg.value).filter (fun x => decide (x ≠ []))) s := by
  induction l generalizing res with
  | nil => simp
  | cons a l ih =>
    rw [List.flatMap_cons, List.append_assoc, splitCommand_arg (h a (by simp)), ih (fun x hx => h x (by simp [hx])),
      List.map_cons, List.append_assoc, ← List.filter_append]
    rfl

theorem splitCommand_end {tail : Tail} (h : tail.ok) (arg : Text) (res : List Text) :
    splitCommand (Char.ofNat 0) arg res tail.text = tail.value.map (fun v => if arg ++ v = [] then res else res ++ [arg ++ v]) := by
  cases tail with
  | done => simp [Tail.text, Tail.value, splitCommand_nil]
  | backslash =>
    rw [Tail.text, splitCommand_cons, if_neg (by decide), if_neg (by simp), if_neg (by decide), if_neg (by decide), if_pos rfl]
    rfl
  | quoted q l =>
    obtain ⟨hq0, hqb, hqs⟩ := quote_ne h.1
    rw [Tail.text, splitCommand_cons, if_neg (fun h => hq0 h.symm), if_neg (by simp), if_neg (by simp [hqs]), if_pos h.1]
    have := splitCommand_quoted h.1 h.2 arg res []
    rw [List.append_nil] at this
    rw [this, splitCommand_nil]
    simp only [Tail.value, Option.map_some]
  | quotedBackslash q l =>
    obtain ⟨hq0, hqb, hqs⟩ := quote_ne h.1
    rw [Tail.text, List.cons_append, splitCommand_cons, if_neg (fun h => hq0 h.symm), if_neg (by simp), if_neg (by simp [hqs]), if_pos h.1]
    rw [splitCommand_quoted h.1 h.2 arg res ['\\'], splitCommand_cons, if_neg hqb, if_pos hq0, if_pos rfl]
    rfl

theorem split_argsText {lead : Text} {args : List Arg} {last : List ArgPart} {tail : Tail} (hl : ∀ c ∈ lead, isSpace c = true)
    (ha : ∀ a ∈ args, a.ok) (hp : ∀ p ∈ last, p.ok) (ht : tail.ok) :
    split (argsText lead args last tail) =
      tail.value.map (fun v => (args.map Arg.value ++ [last.flatMap ArgPart.value ++ v]).filter (fun x => decide (x ≠ []))) := by
  unfold split argsText
  rw [List.append_assoc, List.append_assoc, splitCommand_blanks hl, splitCommand_args ha, splitCommand_parts hp, splitCommand_end ht]
  cases tail.value with
  | none => rfl
  | some v =>
    simp only [Option.map_some, List.nil_append, List.filter_append]
    by_cases h : last.flatMap ArgPart.value ++ v = []
    · rw [if_pos h, h]; simp
    · rw [if_neg h]
      simp only [List.filter_cons, List.filter_nil]
      rw [if_pos (decide_eq_true h)]

/-- A part can be put at the beginning. -/
theorem argsText_cons (p : ArgPart) (hp : p.ok) (args : List Arg) (last : List ArgPart) (tail : Tail) (lead : Text)
    (hl : ∀ c ∈ lead, isSpace c = true) (ha : ∀ a ∈ args, a.ok) (hla : ∀ p ∈ last, p.ok) :
    ∃ args' last', (∀ a ∈ args', Arg.ok a) ∧ (∀ p ∈ last', ArgPart.ok p) ∧
      argsText [] args' last' tail = p.text ++ argsText lead args last tail := by
  by_cases h : lead = []
  · subst h
    cases args with
    | nil =>
      refine ⟨[], p :: last, by simp, ?_, by simp [argsText]⟩
      intro x hx; simp only [List.mem_cons] at hx
      rcases hx with rfl | hx
      · exact hp
      · exact hla x hx
    | cons a args =>
      refine ⟨⟨p :: a.parts, a.blanks⟩ :: args, last, ?_, hla, by simp [argsText, Arg.text]⟩
      intro x hx; simp only [List.mem_cons] at hx
      rcases hx with rfl | hx
      · have := ha a (by simp)
        refine ⟨?_, this.2⟩
        intro y hy; simp only [List.mem_cons] at hy
        rcases hy with rfl | hy
        · exact hp
        · exact this.1 y hy
      · exact ha x (by simp [hx])
  · refine ⟨⟨[p], lead⟩ :: args, last, ?_, hla, by simp [argsText, Arg.text]⟩
    intro x hx; simp only [List.mem_cons] at hx
    rcases hx with rfl | hx
    · exact ⟨by simpa using hp, h, hl⟩
    · exact ha x hx

theorem quoted_exists {q : Char} (hq : q = '"' ∨ q = '\'') (n : Nat) : ∀ s : Text, s.length ≤ n →
    ∃ l : List Quoted, (∀ x ∈ l, x.ok q) ∧
      (s = l.flatMap (Quoted.text q) ∨ s = l.flatMap (Quoted.text q) ++ ['\\'] ∨
        ∃ u, s = l.flatMap (Quoted.text q) ++ q :: u ∧ u.length < s.length) := by
  obtain ⟨hq0, hqb, hqs⟩ := quote_ne hq
  induction n with
  | zero =>
    intro s hs
    have : s = [] := by cases s <;> simp_all
    subst this
    exact ⟨[], by simp, .inl rfl⟩
  | succ n ih =>
    intro s hs
    cases s with
    | nil => exact ⟨[], by simp, .inl rfl⟩
    | cons c s =>
      simp only [List.length_cons] at hs
      by_cases h1 : c = q
      · subst h1; exact ⟨[], by simp, .inr (.inr ⟨s, rfl, by simp⟩)⟩
      have step : ∀ (x : Quoted) (s' : Text), x.ok q → s'.length ≤ n → c :: s = x.text q ++ s' →
          ∃ l : List Quoted, (∀ x ∈ l, x.ok q) ∧
            (c :: s = l.flatMap (Quoted.text q) ∨ c :: s = l.flatMap (Quoted.text q) ++ ['\\'] ∨
              ∃ u, c :: s = l.flatMap (Quoted.text q) ++ q :: u ∧ u.length < (c :: s).length) := by
        intro x s' hx hs' he
        obtain ⟨l, k1, k2⟩ := ih s' hs'
        refine ⟨x :: l, ?_, ?_⟩
        · intro y hy; simp only [List.mem_cons] at hy
          rcases hy with rfl | hy
          · exact hx
          · exact k1 y hy
        · rw [he]
          rcases k2 with k2 | k2 | ⟨u, k2, k3⟩
          · left; rw [List.flatMap_cons, ← k2]
          · right; left; rw [List.flatMap_cons, List.append_assoc, ← k2]
          · right; right; exact ⟨u, by rw [List.flatMap_cons, List.append_assoc, ← k2], by rw [List.length_append]; omega⟩
      by_cases h2 : c = '\\'
      · subst h2
        cases s with
        | nil => exact ⟨[], by simp, .inr (.inl rfl)⟩
        | cons d s =>
          simp only [List.length_cons] at hs
          by_cases h3 : d = q
          · exact step .quote s trivial (by omega) (by simp [Quoted.text, h3])
          · exact step (.escaped d) s h3 (by omega) rfl
      · exact step (.plain c) s ⟨h1, h2⟩ (by omega) rfl

theorem argsText_exists (n : Nat) : ∀ s : Text, s.length ≤ n → Char.ofNat 0 ∉ s →
    ∃ lead args last tail, (∀ c ∈ lead, isSpace c = true) ∧ (∀ a ∈ args, Arg.ok a) ∧ (∀ p ∈ last, ArgPart.ok p) ∧ tail.ok ∧
      s = argsText lead args last tail := by
  induction n with
  | zero =>
    intro s hs _
    have : s = [] := by cases s <;> simp_all
    subst this
    exact ⟨[], [], [], .done, by simp, by simp, by simp, trivial, rfl⟩
  | succ n ih =>
    intro s hs h0
    have step : ∀ (p : ArgPart) (s' : Text), p.ok → s'.length ≤ n → s = p.text ++ s' →
        ∃ lead args last tail, (∀ c ∈ lead, isSpace c = true) ∧ (∀ a ∈ args, Arg.ok a) ∧ (∀ p ∈ last, ArgPart.ok p) ∧ tail.ok ∧
          s = argsText lead args last tail := by
      intro p s' hp hs' he
      have h0' : Char.ofNat 0 ∉ s' := fun h => h0 (by rw [he]; simp [h])
      obtain ⟨lead, args, last, tail, k1, k2, k3, k4, k5⟩ := ih s' hs' h0'
      obtain ⟨args', last', e1, e2, e3⟩ := argsText_cons p hp args last tail lead k1 k2 k3
      exact ⟨[], args', last', tail, by simp, e1, e2, k4, by rw [e3, ← k5, he]⟩
    cases s with
    | nil => exact ⟨[], [], [], .done, by simp, by simp, by simp, trivial, rfl⟩
    | cons c s =>
      simp only [List.length_cons] at hs
      simp only [List.mem_cons, not_or] at h0
      by_cases h1 : isSpace c = true
      · obtain ⟨lead, args, last, tail, k1, k2, k3, k4, k5⟩ := ih s (by omega) h0.2
        refine ⟨c :: lead, args, last, tail, ?_, k2, k3, k4, by rw [k5]; simp [argsText]⟩
        intro x hx; simp only [List.mem_cons] at hx
        rcases hx with rfl | hx
        · exact h1
        · exact k1 x hx
      have h1' : isSpace c = false := by simpa using h1
      by_cases hq : c = '"' ∨ c = '\''
      · obtain ⟨l, k1, k2⟩ := quoted_exists hq s.length s (Nat.le_refl _)
        rcases k2 with k2 | k2 | ⟨u, k2, k3⟩
        · exact ⟨[], [], [], .quoted c l, by simp, by simp, by simp, ⟨hq, k1⟩, by simp [argsText, Tail.text, ← k2]⟩
        · exact ⟨[], [], [], .quotedBackslash c l, by simp, by simp, by simp, ⟨hq, k1⟩, by simp [argsText, Tail.text, k2]⟩
        · exact step (.quoted c l) u ⟨hq, k1⟩ (by omega) (by simp [ArgPart.text, k2])
      by_cases h2 : c = '\\'
      · subst h2
        cases s with
        | nil => exact ⟨[], [], [], .backslash, by simp, by simp, by simp, trivial, rfl⟩
        | cons d s =>
          simp only [List.length_cons] at hs
          exact step (.escaped d) s trivial (by omega) rfl
      · exact step (.plain c) s ⟨fun h => h0.1 h.symm, h1', fun h => hq (.inl h), fun h => hq (.inr h), h2⟩ (by omega) rfl

end Verif.Pc
