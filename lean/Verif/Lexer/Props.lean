import Verif.Lexer.Lem10
import Verif.Literal.Model
/-!
# The tokens of project files (C112) and the values of string literals (C113)
-/
namespace Verif.Lexer

/-- **C112.** The tokens come one after the other in the text; between them there is nothing but white
space and comments, and none of them reaches behind the end of the text. So no part of a project
file is left out or read twice. -/
theorem C112_layout (u : Uni) (hu : UniOk u) (qml : Bool) (code : Str) (line0 n : Nat)
    (ts : List Tok) (h : tokens u qml n (setCode code line0) = some ts) : Laid u code 0 ts :=
  good_laid u qml code line0 ts _ _ _ (tokens_good0 u hu qml code line0 n ts h)

/-- **C112.** After `2 * length + 2` tokens the lexer is done: the last token says that the text has
ended, or that there is an error, and no token before does. It says that the text has ended only at
the end of the text or at a NUL character. -/
theorem C112_ends (u : Uni) (hu : UniOk u) (qml : Bool) (code : Str) (line0 n : Nat)
    (ts : List Tok) (hn : 2 * code.length + 2 ≤ n)
    (h : tokens u qml n (setCode code line0) = some ts) :
    ∃ pre t, ts = pre ++ [t] ∧ (∀ t' ∈ pre, t'.kind ≠ .eof ∧ t'.kind ≠ .error) ∧
      (t.kind = .error ∨ (t.kind = .eof ∧ t.length = 0 ∧
        (t.start = code.length ∨ (code.drop t.start).head? = some nul))) := by
  obtain ⟨pre, t, h1, h2, h3⟩ := tokens_end u hu qml code line0 n _ ts
    (inv_setCode u qml code line0) (by simp [todo, posOf, setCode]; omega) h
  refine ⟨pre, t, h1, h3, ?_⟩
  rcases h2 with h2 | h2
  · right
    have hg := tokens_good0 u hu qml code line0 n ts h
    rw [h1] at hg
    obtain ⟨r, pos, st, ⟨_, g2, _, _, next, st', g5, _⟩, _⟩ :=
      good_split u qml code line0 pre _ _ _ t [] hg
    rcases g5 with ⟨b1, _⟩ | ⟨_, ⟨_, b2, b3, _⟩ | ⟨ch, s, k, rest, _, _, _, b4, _, _, b7⟩⟩
    · rw [h2] at b1; cases b1
    · refine ⟨h2, b3, ?_⟩
      cases hd' : code.drop t.start with
      | nil => left; have : code.length ≤ t.start := by simpa using hd'
               omega
      | cons c s => right; rw [hd'] at b2; simp; exact b2
    · exfalso
      rcases b7 with ⟨b7, _⟩ | ⟨_, b7, _⟩
      · rw [h2] at b7; rw [← b7] at b4; exact body_eof u qml ch s _ _ b4
      · rw [h2] at b7; cases b7
  · exact Or.inl h2

/-- **C112.** The line and the column of every token are right, but for semicolons that are inserted
after `break`, `continue`, `return` and `throw`. -/
theorem C112_positions (u : Uni) (hu : UniOk u) (qml : Bool) (code : Str) (line0 n : Nat)
    (ts : List Tok) (h : tokens u qml n (setCode code line0) = some ts) (t : Tok) (ht : t ∈ ts)
    (hi : ¬ (Inserted code t ∧ t.length = 0)) :
    t.line = lineOf code line0 t.start ∧ t.column = columnOf code t.start := by
  obtain ⟨pre, post, rfl⟩ := List.append_of_mem ht
  obtain ⟨r, pos, st, ⟨_, _, _, _, next, st', g5, _⟩, _⟩ := good_split u qml code line0 pre _ _ _ t post
    (tokens_good0 u hu qml code line0 n _ h)
  rcases g5 with ⟨b1, _, b3, b4, _⟩ | ⟨b1, _⟩
  · exact absurd ⟨⟨b1, by rw [b4]; decide⟩, b3⟩ hi
  · exact b1

/-- **C112.** A semicolon that is not in the text is either of length 0, stands at a newline, and the
token before is one of `break`, `continue`, `return` and `throw`, or it is inserted before `++` or `--`:
it has the place of that token, which comes next. -/
theorem C112_inserted (u : Uni) (hu : UniOk u) (qml : Bool) (code : Str) (line0 n : Nat)
    (pre post : List Tok) (t : Tok)
    (h : tokens u qml n (setCode code line0) = some (pre ++ t :: post)) (hi : Inserted code t) :
    (∃ pre' p, pre = pre' ++ [p] ∧ restrictedWord p.kind ∧ t.length = 0 ∧
      (code.drop t.start).head? = some '\n') ∨
    ((textOf code t = "--".toList ∧ ∀ t' ∈ post.head?, t'.kind = .minusMinus ∧ t'.start = t.start) ∨
     (textOf code t = "++".toList ∧ ∀ t' ∈ post.head?, t'.kind = .plusPlus ∧ t'.start = t.start)) := by
  obtain ⟨r, pos, st, ⟨_, _, _, _, next, st', g5, g6⟩, g7⟩ :=
    good_split u qml code line0 pre _ _ _ t post (tokens_good0 u hu qml code line0 n _ h)
  rcases g5 with ⟨b1, b2, b3, b4, _⟩ | ⟨_, ⟨b1, _⟩ | ⟨ch, s, k, rest, _, _, b3, b4, b5, b6, b7⟩⟩
  · left
    rcases g7 b2 with ⟨_, h0⟩ | ⟨pre', p, h1, h2⟩
    · cases h0
    · exact ⟨pre', p, h1, (isRestricted_iff _).1 h2, b3, b4⟩
  · rw [hi.1] at b1; cases b1
  · right
    rcases b7 with ⟨b7, _⟩ | ⟨c1, _, c3, c4⟩
    · exfalso
      rw [hi.1] at b7
      rw [← b7] at b4
      apply hi.2
      rw [b3, body_semicolon u qml ch s _ _ b4]; rfl
    · have hlen : t.length = 2 ∧ textOf code t = [ch, ch] ∧
          ((k = .minusMinus ∧ ch = '-') ∨ (k = .plusPlus ∧ ch = '+')) := by
        obtain ⟨_, hpp⟩ := body_pp u qml ch s k _ _ c1 b4
        have hs : s = ch :: rest ∧ ((k = .minusMinus ∧ ch = '-') ∨ (k = .plusPlus ∧ ch = '+')) := by
          rcases hpp with ⟨a, rfl, c⟩ | ⟨a, rfl, c⟩
          · exact ⟨c, Or.inl ⟨a, rfl⟩⟩
          · exact ⟨c, Or.inr ⟨a, rfl⟩⟩
        have e1 := congrArg List.length b3
        have e2 := congrArg List.length b5
        rw [hs.1] at e1
        simp only [List.length_drop, List.length_cons] at e1 e2
        have hl : t.length = 2 := by omega
        refine ⟨hl, ?_, hs.2⟩
        unfold textOf
        rw [hl, b3, hs.1]; rfl
      obtain ⟨_, e2, e3⟩ := hlen
      have hnext : ∀ t' ∈ post.head?, t'.kind = k ∧ t'.start = t.start := by
        intro t' ht'
        cases post with
        | nil => cases ht'
        | cons a post =>
          simp at ht'
          subst ht'
          obtain ⟨_, _, _, d4, _⟩ := g6
          obtain ⟨d5, d6⟩ := d4 k c4
          exact ⟨d5, by rw [d6, c3]⟩
      rcases e3 with ⟨rfl, rfl⟩ | ⟨rfl, rfl⟩
      · exact Or.inl ⟨e2, hnext⟩
      · exact Or.inr ⟨e2, hnext⟩

/-- **C112.** After `break`, `continue`, `return` and `throw` the next token begins on the same line, but
for newlines in comments: if there is a newline, then the next token is the semicolon that is inserted
at the first one. -/
theorem C112_restricted (u : Uni) (hu : UniOk u) (qml : Bool) (code : Str) (line0 n : Nat)
    (pre post : List Tok) (t t' : Tok)
    (h : tokens u qml n (setCode code line0) = some (pre ++ t :: t' :: post))
    (ht : restrictedWord t.kind) :
    Skips u false (code.drop (t.start + t.length)) (code.drop t'.start) ∧
      ((code.drop t'.start).head? = some '\n' → t'.kind = .semicolon ∧ t'.length = 0) := by
  obtain ⟨r, pos, st, ⟨_, _, _, _, next, st', g5, g6⟩, _⟩ :=
    good_split u qml code line0 pre _ _ _ t (t' :: post) (tokens_good0 u hu qml code line0 n _ h)
  have hr := (isRestricted_iff _).2 ht
  have hns : t.kind ≠ .semicolon := by rintro h0; rw [h0] at hr; cases hr
  have he := tokOk_end u qml code line0 r t next st' g5
  have he' : endOf code t = t.start + t.length := by
    unfold endOf; rw [if_neg (fun hi => hns hi.1)]
  obtain ⟨_, _, d3, _, next', st'', d5, _⟩ := g6
  rw [hr, ← he, he'] at d3
  refine ⟨d3, ?_⟩
  intro hn
  rcases d5 with ⟨b1, _, b3, _⟩ | ⟨_, ⟨_, b2, _⟩ | ⟨ch, s, k, rest, _, b2, b3, _⟩⟩
  · exact ⟨b1, b3⟩
  · exfalso
    cases hd' : code.drop t'.start with
    | nil => rw [hd'] at hn; cases hn
    | cons c s =>
      rw [hd'] at hn b2
      simp at hn
      subst hn
      exact absurd (show '\n' = nul from b2) (by decide)
  · exfalso
    rw [b3] at hn
    simp at hn
    subst hn
    rw [hu.newline] at b2; cases b2

/-- What the tokens that are in the text are read from. -/
theorem real_token (u : Uni) (hu : UniOk u) (qml : Bool) (code : Str) (line0 n : Nat)
    (ts : List Tok) (h : tokens u qml n (setCode code line0) = some ts) (t : Tok) (ht : t ∈ ts)
    (hi : ¬ Inserted code t) (he : t.kind ≠ .eof) :
    ∃ ch s rest, code.drop t.start = ch :: s ∧ body u qml ch s = .tok t.kind t.text rest ∧
      code.drop (t.start + t.length) = rest ∧ ch :: s = textOf code t ++ rest := by
  obtain ⟨pre, post, rfl⟩ := List.append_of_mem ht
  obtain ⟨r, pos, st, ⟨_, _, _, _, next, st', g5, _⟩, _⟩ := good_split u qml code line0 pre _ _ _ t post
    (tokens_good0 u hu qml code line0 n _ h)
  rcases g5 with ⟨b1, _, _, b4, _⟩ | ⟨_, ⟨b1, _⟩ | ⟨ch, s, k, rest, _, _, b3, b4, b5, _, b7⟩⟩
  · exact absurd ⟨b1, by rw [b4]; decide⟩ hi
  · exact absurd b1 he
  · rcases b7 with ⟨b7, _⟩ | ⟨c1, c2, _⟩
    · subst b7
      refine ⟨ch, s, rest, b3, b4, b5, ?_⟩
      rw [← b3, ← b5]
      unfold textOf
      rw [← List.drop_drop, List.take_append_drop]
    · exfalso
      apply hi
      refine ⟨c2, ?_⟩
      rw [b3]
      rcases (body_pp u qml ch s k _ _ c1 b4).2 with ⟨_, rfl, _⟩ | ⟨_, rfl, _⟩ <;> simp

/-- **C112.** The text of every token that is a symbol is that symbol, and it is the longest symbol at
this place. The exception is `/*` without an end. -/
theorem C112_symbols (u : Uni) (hu : UniOk u) (qml : Bool) (code : Str) (line0 n : Nat)
    (ts : List Tok) (h : tokens u qml n (setCode code line0) = some ts) (t : Tok) (ht : t ∈ ts)
    (hi : ¬ Inserted code t) (w : String) (hw : spelling t.kind = some w) :
    (textOf code t = w.toList ∧ ∀ k' w', spelling k' = some w' →
      w'.toList <+: code.drop t.start → w'.length ≤ w.length) ∨
    (t.kind = .divide ∧ ∃ b, textOf code t = '/' :: '*' :: b ∧ (∀ p q, b ≠ p ++ '*' :: '/' :: q) ∧
      (t.start + t.length = code.length ∨
        (code.drop (t.start + t.length)).head? = some nul)) := by
  obtain ⟨ch, s, rest, h1, h2, h3, h4⟩ := real_token u hu qml code line0 n ts h t ht hi
    (by intro h0; rw [h0] at hw; cases hw)
  obtain ⟨_, h5⟩ := body_symbol u qml ch s _ _ rest w h2 hw
  rcases h5 with ⟨a1, a2⟩ | ⟨a1, a2, b, a3, a4⟩
  · left
    refine ⟨List.append_cancel_right (h4.symm.trans a1), ?_⟩
    rw [h1]; exact a2
  · right
    refine ⟨a1, b, List.append_cancel_right (h4.symm.trans a3), a4, ?_⟩
    rw [h3]
    rcases a2 with a2 | a2
    · left
      have hl := congrArg List.length h4
      have hd' := congrArg List.length h1
      rw [a2] at hl h3
      have : code.length ≤ t.start + t.length := by simpa using h3
      have hle : t.start + t.length ≤ code.length := by
        obtain ⟨pre, post, rfl⟩ := List.append_of_mem ht
        obtain ⟨r, pos, st, ⟨_, g2, _⟩, _⟩ := good_split u qml code line0 pre _ _ _ t post
          (tokens_good0 u hu qml code line0 n _ h)
        exact g2
      omega
    · exact Or.inr a2

/-- The tokens that begin with something else than a newline, `+` and `-` are in the text. -/
theorem not_inserted (u : Uni) (hu : UniOk u) (qml : Bool) (code : Str) (line0 n : Nat)
    (ts : List Tok) (h : tokens u qml n (setCode code line0) = some ts) (t : Tok) (ht : t ∈ ts)
    (c : Char) (s : Str) (hs : code.drop t.start = c :: s) (h1 : c ≠ '\n')
    (h2 : c ≠ nul) (h3 : s.head? ≠ some c ∨ (c ≠ '+' ∧ c ≠ '-')) :
    ¬ Inserted code t ∧ t.kind ≠ .eof := by
  obtain ⟨pre, post, rfl⟩ := List.append_of_mem ht
  obtain ⟨r, pos, st, ⟨_, _, _, _, next, st', g5, _⟩, _⟩ := good_split u qml code line0 pre _ _ _ t post
    (tokens_good0 u hu qml code line0 n _ h)
  rcases g5 with ⟨b1, _, _, b4, _⟩ | ⟨_, ⟨b1, b2, _⟩ | ⟨ch, s', k, rest, _, _, b3, b4, b5, _, b7⟩⟩
  · rw [hs] at b4; simp at b4; exact absurd b4 h1
  · rw [hs] at b2; exact absurd b2 h2
  · rw [hs] at b3; cases b3
    rcases b7 with ⟨b7, _⟩ | ⟨c1, c2, _⟩
    · refine ⟨?_, ?_⟩
      · rintro ⟨d1, d2⟩
        rw [b7] at d1
        rw [d1] at b4
        rw [hs, body_semicolon u qml c s _ _ b4] at d2
        exact d2 rfl
      · intro h0; rw [b7] at h0; rw [h0] at b4; exact body_eof u qml c s _ _ b4
    · exfalso
      rcases (body_pp u qml c s k _ _ c1 b4).2 with ⟨_, rfl, rfl⟩ | ⟨_, rfl, rfl⟩
      · rcases h3 with h3 | h3
        · exact h3 rfl
        · exact h3.2 rfl
      · rcases h3 with h3 | h3
        · exact h3 rfl
        · exact h3.1 rfl

/-- **C112.** Every symbol is recognized: where a token begins with a symbol, and with no longer one,
and it does not begin a comment or a number, then that is the token (or a semicolon that is inserted
before `++` and `--`). -/
theorem C112_symbols_found (u : Uni) (hu : UniOk u) (qml : Bool) (code : Str) (line0 n : Nat)
    (ts : List Tok) (h : tokens u qml n (setCode code line0) = some ts) (t : Tok) (ht : t ∈ ts)
    (hi : ¬ Inserted code t) (k : Kind) (w : String) (r : Str) (hw : spelling k = some w)
    (hs : code.drop t.start = w.toList ++ r)
    (hmax : ∀ k' w', spelling k' = some w' → w'.toList <+: code.drop t.start → w'.length ≤ w.length)
    (hdot : k = .dot → ∀ d ∈ r.head?, u.isDigit d = false)
    (hdiv : k = .divide → r.head? ≠ some '*' ∧ r.head? ≠ some '/') :
    t.kind = k ∧ textOf code t = w.toList := by
  have hne : t.kind ≠ .eof := by
    intro h0
    obtain ⟨pre, post, rfl⟩ := List.append_of_mem ht
    obtain ⟨r', pos, st, ⟨_, _, _, _, next, st', g5, _⟩, _⟩ :=
      good_split u qml code line0 pre _ _ _ t post (tokens_good0 u hu qml code line0 n _ h)
    rcases g5 with ⟨b1, _⟩ | ⟨_, ⟨_, b2, _⟩ | ⟨ch, s', k', rest, _, _, b3, b4, b5, _, b7⟩⟩
    · rw [h0] at b1; cases b1
    · rw [hs] at b2
      have hall : ∀ w ∈ symbols, ∀ r, hd (w.toList ++ r) ≠ nul := by
        intro w hw r
        have : ∀ w ∈ symbols, w.toList ≠ [] ∧ hd w.toList ≠ nul := by decide
        obtain ⟨e1, e2⟩ := this w hw
        obtain ⟨c, l, hc⟩ := List.exists_cons_of_ne_nil e1
        rw [hc] at e2 ⊢
        exact e2
      exact hall w (spelling_mem k w hw) r b2
    · rcases b7 with ⟨b7, _⟩ | ⟨_, b7, _⟩
      · rw [h0] at b7; rw [← b7] at b4; exact body_eof u qml ch s' _ _ b4
      · rw [h0] at b7; cases b7
  obtain ⟨ch, s, rest, h1, h2, h3, h4⟩ := real_token u hu qml code line0 n ts h t ht hi hne
  rw [h1] at hs hmax
  have hdot' : k = .dot → u.isDigit (hd r) = false := by
    intro hk
    cases r with
    | nil =>
      cases hd' : u.isDigit nul with
      | false => exact hd'
      | true => exact absurd ((hu.asciiDigits nul (by decide)).1 hd') (by decide)
    | cons d r => exact hdot hk d (by simp)
  have hdiv' : k = .divide → hd r ≠ '*' ∧ hd r ≠ '/' := by
    intro hk
    obtain ⟨a, b⟩ := hdiv hk
    cases r with
    | nil => exact ⟨by decide, by decide⟩
    | cons d r => exact ⟨fun h0 => a (by rw [← show d = '*' from h0]; rfl),
        fun h0 => b (by rw [← show d = '/' from h0]; rfl)⟩
  have key := body_symbol_found u qml k w ch s r hw hs hmax hdot' hdiv'
  rw [h2] at key
  have e := Body.tok.inj key
  refine ⟨e.1, ?_⟩
  rw [hs, e.2.2] at h4
  exact (List.append_cancel_right h4).symm

/-- **C112.** The text of a word without escape sequences begins with a letter, `$` or `_`, consists of
letters, digits, `$` and `_`, and the word does not go on after it. It is a keyword exactly if it is in
the table of keywords. -/
theorem C112_words (u : Uni) (hu : UniOk u) (qml : Bool) (code : Str) (line0 n : Nat)
    (ts : List Tok) (h : tokens u qml n (setCode code line0) = some ts) (t : Tok) (ht : t ∈ ts)
    (hk : (t.kind = .identifier ∧ t.text = none) ∨ ∃ kw, t.kind = .word kw) :
    (∃ c w, textOf code t = c :: w ∧ (u.isLetter c = true ∨ c = '$' ∨ c = '_') ∧
      (∀ d ∈ w, wordChar u d) ∧ ∀ d ∈ (code.drop (t.start + t.length)).head?, ¬ wordChar u d) ∧
    ∀ kw, t.kind = .word kw ↔ ∃ str, (str, kw) ∈ keywords qml ∧ str.toList = textOf code t := by
  have hw : isWord t.kind = true := by
    rcases hk with ⟨h0, _⟩ | ⟨kw, h0⟩ <;> rw [h0] <;> rfl
  have hni : ¬ Inserted code t := by rintro ⟨h0, _⟩; rw [h0] at hw; cases hw
  obtain ⟨ch, s, rest, h1, h2, h3, h4⟩ := real_token u hu qml code line0 n ts h t ht hni
    (by intro h0; rw [h0] at hw; cases hw)
  have htx : t.text = none := by
    rcases hk with ⟨_, h0⟩ | ⟨kw, h0⟩
    · exact h0
    · cases hx : t.text with
      | none => rfl
      | some x =>
        exfalso
        rw [h0, hx] at h2
        exact body_word_text u qml ch s kw x rest h2
  rw [htx] at h2
  obtain ⟨a1, w, a2, a3, a4, a5⟩ := body_word u hu qml ch s _ rest hw h2
  have htext : textOf code t = ch :: w := by
    rw [a2, ← List.cons_append] at h4
    exact (List.append_cancel_right h4).symm
  refine ⟨⟨ch, w, htext, a1, a3, ?_⟩, ?_⟩
  · intro d hd'
    rw [h3] at hd'
    cases rest with
    | nil => cases hd'
    | cons x rest => simp at hd'; subst hd'; exact a4
  · intro kw
    rw [htext, ← classify_iff qml (ch :: w) kw, a5]
    unfold kindOf
    split
    · rename_i hc; rw [hc]; simp
    · rename_i k' hc; rw [hc]; simp

/-- **C112.** Every word is recognized: where a token begins with a word that does not go on with an
escape sequence, then that word is the token; it is the keyword of the table, or an identifier. -/
theorem C112_words_found (u : Uni) (hu : UniOk u) (qml : Bool) (code : Str) (line0 n : Nat)
    (ts : List Tok) (h : tokens u qml n (setCode code line0) = some ts) (t : Tok) (ht : t ∈ ts)
    (c : Char) (w r : Str) (hs : code.drop t.start = c :: w ++ r)
    (hc : u.isLetter c = true ∨ c = '$' ∨ c = '_') (hw : ∀ d ∈ w, wordChar u d)
    (hr : ∀ d ∈ r.head?, ¬ wordChar u d ∧ d ≠ '\\') :
    textOf code t = c :: w ∧ t.text = none ∧
      (t.kind = .identifier ∨ ∃ kw, t.kind = .word kw) := by
  have hne : ∀ d : Char, d.toNat < 128 → ¬ ((65 ≤ d.toNat ∧ d.toNat ≤ 90) ∨
      (97 ≤ d.toNat ∧ d.toNat ≤ 122)) → d ≠ '$' → d ≠ '_' → c ≠ d := by
    rintro d h1 h2 h3 h4 rfl
    rcases hc with h | h | h
    · exact h2 ((hu.asciiLetters _ h1).1 h)
    · exact h3 h
    · exact h4 h
  have hd' : ¬ wordChar u (hd r) ∧ hd r ≠ '\\' := by
    cases r with
    | nil =>
      refine ⟨?_, by decide⟩
      rintro (h0 | h0 | h0)
      · rw [show hd [] = nul from rfl, hu.nulNoWord] at h0; cases h0
      · exact absurd h0 (by decide)
      · exact absurd h0 (by decide)
    | cons d r => exact hr d (by simp)
  obtain ⟨hni, heof⟩ := not_inserted u hu qml code line0 n ts h t ht c (w ++ r) hs
    (hne _ (by decide) (by decide) (by decide) (by decide))
    (hne _ (by decide) (by decide) (by decide) (by decide))
    (Or.inr ⟨hne _ (by decide) (by decide) (by decide) (by decide),
      hne _ (by decide) (by decide) (by decide) (by decide)⟩)
  obtain ⟨ch, s, rest, h1, h2, h3, h4⟩ := real_token u hu qml code line0 n ts h t ht hni heof
  rw [h1] at hs
  cases hs
  have key := body_word_found u hu qml c w r hc hw hd'.1 hd'.2
  have h2' : body u qml c (w ++ r) = .tok t.kind t.text rest := h2
  rw [key] at h2'
  obtain ⟨e1, e2, e3⟩ := Body.tok.inj h2'
  refine ⟨?_, e2.symm, ?_⟩
  · rw [← e3] at h4
    have h4' : (c :: w) ++ r = textOf code t ++ r := h4
    exact (List.append_cancel_right h4').symm
  · rw [← e1]
    unfold kindOf
    split
    · exact Or.inl rfl
    · exact Or.inr ⟨_, rfl⟩

/-- **C112.** Every decimal number without leading zeros, fraction and exponent is recognized. -/
theorem C112_numbers_found (u : Uni) (hu : UniOk u) (qml : Bool) (code : Str) (line0 n : Nat)
    (ts : List Tok) (h : tokens u qml n (setCode code line0) = some ts) (t : Tok) (ht : t ∈ ts)
    (c : Char) (ds r : Str) (hs : code.drop t.start = c :: ds ++ r) (hc : '1' ≤ c ∧ c ≤ '9')
    (hd' : ∀ d ∈ ds, u.isDigit d = true)
    (hr : ∀ d ∈ r.head?, u.isDigit d = false ∧ d ≠ '.' ∧ d ≠ 'e' ∧ d ≠ 'E') :
    textOf code t = c :: ds ∧ t.kind = .numericLiteral := by
  have h1' : 49 ≤ c.toNat := hc.1
  have h2' : c.toNat ≤ 57 := hc.2
  have hr' : u.isDigit (hd r) = false ∧ hd r ≠ '.' ∧ hd r ≠ 'e' ∧ hd r ≠ 'E' := by
    cases r with
    | nil =>
      refine ⟨?_, by decide, by decide, by decide⟩
      cases h0 : u.isDigit nul with
      | false => exact h0
      | true => exact absurd ((hu.asciiDigits nul (by decide)).1 h0) (by decide)
    | cons d r => exact hr d (by simp)
  obtain ⟨hni, heof⟩ := not_inserted u hu qml code line0 n ts h t ht c (ds ++ r) hs
    (by rintro rfl; simp at h1') (by rintro rfl; simp [nul] at h1')
    (Or.inr ⟨by rintro rfl; simp at h1', by rintro rfl; simp at h1'⟩)
  obtain ⟨ch, s, rest, h1, h2, h3, h4⟩ := real_token u hu qml code line0 n ts h t ht hni heof
  rw [h1] at hs
  cases hs
  have key := body_number_found u qml c ds r hc hd' hr'.1 hr'.2
  have h2' : body u qml c (ds ++ r) = .tok t.kind t.text rest := h2
  rw [key] at h2'
  obtain ⟨e1, e2, e3⟩ := Body.tok.inj h2'
  refine ⟨?_, e1.symm⟩
  rw [← e3] at h4
  have h4' : (c :: ds) ++ r = textOf code t ++ r := h4
  exact (List.append_cancel_right h4').symm

/-- **C112, partial.** The lexer does not read behind the end of the text, unless the text ends with a
backslash, or with a backslash and a zero (then it can, see the finding). -/
theorem C112_no_oob_partial (u : Uni) (hu : UniOk u) (qml : Bool) (code : Str) (line0 n : Nat)
    (h1 : ¬ ['\\'] <:+ code) (h2 : ¬ ['\\', '0'] <:+ code) :
    tokens u qml n (setCode code line0) ≠ none := by
  intro h
  rcases tokens_none u hu qml code line0 n _ (inv_setCode u qml code line0) h with h0 | h0
  · exact h1 h0
  · exact h2 h0

/-- **C113, partial.** A token that begins with a quote is the string literal up to the quote at its end,
and its text is the value that ECMA-262 gives to it. Missing: literals with escape sequences that the
lexer does not understand (see the findings), and literals that end with `\0` and are followed by a
digit. -/
theorem C113_value_partial (u : Uni) (hu : UniOk u) (qml : Bool) (code : Str) (line0 n : Nat)
    (ts : List Tok) (h : tokens u qml n (setCode code line0) = some ts) (t : Tok) (ht : t ∈ ts)
    (q : Char) (hq : q = '"' ∨ q = '\'') (src v rest : Str)
    (hs : code.drop t.start = q :: src ++ q :: rest) (hv : Denotes u true q src v)
    (hr : ∀ d ∈ rest.head?, u.isDigit d = false) :
    t.text = some v ∧ textOf code t = q :: src ++ [q] ∧
      t.kind = (if '\n' ∈ src then .multilineStringLiteral else .stringLiteral) := by
  have hr' : u.isDigit (hd rest) = false := by
    cases rest with
    | nil =>
      cases h0 : u.isDigit nul with
      | false => exact h0
      | true => exact absurd ((hu.asciiDigits nul (by decide)).1 h0) (by decide)
    | cons d r => exact hr d (by simp)
  obtain ⟨hni, heof⟩ := not_inserted u hu qml code line0 n ts h t ht q (src ++ q :: rest) hs
    (by rcases hq with rfl | rfl <;> decide) (by rcases hq with rfl | rfl <;> decide)
    (Or.inr (by rcases hq with rfl | rfl <;> exact ⟨by decide, by decide⟩))
  obtain ⟨ch, s, rest', h1, h2, h3, h4⟩ := real_token u hu qml code line0 n ts h t ht hni heof
  rw [h1] at hs
  cases hs
  have key := body_string u hu qml q hq rest hr' src v hv
  have h2' : body u qml q (src ++ q :: rest) = .tok t.kind t.text rest' := h2
  rw [key] at h2'
  obtain ⟨e1, e2, e3⟩ := Body.tok.inj h2'
  refine ⟨e2.symm, ?_, e1.symm⟩
  rw [← e3] at h4
  have h4' : (q :: src ++ [q]) ++ rest = textOf code t ++ rest := by
    rw [← h4]; simp
  exact (List.append_cancel_right h4').symm

theorem denotes_escape (u : Uni) : ∀ s : Str, nul ∉ s →
    Denotes u true '"' (Verif.Literal.escape s) s := by
  intro s
  induction s with
  | nil => intro _; exact .nil
  | cons c s ih =>
    intro h
    simp at h
    have hs := ih h.2
    unfold Verif.Literal.escape
    split
    · rename_i hc
      refine .single c c _ _ ?_ hs
      rcases hc with rfl | rfl <;> decide
    · rename_i hc
      simp at hc
      exact .plain c _ _ hc.2 hc.1 (Ne.symm h.1) hs

/-- **C113.** What qbs writes as a string literal into a project file is read back by the lexer as one
token with the same string, for every string without NUL characters. -/
theorem C113_roundtrip (u : Uni) (hu : UniOk u) (qml : Bool) (code : Str) (line0 n : Nat)
    (ts : List Tok) (h : tokens u qml n (setCode code line0) = some ts) (t : Tok) (ht : t ∈ ts)
    (s rest : Str) (hs : code.drop t.start = Verif.Literal.litStr s ++ rest) (h0 : nul ∉ s)
    (hr : ∀ d ∈ rest.head?, u.isDigit d = false) :
    t.text = some s ∧ textOf code t = Verif.Literal.litStr s ∧
      (t.kind = .stringLiteral ∨ t.kind = .multilineStringLiteral) := by
  obtain ⟨h1, h2, h3⟩ := C113_value_partial u hu qml code line0 n ts h t ht '"' (Or.inl rfl)
    (Verif.Literal.escape s) s rest (by rw [hs]; simp [Verif.Literal.litStr])
    (denotes_escape u s h0) hr
  refine ⟨h1, h2, ?_⟩
  rw [h3]
  split
  · exact Or.inr rfl
  · exact Or.inl rfl

end Verif.Lexer
