import Verif.Lexer.Lem8
/-!
# All tokens
-/
namespace Verif.Lexer

/-- What is known about a list of tokens. `r`: the token before was one of the restricted words;
`st`: the token before was a semicolon that was inserted before this. -/
def Good (u : Uni) (qml : Bool) (code : Str) (line0 : Nat) :
    Bool → Nat → Option Kind → List Tok → Prop
  | _, _, _, [] => True
  | r, pos, st, t :: ts => pos ≤ t.start ∧ t.start + t.length ≤ code.length ∧
      Skips u (!r) (code.drop pos) (code.drop t.start) ∧
      (∀ k, st = some k → t.kind = k ∧ t.start = pos) ∧
      ∃ next st', TokOk u qml code line0 r t next st' ∧
        Good u qml code line0 (isRestricted t.kind) next st' ts

theorem tokens_good (u : Uni) (hu : UniOk u) (qml : Bool) (code : Str) (line0 : Nat) :
    ∀ (n : Nat) (l : Lx) (ts : List Tok), Inv u qml code line0 l → tokens u qml n l = some ts →
      Good u qml code line0 l.restricted (posOf l) l.stackToken ts := by
  intro n
  induction n with
  | zero => intro l ts _ h; cases h; trivial
  | succ n ih =>
    intro l ts hi h
    unfold tokens at h
    split at h
    · cases h
    · rename_i l1 hl
      obtain ⟨a1, a2, a3, a4, a5, a6⟩ := lex_ok u hu qml code line0 l l1 hi hl
      have hst : ∀ k, l.stackToken = some k → (token l1).kind = k ∧ (token l1).start = posOf l := by
        intro k hk
        refine ⟨(a6 k hk).1, ?_⟩
        rw [(a6 k hk).2]; unfold posOf; rw [hk]; simp
      have hr : l1.restricted = isRestricted (token l1).kind := a1.restricted
      split at h
      · cases h
        exact ⟨a2, a3, a4, hst, _, _, a5, trivial⟩
      · split at h
        · cases h
        · rename_i ts' ht
          cases h
          refine ⟨a2, a3, a4, hst, _, _, a5, ?_⟩
          rw [← hr]
          exact ih l1 ts' a1 ht

theorem tokens_good0 (u : Uni) (hu : UniOk u) (qml : Bool) (code : Str) (line0 n : Nat)
    (ts : List Tok) (h : tokens u qml n (setCode code line0) = some ts) :
    Good u qml code line0 false 0 none ts :=
  tokens_good u hu qml code line0 n _ ts (inv_setCode u qml code line0) h

/-- A suffix of a good list is good. -/
theorem good_split (u : Uni) (qml : Bool) (code : Str) (line0 : Nat) : ∀ (pre : List Tok) r pos st
    (t : Tok) (post : List Tok), Good u qml code line0 r pos st (pre ++ t :: post) →
    ∃ r' pos' st', Good u qml code line0 r' pos' st' (t :: post) ∧
      (r' = true → (pre = [] ∧ r = true) ∨ ∃ pre' p, pre = pre' ++ [p] ∧
        isRestricted p.kind = true) := by
  intro pre
  induction pre with
  | nil =>
    intro r pos st t post h
    exact ⟨r, pos, st, h, fun hr => Or.inl ⟨rfl, hr⟩⟩
  | cons p pre ih =>
    intro r pos st t post h
    obtain ⟨_, _, _, _, next, st', _, hg⟩ := h
    obtain ⟨r', pos', st'', h1, h2⟩ := ih _ _ _ t post hg
    refine ⟨r', pos', st'', h1, fun hr => Or.inr ?_⟩
    rcases h2 hr with ⟨h3, h4⟩ | ⟨pre', p', h3, h4⟩
    · exact ⟨[], p, by simp [h3], h4⟩
    · exact ⟨p :: pre', p', by simp [h3], h4⟩

theorem inserted_iff (code : Str) (t : Tok) : Inserted code t ↔
    t.kind = .semicolon ∧ (code.drop t.start).head? ≠ some ';' := Iff.rfl

theorem body_eof (u : Uni) (qml : Bool) (ch : Char) (s : Str) (text : Option Str) (rest : Str) :
    body u qml ch s ≠ .tok .eof text rest := by
  intro h
  have hstr : ∀ q, scanString u q s ≠ .tok .eof text rest :=
    fun q hq => plain_eof (scanString_plain u q s) hq
  have hdec : ∀ a b, decimal u a b ≠ .tok .eof text rest :=
    fun a b hq => plain_eof (decimal_plain u a b) hq
  have hnum : scanNumber u ch s ≠ .tok .eof text rest :=
    fun hq => plain_eof (scanNumber_plain u ch s) hq
  have hw : scanWord u qml ch s ≠ .tok .eof text rest :=
    fun hq => plain_eof (scanWord_plain u qml ch s) hq
  unfold body at h
  simp only at h
  split at h <;> (repeat' split at h) <;>
    first
    | exact absurd h (hstr _)
    | exact absurd h hnum
    | exact absurd h hw
    | exact absurd h (hdec _ _)
    | (cases h; done)

/-- A token that was read is a semicolon exactly if it is one in the text. -/
theorem body_semicolon (u : Uni) (qml : Bool) (ch : Char) (s : Str) (text : Option Str)
    (rest : Str) (h : body u qml ch s = .tok .semicolon text rest) : ch = ';' := by
  obtain ⟨_, h2⟩ := body_symbol u qml ch s _ text rest ";" h rfl
  rcases h2 with ⟨h2, _⟩ | ⟨h2, _⟩
  · have : ch :: s = ';' :: rest := h2
    cases this; rfl
  · cases h2

theorem tokOk_end (u : Uni) (qml : Bool) (code : Str) (line0 : Nat) (r : Bool) (t : Tok)
    (next : Nat) (st : Option Kind) (h : TokOk u qml code line0 r t next st) :
    endOf code t = next := by
  unfold endOf
  rcases h with ⟨h1, _, _, h4, _, h6, _⟩ | ⟨_, ⟨h1, _, h3, _, h5, _⟩ | ⟨ch, s, k, rest, _, _, h3, h4, _, _, h7⟩⟩
  · rw [if_pos ⟨h1, by rw [h4]; decide⟩, h6]
  · rw [if_neg (fun hi => by rw [hi.1] at h1; cases h1), h3, h5]; rfl
  · rcases h7 with ⟨a1, a2, _⟩ | ⟨a1, a2, a3, _⟩
    · rw [if_neg, a2]
      rintro ⟨b1, b2⟩
      rw [a1] at b1
      subst b1
      rw [h3, body_semicolon u qml ch s _ _ h4] at b2
      exact b2 rfl
    · rw [if_pos, a3]
      refine ⟨a2, ?_⟩
      rw [h3]
      rcases (body_pp u qml ch s k _ _ a1 h4).2 with ⟨_, rfl, _⟩ | ⟨_, rfl, _⟩ <;> simp

theorem good_laid (u : Uni) (qml : Bool) (code : Str) (line0 : Nat) : ∀ (ts : List Tok) r pos st,
    Good u qml code line0 r pos st ts → Laid u code pos ts := by
  intro ts
  induction ts with
  | nil => intro _ _ _ _; trivial
  | cons t ts ih =>
    intro r pos st h
    obtain ⟨h1, h2, h3, _, next, st', h4, h5⟩ := h
    refine ⟨h1, h2, skips_true h3, ?_⟩
    rw [tokOk_end u qml code line0 r t next st' h4]
    exact ih _ _ _ h5

theorem isRestricted_iff (k : Kind) : isRestricted k = true ↔ restrictedWord k := by
  unfold isRestricted restrictedWord
  split <;> simp_all

/-! ### Every call makes progress -/

/-- How much there is to do. -/
def todo (code : Str) (l : Lx) : Nat :=
  2 * (code.length - posOf l) + (if l.restricted = true then 1 else 0) +
    (if l.stackToken = none then 1 else 0)

theorem todo_less (u : Uni) (hu : UniOk u) (qml : Bool) (code : Str) (line0 : Nat) (l l2 : Lx)
    (hi : Inv u qml code line0 l) (h : lex u qml l = some l2)
    (hk : l2.tokenKind ≠ .eof) : todo code l2 < todo code l := by
  obtain ⟨a1, a2, a3, _, a5, a6⟩ := lex_ok u hu qml code line0 l l2 hi h
  have hr : l2.restricted = isRestricted (token l2).kind := a1.restricted
  have hst : l.stackToken = none ∨ ((token l2).kind = .minusMinus ∨ (token l2).kind = .plusPlus) := by
    cases hs : l.stackToken with
    | none => exact Or.inl rfl
    | some k =>
      right
      rw [(a6 k hs).1]
      exact (hi.stacked k hs).1
  unfold todo
  rw [hr]
  rcases a5 with ⟨h1, h2, h3, _, _, h6, h7⟩ | ⟨_, ⟨h1, _⟩ | ⟨ch, s, k, rest, _, _, _, _, _, h6, h7⟩⟩
  · rw [h7, h6, h1]
    have : l.stackToken = none := by
      rcases hst with h | h | h
      · exact h
      · rw [h1] at h; cases h
      · rw [h1] at h; cases h
    rw [this, h2]
    simp [isRestricted]
    omega
  · exact absurd h1 hk
  · rcases h7 with ⟨b1, b2, b3⟩ | ⟨b1, b2, b3, b4⟩
    · rw [b2, b3]
      rcases hst with hs | hs
      · rw [hs]
        have : (if isRestricted (token l2).kind = true then 1 else 0) ≤ 1 := by split <;> omega
        simp only [if_true]
        omega
      · have : isRestricted (token l2).kind = false := by rcases hs with hs | hs <;> rw [hs] <;> rfl
        rw [this]
        simp only [Bool.false_eq_true, if_false, if_true]
        omega
    · have : l.stackToken = none := by
        rcases hst with h | h | h
        · exact h
        · rw [b2] at h; cases h
        · rw [b2] at h; cases h
      rw [b4, b3, b2, this]
      simp [isRestricted]
      omega

theorem tokens_end (u : Uni) (hu : UniOk u) (qml : Bool) (code : Str) (line0 : Nat) :
    ∀ (n : Nat) (l : Lx) (ts : List Tok), Inv u qml code line0 l → todo code l < n →
      tokens u qml n l = some ts →
      ∃ pre t, ts = pre ++ [t] ∧ (t.kind = .eof ∨ t.kind = .error) ∧
        ∀ t' ∈ pre, t'.kind ≠ .eof ∧ t'.kind ≠ .error := by
  intro n
  induction n with
  | zero => intro l ts _ h; omega
  | succ n ih =>
    intro l ts hi hn h
    unfold tokens at h
    split at h
    · cases h
    · rename_i l1 hl
      have hinv := (lex_ok u hu qml code line0 l l1 hi hl).1
      split at h
      · rename_i hk
        cases h
        exact ⟨[], token l1, rfl, hk, by simp⟩
      · rename_i hk
        have hlt := todo_less u hu qml code line0 l l1 hi hl (fun h => hk (Or.inl h))
        split at h
        · cases h
        · rename_i ts' ht
          cases h
          obtain ⟨pre, t, h1, h2, h3⟩ := ih l1 ts' hinv (by omega) ht
          refine ⟨token l1 :: pre, t, by rw [h1]; rfl, h2, ?_⟩
          intro t' ht'
          rcases List.mem_cons.1 ht' with rfl | ht'
          · exact ⟨fun h => hk (Or.inl h), fun h => hk (Or.inr h)⟩
          · exact h3 t' ht'

theorem lex_none (u : Uni) (hu : UniOk u) (qml : Bool) (code : Str) (line0 : Nat) (l : Lx)
    (hi : Inv u qml code line0 l) (h : lex u qml l = none) : BadEnd code := by
  unfold lex at h
  split at h
  · rename_i hs
    unfold scanToken at hs
    split at hs
    · cases hs
    · rename_i hst
      have key := again_ok u hu qml code line0 (l.cur.length + 1) { l with terminator := false }
        ⟨hi.here.place, hi.here.line, hi.here.last⟩ (Nat.lt_succ_self _) hst
      rw [hs] at key
      obtain ⟨ch, s, h1, h2⟩ := key
      exact badEnd_mono (body_oob u hu qml ch s h2) ((List.suffix_cons ch s).trans h1)
  · cases h

theorem tokens_none (u : Uni) (hu : UniOk u) (qml : Bool) (code : Str) (line0 : Nat) :
    ∀ (n : Nat) (l : Lx), Inv u qml code line0 l → tokens u qml n l = none → BadEnd code := by
  intro n
  induction n with
  | zero => intro l _ h; cases h
  | succ n ih =>
    intro l hi h
    unfold tokens at h
    split at h
    · rename_i hl; exact lex_none u hu qml code line0 l hi hl
    · rename_i l1 hl
      split at h
      · cases h
      · split at h
        · rename_i ht
          exact ih l1 (lex_ok u hu qml code line0 l l1 hi hl).1 ht
        · cases h

end Verif.Lexer
