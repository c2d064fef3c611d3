import Verif.Lexer.Lem6
/-!
# One call of the lexer
-/
namespace Verif.Lexer

/-- Where the lexer reads on. -/
def posOf (l : Lx) : Nat := if l.stackToken = none then l.codePtr - 1 else l.tokenStart

/-- The words after which there must not be a newline. -/
def isRestricted : Kind → Bool
  | .word .kContinue => true
  | .word .kBreak => true
  | .word .kReturn => true
  | .word .kThrow => true
  | _ => false

/-- What holds between the calls. -/
structure Inv (u : Uni) (qml : Bool) (code : Str) (line0 : Nat) (l : Lx) : Prop where
  here : At code line0 l
  start : l.codePtr = 0 → l.restricted = false ∧ l.stackToken = none
  restricted : l.restricted = isRestricted l.tokenKind
  stacked : ∀ k, l.stackToken = some k → (k = .minusMinus ∨ k = .plusPlus) ∧
    l.tokenKind = .semicolon ∧ Placed code line0 l ∧ l.tokenText = none ∧
    ∃ ch s, u.isSpace ch = false ∧ code.drop l.tokenStart = ch :: s ∧
      body u qml ch s = .tok k none l.cur

theorem inv_setCode (u : Uni) (qml : Bool) (code : Str) (line0 : Nat) :
    Inv u qml code line0 (setCode code line0) :=
  ⟨at_setCode code line0, fun _ => ⟨rfl, rfl⟩, rfl, fun k h => by cases h⟩

/-- What a token that was read can be. `next`: the place where the lexer reads on. -/
def TokOk (u : Uni) (qml : Bool) (code : Str) (line0 : Nat) (restricted : Bool) (t : Tok)
    (next : Nat) (stacked : Option Kind) : Prop :=
  (t.kind = .semicolon ∧ restricted = true ∧ t.length = 0 ∧
    (code.drop t.start).head? = some '\n' ∧ t.text = none ∧ next = t.start ∧ stacked = none) ∨
  (((t.line = lineOf code line0 t.start ∧ t.column = columnOf code t.start)) ∧
    ((t.kind = .eof ∧ hd (code.drop t.start) = nul ∧ t.length = 0 ∧ t.text = none ∧
        next = t.start ∧ stacked = none) ∨
     ∃ ch s k rest, ch ≠ nul ∧ u.isSpace ch = false ∧ code.drop t.start = ch :: s ∧
      body u qml ch s = .tok k t.text rest ∧ code.drop (t.start + t.length) = rest ∧ 0 < t.length ∧
      ((t.kind = k ∧ next = t.start + t.length ∧ stacked = none) ∨
       ((k = .minusMinus ∨ k = .plusPlus) ∧ t.kind = .semicolon ∧ next = t.start ∧
          stacked = some k))))

theorem body_pp (u : Uni) (qml : Bool) (ch : Char) (s : Str) (k : Kind) (text : Option Str)
    (rest : Str) (hk : k = .minusMinus ∨ k = .plusPlus)
    (h : body u qml ch s = .tok k text rest) : text = none ∧
      ((k = .minusMinus ∧ ch = '-' ∧ s = '-' :: rest) ∨
        (k = .plusPlus ∧ ch = '+' ∧ s = '+' :: rest)) := by
  rcases hk with rfl | rfl
  · obtain ⟨h1, h2⟩ := body_symbol u qml ch s _ text rest "--" h rfl
    refine ⟨h1, Or.inl ⟨rfl, ?_⟩⟩
    rcases h2 with ⟨h2, _⟩ | ⟨h2, _⟩
    · have : ch :: s = '-' :: '-' :: rest := h2
      cases this; exact ⟨rfl, rfl⟩
    · cases h2
  · obtain ⟨h1, h2⟩ := body_symbol u qml ch s _ text rest "++" h rfl
    refine ⟨h1, Or.inr ⟨rfl, ?_⟩⟩
    rcases h2 with ⟨h2, _⟩ | ⟨h2, _⟩
    · have : ch :: s = '+' :: '+' :: rest := h2
      cases this; exact ⟨rfl, rfl⟩
    · cases h2

theorem updateParen_keeps (l : Lx) : (updateParen l).cur = l.cur ∧
    (updateParen l).codePtr = l.codePtr ∧ (updateParen l).lastLinePtr = l.lastLinePtr ∧
    (updateParen l).line = l.line ∧ (updateParen l).tokenLinePtr = l.tokenLinePtr ∧
    (updateParen l).tokenStart = l.tokenStart ∧ (updateParen l).tokenLine = l.tokenLine ∧
    (updateParen l).tokenLength = l.tokenLength ∧ (updateParen l).tokenKind = l.tokenKind ∧
    (updateParen l).tokenText = l.tokenText ∧ (updateParen l).stackToken = l.stackToken ∧
    (updateParen l).restricted = l.restricted := by
  unfold updateParen
  (repeat' split) <;> exact ⟨rfl, rfl, rfl, rfl, rfl, rfl, rfl, rfl, rfl, rfl, rfl, rfl⟩

theorem updateFlags_keeps (l : Lx) (hr : l.restricted = false) : (updateFlags l).cur = l.cur ∧
    (updateFlags l).codePtr = l.codePtr ∧ (updateFlags l).lastLinePtr = l.lastLinePtr ∧
    (updateFlags l).line = l.line ∧ (updateFlags l).tokenLinePtr = l.tokenLinePtr ∧
    (updateFlags l).tokenStart = l.tokenStart ∧ (updateFlags l).tokenLine = l.tokenLine ∧
    (updateFlags l).tokenLength = l.tokenLength ∧ (updateFlags l).tokenKind = l.tokenKind ∧
    (updateFlags l).tokenText = l.tokenText ∧ (updateFlags l).stackToken = l.stackToken ∧
    (updateFlags l).restricted = isRestricted l.tokenKind := by
  unfold updateFlags
  split <;> rename_i he <;> refine ⟨rfl, rfl, rfl, rfl, rfl, rfl, rfl, rfl, rfl, rfl, rfl, ?_⟩
  all_goals first
    | (rw [he]; rfl)
    | (rw [he]; exact hr)
    | (rw [hr]; unfold isRestricted; split <;> simp_all)

/-- The state after `scanToken` as `lex` leaves it, with the fields of the token. -/
structure After (l1 l2 : Lx) (k : Kind) : Prop where
  cur : l2.cur = l1.cur
  codePtr : l2.codePtr = l1.codePtr
  lastLinePtr : l2.lastLinePtr = l1.lastLinePtr
  line : l2.line = l1.line
  tokenLinePtr : l2.tokenLinePtr = l1.tokenLinePtr
  tokenStart : l2.tokenStart = l1.tokenStart
  tokenLine : l2.tokenLine = l1.tokenLine
  tokenLength : l2.tokenLength = l1.codePtr - l1.tokenStart - 1
  tokenKind : l2.tokenKind = k
  tokenText : l2.tokenText = l1.tokenText
  stackToken : l2.stackToken = l1.stackToken
  restricted : l2.restricted = isRestricted k

theorem lex_after (u : Uni) (qml : Bool) (l l2 : Lx) (h : lex u qml l = some l2) :
    ∃ l1 k, scanToken u qml l = some (l1, k) ∧ After l1 l2 k := by
  unfold lex at h
  split at h
  · cases h
  · rename_i l1 k hs
    simp only [Option.some.injEq] at h
    refine ⟨l1, k, hs, ?_⟩
    have hp := updateParen_keeps (updateFlags { l1 with
      tokenKind := k, tokenLength := l1.codePtr - l1.tokenStart - 1, delimited := false,
      restricted := false, followsClosingBrace := decide (l.tokenKind = .rbrace) })
    have hf := updateFlags_keeps { l1 with
      tokenKind := k, tokenLength := l1.codePtr - l1.tokenStart - 1, delimited := false,
      restricted := false, followsClosingBrace := decide (l.tokenKind = .rbrace) } rfl
    rw [h] at hp
    obtain ⟨p1, p2, p3, p4, p5, p6, p7, p8, p9, p10, p11, p12⟩ := hp
    obtain ⟨f1, f2, f3, f4, f5, f6, f7, f8, f9, f10, f11, f12⟩ := hf
    exact ⟨p1.trans f1, p2.trans f2, p3.trans f3, p4.trans f4, p5.trans f5, p6.trans f6,
      p7.trans f7, p8.trans f8, p9.trans f9, p10.trans f10, p11.trans f11, p12.trans f12⟩

theorem placed_token (code : Str) (line0 : Nat) (l1 l2 : Lx) (k : Kind) (ha : After l1 l2 k)
    (hp : Placed code line0 l1) (hle : l1.tokenStart ≤ code.length) :
    (token l2).line = lineOf code line0 (token l2).start ∧
      (token l2).column = columnOf code (token l2).start := by
  refine ⟨?_, ?_⟩
  · simp only [token]; rw [ha.tokenLine, ha.tokenStart]; exact hp.1
  · simp only [token]; rw [ha.tokenStart, ha.tokenLinePtr, hp.2, columnOf_eq code _ hle]

theorem drop_eq_nil_len {code r : Str} {n : Nat} {c : Char} (h : code.drop n = c :: r) :
    n < code.length := by
  rcases Nat.lt_or_ge n code.length with h1 | h1
  · exact h1
  · rw [List.drop_eq_nil_of_le h1] at h; cases h

theorem skips_len {u : Uni} {nl : Bool} {a b : Str} (h : Skips u nl a b) : b.length ≤ a.length := by
  induction h with
  | done r => exact Nat.le_refl _
  | space c s r _ _ _ ih => simp; omega
  | line body s r _ _ _ ih => simp; omega
  | block body s r _ _ _ ih => simp; omega

theorem lex_ok (u : Uni) (hu : UniOk u) (qml : Bool) (code : Str) (line0 : Nat) (l l2 : Lx)
    (hi : Inv u qml code line0 l) (h : lex u qml l = some l2) :
    Inv u qml code line0 l2 ∧ posOf l ≤ (token l2).start ∧
    (token l2).start + (token l2).length ≤ code.length ∧
    Skips u (!l.restricted) (code.drop (posOf l)) (code.drop (token l2).start) ∧
    TokOk u qml code line0 l.restricted (token l2) (posOf l2) l2.stackToken ∧
    (∀ k, l.stackToken = some k → (token l2).kind = k ∧ (token l2).start = l.tokenStart) := by
  obtain ⟨l1, k, hs, ha⟩ := lex_after u qml l l2 h
  unfold scanToken at hs
  cases hst : l.stackToken with
  | some kk =>
    rw [hst] at hs
    simp only [Option.some.injEq, Prod.mk.injEq] at hs
    obtain ⟨h1, rfl⟩ := hs
    obtain ⟨s1, s2, s3, s4, ch, s, s0, s5, s6⟩ := hi.stacked kk hst
    have hcp : l2.codePtr = l.codePtr := by rw [ha.codePtr, ← h1]
    have hcur : l2.cur = l.cur := by rw [ha.cur, ← h1]
    have hts : l2.tokenStart = l.tokenStart := by rw [ha.tokenStart, ← h1]
    have hpos : 0 < l.codePtr := by
      rcases Nat.eq_zero_or_pos l.codePtr with h0 | h0
      · rw [(hi.start h0).2] at hst; cases hst
      · exact h0
    have hlt := drop_eq_nil_len s5
    have hlen := at_len code line0 l hi.here
    have hpl1 : Placed code line0 l1 := by rw [← h1]; exact s3
    have hsfx : l.cur <:+ s := by
      have := body_leaves u qml ch s
      rw [s6] at this; exact this
    have hls := hsfx.length_le
    have hds : s.length + 1 = code.length - l.tokenStart := by
      have := congrArg List.length s5
      simp at this; omega
    have htl : l2.tokenLength = l.codePtr - l.tokenStart - 1 := by rw [ha.tokenLength, ← h1]
    have hp2 : posOf l2 = l.codePtr - 1 := by
      unfold posOf; rw [ha.stackToken, ← h1]; simp [hcp]
    have hp : posOf l = l.tokenStart := by unfold posOf; rw [hst]; simp
    have hpl : l.cur = code.drop (l.codePtr - 1) := by
      rcases hi.here.place with ⟨h0, _⟩ | ⟨_, _, h3⟩
      · omega
      · exact h3
    refine ⟨⟨⟨?_, ?_, ?_⟩, ?_, ?_, ?_⟩, ?_, ?_, ?_, Or.inr ⟨placed_token code line0 l1 l2 kk ha hpl1 ?_,
      Or.inr ⟨ch, s, kk, l.cur, ?_, ?_, ?_, ?_, ?_, ?_, Or.inl ⟨ha.tokenKind, ?_, ?_⟩⟩⟩, ?_⟩
    · rw [hcp, hcur]; exact hi.here.place
    · rw [hcp, ha.line, ← h1]; exact hi.here.line
    · rw [hcp, ha.lastLinePtr, ← h1]; exact hi.here.last
    · intro h0; rw [hcp] at h0; omega
    · rw [ha.restricted, ha.tokenKind]
    · intro k' hk'; rw [ha.stackToken, ← h1] at hk'; cases hk'
    · simp only [token]; rw [hp, hts]; exact Nat.le_refl _
    · simp only [token]; rw [hts, htl]; omega
    · simp only [token]; rw [hp, hts]; exact .done _
    · rw [← h1]; exact Nat.le_of_lt hlt
    · rcases (body_pp u qml ch s kk _ _ s1 s6).2 with ⟨_, rfl, _⟩ | ⟨_, rfl, _⟩ <;> decide
    · exact s0
    · simp only [token]; rw [hts]; exact s5
    · simp only [token]; rw [ha.tokenText, ← h1]; simp only; rw [s4]; exact s6
    · simp only [token]; rw [hts, htl, hpl]; congr 1; omega
    · simp only [token]; rw [htl]; omega
    · simp only [token]; rw [hp2, hts, htl]; omega
    · rw [ha.stackToken, ← h1]
    · intro k' hk'
      cases hk'
      exact ⟨ha.tokenKind, hts⟩
  | none =>
    have hs : again u qml (l.cur.length + 1) { l with terminator := false } = some (l1, k) := by
      split at hs
      · rename_i h0; rw [hst] at h0; cases h0
      · exact hs
    have key := again_ok u hu qml code line0 (l.cur.length + 1) { l with terminator := false }
      ⟨hi.here.place, hi.here.line, hi.here.last⟩ (Nat.lt_succ_self _) hst
    rw [hs] at key
    obtain ⟨k1, k2, k3⟩ := key
    simp only at k2 k3
    have hat : At code line0 l2 :=
      ⟨by rw [ha.codePtr, ha.cur]; exact k1.place, by rw [ha.codePtr, ha.line]; exact k1.line,
        by rw [ha.codePtr, ha.lastLinePtr]; exact k1.last⟩
    have hp : posOf l = l.codePtr - 1 := by unfold posOf; rw [hst]; simp
    -- the text from `posOf l` on
    have hfrom : ∀ nl r, hd r ≠ '\n' ∨ 0 < l.codePtr → Skips u nl l.cur r →
        Skips u nl (code.drop (posOf l)) r := by
      intro nl r hr hsk
      rw [hp]
      rcases hi.here.place with ⟨h0, h1⟩ | ⟨_, _, h3⟩
      · rw [h0]
        rw [h1] at hsk
        rcases hr with hr | hr
        · exact skips_virtual hsk hr
        · omega
      · rw [← h3]; exact hsk
    rcases k3 with ⟨b1, b2, b3, b4, b5, b6, b7⟩ | ⟨b1, b2, b3, b4, b5, b6, b7, b8⟩ |
      ⟨ch, s, k0, text, rest, b1, b2, b3, b4, b5, b6, b7, b8, b9⟩
    · have hpos : 0 < l.codePtr := by
        rcases Nat.eq_zero_or_pos l.codePtr with h0 | h0
        · rw [(hi.start h0).1] at b2; cases b2
        · exact h0
      have hcur : l1.cur = code.drop (l1.codePtr - 1) := by
        rcases k1.place with ⟨h0, _⟩ | ⟨_, _, h3⟩
        · omega
        · exact h3
      obtain ⟨r, hr⟩ := hd_newline b3
      have hlt : l1.codePtr - 1 < code.length := drop_eq_nil_len (hcur.symm.trans hr)
      have hp2 : posOf l2 = l1.codePtr - 1 := by
        unfold posOf; rw [ha.stackToken, b6, ha.codePtr]; simp
      refine ⟨⟨hat, ?_, by rw [ha.restricted, ha.tokenKind], ?_⟩, ?_, ?_, ?_,
        Or.inl ⟨?_, b2, ?_, ?_, ?_, ?_, ?_⟩, fun k' hk' => by cases hk'⟩
      · intro h0; rw [ha.codePtr] at h0; omega
      · intro k' hk'; rw [ha.stackToken, b6] at hk'; cases hk'
      · simp only [token]; rw [ha.tokenStart, b5, hp]; omega
      · simp only [token]; rw [ha.tokenStart, ha.tokenLength, b5]; omega
      · simp only [token]; rw [ha.tokenStart, b5, ← hcur, b2]
        exact hfrom _ _ (Or.inr hpos) b4
      · simp only [token]; rw [ha.tokenKind, b1]
      · simp only [token]; rw [ha.tokenLength, b5]; omega
      · simp only [token]; rw [ha.tokenStart, b5, ← hcur, hr]; rfl
      · simp only [token]; rw [ha.tokenText, b7]
      · simp only [token]; rw [hp2, ha.tokenStart, b5]
      · rw [ha.stackToken, b6]
    · have hcur : l1.cur = code.drop (l1.codePtr - 1) := by
        rcases k1.place with ⟨h0, _⟩ | ⟨_, _, h3⟩
        · omega
        · exact h3
      have hlen := at_len code line0 l1 k1
      have hp2 : posOf l2 = l1.codePtr - 1 := by
        unfold posOf; rw [ha.stackToken, b6, ha.codePtr]; simp
      refine ⟨⟨hat, ?_, by rw [ha.restricted, ha.tokenKind], ?_⟩, ?_, ?_, ?_,
        Or.inr ⟨placed_token code line0 l1 l2 k ha b7 (by omega),
          Or.inl ⟨?_, ?_, ?_, ?_, ?_, ?_⟩⟩, fun k' hk' => by cases hk'⟩
      · intro h0; rw [ha.codePtr] at h0; omega
      · intro k' hk'; rw [ha.stackToken, b6] at hk'; cases hk'
      · simp only [token]; rw [ha.tokenStart, b5, hp]; omega
      · simp only [token]; rw [ha.tokenStart, ha.tokenLength, b5]; omega
      · simp only [token]; rw [ha.tokenStart, b5, ← hcur]
        exact hfrom _ _ (Or.inl (by rw [b2]; decide)) b3
      · simp only [token]; rw [ha.tokenKind, b1]
      · simp only [token]; rw [ha.tokenStart, b5, ← hcur, b2]
      · simp only [token]; rw [ha.tokenLength, b5]; omega
      · simp only [token]; rw [ha.tokenText, b8]
      · simp only [token]; rw [hp2, ha.tokenStart, b5]
      · rw [ha.stackToken, b6]
    · have hsfx : rest <:+ s := by
        have := body_leaves u qml ch s
        rw [b5] at this; exact this
      have hls := hsfx.length_le
      have hlt := drop_eq_nil_len b4
      have hlen := at_len code line0 l1 k1
      have hlen0 := at_len code line0 l hi.here
      have hds : s.length + 1 = code.length - l1.tokenStart := by
        have := congrArg List.length b4
        simp at this; omega
      rw [b6] at hlen
      have hcur : l1.cur = code.drop (l1.codePtr - 1) := by
        rcases k1.place with ⟨h0, _⟩ | ⟨_, _, h3⟩
        · omega
        · exact h3
      have hnn : ch ≠ '\n' := by rintro rfl; rw [hu.newline] at b2; cases b2
      have hsl := skips_len b3
      simp only [List.length_cons] at hsl
      have hfr := hfrom _ (ch :: s) (Or.inl hnn) b3
      have hfl := skips_len hfr
      have hpl : posOf l ≤ l1.tokenStart := by
        simp only [List.length_drop, List.length_cons] at hfl
        rw [hp] at hfl ⊢
        omega
      have hend : code.drop ((token l2).start + (token l2).length) = rest := by
        simp only [token]
        rw [ha.tokenStart, ha.tokenLength, ← b6, hcur]
        congr 1; omega
      have hp2 : l1.stackToken = none → posOf l2 = l1.codePtr - 1 := by
        intro h0; unfold posOf; rw [ha.stackToken, h0, ha.codePtr]; simp
      have hbody : body u qml ch s = .tok k0 (token l2).text rest := by
        simp only [token]; rw [ha.tokenText, b7]; exact b5
      refine ⟨⟨hat, ?_, by rw [ha.restricted, ha.tokenKind], ?_⟩, ?_, ?_, ?_,
        Or.inr ⟨placed_token code line0 l1 l2 k ha b8 (Nat.le_of_lt hlt),
          Or.inr ⟨ch, s, k0, rest, b1, b2, ?_, hbody, hend, ?_, ?_⟩⟩, fun k' hk' => by cases hk'⟩
      · intro h0; rw [ha.codePtr] at h0; omega
      · intro k' hk'
        rw [ha.stackToken] at hk'
        rcases b9 with ⟨_, c2⟩ | ⟨c1, c2, c3⟩
        · rw [c2] at hk'; cases hk'
        · rw [c3] at hk'; cases hk'
          have htx := (body_pp u qml ch s _ text rest c1 b5).1
          subst htx
          refine ⟨c1, by rw [ha.tokenKind, c2], ?_, by rw [ha.tokenText, b7], ch, s, b2,
            by rw [ha.tokenStart]; exact b4, by rw [ha.cur, b6]; exact b5⟩
          exact ⟨by rw [ha.tokenLine, ha.tokenStart]; exact b8.1,
            by rw [ha.tokenLinePtr, ha.tokenStart]; exact b8.2⟩
      · simp only [token]; rw [ha.tokenStart]; exact hpl
      · simp only [token]; rw [ha.tokenStart, ha.tokenLength]; omega
      · simp only [token]; rw [ha.tokenStart, b4]; exact hfr
      · simp only [token]; rw [ha.tokenStart]; exact b4
      · simp only [token]; rw [ha.tokenLength]; omega
      · rcases b9 with ⟨c1, c2⟩ | ⟨c1, c2, c3⟩
        · refine Or.inl ⟨by simp only [token]; rw [ha.tokenKind, c1], ?_, by rw [ha.stackToken, c2]⟩
          rw [hp2 c2]
          simp only [token]; rw [ha.tokenStart, ha.tokenLength]; omega
        · refine Or.inr ⟨c1, by simp only [token]; rw [ha.tokenKind, c2], ?_,
            by rw [ha.stackToken, c3]⟩
          unfold posOf
          rw [ha.stackToken, c3]
          simp [token]

end Verif.Lexer
