import Verif.Lexer.Lem3
/-!
# One token
-/
namespace Verif.Lexer

/-- The recorded position of the token is right. -/
def Placed (code : Str) (line0 : Nat) (l : Lx) : Prop :=
  l.tokenLine = lineOf code line0 l.tokenStart ∧ l.tokenLinePtr = lineStart code l.tokenStart

/-- What is known about a token that was read from the state `l`. -/
def Found (u : Uni) (qml : Bool) (code : Str) (line0 : Nat) (l l1 : Lx) (k : Kind) : Prop :=
  At code line0 l1 ∧ l.codePtr ≤ l1.codePtr ∧
  ((k = .semicolon ∧ l.restricted = true ∧ hd l1.cur = '\n' ∧ Skips u false l.cur l1.cur ∧
      l1.tokenStart = l1.codePtr - 1 ∧ l1.stackToken = none ∧ l1.tokenText = none) ∨
   (k = .eof ∧ hd l1.cur = nul ∧ Skips u (!l.restricted) l.cur l1.cur ∧ 0 < l1.codePtr ∧
      l1.tokenStart = l1.codePtr - 1 ∧ l1.stackToken = none ∧ Placed code line0 l1 ∧
      l1.tokenText = none) ∨
   (∃ ch s k0 text rest, ch ≠ nul ∧ u.isSpace ch = false ∧ Skips u (!l.restricted) l.cur (ch :: s) ∧
      code.drop l1.tokenStart = ch :: s ∧ body u qml ch s = .tok k0 text rest ∧
      l1.cur = rest ∧ l1.tokenText = text ∧ Placed code line0 l1 ∧
      ((k = k0 ∧ l1.stackToken = none) ∨
        ((k0 = .minusMinus ∨ k0 = .plusPlus) ∧ k = .semicolon ∧ l1.stackToken = some k0))))

/-- The result of `again`. -/
def AgainOk (u : Uni) (qml : Bool) (code : Str) (line0 : Nat) (l : Lx) :
    Option (Lx × Kind) → Prop
  | none => ∃ ch s, (ch :: s) <:+ code ∧ body u qml ch s = .oob
  | some (l1, k) => Found u qml code line0 l l1 k

theorem at_place_pos (code : Str) (line0 : Nat) (l : Lx) (h : At code line0 l)
    (hn : hd l.cur ≠ '\n') : 0 < l.codePtr ∧ l.codePtr ≤ code.length + 1 ∧
      l.cur = code.drop (l.codePtr - 1) := by
  rcases h.place with ⟨_, h2⟩ | h
  · rw [h2] at hn; exact absurd rfl hn
  · exact h

theorem placed_of_at (code : Str) (line0 : Nat) (l : Lx) (h : At code line0 l)
    (hn : hd l.cur ≠ '\n') (ht : l.tokenLinePtr = l.lastLinePtr) :
    Placed code line0 { l with tokenStart := l.codePtr - 1, tokenLine := l.line } := by
  obtain ⟨h1, _, h3⟩ := at_place_pos code line0 l h hn
  have he : l.codePtr - 1 + 1 = l.codePtr := by omega
  rw [h3] at hn
  constructor
  · simp only [lineOf]
    rw [h.line]
    cases hd' : code.drop (l.codePtr - 1) with
    | nil =>
      have := take_succ_of_nil code _ hd'
      rw [he] at this; rw [this]
    | cons c r =>
      have := take_succ_of_drop code _ c r hd'
      rw [he] at this; rw [this]
      rw [hd'] at hn
      have hc : c ≠ '\n' := hn
      simp [hc]
  · simp only
    rw [ht, h.last]
    have := lineStart_other code (l.codePtr - 1) hn
    rwa [he] at this

theorem again_ok (u : Uni) (hu : UniOk u) (qml : Bool) (code : Str) (line0 : Nat) :
    ∀ (n : Nat) (l : Lx), At code line0 l → l.cur.length < n → l.stackToken = none →
    AgainOk u qml code line0 l (again u qml n l) := by
  intro n
  induction n with
  | zero => intro l _ h; omega
  | succ n ih =>
    intro l ha hn hst
    have ha0 : At code line0 { l with tokenText := none, tokenLinePtr := l.lastLinePtr } :=
      ⟨ha.place, ha.line, ha.last⟩
    have hsp := spaces_ok u hu code line0 (l.cur.length + 1) _ ha0 (Nat.lt_succ_self _)
      (fun _ => rfl)
    unfold again
    cases hs : spaces u (l.cur.length + 1)
        { l with tokenText := none, tokenLinePtr := l.lastLinePtr } with
    | oob => rw [hs] at hsp; exact absurd hsp (fun h => h)
    | semi l1 =>
      rw [hs] at hsp
      obtain ⟨a1, a2, a3, a4, a5, a6, a7, a8, a9, a10⟩ := hsp
      exact ⟨a1, a10, Or.inl ⟨rfl, a2, a3, a4, a5, by rw [a8.stackToken]; exact hst, a9⟩⟩
    | done l1 =>
      rw [hs] at hsp
      obtain ⟨a1, a2, a3, a4, a5, a6, a7⟩ := hsp
      have hne : hd l1.cur ≠ '\n' := by
        intro h; rw [h, hu.newline] at a2; cases a2
      obtain ⟨p1, p2, p3⟩ := at_place_pos code line0 l1 a1 hne
      have hpl := placed_of_at code line0 l1 a1 hne a4
      have ha2 : At code line0 { l1 with tokenStart := l1.codePtr - 1, tokenLine := l1.line } :=
        ⟨a1.place, a1.line, a1.last⟩
      simp only
      by_cases h0 : hd l1.cur = nul
      · rw [if_pos h0]
        exact ⟨ha2, a7, Or.inr (Or.inl ⟨rfl, h0, a3, p1, rfl, by rw [← hst]; exact a5.stackToken,
          hpl, a6⟩)⟩
      · rw [if_neg h0]
        have hcne : l1.cur ≠ [] := by intro h; rw [h] at h0; exact h0 rfl
        obtain ⟨c, r, hc⟩ := List.exists_cons_of_ne_nil hcne
        obtain ⟨l3, g1, g2, g3, g4⟩ :=
          scanChar_some { l1 with tokenStart := l1.codePtr - 1, tokenLine := l1.line } c r hc
        obtain ⟨ha3, _, _, _⟩ := at_scanChar code line0 _ l3 ha2 g1
        rw [g1]
        simp only
        have hh : hd l1.cur = c := by rw [hc]; rfl
        rw [hh] at h0 a2 ⊢
        rw [g2]
        have hleaves := body_leaves u qml c r
        have hdrop : code.drop l3.tokenStart = c :: r := by
          rw [g4.tokenStart]; rw [← hc, p3]
        have hsk : Skips u (!l.restricted) l.cur (c :: r) := by rw [← hc]; exact a3
        cases hb : body u qml c r with
        | oob =>
          exact ⟨c, r, by rw [← hc, p3]; exact List.drop_suffix _ _, hb⟩
        | comment m rest =>
          rw [hb] at hleaves
          obtain ⟨l4, q1, q2, q3, q4, q5⟩ := at_skip code line0 l3 rest ha3 (by rw [g2]; exact hleaves)
          rw [g2] at q1
          simp only [q1]
          have hcs := body_comment u qml c r m rest (!l.restricted) hb
          have hlen := List.IsSuffix.length_le hleaves
          have hl1 : l1.cur.length ≤ l.cur.length := by
            have e1 := at_len code line0 l ha
            have e2 := at_len code line0 l1 a1
            have : l.codePtr ≤ l1.codePtr := a7
            omega
          have key := ih { l4 with comments := l4.comments ++
                [(l4.tokenStart + 2, l4.codePtr - l4.tokenStart - 1 - 2 - m, l4.tokenLine,
                  l4.tokenStart - l4.tokenLinePtr + 1 + 2)] }
            ⟨q2.place, q2.line, q2.last⟩
            (by
              simp only [q4]
              rw [hc] at hl1
              simp only [List.length_cons] at hl1
              omega)
            (by simp only; rw [q5.stackToken, g4.stackToken]; simp only; rw [a5.stackToken]; exact hst)
          revert key
          generalize again u qml n _ = res
          intro key
          cases res with
          | none => exact key
          | some x =>
            obtain ⟨l5, k⟩ := x
            have hres : l4.restricted = l.restricted := by
              rw [q5.restricted, g4.restricted]; exact a5.restricted
            obtain ⟨k1, k2, k3⟩ := key
            have hto : Skips u (!l.restricted) l.cur l4.cur := by
              rw [q4]; exact skips_trans hsk hcs
            refine ⟨k1, ?_, ?_⟩
            · have e0 : l.codePtr ≤ l1.codePtr := a7
              have e1 : l4.codePtr ≤ l5.codePtr := k2
              have e2 : l3.codePtr = l1.codePtr + 1 := g3
              omega
            · rcases k3 with ⟨b1, b2, b3, b4, b5⟩ | ⟨b1, b2, b3, b4⟩ | ⟨ch, s, k0, t, rest', b1, b2, b3, b4⟩
              · exact Or.inl ⟨b1, by rw [← hres]; exact b2, b3,
                  skips_trans (by rw [← hres] at hto; simpa [show l4.restricted = true from b2] using hto) b4, b5⟩
              · exact Or.inr (Or.inl ⟨b1, b2, skips_trans hto (by rw [← hres]; exact b3), b4⟩)
              · exact Or.inr (Or.inr ⟨ch, s, k0, t, rest', b1, b2,
                  skips_trans hto (by rw [← hres]; exact b3), b4⟩)
        | tok k text rest =>
          rw [hb] at hleaves
          obtain ⟨l4, q1, q2, q3, q4, q5⟩ := at_skip code line0 l3 rest ha3 (by rw [g2]; exact hleaves)
          rw [g2] at q1
          simp only [q1]
          have hts : l4.tokenStart = l3.tokenStart := q5.tokenStart
          have hpl4 : Placed code line0 l4 := by
            constructor
            · rw [q5.tokenLine, q5.tokenStart, g4.tokenLine, g4.tokenStart]; exact hpl.1
            · rw [q5.tokenLinePtr, q5.tokenStart, g4.tokenLinePtr, g4.tokenStart]; exact hpl.2
          have hst4 : l4.stackToken = none := by
            rw [q5.stackToken, g4.stackToken]; simp only; rw [a5.stackToken]; exact hst
          have hle : l.codePtr ≤ l4.codePtr := by
            have e0 : l.codePtr ≤ l1.codePtr := a7
            have e2 : l3.codePtr = l1.codePtr + 1 := g3
            omega
          split
          · rename_i hcond
            exact ⟨⟨q2.place, q2.line, q2.last⟩, hle, Or.inr (Or.inr ⟨c, r, k, text, rest, h0, a2, hsk,
              by simp only; rw [hts]; exact hdrop, hb, q4, rfl, hpl4, Or.inr ⟨hcond.1, rfl, rfl⟩⟩)⟩
          · exact ⟨⟨q2.place, q2.line, q2.last⟩, hle, Or.inr (Or.inr ⟨c, r, k, text, rest, h0, a2, hsk,
              by simp only; rw [hts]; exact hdrop, hb, q4, rfl, hpl4, Or.inl ⟨rfl, hst4⟩⟩)⟩

end Verif.Lexer
