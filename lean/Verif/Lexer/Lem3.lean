import Verif.Lexer.Lem2
/-!
# White space, comments and one token
-/
namespace Verif.Lexer

theorem skips_trans {u : Uni} {nl : Bool} {a b c : Str} (h : Skips u nl a b)
    (k : Skips u nl b c) : Skips u nl a c := by
  induction h with
  | done r => exact k
  | space d s r hs hn _ ih => exact .space d s c hs hn (ih k)
  | line body s r h1 h2 _ ih => exact .line body s c h1 h2 (ih k)
  | block body s r h1 h2 _ ih => exact .block body s c h1 h2 (ih k)

theorem skips_true {u : Uni} {nl : Bool} {a b : Str} (h : Skips u nl a b) : Skips u true a b := by
  induction h with
  | done r => exact .done r
  | space d s r hs hn _ ih => exact .space d s r hs (fun _ => rfl) ih
  | line body s r h1 h2 _ ih => exact .line body s r h1 h2 ih
  | block body s r h1 h2 _ ih => exact .block body s r h1 h2 ih

/-- The newline that is not in the text does not count. -/
theorem skips_virtual {u : Uni} {nl : Bool} {s r : Str} (h : Skips u nl ('\n' :: s) r)
    (hr : hd r ≠ '\n') : Skips u nl s r := by
  generalize ht : '\n' :: s = t at h
  cases h with
  | done => subst ht; exact absurd rfl hr
  | space c s' _ _ _ h => cases ht; exact h
  | line body s' _ _ _ _ => cases ht
  | block body s' _ _ _ _ => cases ht

theorem at_len (code : Str) (line0 : Nat) (l : Lx) (h : At code line0 l) :
    l.codePtr + l.cur.length = code.length + 1 := by
  rcases h.place with ⟨h1, h2⟩ | ⟨h1, h2, h3⟩
  · rw [h1, h2]; simp
  · rw [h3]; simp; omega

/-- Members of the state that white space does not change. -/
structure Same (l l' : Lx) : Prop where
  stackToken : l'.stackToken = l.stackToken
  restricted : l'.restricted = l.restricted
  delimited : l'.delimited = l.delimited
  tokenKind : l'.tokenKind = l.tokenKind
  comments : l'.comments = l.comments

theorem Same.trans {a b c : Lx} (h : Same a b) (k : Same b c) : Same a c :=
  ⟨k.1.trans h.1, k.2.trans h.2, k.3.trans h.3, k.4.trans h.4, k.5.trans h.5⟩

theorem sync_same (l : Lx) : Same l (sync l) ∧ (sync l).cur = l.cur ∧
    (sync l).codePtr = l.codePtr ∧ (sync l).line = l.line ∧ (sync l).lastLinePtr = l.lastLinePtr ∧
    (sync l).tokenLinePtr = l.tokenLinePtr ∧ (sync l).tokenText = l.tokenText := by
  unfold sync
  split <;> exact ⟨⟨rfl, rfl, rfl, rfl, rfl⟩, rfl, rfl, rfl, rfl, rfl, rfl⟩

theorem Keep.same {l l' : Lx} (h : Keep l l') : Same l l' :=
  ⟨h.stackToken, h.restricted, h.delimited, h.tokenKind, h.comments⟩

theorem hd_newline {s : Str} (h : hd s = '\n') : ∃ r, s = '\n' :: r := by
  cases s with
  | nil => cases h
  | cons c r => exact ⟨r, by rw [← show c = '\n' from h]⟩

theorem at_newline (code : Str) (line0 : Nat) (l : Lx) (h : At code line0 l)
    (hn : hd l.cur = '\n') : l.lastLinePtr = l.codePtr := by
  rw [h.last]
  rcases h.place with ⟨h1, _⟩ | ⟨h1, h2, h3⟩
  · simp [h1, lineStart]
  · obtain ⟨r, hr⟩ := hd_newline hn
    rw [h3] at hr
    have := lineStart_newline code (l.codePtr - 1) r hr
    have he : l.codePtr - 1 + 1 = l.codePtr := by omega
    rwa [he] at this

/-- What is known after white space. -/
def SpacesOk (u : Uni) (code : Str) (line0 : Nat) (l : Lx) : Spaces → Prop
  | .oob => False
  | .semi l1 => At code line0 l1 ∧ l.restricted = true ∧ hd l1.cur = '\n' ∧ Skips u false l.cur l1.cur ∧
      l1.tokenStart = l1.codePtr - 1 ∧ l1.tokenLinePtr = l1.codePtr ∧ l1.tokenLine = l1.line ∧
      Same l l1 ∧ l1.tokenText = l.tokenText ∧ l.codePtr ≤ l1.codePtr
  | .done l1 => At code line0 l1 ∧ u.isSpace (hd l1.cur) = false ∧ Skips u (!l.restricted) l.cur l1.cur ∧
      l1.tokenLinePtr = l1.lastLinePtr ∧ Same l l1 ∧ l1.tokenText = l.tokenText ∧
      l.codePtr ≤ l1.codePtr

theorem spaces_ok (u : Uni) (hu : UniOk u) (code : Str) (line0 : Nat) : ∀ (n : Nat) (l : Lx),
    At code line0 l → l.cur.length < n → (hd l.cur ≠ '\n' → l.tokenLinePtr = l.lastLinePtr) →
    SpacesOk u code line0 l (spaces u n l) := by
  intro n
  induction n with
  | zero => intro l _ h; omega
  | succ n ih =>
    intro l ha hn ht
    have next : ∀ l0 l1 : Lx, At code line0 l0 → Same l l0 → l0.cur = l.cur →
        l0.tokenText = l.tokenText → l0.codePtr = l.codePtr →
        l0.tokenLinePtr = l0.lastLinePtr → u.isSpace (hd l.cur) = true →
        (hd l.cur = '\n' → l.restricted = false) → scanChar l0 = some l1 → SpacesOk u code line0 l (spaces u n l1) := by
      intro l0 l1 ha0 hs0 hc0 ht0 hp0 htl hsp hrn h1
      obtain ⟨ha1, hp1, hc1, hl1⟩ := at_scanChar code line0 l0 l1 ha0 h1
      cases hc : l0.cur with
      | nil => simp [scanChar, hc] at h1
      | cons c r =>
        obtain ⟨l2, g1, g2, g3, g4⟩ := scanChar_some l0 c r hc
        rw [h1] at g1; cases g1
        have hlp : hd l1.cur ≠ '\n' → l1.tokenLinePtr = l1.lastLinePtr := by
          intro hne
          rw [g4.tokenLinePtr, htl, ha0.last, ha1.last, hp1]
          rw [hc1] at hne
          exact (lineStart_other code _ hne).symm
        have hres := ih l1 ha1 (by rw [← hc0] at hn; omega) hlp
        have hsk : ∀ nl r', (hd l.cur = '\n' → nl = true) → Skips u nl l1.cur r' →
            Skips u nl l.cur r' := by
          intro nl r' hn h
          rw [← hc0, hc] at hsp hn
          rw [← hc0, hc, ← g2]
          exact .space c l1.cur r' hsp hn h
        have hsame : Same l l1 := hs0.trans g4.same
        have htx : l1.tokenText = l.tokenText := g4.tokenText.trans ht0
        cases hsp1 : spaces u n l1 with
        | oob => rw [hsp1] at hres; exact hres
        | semi l3 =>
          rw [hsp1] at hres
          obtain ⟨a1, a2, a3, a4, a5, a6, a7, a8, a9, a10⟩ := hres
          have hr' : l.restricted = true := by rw [← hsame.restricted]; exact a2
          exact ⟨a1, hr', a3, hsk _ _ (fun h => by rw [hrn h] at hr'; cases hr') a4, a5, a6, a7,
            hsame.trans a8, a9.trans htx, by omega⟩
        | done l3 =>
          rw [hsp1] at hres
          obtain ⟨a1, a2, a3, a4, a5, a6, a7⟩ := hres
          rw [hsame.restricted] at a3
          exact ⟨a1, a2, hsk _ _ (fun h => by rw [hrn h]; rfl) a3, a4, hsame.trans a5, a6.trans htx, by omega⟩
    unfold spaces
    by_cases hsp : u.isSpace (hd l.cur) = true
    · rw [if_pos hsp]
      have hne : l.cur ≠ [] := by
        intro h; rw [h] at hsp; simp [hd, hu.nulNoSpace] at hsp
      obtain ⟨c, r, hc⟩ := List.exists_cons_of_ne_nil hne
      by_cases hnl : hd l.cur = '\n'
      · rw [if_pos hnl]
        by_cases hr : l.restricted = true
        · rw [if_pos hr]
          exact ⟨⟨ha.place, ha.line, ha.last⟩, hr, hnl, .done _, rfl, rfl, rfl,
            ⟨rfl, rfl, rfl, rfl, rfl⟩, rfl, Nat.le_refl _⟩
        · rw [if_neg hr]
          obtain ⟨s1, s2, s3, s4, s5, s6, s7⟩ :=
            sync_same { l with tokenLinePtr := l.codePtr, terminator := true }
          have ha0 : At code line0 (sync { l with tokenLinePtr := l.codePtr, terminator := true }) := by
            refine ⟨?_, ?_, ?_⟩
            · rw [s2, s3]; exact ha.place
            · rw [s3, s4]; exact ha.line
            · rw [s3, s5]; exact ha.last
          obtain ⟨l1, h1, _⟩ := scanChar_some _ c r (s2.trans hc)
          rw [h1]
          exact next _ l1 ha0 ⟨s1.1, s1.2, s1.3, s1.4, s1.5⟩ s2 s7 s3
            (by rw [s6, s5]; exact (at_newline code line0 l ha hnl).symm) hsp
            (fun _ => by simpa using hr) h1
      · rw [if_neg hnl]
        obtain ⟨l1, h1, _⟩ := scanChar_some l c r hc
        rw [h1]
        exact next l l1 ha ⟨rfl, rfl, rfl, rfl, rfl⟩ rfl rfl rfl (ht hnl) hsp
          (fun h => absurd h hnl) h1
    · rw [if_neg hsp]
      refine ⟨ha, by simpa using hsp, .done _, ht ?_, ⟨rfl, rfl, rfl, rfl, rfl⟩, rfl,
        Nat.le_refl _⟩
      intro h; rw [h, hu.newline] at hsp; exact hsp rfl

/-! ### Comments -/

theorem lineComment_spec : ∀ s, ∃ b, s = b ++ lineComment s ∧ (∀ c ∈ b, c ≠ '\n' ∧ c ≠ nul) ∧
    (lineComment s = [] ∨ (lineComment s).head? = some '\n' ∨ (lineComment s).head? = some nul) := by
  intro s
  induction s with
  | nil => exact ⟨[], rfl, by simp, Or.inl rfl⟩
  | cons c r ih =>
    obtain ⟨b, h1, h2, h3⟩ := ih
    simp only [lineComment]
    by_cases hc : c ≠ nul ∧ c ≠ '\n'
    · rw [if_pos hc]
      refine ⟨c :: b, by rw [List.cons_append, ← h1], ?_, h3⟩
      intro d hd
      rcases List.mem_cons.1 hd with rfl | hd
      · exact ⟨hc.2, hc.1⟩
      · exact h2 d hd
    · rw [if_neg hc]
      refine ⟨[], rfl, by simp, ?_⟩
      simp only [List.head?_cons, Option.some.injEq]
      by_cases h0 : c = nul
      · exact Or.inr (Or.inr h0)
      · by_cases h1 : c = '\n'
        · exact Or.inr (Or.inl h1)
        · exact absurd ⟨h0, h1⟩ hc

theorem blockComment_spec : ∀ s r, blockComment s = (true, r) →
    ∃ b, s = b ++ '*' :: '/' :: r ∧ (∀ c ∈ b, c ≠ nul) ∧
      ∀ p q, b ++ ['*', '/'] = p ++ '*' :: '/' :: q → q = [] := by
  intro s
  fun_induction blockComment s
  case case1 => intro r h; cases h
  case case2 => intro r h; cases h
  case case3 r' _ =>
    intro r h
    cases h
    refine ⟨[], rfl, by simp, ?_⟩
    intro p q h
    cases p with
    | nil => simp at h; exact h
    | cons x p =>
      simp at h
      have := congrArg List.length h.2
      simp at this
      omega
  case case4 s' h0 hs ih =>
    intro r h
    obtain ⟨b, h1, h2, h3⟩ := ih r h
    refine ⟨'*' :: b, by rw [h1]; rfl, ?_, ?_⟩
    · intro c hc
      rcases List.mem_cons.1 hc with rfl | hc
      · decide
      · exact h2 c hc
    · intro p q he
      cases p with
      | nil =>
        exfalso
        simp at he
        cases b with
        | nil => simp at he
        | cons x b =>
          simp at he
          rw [he.1] at h1
          exact h0 _ h1
      | cons x p =>
        simp at he
        exact h3 p q he.2
  case case5 c s' h0 hs ih =>
    intro r h
    obtain ⟨b, h1, h2, h3⟩ := ih r h
    refine ⟨c :: b, by rw [h1]; rfl, ?_, ?_⟩
    · intro d hd
      rcases List.mem_cons.1 hd with rfl | hd
      · exact h0
      · exact h2 d hd
    · intro p q he
      cases p with
      | nil => simp at he; exact absurd he.1 hs
      | cons x p =>
        simp at he
        exact h3 p q he.2

/-- A token that was read as a comment is one. -/
theorem body_comment (u : Uni) (qml : Bool) (ch : Char) (s : Str) (n : Nat) (r : Str)
    (nl : Bool) (h : body u qml ch s = .comment n r) : Skips u nl (ch :: s) r := by
  have hstr : ∀ q, scanString u q s ≠ .comment n r := by
    intro q hq
    unfold scanString at hq
    simp only at hq
    split at hq
    · cases hq
    · have : ∀ k multi acc s, strLoop u q k multi acc s ≠ .comment n r := by
        intro k
        induction k with
        | zero => intro _ _ _ h; cases h
        | succ k ih =>
          intro multi acc s h
          unfold strLoop at h
          split at h
          · cases h
          · split at h
            · cases h
            split at h
            · exact ih _ _ _ h
            split at h
            · cases h
            split at h
            · split at h
              · cases h
              · exact ih _ _ _ h
            · exact ih _ _ _ h
      exact this _ _ _ _ hq
  have hdec : ∀ a b, decimal u a b ≠ .comment n r := by
    intro a b h; unfold decimal at h; split at h <;> cases h
  have hnum : scanNumber u ch s ≠ .comment n r := by
    intro h
    unfold scanNumber at h
    simp only at h
    split at h
    · cases h
    split at h
    · cases h
    split at h
    · exact hdec _ _ h
    · split at h
      · cases h
      · exact hdec _ _ h
  have hend : ∀ esc t x, identLoop.endOfWord qml esc t x ≠ .comment n r := by
    intro esc t x h
    unfold identLoop.endOfWord at h
    split at h
    · cases h
    · split at h <;> cases h
  have hid : ∀ esc t x, identLoop u qml esc t x ≠ .comment n r := by
    intro esc t x
    fun_induction identLoop u qml esc t x
    case case1 => intro h; cases h
    case case2 => rename_i ih; exact ih
    case case3 => intro h; cases h
    case case4 => intro h; cases h
    case case5 => exact hend _ _ _
    case case6 => rename_i ih; exact ih
    case case7 => exact hend _ _ _
  have hw : scanWord u qml ch s ≠ .comment n r := by
    intro h
    unfold scanWord at h
    split at h
    · split at h
      · exact hid _ _ _ h
      · cases h
    · exact hid _ _ _ h
  unfold body at h
  simp only at h
  split at h <;> (repeat' split at h) <;>
    first
    | cases h; done
    | exact absurd h (hstr _)
    | exact absurd h hnum
    | exact absurd h hw
    | exact absurd h (hdec _ _)
    | (rename_i s' r' he
       cases h
       obtain ⟨b, h1, h2, h3⟩ := blockComment_spec _ _ he
       rw [h1]
       exact .block b _ _ h2 h3 (.done _))
    | (rename_i s'
       cases h
       obtain ⟨b, h1, h2, h3⟩ := lineComment_spec ('/' :: s')
       have hl : lineComment ('/' :: s') = lineComment s' := by
         simp only [lineComment]; rw [if_pos (by decide)]
       rw [hl] at h1 h3 ⊢
       cases b with
       | nil =>
         exfalso
         have := (lineComment_suffix s').length_le
         have h4 := congrArg List.length h1
         simp at h4
         omega
       | cons x b =>
         simp at h1
         obtain ⟨rfl, h1⟩ := h1
         have := Skips.line (u := u) (nl := nl) b (lineComment s') _ (fun c hc => h2 c (by simp [hc])) h3
           (.done _)
         rw [List.cons_append, List.cons_append, ← h1] at this
         exact this)

end Verif.Lexer
