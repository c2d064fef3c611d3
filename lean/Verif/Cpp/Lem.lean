import Verif.Cpp.Spec
/-!
# C58: lemmas about the lexer
-/
namespace Verif.Cpp

/-! ## Characters -/

theorem decode_drop (t rest : Str) : decode (t ++ rest) t.length = decode rest 0 := by
  induction t with
  | nil => rfl
  | cons c t ih => simpa [decode] using ih

theorem decode_bytes (l : List Cp) (h : ∀ u ∈ l, u.2.length = trailing u.1) : decode (bytes l) 0 = l := by
  induction l with
  | nil => rfl
  | cons u l ih =>
    have hu := h u (by simp)
    have : bytes (u :: l) = u.1 :: (u.2 ++ bytes l) := by simp [bytes]
    rw [this, decode, ← hu, decode_drop, ih (fun v hv => h v (by simp [hv]))]
    simp

theorem trailing_lt (c : Char) (n : Nat) (h : c.toNat = n) : trailing c = trailing (Char.ofNat n) := by
  rw [← h, Char.ofNat_toNat]

theorem trailing_two : ∀ n, n < 0x100 → 0xc2 ≤ n → n < 0xe0 → trailing (Char.ofNat n) = 1 := by decide +kernel
theorem trailing_three : ∀ n, n < 0x100 → 0xe0 ≤ n → n < 0xf0 → trailing (Char.ofNat n) = 2 := by decide +kernel
theorem trailing_four : ∀ n, n < 0x100 → 0xf0 ≤ n → n < 0xf5 → trailing (Char.ofNat n) = 3 := by decide +kernel

theorem Utf8.length {u : Cp} (h : Utf8 u) : u.2.length = trailing u.1 := by
  rcases h.2 with ⟨h1, h2⟩ | ⟨h1, h2, h3⟩ | ⟨h1, h2, h3⟩ | ⟨h1, h2, h3⟩
  · unfold trailing
    rw [if_pos h1, h2]
  · rw [trailing_lt u.1 _ rfl, trailing_two _ (by omega) h1 h2, h3]
  · rw [trailing_lt u.1 _ rfl, trailing_three _ (by omega) h1 h2, h3]
  · rw [trailing_lt u.1 _ rfl, trailing_four _ (by omega) h1 h2, h3]

theorem input_bytes (l : List Cp) (h : ∀ u ∈ l, CpOk u) : input (bytes l) = ch '\n' :: l := by
  unfold input
  rw [decode_bytes l (fun u hu => (h u hu).1.length)]
  have : l.takeWhile (fun u => u.1 ≠ '\x00') = l := by
    induction l with
    | nil => rfl
    | cons a l ih =>
      rw [List.takeWhile_cons_of_pos (by simpa using (h a (by simp)).2), ih (fun u hu => h u (by simp [hu]))]
  rw [this]
  rfl

/-! ## How long things are -/

theorem dropWhile_length {α : Type} (f : α → Bool) (l : List α) : (l.dropWhile f).length ≤ l.length :=
  (List.dropWhile_sublist f).length_le

theorem untilEol_length (q : Option Char) : ∀ (l : List Cp) (e : Esc), (untilEol q e l).length ≤ l.length := by
  intro l
  induction l with
  | nil => intro e; cases e <;> simp [untilEol]
  | cons u r ih =>
    intro e
    have h1 := ih .no
    have h2 := ih .backslash
    have h3 := ih .space
    cases e <;> simp only [untilEol] <;> repeat (first | split | (simp only [List.length_cons]; omega))

theorem skip_length : ∀ (l : List Cp) (m : Mode) (nl : Bool), (skip m nl l).2.length ≤ l.length := by
  intro l
  induction l with
  | nil => intro m nl; cases m <;> simp [skip]
  | cons u r ih =>
    intro m nl
    have h : ∀ m nl, (skip m nl r).2.length ≤ (u :: r).length := fun m nl => by
      have := ih m nl; simp only [List.length_cons]; omega
    cases m with
    | ws e =>
      simp only [skip]
      repeat (first | exact h _ _ | exact Nat.le_refl _ | split)
    | line e =>
      cases e <;> simp only [skip] <;> repeat (first | exact h _ _ | split)
    | opened => simp only [skip]; exact h _ _
    | block s => simp only [skip]; split <;> exact h _ _

theorem rawBody_length (d : List Cp) : ∀ (l : List Cp) (st : Option (List Cp)), (rawBody d st l).length ≤ l.length := by
  intro l
  induction l with
  | nil => intro st; simp [rawBody]
  | cons u r ih =>
    intro st
    simp only [rawBody]
    by_cases h1 : u.1 = ')'
    · rw [if_pos h1]; have := ih (some d); simp only [List.length_cons]; omega
    rw [if_neg h1]
    by_cases h2 : u.1 = '"' ∧ st = some []
    · rw [if_pos h2]; simp
    · rw [if_neg h2]; refine Nat.le_trans (ih _) ?_; simp

theorem raw_length : ∀ (l d : List Cp), (raw d l).length ≤ l.length := by
  intro l
  induction l with
  | nil => intro d; simp [raw]
  | cons u r ih =>
    intro d
    simp only [raw]
    split
    · have := rawBody_length d r none; simp only [List.length_cons]; omega
    split
    · simp
    split
    · simp
    · have := ih (d ++ [u]); simp only [List.length_cons]; omega

theorem tail_length {α : Type} (l : List α) : l.tail.length ≤ l.length := by simp

theorem ops_pos : ∀ o ∈ ops, 0 < o.1.length := by decide

theorem lexOp_length (u : Cp) (r : List Cp) : (lexOp u r).2.length ≤ r.length := by
  unfold lexOp
  cases h : ops.find? (fun o => o.1.isPrefixOf ((u :: r).map (·.1))) with
  | none => simp
  | some o =>
    have := ops_pos o (List.mem_of_find?_eq_some h)
    simp only [List.length_drop, List.length_cons]
    omega

theorem afterExponent_length (r : List Cp) : (afterExponent r).length ≤ r.length := by
  unfold afterExponent
  split
  · split
    · exact Nat.le_trans (dropWhile_length _ _) (Nat.le_trans (tail_length _) (tail_length _))
    · exact Nat.le_trans (dropWhile_length _ _) (tail_length _)
  · exact dropWhile_length _ _

theorem number_length (u : Cp) (r : List Cp) : (number u r).length ≤ r.length := by
  unfold number
  split
  · exact dropWhile_length _ _
  · simp only
    split
    · exact Nat.le_trans (afterExponent_length _) (Nat.le_trans (dropWhile_length _ _)
        (Nat.le_trans (tail_length _) (dropWhile_length _ _)))
    · exact Nat.le_trans (afterExponent_length _) (dropWhile_length _ _)

theorem ident_length (f : Str → Bool) (u : Cp) (r : List Cp) : (ident f u r).2.length ≤ r.length :=
  dropWhile_length _ _

theorem prefixed_length (f : Str → Bool) (u : Cp) (r : List Cp) : (prefixed f u r).2.length ≤ r.length := by
  have t1 := tail_length r
  have t2 := tail_length r.tail
  have t3 := tail_length r.tail.tail
  have i := ident_length f u r
  have e := fun q (l : List Cp) => untilEol_length q l .no
  have w := fun (l : List Cp) => raw_length l []
  unfold prefixed
  split
  · split
    · exact Nat.le_trans (w _) t1
    · exact Nat.le_trans (e _ _) t1
  split
  · exact Nat.le_trans (e _ _) t1
  split
  · split
    · exact Nat.le_trans (w _) (Nat.le_trans t2 t1)
    · exact i
  split
  · split
    · exact Nat.le_trans (e _ _) (Nat.le_trans t2 t1)
    split
    · exact Nat.le_trans (e _ _) (Nat.le_trans t2 t1)
    split
    · exact Nat.le_trans (w _) (Nat.le_trans t3 (Nat.le_trans t2 t1))
    · exact i
  · exact i

theorem lexOne_length (f : Str → Bool) (a : Bool) (u : Cp) (r : List Cp) : (lexOne f a u r).2.length ≤ r.length := by
  unfold lexOne
  split
  · exact untilEol_length _ _ _
  split
  · exact untilEol_length _ _ _
  split
  · exact Nat.le_trans (afterExponent_length _) (dropWhile_length _ _)
  split
  · exact Nat.le_trans (tail_length _) (dropWhile_length _ _)
  split
  · split
    · exact tail_length _
    · exact Nat.le_refl _
  split
  · exact prefixed_length f u r
  split
  · exact number_length u r
  split
  · exact ident_length f u r
  · exact lexOp_length u r

/-! ## The scan ends -/

theorem scan_length (f : Str → Bool) (a : Bool) (s : List Cp) :
    ((scan f a s).1.kind = .eof → (scan f a s).2 = []) ∧
    ((scan f a s).2.length < s.length ∨ (scan f a s).1.kind = .eof) ∧ (scan f a s).2.length ≤ s.length := by
  unfold scan
  have h := skip_length s (.ws false) false
  rcases hk : skip (.ws false) false s with ⟨nl, x⟩
  rw [hk] at h
  simp only at h
  cases x with
  | nil => simp
  | cons u r =>
    simp only
    have hl := lexOne_length f a u r
    simp only [List.length_cons] at h
    refine ⟨?_, .inl (by omega), by omega⟩
    intro he
    exfalso
    revert he
    have hi : (ident f u r).1 ≠ .eof := by unfold ident; simp only; split <;> simp
    unfold lexOne
    have hp : (prefixed f u r).1 ≠ .eof := by
      unfold prefixed
      repeat (first | exact hi | exact Kind.noConfusion | split)
    have ho : (lexOp u r).1 ≠ .eof := by
      unfold lexOp
      cases hf : ops.find? (fun o => o.1.isPrefixOf ((u :: r).map (·.1))) with
      | none => simp
      | some o =>
        have : ∀ o ∈ ops, o.2 ≠ Kind.eof := by decide
        exact this o (List.mem_of_find?_eq_some hf)
    repeat (first | exact hi | exact hp | exact ho | exact Kind.noConfusion | split)

/-- How much is left -/
def left (s : St) : Nat := if s.tk.kind = .eof then 0 else s.rest.length + 1

/-- At the end, nothing is left. -/
def Inv (s : St) : Prop := s.tk.kind = .eof → s.rest = []

theorem step_spec (o : Opts) (s : St) (h : Inv s) : Inv (s.step o) ∧ left (s.step o) ≤ left s - 1 := by
  obtain ⟨h1, h2, h3⟩ := scan_length o.reserved false s.rest
  refine ⟨h1, ?_⟩
  unfold left St.step
  simp only
  by_cases he : s.tk.kind = .eof
  · have := h he
    rw [if_pos he]
    rw [this] at h2 ⊢
    rcases h2 with h2 | h2
    · simp at h2
    · rw [if_pos h2]; omega
  · rw [if_neg he]
    split
    · omega
    · rename_i hn
      rcases h2 with h2 | h2
      · omega
      · exact absurd h2 hn

theorem moduleName_spec (o : Opts) : ∀ (n : Nat) (s : St) (name : Str), Inv s → left s < n →
    ∃ name' s', moduleName o n s name = some (name', s') ∧ Inv s' ∧ left s' ≤ left s := by
  intro n
  induction n with
  | zero => intro s name _ h; omega
  | succ n ih =>
    intro s name hs hl
    unfold moduleName
    by_cases h : s.tk.kind = .eof ∨ s.tk.kind = .semicolon
    · rw [if_pos h]; exact ⟨_, _, rfl, hs, Nat.le_refl _⟩
    rw [if_neg h]
    have hne : s.tk.kind ≠ .eof := fun he => h (.inl he)
    have hpos : 0 < left s := by unfold left; rw [if_neg hne]; omega
    obtain ⟨i1, l1⟩ := step_spec o s hs
    obtain ⟨i2, l2⟩ := step_spec o (s.step o) i1
    simp only
    split
    · obtain ⟨a, b, h1, h2, h3⟩ := ih ((s.step o).step o) (name ++ '.' :: ((s.step o).step o).tk.text) i2 (by omega)
      exact ⟨a, b, h1, h2, by omega⟩
    split
    · exact ⟨_, _, rfl, i2, by omega⟩
    · obtain ⟨a, b, h1, h2, h3⟩ := ih (s.step o) name i1 (by omega)
      exact ⟨a, b, h1, h2, by omega⟩

theorem importName_spec (o : Opts) : ∀ (n : Nat) (s : St) (name : Str), Inv s → left s < n →
    ∃ name' s', importName o n s name = some (name', s') ∧ Inv s' ∧ left s' ≤ left s := by
  intro n
  induction n with
  | zero => intro s name _ h; omega
  | succ n ih =>
    intro s name hs hl
    unfold importName
    by_cases h : s.tk.kind = .eof ∨ s.tk.kind = .semicolon ∨ s.tk.kind = .greater
    · rw [if_pos h]; exact ⟨_, _, rfl, hs, Nat.le_refl _⟩
    rw [if_neg h]
    have hne : s.tk.kind ≠ .eof := fun he => h (.inl he)
    have hpos : 0 < left s := by unfold left; rw [if_neg hne]; omega
    obtain ⟨i1, l1⟩ := step_spec o s hs
    obtain ⟨i2, l2⟩ := step_spec o (s.step o) i1
    simp only
    split
    · obtain ⟨a, b, h1, h2, h3⟩ := ih ((s.step o).step o) (name ++ '.' :: ((s.step o).step o).tk.text) i2 (by omega)
      exact ⟨a, b, h1, h2, by omega⟩
    · obtain ⟨a, b, h1, h2, h3⟩ := ih (s.step o) name i1 (by omega)
      exact ⟨a, b, h1, h2, by omega⟩

theorem parseModule_spec (o : Opts) (n : Nat) (s : St) (res : Result) (hs : Inv s) (hl : left s < n) :
    ∃ s' res', parseModule o n s res = some (s', res') ∧ Inv s' ∧ left s' ≤ left s := by
  unfold parseModule
  obtain ⟨a, b, h1, h2, h3⟩ := moduleName_spec o n s s.tk.text hs hl
  rw [h1]
  exact ⟨_, _, rfl, h2, h3⟩

theorem parseImport_spec (o : Opts) (n : Nat) (s : St) (res : Result) (hs : Inv s) (hl : left s < n) :
    ∃ s' res', parseImport o n s res = some (s', res') ∧ Inv s' ∧ left s' ≤ left s := by
  unfold parseImport
  obtain ⟨i1, l1⟩ := step_spec o s hs
  by_cases hc : s.tk.kind = .colon
  · rw [if_pos hc]; exact ⟨_, _, rfl, i1, by omega⟩
  rw [if_neg hc]
  simp only
  have key : ∀ (g : Bool) (s1 : St), Inv s1 → left s1 ≤ left s → ∃ s' res',
      (if s1.tk.kind ≠ .ident then some (s1, res)
      else
        match importName o n s1 s1.tk.text with
        | none => none
        | some (name, s2) =>
          some (s2, { res with requiresModules :=
                        res.requiresModules ++ [if g = true then '<' :: name ++ ['>'] else name] })) =
        some (s', res') ∧ Inv s' ∧ left s' ≤ left s := by
    intro g s1 i l
    split
    · exact ⟨_, _, rfl, i, l⟩
    · obtain ⟨a, b, h1, h2, h3⟩ := importName_spec o n s1 s1.tk.text i (by omega)
      rw [h1]
      exact ⟨_, _, rfl, h2, by omega⟩
  by_cases hg : s.tk.kind = .less
  · simp only [if_pos hg]
    exact key true (s.step o) i1 (by omega)
  · simp only [if_neg hg]
    exact key false s hs (Nat.le_refl _)

theorem directive_spec (o : Opts) (s : St) (res : Result) (hs : Inv s) :
    Inv (directive o s res).1 ∧ left (directive o s res).1 ≤ left s := by
  obtain ⟨a1, a2, a3⟩ := scan_length o.reserved false s.rest
  obtain ⟨b1, b2, b3⟩ := scan_length o.reserved true (scan o.reserved false s.rest).2
  have hA : left ⟨s.old, (scan o.reserved false s.rest).1, (scan o.reserved false s.rest).2⟩ ≤ left s :=
    Nat.le_trans (step_spec o s hs).2 (Nat.sub_le _ _)
  have hB : left ⟨s.old, (scan o.reserved true (scan o.reserved false s.rest).2).1,
      (scan o.reserved true (scan o.reserved false s.rest).2).2⟩ ≤
      left ⟨s.old, (scan o.reserved false s.rest).1, (scan o.reserved false s.rest).2⟩ := by
    unfold left
    simp only
    split
    · omega
    · rename_i hn
      have hlt := b2.resolve_right hn
      split
      · rename_i he; rw [a1 he] at hlt; simp at hlt
      · omega
  unfold directive
  simp only
  split
  · split
    · exact ⟨b1, Nat.le_trans hB hA⟩
    · exact ⟨b1, Nat.le_trans hB hA⟩
  · exact ⟨a1, hA⟩

theorem rest_spec (o : Opts) (s : St) (res : Result) (hs : Inv s) :
    Inv (rest o s res).1 ∧ left (rest o s res).1 ≤ left s - 1 := by
  unfold rest
  split
  · obtain ⟨h1, h2⟩ := directive_spec o s res hs
    obtain ⟨h3, h4⟩ := step_spec o _ h1
    exact ⟨h3, Nat.le_trans h4 (Nat.sub_le_sub_right h2 1)⟩
  split
  · exact step_spec o s hs
  · exact step_spec o s hs

theorem loop_total (o : Opts) : ∀ (n : Nat) (s : St) (res : Result), Inv s → left s < n →
    ∃ res', loop o n s res = some res' := by
  intro n
  induction n with
  | zero => intro s res _ h; omega
  | succ n ih =>
    intro s res hs hl
    unfold loop
    by_cases he : s.tk.kind = .eof
    · rw [if_pos he]; exact ⟨_, rfl⟩
    rw [if_neg he]
    have hpos : 0 < left s := by unfold left; rw [if_neg he]; omega
    obtain ⟨i1, l1⟩ := step_spec o s hs
    obtain ⟨i2, l2⟩ := step_spec o (s.step o) i1
    have hrest : ∀ s1, Inv s1 → left s1 ≤ left s → ∃ res',
        (if (rest o s1 res).2.2 = true then some (rest o s1 res).2.1 else loop o n (rest o s1 res).1 (rest o s1 res).2.1) =
          some res' := by
      intro s1 i l
      split
      · exact ⟨_, rfl⟩
      · obtain ⟨h1, h2⟩ := rest_spec o s1 res i
        exact ih _ _ h1 (by omega)
    split
    · simp only
      split
      · split
        · obtain ⟨s2, r2, h1, h2, h3⟩ := parseModule_spec o n (s.step o) res i1 (by omega)
          rw [h1]
          exact ih _ _ h2 (by omega)
        · exact ih _ _ i1 (by omega)
      split
      · obtain ⟨s2, r2, h1, h2, h3⟩ := parseImport_spec o n (s.step o) res i1 (by omega)
        rw [h1]
        exact ih _ _ h2 (by omega)
      split
      · obtain ⟨s2, r2, h1, h2, h3⟩ := parseModule_spec o n ((s.step o).step o) res i2 (by omega)
        rw [h1]
        exact ih _ _ h2 (by omega)
      split
      · obtain ⟨s2, r2, h1, h2, h3⟩ := parseImport_spec o n ((s.step o).step o) res i2 (by omega)
        rw [h1]
        exact ih _ _ h2 (by omega)
      · exact hrest _ i1 (by omega)
    · exact hrest s hs (Nat.le_refl _)

theorem scanFile_total (o : Opts) (content : Str) : ∃ res, scanFile o content = some res := by
  unfold scanFile
  simp only
  obtain ⟨h1, h2, h3⟩ := scan_length o.reserved false (input (stripBom content))
  refine loop_total o _ _ _ h1 ?_
  unfold left
  simp only
  split <;> omega

end Verif.Cpp
