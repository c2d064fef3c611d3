import Verif.Read.LemChain

namespace Verif.Read

/-! ### Which errors come from where -/

mutual
/-- An error that the item itself does not cause comes from a file that it uses. -/
theorem readObj_error (w : World) (rf : File → Except Err Item) (f : File) (e : Err)
    (he : e = .fuel ∨ e = .loop) : ∀ (o : Obj), readObj w rf f o = .error e →
    ∃ t ∈ o.types, ∃ g, w.typeFile f t = some g ∧ rf g = .error e
  | .mk type ms, h => by
    rw [readObj] at h
    cases hb : baseOf w rf f type with
    | error e' =>
      rw [hb] at h
      cases h
      unfold baseOf at hb
      cases ht : w.typeFile f type with
      | some g =>
        rw [ht] at hb
        simp only at hb
        cases hr : rf g with
        | error e'' =>
          rw [hr] at hb
          cases hb
          exact ⟨type, by simp [Obj.types], g, ht, hr⟩
        | ok i => rw [hr] at hb; cases hb
      | none =>
        rw [ht] at hb
        simp only at hb
        match type with
        | [] => simp at hb; subst hb; rcases he with h | h <;> cases h
        | _ :: _ :: _ => simp at hb; subst hb; rcases he with h | h <;> cases h
        | [nm] =>
          simp only at hb
          cases hk : w.builtin nm with
          | none => rw [hk] at hb; cases hb; rcases he with h | h <;> cases h
          | some k => rw [hk] at hb; cases hb
    | ok b =>
      rw [hb] at h
      simp only at h
      cases ho : readMembers w rf f {} ms with
      | error e' =>
        rw [ho] at h
        cases h
        obtain ⟨t, ht, g, hg⟩ := readMembers_error w rf f e he ms {} ho
        exact ⟨t, by rw [Obj.types]; exact List.mem_cons_of_mem _ ht, g, hg⟩
      | ok own =>
        rw [ho] at h
        simp only at h
        exfalso
        cases b with
        | inr k => cases h
        | inl base =>
          rw [finish] at h
          unfold inherit at h
          cases hd : inheritDecls own base.decls with
          | error e' =>
            rw [hd] at h
            cases h
            have : ∀ (l : List (Name × Decl)), inheritDecls own l = .error e → e = .readOnly := by
              intro l
              induction l with
              | nil => intro h; cases h
              | cons x l ih =>
                obtain ⟨n, d⟩ := x
                intro h
                rw [inheritDecls] at h
                by_cases hr : (d.readOnly && hasOwn own.props [n]) = true
                · rw [if_pos hr] at h; cases h; rfl
                · rw [if_neg hr] at h
                  cases h1 : inheritDecls own l with
                  | error e'' => rw [h1] at h; cases h; exact ih h1
                  | ok r => rw [h1] at h; cases h
            have := this _ hd
            subst this
            rcases he with h | h <;> cases h
          | ok d =>
            rw [hd] at h
            simp only at h
            cases hp : inheritProps own.props base.props with
            | error e' =>
              rw [hp] at h
              cases h
              have : ∀ (l d : Props), inheritProps d l = .error e → e = .nonItem := by
                intro l
                induction l with
                | nil => intro d h; cases h
                | cons x l ih =>
                  obtain ⟨q, v⟩ := x
                  intro d h
                  rw [inheritProps] at h
                  cases h1 : inheritProp d q v with
                  | error e'' =>
                    rw [h1] at h
                    cases h
                    unfold inheritProp at h1
                    split at h1
                    · cases h1
                    · split at h1
                      · cases h1
                      · split at h1
                        · cases h1; rfl
                        · cases h1
                  | ok d' => rw [h1] at h; exact ih _ h
              have := this _ _ hp
              subst this
              rcases he with h | h <;> cases h
            | ok p => rw [hp] at h; cases h
theorem readMembers_error (w : World) (rf : File → Except Err Item) (f : File) (e : Err)
    (he : e = .fuel ∨ e = .loop) : ∀ (ms : Members) (own : Own), readMembers w rf f own ms = .error e →
    ∃ t ∈ ms.types, ∃ g, w.typeFile f t = some g ∧ rf g = .error e
  | .nil, own, h => by rw [readMembers] at h; cases h
  | .decl n d rhs ms, own, h => by
    rw [readMembers] at h
    rw [Members.types]
    cases hd : addDecl own n d rhs with
    | ok own1 => rw [hd] at h; exact readMembers_error w rf f e he ms own1 h
    | error e' =>
      rw [hd] at h
      cases h
      exfalso
      unfold addDecl at hd
      cases rhs with
      | none => cases hd
      | some c =>
        simp only at hd
        split at hd
        · cases hd; rcases he with h | h <;> cases h
        · cases hd
  | .bind q c ms, own, h => by
    rw [readMembers] at h
    rw [Members.types]
    cases hd : addBinding own q c with
    | ok own1 => rw [hd] at h; exact readMembers_error w rf f e he ms own1 h
    | error e' =>
      rw [hd] at h
      cases h
      exfalso
      unfold addBinding at hd
      split at hd
      · cases hd; rcases he with h | h <;> cases h
      · split at hd
        · cases hd; rcases he with h | h <;> cases h
        · cases hd
  | .child o ms, own, h => by
    rw [readMembers] at h
    rw [Members.types]
    cases hd : readObj w rf f o with
    | error e' =>
      rw [hd] at h
      cases h
      obtain ⟨t, ht, g, hg⟩ := readObj_error w rf f e he o hd
      exact ⟨t, List.mem_append_left _ ht, g, hg⟩
    | ok i =>
      rw [hd] at h
      obtain ⟨t, ht, g, hg⟩ := readMembers_error w rf f e he ms _ h
      exact ⟨t, List.mem_append_right _ ht, g, hg⟩
end

mutual
/-- If an item is read, all the files it uses are. -/
theorem readObj_uses (w : World) (rf : File → Except Err Item) (f : File) : ∀ (o : Obj) (i : Item),
    readObj w rf f o = .ok i → ∀ t ∈ o.types, ∀ g, w.typeFile f t = some g → ∃ j, rf g = .ok j
  | .mk type ms, i, h, t, ht, g, hg => by
    obtain ⟨own, b, hb, hm, _⟩ := readObj_cases h
    rw [Obj.types] at ht
    rcases List.mem_cons.1 ht with e | e
    · subst e
      obtain ⟨j, hj, _⟩ := baseOf_file hb hg
      exact ⟨j, hj⟩
    · exact readMembers_uses w rf f ms {} own hm t e g hg
theorem readMembers_uses (w : World) (rf : File → Except Err Item) (f : File) : ∀ (ms : Members) (own own' : Own),
    readMembers w rf f own ms = .ok own' → ∀ t ∈ ms.types, ∀ g, w.typeFile f t = some g → ∃ j, rf g = .ok j
  | .nil, own, own', h, t, ht, g, hg => by simp [Members.types] at ht
  | .decl n d rhs ms, own, own', h, t, ht, g, hg => by
    rw [readMembers] at h
    rw [Members.types] at ht
    cases hd : addDecl own n d rhs with
    | ok own1 => rw [hd] at h; exact readMembers_uses w rf f ms own1 own' h t ht g hg
    | error e' => rw [hd] at h; cases h
  | .bind q c ms, own, own', h, t, ht, g, hg => by
    rw [readMembers] at h
    rw [Members.types] at ht
    cases hd : addBinding own q c with
    | ok own1 => rw [hd] at h; exact readMembers_uses w rf f ms own1 own' h t ht g hg
    | error e' => rw [hd] at h; cases h
  | .child o ms, own, own', h, t, ht, g, hg => by
    rw [readMembers] at h
    rw [Members.types] at ht
    cases hd : readObj w rf f o with
    | error e' => rw [hd] at h; cases h
    | ok i =>
      rw [hd] at h
      rcases List.mem_append.1 ht with e | e
      · exact readObj_uses w rf f o i hd t e g hg
      · exact readMembers_uses w rf f ms _ own' h t e g hg
end

mutual
/-- Another way to read the other files does not matter if it gives the same. -/
theorem readObj_congr (w : World) (rf rf' : File → Except Err Item) (f : File)
    (hrf : ∀ g, rf g ≠ .error .fuel → rf' g = rf g) : ∀ (o : Obj), readObj w rf f o ≠ .error .fuel →
    readObj w rf' f o = readObj w rf f o
  | .mk type ms, h => by
    rw [readObj] at h
    rw [readObj, readObj]
    have hb : baseOf w rf f type ≠ .error .fuel := by
      intro hb; rw [hb] at h; exact h rfl
    have hb' : baseOf w rf' f type = baseOf w rf f type := by
      unfold baseOf at hb ⊢
      cases ht : w.typeFile f type with
      | none => rfl
      | some g =>
        rw [ht] at hb
        simp only at hb ⊢
        rw [hrf g ?_]
        intro hr
        rw [hr] at hb
        exact hb rfl
    rw [hb']
    cases hb2 : baseOf w rf f type with
    | error e => rfl
    | ok b =>
      rw [hb2] at h
      simp only at h ⊢
      rw [readMembers_congr w rf rf' f hrf ms {} ?_]
      intro hm
      rw [hm] at h
      exact h rfl
theorem readMembers_congr (w : World) (rf rf' : File → Except Err Item) (f : File)
    (hrf : ∀ g, rf g ≠ .error .fuel → rf' g = rf g) : ∀ (ms : Members) (own : Own),
    readMembers w rf f own ms ≠ .error .fuel → readMembers w rf' f own ms = readMembers w rf f own ms
  | .nil, own, h => by rw [readMembers, readMembers]
  | .decl n d rhs ms, own, h => by
    rw [readMembers] at h
    rw [readMembers, readMembers]
    cases hd : addDecl own n d rhs with
    | ok own1 => rw [hd] at h; exact readMembers_congr w rf rf' f hrf ms own1 h
    | error e' => rfl
  | .bind q c ms, own, h => by
    rw [readMembers] at h
    rw [readMembers, readMembers]
    cases hd : addBinding own q c with
    | ok own1 => rw [hd] at h; exact readMembers_congr w rf rf' f hrf ms own1 h
    | error e' => rfl
  | .child o ms, own, h => by
    rw [readMembers] at h
    rw [readMembers, readMembers]
    have ho : readObj w rf f o ≠ .error .fuel := by
      intro hb; rw [hb] at h; exact h rfl
    rw [readObj_congr w rf rf' f hrf o ho]
    cases hd : readObj w rf f o with
    | error e' => rfl
    | ok i =>
      rw [hd] at h
      exact readMembers_congr w rf rf' f hrf ms _ h
end

theorem readFile_mono (w : World) : ∀ n stack f, readFile w n stack f ≠ .error .fuel →
    readFile w (n + 1) stack f = readFile w n stack f
  | 0, _, _, h => by exact absurd rfl h
  | n + 1, stack, f, h => by
    rw [readFile] at h
    rw [readFile, readFile]
    cases hc : w.content f with
    | none => rfl
    | some o =>
      rw [hc] at h
      simp only at h ⊢
      by_cases hs : f ∈ stack
      · rw [if_pos hs, if_pos hs]
      · rw [if_neg hs] at h
        rw [if_neg hs, if_neg hs]
        rw [readObj_congr w (readFile w n (f :: stack)) (readFile w (n + 1) (f :: stack)) f
          (fun g hg => readFile_mono w n (f :: stack) g hg) o]
        intro hr
        rw [hr] at h
        exact h rfl

theorem readFile_mono_add (w : World) (n : Nat) (stack : List File) (f : File)
    (h : readFile w n stack f ≠ .error .fuel) : ∀ d, readFile w (n + d) stack f = readFile w n stack f
  | 0 => rfl
  | d + 1 => by
    have ih := readFile_mono_add w n stack f h d
    rw [← Nat.add_assoc, readFile_mono w (n + d) stack f (by rw [ih]; exact h), ih]

theorem nodup_subset_length : ∀ (l m : List File), l.Nodup → (∀ x ∈ l, x ∈ m) → l.length ≤ m.length
  | [], _, _, _ => by simp
  | a :: l, m, h, hs => by
    have ha := hs a List.mem_cons_self
    have h' := List.nodup_cons.1 h
    have := nodup_subset_length l (m.erase a) h'.2 (fun x hx =>
      (List.mem_erase_of_ne (fun (e : x = a) => h'.1 (e ▸ hx))).2 (hs x (List.mem_cons_of_mem _ hx)))
    rw [List.length_erase_of_mem ha] at this
    have := List.length_pos_of_mem ha
    simp only [List.length_cons]
    omega

/-- Finitely many files are enough. -/
theorem readFile_fuel (w : World) (F : List File) (hF : ∀ f ∈ F, ∀ g, Uses w f g → g ∈ F) :
    ∀ n stack f, f ∈ F → stack.Nodup → (∀ x ∈ stack, x ∈ F) → F.length < n + stack.length →
      readFile w n stack f ≠ .error .fuel
  | 0, stack, f, hf, hn, hs, hl => by
    have := nodup_subset_length stack F hn hs
    omega
  | n + 1, stack, f, hf, hn, hs, hl => by
    intro h
    rw [readFile] at h
    cases hc : w.content f with
    | none => rw [hc] at h; cases h
    | some o =>
      rw [hc] at h
      simp only at h
      by_cases hst : f ∈ stack
      · rw [if_pos hst] at h; cases h
      · rw [if_neg hst] at h
        cases hr : readObj w (readFile w n (f :: stack)) f o with
        | ok i =>
          rw [hr] at h
          simp only at h
          split at h <;> cases h
        | error e =>
          rw [hr] at h
          cases h
          obtain ⟨t, ht, g, hg, hrg⟩ := readObj_error w _ f _ (Or.inl rfl) o hr
          refine readFile_fuel w F hF n (f :: stack) g (hF f hf g ⟨o, hc, t, ht, hg⟩)
            (List.nodup_cons.2 ⟨hst, hn⟩) ?_ ?_ hrg
          · intro x hx
            rcases List.mem_cons.1 hx with e | e
            · subst e; exact hf
            · exact hs x e
          · simp only [List.length_cons]
            omega

/-! ### Loops -/

theorem needs_trans {w : World} {f g h : File} (h1 : Needs w f g) (h2 : Needs w g h) : Needs w f h := by
  induction h1 with
  | one f g u => exact .more f g h u h2
  | more f g k u r ih => exact .more f g h u (ih h2)

theorem loop_sound (w : World) : ∀ n stack f, (∀ s ∈ stack, Needs w s f) →
    readFile w n stack f = .error .loop → ∃ h, (h = f ∨ Needs w f h) ∧ Needs w h h
  | 0, _, _, _, h => by cases h
  | n + 1, stack, f, hst, h => by
    rw [readFile] at h
    cases hc : w.content f with
    | none => rw [hc] at h; cases h
    | some o =>
      rw [hc] at h
      simp only at h
      by_cases hs : f ∈ stack
      · exact ⟨f, Or.inl rfl, hst f hs⟩
      · rw [if_neg hs] at h
        cases hr : readObj w (readFile w n (f :: stack)) f o with
        | ok i =>
          rw [hr] at h
          simp only at h
          split at h <;> cases h
        | error e =>
          rw [hr] at h
          cases h
          obtain ⟨t, ht, g, hg, hrg⟩ := readObj_error w _ f _ (Or.inr rfl) o hr
          have hu : Uses w f g := ⟨o, hc, t, ht, hg⟩
          obtain ⟨h', hh, hc'⟩ := loop_sound w n (f :: stack) g (by
            intro s hs'
            rcases List.mem_cons.1 hs' with e | e
            · subst e; exact .one _ _ hu
            · exact needs_trans (hst s e) (.one _ _ hu)) hrg
          refine ⟨h', Or.inr ?_, hc'⟩
          rcases hh with rfl | hh
          · exact .one _ _ hu
          · exact .more _ _ _ hu hh

/-- Everything a file needs has been read, with the file on the stack. -/
theorem needs_read (w : World) {f h : File} (hn : Needs w f h) : ∀ n stack i, readFile w n stack f = .ok i →
    ∃ n' stack' i', readFile w n' stack' h = .ok i' ∧ f ∈ stack' := by
  induction hn with
  | one f g u =>
    intro n stack i hr
    obtain ⟨m, o, rfl, ho, hs, hro, _⟩ := readFile_ok hr
    obtain ⟨o', ho', t, ht, hg⟩ := u
    rw [ho] at ho'
    cases ho'
    obtain ⟨j, hj⟩ := readObj_uses w _ f o i hro t ht g hg
    exact ⟨m, f :: stack, j, hj, List.mem_cons_self⟩
  | more f g k u r ih =>
    intro n stack i hr
    obtain ⟨m, o, rfl, ho, hs, hro, _⟩ := readFile_ok hr
    obtain ⟨o', ho', t, ht, hg⟩ := u
    rw [ho] at ho'
    cases ho'
    obtain ⟨j, hj⟩ := readObj_uses w _ f o i hro t ht g hg
    -- the stack grows
    have grow : ∀ {a b : File}, Needs w a b → ∀ n stack i, readFile w n stack a = .ok i → ∀ s ∈ stack,
        ∃ n' stack' i', readFile w n' stack' b = .ok i' ∧ s ∈ stack' := by
      intro a b hab
      induction hab with
      | one a b u =>
        intro n stack i hr s hs
        obtain ⟨m, o, rfl, ho, _, hro, _⟩ := readFile_ok hr
        obtain ⟨o', ho', t, ht, hg⟩ := u
        rw [ho] at ho'
        cases ho'
        obtain ⟨j, hj⟩ := readObj_uses w _ a o i hro t ht b hg
        exact ⟨m, a :: stack, j, hj, List.mem_cons_of_mem _ hs⟩
      | more a b c u r ih =>
        intro n stack i hr s hs
        obtain ⟨m, o, rfl, ho, _, hro, _⟩ := readFile_ok hr
        obtain ⟨o', ho', t, ht, hg⟩ := u
        rw [ho] at ho'
        cases ho'
        obtain ⟨j, hj⟩ := readObj_uses w _ a o i hro t ht b hg
        exact ih m (a :: stack) j hj s (List.mem_cons_of_mem _ hs)
    exact grow r m (f :: stack) j hj f List.mem_cons_self

theorem ok_acyclic (w : World) (n : Nat) (stack : List File) (f : File) (i : Item)
    (h : readFile w n stack f = .ok i) : ¬ Needs w f f := by
  intro hn
  obtain ⟨n', stack', i', h', hs⟩ := needs_read w hn n stack i h
  obtain ⟨_, _, _, _, hs', _⟩ := readFile_ok h'
  exact hs' hs

/-! ### Two settings of one property -/

/-- For every setting there is something at the path or above. -/
theorem readMembers_dup (w : World) (rf : File → Except Err Item) (f : File) : ∀ (ms : Members) (own own' : Own)
    (seen : List Path), readMembers w rf f own ms = .ok own' →
    (∀ p ∈ seen, ∃ x ∈ paths own.props, x ≠ [] ∧ x <+: p) → (∀ e ∈ ms.settings, e.1 ≠ []) →
    (∀ p ∈ seen, ∀ q c, (q, Src.code c) ∈ ms.settings → ¬ p <+: q ∧ ¬ q <+: p) ∧
    ∀ a p s b q c e, ms.settings = a ++ (p, s) :: b ++ (q, .code c) :: e → ¬ p <+: q ∧ ¬ q <+: p
  | .nil, own, own', seen, h, hs, hne => by
    refine ⟨fun p _ q c hq => by simp [Members.settings] at hq, ?_⟩
    intro a p s b q c e he
    simp [Members.settings] at he
  | .child o ms, own, own', seen, h, hs, hne => by
    rw [readMembers] at h
    rw [Members.settings] at hne ⊢
    cases hd : readObj w rf f o with
    | error e' => rw [hd] at h; cases h
    | ok i =>
      rw [hd] at h
      exact readMembers_dup w rf f ms _ own' seen h hs hne
  | .bind q c ms, own, own', seen, h, hs, hne => by
    rw [readMembers] at h
    rw [Members.settings] at hne ⊢
    cases hd : addBinding own q c with
    | error e' => rw [hd] at h; cases h
    | ok own1 =>
      rw [hd] at h
      simp only at h
      unfold addBinding at hd
      by_cases h1 : valueAbove own.props q = true
      · rw [if_pos h1] at hd; cases hd
      · rw [if_neg h1] at hd
        by_cases h2 : hasOwn own.props q = true
        · rw [if_pos h2] at hd; cases hd
        · rw [if_neg h2] at hd
          cases hd
          have key : ∀ p ∈ seen, ¬ p <+: q ∧ ¬ q <+: p := by
            intro p hp
            obtain ⟨x, hx, hx0, hxp⟩ := hs p hp
            have no1 : ¬ x <+: q := by
              intro hxq
              by_cases e : x = q
              · subst e
                exact h2 ((hasOwn_iff _ _).2 ⟨x, hx, [], by simp⟩)
              · obtain ⟨r, hr⟩ := hxq
                exact h1 ((valueAbove_iff _ _).2 ⟨x, hx, e, r, hr.symm⟩)
            have no2 : ¬ q <+: x := by
              rintro ⟨r, hr⟩
              exact h2 ((hasOwn_iff _ _).2 ⟨x, hx, r, hr.symm⟩)
            refine ⟨fun hpq => no1 (hxp.trans hpq), fun hqp => ?_⟩
            rcases List.prefix_or_prefix_of_prefix hxp hqp with e | e
            · exact no1 e
            · exact no2 e
          obtain ⟨ih1, ih2⟩ := readMembers_dup w rf f ms _ own' (q :: seen) h (by
            intro p hp
            rcases List.mem_cons.1 hp with e | e
            · subst e; exact ⟨p, by simp [paths], hne _ List.mem_cons_self, List.prefix_rfl⟩
            · obtain ⟨x, hx, hx0, hxp⟩ := hs p e
              exact ⟨x, by simp [paths] at hx ⊢; exact Or.inl hx, hx0, hxp⟩)
            (fun e he => hne e (List.mem_cons_of_mem _ he))
          refine ⟨fun p hp q' c' hq => ?_, ?_⟩
          · rcases List.mem_cons.1 hq with e | e
            · cases e
              exact key p hp
            · exact ih1 p (List.mem_cons_of_mem _ hp) q' c' e
          · intro a p s b q' c' e he
            cases a with
            | cons x a =>
              simp only [List.cons_append, List.cons.injEq] at he
              exact ih2 a p s b q' c' e he.2
            | nil =>
              simp only [List.nil_append, List.cons_append, List.cons.injEq, Prod.mk.injEq] at he
              obtain ⟨⟨rfl, rfl⟩, he⟩ := he
              exact ih1 q List.mem_cons_self q' c' (by rw [he]; simp)
  | .decl n d rhs ms, own, own', seen, h, hs, hne => by
    rw [readMembers] at h
    have hset : (Members.decl n d rhs ms).settings = ([n], rhsSrc rhs) :: ms.settings := by
      cases rhs with
      | none => rfl
      | some c => rfl
    rw [hset]
    cases hd : addDecl own n d rhs with
    | error e' => rw [hd] at h; cases h
    | ok own1 =>
      rw [hd] at h
      simp only at h
      have main : (∀ p ∈ ([n] : Path) :: seen, ∃ x ∈ paths own1.props, x ≠ [] ∧ x <+: p) ∧
          (∀ c, rhs = some c → ∀ p ∈ seen, ¬ p <+: [n] ∧ ¬ [n] <+: p) := by
        unfold addDecl at hd
        cases rhs with
        | some c =>
          simp only at hd
          by_cases h2 : hasOwn own.props [n] = true
          · rw [if_pos h2] at hd; cases hd
          · rw [if_neg h2] at hd
            cases hd
            refine ⟨?_, fun c' _ p hp => ?_⟩
            · intro p hp
              rcases List.mem_cons.1 hp with e | e
              · subst e; exact ⟨[n], by simp [paths], by simp, List.prefix_rfl⟩
              · obtain ⟨x, hx, hx0, hxp⟩ := hs p e
                exact ⟨x, by simp [paths] at hx ⊢; exact Or.inl hx, hx0, hxp⟩
            · obtain ⟨x, hx, hx0, hxp⟩ := hs p hp
              have no : ¬ [n] <+: x := by
                rintro ⟨r, hr⟩
                exact h2 ((hasOwn_iff _ _).2 ⟨x, hx, r, hr.symm⟩)
              have no' : ¬ x <+: [n] := by
                intro hxn
                rcases List.prefix_cons_iff.1 hxn with e | ⟨t, rfl, ht⟩
                · exact hx0 e
                · have : t = [] := by simpa using ht
                  subst this
                  exact no List.prefix_rfl
              refine ⟨fun hpq => no' (hxp.trans hpq), fun hqp => ?_⟩
              rcases List.prefix_or_prefix_of_prefix hxp hqp with e | e
              · exact no' e
              · exact no e
        | none =>
          cases hd
          refine ⟨?_, fun c' hc => by cases hc⟩
          intro p hp
          rcases List.mem_cons.1 hp with e | e
          · subst e; exact ⟨[n], by simp [paths], by simp, List.prefix_rfl⟩
          · obtain ⟨x, hx, hx0, hxp⟩ := hs p e
            by_cases hx' : [n] <+: x
            · exact ⟨[n], by simp [paths], by simp, hx'.trans hxp⟩
            · simp only [paths, List.mem_map] at hx
              obtain ⟨y, hy, rfl⟩ := hx
              refine ⟨y.1, ?_, hx0, hxp⟩
              simp only [paths, List.map_append, List.mem_append, List.mem_map, List.mem_filter]
              refine Or.inl ⟨y, ⟨hy, ?_⟩, rfl⟩
              simp only [Bool.not_eq_true', Bool.eq_false_iff]
              exact fun e => hx' (List.isPrefixOf_iff_prefix.1 e)
      obtain ⟨ih1, ih2⟩ := readMembers_dup w rf f ms own1 own' ([n] :: seen) h main.1
        (fun e he => hne e (by rw [hset]; exact List.mem_cons_of_mem _ he))
      refine ⟨fun p hp q' c' hq => ?_, ?_⟩
      · rcases List.mem_cons.1 hq with e | e
        · cases rhs with
          | none => cases e
          | some c => cases e; exact main.2 _ rfl p hp
        · exact ih1 p (List.mem_cons_of_mem _ hp) q' c' e
      · intro a p s b q' c' e he
        cases a with
        | cons x a =>
          simp only [List.cons_append, List.cons.injEq] at he
          exact ih2 a p s b q' c' e he.2
        | nil =>
          simp only [List.nil_append, List.cons_append, List.cons.injEq, Prod.mk.injEq] at he
          obtain ⟨⟨rfl, rfl⟩, he⟩ := he
          exact ih1 [n] List.mem_cons_self q' c' (by rw [he]; simp)

end Verif.Read
