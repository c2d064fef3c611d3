import Verif.Stale.Lem
/-!
# C53: running the program again
-/
namespace Verif.Stale

theorem readable {w : World} {q : Query} (h : unreadable w q = false) : ∀ p, q = .read p → answer w q ≠ .none := by
  rintro p rfl
  unfold unreadable at h
  exact answer_read (by simpa using h)

theorem runScript_spec {W : Nat → World} : ∀ (s : Script) (n : Nat) (r : Rec) (im : List Path) {v n' : Nat} {r' : Rec}
    {im' : List (Path × Nat)}, runScript W s n r im = some (v, n', r', im') →
    n ≤ n' ∧ (∃ l, r'.asked = l ++ r.asked) ∧ r'.current = r.current ∧ r'.reused = r.reused ∧
    r'.probes = r.probes ∧ (Covered W n r → Covered W n' r') := by
  intro s
  induction s with
  | ret v =>
    intro n r im v' n' r' im' h
    simp only [runScript, Option.some.injEq, Prod.mk.injEq] at h
    obtain ⟨_, rfl, rfl, _⟩ := h
    exact ⟨Nat.le_refl _, ⟨[], rfl⟩, rfl, rfl, rfl, id⟩
  | ask q k ih =>
    intro n r im v' n' r' im' h
    rw [runScript] at h
    by_cases hu : unreadable (W n) q = true
    · rw [if_pos hu] at h
      cases h
    · rw [if_neg hu] at h
      obtain ⟨h1, ⟨l, h2⟩, h3, h4, h5, h6⟩ := ih _ _ _ _ h
      refine ⟨by omega, ⟨l ++ [(q, answer (W n) q)], ?_⟩, ?_, ?_, ?_, ?_⟩
      · rw [h2]
        simp [noted]
      · rw [h3]
        cases q <;> rfl
      · rw [h4]
        cases q <;> rfl
      · rw [h5]
        cases q <;> rfl
      · intro hc
        exact h6 (covered_noted hc (readable (by simpa using hu)))

theorem noted_fields (w : World) (r : Rec) (q : Query) : (noted w r q).current = r.current ∧
    (noted w r q).reused = r.reused ∧ (noted w r q).probes = r.probes := by
  cases q <;> exact ⟨rfl, rfl, rfl⟩

theorem run_spec {cf : Configure} {force : Bool} {old : List Probe} {W : Nat → World} : ∀ (p : Prog) (n : Nat) (r : Rec)
    {v n' : Nat} {r' : Rec}, run cf force old W p n r = some (v, n', r') →
    n ≤ n' ∧ (∃ l, r'.asked = l ++ r.asked) ∧ (r.reused = true → r'.reused = true) ∧
    (Covered W n r → Covered W n' r') := by
  intro p
  induction p with
  | ret v =>
    intro n r v' n' r' h
    simp only [run, Option.some.injEq, Prod.mk.injEq] at h
    obtain ⟨_, rfl, rfl⟩ := h
    exact ⟨Nat.le_refl _, ⟨[], rfl⟩, id, id⟩
  | ask q k ih =>
    intro n r v' n' r' h
    rw [run] at h
    by_cases hu : unreadable (W n) q = true
    · rw [if_pos hu] at h
      cases h
    · rw [if_neg hu] at h
      obtain ⟨h1, ⟨l, h2⟩, h3, h4⟩ := ih _ _ _ h
      refine ⟨by omega, ⟨l ++ [(q, answer (W n) q)], ?_⟩, ?_, ?_⟩
      · rw [h2]
        simp [noted]
      · intro hr
        exact h3 (by rw [(noted_fields _ _ _).2.1]; exact hr)
      · intro hc
        exact h4 (covered_noted hc (readable (by simpa using hu)))
  | probe key k ih =>
    intro n r v' n' r' h
    rw [run] at h
    cases ho : findOld (W n) force old key with
    | some p =>
      rw [ho] at h
      obtain ⟨h1, ⟨l, h2⟩, h3, h4⟩ := ih _ _ _ h
      exact ⟨h1, ⟨l, h2⟩, fun _ => h3 rfl, fun hc => h4 (hc.congr rfl rfl rfl rfl rfl rfl rfl rfl)⟩
    | none =>
      rw [ho] at h
      simp only [] at h
      cases hcu : findCurrent r key with
      | some p =>
        rw [hcu] at h
        obtain ⟨h1, ⟨l, h2⟩, h3, h4⟩ := ih _ _ _ h
        exact ⟨h1, ⟨l, h2⟩, fun hr => h3 hr, fun hc => h4 (hc.congr rfl rfl rfl rfl rfl rfl rfl rfl)⟩
      | none =>
        rw [hcu] at h
        simp only [] at h
        cases hs : runScript W (cf key.props key.code) n r [] with
        | none => rw [hs] at h; cases h
        | some x =>
          obtain ⟨v, n₁, r₁, im⟩ := x
          rw [hs] at h
          simp only [] at h
          obtain ⟨h1, ⟨l, h2⟩, h3, h4⟩ := ih _ _ _ h
          obtain ⟨g1, ⟨l', g2⟩, g3, g4, g5, g6⟩ := runScript_spec _ _ _ _ hs
          refine ⟨by omega, ⟨l ++ l', by rw [h2]; simp [g2]⟩, ?_, ?_⟩
          · intro hr
            exact h3 (by rw [← hr]; exact g4)
          · intro hc
            exact h4 ((g6 hc).congr rfl rfl rfl rfl rfl rfl rfl rfl)

/-- Answers that have been given are given in this world too. -/
def Agrees (w : World) (r : Rec) : Prop := ∀ q a, (q, a) ∈ r.asked → answer w q = a

theorem unreadable_of_answer {w w' : World} {q : Query} (h : answer w q = answer w' q) :
    unreadable w q = unreadable w' q := by
  cases q with
  | read p =>
    unfold answer at h
    unfold unreadable World.has
    cases h1 : w.content p <;> cases h2 : w'.content p <;> simp_all
  | _ => rfl

/-- The current probes, without the times. -/
def values (r : Rec) : List (Key × Nat) := r.current.map (fun p => (p.key, p.value))

theorem replay_script {W : Nat → World} {w : World} : ∀ (s : Script) (n : Nat) (r : Rec) (im : List Path) {v n' : Nat}
    {r' : Rec} {im' : List (Path × Nat)}, runScript W s n r im = some (v, n', r', im') → Agrees w r' →
    ∀ m s₂ im₂, ∃ m' s₂' im₂', runScript (fun _ => w) s m s₂ im₂ = some (v, m', s₂', im₂') := by
  intro s
  induction s with
  | ret v =>
    intro n r im v' n' r' im' h _ m s₂ im₂
    simp only [runScript, Option.some.injEq, Prod.mk.injEq] at h
    obtain ⟨rfl, _⟩ := h
    exact ⟨_, _, _, rfl⟩
  | ask q k ih =>
    intro n r im v' n' r' im' h ha m s₂ im₂
    rw [runScript] at h
    by_cases hu : unreadable (W n) q = true
    · rw [if_pos hu] at h
      cases h
    · rw [if_neg hu] at h
      have hq : answer w q = answer (W n) q := by
        obtain ⟨l, hl⟩ := (runScript_spec _ _ _ _ h).2.1
        exact ha q _ (by rw [hl]; simp [noted])
      obtain ⟨m', s₂', im₂', h'⟩ := ih _ _ _ _ h ha (m + 1) (noted w s₂ q) (importOf q ++ im₂)
      refine ⟨m', s₂', im₂', ?_⟩
      rw [runScript, if_neg (by rw [unreadable_of_answer hq]; exact hu)]
      show runScript _ (k (answer w q)) _ _ _ = _
      rw [hq]
      exact h'

theorem find_values {l₁ l₂ : List Probe} (h : l₁.map (fun p => (p.key, p.value)) = l₂.map (fun p => (p.key, p.value)))
    (f : Key → Bool) : (l₁.find? (fun p => f p.key)).map (·.value) = (l₂.find? (fun p => f p.key)).map (·.value) := by
  induction l₁ generalizing l₂ with
  | nil =>
    cases l₂ with
    | nil => rfl
    | cons b t => simp at h
  | cons a t ih =>
    cases l₂ with
    | nil => simp at h
    | cons b t' =>
      simp only [List.map_cons, List.cons.injEq, Prod.mk.injEq] at h
      obtain ⟨⟨h1, h2⟩, h3⟩ := h
      rw [List.find?_cons, List.find?_cons, h1]
      cases f b.key with
      | true => simp [h2]
      | false => exact ih h3

theorem findOld_nil (w : World) (force : Bool) (key : Key) : findOld w force [] key = none := by
  unfold findOld
  cases force <;> rfl

/-- If the program is run again in a world where everything that was asked has the same answer, it comes to the same
    result. -/
theorem replay {cf : Configure} {force : Bool} {old : List Probe} {W : Nat → World} {w : World} : ∀ (p : Prog) (n : Nat)
    (r : Rec) {v n' : Nat} {r' : Rec}, run cf force old W p n r = some (v, n', r') → Agrees w r' → r'.reused = false →
    ∀ m s force₂, values s = values r → ∃ m' s', run cf force₂ [] (fun _ => w) p m s = some (v, m', s') := by
  intro p
  induction p with
  | ret v =>
    intro n r v' n' r' h _ _ m s _ _
    simp only [run, Option.some.injEq, Prod.mk.injEq] at h
    obtain ⟨rfl, _⟩ := h
    exact ⟨_, _, rfl⟩
  | ask q k ih =>
    intro n r v' n' r' h ha hre m s force₂ hv
    rw [run] at h
    by_cases hu : unreadable (W n) q = true
    · rw [if_pos hu] at h
      cases h
    · rw [if_neg hu] at h
      have hq : answer w q = answer (W n) q := by
        obtain ⟨l, hl⟩ := (run_spec _ _ _ h).2.1
        exact ha q _ (by rw [hl]; simp [noted])
      obtain ⟨m', s', h'⟩ := ih _ _ _ h ha hre (m + 1) (noted w s q) force₂ (by
        unfold values
        rw [(noted_fields _ _ _).1, (noted_fields _ _ _).1]
        exact hv)
      refine ⟨m', s', ?_⟩
      rw [run, if_neg (by rw [unreadable_of_answer hq]; exact hu)]
      show run _ _ _ _ (k (answer w q)) _ _ = _
      rw [hq]
      exact h'
  | probe key k ih =>
    intro n r v' n' r' h ha hre m s force₂ hv
    rw [run] at h
    rw [run, findOld_nil]
    simp only []
    cases ho : findOld (W n) force old key with
    | some p =>
      rw [ho] at h
      have := (run_spec _ _ _ h).2.2.1 rfl
      rw [this] at hre
      cases hre
    | none =>
      rw [ho] at h
      simp only [] at h
      have hfind : (findCurrent s key).map (·.value) = (findCurrent r key).map (·.value) :=
        find_values hv (fun x => x.props = key.props && x.code = key.code)
      cases hcu : findCurrent r key with
      | some p =>
        rw [hcu] at h hfind
        cases hcs : findCurrent s key with
        | none => rw [hcs] at hfind; cases hfind
        | some p' =>
          rw [hcs] at hfind
          simp only [Option.map_some, Option.some.injEq] at hfind
          simp only [hfind]
          exact ih _ _ _ h ha hre _ _ _ hv
      | none =>
        rw [hcu] at h hfind
        simp only [] at h
        cases hcs : findCurrent s key with
        | some p' => rw [hcs] at hfind; cases hfind
        | none =>
          simp only []
          cases hs : runScript W (cf key.props key.code) n r [] with
          | none => rw [hs] at h; cases h
          | some x =>
            obtain ⟨v, n₁, r₁, im⟩ := x
            rw [hs] at h
            simp only [] at h
            have ha₁ : Agrees w r₁ := by
              obtain ⟨l, hl⟩ := (run_spec _ _ _ h).2.1
              intro q a hm
              exact ha q a (by rw [hl]; exact List.mem_append_right _ hm)
            obtain ⟨m₁, s₁, im₁, hs'⟩ := replay_script _ _ _ _ hs ha₁ m s []
            rw [hs']
            simp only []
            refine ih _ _ _ h ha hre _ _ _ ?_
            have e1 := (runScript_spec _ _ _ _ hs).2.2.1
            have e2 := (runScript_spec _ _ _ _ hs').2.2.1
            unfold values at hv ⊢
            simp only [List.map_cons, e1, e2, hv]

end Verif.Stale
