import Verif.Cli.Lem
/- Lemmas about the arguments of options. -/

namespace Verif.Cli

open Spec

theorem splitAt_ne_nil (sep : Char) (s : Str) : splitAt sep s ≠ [] := by
  cases s with
  | nil => simp [splitAt]
  | cons c s =>
    unfold splitAt
    by_cases h : c = sep
    · rw [if_pos h]; simp
    · rw [if_neg h]
      cases splitAt sep s <;> simp

theorem splitAt_spec (s : Str) :
    commas (splitAt ',' s) = s ∧ ∀ w ∈ splitAt ',' s, ',' ∉ w := by
  induction s with
  | nil => simp [splitAt, commas]
  | cons c s ih =>
    unfold splitAt
    by_cases h : c = ','
    · rw [if_pos h]
      cases hs : splitAt ',' s with
      | nil => exact absurd hs (splitAt_ne_nil _ _)
      | cons w ws =>
        rw [hs] at ih
        refine ⟨?_, ?_⟩
        · show [] ++ ',' :: commas (w :: ws) = c :: s
          rw [ih.1, h]; rfl
        · intro x hx
          rcases List.mem_cons.1 hx with rfl | hx
          · simp
          · exact ih.2 x hx
    · rw [if_neg h]
      cases hs : splitAt ',' s with
      | nil => exact absurd hs (splitAt_ne_nil _ _)
      | cons w ws =>
        rw [hs] at ih
        dsimp only
        refine ⟨?_, ?_⟩
        · cases ws with
          | nil =>
            have := ih.1
            simp only [commas] at this ⊢
            rw [this]
          | cons w' ws =>
            have := ih.1
            simp only [commas] at this ⊢
            rw [List.cons_append, this]
        · intro x hx
          rcases List.mem_cons.1 hx with rfl | hx
          · intro hm
            rcases List.mem_cons.1 hm with e | hm
            · exact h e.symm
            · exact ih.2 w List.mem_cons_self hm
          · exact ih.2 x (List.mem_cons_of_mem _ hx)

theorem splitAt_append (w : Str) (h : ',' ∉ w) (r : Str) :
    splitAt ',' (w ++ ',' :: r) = w :: splitAt ',' r := by
  induction w with
  | nil => simp [splitAt]
  | cons c w ih =>
    have hc : c ≠ ',' := fun e => h (by simp [e])
    have ih := ih fun hm => h (List.mem_cons_of_mem _ hm)
    rw [List.cons_append, splitAt, if_neg hc, ih]

theorem splitAt_single (w : Str) (h : ',' ∉ w) : splitAt ',' w = [w] := by
  induction w with
  | nil => rfl
  | cons c w ih =>
    have hc : c ≠ ',' := fun e => h (by simp [e])
    have ih := ih fun hm => h (List.mem_cons_of_mem _ hm)
    rw [splitAt, if_neg hc, ih]

theorem splitAt_commas (l : List Str) (hne : l ≠ []) (h : ∀ w ∈ l, ',' ∉ w) :
    splitAt ',' (commas l) = l := by
  induction l with
  | nil => exact absurd rfl hne
  | cons w ws ih =>
    have hw := h w List.mem_cons_self
    cases ws with
    | nil => exact splitAt_single w hw
    | cons w' ws =>
      have ih := ih (by simp) fun x hx => h x (List.mem_cons_of_mem _ hx)
      show splitAt ',' (w ++ ',' :: commas (w' :: ws)) = _
      rw [splitAt_append w hw, ih]

theorem listArgument_iff (v : Str) (l : List Str) :
    listArgument v = some l ↔ l ≠ [] ∧ (∀ w ∈ l, w ≠ [] ∧ ',' ∉ w) ∧ v = commas l := by
  unfold listArgument
  constructor
  · intro h
    by_cases hc : (splitAt ',' v).any (·.isEmpty) = true
    · rw [if_pos hc] at h; cases h
    · rw [if_neg hc] at h
      have e : splitAt ',' v = l := by simpa using h
      subst e
      refine ⟨splitAt_ne_nil _ _, ?_, (splitAt_spec v).1.symm⟩
      intro w hw
      refine ⟨?_, (splitAt_spec v).2 w hw⟩
      rintro rfl
      exact hc (List.any_eq_true.2 ⟨[], hw, rfl⟩)
  · rintro ⟨hne, hl, rfl⟩
    rw [splitAt_commas l hne fun w hw => (hl w hw).2]
    rw [if_neg]
    intro hc
    obtain ⟨w, hw, he⟩ := List.any_eq_true.1 hc
    exact (hl w hw).1 (by simpa using he)

theorem takeWhile_split (k v : Str) (h : ':' ∉ k) :
    (k ++ ':' :: v).takeWhile (· ≠ ':') = k ∧
      ((k ++ ':' :: v).dropWhile (· ≠ ':')).drop 1 = v := by
  induction k with
  | nil => simp
  | cons c k ih =>
    have hc : c ≠ ':' := fun e => h (by simp [e])
    have ih := ih fun hm => h (List.mem_cons_of_mem _ hm)
    rw [List.cons_append, List.takeWhile_cons, List.dropWhile_cons]
    simp only [hc, ne_eq, not_false_eq_true, decide_true, if_true]
    simp only [ne_eq] at ih
    exact ⟨by rw [ih.1], ih.2⟩

theorem takeWhile_spec (a : Str) (h : ':' ∈ a) :
    a = keyOf a ++ ':' :: valueOf a ∧ ':' ∉ keyOf a := by
  unfold keyOf valueOf
  induction a with
  | nil => simp at h
  | cons c a ih =>
    by_cases hc : c = ':'
    · subst hc; simp
    · have ih := ih (by
        rcases List.mem_cons.1 h with e | h
        · exact absurd e.symm hc
        · exact h)
      rw [List.takeWhile_cons, List.dropWhile_cons]
      simp only [hc, ne_eq, not_false_eq_true, decide_true, if_true]
      simp only [ne_eq] at ih
      refine ⟨by rw [List.cons_append, ← ih.1], ?_⟩
      intro hm
      rcases List.mem_cons.1 hm with e | hm
      · exact hc e.symm
      · exact ih.2 hm

theorem keyOf_eq (k v : Str) (h : ':' ∉ k) : keyOf (k ++ ':' :: v) = k :=
  (takeWhile_split k v h).1

theorem valueOf_eq (k v : Str) (h : ':' ∉ k) : valueOf (k ++ ':' :: v) = v :=
  (takeWhile_split k v h).2

theorem jobLimit_isSome (num : Str → Option Int) (s : Str) :
    (jobLimit num s).isSome = true ↔
      ∃ p : Str × Str, s = p.1 ++ ':' :: p.2 ∧ p.1 ≠ [] ∧ ':' ∉ p.1 ∧ p.2 ≠ [] ∧
        (num p.2).isSome := by
  have hdef : jobLimit num s =
      if (keyOf s).isEmpty || !s.contains ':' || (valueOf s).isEmpty then none
      else (num (valueOf s)).map fun n => (keyOf s, n) := rfl
  rw [hdef]
  constructor
  · intro h
    by_cases hc : ((keyOf s).isEmpty || !s.contains ':' || (valueOf s).isEmpty) = true
    · rw [if_pos hc] at h; cases h
    · rw [if_neg hc] at h
      simp only [Bool.or_eq_true, not_or, List.isEmpty_iff, Bool.not_eq_true'] at hc
      have hm : ':' ∈ s := by
        have := hc.1.2
        simpa using this
      obtain ⟨e, hk⟩ := takeWhile_spec s hm
      exact ⟨(keyOf s, valueOf s), e, hc.1.1, hk, hc.2, by simpa using h⟩
  · rintro ⟨⟨k, v⟩, rfl, hk, hc, hv, hn⟩
    dsimp only at *
    rw [keyOf_eq k v hc, valueOf_eq k v hc, if_neg]
    · simpa using hn
    · simp [hk, hv]

theorem map_of_forall {α β} {P : β → Prop} {f : β → α} (l : List α)
    (h : ∀ a ∈ l, ∃ b, a = f b ∧ P b) : ∃ bs : List β, l = bs.map f ∧ ∀ b ∈ bs, P b := by
  induction l with
  | nil => exact ⟨[], rfl, by simp⟩
  | cons a l ih =>
    obtain ⟨b, hb, hp⟩ := h a List.mem_cons_self
    obtain ⟨bs, hbs, hps⟩ := ih fun x hx => h x (List.mem_cons_of_mem _ hx)
    refine ⟨b :: bs, by rw [hb, hbs]; rfl, ?_⟩
    intro x hx
    rcases List.mem_cons.1 hx with rfl | hx
    · exact hp
    · exact hps x hx

theorem jobLimits_iff (num : Str → Option Int) (v : Str) :
    ((splitAt ',' v).all fun s => (jobLimit num s).isSome) = true ↔ Proper num .jobLimits v := by
  unfold Proper
  rw [List.all_eq_true]
  constructor
  · intro h
    have h' : ∀ s ∈ splitAt ',' v, ∃ p : Str × Str, s = p.1 ++ ':' :: p.2 ∧
        (p.1 ≠ [] ∧ ',' ∉ p.1 ∧ ':' ∉ p.1 ∧ p.2 ≠ [] ∧ ',' ∉ p.2 ∧ (num p.2).isSome) := by
      intro s hs
      obtain ⟨p, e, a, b, c, d⟩ := (jobLimit_isSome num s).1 (h s hs)
      have hcomma := (splitAt_spec v).2 s hs
      rw [e] at hcomma
      exact ⟨p, e, a, fun x => hcomma (by simp [x]), b, c, fun x => hcomma (by simp [x]), d⟩
    obtain ⟨l, hl, hp⟩ := map_of_forall _ h'
    refine ⟨l, ?_, ?_, hp⟩
    · rintro rfl
      exact splitAt_ne_nil _ _ hl
    · rw [← hl]; exact (splitAt_spec v).1.symm
  · rintro ⟨l, hne, rfl, hp⟩ s hs
    rw [splitAt_commas _ (by simpa using hne)] at hs
    · obtain ⟨p, hpm, rfl⟩ := List.mem_map.1 hs
      have := hp p hpm
      exact (jobLimit_isSome num _).2 ⟨p, rfl, this.1, this.2.2.1, this.2.2.2.1, this.2.2.2.2.2⟩
    · intro w hw
      obtain ⟨p, hpm, rfl⟩ := List.mem_map.1 hw
      have := hp p hpm
      intro hm
      rcases List.mem_append.1 hm with hm | hm
      · exact this.2.1 hm
      · rcases List.mem_cons.1 hm with e | hm
        · exact absurd e (by decide)
        · exact this.2.2.2.2.1 hm

theorem list_isSome (v : Str) :
    (listArgument v).isSome = true ↔
      ∃ l, l ≠ [] ∧ (∀ w ∈ l, w ≠ [] ∧ ',' ∉ w) ∧ v = commas l := by
  rw [Option.isSome_iff_exists]
  exact ⟨fun ⟨l, h⟩ => ⟨l, (listArgument_iff v l).1 h⟩,
    fun ⟨l, h⟩ => ⟨l, (listArgument_iff v l).2 h⟩⟩

theorem accepts_iff (num : Str → Option Int) (o : Opt) (v : Str) :
    accepts num o v = true ↔ Proper num o v := by
  cases o
  case jobLimits => exact jobLimits_iff num v
  case changedFiles => exact list_isSome v
  case products => exact list_isSome v
  case tags => exact list_isSome v
  case runEnvConfig => exact list_isSome v
  case jobs =>
    show (num v).any (0 < ·) = true ↔ ∃ n, num v = some n ∧ 0 < n
    cases num v <;> simp
  case generator =>
    show (!v.isEmpty) = true ↔ v ≠ []
    cases v <;> simp
  case logLevel =>
    show logLevelNames.contains v = true ↔ v ∈ logLevelNames
    exact List.contains_iff_mem
  case commandEchoMode =>
    show (!v.isEmpty && echoModeNames.contains v) = true ↔ v ∈ echoModeNames
    rw [Bool.and_eq_true, List.contains_iff_mem]
    refine ⟨fun h => h.2, fun h => ⟨?_, h⟩⟩
    cases v with
    | nil => exact absurd h (by decide)
    | cons => rfl
  case deprecationWarnings =>
    show (!v.isEmpty && deprecationModeNames.contains v) = true ↔ v ∈ deprecationModeNames
    rw [Bool.and_eq_true, List.contains_iff_mem]
    refine ⟨fun h => h.2, fun h => ⟨?_, h⟩⟩
    cases v with
    | nil => exact absurd h (by decide)
    | cons => rfl
  all_goals exact ⟨fun _ => trivial, fun _ => rfl⟩

theorem assignment_iff (c : Cmd) (s : State) (a : Str) (s' : State) :
    parsePropertyAssignment c s a = .ok s' ↔
      Assignment c a ∧ s' = { s with assignments := s.assignments ++ [a] } := by
  unfold parsePropertyAssignment
  constructor
  · intro h
    by_cases h1 : a.head? = some '-'
    · rw [if_pos h1] at h; cases h
    rw [if_neg h1] at h
    by_cases h2 : ¬ ':' ∈ a
    · rw [if_pos h2] at h; cases h
    rw [if_neg h2] at h
    by_cases h3 : a.head? = some ':'
    · rw [if_pos h3] at h; cases h
    rw [if_neg h3] at h
    by_cases h4 : (!canResolve c && !("config:".toList).isPrefixOf a) = true
    · rw [if_pos h4] at h; cases h
    rw [if_neg h4] at h
    cases h
    refine ⟨?_, rfl⟩
    obtain ⟨e, hk⟩ := takeWhile_spec a (by simpa using h2)
    have hne : keyOf a ≠ [] := by
      intro e'
      rw [e'] at e
      rw [e] at h3
      exact h3 rfl
    refine ⟨keyOf a, valueOf a, e, hne, hk, ?_, ?_⟩
    · intro e'
      apply h1
      rw [e]
      cases hka : keyOf a with
      | nil => exact absurd hka hne
      | cons x k =>
        rw [hka] at e'
        simpa using e'
    · rw [Bool.and_eq_true] at h4
      by_cases hr : canResolve c = true
      · left; exact List.contains_iff_mem.1 hr
      · right
        have hp : ("config:".toList).isPrefixOf a = true := by
          cases hq : ("config:".toList).isPrefixOf a with
          | true => rfl
          | false => exact absurd ⟨by simpa using hr, by rw [hq]; rfl⟩ h4
        obtain ⟨t, ht⟩ := List.isPrefixOf_iff_prefix.1 hp
        have : a = "config".toList ++ ':' :: t := by rw [← ht]; rfl
        rw [this]
        exact keyOf_eq _ _ (by decide)
  · rintro ⟨⟨k, v, rfl, hne, hk, hd, hr⟩, rfl⟩
    cases k with
    | nil => exact absurd rfl hne
    | cons x k =>
      rw [if_neg (by simpa using hd), if_neg (by simp), if_neg]
      · rw [if_neg]
        rw [Bool.and_eq_true]
        rintro ⟨h1, h2⟩
        rcases hr with hr | hr
        · have : canResolve c = true := List.contains_iff_mem.2 hr
          rw [this] at h1
          exact absurd h1 (by decide)
        · rw [hr] at h2
          have : ("config:".toList).isPrefixOf ("config".toList ++ ':' :: v) = true :=
            List.isPrefixOf_iff_prefix.2 ⟨v, rfl⟩
          rw [this] at h2
          exact absurd h2 (by decide)
      · intro e
        apply hk
        have : x = ':' := by simpa using e
        rw [this]
        exact List.mem_cons_self

end Verif.Cli
