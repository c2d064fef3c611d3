import Verif.Profile.Spec
/-!
# C40: profile inheritance
-/
namespace Verif.Profile

/-! ### Counting -/

theorem length_le_of_nodup_subset {α : Type} [DecidableEq α] : ∀ (l m : List α), l.Nodup →
    (∀ x ∈ l, x ∈ m) → l.length ≤ m.length := by
  intro l
  induction l with
  | nil => intro m _ _; simp
  | cons a l ih =>
    intro m hn hs
    rw [List.nodup_cons] at hn
    have ha : a ∈ m := hs a (by simp)
    have h := ih (m.erase a) hn.2 (fun x hx => by
      have hxa : x ≠ a := by rintro rfl; exact hn.1 hx
      exact (List.mem_erase_of_ne hxa).2 (hs x (by simp [hx])))
    rw [List.length_erase_of_mem ha] at h
    have := List.length_pos_of_mem ha
    simp only [List.length_cons]
    omega

theorem assoc_mem {β : Type} (l : List (String × β)) (k : String) (v : β)
    (h : assoc l k = some v) : (k, v) ∈ l := by
  unfold assoc at h
  split at h
  · rename_i e he
    have h1 := List.find?_some he
    have h2 := List.mem_of_find?_eq_some he
    simp only [beq_iff_eq] at h1
    cases h
    rw [← h1]
    exact h2
  · cases h

theorem assoc_some_iff {β : Type} (l : List (String × β)) (k : String) :
    (∃ v, assoc l k = some v) ↔ k ∈ l.map (·.1) := by
  constructor
  · rintro ⟨v, h⟩
    exact List.mem_map.2 ⟨_, assoc_mem l k v h, rfl⟩
  · intro h
    obtain ⟨e, he, rfl⟩ := List.mem_map.1 h
    unfold assoc
    cases hf : l.find? (fun x => x.1 == e.1) with
    | none => have := List.find?_eq_none.1 hf e he; simp at this
    | some e' => exact ⟨_, rfl⟩

/-- All profiles that can exist. -/
def candidates (c : Cfg) : List Name :=
  fallbackName :: (c.profiles.map (·.1) ++ c.settings.map (·.1))

theorem exist_cand (c : Cfg) (p : Name) (h : exist c p = true) : p ∈ candidates c := by
  unfold exist at h
  simp only [Bool.or_eq_true, beq_iff_eq, Bool.not_eq_true', List.isEmpty_eq_false_iff] at h
  simp only [candidates, List.mem_cons, List.mem_append]
  rcases h with (h | h) | h
  · exact Or.inl h
  · right; left
    unfold values at h
    cases ha : assoc c.profiles p with
    | none => rw [ha] at h; exact absurd rfl h
    | some v => exact (assoc_some_iff _ _).1 ⟨v, ha⟩
  · right; right
    unfold stored at h
    cases ha : assoc c.settings p with
    | none => rw [ha] at h; exact absurd rfl h
    | some v => exact (assoc_some_iff _ _).1 ⟨v, ha⟩

theorem chain_length (c : Cfg) (p : Name) (n : Nat) (hc : Chain c p n)
    (hn : ((List.range (n + 1)).map (ancestor c p)).Nodup) : n + 1 < enough c := by
  have := length_le_of_nodup_subset _ (p :: candidates c) hn (by
    intro x hx
    obtain ⟨i, hi, rfl⟩ := List.mem_map.1 hx
    rw [List.mem_range] at hi
    cases i with
    | zero => simp [ancestor]
    | succ i => exact List.mem_cons_of_mem _ (exist_cand c _ (hc i (by omega)).2))
  simp only [List.length_map, List.length_range, List.length_cons, candidates,
    List.length_append] at this
  unfold enough
  omega

/-- Once a profile occurs again, the chain never ends. -/
theorem periodic (c : Cfg) (p : Name) (j k : Nat) (hjk : j < k)
    (he : ancestor c p k = ancestor c p j) (P : Name → Prop)
    (hP : ∀ i < k, P (ancestor c p i)) : ∀ n, P (ancestor c p n) := by
  have hshift : ∀ m, ancestor c p (k + m) = ancestor c p (j + m) := by
    intro m
    induction m with
    | zero => exact he
    | succ m ih =>
      show baseProfile c (ancestor c p (k + m)) = baseProfile c (ancestor c p (j + m))
      rw [ih]
  intro n
  induction n using Nat.strongRecOn with
  | ind n ih =>
    by_cases hn : n < k
    · exact hP n hn
    · have h1 := hshift (n - k)
      rw [show k + (n - k) = n by omega] at h1
      rw [h1]
      exact ih _ (by omega)

/-! ### The outcome of `value` -/

/-- What each result says about the chain. -/
def Says (c : Cfg) (p : Name) (k : Key) : Res (Option String) → Prop
  | .ok (some v) => ∃ n, Chain c p n ∧ Undefined c p k n ∧
      localValue c (ancestor c p n) k = some v
  | .ok none => ∃ n, Chain c p n ∧ Undefined c p k (n + 1) ∧ baseProfile c (ancestor c p n) = ""
  | .missing a b => ∃ n, Chain c p n ∧ Undefined c p k (n + 1) ∧ a = ancestor c p n ∧
      b = ancestor c p (n + 1) ∧ b ≠ "" ∧ exist c b = false
  | .cycle ch => (∀ n, Chain c p n ∧ Undefined c p k n) ∧
      ∃ n, ch = (List.range (n + 1)).map (ancestor c p) ∧ ∃ j < n, ancestor c p n = ancestor c p j
  | .fuel => False

theorem undefined_succ (c : Cfg) (p : Name) (k : Key) (n : Nat) (h : Undefined c p k n)
    (h' : localValue c (ancestor c p n) k = none) : Undefined c p k (n + 1) := by
  intro i hi
  by_cases he : i = n
  · subst he; exact h'
  · exact h i (by omega)

theorem chain_succ (c : Cfg) (p : Name) (n : Nat) (h : Chain c p n)
    (h1 : baseProfile c (ancestor c p n) ≠ "")
    (h2 : exist c (baseProfile c (ancestor c p n)) = true) : Chain c p (n + 1) := by
  intro i hi
  by_cases he : i = n
  · subst he; exact ⟨h1, h2⟩
  · exact h i (by omega)

theorem range_succ_map (c : Cfg) (p : Name) (n : Nat) :
    (List.range (n + 1)).map (ancestor c p)
      = (List.range n).map (ancestor c p) ++ [ancestor c p n] := by
  rw [List.range_succ]; simp

theorem nodup_range_succ (c : Cfg) (p : Name) (n : Nat)
    (h : ((List.range n).map (ancestor c p)).Nodup)
    (hn : ancestor c p n ∉ (List.range n).map (ancestor c p)) :
    ((List.range (n + 1)).map (ancestor c p)).Nodup := by
  rw [range_succ_map, List.nodup_append]
  refine ⟨h, by simp, ?_⟩
  intro a ha b hb hab
  simp only [List.mem_singleton] at hb
  subst hb; subst hab
  exact hn ha

theorem inherited_says (c : Cfg) (p : Name) (k : Key) : ∀ (f n : Nat), f + n = enough c →
    Chain c p n → Undefined c p k n → ((List.range n).map (ancestor c p)).Nodup →
    Says c p k (inherited c k f ((List.range n).map (ancestor c p)) (ancestor c p n)) := by
  intro f
  induction f with
  | zero =>
    intro n hf hc _ hn
    exfalso
    cases n with
    | zero => unfold enough at hf; omega
    | succ n =>
      have := chain_length c p n (fun i hi => hc i (by omega)) hn
      omega
  | succ f ih =>
    intro n hf hc hu hn
    simp only [inherited]
    by_cases hm : ancestor c p n ∈ (List.range n).map (ancestor c p)
    · rw [if_pos hm]
      obtain ⟨j, hj, he⟩ := List.mem_map.1 hm
      rw [List.mem_range] at hj
      refine ⟨?_, n, (range_succ_map c p n).symm, j, hj, he.symm⟩
      have h1 := periodic c p j n hj he.symm
        (fun q => (baseProfile c q ≠ "" ∧ exist c (baseProfile c q) = true) ∧
          localValue c q k = none)
        (fun i hi => ⟨hc i hi, hu i hi⟩)
      intro m
      exact ⟨fun i _ => (h1 i).1, fun i _ => (h1 i).2⟩
    · rw [if_neg hm]
      cases hl : localValue c (ancestor c p n) k with
      | some v => exact ⟨n, hc, hu, hl⟩
      | none =>
        simp only
        have hu' := undefined_succ c p k n hu hl
        by_cases hb : baseProfile c (ancestor c p n) = ""
        · rw [if_pos hb]; exact ⟨n, hc, hu', hb⟩
        · rw [if_neg hb]
          by_cases he : exist c (baseProfile c (ancestor c p n)) = false
          · rw [if_pos he]; exact ⟨n, hc, hu', rfl, rfl, hb, he⟩
          · rw [if_neg he]
            have he' : exist c (baseProfile c (ancestor c p n)) = true := by
              cases hh : exist c (baseProfile c (ancestor c p n)) <;> simp_all
            have := ih (n + 1) (by omega) (chain_succ c p n hc hb he') hu'
              (nodup_range_succ c p n hn hm)
            rw [range_succ_map] at this
            exact this

theorem value_says (c : Cfg) (p : Name) (k : Key) : Says c p k (value c p k) := by
  have := inherited_says c p k (enough c) 0 rfl (fun i hi => by omega) (fun i hi => by omega)
    (by simp)
  simpa [value, ancestor] using this

/-- **C40 (termination).** The lookup always ends, whatever the profiles look like. -/
theorem C40_value_terminates (c : Cfg) (p : Name) (k : Key) : value c p k ≠ .fuel := by
  intro h
  have := value_says c p k
  rw [h] at this
  exact this

/-- **C40 (value).** The value returned is the one of the nearest ancestor that defines the key;
and if there is such an ancestor, reachable through existing profiles, its value is returned. -/
theorem C40_value_is_nearest (c : Cfg) (p : Name) (k : Key) (v : String) :
    value c p k = .ok (some v) ↔
      ∃ n, Chain c p n ∧ Undefined c p k n ∧ localValue c (ancestor c p n) k = some v := by
  constructor
  · intro h
    have := value_says c p k
    rw [h] at this
    exact this
  · rintro ⟨n, hc, hu, hv⟩
    have hs := value_says c p k
    revert hs
    cases value c p k with
    | ok r =>
      cases r with
      | some v' =>
        rintro ⟨n', hc', hu', hv'⟩
        have : n = n' := by
          rcases Nat.lt_trichotomy n n' with h | h | h
          · rw [hu' n h] at hv; cases hv
          · exact h
          · rw [hu n' h] at hv'; cases hv'
        subst this
        rw [hv] at hv'
        cases hv'
        rfl
      | none =>
        rintro ⟨n', hc', hu', hb⟩
        exfalso
        by_cases h : n < n' + 1
        · rw [hu' n h] at hv; cases hv
        · exact (hc n' (by omega)).1 hb
    | missing a b =>
      rintro ⟨n', hc', hu', rfl, rfl, hb, he⟩
      exfalso
      by_cases h : n < n' + 1
      · rw [hu' n h] at hv; cases hv
      · have := (hc n' (by omega)).2
        rw [he] at this; cases this
    | cycle ch =>
      rintro ⟨hall, _⟩
      exfalso
      have := (hall (n + 1)).2 n (by omega)
      rw [this] at hv; cases hv
    | fuel => intro h; exact absurd h id

/-- **C40 (default).** The default is returned exactly if the chain ends with a profile without
base profile and none of its profiles defines the key. -/
theorem C40_default_iff (c : Cfg) (p : Name) (k : Key) :
    value c p k = .ok none ↔
      ∃ n, Chain c p n ∧ Undefined c p k (n + 1) ∧ baseProfile c (ancestor c p n) = "" := by
  constructor
  · intro h
    have := value_says c p k
    rw [h] at this
    exact this
  · rintro ⟨n, hc, hu, hb⟩
    have hs := value_says c p k
    revert hs
    cases value c p k with
    | ok r =>
      cases r with
      | some v' =>
        rintro ⟨n', hc', hu', hv'⟩
        exfalso
        by_cases h : n' < n + 1
        · rw [hu n' h] at hv'; cases hv'
        · exact (hc' n (by omega)).1 hb
      | none => intro _; rfl
    | missing a b =>
      rintro ⟨n', hc', hu', rfl, rfl, hb', he⟩
      exfalso
      rcases Nat.lt_trichotomy n n' with h | h | h
      · exact (hc' n h).1 hb
      · subst h; exact hb' hb
      · have := (hc n' h).2; rw [he] at this; cases this
    | cycle ch =>
      rintro ⟨hall, _⟩
      exact absurd hb ((hall (n + 1)).1 n (by omega)).1
    | fuel => intro h; exact absurd h id

/-- **C40 (cycle).** A cycle is reported exactly if the chain goes on for ever without a
definition of the key; the reported chain starts at the profile asked for and its last element
occurs in it before. -/
theorem C40_cycle_iff (c : Cfg) (p : Name) (k : Key) :
    ((∃ ch, value c p k = .cycle ch) ↔ ∀ n, Chain c p n ∧ Undefined c p k n) ∧
    (∀ ch, value c p k = .cycle ch → ∃ n, ch = (List.range (n + 1)).map (ancestor c p) ∧
      ∃ j < n, ancestor c p n = ancestor c p j) := by
  constructor
  · constructor
    · rintro ⟨ch, h⟩
      have := value_says c p k
      rw [h] at this
      exact this.1
    · intro hall
      have hs := value_says c p k
      revert hs
      cases value c p k with
      | ok r =>
        cases r with
        | some v' =>
          rintro ⟨n', hc', hu', hv'⟩
          have := (hall (n' + 1)).2 n' (by omega)
          rw [this] at hv'; cases hv'
        | none =>
          rintro ⟨n', hc', hu', hb⟩
          exact absurd hb ((hall (n' + 1)).1 n' (by omega)).1
      | missing a b =>
        rintro ⟨n', hc', hu', rfl, rfl, hb', he⟩
        have := ((hall (n' + 1)).1 n' (by omega)).2
        rw [he] at this; cases this
      | cycle ch => intro _; exact ⟨ch, rfl⟩
      | fuel => intro h; exact absurd h id
  · intro ch h
    have := value_says c p k
    rw [h] at this
    exact this.2

/-- **C40 (missing base profile).** The error about a missing base profile is raised exactly if
the chain reaches a profile whose base profile does not exist before it reaches a definition. -/
theorem C40_missing_iff (c : Cfg) (p : Name) (k : Key) (a b : Name) :
    value c p k = .missing a b ↔
      ∃ n, Chain c p n ∧ Undefined c p k (n + 1) ∧ a = ancestor c p n ∧
        b = ancestor c p (n + 1) ∧ b ≠ "" ∧ exist c b = false := by
  constructor
  · intro h
    have := value_says c p k
    rw [h] at this
    exact this
  · rintro ⟨n, hc, hu, rfl, rfl, hb, he⟩
    have hs := value_says c p k
    revert hs
    cases value c p k with
    | ok r =>
      cases r with
      | some v' =>
        rintro ⟨n', hc', hu', hv'⟩
        exfalso
        by_cases h : n' < n + 1
        · rw [hu n' h] at hv'; cases hv'
        · have := (hc' n (by omega)).2; rw [he] at this; cases this
      | none =>
        rintro ⟨n', hc', hu', hb'⟩
        exfalso
        rcases Nat.lt_trichotomy n n' with h | h | h
        · have := (hc' n h).2; rw [he] at this; cases this
        · subst h; exact hb hb'
        · exact (hc n' h).1 hb'
    | missing a' b' =>
      rintro ⟨n', hc', hu', rfl, rfl, hb', he'⟩
      rcases Nat.lt_trichotomy n n' with h | h | h
      · have := (hc' n h).2; rw [he] at this; cases this
      · subst h; rfl
      · have := (hc n' h).2; rw [he'] at this; cases this
    | cycle ch =>
      rintro ⟨hall, _⟩
      have := ((hall (n + 1)).1 n (by omega)).2
      rw [he] at this; cases this
    | fuel => intro h; exact absurd h id

/-! ### The outcome of `allKeys` -/

theorem nodup_eraseDups : ∀ (n : Nat) (l : List Key), l.length ≤ n → l.eraseDups.Nodup := by
  intro n
  induction n with
  | zero =>
    intro l hl
    have : l = [] := by simpa using hl
    subst this; simp
  | succ n ih =>
    intro l hl
    cases l with
    | nil => simp
    | cons a l =>
      rw [List.eraseDups_cons, List.nodup_cons]
      refine ⟨?_, ih _ ?_⟩
      · rw [List.mem_eraseDups]; simp
      · have := List.length_filter_le (fun b => !b == a) l
        simp only [List.length_cons] at hl
        omega

theorem mem_tidy (ks : List Key) (k : Key) (hk : k ≠ baseProfileKey) :
    k ∈ tidy ks ↔ k ∈ ks := by
  unfold tidy
  rw [Verif.Common.mem_isort, List.mem_erase_of_ne hk, List.mem_eraseDups]

theorem nodup_tidy (ks : List Key) : (tidy ks).Nodup := by
  unfold tidy
  exact (Verif.Common.isort_perm _ _).nodup_iff.2 ((nodup_eraseDups _ ks (Nat.le_refl _)).erase _)

theorem base_not_mem_tidy (ks : List Key) : baseProfileKey ∉ tidy ks := by
  unfold tidy
  rw [Verif.Common.mem_isort]
  intro h
  exact ((nodup_eraseDups _ ks (Nat.le_refl _)).mem_erase_iff.1 h).1 rfl

/-- What each result of `allKeys` says, when `n` profiles have been passed already. -/
def KeysSay (c : Cfg) (p : Name) (n : Nat) : Res (List Key) → Prop
  | .ok ks => ∃ m, n ≤ m ∧ Chain c p m ∧ baseProfile c (ancestor c p m) = "" ∧
      (∀ k, k ≠ baseProfileKey → (k ∈ ks ↔ ∃ i, n ≤ i ∧ i ≤ m ∧
        k ∈ localKeys c (ancestor c p i))) ∧
      (n < m → ks.Nodup ∧ baseProfileKey ∉ ks) ∧ (n = m → ks = localKeys c (ancestor c p m))
  | .missing a b => ∃ m, Chain c p m ∧ a = ancestor c p m ∧ b = ancestor c p (m + 1) ∧
      b ≠ "" ∧ exist c b = false
  | .cycle _ => ∀ m, Chain c p m
  | .fuel => False

theorem allKeys_say (c : Cfg) (p : Name) : ∀ (f n : Nat), f + n = enough c →
    Chain c p n → ((List.range n).map (ancestor c p)).Nodup →
    KeysSay c p n (allKeys c f ((List.range n).map (ancestor c p)) (ancestor c p n)) := by
  intro f
  induction f with
  | zero =>
    intro n hf hc hn
    exfalso
    cases n with
    | zero => unfold enough at hf; omega
    | succ n =>
      have := chain_length c p n (fun i hi => hc i (by omega)) hn
      omega
  | succ f ih =>
    intro n hf hc hn
    simp only [allKeys]
    by_cases hm : ancestor c p n ∈ (List.range n).map (ancestor c p)
    · rw [if_pos hm]
      obtain ⟨j, hj, he⟩ := List.mem_map.1 hm
      rw [List.mem_range] at hj
      have h1 := periodic c p j n hj he.symm
        (fun q => baseProfile c q ≠ "" ∧ exist c (baseProfile c q) = true)
        (fun i hi => hc i hi)
      intro m i _
      exact h1 i
    · rw [if_neg hm]
      by_cases hb : baseProfile c (ancestor c p n) = ""
      · rw [if_pos hb]
        refine ⟨n, Nat.le_refl _, hc, hb, ?_, fun h => absurd h (Nat.lt_irrefl _), fun _ => rfl⟩
        intro k _
        constructor
        · intro h; exact ⟨n, Nat.le_refl _, Nat.le_refl _, h⟩
        · rintro ⟨i, h1, h2, h⟩
          have : i = n := by omega
          subst this; exact h
      · rw [if_neg hb]
        by_cases he : exist c (baseProfile c (ancestor c p n)) = false
        · rw [if_pos he]; exact ⟨n, hc, rfl, rfl, hb, he⟩
        · rw [if_neg he]
          have he' : exist c (baseProfile c (ancestor c p n)) = true := by
            cases hh : exist c (baseProfile c (ancestor c p n)) <;> simp_all
          have := ih (n + 1) (by omega) (chain_succ c p n hc hb he')
            (nodup_range_succ c p n hn hm)
          rw [range_succ_map] at this
          revert this
          show KeysSay c p (n + 1) (allKeys c f _ (baseProfile c (ancestor c p n))) → _
          cases allKeys c f ((List.range n).map (ancestor c p) ++ [ancestor c p n])
              (baseProfile c (ancestor c p n)) with
          | ok ks =>
            rintro ⟨m, h1, h2, h3, h4, h5, h6⟩
            refine ⟨m, by omega, h2, h3, ?_, fun _ => ⟨nodup_tidy _, base_not_mem_tidy _⟩,
              fun h => by omega⟩
            intro k hk
            rw [mem_tidy _ _ hk, List.mem_append, h4 k hk]
            constructor
            · rintro (h | ⟨i, g1, g2, g3⟩)
              · exact ⟨n, Nat.le_refl _, by omega, h⟩
              · exact ⟨i, by omega, g2, g3⟩
            · rintro ⟨i, g1, g2, g3⟩
              by_cases hin : i = n
              · subst hin; exact Or.inl g3
              · exact Or.inr ⟨i, by omega, g2, g3⟩
          | missing a b => intro h; exact h
          | cycle ch => intro h; exact h
          | fuel => intro h; exact h

theorem keys_say (c : Cfg) (p : Name) : KeysSay c p 0 (keys c p) := by
  have := allKeys_say c p (enough c) 0 rfl (fun i hi => by omega) (by simp)
  simpa [keys, ancestor] using this

/-- A profile is defined either in the project or in the settings, not in both. -/
def OnePlace (c : Cfg) : Prop := ∀ p, values c p = [] ∨ stored c p = []

theorem localKeys_iff (c : Cfg) (h1 : OnePlace c) (p : Name) (k : Key) :
    k ∈ localKeys c p ↔ ∃ v, localValue c p k = some v := by
  unfold localKeys localValue
  rcases h1 p with h | h
  · rw [if_pos (by rw [h]; rfl), ← assoc_some_iff]
    have : assoc (values c p) k = none := by rw [h]; rfl
    rw [this]
  · have hst : assoc (stored c p) k = none := by rw [h]; rfl
    by_cases hv : (values c p).map (·.1) = []
    · rw [if_pos hv, hst]
      have hv' : values c p = [] := by simpa using hv
      rw [hv', h]
      simp [assoc]
    · rw [if_neg hv, ← assoc_some_iff, hst]
      cases assoc (values c p) k <;> simp

/-- **C40 (all keys).** If every profile is defined in one place, listing the keys of a profile
recursively ends in one of three ways: an error because of a missing base profile, an error
because of a cycle (exactly if the chain never ends), or the list of exactly those keys for which
`value` finds a value, apart from `baseProfile`; no key is listed twice if the profile has a base
profile. -/
theorem C40_all_keys_partial (c : Cfg) (h1 : OnePlace c) (p : Name) :
    keys c p ≠ .fuel ∧
    ((∃ ch, keys c p = .cycle ch) ↔ ∀ n, Chain c p n) ∧
    (∀ ks, keys c p = .ok ks →
      (∀ k, k ≠ baseProfileKey → (k ∈ ks ↔ ∃ v, value c p k = .ok (some v))) ∧
      (baseProfile c p ≠ "" → ks.Nodup ∧ baseProfileKey ∉ ks)) := by
  have hs := keys_say c p
  refine ⟨?_, ?_, ?_⟩
  · intro h; rw [h] at hs; exact hs
  · constructor
    · rintro ⟨ch, h⟩; rw [h] at hs; exact hs
    · intro hall
      revert hs
      cases keys c p with
      | ok ks =>
        rintro ⟨m, _, _, hb, _⟩
        exact absurd hb (hall (m + 1) m (by omega)).1
      | missing a b =>
        rintro ⟨m, _, rfl, rfl, hb, he⟩
        have := (hall (m + 1) m (by omega)).2
        rw [he] at this; cases this
      | cycle ch => intro _; exact ⟨ch, rfl⟩
      | fuel => intro h; exact absurd h id
  · intro ks h
    rw [h] at hs
    obtain ⟨m, _, hc, hb, hk, hnd, hz⟩ := hs
    refine ⟨?_, ?_⟩
    · intro k hkne
      rw [hk k hkne]
      constructor
      · rintro ⟨i, _, him, hi⟩
        -- the nearest one
        have : ∃ n, n ≤ m ∧ Undefined c p k n ∧ ∃ v, localValue c (ancestor c p n) k = some v := by
          have hi' := (localKeys_iff c h1 _ _).1 hi
          clear hi
          induction i using Nat.strongRecOn with
          | ind i ih =>
            by_cases hex : ∃ j, j < i ∧ ∃ v, localValue c (ancestor c p j) k = some v
            · obtain ⟨j, hj, hv⟩ := hex
              exact ih j hj (by omega) (by omega) hv
            · refine ⟨i, him, ?_, hi'⟩
              intro j hj
              cases hl : localValue c (ancestor c p j) k with
              | none => rfl
              | some v => exact absurd ⟨j, hj, v, hl⟩ hex
        obtain ⟨n, hnm, hu, v, hv⟩ := this
        exact ⟨v, (C40_value_is_nearest c p k v).2
          ⟨n, fun i hi => hc i (by omega), hu, hv⟩⟩
      · rintro ⟨v, hv⟩
        obtain ⟨n, hc', hu, hv'⟩ := (C40_value_is_nearest c p k v).1 hv
        refine ⟨n, by omega, ?_, (localKeys_iff c h1 _ _).2 ⟨v, hv'⟩⟩
        by_cases h : n ≤ m
        · exact h
        · exact absurd hb (hc' m (by omega)).1
    · intro hbp
      apply hnd
      cases m with
      | zero => exact absurd hb hbp
      | succ m => omega

/-- **C40 (own values).** The model's notion of "a profile defines a key" is the one of the
specification: what the project or the command line gives wins over what is stored. -/
theorem C40_own_definitions (c : Cfg) (p : Name) (k : Key) :
    localValue c p k = own c p k := by
  unfold localValue own values stored assoc
  cases c.profiles.find? (fun e => e.1 == p) with
  | none =>
    cases c.settings.find? (fun e => e.1 == p) with
    | none => rfl
    | some f => cases hf : f.2.find? (fun e => e.1 == k) <;> simp [hf]
  | some e =>
    cases c.settings.find? (fun e => e.1 == p) with
    | none => cases he : e.2.find? (fun e => e.1 == k) <;> simp [he]
    | some f =>
      cases he : e.2.find? (fun e => e.1 == k) <;>
      cases hf : f.2.find? (fun e => e.1 == k) <;> simp [he, hf]

/-! ### Examples and findings -/

/-- gcc <- gcc-debug <- mine, and two profiles based on each other. -/
def exC : Cfg where
  profiles := [("mine", [("baseProfile", "gcc-debug"), ("qbs.optimization", "none")])]
  settings := [("gcc", [("cpp.compiler", "gcc"), ("qbs.debug", "false")]),
    ("gcc-debug", [("baseProfile", "gcc"), ("qbs.debug", "true")]),
    ("a", [("baseProfile", "b"), ("x", "1")]), ("b", [("baseProfile", "a")]),
    ("dangling", [("baseProfile", "gone")])]

example : value exC "mine" "qbs.debug" = .ok (some "true") := by decide +kernel
example : value exC "mine" "cpp.compiler" = .ok (some "gcc") := by decide +kernel
example : value exC "mine" "other" = .ok none := by decide +kernel
example : value exC "b" "x" = .ok (some "1") := by decide +kernel
example : value exC "b" "y" = .cycle ["b", "a", "b"] := by decide +kernel
example : value exC "dangling" "y" = .missing "dangling" "gone" := by decide +kernel
example : keys exC "mine" = .ok ["cpp.compiler", "qbs.debug", "qbs.optimization"] := by
  decide +kernel
example : OnePlace exC := by
  intro p
  by_cases h : p = "mine"
  · right; subst h; rfl
  · left
    simp [values, assoc, exC, Ne.symm h]

/-- **C40 (finding).** If a profile is defined in the project as well as in the settings, `value`
finds the keys from the settings but `allKeys` does not list them. -/
theorem C40_keys_of_overridden_profile_missing :
    ∃ c, value c "p" "a" = .ok (some "1") ∧ keys c "p" = .ok ["b"] :=
  ⟨{ profiles := [("p", [("b", "2")])], settings := [("p", [("a", "1")])] },
    by decide +kernel, by decide +kernel⟩

end Verif.Profile
