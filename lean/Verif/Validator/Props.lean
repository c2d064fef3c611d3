import Verif.Validator.Spec
import Verif.Common.Snoc

/-! # C133: validation of properties -/

namespace Verif.Validator

open Spec

/-! ## Matching -/

theorem digit_iff (c : Char) : isDigit c = true ↔ '0' ≤ c ∧ c ≤ '9' := by
  simp [isDigit]

theorem plus_iff (s r : Str) : r ∈ plus s ↔ ∃ w, IsNumber w ∧ s = w ++ r := by
  induction s generalizing r with
  | nil =>
    simp only [plus, List.not_mem_nil, false_iff]
    rintro ⟨w, h, e⟩
    exact h.1 (List.append_eq_nil_iff.mp e.symm).1
  | cons c s ih =>
    rw [plus]
    by_cases hc : isDigit c = true
    · rw [if_pos hc, List.mem_cons, ih]
      constructor
      · rintro (h | ⟨w, h, e⟩)
        · subst h
          exact ⟨[c], ⟨by simp, by simpa using (digit_iff c).mp hc⟩, rfl⟩
        · refine ⟨c :: w, ⟨by simp, ?_⟩, by rw [e]; rfl⟩
          intro d hd
          rcases List.mem_cons.mp hd with hd | hd
          · subst hd; exact (digit_iff d).mp hc
          · exact h.2 d hd
      · rintro ⟨w, h, e⟩
        cases w with
        | nil => exact absurd rfl h.1
        | cons d w =>
          simp only [List.cons_append, List.cons.injEq] at e
          by_cases hw : w = []
          · left; rw [e.2, hw]; rfl
          · right
            exact ⟨w, ⟨hw, fun x hx => h.2 x (by simp [hx])⟩, e.2⟩
    · rw [if_neg hc]
      simp only [List.not_mem_nil, false_iff]
      rintro ⟨w, h, e⟩
      cases w with
      | nil => exact h.1 rfl
      | cons d w =>
        simp only [List.cons_append, List.cons.injEq] at e
        exact hc ((digit_iff c).mpr (by rw [e.1]; exact h.2 d (by simp)))

theorem dotPlus_iff (s r : Str) : r ∈ dotPlus s ↔ ∃ w, IsNumber w ∧ s = '.' :: (w ++ r) := by
  cases s with
  | nil => simp [dotPlus]
  | cons c s =>
    rw [dotPlus]
    by_cases hc : c = '.'
    · rw [if_pos hc, plus_iff, hc]; simp
    · rw [if_neg hc]
      simp only [List.not_mem_nil, List.cons.injEq, false_iff]
      rintro ⟨w, _, e, _⟩
      exact hc e

theorem times_iff (n : Nat) (s r : Str) :
    r ∈ times n s ↔ ∃ ws : List Str, ws.length = n ∧ (∀ x ∈ ws, IsNumber x) ∧ s = (ws.map ('.' :: ·)).flatten ++ r := by
  induction n generalizing s with
  | zero =>
    simp only [times, List.mem_singleton]
    constructor
    · intro h; exact ⟨[], rfl, by simp, by simp [h]⟩
    · rintro ⟨ws, h, _, e⟩
      have : ws = [] := List.length_eq_zero_iff.mp h
      subst this
      simpa using e.symm
  | succ n ih =>
    simp only [times, List.mem_flatMap]
    constructor
    · rintro ⟨t, h1, h2⟩
      obtain ⟨w, hw, e⟩ := (dotPlus_iff _ _).mp h1
      obtain ⟨ws, h3, h4, h5⟩ := (ih t).mp h2
      refine ⟨w :: ws, by simp [h3], ?_, by simp [e, h5]⟩
      intro x hx
      rcases List.mem_cons.mp hx with h | h
      · subst h; exact hw
      · exact h4 x h
    · rintro ⟨ws, h1, h2, h3⟩
      cases ws with
      | nil => simp at h1
      | cons w ws =>
        refine ⟨(ws.map ('.' :: ·)).flatten ++ r, (dotPlus_iff _ _).mpr ⟨w, h2 w (by simp), by simp [h3]⟩, ?_⟩
        exact (ih _).mpr ⟨ws, by simpa using h1, fun x hx => h2 x (by simp [hx]), rfl⟩

theorem flat_length (ws : List Str) : ws.length ≤ ((ws.map ('.' :: ·)).flatten).length := by
  induction ws with
  | nil => simp
  | cons w ws ih =>
    rw [List.map_cons, List.flatten_cons, List.length_append, List.length_cons, List.length_cons]
    omega

theorem match_iff (lo : Nat) (hi : Option Nat) (anchored : Bool) (s : Str) :
    matchVersion lo hi anchored s = true ↔
      ∃ (k : Nat) (v rest : Str), IsVersion k v ∧ s = v ++ rest ∧ lo + 1 ≤ k ∧ (∀ h, hi = some h → k ≤ h + 1) ∧
        (anchored = true → rest = []) := by
  unfold matchVersion
  simp only [List.any_eq_true, Bool.and_eq_true, decide_eq_true_eq, Bool.or_eq_true, Bool.not_eq_true', List.isEmpty_iff]
  constructor
  · rintro ⟨r, hr, n, _, ⟨h1, h2⟩, t, ht, h3⟩
    obtain ⟨w, hw, e⟩ := (plus_iff _ _).mp hr
    obtain ⟨ws, h4, h5, h6⟩ := (times_iff _ _ _).mp ht
    refine ⟨n + 1, w ++ (ws.map ('.' :: ·)).flatten, t, ⟨w, ws, by rw [h4], hw, h5, rfl⟩, by rw [e, h6, List.append_assoc], by omega, ?_, ?_⟩
    · intro h hh
      subst hh
      simp at h2
      omega
    · intro ha
      rcases h3 with h3 | h3
      · rw [ha] at h3; cases h3
      · exact h3
  · rintro ⟨k, v, rest, ⟨w, ws, hk, hw, hws, hv⟩, hs, h1, h2, h3⟩
    refine ⟨(ws.map ('.' :: ·)).flatten ++ rest, (plus_iff _ _).mpr ⟨w, hw, by rw [hs, hv, List.append_assoc]⟩, ws.length, ?_, ⟨by omega, ?_⟩,
      rest, (times_iff _ _ _).mpr ⟨ws, rfl, hws, rfl⟩, ?_⟩
    · rw [List.mem_range, hs, hv]
      have := flat_length ws
      simp only [List.length_append]
      omega
    · cases hi with
      | none => rfl
      | some h => have := h2 h rfl; simp; omega
    · cases anchored with
      | false => exact Or.inl rfl
      | true => exact Or.inr (h3 rfl)

theorem version_ne {k : Nat} {v : Str} (h : IsVersion k v) : v ≠ [] := by
  obtain ⟨w, ws, _, hw, _, e⟩ := h
  rw [e]
  intro e'
  exact hw.1 (List.append_eq_nil_iff.mp e').1

theorem lower_iff {min : Option Nat} {k : Nat} (hk : 1 ≤ k) : lowerBound min + 1 ≤ k ↔ ∀ a, min = some a → a ≤ k := by
  cases min with
  | none => simp [lowerBound, hk]
  | some a => simp [lowerBound]; omega

theorem version_pos {k : Nat} {v : Str} (h : IsVersion k v) : 1 ≤ k := by
  obtain ⟨w, ws, hk, _⟩ := h
  omega

/-- **C133.** Without suffixes, and with a maximum that is not 1, exactly the versions with an allowed number of components are valid. -/
theorem C133_version_partial (min max : Option Nat) (v : Value) (hm : max ≠ some 1) (h0 : max ≠ some 0) :
    versionValid min max false v = true ↔
      ∃ (s : Str) (k : Nat), v = .str s ∧ IsVersion k s ∧ (∀ a, min = some a → a ≤ k) ∧ (∀ b, max = some b → k ≤ b) := by
  cases v with
  | str s =>
    simp only [versionValid, Bool.and_eq_true, bne_iff_ne, ne_eq, Bool.not_false, match_iff, Value.str.injEq]
    constructor
    · rintro ⟨_, k, v, rest, h1, h2, h3, h4, h5⟩
      have h5 := h5 trivial
      subst h5
      rw [List.append_nil] at h2
      subst h2
      refine ⟨s, k, rfl, h1, (lower_iff (version_pos h1)).mp h3, ?_⟩
      intro b hb
      subst hb
      have hb1 : ¬ b - 1 = 0 := by
        intro e
        have : b = 0 ∨ b = 1 := by omega
        rcases this with e | e
        · exact h0 (by rw [e])
        · exact hm (by rw [e])
      have := h4 (b - 1) (by simp [upperBound, hb1])
      omega
    · rintro ⟨s', k, e, h1, h2, h3⟩
      subst e
      refine ⟨version_ne h1, k, s, [], h1, by simp, (lower_iff (version_pos h1)).mpr h2, ?_, fun _ => rfl⟩
      intro h hh
      cases max with
      | none => cases hh
      | some b =>
        have := h3 b rfl
        simp only [upperBound] at hh
        split at hh
        · cases hh
        · injection hh with hh; omega
  | _ => simp [versionValid]

/-- **C133.** With suffixes, exactly the texts are valid that begin with a version that has enough components. -/
theorem C133_suffix_partial (min max : Option Nat) (v : Value) (hb : boundsOk min max = true) (h0 : max ≠ some 0) :
    versionValid min max true v = true ↔
      ∃ (s suffix : Str) (k : Nat), v = .str (s ++ suffix) ∧ IsVersion k s ∧ (∀ a, min = some a → a ≤ k) ∧ (∀ b, max = some b → k ≤ b) := by
  cases v with
  | str s =>
    simp only [versionValid, Bool.and_eq_true, bne_iff_ne, ne_eq, Bool.not_true, match_iff, Value.str.injEq]
    constructor
    · rintro ⟨_, k, v, rest, h1, h2, h3, _, _⟩
      -- the first components are enough
      obtain ⟨w, ws, hk, hw, hws, hv⟩ := h1
      have h3' := (lower_iff (by omega)).mp h3
      obtain ⟨m, hm1, hm2, hm3⟩ : ∃ m, m ≤ ws.length ∧ (∀ a, min = some a → a ≤ m + 1) ∧ (∀ b, max = some b → m + 1 ≤ b) := by
        refine ⟨lowerBound min, by omega, (lower_iff (by omega)).mp (Nat.le_refl _), ?_⟩
        intro b hb'
        subst hb'
        have : b ≠ 0 := fun e => h0 (by rw [e])
        cases min with
        | none => simp [lowerBound]; omega
        | some a =>
          simp [boundsOk] at hb
          simp [lowerBound]
          omega
      refine ⟨w ++ ((ws.take m).map ('.' :: ·)).flatten, ((ws.drop m).map ('.' :: ·)).flatten ++ rest, m + 1, ?_,
        ⟨w, ws.take m, by simp; omega, hw, fun x hx => hws x (List.mem_of_mem_take hx), rfl⟩, hm2, hm3⟩
      have : (ws.map ('.' :: ·)).flatten = ((ws.take m).map ('.' :: ·)).flatten ++ ((ws.drop m).map ('.' :: ·)).flatten := by
        rw [← List.flatten_append, ← List.map_append, List.take_append_drop]
      rw [h2, hv, this]
      simp
    · rintro ⟨s', suf, k, e, h1, h2, h3⟩
      refine ⟨?_, k, s', suf, h1, e, (lower_iff (version_pos h1)).mpr h2, ?_, by simp⟩
      · rw [e]; intro e'; exact version_ne h1 (List.append_eq_nil_iff.mp e').1
      · intro h hh
        cases max with
        | none => cases hh
        | some b =>
          have := h3 b rfl
          simp only [upperBound] at hh
          split at hh
          · cases hh
          · injection hh with hh; omega
  | _ => simp [versionValid]

/-- **C133 finding.** A maximum of one component is no maximum: all versions are valid. -/
theorem C133_max_one (min : Option Nat) (k : Nat) (s : Str) (h : IsVersion k s) (hm : min = none ∨ min = some 1) :
    versionValid min (some 1) false (.str s) = true := by
  simp only [versionValid, Bool.and_eq_true, bne_iff_ne, ne_eq, Bool.not_false, match_iff]
  refine ⟨version_ne h, k, s, [], h, by simp, ?_, ?_, fun _ => rfl⟩
  · have := version_pos h
    rcases hm with hm | hm <;> subst hm <;> simpa [lowerBound] using this
  · intro x hx; simp [upperBound] at hx

/-- **C133 finding.** If suffixes are allowed, the maximum has no effect: what is too much counts as the suffix. -/
theorem C133_suffix_no_max (min : Option Nat) (m : Nat) (v : Value) (hm : m ≠ 0) (hb : boundsOk min (some m) = true) :
    versionValid min (some m) true v = versionValid min none true v := by
  have hb' : boundsOk min none = true := by
    cases min with
    | none => rfl
    | some a => simp [boundsOk] at hb ⊢; exact hb.1
  have h2 := C133_suffix_partial min none v hb' (by simp)
  have h1 : versionValid min (some m) true v = true ↔ versionValid min none true v = true := by
    constructor
    · intro h
      rw [C133_suffix_partial min (some m) v hb (by simpa using hm)] at h
      obtain ⟨s, suf, k, e1, e2, e3, _⟩ := h
      exact h2.mpr ⟨s, suf, k, e1, e2, e3, by simp⟩
    · intro h
      cases v with
      | str s =>
        simp only [versionValid, Bool.and_eq_true, bne_iff_ne, ne_eq, Bool.not_true, match_iff] at h ⊢
        obtain ⟨hs, k, v, rest, ⟨w, ws, hk, hw, hws, hv⟩, e2, e3, _, _⟩ := h
        refine ⟨hs, lowerBound min + 1, w ++ ((ws.take (lowerBound min)).map ('.' :: ·)).flatten,
          ((ws.drop (lowerBound min)).map ('.' :: ·)).flatten ++ rest,
          ⟨w, ws.take (lowerBound min), by simp; omega, hw, fun x hx => hws x (List.mem_of_mem_take hx), rfl⟩, ?_, Nat.le_refl _, ?_, by simp⟩
        · have : (ws.map ('.' :: ·)).flatten =
              ((ws.take (lowerBound min)).map ('.' :: ·)).flatten ++ ((ws.drop (lowerBound min)).map ('.' :: ·)).flatten := by
            rw [← List.flatten_append, ← List.map_append, List.take_append_drop]
          rw [e2, hv, this]
          simp
        · intro h hh
          simp only [upperBound] at hh
          split at hh
          · cases hh
          · injection hh with hh
            cases min with
            | none => simp [lowerBound]
            | some a => simp [boundsOk] at hb; simp [lowerBound]; omega
      | _ => simp [versionValid] at h
  cases hx : versionValid min none true v with
  | true => exact h1.mpr hx
  | false =>
    cases hy : versionValid min (some m) true v with
    | true => rw [h1.mp hy] at hx; cases hx
    | false => rfl

/-! ## Ranges -/

/-- **C133.** A value is in the range if and only if it is a number, whole unless fractions are allowed, and neither below the minimum nor
above the maximum. Numbers are compared as multiples of the unit. -/
theorem C133_range_partial (min max : Option Int) (allowFloats : Bool) (v : Value) (hn : v ≠ .num .nan) (hi : ∀ b, v ≠ .num (.inf b)) :
    rangeValid (min.map .fin) (max.map .fin) allowFloats v = true ↔
      ∃ x : Int, v = .num (.fin x) ∧ (allowFloats = false → unit ∣ x) ∧ (∀ a, min = some a → a ≤ x) ∧ (∀ b, max = some b → x ≤ b) := by
  cases v with
  | num x =>
    cases x with
    | nan => exact absurd rfl hn
    | inf b => exact absurd rfl (hi b)
    | fin x =>
      have hf : hasFraction (.fin x) = false ↔ unit ∣ x := by
        show (x % unit != 0) = false ↔ _
        rw [bne_eq_false_iff_eq]
        exact (Int.dvd_iff_emod_eq_zero).symm
      simp only [rangeValid, Value.num.injEq, Num.fin.injEq, exists_eq_left']
      cases allowFloats with
      | true =>
        cases min <;> cases max <;> simp [lt]
      | false =>
        simp only [← hf]
        cases hasFraction (.fin x) <;> cases min <;> cases max <;> simp [lt]
  | _ => simp [rangeValid]

/-- **C133.** Numbers that are not finite are no whole numbers. -/
theorem C133_range_whole (min max : Option Num) (x : Num) (h : ∀ k, x ≠ .fin k) : rangeValid min max false (.num x) = false := by
  cases x with
  | fin k => exact absurd rfl (h k)
  | _ => simp [rangeValid, hasFraction]

/-- **C133.** If fractions are allowed, an infinite value is in the range if and only if there is no bound on its side, other than itself. -/
theorem C133_range_infinite (min max : Option Num) (negative : Bool) (h1 : min ≠ some .nan) (h2 : max ≠ some .nan) :
    rangeValid min max true (.num (.inf negative)) = true ↔
      if negative then min = none ∨ min = some (.inf true) else max = none ∨ max = some (.inf false) := by
  cases negative with
  | true =>
    rcases min with _ | _ | b | k <;> rcases max with _ | _ | c | j <;> simp [rangeValid, lt] at h1 h2 ⊢
  | false =>
    rcases min with _ | _ | b | k <;> rcases max with _ | _ | c | j <;> simp [rangeValid, lt] at h1 h2 ⊢

/-- **C133 finding.** If fractions are allowed, the value that is not a number is in every range. -/
theorem C133_nan (min max : Option Num) : rangeValid min max true (.num .nan) = true := by
  cases min <;> cases max <;> simp [rangeValid, lt]
  all_goals (try (rename_i a; cases a <;> simp [lt]))
  all_goals (try (rename_i a b; cases a <;> cases b <;> simp [lt]))

/-! ## Validation -/

theorem isMissing_iff (v : Value) : isMissing v = true ↔ Missing v := by
  cases v <;> simp [isMissing, Missing]

theorem put_mem {β : Type} (l : List (Str × β)) (k : Str) (v : β) (hn : (l.map (·.1)).Nodup) (p : Str × β) :
    (p ∈ put l k v ↔ p = (k, v) ∨ p ∈ l ∧ p.1 ≠ k) ∧ ((put l k v).map (·.1)).Nodup ∧
    (∀ x, x ∈ (put l k v).map (·.1) ↔ x = k ∨ x ∈ l.map (·.1)) := by
  induction l with
  | nil => simp [put]
  | cons q l ih =>
    obtain ⟨k', v'⟩ := q
    rw [List.map_cons, List.nodup_cons] at hn
    obtain ⟨h1, h2, h3⟩ := ih hn.2
    rw [put]
    by_cases hk : k' = k
    · subst hk
      rw [if_pos rfl]
      refine ⟨?_, by simpa using hn, by simp⟩
      simp only [List.mem_cons]
      constructor
      · rintro (h | h)
        · exact Or.inl h
        · refine Or.inr ⟨Or.inr h, fun e => hn.1 ?_⟩
          exact List.mem_map.mpr ⟨p, h, e⟩
      · rintro (h | ⟨h | h, h'⟩)
        · exact Or.inl h
        · subst h; exact absurd rfl h'
        · exact Or.inr h
    · rw [if_neg hk]
      refine ⟨?_, ?_, ?_⟩
      · simp only [List.mem_cons, h1]
        constructor
        · rintro (h | h | h)
          · subst h; exact Or.inr ⟨Or.inl rfl, hk⟩
          · exact Or.inl h
          · exact Or.inr ⟨Or.inr h.1, h.2⟩
        · rintro (h | ⟨h | h, h'⟩)
          · exact Or.inr (Or.inl h)
          · exact Or.inl h
          · exact Or.inr (Or.inr ⟨h, h'⟩)
      · rw [List.map_cons, List.nodup_cons]
        refine ⟨fun e => ?_, h2⟩
        rcases (h3 _).mp e with e | e
        · exact hk e
        · exact hn.1 e
      · intro x
        simp only [List.map_cons, List.mem_cons, h3]
        constructor
        · rintro (h | h | h)
          · exact Or.inr (Or.inl h)
          · exact Or.inl h
          · exact Or.inr (Or.inr h)
        · rintro (h | h | h)
          · exact Or.inr (Or.inl h)
          · exact Or.inl h
          · exact Or.inr (Or.inr h)

theorem requiredMap_mem (rs : List Required) :
    ((requiredMap rs).map (·.1)).Nodup ∧
    ∀ r : Required, (r.name, (r.value, r.message)) ∈ requiredMap rs ↔ Last rs r := by
  induction rs using Verif.snoc_induction with
  | nil => simp [requiredMap, Last]
  | append_singleton rs a ih =>
    obtain ⟨h1, h2⟩ := ih
    have e : requiredMap (rs ++ [a]) = put (requiredMap rs) a.name (a.value, a.message) := by
      simp [requiredMap, List.foldl_append]
    rw [e]
    refine ⟨(put_mem _ _ _ h1 (a.name, (a.value, a.message))).2.1, ?_⟩
    intro r
    rw [(put_mem _ _ _ h1 _).1, h2]
    constructor
    · rintro (h | ⟨⟨pre, post, e1, e2⟩, h⟩)
      · have : r = a := by
          cases r; cases a; simp_all
        subst this
        exact ⟨rs, [], rfl, by simp⟩
      · refine ⟨pre, post ++ [a], by rw [e1]; simp, ?_⟩
        intro x hx
        rcases List.mem_append.mp hx with hx | hx
        · exact e2 x hx
        · rw [List.mem_singleton] at hx
          subst hx
          exact fun e => h e.symm
    · rintro ⟨pre, post, e1, e2⟩
      rcases post.eq_nil_or_concat with hp | ⟨post', b, hp⟩
      · subst hp
        have := List.append_inj' e1 rfl
        simp only [List.cons.injEq, and_true] at this
        left
        rw [this.2]
      · rw [List.concat_eq_append] at hp
        subst hp
        rw [← List.cons_append, ← List.append_assoc] at e1
        have := List.append_inj' e1 rfl
        simp only [List.cons.injEq, and_true] at this
        right
        refine ⟨⟨pre, post', this.1, fun x hx => e2 x (by simp [hx])⟩, fun e => ?_⟩
        exact e2 b (by simp) (by rw [← this.2]; exact e.symm)

theorem addMessage_perm (l : List (Str × List Str)) (k m : Str) :
    ((addMessage l k m).flatMap fun p => p.2.map fun m => ((p.1, some m) : Line)).Perm
      ((l.flatMap fun p => p.2.map fun m => ((p.1, some m) : Line)) ++ [(k, some m)]) := by
  induction l with
  | nil => simp [addMessage]
  | cons q l ih =>
    obtain ⟨k', ms⟩ := q
    rw [addMessage]
    by_cases hk : k' = k
    · subst hk
      rw [if_pos rfl]
      simp only [List.flatMap_cons, List.map_append, List.map_cons, List.map_nil, List.append_assoc]
      exact List.Perm.append_left _ List.perm_append_comm
    · rw [if_neg hk]
      simp only [List.flatMap_cons, List.append_assoc]
      exact List.Perm.append_left _ ih

/-- **C133.** The lines about invalid values are those of the checks that fail, each once, and no others. -/
theorem C133_invalid (cs : List Check) :
    (invalidLines cs).Perm ((cs.filter (fun c => !c.validator c.value)).map fun c => (c.name, some c.message)) := by
  induction cs using Verif.snoc_induction with
  | nil => simp [invalidLines, invalidMap]
  | append_singleton cs c ih =>
    have e : invalidMap (cs ++ [c]) =
        if c.validator c.value then invalidMap cs else addMessage (invalidMap cs) c.name c.message := by
      simp [invalidMap, List.foldl_append]
    unfold invalidLines at ih ⊢
    rw [e, List.filter_append, List.map_append]
    cases hv : c.validator c.value with
    | true => simpa [hv] using ih
    | false =>
      have h2 : ([c].filter (fun c => !c.validator c.value)).map (fun c => ((c.name, some c.message) : Line)) = [(c.name, some c.message)] := by
        simp [hv]
      rw [h2]
      simp only [Bool.false_eq_true, if_false]
      exact (addMessage_perm _ _ _).trans (List.Perm.append_right _ ih)

/-- **C133.** There is one line for each required property that has no value, as of the last call for it, with the message of this call. -/
theorem C133_missing (rs : List Required) :
    ((missingLines rs).map (·.1)).Nodup ∧
    ∀ (n : Str) (m : Option Str), (n, m) ∈ missingLines rs ↔
      ∃ r : Required, Last rs r ∧ Missing r.value ∧ r.name = n ∧ m = (if r.message = some [] then none else r.message) := by
  obtain ⟨h1, h2⟩ := requiredMap_mem rs
  constructor
  · unfold missingLines
    rw [List.map_map]
    exact (List.Sublist.map _ List.filter_sublist).nodup h1
  · intro n m
    unfold missingLines
    simp only [List.mem_map, List.mem_filter]
    constructor
    · rintro ⟨⟨k, v, msg⟩, ⟨h3, h4⟩, h5⟩
      simp only [Prod.mk.injEq] at h5
      refine ⟨⟨k, v, msg⟩, (h2 ⟨k, v, msg⟩).mp h3, (isMissing_iff _).mp h4, h5.1, ?_⟩
      rw [← h5.2]
      cases msg with
      | none => rfl
      | some x => by_cases hx : x = [] <;> simp [hx]
    · rintro ⟨r, h3, h4, h5, h6⟩
      refine ⟨(r.name, (r.value, r.message)), ⟨(h2 r).mpr h3, (isMissing_iff _).mpr h4⟩, ?_⟩
      rw [h6, ← h5]
      cases hm : r.message with
      | none => rfl
      | some x => by_cases hx : x = [] <;> simp [hx]

/-- **C133.** Validation succeeds if and only if all required properties have values, as of the last call for each, and no check fails. If
it does not succeed, it throws its lines, unless it is asked to return. -/
theorem C133_validate (rs : List Required) (cs : List Check) (throwOnError : Bool) :
    (validate rs cs throwOnError = .returned true ↔
      (∀ r, Last rs r → ¬ Missing r.value) ∧ ∀ c ∈ cs, c.validator c.value = true) ∧
    (validate rs cs throwOnError ≠ .returned true →
      validate rs cs throwOnError = if throwOnError then .thrown (missingLines rs) (invalidLines cs) else .returned false) := by
  have hm : (missingLines rs).isEmpty = true ↔ ∀ r, Last rs r → ¬ Missing r.value := by
    rw [List.isEmpty_iff]
    constructor
    · intro h r h1 h2
      have := ((C133_missing rs).2 r.name _).mpr ⟨r, h1, h2, rfl, rfl⟩
      rw [h] at this
      cases this
    · intro h
      cases hl : missingLines rs with
      | nil => rfl
      | cons x l =>
        obtain ⟨r, h1, h2, _⟩ := ((C133_missing rs).2 x.1 x.2).mp (by rw [hl]; simp)
        exact absurd h2 (h r h1)
  have hi : (invalidLines cs).isEmpty = true ↔ ∀ c ∈ cs, c.validator c.value = true := by
    rw [List.isEmpty_iff]
    constructor
    · intro h
      have := C133_invalid cs
      rw [h] at this
      have := this.symm.eq_nil
      simp only [List.map_eq_nil_iff, List.filter_eq_nil_iff] at this
      intro c hc
      simpa using this c hc
    · intro h
      have h0 : cs.filter (fun c => !c.validator c.value) = [] := by
        rw [List.filter_eq_nil_iff]
        intro c hc
        simp [h c hc]
      have := C133_invalid cs
      rw [h0] at this
      exact this.eq_nil
  rw [← hm, ← hi]
  unfold validate
  cases (missingLines rs).isEmpty <;> cases (invalidLines cs).isEmpty <;> cases throwOnError <;> simp

/-- **C133.** File names are valid if and only if they have no character that file systems or shells reserve, no control character, and are
not those of the directory itself and of its parent. -/
theorem C133_file_name (s : Str) :
    fileNameValid s = true ↔ s ≠ ['.'] ∧ s ≠ ['.', '.'] ∧
      ∀ c ∈ s, c ∉ "/?<>\\:*|\"".toList ∧ 0x1f < c.toNat ∧ ¬ (0x80 ≤ c.toNat ∧ c.toNat ≤ 0x9f) := by
  have hr : ∀ c : Char, reserved c = false ↔ c ∉ "/?<>\\:*|\"".toList ∧ 0x1f < c.toNat ∧ ¬ (0x80 ≤ c.toNat ∧ c.toNat ≤ 0x9f) := by
    intro c
    have e : "/?<>\\:*|\"".toList = ['/', '?', '<', '>', '\\', ':', '*', '|', '"'] := rfl
    rw [e]
    unfold reserved
    simp only [Bool.or_eq_false_iff, decide_eq_false_iff_not, Bool.and_eq_false_iff]
    constructor
    · rintro ⟨⟨h1, h2⟩, h3⟩
      exact ⟨h1, by omega, by omega⟩
    · rintro ⟨h1, h2, h3⟩
      exact ⟨⟨h1, by omega⟩, by omega⟩
  unfold fileNameValid
  simp only [Bool.and_eq_true, bne_iff_ne, ne_eq, Bool.not_eq_true', List.any_eq_false, Bool.not_eq_true, hr]
  constructor
  · rintro ⟨⟨h1, h2⟩, h3⟩; exact ⟨h2, h3, h1⟩
  · rintro ⟨h2, h3, h1⟩; exact ⟨⟨h1, h2⟩, h3⟩

end Verif.Validator
