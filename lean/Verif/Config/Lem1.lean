import Verif.Config.Spec
/-!
# C109: values, keys and lines
-/
namespace Verif.Config

open Verif.Literal (Str Var JsVal lit litInt litBool litStr escape Good GoodAll GoodEntries evaluate OneLine tailItems
  litEntries litItems)

/-! ### Values -/

mutual
theorem toVariant_value : ∀ v : Var, Good v → Small v → toVariant (Literal.value v) = v
  | .invalid, _, _ => by simp [Literal.value, toVariant]
  | .bool b, _, _ => by simp [Literal.value, toVariant]
  | .int n, _, h => by
    simp only [Small] at h
    simp only [Literal.value, toVariant, if_pos h]
  | .str s, _, _ => by simp [Literal.value, toVariant]
  | .list l, hg, hs => by
    simp only [Good] at hg
    simp only [Small] at hs
    simp only [Literal.value, toVariant, toVariants_values l hg hs]
  | .map l, hg, hs => by
    simp only [Good] at hg
    simp only [Small] at hs
    simp only [Literal.value, toVariant, toEntries_values l hg.2 hs]
  | .double _, hg, _ => by simp [Good] at hg
  | .other _, hg, _ => by simp [Good] at hg
theorem toVariants_values : ∀ l : List Var, GoodAll l → SmallAll l → toVariants (Literal.values l) = l
  | [], _, _ => rfl
  | v :: l, hg, hs => by
    simp only [GoodAll] at hg
    simp only [SmallAll] at hs
    simp only [Literal.values, toVariants, toVariant_value v hg.1 hs.1, toVariants_values l hg.2 hs.2]
theorem toEntries_values : ∀ l : List (Str × Var), GoodEntries l → SmallEntries l →
    toEntries (Literal.entryValues l) = l
  | [], _, _ => rfl
  | (k, v) :: l, hg, hs => by
    simp only [GoodEntries] at hg
    simp only [SmallEntries] at hs
    simp only [Literal.entryValues, toEntries, toVariant_value v hg.2.2.1 hs.1,
      toEntries_values l hg.2.2.2 hs.2]
end

theorem variantFromString_lit (v : Var) (hg : Good v) (hs : Small v) :
    variantFromString (lit v) = some v := by
  unfold variantFromString
  rw [if_neg (Literal.lit_ne_nil v), Literal.C38_variant_partial v hg]
  simp only [Option.map_some, toVariant_value v hg hs]

theorem representationToVariant_lit (v : Var) (hg : Good v) (hs : Small v) :
    representationToVariant (lit v) = v := by
  unfold representationToVariant
  rw [variantFromString_lit v hg hs]
  cases v <;> first | rfl | (simp [Good] at hg)

theorem good_of_ok {v : SVal} (h : ValOk v) :
    Good (settingsValueToVariant v) ∧ Small (settingsValueToVariant v) := by
  cases v with
  | plain v =>
    cases v <;> simp_all [ValOk, settingsValueToVariant, Small]
  | hash v =>
    cases v <;> simp_all [ValOk, settingsValueToVariant, Small, Good]
    omega

theorem representation_back (v : SVal) (h : ValOk v) :
    representationToSettingsValue (settingsValueToRepresentation v) = v := by
  unfold representationToSettingsValue settingsValueToRepresentation
  rw [representationToVariant_lit _ (good_of_ok h).1 (good_of_ok h).2]
  cases v with
  | plain v => cases v <;> simp_all [ValOk, settingsValueToVariant]
  | hash v => cases v <;> simp_all [ValOk, settingsValueToVariant]

/-! ### One line -/

theorem digit_plain {c : Char} (h : c.isDigit = true) : c ≠ '\n' ∧ isSpace c = false := by
  have h' : 48 ≤ c.toNat ∧ c.toNat ≤ 57 := by
    simp only [Char.isDigit, Bool.and_eq_true, decide_eq_true_eq, UInt32.le_iff_toNat_le] at h
    exact h
  refine ⟨?_, ?_⟩
  · rintro rfl
    revert h
    decide
  · unfold isSpace
    simp only [List.contains_cons, List.contains_nil, Bool.or_false, Bool.or_eq_false_iff, Bool.and_eq_false_iff,
      decide_eq_false_iff_not, beq_eq_false_iff_ne]
    omega

theorem escape_no_break (s : Str) (h : '\n' ∉ s) : '\n' ∉ escape s := by
  induction s with
  | nil => simp [escape]
  | cons c s ih =>
    have h1 : '\n' ≠ c := fun e => h (by rw [e]; simp)
    have h2 := ih (fun e => h (by simp [e]))
    unfold escape
    split
    · simp [h1, h2]
    · simp [h1, h2]

theorem litStr_no_break (s : Str) (h : OneLine s) : '\n' ∉ litStr s := by
  have h' : '\n' ∉ s := fun hm => by have := h _ hm; revert this; decide
  have := escape_no_break s h'
  simp [litStr, this]

theorem litInt_no_break (n : Int) : '\n' ∉ litInt n := by
  have : '\n' ∉ Digits.number n.natAbs := fun hm => (digit_plain (Digits.number_isDigit _ _ hm)).1 rfl
  unfold litInt
  split <;> simp [this]

mutual
theorem lit_no_break : ∀ v : Var, Good v → '\n' ∉ lit v
  | .invalid, _ => by rw [lit]; decide
  | .bool b, _ => by rw [lit]; cases b <;> decide
  | .int n, _ => by rw [lit]; exact litInt_no_break n
  | .str s, h => by rw [lit]; exact litStr_no_break s (by simpa [Good] using h)
  | .list [], _ => by simp [lit, litItems]
  | .list (v :: l), h => by
    simp only [Good, GoodAll] at h
    rw [lit, Literal.litItems_cons]
    have h1 := lit_no_break v h.1
    have h2 := tailItems_no_break l h.2
    simp [h1, h2]
  | .map l, h => by
    simp only [Good] at h
    rw [lit]
    have := litEntries_no_break true l h.2
    simp [this]
  | .double _, h => by simp [Good] at h
  | .other _, h => by simp [Good] at h
theorem tailItems_no_break : ∀ l : List Var, GoodAll l → '\n' ∉ tailItems l
  | [], _ => by simp [tailItems]
  | v :: l, h => by
    simp only [GoodAll] at h
    have h1 := lit_no_break v h.1
    have h2 := tailItems_no_break l h.2
    simp [tailItems, h1, h2]
theorem litEntries_no_break : ∀ (first : Bool) (l : List (Str × Var)), GoodEntries l →
    '\n' ∉ litEntries first l
  | _, [], _ => by simp [litEntries]
  | first, (k, v) :: l, h => by
    simp only [GoodEntries] at h
    have h1 := lit_no_break v h.2.2.1
    have h2 := litEntries_no_break false l h.2.2.2
    have h3 := litStr_no_break k h.1
    cases first <;> simp [litEntries, h1, h2, h3]
end

/-! ### White space -/

theorem dropWhile_self {s : Str} (h : ∀ c, s.head? = some c → isSpace c = false) :
    s.dropWhile isSpace = s := by
  cases s with
  | nil => rfl
  | cons c s => rw [List.dropWhile_cons_of_neg]; simp [h c rfl]

theorem trimmed_self {s : Str} (h : ∀ c, s.head? = some c ∨ s.getLast? = some c → isSpace c = false) :
    trimmed s = s := by
  unfold trimmed
  rw [dropWhile_self (fun c hc => h c (Or.inl hc)), dropWhile_self (s := s.reverse), List.reverse_reverse]
  intro c hc
  rw [List.head?_reverse] at hc
  exact h c (Or.inr hc)

theorem trimmed_space {s : Str} (h : ∀ c, s.head? = some c ∨ s.getLast? = some c → isSpace c = false) :
    trimmed (' ' :: s) = s := by
  have := trimmed_self h
  unfold trimmed at this ⊢
  rw [List.dropWhile_cons_of_pos (by decide)]
  exact this

theorem getLast?_snoc (s : Str) (c : Char) : (s ++ [c]).getLast? = some c := by simp

theorem litInt_ends (n : Int) (c : Char) (h : (litInt n).head? = some c ∨ (litInt n).getLast? = some c) :
    isSpace c = false := by
  have hd : ∀ c ∈ Digits.number n.natAbs, isSpace c = false :=
    fun c hc => (digit_plain (Digits.number_isDigit _ _ hc)).2
  have hm : c ∈ litInt n := by
    rcases h with h | h
    · exact List.mem_of_head? h
    · exact List.mem_of_getLast? h
  unfold litInt at hm
  split at hm
  · rcases List.mem_cons.1 hm with rfl | hm
    · decide
    · exact hd c hm
  · exact hd c hm

theorem lit_ends (v : Var) (hg : Good v) (c : Char)
    (h : (lit v).head? = some c ∨ (lit v).getLast? = some c) : isSpace c = false := by
  have key : ∀ (a b : Char) (s : Str), isSpace a = false → isSpace b = false →
      ((a :: s ++ [b]).head? = some c ∨ (a :: s ++ [b]).getLast? = some c) → isSpace c = false := by
    intro a b s ha hb hc
    rcases hc with hc | hc
    · simp only [List.cons_append, List.head?_cons, Option.some.injEq] at hc; rwa [← hc]
    · rw [getLast?_snoc] at hc
      simp only [Option.some.injEq] at hc
      rwa [← hc]
  cases v with
  | invalid =>
    rw [lit] at h
    rcases h with h | h <;> (simp at h; subst h; decide)
  | bool b =>
    rw [lit] at h
    cases b <;> rcases h with h | h <;> (simp [litBool] at h; subst h; decide)
  | int n => rw [lit] at h; exact litInt_ends n c h
  | str s => rw [lit] at h; exact key '"' '"' _ (by decide) (by decide) h
  | list l => rw [lit] at h; exact key '[' ']' _ (by decide) (by decide) h
  | map l => rw [lit] at h; exact key '{' '}' _ (by decide) (by decide) h
  | double t => exact absurd hg (by simp [Good])
  | other t => exact absurd hg (by simp [Good])

/-! ### Lines -/

theorem readLines_line (l rest : Str) (h : '\n' ∉ l) :
    readLines (l ++ '\n' :: rest) = l :: readLines rest := by
  induction l with
  | nil => simp [readLines]
  | cons c l ih =>
    have h1 : c ≠ '\n' := fun e => h (by simp [e])
    rw [List.cons_append, readLines, if_neg h1, ih (fun e => h (by simp [e]))]

theorem readLine_of (k : Str) (v : SVal) (hk : KeyOk k) (hv : ValOk v) :
    readLine (k ++ ": ".toList ++ settingsValueToRepresentation v) = some (k, v) := by
  have hne : ∀ c ∈ k, (decide (c ≠ ':')) = true := by
    intro c hc
    simp only [decide_eq_true_eq]
    rintro rfl
    exact hk.noColon hc
  have ht : (k ++ ": ".toList ++ settingsValueToRepresentation v).takeWhile (· ≠ ':') = k := by
    rw [List.append_assoc, List.takeWhile_append_of_pos hne]
    simp
  have hd : (k ++ ": ".toList ++ settingsValueToRepresentation v).dropWhile (· ≠ ':')
      = ':' :: ' ' :: settingsValueToRepresentation v := by
    rw [List.append_assoc, List.dropWhile_append_of_pos hne]
    simp
  unfold readLine splitLine
  rw [if_pos, ht, hd, List.tail_cons, trimmed_self hk.noSpace, trimmed_space, Option.map_some,
    representation_back v hv]
  · exact fun c hc => lit_ends _ (good_of_ok hv).1 c hc
  · simp only [Bool.and_eq_true]
    refine ⟨by simp, ?_⟩
    cases k with
    | nil => simp
    | cons c k =>
      have := hk.noComment
      simp only [List.head?_cons, ne_eq, Option.some.injEq] at this
      simp [this]

end Verif.Config
