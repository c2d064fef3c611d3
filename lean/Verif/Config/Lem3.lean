import Verif.Config.Lem2
/-!
# C109: JSON
-/
namespace Verif.Config

open Verif.Literal (Str Var)
open Verif.Settings (internalRepresentation externalRepresentation forbidden)

/-! ### Values -/

mutual
/-- No floating point numbers and other types. -/
def Simple : Var → Prop
  | .double _ => False
  | .other _ => False
  | .list l => SimpleAll l
  | .map l => SimpleEntries l
  | _ => True
def SimpleAll : List Var → Prop
  | [] => True
  | v :: l => Simple v ∧ SimpleAll l
def SimpleEntries : List (Str × Var) → Prop
  | [] => True
  | p :: l => SimpleEntry p ∧ SimpleEntries l
def SimpleEntry : Str × Var → Prop
  | (_, v) => Simple v
end

mutual
theorem variantOf_ofVariant : ∀ v : Var, Simple v → variantOf (ofVariant v) = v
  | .invalid, _ => rfl
  | .bool _, _ => rfl
  | .int _, _ => rfl
  | .str _, _ => rfl
  | .list l, h => by
    simp only [Simple] at h
    simp only [ofVariant, variantOf, variantsOf_ofVariants l h]
  | .map l, h => by
    simp only [Simple] at h
    simp only [ofVariant, variantOf, entriesOf_ofEntries l h]
  | .double _, h => by simp [Simple] at h
  | .other _, h => by simp [Simple] at h
theorem variantsOf_ofVariants : ∀ l : List Var, SimpleAll l → variantsOf (ofVariants l) = l
  | [], _ => rfl
  | v :: l, h => by
    simp only [SimpleAll] at h
    simp only [ofVariants, variantsOf, variantOf_ofVariant v h.1, variantsOf_ofVariants l h.2]
theorem entriesOf_ofEntries : ∀ l : List (Str × Var), SimpleEntries l → entriesOf (ofEntries l) = l
  | [], _ => rfl
  | p :: l, h => by
    simp only [SimpleEntries] at h
    simp only [ofEntries, entriesOf, entryOf_ofEntry p h.1, entriesOf_ofEntries l h.2]
theorem entryOf_ofEntry : ∀ p : Str × Var, SimpleEntry p → entryOf (ofEntry p) = p
  | (k, v), h => by
    simp only [SimpleEntry] at h
    simp only [ofEntry, entryOf, variantOf_ofVariant v h]
end

/-- Values that are the same in JSON: strings and lists. -/
def JsonOk : SVal → Prop
  | .plain (.str _) => True
  | .plain (.list l) => Simple (.list l)
  | _ => False

theorem callsValue_ok (k : Str) (v : SVal) (h : JsonOk v) : callsValue k (ofSetting v) = [(k, v)] := by
  cases v with
  | hash v => simp [JsonOk] at h
  | plain v =>
    cases v with
    | str s => simp [ofSetting, ofVariant, callsValue, variantOf]
    | list l =>
      simp only [JsonOk] at h
      have := variantOf_ofVariant _ h
      simp only [ofVariant] at this
      simp only [ofSetting, ofVariant, callsValue, this]
    | _ => simp [JsonOk] at h

theorem calls_eq (g : Str) (l : List (Str × Json)) : calls g l = l.flatMap (callsEntry g) := by
  induction l with
  | nil => simp [calls]
  | cons p l ih => simp [calls, ih]

/-! ### Keys and groups -/

/-- The key `c` in the group `g`. -/
def sub (g c : Str) : Str := if g = [] then c else g ++ '/' :: c

theorem external_append (a b : Str) :
    externalRepresentation (a ++ b) = externalRepresentation a ++ externalRepresentation b := by
  simp [externalRepresentation]

theorem external_nil_iff (a : Str) : externalRepresentation a = [] ↔ a = [] := by
  simp [externalRepresentation]

theorem fullKey_external (g c : Str) :
    fullKey (externalRepresentation g) (externalRepresentation c) = externalRepresentation (sub g c) := by
  unfold fullKey sub
  by_cases h : g = []
  · rw [if_pos h, if_pos ((external_nil_iff g).2 h)]
  · rw [if_neg h, if_neg (fun hh => h ((external_nil_iff g).1 hh)), external_append]
    rfl

theorem mem_keysIn (m : Store) (g r : Str) : r ∈ keysIn m g ↔ ∃ e ∈ m, e.1 = sub g r := by
  unfold keysIn sub
  rw [List.mem_filterMap]
  constructor
  · rintro ⟨e, he, h⟩
    refine ⟨e, he, ?_⟩
    split at h
    · rename_i hg
      rw [if_pos hg]
      simpa using h
    · rename_i hg
      rw [if_neg hg]
      split at h
      · rename_i hp
        obtain ⟨t, ht⟩ := List.isPrefixOf_iff_prefix.1 hp
        rw [← ht]
        simp only [Option.some.injEq] at h
        rw [← h, ← ht]
        simp
      · cases h
  · rintro ⟨e, he, h⟩
    refine ⟨e, he, ?_⟩
    split
    · rename_i hg
      rw [if_pos hg] at h
      rw [h]
    · rename_i hg
      rw [if_neg hg] at h
      rw [if_pos, h]
      · simp
      · rw [h, List.isPrefixOf_iff_prefix]
        exact ⟨r, by simp⟩

theorem takeWhile_self {k : Str} (h : '/' ∉ k) : k.takeWhile (· ≠ '/') = k := by
  induction k with
  | nil => rfl
  | cons c k ih =>
    have h1 : c ≠ '/' := fun e => h (by rw [e]; simp)
    rw [List.takeWhile_cons_of_pos (by simpa using h1), ih (fun e => h (by simp [e]))]

theorem mem_children (m : Store) (g c : Str) :
    c ∈ children m g ↔ ∃ r, (∃ e ∈ m, e.1 = sub g r) ∧ c = r.takeWhile (· ≠ '/') := by
  unfold children
  rw [List.mem_append, List.mem_map]
  constructor
  · rintro (⟨r, hr, rfl⟩ | hr)
    · exact ⟨r, (mem_keysIn m g r).1 (List.mem_filter.1 hr).1, rfl⟩
    · obtain ⟨h1, h2⟩ := List.mem_filter.1 hr
      refine ⟨c, (mem_keysIn m g c).1 h1, ?_⟩
      rw [takeWhile_self]
      simpa using h2
  · rintro ⟨r, hr, rfl⟩
    have hr' := (mem_keysIn m g r).2 hr
    by_cases hs : '/' ∈ r
    · exact Or.inl ⟨r, List.mem_filter.2 ⟨hr', by simpa using hs⟩, rfl⟩
    · refine Or.inr (List.mem_filter.2 ⟨?_, ?_⟩)
      · rw [takeWhile_self hs]; exact hr'
      · rw [takeWhile_self hs]; simpa using hs

theorem mem_directChildren (s : St) (o : Scopes) (g c : Str) (hg : '.' ∉ g) :
    c ∈ directChildren s (externalRepresentation g) o ↔
      ∃ r, sub g r ∈ keysOf s o ∧ c = externalRepresentation (r.takeWhile (· ≠ '/')) := by
  have hm : ∀ (m : Store) (x : Str), x ∈ children m g ↔ ∃ r, sub g r ∈ m.map (·.1) ∧ x = r.takeWhile (· ≠ '/') := by
    intro m x
    rw [mem_children]
    constructor
    · rintro ⟨r, ⟨e, he, hr⟩, hx⟩
      exact ⟨r, List.mem_map.2 ⟨e, he, hr⟩, hx⟩
    · rintro ⟨r, hr, hx⟩
      obtain ⟨e, he, hr⟩ := List.mem_map.1 hr
      exact ⟨r, ⟨e, he, hr⟩, hx⟩
  unfold directChildren keysOf
  rw [mem_fixupKeys, internal_external hg]
  constructor
  · rintro ⟨x, hx, rfl⟩
    rcases List.mem_append.1 hx with hx | hx
    · split at hx
      · rename_i ho
        obtain ⟨r, hr, rfl⟩ := (hm _ _).1 hx
        exact ⟨r, List.mem_append.2 (Or.inl (by rw [if_pos ho]; exact hr)), rfl⟩
      · cases hx
    · split at hx
      · rename_i ho
        obtain ⟨r, hr, rfl⟩ := (hm _ _).1 hx
        exact ⟨r, List.mem_append.2 (Or.inr (by rw [if_pos ho]; exact hr)), rfl⟩
      · cases hx
  · rintro ⟨r, hr, rfl⟩
    refine ⟨r.takeWhile (· ≠ '/'), ?_, rfl⟩
    rcases List.mem_append.1 hr with hr | hr
    · split at hr
      · rename_i ho
        exact List.mem_append.2 (Or.inl (by rw [if_pos ho]; exact (hm _ _).2 ⟨r, hr, rfl⟩))
      · cases hr
    · split at hr
      · rename_i ho
        exact List.mem_append.2 (Or.inr (by rw [if_pos ho]; exact (hm _ _).2 ⟨r, hr, rfl⟩))
      · cases hr

/-! ### Normalised keys -/

theorem take_drop (r : Str) :
    (∃ t, r = r.takeWhile (· ≠ '/') ++ '/' :: t) ∨ r = r.takeWhile (· ≠ '/') := by
  induction r with
  | nil => exact Or.inr rfl
  | cons c r ih =>
    by_cases hc : c = '/'
    · subst hc
      exact Or.inl ⟨r, by simp⟩
    · rw [List.takeWhile_cons_of_pos (by simpa using hc)]
      rcases ih with ⟨t, ht⟩ | ht
      · refine Or.inl ⟨t, ?_⟩
        rw [List.cons_append, ← ht]
      · exact Or.inr (by rw [← ht])

/-- No setting is below another one. -/
def NoKeyInKey (s : St) (o : Scopes) : Prop :=
  ∀ k ∈ keysOf s o, ∀ k' ∈ keysOf s o, ¬ k ++ ['/'] <+: k'

theorem sub_noDot {g c : Str} : '.' ∉ sub g c ↔ '.' ∉ g ∧ '.' ∉ c := by
  unfold sub
  by_cases h : g = []
  · simp [h]
  · rw [if_neg h]; simp

theorem sub_sub (g c t : Str) (hc : sub g c ≠ []) : sub (sub g c) t = sub g (c ++ '/' :: t) := by
  unfold sub at hc ⊢
  by_cases h : g = []
  · simp only [if_pos h] at hc ⊢
    rw [if_neg hc]
  · simp only [if_neg h] at hc ⊢
    rw [if_neg (by simp)]
    simp

/-- The calls that an export to JSON leads to, for the group `g`. -/
theorem calls_toJson (s : St) (o : Scopes) (ht : AllTidy s) (hf : NoKeyInKey s o)
    (hv : ∀ k ∈ keysOf s o, ∀ v, lookup s o k = some v → JsonOk v) :
    ∀ (n : Nat) (g : Str), '.' ∉ g →
    (∀ k v, (k, v) ∈ calls (externalRepresentation g) (toJson n s o (externalRepresentation g)) →
      ∃ r, sub g r ∈ keysOf s o ∧ k = externalRepresentation (sub g r) ∧ lookup s o (sub g r) = some v) ∧
    (∀ r v, sub g r ∈ keysOf s o → (sub g r).length < g.length + n → lookup s o (sub g r) = some v →
      (externalRepresentation (sub g r), v)
        ∈ calls (externalRepresentation g) (toJson n s o (externalRepresentation g))) := by
  intro n
  induction n with
  | zero =>
    intro g hg
    constructor
    · intro k v h
      simp [toJson, calls] at h
    · intro r v _ hl
      exfalso
      unfold sub at hl
      split at hl
      · rename_i hg; rw [hg] at hl; simp at hl
      · simp at hl
        omega
  | succ n ih =>
    intro g hg
    have hnormal : ∀ r, sub g r ∈ keysOf s o →
        normalizedKey (sub g (r.takeWhile (· ≠ '/'))) = sub g (r.takeWhile (· ≠ '/')) := by
      intro r hr
      have h := keysOf_tidy ht hr
      rcases take_drop r with ⟨t, hrt⟩ | hrt
      · have h1 := (normal_iff h.2.1).1 h.1
        have h2 : sub g r = sub g (r.takeWhile (· ≠ '/')) ++ '/' :: t := by
          generalize hc : r.takeWhile (· ≠ '/') = c at hrt
          rw [hrt]
          unfold sub
          split <;> simp
        rw [h2] at h1
        have h3 := (normal_append.1 h1).1
        refine (normal_iff ?_).2 h3
        intro h0
        rw [h0] at h3
        exact h3 [] (by simp [parts]) rfl
      · rw [← hrt]; exact h.1
    have hcall : ∀ r, sub g r ∈ keysOf s o → ∀ p,
        p ∈ callsEntry (externalRepresentation g)
          (match value s (fullKey (externalRepresentation g) (externalRepresentation (r.takeWhile (· ≠ '/')))) o with
            | some v => (externalRepresentation (r.takeWhile (· ≠ '/')), ofSetting v)
            | none => (externalRepresentation (r.takeWhile (· ≠ '/')), .obj (toJson n s o
                (fullKey (externalRepresentation g) (externalRepresentation (r.takeWhile (· ≠ '/'))))))) ↔
        (∃ v, lookup s o (sub g (r.takeWhile (· ≠ '/'))) = some v ∧
          p = (externalRepresentation (sub g (r.takeWhile (· ≠ '/'))), v)) ∨
        (lookup s o (sub g (r.takeWhile (· ≠ '/'))) = none ∧
          p ∈ calls (externalRepresentation (sub g (r.takeWhile (· ≠ '/'))))
            (toJson n s o (externalRepresentation (sub g (r.takeWhile (· ≠ '/')))))) := by
      intro r hr p
      have hd : '.' ∉ sub g (r.takeWhile (· ≠ '/')) := by
        rw [sub_noDot]
        have := (keysOf_tidy ht hr).2.2
        rw [sub_noDot] at this
        exact ⟨this.1, fun h => this.2 ((List.takeWhile_sublist _).subset h)⟩
      rw [fullKey_external]
      cases hl : value s (externalRepresentation (sub g (r.takeWhile (· ≠ '/')))) o with
      | none =>
        simp only [callsEntry, fullKey_external, callsValue]
        unfold lookup
        rw [hl]
        simp
      | some v =>
        have hk : sub g (r.takeWhile (· ≠ '/')) ∈ keysOf s o := by
          have := (value_isSome s o (externalRepresentation (sub g (r.takeWhile (· ≠ '/'))))).1
            (by rw [hl]; simp)
          rwa [fileKey_external hd (hnormal r hr)] at this
        have hj := hv _ hk v hl
        simp only [callsEntry, fullKey_external, callsValue_ok _ v hj]
        unfold lookup
        rw [hl]
        simp
    constructor
    · intro k v h
      rw [calls_eq, List.mem_flatMap] at h
      obtain ⟨p, hp, hkv⟩ := h
      rw [toJson, List.mem_map] at hp
      obtain ⟨c, hc, rfl⟩ := hp
      obtain ⟨r, hr, rfl⟩ := (mem_directChildren s o g c hg).1 hc
      rcases (hcall r hr (k, v)).1 hkv with ⟨w, hw, he⟩ | ⟨hn, hm⟩
      · injection he with e1 e2
        refine ⟨r.takeWhile (· ≠ '/'), ?_, e1, by rw [hw, e2]⟩
        have hd : '.' ∉ sub g (r.takeWhile (· ≠ '/')) := by
          rw [sub_noDot]
          have := (keysOf_tidy ht hr).2.2
          rw [sub_noDot] at this
          exact ⟨this.1, fun h => this.2 ((List.takeWhile_sublist _).subset h)⟩
        have := (value_isSome s o (externalRepresentation (sub g (r.takeWhile (· ≠ '/'))))).1
          (by unfold lookup at hw; rw [hw]; simp)
        rwa [fileKey_external hd (hnormal r hr)] at this
      · have hd : '.' ∉ sub g (r.takeWhile (· ≠ '/')) := by
          rw [sub_noDot]
          have := (keysOf_tidy ht hr).2.2
          rw [sub_noDot] at this
          exact ⟨this.1, fun h => this.2 ((List.takeWhile_sublist _).subset h)⟩
        obtain ⟨t, ht1, ht2, ht3⟩ := (ih _ hd).1 k v hm
        by_cases hne : sub g (r.takeWhile (· ≠ '/')) = []
        · -- then the group is the whole, and the key begins with a slash
          exfalso
          unfold sub at hne
          split at hne
          · rename_i hg0
            have hnorm := keysOf_tidy ht hr
            unfold sub at hnorm
            rw [if_pos hg0] at hnorm
            rcases take_drop r with ⟨t, hrt⟩ | hrt
            · rw [hne] at hrt
              exact normal_head hnorm.1 (by rw [hrt]; rfl)
            · rw [hne] at hrt
              exact hnorm.2.1 hrt
          · simp at hne
        · rw [sub_sub _ _ _ hne] at ht1 ht2 ht3
          exact ⟨_, ht1, ht2, ht3⟩
    · intro r v hr hl hlk
      rw [calls_eq, List.mem_flatMap]
      refine ⟨_, ?_, (hcall r hr _).2 ?_⟩
      · rw [toJson]
        exact List.mem_map.2 ⟨_, (mem_directChildren s o g _ hg).2 ⟨r, hr, rfl⟩, rfl⟩
      · have hd : '.' ∉ sub g (r.takeWhile (· ≠ '/')) := by
          rw [sub_noDot]
          have := (keysOf_tidy ht hr).2.2
          rw [sub_noDot] at this
          exact ⟨this.1, fun h => this.2 ((List.takeWhile_sublist _).subset h)⟩
        rcases take_drop r with ⟨t, hrt⟩ | hrt
        · right
          have hne : sub g (r.takeWhile (· ≠ '/')) ≠ [] := by
            intro hne
            unfold sub at hne
            split at hne
            · rename_i hg0
              have hnorm := keysOf_tidy ht hr
              unfold sub at hnorm
              rw [if_pos hg0] at hnorm
              rw [hne] at hrt
              exact normal_head hnorm.1 (by rw [hrt]; rfl)
            · simp at hne
          have hss : sub (sub g (r.takeWhile (· ≠ '/'))) t = sub g r := by
            rw [sub_sub _ _ _ hne, ← hrt]
          have hnone : lookup s o (sub g (r.takeWhile (· ≠ '/'))) = none := by
            cases hn : lookup s o (sub g (r.takeWhile (· ≠ '/'))) with
            | none => rfl
            | some w =>
              exfalso
              have hk := (value_isSome s o (externalRepresentation (sub g (r.takeWhile (· ≠ '/'))))).1
                (by unfold lookup at hn; rw [hn]; simp)
              rw [fileKey_external hd (hnormal r hr)] at hk
              refine hf _ hk _ hr ?_
              rw [← hss]
              generalize sub g (r.takeWhile (· ≠ '/')) = x at hne
              unfold sub
              rw [if_neg hne]
              exact ⟨t, by simp⟩
          refine ⟨hnone, ?_⟩
          have hlen : g.length + 1 ≤ (sub g (r.takeWhile (· ≠ '/'))).length := by
            generalize hx : sub g (r.takeWhile (· ≠ '/')) = x at hne
            have hx0 : x.length ≠ 0 := fun h0 => hne (List.length_eq_zero_iff.1 h0)
            unfold sub at hx
            split at hx
            · rename_i hg0; rw [hg0]; simp; omega
            · rw [← hx]; simp
          have := (ih _ hd).2 t v (by rw [hss]; exact hr) (by rw [hss]; omega) (by rw [hss]; exact hlk)
          rw [hss] at this
          exact this
        · left
          rw [← hrt]
          exact ⟨v, hlk, rfl⟩

end Verif.Config
