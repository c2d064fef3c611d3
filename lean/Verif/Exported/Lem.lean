import Verif.Exported.Spec

namespace Verif.Exported

theorem strLt_irrefl (s : Str) : strLt s s = false := by
  induction s with
  | nil => rfl
  | cons a s ih => simp [strLt, ih]

theorem strLt_trans : ∀ {a b c : Str}, strLt a b = true → strLt b c = true → strLt a c = true := by
  intro a
  induction a with
  | nil =>
    intro b c h1 h2
    cases c with
    | nil => cases b <;> simp [strLt] at h2
    | cons y c => rfl
  | cons x a ih =>
    intro b c h1 h2
    cases b with
    | nil => simp [strLt] at h1
    | cons y b =>
      cases c with
      | nil => simp [strLt] at h2
      | cons z c =>
        simp only [strLt, Bool.or_eq_true, decide_eq_true_eq, Bool.and_eq_true, beq_iff_eq] at h1 h2 ⊢
        rcases h1 with h1 | ⟨rfl, h1⟩ <;> rcases h2 with h2 | ⟨rfl, h2⟩
        · left; omega
        · left; exact h1
        · left; exact h2
        · right; exact ⟨rfl, ih h1 h2⟩

theorem strLt_total : ∀ (a b : Str), a ≠ b → strLt a b = false → strLt b a = true := by
  intro a
  induction a with
  | nil =>
    intro b hne h
    cases b with
    | nil => exact absurd rfl hne
    | cons y b => simp [strLt] at h
  | cons x a ih =>
    intro b hne h
    cases b with
    | nil => rfl
    | cons y b =>
      simp only [strLt, Bool.or_eq_false_iff, decide_eq_false_iff_not] at h
      simp only [strLt, Bool.or_eq_true, decide_eq_true_eq, Bool.and_eq_true, beq_iff_eq]
      by_cases e : x = y
      · subst e
        right
        refine ⟨rfl, ih b (fun e => hne (by rw [e])) ?_⟩
        simpa using h.2
      · left
        have : x.toNat ≠ y.toNat := fun e' => e (Char.toNat_inj.mp e')
        omega

/-- A proper prefix comes first. -/
theorem strLt_prefix : ∀ {a b : Str}, a <+: b → a ≠ b → strLt a b = true := by
  intro a
  induction a with
  | nil =>
    intro b _ hne
    cases b with
    | nil => exact absurd rfl hne
    | cons y b => rfl
  | cons x a ih =>
    intro b hp hne
    cases b with
    | nil => simp at hp
    | cons y b =>
      rw [List.cons_prefix_cons] at hp
      obtain ⟨rfl, hp⟩ := hp
      simp only [strLt, Bool.or_eq_true, Bool.and_eq_true, beq_self_eq_true, true_and]
      exact .inr (ih hp (fun e => hne (by rw [e])))

/-- Sorted by keys. -/
def Sorted (m : List (Str × Str)) : Prop := m.Pairwise (fun a b => strLt a.1 b.1 = true)

theorem mem_mapInsert (k v : Str) (m : List (Str × Str)) (p : Str × Str) (h : p ∈ mapInsert k v m) :
    p = (k, v) ∨ p ∈ m := by
  induction m with
  | nil => simpa [mapInsert] using h
  | cons e m ih =>
    obtain ⟨k', v'⟩ := e
    simp only [mapInsert] at h
    split at h
    · rcases List.mem_cons.mp h with h | h
      · exact .inl h
      · exact .inr (List.mem_cons_of_mem _ h)
    · split at h
      · rcases List.mem_cons.mp h with h | h
        · exact .inl h
        · exact .inr h
      · rcases List.mem_cons.mp h with h | h
        · exact .inr (by rw [h]; simp)
        · rcases ih h with h | h
          · exact .inl h
          · exact .inr (List.mem_cons_of_mem _ h)

theorem sorted_insert (k v : Str) (m : List (Str × Str)) (h : Sorted m) : Sorted (mapInsert k v m) := by
  unfold Sorted at *
  induction m with
  | nil => simp [mapInsert]
  | cons e m ih =>
    obtain ⟨k', v'⟩ := e
    rw [List.pairwise_cons] at h
    simp only [mapInsert]
    split
    · rename_i e
      subst e
      rw [List.pairwise_cons]
      exact h
    · rename_i hne
      split
      · rename_i hlt
        rw [List.pairwise_cons, List.pairwise_cons]
        refine ⟨?_, h⟩
        intro p hp
        rcases List.mem_cons.mp hp with hp | hp
        · rw [hp]; exact hlt
        · exact strLt_trans hlt (h.1 p hp)
      · rename_i hlt
        rw [List.pairwise_cons]
        refine ⟨?_, ih h.2⟩
        intro p hp
        rcases mem_mapInsert k v m p hp with hp | hp
        · rw [hp]
          exact strLt_total k k' (fun e => hne e.symm) (by simpa using hlt)
        · exact h.1 p hp

/-- Looking up a key. -/
def look (m : List (Str × Str)) (k : Str) : Option Str := (m.find? (fun e => e.1 = k)).map (·.2)

theorem look_insert (k v : Str) (m : List (Str × Str)) (h : Sorted m) (q : Str) :
    look (mapInsert k v m) q = if k = q then some v else look m q := by
  unfold Sorted at h
  induction m with
  | nil =>
    by_cases e : k = q <;> simp [mapInsert, look, e]
  | cons e m ih =>
    obtain ⟨k', v'⟩ := e
    rw [List.pairwise_cons] at h
    have ih' := ih h.2
    simp only [look] at ih' ⊢
    simp only [mapInsert]
    by_cases e1 : k' = k
    · subst e1
      by_cases e2 : k' = q <;> simp [e2]
    · simp only [e1, if_false]
      split
      · by_cases e2 : k = q <;> simp [e2]
      · rw [List.find?_cons]
        by_cases e3 : k' = q
        · have e4 : ¬ k = q := fun e => e1 (by rw [e3, e])
          simp [e3, e4]
        · simp only [e3, decide_false, Bool.false_eq_true, List.find?_cons]
          exact ih'

theorem prefixMap_snoc (l : List (Str × Str)) (e : Str × Str) :
    prefixMap (l ++ [e]) = mapInsert e.1 e.2 (prefixMap l) := by
  simp [prefixMap]

theorem prefixMap_ok (l : List (Str × Str)) :
    Sorted (prefixMap l) ∧ ∀ q, look (prefixMap l) q = replacement l q := by
  generalize hn : l.length = n
  induction n generalizing l with
  | zero =>
    have : l = [] := List.length_eq_zero_iff.mp hn
    subst this
    exact ⟨by simp [prefixMap, Sorted], fun q => rfl⟩
  | succ n ih =>
    rcases List.eq_nil_or_concat l with e | ⟨l', e', e⟩
    · subst e; simp at hn
    · subst e
      rw [List.concat_eq_append] at hn ⊢
      obtain ⟨h1, h2⟩ := ih l' (by simpa using hn)
      rw [prefixMap_snoc]
      refine ⟨sorted_insert _ _ _ h1, ?_⟩
      intro q
      rw [look_insert _ _ _ h1, h2]
      unfold replacement
      rw [List.reverse_append]
      simp only [List.reverse_cons, List.reverse_nil, List.nil_append, List.cons_append, List.find?_cons]
      by_cases e : e'.1 = q <;> simp [e]

/-- What the mapper does with a sorted map: the shortest matching prefix. -/
theorem stringMapper_sorted (m : List (Str × Str)) (hs : Sorted m) (v p r : Str)
    (hl : look m p = some r) (hp : p <+: v)
    (hmin : ∀ q r', look m q = some r' → q <+: v → p.length ≤ q.length) :
    stringMapper m v = r ++ v.drop p.length := by
  unfold Sorted at hs
  induction m with
  | nil => simp [look] at hl
  | cons e m ih =>
    obtain ⟨k, x⟩ := e
    rw [List.pairwise_cons] at hs
    simp only [stringMapper]
    by_cases hk : k <+: v
    · rw [if_pos (List.isPrefixOf_iff_prefix.mpr hk)]
      have h1 : p.length ≤ k.length := hmin k x (by simp [look]) hk
      have hpk : p <+: k := by
        rcases List.prefix_or_prefix_of_prefix hp hk with h | h
        · exact h
        · rw [List.IsPrefix.eq_of_length h (by have := List.IsPrefix.length_le h; omega)]
          exact List.prefix_refl p
      by_cases e : p = k
      · subst e
        simp [look] at hl
        rw [hl]
      · exfalso
        have hlt := strLt_prefix hpk e
        have hm : (m.find? (fun e => e.1 = p)) ≠ none := by
          intro hn
          simp [look, List.find?_cons, show ¬ k = p from fun e' => e e'.symm, hn] at hl
        obtain ⟨y, hy⟩ := Option.ne_none_iff_exists'.mp hm
        have hy1 := List.mem_of_find?_eq_some hy
        have hy2 := List.find?_some hy
        simp only [decide_eq_true_eq] at hy2
        have := hs.1 y hy1
        rw [hy2] at this
        have h2 := strLt_trans hlt this
        rw [strLt_irrefl] at h2
        cases h2
    · rw [if_neg (fun h => hk (List.isPrefixOf_iff_prefix.mp h))]
      have hkp : k ≠ p := fun e => hk (by rw [e]; exact hp)
      apply ih hs.2
      · simpa [look, List.find?_cons, hkp] using hl
      · intro q r' hq hqv
        have hkq : k ≠ q := fun e => hk (by rw [e]; exact hqv)
        exact hmin q r' (by simpa [look, List.find?_cons, hkq] using hq) hqv

theorem stringMapper_none (m : List (Str × Str)) (v : Str)
    (h : ∀ p ∈ m, ¬ p.1 <+: v) : stringMapper m v = v := by
  induction m with
  | nil => rfl
  | cons e m ih =>
    obtain ⟨k, x⟩ := e
    simp only [stringMapper]
    rw [if_neg (fun h' => h (k, x) (by simp) (List.isPrefixOf_iff_prefix.mp h'))]
    exact ih (fun p hp => h p (List.mem_cons_of_mem _ hp))

theorem mem_prefixMap (l : List (Str × Str)) : ∀ (acc : List (Str × Str)) (p : Str × Str),
    p ∈ l.foldl (fun m e => mapInsert e.1 e.2 m) acc → p ∈ l ∨ p ∈ acc := by
  induction l with
  | nil => intro acc p h; exact .inr h
  | cons e l ih =>
    intro acc p h
    rcases ih _ p h with h | h
    · exact .inl (List.mem_cons_of_mem _ h)
    · rcases mem_mapInsert _ _ _ _ h with h | h
      · exact .inl (by rw [h]; simp)
      · exact .inr h

end Verif.Exported
