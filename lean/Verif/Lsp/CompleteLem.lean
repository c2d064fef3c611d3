import Verif.Lsp.ServerLem

namespace Verif.Lsp

theorem takeWhile_all {α} (p : α → Bool) (a b : List α) (h : ∀ x ∈ a, p x = true)
    (hb : ∀ x, b.head? = some x → p x = false) :
    (a ++ b).takeWhile p = a ∧ (a ++ b).dropWhile p = b := by
  induction a with
  | nil =>
    cases b with
    | nil => exact ⟨rfl, rfl⟩
    | cons c cs => simp [List.takeWhile, List.dropWhile, hb c rfl]
  | cons c cs ih =>
    have hc := h c (by simp)
    have := ih (fun x hx => h x (by simp [hx]))
    simp [List.takeWhile, List.dropWhile, hc, this.1, this.2]

theorem identifier_word (isId : Char → Bool) (w r : List Char) (h : ∀ c ∈ w, isId c = true)
    (hr : ∀ x, r.head? = some x → isId x = false) : identifier isId (w.reverse ++ r) = (w, r) := by
  unfold identifier
  obtain ⟨h1, h2⟩ := takeWhile_all isId w.reverse r (by simpa using h) hr
  rw [h1, h2, List.reverse_reverse]

theorem dotted_append (a b : List (List Char)) (l : List Char) :
    dotted (a ++ b) l = dotted a (dotted b l) := by
  simp [dotted]

theorem dotted_snoc (a : List (List Char)) (m l : List Char) :
    dotted (a ++ [m]) l = dotted a [] ++ (m ++ '.' :: l) := by
  simp [dotted]

/-- The names before the last dot, from the last to the first. -/
theorem prefixes_spec (isId : Char → Bool) (hdot : isId '.' = false) (b : List Char)
    (hb : NoName isId b) (n : Nat) : ∀ (ms : List (List Char)) (acc : List (List Char)),
    (∀ m ∈ ms, m ≠ [] ∧ ∀ c ∈ m, isId c = true) → ms.length < n →
    prefixes isId n (b ++ dotted ms []).reverse acc = ms ++ acc := by
  induction n with
  | zero => intro ms acc _ h; omega
  | succ n ih =>
    intro ms acc hm hl
    rcases List.eq_nil_or_concat ms with rfl | ⟨ms', m, hms⟩
    · simp only [dotted, List.flatMap_nil, List.append_nil, List.nil_append]
      rw [prefixes]
      split
      · rfl
      · rename_i hc
        have hc1 : ¬ b.reverse.length ≤ 1 := fun h => hc (Or.inl h)
        have hc2 : b.reverse.head? = some '.' := Decidable.byContradiction fun h => hc (Or.inr h)
        match hrev : b.reverse, hc1, hc2 with
        | a :: d :: r, _, hc2 =>
          simp at hc2
          subst hc2
          have e : b = r.reverse ++ [d, '.'] := by
            have := congrArg List.reverse hrev
            rw [List.reverse_reverse] at this
            rw [this]; simp
          have hd := hb.2 _ _ e
          have hi : identifier isId (d :: r) = ([], d :: r) := by
            simp [identifier, List.takeWhile, List.dropWhile, hd]
          simp [hi]
        | [a], h, _ => simp at h
        | [], h, _ => simp at h
    · rw [List.concat_eq_append] at hms
      subst hms
      obtain ⟨hne, hid⟩ := hm m (by simp)
      have e : (b ++ dotted (ms' ++ [m]) []).reverse
          = '.' :: (m.reverse ++ (b ++ dotted ms' []).reverse) := by
        rw [dotted_snoc]; simp
      rw [e, prefixes]
      have hlen : ¬ (('.' :: (m.reverse ++ (b ++ dotted ms' []).reverse)).length ≤ 1 ∨
          ('.' :: (m.reverse ++ (b ++ dotted ms' []).reverse)).head? ≠ some '.') := by
        rintro (h | h)
        · have := List.length_pos_iff.mpr hne
          simp only [List.length_cons, List.length_append, List.length_reverse] at h
          omega
        · exact h rfl
      rw [if_neg hlen, List.tail_cons, identifier_word isId m _ hid]
      · simp only [if_neg hne]
        rw [ih ms' (m :: acc) (fun x hx => hm x (by simp [hx])) (by simp at hl; omega)]
        simp
      · intro x hx
        rw [List.head?_reverse] at hx
        rcases List.eq_nil_or_concat ms' with rfl | ⟨ms2, m2, rfl⟩
        · simp only [dotted, List.flatMap_nil, List.append_nil] at hx
          obtain ⟨b', rfl⟩ : ∃ b', b = b' ++ [x] := by
            refine ⟨b.dropLast, ?_⟩
            have hne : b ≠ [] := by intro h; rw [h] at hx; cases hx
            rw [List.getLast?_eq_some_getLast hne] at hx
            cases hx
            exact (List.dropLast_concat_getLast hne).symm
          exact hb.1 _ _ rfl
        · rw [List.concat_eq_append, dotted_snoc, ← List.append_assoc, ← List.append_assoc,
            List.getLast?_append] at hx
          simp at hx
          subst hx
          exact hdot

theorem dotted_length (ms : List (List Char)) (l : List Char) : ms.length ≤ (dotted ms l).length := by
  unfold dotted
  induction ms with
  | nil => simp
  | cons m ms ih =>
    simp only [List.flatMap_cons, List.length_append, List.length_cons, List.length_nil] at ih ⊢
    omega

theorem collect_spec (isId : Char → Bool) (hdot : isId '.' = false) (pre rest : List Char)
    (ms : List (List Char)) (ident : List Char) (h : Typed isId pre ms ident) (h0 : pre ≠ []) :
    collect isId (pre ++ rest) (pre.length - 1) = (ms, ident) := by
  obtain ⟨b, hp, hb, hm, hi⟩ := h
  have hlen : pre.length - 1 + 1 = pre.length := by
    have := List.length_pos_iff.mpr h0
    omega
  unfold collect
  rw [hlen, List.take_left]
  have e : pre.reverse = ident.reverse ++ (b ++ dotted ms []).reverse := by
    rw [hp]; simp [dotted]
  have hid : identifier isId pre.reverse = (ident, (b ++ dotted ms []).reverse) := by
    rw [e]
    apply identifier_word isId ident _ hi
    intro x hx
    rw [List.head?_reverse] at hx
    rcases List.eq_nil_or_concat ms with rfl | ⟨ms2, m2, rfl⟩
    · simp only [dotted, List.flatMap_nil, List.append_nil] at hx
      obtain ⟨b', rfl⟩ : ∃ b', b = b' ++ [x] := by
        refine ⟨b.dropLast, ?_⟩
        have hne : b ≠ [] := by intro h; rw [h] at hx; cases hx
        rw [List.getLast?_eq_some_getLast hne] at hx
        cases hx
        exact (List.dropLast_concat_getLast hne).symm
      exact hb.1 _ _ rfl
    · rw [List.concat_eq_append, dotted_snoc, ← List.append_assoc, ← List.append_assoc,
        List.getLast?_append] at hx
      simp at hx
      subst hx
      exact hdot
  simp only [hid]
  congr 1
  by_cases hlt : ms.length < pre.reverse.length
  · rw [prefixes_spec isId hdot b hb _ ms [] hm hlt, List.append_nil]
  · exfalso
    apply hlt
    rw [List.length_reverse, hp, List.length_append]
    cases ms with
    | nil =>
      have := List.length_pos_iff.mpr h0
      rw [hp, List.length_append] at this
      simpa using this
    | cons m ms =>
      have hm1 := List.length_pos_iff.mpr (hm m (by simp)).1
      have := dotted_length ms ident
      have e2 : dotted (m :: ms) ident = m ++ '.' :: dotted ms ident := by simp [dotted]
      rw [e2]
      simp only [List.length_append, List.length_cons]
      omega

theorem joinDots_dot (ms : List (List Char)) (h : ms ≠ []) (l : List Char) :
    joinDots ms ++ '.' :: l = dotted ms l := by
  induction ms with
  | nil => exact absurd rfl h
  | cons m ms ih =>
    cases ms with
    | nil => simp [joinDots, dotted]
    | cons m2 ms =>
      have := ih (by simp)
      simp only [joinDots, List.append_assoc, List.cons_append, this]
      simp [dotted]

theorem mem_insertName (m : List (List Char × List Char)) (k v l : List Char) :
    l ∈ (insertName m k v).map Prod.fst ↔ l = k ∨ l ∈ m.map Prod.fst := by
  unfold insertName
  simp only [List.map_append, List.mem_append, List.mem_map, List.mem_filter, List.map_cons,
    List.map_nil, List.mem_singleton]
  constructor
  · rintro (⟨p, ⟨hp, _⟩, rfl⟩ | rfl)
    · exact Or.inr ⟨p, hp, rfl⟩
    · exact Or.inl rfl
  · rintro (rfl | ⟨p, hp, rfl⟩)
    · exact Or.inr rfl
    · by_cases h : p.1 = k
      · exact Or.inr h
      · exact Or.inl ⟨p, ⟨hp, by simpa using h⟩, rfl⟩

theorem nodup_insertName (m : List (List Char × List Char)) (k v : List Char)
    (h : (m.map Prod.fst).Nodup) : ((insertName m k v).map Prod.fst).Nodup := by
  unfold insertName
  rw [List.map_append, List.nodup_append]
  refine ⟨?_, by simp, ?_⟩
  · exact List.Nodup.sublist (List.Sublist.map _ List.filter_sublist) h
  · intro a ha b hb
    simp only [List.map_cons, List.map_nil, List.mem_singleton] at hb
    subst hb
    obtain ⟨p, hp, rfl⟩ := List.mem_map.mp ha
    simpa using (List.mem_filter.mp hp).2

/-- A loop that inserts some of the elements. -/
theorem fold_insert {α} (f : List (List Char × List Char) → α → List (List Char × List Char))
    (key : α → Option (List Char))
    (hf : ∀ acc x, (key x = none → f acc x = acc) ∧
      (∀ k, key x = some k → ∃ v, f acc x = insertName acc k v)) (xs : List α) :
    ∀ acc l, (l ∈ (xs.foldl f acc).map Prod.fst ↔
      l ∈ acc.map Prod.fst ∨ ∃ x ∈ xs, key x = some l) ∧
      ((acc.map Prod.fst).Nodup → ((xs.foldl f acc).map Prod.fst).Nodup) := by
  induction xs with
  | nil => intro acc l; simp
  | cons x xs ih =>
    intro acc l
    rw [List.foldl_cons]
    obtain ⟨i1, i2⟩ := ih (f acc x) l
    rw [i1]
    cases hk : key x with
    | none =>
      have e := (hf acc x).1 hk
      rw [e] at i2 ⊢
      refine ⟨?_, i2⟩
      simp [hk]
    | some k =>
      obtain ⟨v, e⟩ := (hf acc x).2 k hk
      rw [e] at i2 ⊢
      rw [mem_insertName]
      refine ⟨?_, fun h => i2 (nodup_insertName _ _ _ h)⟩
      simp only [List.mem_cons, exists_eq_or_imp, hk, Option.some.injEq]
      constructor
      · rintro ((rfl | h) | h)
        · exact Or.inr (Or.inl rfl)
        · exact Or.inl h
        · exact Or.inr (Or.inr h)
      · rintro (h | rfl | h)
        · exact Or.inl (Or.inr h)
        · exact Or.inl (Or.inl rfl)
        · exact Or.inr h

theorem isPrefixOf_nil_or (ident l : List Char) :
    ¬ (ident ≠ [] ∧ ident.isPrefixOf l = false) ↔ ident <+: l := by
  constructor
  · intro h
    by_cases h0 : ident = []
    · subst h0; exact List.nil_prefix
    · have : ident.isPrefixOf l = true := by
        cases hh : ident.isPrefixOf l
        · exact absurd ⟨h0, hh⟩ h
        · rfl
      exact List.isPrefixOf_iff_prefix.mp this
  · rintro h ⟨_, h2⟩
    rw [List.isPrefixOf_iff_prefix.mpr h] at h2
    cases h2

theorem completeProduct_spec (ms : List (List Char)) (ident : List Char) (modules : List Module)
    (acc : List (List Char × List Char)) (l : List Char) :
    (l ∈ (completeProduct ms ident acc modules).map Prod.fst ↔
      l ∈ acc.map Prod.fst ∨ Offers ms ident modules l) ∧
    ((acc.map Prod.fst).Nodup → ((completeProduct ms ident acc modules).map Prod.fst).Nodup) := by
  unfold completeProduct Offers
  have hname : ms ≠ [] → ∀ m : Module, m.name ++ ['.'] = dotted ms [] ↔ m.name = joinDots ms := by
    intro h m
    rw [← joinDots_dot ms h []]
    constructor
    · intro e
      exact List.append_cancel_right e
    · intro e; rw [e]
  by_cases hc : ms ≠ [] ∧ joinDots ms ∈ modules.map Module.name
  · have hc' : ms ≠ [] ∧ ∃ m ∈ modules, m.name ++ ['.'] = dotted ms [] := by
      refine ⟨hc.1, ?_⟩
      obtain ⟨m, hm, e⟩ := List.mem_map.mp hc.2
      exact ⟨m, hm, (hname hc.1 m).mpr e⟩
    simp only [if_pos hc, if_pos hc']
    have key := fold_insert (fun (acc : List (List Char × List Char)) (p : List Char × List Char × Bool) =>
        if p.2.2 = true then acc
        else if ident ≠ [] ∧ ident.isPrefixOf p.1 = false then acc
        else insertName acc p.1 p.2.1)
      (fun p => if p.2.2 = true then none
        else if ident ≠ [] ∧ ident.isPrefixOf p.1 = false then none else some p.1)
      (by
        intro acc x
        refine ⟨fun hk => ?_, fun k hk => ?_⟩
        · split at hk
          · rename_i h1; rw [if_pos h1]
          · rename_i h1
            split at hk
            · rename_i h2; rw [if_neg h1, if_pos h2]
            · cases hk
        · split at hk
          · cases hk
          · rename_i h1
            split at hk
            · cases hk
            · rename_i h2
              cases hk
              exact ⟨x.2.1, by rw [if_neg h1, if_neg h2]⟩)
      ((modules.filter (fun m => m.name == joinDots ms)).flatMap Module.props) acc l
    refine ⟨?_, key.2⟩
    rw [key.1]
    apply or_congr Iff.rfl
    constructor
    · rintro ⟨p, hp, hk⟩
      simp only [List.mem_flatMap, List.mem_filter, beq_iff_eq] at hp
      obtain ⟨m, ⟨hm, hn⟩, hp⟩ := hp
      split at hk
      · cases hk
      · rename_i h1
        split at hk
        · cases hk
        · rename_i h2
          cases hk
          refine ⟨(isPrefixOf_nil_or _ _).mp h2, m, hm, (hname hc.1 m).mpr hn, p.2.1, ?_⟩
          have e1 : p.2.2 = false := by simpa using h1
          rw [← e1]
          exact hp
    · rintro ⟨hpre, m, hm, hn, t, ht⟩
      refine ⟨(l, t, false), ?_, ?_⟩
      · simp only [List.mem_flatMap, List.mem_filter, beq_iff_eq]
        exact ⟨m, ⟨hm, (hname hc.1 m).mp hn⟩, ht⟩
      · rw [if_neg (by simp), if_neg ((isPrefixOf_nil_or _ _).mpr hpre)]
  · have hc' : ¬ (ms ≠ [] ∧ ∃ m ∈ modules, m.name ++ ['.'] = dotted ms []) := by
      rintro ⟨h1, m, hm, hn⟩
      exact hc ⟨h1, List.mem_map.mpr ⟨m, hm, (hname h1 m).mp hn⟩⟩
    simp only [if_neg hc, if_neg hc']
    have key := fold_insert (fun (acc : List (List Char × List Char)) (m : Module) =>
        if (if ms ≠ [] then joinDots ms ++ '.' :: ident else ident).isPrefixOf m.name = true then
          insertName acc (m.name.drop (if ms ≠ [] then (joinDots ms).length + 1 else 0)) [] else acc)
      (fun m => if (if ms ≠ [] then joinDots ms ++ '.' :: ident else ident).isPrefixOf m.name = true then
          some (m.name.drop (if ms ≠ [] then (joinDots ms).length + 1 else 0)) else none)
      (by
        intro acc x
        generalize (if ms ≠ [] then joinDots ms ++ '.' :: ident else ident) = fp
        generalize (if ms ≠ [] then (joinDots ms).length + 1 else 0) = off
        by_cases h1 : fp.isPrefixOf x.name = true
        · simp only [if_pos h1]
          refine ⟨fun hk => (by cases hk), fun k hk => ?_⟩
          cases hk
          exact ⟨[], rfl⟩
        · simp only [if_neg h1]
          exact ⟨fun _ => trivial, fun k hk => (by cases hk)⟩)
      modules acc l
    refine ⟨?_, key.2⟩
    rw [key.1]
    apply or_congr Iff.rfl
    by_cases h0 : ms = []
    · subst h0
      simp only [ne_eq, not_true_eq_false, if_false, List.drop_zero, List.isPrefixOf_iff_prefix,
        dotted, List.flatMap_nil, List.nil_append]
      constructor
      · rintro ⟨m, hm, hk⟩
        split at hk
        · rename_i hp
          cases hk
          exact ⟨hp, m, hm, rfl⟩
        · cases hk
      · rintro ⟨hp, m, hm, rfl⟩
        exact ⟨m, hm, if_pos hp⟩
    · simp only [ne_eq, h0, not_false_eq_true, if_true, List.isPrefixOf_iff_prefix]
      constructor
      · rintro ⟨m, hm, hk⟩
        split at hk
        · rename_i hp
          cases hk
          obtain ⟨t, ht⟩ := hp
          have e : m.name = joinDots ms ++ '.' :: (ident ++ t) := by rw [← ht]; simp
          have ed : m.name.drop ((joinDots ms).length + 1) = ident ++ t := by
            rw [e, ← List.drop_drop, List.drop_left]
            rfl
          rw [ed]
          exact ⟨List.prefix_append _ _, m, hm, by rw [e, joinDots_dot ms h0]⟩
        · cases hk
      · rintro ⟨⟨t, rfl⟩, m, hm, hn⟩
        rw [← joinDots_dot ms h0] at hn
        refine ⟨m, hm, ?_⟩
        rw [if_pos ⟨t, by rw [hn]; simp⟩, hn, ← List.drop_drop, List.drop_left]
        rfl

theorem completeAll_spec (ms : List (List Char)) (ident : List Char) (ps : List (List Module)) :
    ∀ (acc : List (List Char × List Char)) (l : List Char),
    (l ∈ (ps.foldl (completeProduct ms ident) acc).map Prod.fst ↔
      l ∈ acc.map Prod.fst ∨ ∃ p ∈ ps, Offers ms ident p l) ∧
    ((acc.map Prod.fst).Nodup → ((ps.foldl (completeProduct ms ident) acc).map Prod.fst).Nodup) := by
  induction ps with
  | nil => intro acc l; simp
  | cons p ps ih =>
    intro acc l
    obtain ⟨c1, c2⟩ := completeProduct_spec ms ident p acc l
    obtain ⟨i1, i2⟩ := ih (completeProduct ms ident acc p) l
    rw [List.foldl_cons, i1, c1]
    refine ⟨?_, fun h => i2 (c2 h)⟩
    simp only [List.mem_cons, exists_eq_or_imp, or_assoc]

end Verif.Lsp
