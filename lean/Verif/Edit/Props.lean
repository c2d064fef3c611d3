import Verif.Edit.Spec
/-!
# C39: theorems about sets of edits
-/
namespace Verif.Edit

/-! ## Conflicts are reported -/

theorem conflict_comm {a b : Range} : Conflict a b ↔ Conflict b a := by
  unfold Conflict
  constructor
  · rintro (⟨h1, h2, k, h3, h4, h5, h6⟩ | h | h)
    · exact Or.inl ⟨h2, h1, k, h5, h6, h3, h4⟩
    · exact Or.inr (Or.inr h)
    · exact Or.inr (Or.inl h)
  · rintro (⟨h1, h2, k, h3, h4, h5, h6⟩ | h | h)
    · exact Or.inl ⟨h2, h1, k, h5, h6, h3, h4⟩
    · exact Or.inr (Or.inr h)
    · exact Or.inr (Or.inl h)

theorem conflict_iff {a b : Range} : Conflict a b ↔
    (0 < a.2 ∧ 0 < b.2 ∧ a.1 < b.1 + b.2 ∧ b.1 < a.1 + a.2) ∨
    (a.2 = 0 ∧ b.1 < a.1 ∧ a.1 < b.1 + b.2) ∨ (b.2 = 0 ∧ a.1 < b.1 ∧ b.1 < a.1 + a.2) := by
  unfold Conflict
  constructor
  · rintro (⟨h1, h2, k, h3, h4, h5, h6⟩ | h | h)
    · exact Or.inl ⟨h1, h2, by omega, by omega⟩
    · exact Or.inr (Or.inl h)
    · exact Or.inr (Or.inr h)
  · rintro (⟨h1, h2, h3, h4⟩ | h | h)
    · refine Or.inl ⟨h1, h2, ?_⟩
      by_cases h : a.1 ≤ b.1
      · exact ⟨b.1, by omega, by omega, by omega, by omega⟩
      · exact ⟨a.1, by omega, by omega, by omega, by omega⟩
    · exact Or.inr (Or.inl h)
    · exact Or.inr (Or.inr h)

theorem overlaps_iff (p l q m : Int) (hl : 0 ≤ l) (hm : 0 ≤ m) :
    overlaps p l q m = true ↔ Conflict (p, l) (q, m) := by
  rw [conflict_iff]
  unfold overlaps
  split
  · simp only [Bool.or_eq_true, Bool.and_eq_true, decide_eq_true_eq]
    omega
  · simp only [Bool.and_eq_true, decide_eq_true_eq]
    omega

theorem point_iff (p l q : Int) (hl : 0 ≤ l) :
    (decide (q > p) && decide (q < p + l)) = true ↔ Conflict (p, l) (q, 0) := by
  rw [conflict_iff]
  simp only [Bool.and_eq_true, decide_eq_true_eq, true_and]
  omega

/-- Lengths are not negative. -/
def Proper (o : Op) : Prop := ∀ r ∈ ranges o, 0 ≤ r.2

theorem opOverlaps_iff (p l : Int) (hl : 0 ≤ l) (o : Op) (ho : Proper o) :
    opOverlaps p l o = true ↔ ∃ r ∈ ranges o, Conflict (p, l) r := by
  cases o with
  | replace q m t =>
    have := ho (q, m) (by simp [ranges])
    simp [opOverlaps, ranges, overlaps_iff p l q m hl this]
  | remove q m =>
    have := ho (q, m) (by simp [ranges])
    simp [opOverlaps, ranges, overlaps_iff p l q m hl this]
  | insert q t =>
    simp only [opOverlaps, ranges, point_iff p l q hl, List.mem_singleton, exists_eq_left]
  | move q m to =>
    have := ho (q, m) (by simp [ranges])
    simp only [opOverlaps, ranges, Bool.or_eq_true, overlaps_iff p l q m hl this, point_iff p l to hl,
      List.mem_cons, List.not_mem_nil, or_false, exists_eq_or_imp, exists_eq_left]
  | copy q m to =>
    have := ho (q, m) (by simp [ranges])
    simp only [opOverlaps, ranges, Bool.or_eq_true, overlaps_iff p l q m hl this, point_iff p l to hl,
      List.mem_cons, List.not_mem_nil, or_false, exists_eq_or_imp, exists_eq_left]
  | flip q m q' m' =>
    have h1 := ho (q, m) (by simp [ranges])
    have h2 := ho (q', m') (by simp [ranges])
    simp only [opOverlaps, ranges, Bool.or_eq_true, overlaps_iff p l q m hl h1,
      overlaps_iff p l q' m' hl h2,
      List.mem_cons, List.not_mem_nil, or_false, exists_eq_or_imp, exists_eq_left]

theorem hasOverlap_iff (p l : Int) (hl : 0 ≤ l) (ops : List Op) (ho : ∀ o ∈ ops, Proper o) :
    hasOverlap ops p l = true ↔ ∃ r ∈ ops.flatMap ranges, Conflict (p, l) r := by
  simp only [hasOverlap, List.any_eq_true, List.mem_flatMap]
  constructor
  · rintro ⟨o, h1, h2⟩
    obtain ⟨r, h3, h4⟩ := (opOverlaps_iff p l hl o (ho o h1)).mp h2
    exact ⟨r, ⟨o, h1, h3⟩, h4⟩
  · rintro ⟨r, ⟨o, h1, h3⟩, h4⟩
    exact ⟨o, h1, (opOverlaps_iff p l hl o (ho o h1)).mpr ⟨r, h3, h4⟩⟩

theorem rejects_iff (ops : List Op) (o : Op) (hos : ∀ o ∈ ops, Proper o) (ho : Proper o) :
    rejects ops o = true ↔ (∃ a ∈ ranges o, ∃ r ∈ ops.flatMap ranges, Conflict a r) ∨
      ¬ (ranges o).Pairwise (fun a b => ¬ Conflict a b) := by
  cases o with
  | replace q m t =>
    have := ho (q, m) (by simp [ranges])
    simp [rejects, ranges, hasOverlap_iff q m this ops hos]
  | remove q m =>
    have := ho (q, m) (by simp [ranges])
    simp [rejects, ranges, hasOverlap_iff q m this ops hos]
  | insert q t => simp [rejects, ranges, hasOverlap_iff q 0 (Int.le_refl 0) ops hos]
  | move q m to =>
    have := ho (q, m) (by simp [ranges])
    simp [rejects, ranges, hasOverlap_iff q m this ops hos,
      hasOverlap_iff to 0 (Int.le_refl 0) ops hos, overlaps_iff q m to 0 this (Int.le_refl 0)]
  | copy q m to =>
    have := ho (q, m) (by simp [ranges])
    simp [rejects, ranges, hasOverlap_iff q m this ops hos,
      hasOverlap_iff to 0 (Int.le_refl 0) ops hos, overlaps_iff q m to 0 this (Int.le_refl 0)]
  | flip q m q' m' =>
    have h1 := ho (q, m) (by simp [ranges])
    have h2 := ho (q', m') (by simp [ranges])
    simp [rejects, ranges, hasOverlap_iff q m h1 ops hos,
      hasOverlap_iff q' m' h2 ops hos, overlaps_iff q m q' m' h1 h2]

theorem changes_ops (c : ChangeSet) (ops : List Op) : (ops.foldl ChangeSet.add c).ops = c.ops ++ ops := by
  induction ops generalizing c with
  | nil => simp
  | cons o ops ih => simp [List.foldl_cons, ih, ChangeSet.add]

theorem error_iff (ops : List Op) : ∀ (c : ChangeSet), (∀ o ∈ c.ops, Proper o) →
    (∀ o ∈ ops, Proper o) →
    (c.error = true ↔ ¬ (c.ops.flatMap ranges).Pairwise (fun a b => ¬ Conflict a b)) →
    ((ops.foldl ChangeSet.add c).error = true ↔
      ¬ ((c.ops ++ ops).flatMap ranges).Pairwise (fun a b => ¬ Conflict a b)) := by
  induction ops with
  | nil => intro c _ _ h; simpa using h
  | cons o ops ih =>
    intro c hc hos h
    have ho := hos o List.mem_cons_self
    rw [List.foldl_cons]
    have := ih (c.add o) (by
      intro o' h'
      rcases List.mem_append.mp h' with h' | h'
      · exact hc o' h'
      · rw [List.mem_singleton.mp h']; exact ho) (fun o' h' => hos o' (List.mem_cons_of_mem _ h')) (by
      show (c.error || rejects c.ops o) = true ↔ ¬ ((c.ops ++ [o]).flatMap ranges).Pairwise _
      rw [Bool.or_eq_true, h, rejects_iff c.ops o hc ho, List.flatMap_append, List.pairwise_append]
      simp only [List.flatMap_cons, List.flatMap_nil, List.append_nil]
      constructor
      · rintro (h1 | ⟨a, h1, r, h2, h3⟩ | h1)
        · exact fun h => h1 h.1
        · exact fun h => h.2.2 r h2 a h1 (conflict_comm.mp h3)
        · exact fun h => h1 h.2.1
      · intro h1
        refine Classical.byContradiction (fun h2 => ?_)
        have h3 := not_or.mp h2
        have h4 := not_or.mp h3.2
        refine h1 ⟨Classical.not_not.mp h3.1, Classical.not_not.mp h4.2, ?_⟩
        intro r hr a ha hcf
        exact h4.1 ⟨a, ha, r, hr, conflict_comm.mp hcf⟩)
    simpa [ChangeSet.add] using this

/-- **C39.** An error is reported exactly if two of the ranges and positions given to the operations
conflict with each other. -/
theorem C39_error_iff_conflict (ops : List Op) (ho : ∀ o ∈ ops, ∀ r ∈ ranges o, 0 ≤ r.2) :
    (changes ops).error = true ↔
      ¬ (ops.flatMap ranges).Pairwise (fun a b => ¬ Conflict a b) := by
  have := error_iff ops ⟨[], false⟩ (by simp) ho (by simp)
  simpa [changes] using this

/-! ## One edit after the other is all at once -/

theorem from_append (es : List Edit) : ∀ (a : Str) (k : Int) (b : Str), (∀ j, k ≤ j → j < k + a.length →
    newAt es j = [] ∧ gone es j = false) →
    simultaneouslyFrom es k (a ++ b) = a ++ simultaneouslyFrom es (k + a.length) b
  | [], k, b, _ => by simp
  | c :: a, k, b, h => by
    have h0 := h k (Int.le_refl _) (by simp only [List.length_cons]; omega)
    rw [List.cons_append, simultaneouslyFrom, h0.1, h0.2, from_append es a (k + 1) b (fun j h1 h2 =>
      h j (by omega) (by simp only [List.length_cons]; omega))]
    simp only [List.length_cons, List.nil_append, Bool.false_eq_true, if_false]
    rw [show k + 1 + (a.length : Int) = k + ((a.length + 1 : Nat) : Int) by omega]
    rfl

theorem from_gone (es : List Edit) : ∀ (a : Str) (k : Int) (b : Str), (∀ j, k ≤ j → j < k + a.length →
    newAt es j = [] ∧ gone es j = true) →
    simultaneouslyFrom es k (a ++ b) = simultaneouslyFrom es (k + a.length) b
  | [], k, b, _ => by simp
  | c :: a, k, b, h => by
    have h0 := h k (Int.le_refl _) (by simp only [List.length_cons]; omega)
    rw [List.cons_append, simultaneouslyFrom, h0.1, h0.2, from_gone es a (k + 1) b (fun j h1 h2 =>
      h j (by omega) (by simp only [List.length_cons]; omega))]
    simp only [List.length_cons, List.nil_append, if_true]
    rw [show k + 1 + (a.length : Int) = k + ((a.length + 1 : Nat) : Int) by omega]

/-- Two sets of edits that agree. -/
theorem from_congr (es fs : List Edit) (d : Int) : ∀ (s : Str) (k : Int),
    (∀ j, k ≤ j → newAt es j = newAt fs (j + d) ∧ gone es j = gone fs (j + d)) →
    simultaneouslyFrom es k s = simultaneouslyFrom fs (k + d) s
  | [], k, h => (h k (Int.le_refl _)).1
  | c :: s, k, h => by
    have h0 := h k (Int.le_refl _)
    rw [simultaneouslyFrom, simultaneouslyFrom, h0.1, h0.2, from_congr es fs d s (k + 1) (fun j hj =>
      h j (by omega)), show k + 1 + d = k + d + 1 by omega]

theorem from_prefix (es fs : List Edit) : ∀ (a : Str) (k : Int) (b b' : Str),
    (∀ j, k ≤ j → j < k + a.length → newAt es j = newAt fs j ∧ gone es j = gone fs j) →
    simultaneouslyFrom es (k + a.length) b = simultaneouslyFrom fs (k + a.length) b' →
    simultaneouslyFrom es k (a ++ b) = simultaneouslyFrom fs k (a ++ b')
  | [], k, b, b', _, h => by simpa using h
  | c :: a, k, b, b', h, h' => by
    have h0 := h k (Int.le_refl _) (by simp only [List.length_cons]; omega)
    rw [List.cons_append, List.cons_append, simultaneouslyFrom, simultaneouslyFrom, h0.1, h0.2]
    rw [from_prefix es fs a (k + 1) b b' (fun j h1 h2 => h j (by omega)
      (by simp only [List.length_cons]; omega)) (by
        rw [show k + 1 + (a.length : Int) = k + ((c :: a).length : Int) by
          simp only [List.length_cons]; omega]
        exact h')]

/-- What is known of two edits, the first one earlier in the list. -/
structure Apart (a b : Edit) : Prop where
  noConflict : ¬ Conflict (a.pos, a.len) (b.pos, b.len)
  start : ¬ (0 < a.len ∧ b.len = 0 ∧ b.pos = a.pos)

/-- What is known of an edit. -/
structure Fits (n : Nat) (a : Edit) : Prop where
  pos : 0 ≤ a.pos
  len : 0 ≤ a.len
  fits : a.pos + a.len ≤ n

/-- Where an edit that comes later can be. -/
theorem apart_cases {r c : Edit} (hr : 0 ≤ r.len) (hc : 0 ≤ c.len) (h : Apart r c) :
    (c.pos < r.pos ∧ c.pos + c.len ≤ r.pos ∧ (shift r c).pos = c.pos) ∨
    (r.pos + r.len ≤ c.pos ∧ (shift r c).pos = c.pos + r.text.length - r.len) := by
  have h1 := h.noConflict
  have h2 := h.start
  rw [conflict_iff] at h1
  simp only at h1
  by_cases hlt : c.pos < r.pos
  · refine Or.inl ⟨hlt, by omega, ?_⟩
    simp only [shift]
    rw [if_neg (by omega), if_neg (by omega)]
  · refine Or.inr ⟨by omega, ?_⟩
    simp only [shift]
    rw [if_pos (show r.pos ≤ c.pos by omega)]
    split <;> omega

theorem shift_len (r c : Rep) : (shift r c).len = c.len ∧ (shift r c).text = c.text := ⟨rfl, rfl⟩

theorem newAt_cons (e : Edit) (es : List Edit) (k : Int) :
    newAt (e :: es) k = (if e.pos = k then e.text else []) ++ newAt es k := by
  unfold newAt
  rw [List.filter_cons]
  by_cases h : e.pos = k
  · simp [h]
  · simp [h]

theorem gone_cons (e : Edit) (es : List Edit) (k : Int) :
    gone (e :: es) k = (decide (e.pos ≤ k ∧ k < e.pos + e.len) || gone es k) := by
  simp [gone, Bool.decide_and]

theorem shifted_newAt {r : Edit} (rs : List Edit)
    (j k : Int) (h : ∀ c ∈ rs, c.pos = j ↔ (shift r c).pos = k) :
    newAt rs j = newAt (rs.map (shift r)) k := by
  induction rs with
  | nil => rfl
  | cons c rs ih =>
    rw [List.map_cons, newAt_cons, newAt_cons, ih
      (fun c hc => h c (List.mem_cons_of_mem _ hc)), (shift_len r c).2]
    congr 1
    have := h c List.mem_cons_self
    by_cases hj : c.pos = j
    · rw [if_pos hj, if_pos (this.mp hj)]
    · rw [if_neg hj, if_neg (fun hh => hj (this.mpr hh))]

theorem newAt_none (rs : List Edit) (j : Int) (h : ∀ c ∈ rs, c.pos ≠ j) : newAt rs j = [] := by
  induction rs with
  | nil => rfl
  | cons c rs ih =>
    rw [newAt_cons, ih (fun c hc => h c (List.mem_cons_of_mem _ hc)), if_neg (h c List.mem_cons_self)]
    rfl

theorem gone_iff (rs : List Edit) (j : Int) :
    gone rs j = true ↔ ∃ c ∈ rs, c.pos ≤ j ∧ j < c.pos + c.len := by
  simp [gone]

theorem gone_false (rs : List Edit) (j : Int) :
    gone rs j = false ↔ ∀ c ∈ rs, ¬ (c.pos ≤ j ∧ j < c.pos + c.len) := by
  rw [← Bool.not_eq_true, gone_iff]
  constructor
  · intro h c hc hh; exact h ⟨c, hc, hh⟩
  · rintro h ⟨c, hc, hh⟩; exact h c hc hh

theorem shifted_gone {r : Edit} (rs : List Edit) (j k : Int)
    (h : ∀ c ∈ rs, (c.pos ≤ j ∧ j < c.pos + c.len) ↔
      ((shift r c).pos ≤ k ∧ k < (shift r c).pos + c.len)) :
    gone rs j = gone (rs.map (shift r)) k := by
  apply Bool.eq_iff_iff.mpr
  rw [gone_iff, gone_iff]
  constructor
  · rintro ⟨c, hc, hh⟩
    exact ⟨shift r c, List.mem_map_of_mem hc, (h c hc).mp hh⟩
  · rintro ⟨c', hc', hh⟩
    obtain ⟨c, hc, rfl⟩ := List.mem_map.mp hc'
    exact ⟨c, hc, (h c hc).mpr hh⟩

/-- Doing the first edit. -/
theorem step_one (r : Edit) (rs : List Edit) (s : Str) (hr : Fits s.length r)
    (hrs : ∀ c ∈ rs, Fits s.length c ∧ Apart r c) :
    simultaneously (r :: rs) s = simultaneously (rs.map (shift r)) (qreplace s r) := by
  obtain ⟨h0, h1, h2⟩ := hr
  have hpos : r.pos.toNat + r.len.toNat ≤ s.length := by omega
  have hq : qreplace s r = s.take r.pos.toNat ++ (r.text ++ s.drop (r.pos.toNat + r.len.toNat)) := by
    unfold qreplace
    rw [if_neg (by omega), List.append_assoc, show (r.pos + r.len).toNat = r.pos.toNat + r.len.toNat by
      omega]
  have hs : s = s.take r.pos.toNat ++ ((s.drop r.pos.toNat).take r.len.toNat ++
      s.drop (r.pos.toNat + r.len.toNat)) := by
    rw [← List.drop_drop, List.take_append_drop, List.take_append_drop]
  have cs : ∀ c ∈ rs, (c.pos < r.pos ∧ c.pos + c.len ≤ r.pos ∧ (shift r c).pos = c.pos) ∨
      (r.pos + r.len ≤ c.pos ∧ (shift r c).pos = c.pos + r.text.length - r.len) := fun c hc =>
    apart_cases h1 (hrs c hc).1.len (hrs c hc).2
  have hl1 : ((s.take r.pos.toNat).length : Int) = r.pos := by
    rw [List.length_take]; omega
  unfold simultaneously
  rw [hq]
  conv => lhs; rw [hs]
  apply from_prefix
  · intro j hj0 hj
    rw [hl1] at hj
    refine ⟨?_, ?_⟩
    · rw [newAt_cons, if_neg (by omega), List.nil_append]
      apply shifted_newAt
      intro c hc
      rcases cs c hc with h | h <;> omega
    · rw [gone_cons, decide_eq_false (by omega), Bool.false_or]
      apply shifted_gone
      intro c hc
      have := (hrs c hc).1.len
      rcases cs c hc with h | h <;> omega
  · rw [hl1, show (0 : Int) + r.pos = r.pos by omega]
    -- the new text
    have hlen : (((s.drop r.pos.toNat).take r.len.toNat).length : Int) = r.len := by
      rw [List.length_take, List.length_drop]; omega
    have hrest : simultaneouslyFrom (r :: rs) r.pos ((s.drop r.pos.toNat).take r.len.toNat ++
        s.drop (r.pos.toNat + r.len.toNat)) =
        r.text ++ simultaneouslyFrom rs (r.pos + r.len) (s.drop (r.pos.toNat + r.len.toNat)) := by
      by_cases hz : r.len = 0
      · have ht : (s.drop r.pos.toNat).take r.len.toNat = [] := by rw [hz]; simp
        rw [ht, List.nil_append]
        have hc0 : ∀ (u : Str), simultaneouslyFrom (r :: rs) r.pos u =
            r.text ++ simultaneouslyFrom rs (r.pos + r.len) u := by
          intro u
          rw [hz, Int.add_zero]
          have later : ∀ (u : Str) (k : Int), r.pos < k →
              simultaneouslyFrom (r :: rs) k u = simultaneouslyFrom rs k u := by
            intro u k hk
            have := from_congr (r :: rs) rs 0 u k (fun j hj => by
              rw [Int.add_zero]
              refine ⟨?_, ?_⟩
              · rw [newAt_cons, if_neg (by omega)]; rfl
              · rw [gone_cons, decide_eq_false (by omega), Bool.false_or])
            rw [Int.add_zero] at this
            exact this
          cases u with
          | nil => rw [simultaneouslyFrom, simultaneouslyFrom, newAt_cons, if_pos rfl]
          | cons x u =>
            rw [simultaneouslyFrom, simultaneouslyFrom, newAt_cons, if_pos rfl, gone_cons,
              decide_eq_false (by omega), Bool.false_or, later u _ (by omega)]
            simp only [List.append_assoc]
        exact hc0 _
      · -- first character of the replaced range
        have hne : (s.drop r.pos.toNat).take r.len.toNat ≠ [] := by
          intro hh
          rw [hh] at hlen
          simp at hlen
          omega
        obtain ⟨x, d, hxd⟩ := List.exists_cons_of_ne_nil hne
        rw [hxd] at hlen
        simp only [List.length_cons] at hlen
        rw [hxd, List.cons_append, simultaneouslyFrom, newAt_cons, if_pos rfl, newAt_none rs, gone_cons,
          decide_eq_true (by omega), Bool.true_or, if_pos rfl]
        · simp only [List.append_nil]
          congr 1
          rw [from_gone]
          · rw [show r.pos + 1 + (d.length : Int) = r.pos + r.len by omega]
            have := from_congr (r :: rs) rs 0 (s.drop (r.pos.toNat + r.len.toNat)) (r.pos + r.len)
              (fun j hj => by
                rw [Int.add_zero]
                refine ⟨?_, ?_⟩
                · rw [newAt_cons, if_neg (by omega)]; rfl
                · rw [gone_cons, decide_eq_false (by omega), Bool.false_or])
            rw [Int.add_zero] at this
            exact this
          · intro j hj1 hj2
            refine ⟨?_, ?_⟩
            · rw [newAt_cons, if_neg (by omega), newAt_none rs]
              · rfl
              · intro c hc
                rcases cs c hc with h | h <;> omega
            · rw [gone_cons, decide_eq_true (by omega), Bool.true_or]
        · intro c hc
          rcases cs c hc with h | h <;> omega
    rw [hrest, from_append]
    · congr 1
      have := from_congr rs (rs.map (shift r)) (r.text.length - r.len)
        (s.drop (r.pos.toNat + r.len.toNat)) (r.pos + r.len) (fun j hj => by
          refine ⟨?_, ?_⟩
          · apply shifted_newAt
            intro c hc
            rcases cs c hc with h | h <;> omega
          · apply shifted_gone
            intro c hc
            have := (hrs c hc).1.len
            rcases cs c hc with h | h <;> omega)
      rw [this, show r.pos + r.len + ((r.text.length : Int) - r.len) = r.pos + r.text.length by omega]
    · intro j hj1 hj2
      refine ⟨newAt_none _ _ ?_, (gone_false _ _).mpr ?_⟩
      · intro c' hc'
        obtain ⟨c, hc, rfl⟩ := List.mem_map.mp hc'
        rcases cs c hc with h | h <;> omega
      · intro c' hc'
        obtain ⟨c, hc, rfl⟩ := List.mem_map.mp hc'
        rw [(shift_len r c).1]
        have := (hrs c hc).1.len
        rcases cs c hc with h | h <;> omega

theorem step_apart {r c d : Edit} (hr : 0 ≤ r.len) (hc : 0 ≤ c.len) (hd : 0 ≤ d.len) (h1 : Apart r c)
    (h2 : Apart r d) (h : Apart c d) : Apart (shift r c) (shift r d) := by
  have c1 := apart_cases hr hc h1
  have c2 := apart_cases hr hd h2
  obtain ⟨n, s⟩ := h
  rw [conflict_iff] at n
  simp only at n
  refine ⟨?_, ?_⟩
  · rw [conflict_iff]
    simp only [(shift_len r c).1, (shift_len r d).1]
    rcases c1 with c1 | c1 <;> rcases c2 with c2 | c2 <;> omega
  · simp only [(shift_len r c).1, (shift_len r d).1]
    rcases c1 with c1 | c1 <;> rcases c2 with c2 | c2 <;> omega

theorem qreplace_length (s : Str) (r : Edit) (hr : Fits s.length r) :
    ((qreplace s r).length : Int) = s.length + r.text.length - r.len := by
  obtain ⟨h0, h1, h2⟩ := hr
  unfold qreplace
  rw [if_neg (by omega)]
  simp only [List.length_append, List.length_take, List.length_drop]
  omega

theorem execute_eq : ∀ (n : Nat) (rs : List Edit) (s : Str), rs.length = n →
    (∀ r ∈ rs, Fits s.length r) → rs.Pairwise Apart → execute s rs = simultaneously rs s
  | 0, rs, s, hn, _, _ => by
    rw [List.length_eq_zero_iff.mp hn, execute]
    have : ∀ (s : Str) (k : Int), simultaneouslyFrom [] k s = s := by
      intro s
      induction s with
      | nil => intro k; rfl
      | cons c s ih => intro k; rw [simultaneouslyFrom, ih]; simp [newAt, gone]
    exact (this s 0).symm
  | n + 1, [], s, hn, _, _ => by cases hn
  | n + 1, r :: rs, s, hn, hf, ha => by
    rw [List.pairwise_cons] at ha
    have hr := hf r List.mem_cons_self
    rw [execute, step_one r rs s hr (fun c hc => ⟨hf c (List.mem_cons_of_mem _ hc), ha.1 c hc⟩)]
    refine execute_eq n _ _ (by simpa using hn) ?_ ?_
    · intro c' hc'
      obtain ⟨c, hc, rfl⟩ := List.mem_map.mp hc'
      have hfc := hf c (List.mem_cons_of_mem _ hc)
      have hl := qreplace_length s r hr
      have := apart_cases hr.len hfc.len (ha.1 c hc)
      obtain ⟨a1, a2, a3⟩ := hr
      obtain ⟨b1, b2, b3⟩ := hfc
      refine ⟨?_, b2, ?_⟩
      · rcases this with h | h <;> omega
      · rw [(shift_len r c).1]
        rcases this with h | h <;> omega
    · rw [List.pairwise_map]
      refine List.Pairwise.imp_of_mem ?_ ha.2
      intro a b hma hmb hab
      exact step_apart hr.len (hf a (List.mem_cons_of_mem _ hma)).len
        (hf b (List.mem_cons_of_mem _ hmb)).len (ha.1 a hma) (ha.1 b hmb) hab

theorem convert_eq (s : Str) (o : Op) : convert s o = edits s o := by
  cases o <;> rfl

theorem edits_ranges (s : Str) (o : Op) :
    List.Sublist ((edits s o).map (fun e => (e.pos, e.len))) (ranges o) := by
  cases o <;> simp [edits, ranges]

theorem flatMap_sublist {α β} {f g : α → List β} (h : ∀ a, List.Sublist (f a) (g a)) :
    ∀ l : List α, List.Sublist (l.flatMap f) (l.flatMap g)
  | [] => by simp
  | a :: l => by
    rw [List.flatMap_cons, List.flatMap_cons]
    exact (h a).append (flatMap_sublist h l)

theorem all_edits_ranges (s : Str) (ops : List Op) :
    List.Sublist ((ops.flatMap (edits s)).map (fun e => (e.pos, e.len))) (ops.flatMap ranges) := by
  rw [List.map_flatMap]
  exact flatMap_sublist (edits_ranges s) ops

/-- **C39 (partial).** If no error was reported, all ranges lie in the text and nothing is inserted at
the start of a range that an earlier edit replaces, the result is that of all edits at once, each at
its position in the original text. Missing: such insertions, for which it is false
(`C39_insert_after_replacement`, `C39_insert_after_removal`). -/
theorem C39_simultaneous_partial (ops : List Op) (s : Str) (hok : (changes ops).error = false)
    (hin : ∀ o ∈ ops, ∀ r ∈ ranges o, Inside s r) (hst : NoInsertAtStart (ops.flatMap (edits s))) :
    (changes ops).apply s = simultaneously (ops.flatMap (edits s)) s := by
  have hp : (ops.flatMap ranges).Pairwise (fun a b => ¬ Conflict a b) := by
    refine Classical.byContradiction (fun hn => ?_)
    have := (C39_error_iff_conflict ops (fun o ho r hr => (hin o ho r hr).2.1)).mpr hn
    rw [hok] at this
    cases this
  unfold ChangeSet.apply
  rw [show (changes ops).ops = ops from by simp [changes, changes_ops]]
  rw [show convert s = edits s from funext (convert_eq s)]
  have hsub := all_edits_ranges s ops
  refine execute_eq _ _ s rfl ?_ ?_
  · intro e he
    have : (e.pos, e.len) ∈ ops.flatMap ranges := hsub.subset (List.mem_map_of_mem he)
    obtain ⟨o, ho, hr⟩ := List.mem_flatMap.mp this
    obtain ⟨h1, h2, h3⟩ := hin o ho _ hr
    exact ⟨h1, h2, h3⟩
  · have h1 : (ops.flatMap (edits s)).Pairwise
        (fun a b => ¬ Conflict (a.pos, a.len) (b.pos, b.len)) :=
      List.pairwise_map.mp (hp.sublist hsub)
    exact (h1.and hst).imp (fun ⟨a, b⟩ => ⟨a, b⟩)

/-! ### The order of the calls -/

theorem perm_flatMap {α β} (f : α → List β) {l l' : List α} (h : l.Perm l') :
    (l.flatMap f).Perm (l'.flatMap f) := h.flatMap_right f

theorem newAt_perm {es fs : List Edit} (h : es.Perm fs) (hd : es.Pairwise (fun a b => a.pos ≠ b.pos))
    (k : Int) : newAt es k = newAt fs k := by
  induction h with
  | nil => rfl
  | cons a _ ih => rw [newAt_cons, newAt_cons, ih (List.pairwise_cons.mp hd).2]
  | swap a b l =>
    rw [newAt_cons, newAt_cons, newAt_cons, newAt_cons]
    have hne := (List.pairwise_cons.mp hd).1 a (by simp)
    by_cases h1 : a.pos = k
    · rw [if_neg (fun h2 => hne (h2.trans h1.symm))]; simp
    · rw [if_neg h1]; simp
  | trans h1 h2 ih1 ih2 =>
    rw [ih1 hd, ih2 (hd.perm h1 (fun h => h.symm))]

theorem simultaneously_perm {es fs : List Edit} (h : es.Perm fs)
    (hd : es.Pairwise (fun a b => a.pos ≠ b.pos)) (s : Str) :
    simultaneously es s = simultaneously fs s := by
  have := from_congr es fs 0 s 0 (fun j _ => by
    rw [Int.add_zero]
    refine ⟨newAt_perm h hd j, ?_⟩
    apply Bool.eq_iff_iff.mpr
    rw [gone_iff, gone_iff]
    exact ⟨fun ⟨c, hc, hh⟩ => ⟨c, h.mem_iff.mp hc, hh⟩, fun ⟨c, hc, hh⟩ => ⟨c, h.mem_iff.mpr hc, hh⟩⟩)
  simpa [simultaneously] using this

/-- **C39.** If all edits are at different positions the order of the calls does not matter, neither
for errors nor for the result. -/
theorem C39_order_of_calls (ops ops' : List Op) (s : Str) (hperm : ops.Perm ops')
    (hin : ∀ o ∈ ops, ∀ r ∈ ranges o, Inside s r)
    (hd : (ops.flatMap (edits s)).Pairwise (fun a b => a.pos ≠ b.pos)) :
    (changes ops).error = (changes ops').error ∧
    ((changes ops).error = false → (changes ops).apply s = (changes ops').apply s) := by
  have hin' : ∀ o ∈ ops', ∀ r ∈ ranges o, Inside s r := fun o ho => hin o (hperm.mem_iff.mpr ho)
  have herr : (changes ops).error = (changes ops').error := by
    apply Bool.eq_iff_iff.mpr
    rw [C39_error_iff_conflict ops (fun o ho r hr => (hin o ho r hr).2.1),
      C39_error_iff_conflict ops' (fun o ho r hr => (hin' o ho r hr).2.1)]
    have hsymm : ∀ {a b : Range}, ¬ Conflict a b → ¬ Conflict b a := fun h h' => h (conflict_comm.mp h')
    have hp := perm_flatMap ranges hperm
    exact ⟨fun h h' => h (h'.perm hp.symm hsymm), fun h h' => h (h'.perm hp hsymm)⟩
  refine ⟨herr, fun hok => ?_⟩
  have hst : ∀ es : List Edit, es.Pairwise (fun a b => a.pos ≠ b.pos) → NoInsertAtStart es :=
    fun es h => h.imp (fun hne hh => hne hh.2.2.symm)
  have hp := perm_flatMap (edits s) hperm
  have hd' := hd.perm hp (fun h => h.symm)
  rw [C39_simultaneous_partial ops s hok hin (hst _ hd),
    C39_simultaneous_partial ops' s (herr ▸ hok) hin' (hst _ hd'), simultaneously_perm hp hd]

/-! ## Cases -/

def text : Str := "0123456789".toList

example : let ops : List Op := [.replace 2 3 "ab".toList, .insert 5 "X".toList, .insert 1 "Y".toList,
      .flip 6 1 8 2, .move 0 1 10]
    (changes ops).error = false ∧ (∀ o ∈ ops, ∀ r ∈ ranges o, Inside text r) ∧
    NoInsertAtStart (ops.flatMap (edits text)) ∧
    (ops.flatMap (edits text)).Pairwise (fun a b => a.pos ≠ b.pos) ∧
    (changes ops).apply text = "Y1abX58976".toList ++ "0".toList := by
  unfold Inside NoInsertAtStart
  exact ⟨by decide, by decide, by decide, by decide, by decide +kernel⟩

example : (changes [.replace 2 3 "ab".toList, .insert 4 "X".toList]).error = true := by decide

/-- **C39 finding.** After the replacement of a range by a text, an insertion at the start of this range
is not reported as a conflict, and takes place *before* the text that precedes the range: its position
is first moved behind the new text and then, because it is now greater than the range's, moved by the
length of the range (changeset.cpp 256-259). -/
theorem C39_insert_after_replacement :
    let ops : List Op := [.replace 5 3 "ab".toList, .insert 5 "X".toList]
    (changes ops).error = false ∧ (∀ o ∈ ops, ∀ r ∈ ranges o, Inside text r) ∧
    (changes ops).apply text = "0123X4ab89".toList ∧
    simultaneously (ops.flatMap (edits text)) text = "01234abX89".toList := by
  unfold Inside
  exact ⟨by decide, by decide, by decide +kernel, by decide⟩

/-- **C39 finding.** Insertions at both ends of a range that is removed before: the texts appear in
the order of the calls, not in that of their positions. -/
theorem C39_insert_after_removal :
    let ops : List Op := [.remove 5 3, .insert 8 "right".toList, .insert 5 "left".toList]
    (changes ops).error = false ∧ (∀ o ∈ ops, ∀ r ∈ ranges o, Inside text r) ∧
    (changes ops).apply text = "01234rightleft89".toList ∧
    simultaneously (ops.flatMap (edits text)) text = "01234leftright89".toList := by
  unfold Inside
  exact ⟨by decide, by decide, by decide +kernel, by decide⟩

end Verif.Edit
