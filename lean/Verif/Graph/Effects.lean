import Verif.Graph.Search

/-! # Effects of the primitive operations, in terms of membership -/

namespace Verif.Graph

theorem mem_modi {f : Nat → List Nat} {k i x : Nat} {g : List Nat → List Nat} :
    x ∈ modi f k g i ↔ (i = k ∧ x ∈ g (f i)) ∨ (i ≠ k ∧ x ∈ f i) := by
  unfold modi
  split <;> simp [*]

theorem mem_upd_nil {f : Nat → List Nat} {k i x : Nat} :
    x ∈ upd f k [] i ↔ i ≠ k ∧ x ∈ f i := by
  unfold upd
  split <;> simp [*]

theorem modi_same {β : Type} (f : Nat → β) (k : Nat) (g : β → β) : modi f k g k = g (f k) := by
  simp [modi]

theorem modi_ne {β : Type} (f : Nat → β) {k i : Nat} (g : β → β) (h : i ≠ k) :
    modi f k g i = f i := by simp [modi, h]

theorem del_sublist (x : Nat) (l : List Nat) : (del x l).Sublist l := List.filter_sublist

/-- The parts of the state which never change after creation of the objects. -/
structure SameBase (s s' : State) : Prop where
  live : s'.live = s.live
  isArt : s'.isArt = s.isArt
  isDep : s'.isDep = s.isDep
  gen : s'.gen = s.gen
  path : s'.path = s.path
  trafo : s'.trafo = s.trafo
  fileDeps : s'.fileDeps = s.fileDeps
  ptags : s'.ptags = s.ptags
  bound : s'.bound = s.bound
  prod : s'.prod = s.prod
  tags : s'.tags = s.tags

theorem SameBase.refl (s : State) : SameBase s s :=
  ⟨rfl, rfl, rfl, rfl, rfl, rfl, rfl, rfl, rfl, rfl, rfl⟩

theorem SameBase.trans {s s' s'' : State} (h : SameBase s s') (h' : SameBase s' s'') :
    SameBase s s'' :=
  ⟨h'.live.trans h.live, h'.isArt.trans h.isArt, h'.isDep.trans h.isDep, h'.gen.trans h.gen,
   h'.path.trans h.path, h'.trafo.trans h.trafo, h'.fileDeps.trans h.fileDeps,
   h'.ptags.trans h.ptags, h'.bound.trans h.bound, h'.prod.trans h.prod, h'.tags.trans h.tags⟩

/-! ## The tag index -/

theorem mem_modTag {s : State} {p t p' t' x : Nat} {g : List Nat → List Nat} :
    x ∈ (modTag s p t g).byTag p' t' ↔
      ((p' = p ∧ t' = t) ∧ x ∈ g (s.byTag p' t')) ∨ (¬ (p' = p ∧ t' = t) ∧ x ∈ s.byTag p' t') := by
  unfold modTag
  simp only
  split <;> simp [*]

theorem mem_removeFromTag {s : State} {p a t p' t' x : Nat} :
    x ∈ (removeFromTag s p a t).byTag p' t' ↔
      x ∈ s.byTag p' t' ∧ ¬ (p' = p ∧ t' = t ∧ x = a) := by
  unfold removeFromTag
  split
  · rename_i h
    constructor
    · intro hx
      refine ⟨hx, ?_⟩
      rintro ⟨rfl, rfl, rfl⟩
      simp [h] at hx
    · exact fun h => h.1
  · rw [mem_modTag]
    simp only [mem_del]
    constructor
    · rintro (⟨⟨rfl, rfl⟩, h1, h2⟩ | ⟨h1, h2⟩)
      · exact ⟨h1, fun h => h2 h.2.2⟩
      · exact ⟨h2, fun h => h1 ⟨h.1, h.2.1⟩⟩
    · rintro ⟨h1, h2⟩
      by_cases h : p' = p ∧ t' = t
      · exact .inl ⟨h, h1, fun hx => h2 ⟨h.1, h.2, hx⟩⟩
      · exact .inr ⟨h, h1⟩

/-- Nothing but the tag index (and the flag derived from it) changes. -/
structure OnlyTags (s s' : State) : Prop where
  eq : ∃ b j, s' = { s with byTag := b, jsOk := j }

theorem OnlyTags.trans {s s' s'' : State} (h : OnlyTags s s') (h' : OnlyTags s' s'') :
    OnlyTags s s'' := by
  obtain ⟨b, j, rfl⟩ := h.eq
  obtain ⟨b', j', rfl⟩ := h'.eq
  exact ⟨b', j', rfl⟩

theorem addToTag_only (s : State) (p a t : Nat) : OnlyTags s (addToTag s p a t) := ⟨_, _, rfl⟩

theorem removeFromTag_only (s : State) (p a t : Nat) : OnlyTags s (removeFromTag s p a t) := by
  unfold removeFromTag
  split
  · exact ⟨s.byTag, s.jsOk, rfl⟩
  · exact ⟨_, _, rfl⟩

theorem addToTags_only (s : State) (p a : Nat) (ts : List Nat) :
    OnlyTags s (addToTags s p a ts) := by
  induction ts generalizing s with
  | nil => exact ⟨s.byTag, s.jsOk, rfl⟩
  | cons t ts ih => exact (addToTag_only s p a t).trans (ih _)

theorem removeFromTags_only (s : State) (p a : Nat) (ts : List Nat) :
    OnlyTags s (removeFromTags s p a ts) := by
  induction ts generalizing s with
  | nil => exact ⟨s.byTag, s.jsOk, rfl⟩
  | cons t ts ih => exact (removeFromTag_only s p a t).trans (ih _)

theorem mem_addToTags {s : State} {p a : Nat} {ts : List Nat} {p' t' x : Nat} :
    x ∈ (addToTags s p a ts).byTag p' t' ↔
      x ∈ s.byTag p' t' ∨ (p' = p ∧ t' ∈ ts ∧ x = a) := by
  induction ts generalizing s with
  | nil => simp [addToTags]
  | cons t ts ih =>
    simp only [addToTags, ih]
    unfold addToTag
    rw [mem_modTag]
    simp only [mem_ins, List.mem_cons]
    by_cases h : p' = p ∧ t' = t
    · obtain ⟨rfl, rfl⟩ := h
      simp only [and_self, true_and, not_true_eq_false, false_and, or_false, true_or]
      constructor
      · rintro ((h | h) | ⟨_, h⟩)
        · exact .inr h
        · exact .inl h
        · exact .inr h
      · rintro (h | h)
        · exact .inl (.inr h)
        · exact .inl (.inl h)
    · simp only [h, false_and, not_false_eq_true, true_and, false_or]
      constructor
      · rintro (h1 | ⟨h1, h2, h3⟩)
        · exact .inl h1
        · exact .inr ⟨h1, .inr h2, h3⟩
      · rintro (h1 | ⟨h1, h2 | h2, h3⟩)
        · exact .inl h1
        · exact absurd ⟨h1, h2⟩ h
        · exact .inr ⟨h1, h2, h3⟩

theorem mem_removeFromTags {s : State} {p a : Nat} {ts : List Nat} {p' t' x : Nat} :
    x ∈ (removeFromTags s p a ts).byTag p' t' ↔
      x ∈ s.byTag p' t' ∧ ¬ (p' = p ∧ t' ∈ ts ∧ x = a) := by
  induction ts generalizing s with
  | nil => simp [removeFromTags]
  | cons t ts ih =>
    simp only [removeFromTags, ih, mem_removeFromTag, List.mem_cons]
    constructor
    · rintro ⟨⟨h1, h2⟩, h3⟩
      refine ⟨h1, ?_⟩
      rintro ⟨h4, h5 | h5, h6⟩
      · exact h2 ⟨h4, h5, h6⟩
      · exact h3 ⟨h4, h5, h6⟩
    · rintro ⟨h1, h2⟩
      exact ⟨⟨h1, fun h => h2 ⟨h.1, .inl h.2.1, h.2.2⟩⟩, fun h => h2 ⟨h.1, .inr h.2.1, h.2.2⟩⟩

/-! ## removeArtifact -/

/-- What `disconnectArtifactParents`'s loop does. -/
structure CutEff (s : State) (a : Nat) (ps : List Nat) (s' : State) : Prop where
  ch : ∀ p c, c ∈ s'.ch p ↔ c ∈ s.ch p ∧ ¬ (c = a ∧ p ∈ ps)
  scan : ∀ p c, c ∈ s'.scan p ↔ c ∈ s.scan p ∧ ¬ (c = a ∧ p ∈ ps ∧ s.isArt p)
  inp : ∀ t i, i ∈ s'.inp t ↔ i ∈ s.inp t ∧ ¬ (i = a ∧ ∃ p ∈ ps, s.isArt p ∧ s.trafo p = some t)
  expl : ∀ t i, i ∈ s'.expl t ↔
    i ∈ s.expl t ∧ ¬ (i = a ∧ ∃ p ∈ ps, s.isArt p ∧ s.trafo p = some t)
  rest : ∃ c sc i e, s' = { s with ch := c, scan := sc, inp := i, expl := e }
  trafoOk : ∀ p ∈ ps, s.isArt p → s.trafo p ≠ none

theorem cutParents_eff {s : State} {a : Nat} {ps : List Nat} {s' : State}
    (h : cutParents s a ps = some s') : CutEff s a ps s' := by
  induction ps generalizing s with
  | nil =>
    simp only [cutParents, Option.some.injEq] at h
    subst h
    exact ⟨by simp, by simp, by simp, by simp, ⟨_, _, _, _, rfl⟩, by simp⟩
  | cons q ps ih =>
    simp only [cutParents] at h
    split at h
    · cases h
    · rename_i s1 hs1
      have hi := ih h
      obtain ⟨c2, sc2, i2, e2, hrest⟩ := hi.rest
      unfold cutParent at hs1
      simp only at hs1
      split at hs1
      · rename_i hart
        simp only [Option.some.injEq] at hs1
        subst hs1
        refine ⟨?_, ?_, ?_, ?_, ⟨c2, sc2, i2, e2, hrest⟩, ?_⟩
        · intro p c
          rw [hi.ch]
          simp only [mem_modi, mem_del, List.mem_cons]
          by_cases hp : p = q <;> by_cases hc : c = a <;> simp [hp, hc]
        · intro p c
          rw [hi.scan]
          simp only [List.mem_cons]
          constructor
          · rintro ⟨h1, h2⟩
            refine ⟨h1, ?_⟩
            rintro ⟨h3, rfl | h4, h5⟩
            · simp [hart] at h5
            · exact h2 ⟨h3, h4, h5⟩
          · rintro ⟨h1, h2⟩
            exact ⟨h1, fun h => h2 ⟨h.1, .inr h.2.1, h.2.2⟩⟩
        · intro t i
          rw [hi.inp]
          simp only [List.mem_cons, exists_eq_or_imp, hart, Bool.false_eq_true, false_and,
            false_or]
        · intro t i
          rw [hi.expl]
          simp only [List.mem_cons, exists_eq_or_imp, hart, Bool.false_eq_true, false_and,
            false_or]
        · intro p hp hpa
          rcases List.mem_cons.1 hp with rfl | hp
          · simp [hart] at hpa
          · exact hi.trafoOk p hp hpa
      · rename_i hart
        have hart : s.isArt q = true := by simpa using hart
        split at hs1
        · cases hs1
        · rename_i t ht
          simp only [Option.some.injEq] at hs1
          subst hs1
          refine ⟨?_, ?_, ?_, ?_, ⟨c2, sc2, i2, e2, hrest⟩, ?_⟩
          · intro p c
            rw [hi.ch]
            simp only [mem_modi, mem_del, List.mem_cons]
            by_cases hp : p = q <;> by_cases hc : c = a <;> simp [hp, hc]
          · intro p c
            rw [hi.scan]
            simp only [mem_modi, mem_del, List.mem_cons]
            by_cases hp : p = q <;> by_cases hc : c = a <;> simp [hp, hc, hart]
          · intro t' i
            rw [hi.inp]
            simp only [mem_modi, mem_del, List.mem_cons, exists_eq_or_imp, hart, ht,
              Option.some.injEq, true_and]
            have hcm : t = t' ↔ t' = t := eq_comm
            rw [hcm]
            by_cases htt : t' = t <;> by_cases hia : i = a <;> simp [htt, hia]
          · intro t' i
            rw [hi.expl]
            simp only [mem_modi, mem_del, List.mem_cons, exists_eq_or_imp, hart, ht,
              Option.some.injEq, true_and]
            have hcm : t = t' ↔ t' = t := eq_comm
            rw [hcm]
            by_cases htt : t' = t <;> by_cases hia : i = a <;> simp [htt, hia]
          · intro p hp hpa
            rcases List.mem_cons.1 hp with rfl | hp
            · simp [ht]
            · exact hi.trafoOk p hp hpa

theorem cutParents_some {s : State} {a : Nat} {ps : List Nat}
    (h : ∀ p ∈ ps, s.isArt p → s.trafo p ≠ none) : ∃ s', cutParents s a ps = some s' := by
  induction ps generalizing s with
  | nil => exact ⟨s, rfl⟩
  | cons q ps ih =>
    have : ∃ s1, cutParent s a q = some s1 ∧ s1.isArt = s.isArt ∧ s1.trafo = s.trafo := by
      unfold cutParent
      simp only
      split
      · exact ⟨_, rfl, rfl, rfl⟩
      · rename_i hart
        have hq := h q (by simp) (by simpa using hart)
        split
        · rename_i ht; exact absurd ht hq
        · exact ⟨_, rfl, rfl, rfl⟩
    obtain ⟨s1, h1, h2, h3⟩ := this
    obtain ⟨s', h'⟩ := ih (s := s1) (fun p hp ha => by
      rw [h3]; exact h p (by simp [hp]) (by rwa [h2] at ha))
    exact ⟨s', by simp [cutParents, h1, h']⟩

/-- Membership in a rule node's old inputs after `removeOldInputArtifact`. -/
theorem mem_oldStep {C : Prop} [Decidable C] {a x : Nat} {l : List Nat} :
    x ∈ (if C then (if a ∈ l then ins 0 (del a l) else l) else l) ↔
      (x ∈ l ∧ ¬ (x = a ∧ C)) ∨ (x = 0 ∧ a ∈ l ∧ C) := by
  by_cases hr : C
  · rw [if_pos hr]
    by_cases ha : a ∈ l
    · rw [if_pos ha]
      simp only [mem_ins, mem_del]
      constructor
      · rintro (h | ⟨h1, h2⟩)
        · exact .inr ⟨h, ha, hr⟩
        · exact .inl ⟨h1, fun h => h2 h.1⟩
      · rintro (⟨h1, h2⟩ | h)
        · exact .inr ⟨h1, fun h => h2 ⟨h, hr⟩⟩
        · exact .inl h.1
    · rw [if_neg ha]
      constructor
      · intro h
        exact .inl ⟨h, fun hh => ha (hh.1 ▸ h)⟩
      · rintro (⟨h1, h2⟩ | h)
        · exact h1
        · exact absurd h.2.1 ha
  · rw [if_neg hr]
    constructor
    · intro h; exact .inl ⟨h, fun hh => hr hh.2⟩
    · rintro (⟨h1, h2⟩ | h)
      · exact h1
      · exact absurd h.2.2 hr

/-- What `removeArtifact` does. -/
structure RemEff (s : State) (a : Nat) (d fp : Bool) (s' : State) : Prop where
  base : SameBase s s'
  ch : ∀ p c, c ∈ s'.ch p ↔ c ∈ s.ch p ∧ p ≠ a ∧ c ≠ a
  pa : ∀ p c, p ∈ s'.pa c ↔ p ∈ s.pa c ∧ p ≠ a ∧ c ≠ a
  paSub : ∀ i, (s'.pa i).Sublist (s.pa i)
  scan : ∀ p c, c ∈ s'.scan p ↔
    c ∈ s.scan p ∧ p ≠ a ∧ ¬ (c = a ∧ p ∈ s.pa a ∧ s.isArt p)
  inp : ∀ t i, i ∈ s'.inp t ↔
    i ∈ s.inp t ∧ ¬ (i = a ∧ ∃ p ∈ s.pa a, p ≠ a ∧ s.isArt p ∧ s.trafo p = some t)
  expl : ∀ t i, i ∈ s'.expl t ↔
    i ∈ s.expl t ∧ ¬ (i = a ∧ ∃ p ∈ s.pa a, p ≠ a ∧ s.isArt p ∧ s.trafo p = some t)
  out : ∀ t i, i ∈ s'.out t ↔ i ∈ s.out t ∧ ¬ (i = a ∧ s.trafo a = some t)
  lookup : ∀ k, s'.lookup k = if k = s.path a then (s.lookup k).erase a else s.lookup k
  nodes : ∀ p x, x ∈ s'.nodes p ↔ x ∈ s.nodes p ∧ ¬ (fp ∧ x = a ∧ s.prod a = some p)
  roots : ∀ p x, x ∈ s'.roots p ↔ x ∈ s.roots p ∧ ¬ (fp ∧ x = a ∧ s.prod a = some p)
  byTag : ∀ p t x, x ∈ s'.byTag p t ↔
    x ∈ s.byTag p t ∧ ¬ (fp ∧ x = a ∧ s.prod a = some p ∧ t ∈ s.tags a)
  old : ∀ r x, x ∈ s'.old r ↔ (x ∈ s.old r ∧ ¬ (x = a ∧ r ∈ s.pa a ∧ s.isArt r = false)) ∨
    (x = 0 ∧ a ∈ s.old r ∧ r ∈ s.pa a ∧ s.isArt r = false)
  oldEx : ∀ r x, x ∈ s'.oldEx r ↔ (x ∈ s.oldEx r ∧ ¬ (x = a ∧ r ∈ s.pa a ∧ s.isArt r = false)) ∨
    (x = 0 ∧ a ∈ s.oldEx r ∧ r ∈ s.pa a ∧ s.isArt r = false)
  disk : ∀ k, s'.disk k = if d && s.gen a && decide (k = s.path a) then false else s.disk k
  tsOk : s'.tsOk = s.tsOk
  removed : s'.removed = s.removed
  fpOk : fp → s.prod a ≠ none

theorem removeArtifact_eff {s : State} {a : Nat} {d fp : Bool} {s' : State} (hsym : Symmetric s)
    (h : removeArtifact s a d fp = some s') : RemEff s a d fp s' := by
  have key : ∀ s1 s2 : State, s1 = (if d && s.gen a then { s with disk := upd s.disk (s.path a) false } else s) →
      removeFromRuleNodes (removeLookup s1 a) a = s2 →
      ∀ s3, disconnectParents (disconnectChildren s2 a) a = some s3 →
      RemEff s a d false (dropOutput s3 a) := by
    intro s1 s2 hs1 hs2 s3 hs3
    obtain ⟨dk, hs1', hdisk⟩ : ∃ dk, s1 = { s with disk := dk } ∧
        ∀ k, dk k = if d && s.gen a && decide (k = s.path a) then false else s.disk k := by
      subst hs1
      split
      · rename_i hh
        refine ⟨_, rfl, fun k => ?_⟩
        by_cases hk : k = s.path a <;> simp [upd, hh, hk]
      · rename_i hh
        exact ⟨s.disk, rfl, fun k => by simp [hh]⟩
    clear hs1
    subst hs1'
    unfold disconnectParents at hs3
    rw [Option.map_eq_some_iff] at hs3
    obtain ⟨s4, hs4, rfl⟩ := hs3
    have hc := cutParents_eff hs4
    obtain ⟨c4, sc4, i4, e4, hrest⟩ := hc.rest
    have hs2' : s2.ch = s.ch ∧ s2.pa = s.pa ∧ s2.scan = s.scan ∧ s2.isArt = s.isArt ∧
        s2.inp = s.inp ∧ s2.expl = s.expl ∧ s2.trafo = s.trafo ∧ s2.out = s.out := by
      subst hs2; exact ⟨rfl, rfl, rfl, rfl, rfl, rfl, rfl, rfl⟩
    obtain ⟨e1, e2, e3, e4', e5, e6, e7, e8⟩ := hs2'
    have hpa : ∀ p c, p ∈ (disconnectChildren s2 a).pa c ↔ p ∈ s.pa c ∧ p ≠ a := by
      intro p c
      simp only [disconnectChildren, e1, e2]
      split
      · simp [mem_del]
      · rename_i hca
        constructor
        · intro hp
          exact ⟨hp, fun hpa => hca (by rw [← hpa]; exact (hsym p c).2 hp)⟩
        · exact fun hp => hp.1
    have hbase : SameBase s s4 := by
      rw [hrest]
      subst hs2
      exact ⟨rfl, rfl, rfl, rfl, rfl, rfl, rfl, rfl, rfl, rfl, rfl⟩
    have hpa4 : s4.pa = (disconnectChildren s2 a).pa := by rw [hrest]
    have hout4 : s4.out = s.out := by rw [hrest]; exact e8
    unfold dropOutput
    refine ⟨hbase.trans ⟨rfl, rfl, rfl, rfl, rfl, rfl, rfl, rfl, rfl, rfl, rfl⟩,
      ?_, ?_, ?_, ?_, ?_, ?_, ?_, ?_, ?_, ?_, ?_, ?_, ?_, ?_, ?_, ?_, ?_⟩
    · intro p c
      simp only
      rw [hc.ch, hpa]
      simp only [disconnectChildren, mem_upd_nil, e1]
      constructor
      · rintro ⟨⟨h1, h2⟩, h3⟩
        refine ⟨h2, h1, fun hca => h3 ⟨hca, ?_, h1⟩⟩
        rw [← hca]
        exact (hsym p c).1 h2
      · rintro ⟨h1, h2, h3⟩
        exact ⟨⟨h2, h1⟩, fun h => h3 h.1⟩
    · intro p c
      simp only [mem_upd_nil, hpa4, hpa]
      constructor
      · rintro ⟨h1, h2, h3⟩; exact ⟨h2, h3, h1⟩
      · rintro ⟨h1, h2, h3⟩; exact ⟨h3, h1, h2⟩
    · intro i
      simp only [upd]
      split
      · exact List.nil_sublist _
      · rw [hpa4]
        simp only [disconnectChildren, e1, e2]
        split
        · exact del_sublist _ _
        · exact List.Sublist.refl _
    · intro p c
      simp only
      rw [hc.scan, hpa]
      simp only [disconnectChildren, mem_upd_nil, e3, e4']
      constructor
      · rintro ⟨⟨h1, h2⟩, h3⟩
        exact ⟨h2, h1, fun h => h3 ⟨h.1, ⟨h.2.1, h1⟩, h.2.2⟩⟩
      · rintro ⟨h1, h2, h3⟩
        exact ⟨⟨h2, h1⟩, fun h => h3 ⟨h.1, h.2.1.1, h.2.2⟩⟩
    · intro t i
      simp only
      rw [hc.inp]
      have h1 : (disconnectChildren s2 a).inp = s.inp := e5
      have h2 : (disconnectChildren s2 a).isArt = s.isArt := e4'
      have h3 : (disconnectChildren s2 a).trafo = s.trafo := e7
      simp only [hpa, h1, h2, h3, and_assoc]
    · intro t i
      simp only
      rw [hc.expl]
      have h1 : (disconnectChildren s2 a).expl = s.expl := e6
      have h2 : (disconnectChildren s2 a).isArt = s.isArt := e4'
      have h3 : (disconnectChildren s2 a).trafo = s.trafo := e7
      simp only [hpa, h1, h2, h3, and_assoc]
    · intro t i
      have h1 : s4.trafo a = s.trafo a := by rw [hbase.trafo]
      simp only [dropOutput, h1, hout4]
      split
      · rename_i ht; simp [mem_del, ht]
      · rename_i ht; simp [ht]
    · intro k
      simp only [hrest]
      subst hs2
      simp only [disconnectChildren, removeFromRuleNodes, removeLookup, modi]
    · intro p x; simp only [hrest]; subst hs2; simp only [disconnectChildren, removeFromRuleNodes, removeLookup]; simp
    · intro p x; simp only [hrest]; subst hs2; simp only [disconnectChildren, removeFromRuleNodes, removeLookup]; simp
    · intro p t x; simp only [hrest]; subst hs2; simp only [disconnectChildren, removeFromRuleNodes, removeLookup]; simp
    · intro r x
      simp only [hrest]; subst hs2
      exact mem_oldStep
    · intro r x
      simp only [hrest]; subst hs2
      exact mem_oldStep
    · intro k
      simp only [hrest]; subst hs2
      simp only [disconnectChildren, removeFromRuleNodes, removeLookup]
      exact hdisk k
    · simp only [dropOutput, hrest]; subst hs2; rfl
    · simp only [dropOutput, hrest]; subst hs2; rfl
    · simp
  unfold removeArtifact at h
  simp only at h
  split at h
  · cases h
  · rename_i s3 hs3
    have hk := key _ _ rfl rfl s3 hs3
    generalize dropOutput s3 a = s5 at h hk
    cases fp with
    | false => simp at h; subst h; exact hk
    | true =>
      simp only [if_true] at h
      split at h
      · cases h
      · rename_i p hp
        simp only [Option.some.injEq] at h
        subst h
        have hprod : s.prod a = some p := by rw [← hk.base.prod]; exact hp
        unfold removeFromProduct
        obtain ⟨b, j, hbt⟩ := (removeFromTags_only { s5 with roots := modi s5.roots p (del a), nodes := modi s5.nodes p (del a) } p a (s5.tags a)).eq
        refine ⟨?_, ?_, ?_, ?_, ?_, ?_, ?_, ?_, ?_, ?_, ?_, ?_, ?_, ?_, ?_, ?_, ?_, ?_⟩
        · rw [hbt]; exact hk.base.trans ⟨rfl, rfl, rfl, rfl, rfl, rfl, rfl, rfl, rfl, rfl, rfl⟩
        · rw [hbt]; exact hk.ch
        · rw [hbt]; exact hk.pa
        · rw [hbt]; exact hk.paSub
        · rw [hbt]; exact hk.scan
        · rw [hbt]; exact hk.inp
        · rw [hbt]; exact hk.expl
        · rw [hbt]; exact hk.out
        · rw [hbt]; exact hk.lookup
        · rw [hbt]
          intro p' x
          simp only [mem_modi, mem_del, hk.nodes, hprod, Option.some.injEq]
          by_cases h1 : p' = p <;> by_cases h2 : x = a <;> simp [h1, h2, eq_comm]
          exact fun _ h => absurd h.symm h1
        · rw [hbt]
          intro p' x
          simp only [mem_modi, mem_del, hk.roots, hprod, Option.some.injEq]
          by_cases h1 : p' = p <;> by_cases h2 : x = a <;> simp [h1, h2, eq_comm]
          exact fun _ h => absurd h.symm h1
        · intro p' t x
          rw [mem_removeFromTags]
          simp only [hk.byTag, hk.base.tags, hprod, Option.some.injEq]
          constructor
          · rintro ⟨⟨h1, _⟩, h2⟩
            exact ⟨h1, fun h => h2 ⟨h.2.2.1.symm, h.2.2.2, h.2.1⟩⟩
          · rintro ⟨h1, h2⟩
            exact ⟨⟨h1, by simp⟩, fun h => h2 ⟨trivial, h.2.2, h.1.symm, h.2.1⟩⟩
        · rw [hbt]; exact hk.old
        · rw [hbt]; exact hk.oldEx
        · rw [hbt]; exact hk.disk
        · rw [hbt]; exact hk.tsOk
        · rw [hbt]; exact hk.removed
        · intro _; simp [hprod]

theorem removeArtifact_some {s : State} {a : Nat} {d fp : Bool}
    (h : ∀ p ∈ s.pa a, s.isArt p → s.trafo p ≠ none) (hp : fp → s.prod a ≠ none) :
    ∃ s', removeArtifact s a d fp = some s' := by
  unfold removeArtifact
  simp only
  generalize hs1 : (if d && s.gen a then { s with disk := upd s.disk (s.path a) false } else s) = s1
  obtain ⟨dk, hs1'⟩ : ∃ dk, s1 = { s with disk := dk } := by
    subst hs1; split
    · exact ⟨_, rfl⟩
    · exact ⟨s.disk, rfl⟩
  clear hs1
  subst hs1'
  have hc : ∃ s3, disconnectParents (disconnectChildren (removeFromRuleNodes (removeLookup { s with disk := dk } a) a) a) a
      = some s3 ∧ s3.trafo = s.trafo ∧ s3.prod = s.prod := by
    unfold disconnectParents
    have : ∀ p ∈ (disconnectChildren (removeFromRuleNodes (removeLookup { s with disk := dk } a) a) a).pa a,
        p ∈ s.pa a := by
      intro p hp
      have hp : p ∈ (if a ∈ s.ch a then del a (s.pa a) else s.pa a) := hp
      by_cases hca : a ∈ s.ch a
      · rw [if_pos hca] at hp; exact (mem_del.1 hp).1
      · rw [if_neg hca] at hp; exact hp
    obtain ⟨s4, h4⟩ := cutParents_some (a := a)
      (s := disconnectChildren (removeFromRuleNodes (removeLookup { s with disk := dk } a) a) a)
      (ps := (disconnectChildren (removeFromRuleNodes (removeLookup { s with disk := dk } a) a) a).pa a) (by
        intro p hp hart
        exact h p (this p hp) hart)
    obtain ⟨_, _, _, _, hrest⟩ := (cutParents_eff h4).rest
    refine ⟨{ s4 with pa := upd s4.pa a [] }, by simp [h4], ?_, ?_⟩
    · simp only [hrest]; rfl
    · simp only [hrest]; rfl
  obtain ⟨s3, h3, h4, h5⟩ := hc
  rw [h3]
  simp only
  cases fp with
  | false => exact ⟨_, rfl⟩
  | true =>
    have hp' := hp rfl
    cases hpr : s.prod a with
    | none => exact absurd hpr hp'
    | some p =>
      simp only [if_true]
      simp [dropOutput, h5, hpr]

end Verif.Graph
