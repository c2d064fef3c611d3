import Verif.Deps.Witness

/-! # C68: which variants of a product are depended on -/

namespace Verif.Deps

/-- The product with this name, of this variant -/
def IsVariant (w : World) (n : Name) (q : Product) : Prop := q ∈ w.prods ∧ q.name = toStr n ∧ q.muxId ≠ ""

/-- There is one that stands for all variants, or there are none. -/
def HasAggregator (w : World) (n : Name) : Prop := ∃ q ∈ w.prods, q.name = toStr n ∧ q.muxId = ""

/-- No property that both are multiplexed over has different values. -/
def Compatible (a b : Product) : Prop := ∀ k v v', (k, v) ∈ a.config → b.config.lookup k = some v' → v = v'

/-- The variants that are wanted, as documented: with a list of profiles, all variants for these profiles; without one, the same
variant as the product if it is a variant itself, or else one that does not contradict it; or the aggregator; or all of them. -/
def Wanted (w : World) (me : Product) (d : Dep) (q : Product) : Prop :=
  IsVariant w d.name q ∧
    match d.profiles with
    | some ps => ps = [] ∨ q.profile ∈ ps
    | none =>
      if me.muxId = "" then ¬ HasAggregator w d.name
      else q.muxId = me.muxId ∨ ((∀ q', IsVariant w d.name q' → q'.muxId ≠ me.muxId) ∧ Compatible q me)

theorem intersects_iff {a b : Product} : intersects a.config b.config = true ↔ Compatible a b := by
  unfold intersects Compatible
  rw [List.all_eq_true]
  constructor
  · intro h k v v' h1 h2
    have := h (k, v) h1
    simp only [h2, decide_eq_true_eq] at this
    exact this
  · intro h x hx
    split
    · rename_i v hv; simpa using h x.1 x.2 v hx hv
    · rfl

theorem mem_variants {w : World} {n : Name} {q : Product} :
    q ∈ (w.prods.filter (fun q => q.name = toStr n)).filter (fun q => q.muxId ≠ "") ↔ IsVariant w n q := by
  rw [List.mem_filter, List.mem_filter]
  simp only [IsVariant, decide_eq_true_eq, and_assoc, ne_eq]

theorem any_aggregator {w : World} {n : Name} : (w.prods.filter (fun q => q.name = toStr n)).any (fun q => q.muxId = "") = true ↔ HasAggregator w n := by
  simp [HasAggregator, List.any_eq_true]

/-- **C68.** If the variants are determined without an error, they are the ones that are wanted. -/
theorem C68_wanted {w : World} {me : Product} (hme : prodAt w w.self = some me) {d d' : Dep} (hd : d.muxIds = []) (hn : toStr d.name ≠ me.name)
    (h : adjust w d = .ok d') : ∀ i, i ∈ d'.muxIds ↔ ∃ q, Wanted w me d q ∧ q.muxId = i := by
  intro i
  unfold adjust at h
  rw [hme] at h
  simp only [if_neg hn] at h
  split at h
  · rename_i h0
    cases h
    rw [hd]
    refine ⟨fun h => by simp at h, ?_⟩
    rintro ⟨q, ⟨hq, _⟩, _⟩
    have := mem_variants.mpr hq
    rw [h0] at this
    simp at this
  · rename_i h0
    split at h
    · rename_i h1
      cases h
      rw [hd]
      refine ⟨fun h => by simp at h, ?_⟩
      rintro ⟨q, ⟨_, hq⟩, _⟩
      rw [h1.2.2] at hq
      simp only [if_pos h1.1] at hq
      exact absurd (any_aggregator.mp h1.2.1) hq
    · rename_i h1
      split at h
      · rename_i h2
        split at h
        · rename_i h3
          cases h
          obtain ⟨q0, hq0, hq1⟩ := List.any_eq_true.mp h3
          have hq0 := mem_variants.mp hq0
          simp only [decide_eq_true_eq] at hq1
          simp only [List.mem_singleton]
          constructor
          · rintro rfl
            refine ⟨q0, ⟨hq0, ?_⟩, hq1⟩
            rw [h2.2]
            simp only [if_neg h2.1]
            exact Or.inl hq1
          · rintro ⟨q, ⟨_, hq⟩, rfl⟩
            rw [h2.2] at hq
            simp only [if_neg h2.1] at hq
            rcases hq with hq | hq
            · exact hq
            · exact absurd hq1 (hq.1 q0 hq0)
        · rename_i h3
          have hno : ∀ q', IsVariant w d.name q' → q'.muxId ≠ me.muxId := by
            intro q' hq' he
            exact h3 (List.any_eq_true.mpr ⟨q', mem_variants.mpr hq', by simpa using he⟩)
          have hmem : ∀ i, i ∈ (((w.prods.filter (fun q => q.name = toStr d.name)).filter (fun q => q.muxId ≠ "")).filter
              (fun q => intersects q.config me.config)).map (·.muxId) ↔ ∃ q, Wanted w me d q ∧ q.muxId = i := by
            intro i
            rw [List.mem_map]
            constructor
            · rintro ⟨q, hq, rfl⟩
              obtain ⟨ha, hb⟩ := List.mem_filter.mp hq
              refine ⟨q, ⟨mem_variants.mp ha, ?_⟩, rfl⟩
              rw [h2.2]
              simp only [if_neg h2.1]
              exact Or.inr ⟨hno, intersects_iff.mp hb⟩
            · rintro ⟨q, ⟨ha, hb⟩, rfl⟩
              rw [h2.2] at hb
              simp only [if_neg h2.1] at hb
              refine ⟨q, List.mem_filter.mpr ⟨mem_variants.mpr ha, intersects_iff.mpr ?_⟩, rfl⟩
              rcases hb with hb | hb
              · exact absurd hb (hno q ha)
              · exact hb.2
          rw [← hmem i]
          split at h
          · cases h
          · rename_i j hj
            cases h
            rw [hj]
          · cases h
      · rename_i h2
        split at h
        · cases h
        · cases h
          simp only [List.mem_map]
          constructor
          · rintro ⟨q, hq, rfl⟩
            obtain ⟨ha, hb⟩ := List.mem_filter.mp hq
            refine ⟨q, ⟨mem_variants.mp ha, ?_⟩, rfl⟩
            cases hp : d.profiles with
            | none =>
              have hm : me.muxId = "" := by
                by_cases hm : me.muxId = ""
                · exact hm
                · exact absurd ⟨hm, hp⟩ h2
              simp only [if_pos hm]
              intro hag
              exact h1 ⟨hm, any_aggregator.mpr hag, hp⟩
            | some ps =>
              simpa [forProfiles, hp] using hb
          · rintro ⟨q, ⟨ha, hb⟩, rfl⟩
            refine ⟨q, List.mem_filter.mpr ⟨mem_variants.mpr ha, ?_⟩, rfl⟩
            cases hp : d.profiles with
            | none => simp [forProfiles, hp]
            | some ps =>
              rw [hp] at hb
              simpa [forProfiles, hp] using hb

/-- **C68.** Variants are looked for in vain only if there are variants, and none of them is wanted. -/
theorem C68_none {w : World} {me : Product} (hme : prodAt w w.self = some me) {d : Dep} (hn : toStr d.name ≠ me.name) :
    adjust w d = .error (.noCandidates d.name) ↔
      (∃ q, IsVariant w d.name q) ∧ (∀ q, ¬ Wanted w me d q) ∧ ¬ (me.muxId = "" ∧ HasAggregator w d.name ∧ d.profiles = none) := by
  unfold adjust
  rw [hme]
  simp only [if_neg hn]
  split
  · rename_i h0
    refine ⟨fun h => (by cases h), ?_⟩
    rintro ⟨⟨q, hq⟩, _⟩
    have := mem_variants.mpr hq
    rw [h0] at this
    simp at this
  · rename_i h0
    have hex : ∃ q, IsVariant w d.name q := by
      obtain ⟨q, hq⟩ := List.exists_mem_of_ne_nil _ h0
      exact ⟨q, mem_variants.mp hq⟩
    split
    · rename_i h1
      refine ⟨fun h => (by cases h), ?_⟩
      rintro ⟨_, _, h⟩
      exact absurd ⟨h1.1, any_aggregator.mp h1.2.1, h1.2.2⟩ h
    · rename_i h1
      have h1' : ¬ (me.muxId = "" ∧ HasAggregator w d.name ∧ d.profiles = none) := fun h => h1 ⟨h.1, any_aggregator.mpr h.2.1, h.2.2⟩
      split
      · rename_i h2
        split
        · rename_i h3
          refine ⟨fun h => (by cases h), ?_⟩
          rintro ⟨_, h, _⟩
          obtain ⟨q0, hq0, hq1⟩ := List.any_eq_true.mp h3
          refine absurd (?_ : Wanted w me d q0) (h q0)
          refine ⟨mem_variants.mp hq0, ?_⟩
          rw [h2.2]
          simp only [if_neg h2.1]
          exact Or.inl (by simpa using hq1)
        · rename_i h3
          have hno : ∀ q', IsVariant w d.name q' → q'.muxId ≠ me.muxId := by
            intro q' hq' he
            exact h3 (List.any_eq_true.mpr ⟨q', mem_variants.mpr hq', by simpa using he⟩)
          have hw : ∀ q, Wanted w me d q ↔ q ∈ ((w.prods.filter (fun q => q.name = toStr d.name)).filter (fun q => q.muxId ≠ "")).filter
              (fun q => intersects q.config me.config) := by
            intro q
            rw [List.mem_filter, mem_variants, intersects_iff, Wanted, h2.2]
            simp only [if_neg h2.1]
            constructor
            · rintro ⟨a, b | b⟩
              · exact absurd b (hno q a)
              · exact ⟨a, b.2⟩
            · rintro ⟨a, b⟩; exact ⟨a, Or.inr ⟨hno, b⟩⟩
          split
          · rename_i hj
            refine ⟨fun _ => ⟨hex, fun q hq => ?_, h1'⟩, fun _ => rfl⟩
            have := (hw q).mp hq
            rw [List.map_eq_nil_iff] at hj
            rw [hj] at this
            simp at this
          · rename_i j hj
            refine ⟨fun h => (by cases h), ?_⟩
            rintro ⟨_, h, _⟩
            obtain ⟨q, hq, _⟩ := List.mem_map.mp (hj ▸ List.mem_singleton_self j : j ∈ List.map _ _)
            exact absurd ((hw q).mpr hq) (h q)
          · rename_i hj1 hj2
            refine ⟨fun h => (by simp at h), ?_⟩
            rintro ⟨_, h, _⟩
            refine absurd ?_ hj1
            rw [List.map_eq_nil_iff, List.eq_nil_iff_forall_not_mem]
            exact fun q hq => h q ((hw q).mpr hq)
      · rename_i h2
        have hw : ∀ q, Wanted w me d q ↔ q ∈ ((w.prods.filter (fun q => q.name = toStr d.name)).filter (fun q => q.muxId ≠ "")).filter
            (forProfiles d) := by
          intro q
          rw [List.mem_filter, mem_variants, Wanted]
          cases hp : d.profiles with
          | none =>
            have hm : me.muxId = "" := by
              by_cases hm : me.muxId = ""
              · exact hm
              · exact absurd ⟨hm, hp⟩ h2
            simp only [if_pos hm, forProfiles, hp, and_true, and_iff_left_iff_imp]
            exact fun _ hag => h1 ⟨hm, any_aggregator.mpr hag, hp⟩
          | some ps => simp [forProfiles, hp]
        split
        · rename_i hj
          refine ⟨fun _ => ⟨hex, fun q hq => ?_, h1'⟩, fun _ => rfl⟩
          have := (hw q).mp hq
          rw [List.map_eq_nil_iff] at hj
          rw [hj] at this
          simp at this
        · rename_i hj
          refine ⟨fun h => (by cases h), ?_⟩
          rintro ⟨_, h, _⟩
          refine absurd ?_ hj
          rw [List.map_eq_nil_iff, List.eq_nil_iff_forall_not_mem]
          exact fun q hq => h q ((hw q).mpr hq)

/-- **C68.** A product that is a variant itself depends on at most one variant of another product if no profiles are given. If
several of them could be meant, there is an error. -/
theorem C68_one {w : World} {me : Product} (hme : prodAt w w.self = some me) {d d' : Dep} (hd : d.muxIds = []) (hn : toStr d.name ≠ me.name)
    (hmux : me.muxId ≠ "") (hp : d.profiles = none) (h : adjust w d = .ok d') : d'.muxIds.length ≤ 1 := by
  unfold adjust at h
  rw [hme] at h
  simp only [if_neg hn] at h
  split at h
  · cases h; simp [hd]
  · split at h
    · rename_i h1; exact absurd h1.1 hmux
    · split at h
      · split at h
        · cases h; simp
        · split at h
          · cases h
          · cases h; simp
          · cases h
      · rename_i h2; exact absurd ⟨hmux, hp⟩ h2

/-- **C68.** If it is ambiguous which variant is meant, there are two different ones. -/
theorem C68_ambiguous {w : World} {me : Product} (hme : prodAt w w.self = some me) {d : Dep} (hn : toStr d.name ≠ me.name) (hnd : w.prods.Nodup) :
    adjust w d = .error (.ambiguousCandidates d.name) ↔
      me.muxId ≠ "" ∧ d.profiles = none ∧ (∀ q, IsVariant w d.name q → q.muxId ≠ me.muxId) ∧ ∃ q q', Wanted w me d q ∧ Wanted w me d q' ∧ q ≠ q' := by
  unfold adjust
  rw [hme]
  simp only [if_neg hn]
  split
  · rename_i h0
    refine ⟨fun h => (by cases h), ?_⟩
    rintro ⟨_, _, _, q, _, ⟨hq, _⟩, _⟩
    have := mem_variants.mpr hq
    rw [h0] at this
    simp at this
  · rename_i h0
    split
    · rename_i h1
      refine ⟨fun h => (by cases h), ?_⟩
      rintro ⟨h, _⟩
      exact absurd h1.1 h
    · rename_i h1
      split
      · rename_i h2
        split
        · rename_i h3
          refine ⟨fun h => (by cases h), ?_⟩
          rintro ⟨_, _, h, _⟩
          obtain ⟨q0, hq0, hq1⟩ := List.any_eq_true.mp h3
          exact absurd (by simpa using hq1) (h q0 (mem_variants.mp hq0))
        · rename_i h3
          have hno : ∀ q', IsVariant w d.name q' → q'.muxId ≠ me.muxId := by
            intro q' hq' he
            exact h3 (List.any_eq_true.mpr ⟨q', mem_variants.mpr hq', by simpa using he⟩)
          have hw : ∀ q, Wanted w me d q ↔ q ∈ ((w.prods.filter (fun q => q.name = toStr d.name)).filter (fun q => q.muxId ≠ "")).filter
              (fun q => intersects q.config me.config) := by
            intro q
            rw [List.mem_filter, mem_variants, intersects_iff, Wanted, h2.2]
            simp only [if_neg h2.1]
            constructor
            · rintro ⟨a, b | b⟩
              · exact absurd b (hno q a)
              · exact ⟨a, b.2⟩
            · rintro ⟨a, b⟩; exact ⟨a, Or.inr ⟨hno, b⟩⟩
          have hndl := ((hnd.filter (fun q : Product => decide (q.name = toStr d.name))).filter (fun q : Product => decide (q.muxId ≠ ""))).filter
            (fun q => intersects q.config me.config)
          revert hw hndl
          generalize ((w.prods.filter (fun q => q.name = toStr d.name)).filter (fun q => q.muxId ≠ "")).filter (fun q => intersects q.config me.config) = l
          intro hw hndl
          match l, hw, hndl with
          | [], hw, _ =>
            refine ⟨fun h => (by simp at h), ?_⟩
            rintro ⟨_, _, _, q, _, hq, _⟩
            have := (hw q).mp hq
            simp at this
          | [x], hw, _ =>
            refine ⟨fun h => (by simp at h), ?_⟩
            rintro ⟨_, _, _, q, q', hq, hq', hne⟩
            have h1 := (hw q).mp hq
            have h2 := (hw q').mp hq'
            simp only [List.mem_singleton] at h1 h2
            exact absurd (h1.trans h2.symm) hne
          | x :: y :: l, hw, hndl =>
            refine ⟨fun _ => ⟨h2.1, h2.2, hno, x, y, (hw x).mpr (by simp), (hw y).mpr (by simp), ?_⟩, fun _ => rfl⟩
            intro hxy
            exact (List.nodup_cons.mp hndl).1 (hxy ▸ List.mem_cons_self)
      · rename_i h2
        have hneg : ¬ (me.muxId ≠ "" ∧ d.profiles = none ∧ (∀ q, IsVariant w d.name q → q.muxId ≠ me.muxId) ∧ ∃ q q', Wanted w me d q ∧ Wanted w me d q' ∧ q ≠ q') :=
          fun h => h2 ⟨h.1, h.2.1⟩
        split
        · exact ⟨fun h => by simp at h, fun h => absurd h hneg⟩
        · exact ⟨fun h => (by cases h), fun h => absurd h hneg⟩

/-- C68: a library for two architectures, an application for one of them and two build variants -/
def w68 : World :=
  { prods := [{ name := "app", muxId := "x", config := [("arch", "arm"), ("variant", "debug")] }, { name := "lib", muxId := "a", config := [("arch", "x86")] },
      { name := "lib", muxId := "b", config := [("arch", "arm")] }]
    self := 0, depends := [{ name := ["lib"] }], module := files [] }

example : adjust w68 { name := ["lib"] } = .ok { name := ["lib"], muxIds := ["b"] } := by with_unfolding_all rfl
example : adjust w68 { name := ["lib"], profiles := some [] } = .ok { name := ["lib"], profiles := some [], muxIds := ["a", "b"] } := by with_unfolding_all rfl
example : adjust w68 { name := ["lib"], profiles := some ["p"] } = .error (.noCandidates ["lib"]) := by with_unfolding_all rfl
example : adjust { w68 with prods := w68.prods ++ [{ name := "lib", muxId := "c", config := [("os", "linux")] }] } { name := ["lib"] } =
    .error (.ambiguousCandidates ["lib"]) := by with_unfolding_all rfl

end Verif.Deps
