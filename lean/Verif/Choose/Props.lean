import Verif.Choose.Spec
import Verif.Version.Props

/-! # C67: which file is used for a module -/

namespace Verif.Choose
open Verif.Version

/-! ## Candidates -/

theorem mem_candidates {dirs : List (List File)} {c : Candidate} :
    c ∈ candidates dirs ↔ c.priority = 0 ∧ c.fits = true ∧ Usable dirs c.index c.file := by
  unfold candidates
  simp only [List.mem_flatMap, List.mem_range, List.mem_map, List.mem_filter, Bool.and_eq_true]
  constructor
  · rintro ⟨i, hi, f, ⟨h1, h2, h3⟩, rfl⟩
    refine ⟨rfl, rfl, dirs[i], by simp [hi], ?_, h2, h3⟩
    simpa [List.getD, hi] using h1
  · rintro ⟨h1, h2, d, h3, h4, h5, h6⟩
    obtain ⟨hi, hd⟩ := List.getElem?_eq_some_iff.mp h3
    refine ⟨c.index, hi, c.file, ⟨by simp [List.getD, hi, hd, h4], h5, h6⟩, ?_⟩
    cases c; simp_all

theorem range_nodup (n : Nat) : (List.range n).Nodup := List.nodup_range

theorem nodup_flatMap {α β : Type} {f : α → List β} {l : List α} (h1 : l.Nodup) (h2 : ∀ a ∈ l, (f a).Nodup)
    (h3 : ∀ a b x, x ∈ f a → x ∈ f b → a = b) : (l.flatMap f).Nodup := by
  induction l with
  | nil => simp
  | cons a l ih =>
    rw [List.flatMap_cons, List.nodup_append]
    rw [List.nodup_cons] at h1
    refine ⟨h2 a List.mem_cons_self, ih h1.2 (fun b hb => h2 b (List.mem_cons_of_mem _ hb)), ?_⟩
    rintro x hx y hy rfl
    obtain ⟨b, hb, hxb⟩ := List.mem_flatMap.mp hy
    rw [h3 a b x hx hxb] at h1
    exact h1.1 hb

theorem nodup_map {α β : Type} {f : α → β} {l : List α} (hf : ∀ a ∈ l, ∀ b ∈ l, f a = f b → a = b) (h : l.Nodup) : (l.map f).Nodup := by
  induction l with
  | nil => simp
  | cons a l ih =>
    rw [List.nodup_cons] at h
    rw [List.map_cons, List.nodup_cons]
    refine ⟨fun hm => ?_, ih (fun a ha b hb => hf a (List.mem_cons_of_mem _ ha) b (List.mem_cons_of_mem _ hb)) h.2⟩
    obtain ⟨b, hb, he⟩ := List.mem_map.mp hm
    exact h.1 (hf b (List.mem_cons_of_mem _ hb) a List.mem_cons_self he ▸ hb)

theorem candidates_nodup {dirs : List (List File)} (h : Listed dirs) : (candidates dirs).Nodup := by
  unfold candidates
  refine nodup_flatMap (range_nodup _) ?_ ?_
  · intro i hi
    refine nodup_map (fun a _ b _ he => by simpa using he) (List.Pairwise.filter _ ?_)
    have hi := List.mem_range.mp hi
    rw [List.getD, List.getElem?_eq_getElem hi]
    exact h _ (List.getElem_mem hi)
  · intro i j c hi hj
    obtain ⟨_, _, rfl⟩ := List.mem_map.mp hi
    obtain ⟨_, _, h⟩ := List.mem_map.mp hj
    simp only [Candidate.mk.injEq] at h
    exact h.2.2.1.symm

/-! ## The maximum -/

theorem less_iff {a b : Candidate} : less a b = true ↔
    (a.fits = false ∧ b.fits = true) ∨ (a.fits = b.fits ∧ (a.priority < b.priority ∨ (a.priority = b.priority ∧ b.index < a.index))) := by
  unfold less
  cases a.fits <;> cases b.fits <;> simp <;> omega

theorem less_trans_not {a b c : Candidate} (h1 : less a b = true) (h2 : less a c = false) : less b c = false := by
  rw [← Bool.not_eq_true, less_iff] at h2
  rw [← Bool.not_eq_true, less_iff]
  rw [less_iff] at h1
  revert h1 h2
  cases a.fits <;> cases b.fits <;> cases c.fits <;> simp <;> omega

theorem maxElement_spec (m : Candidate) (l : List Candidate) :
    maxElement m l ∈ m :: l ∧ ∀ c ∈ m :: l, less (maxElement m l) c = false := by
  induction l generalizing m with
  | nil =>
    refine ⟨List.mem_cons_self, fun c hc => ?_⟩
    simp only [List.mem_cons, List.not_mem_nil, or_false] at hc
    subst hc
    rw [maxElement, ← Bool.not_eq_true, less_iff]
    cases c.fits <;> simp
  | cons x l ih =>
    unfold maxElement
    obtain ⟨h1, h2⟩ := ih (if less m x then x else m)
    refine ⟨?_, fun c hc => ?_⟩
    · rcases List.mem_cons.mp h1 with h | h
      · rw [h]; split <;> simp
      · simp [h]
    · have hx := h2 _ List.mem_cons_self
      rcases List.mem_cons.mp hc with rfl | hc
      · split at hx
        · rename_i hl
          rw [if_pos hl]
          rw [if_pos hl] at h2
          rw [← Bool.not_eq_true, less_iff] at hx ⊢
          rw [less_iff] at hl
          revert hx hl
          generalize maxElement x l = y
          cases c.fits <;> cases x.fits <;> cases y.fits <;> simp <;> omega
        · rename_i hl
          rw [if_neg hl]; exact hx
      · rcases List.mem_cons.mp hc with rfl | hc
        · split at hx
          · rename_i hl
            rw [if_pos hl]; exact hx
          · rename_i hl
            rw [if_neg hl]
            rw [less_iff] at hl
            rw [← Bool.not_eq_true, less_iff] at hx ⊢
            revert hx hl
            generalize maxElement m l = y
            cases m.fits <;> cases c.fits <;> cases y.fits <;> simp <;> omega
        · exact h2 c (List.mem_cons_of_mem _ hc)

theorem ge_iff {a b : Version} : ge a b = true ↔ ¬ LexLt a b := by
  unfold ge
  rw [Bool.not_eq_true', ← Bool.not_eq_true, lt_iff]

theorem rate_fits {r : Range} {c : Candidate} (h : c.fits = true) : (rate r c).fits = true ↔ InRange r c.file := by
  unfold rate InRange
  simp only
  have h1 := isValid_iff r.minimum
  have h2 := isValid_iff r.maximum
  cases hm : r.minimum.isValid <;> cases hx : r.maximum.isValid <;> simp [hm, hx, h, ge_iff, lt_iff] at h1 h2 ⊢ <;> simp [h1, h2]

theorem better_of_less {r : Range} {a b : Candidate} (ha : a.fits = true) (hb : b.fits = true) :
    less (rate r b) (rate r a) = true ↔ Better r a.index a.file b.index b.file := by
  rw [less_iff, Better]
  have h1 := rate_fits (r := r) ha
  have h2 := rate_fits (r := r) hb
  rw [← h1, ← h2]
  have hp : ∀ c, (rate r c).priority = c.file.priority := fun _ => rfl
  have hi : ∀ c, (rate r c).index = c.index := fun _ => rfl
  rw [hp, hp, hi, hi]
  cases (rate r a).fits <;> cases (rate r b).fits <;> simp <;> omega

/-! ## The properties -/

theorem count_gt_one {α : Type} {p : α → Bool} {l : List α} (h : l.Nodup) :
    l.countP p > 1 ↔ ∃ a ∈ l, ∃ b ∈ l, a ≠ b ∧ p a = true ∧ p b = true := by
  induction l with
  | nil => simp
  | cons x l ih =>
    rw [List.nodup_cons] at h
    rw [List.countP_cons]
    constructor
    · intro hc
      by_cases hx : p x = true
      · rw [if_pos hx] at hc
        obtain ⟨y, hy, hpy⟩ := List.countP_pos_iff.mp (show 0 < l.countP p by omega)
        exact ⟨x, by simp, y, by simp [hy], fun he => h.1 (he ▸ hy), hx, hpy⟩
      · rw [if_neg hx] at hc
        obtain ⟨a, ha, b, hb, h1⟩ := (ih h.2).mp (by omega)
        exact ⟨a, by simp [ha], b, by simp [hb], h1⟩
    · rintro ⟨a, ha, b, hb, hne, hpa, hpb⟩
      have hmem : ∀ y ∈ l, p y = true → 0 < l.countP p := fun y hy hp => List.countP_pos_iff.mpr ⟨y, hy, hp⟩
      rcases List.mem_cons.mp ha with ha | ha <;> rcases List.mem_cons.mp hb with hb | hb
      · exact absurd (ha.trans hb.symm) hne
      · have := hmem b hb hpb
        rw [if_pos (ha ▸ hpa)]; omega
      · have := hmem a ha hpa
        rw [if_pos (hb ▸ hpb)]; omega
      · have := (ih h.2).mpr ⟨a, ha, b, hb, hne, hpa, hpb⟩
        omega

theorem rate_inj {r : Range} {a b : Candidate} (ha : a.priority = 0 ∧ a.fits = true) (hb : b.priority = 0 ∧ b.fits = true)
    (h : rate r a = rate r b) : a = b := by
  cases a; cases b
  simp only at ha hb
  simp only [rate, Candidate.mk.injEq] at h
  simp [ha, hb, h.1, h.2.2.1]

theorem mem_rated {dirs : List (List File)} {r : Range} {i : Nat} {f : File} (h : Usable dirs i f) :
    rate r { file := f, index := i } ∈ (candidates dirs).map (rate r) := List.mem_map_of_mem (mem_candidates.mpr ⟨rfl, rfl, h⟩)

/-- What is chosen from several candidates -/
theorem choose_iff {dirs : List (List File)} (hl : Listed dirs) {r : Range} (f : File) :
    choose ((candidates dirs).map (rate r)) = .chosen f ↔ ∃ i, Best dirs r i f := by
  have hnd : ((candidates dirs).map (rate r)).Nodup :=
    nodup_map (fun a ha b hb h => rate_inj ⟨(mem_candidates.mp ha).1, (mem_candidates.mp ha).2.1⟩ ⟨(mem_candidates.mp hb).1, (mem_candidates.mp hb).2.1⟩ h)
      (candidates_nodup hl)
  have hmem : ∀ x, x ∈ (candidates dirs).map (rate r) ↔ ∃ i f, Usable dirs i f ∧ x = rate r { file := f, index := i } := by
    intro x
    constructor
    · intro hx
      obtain ⟨c, hc, rfl⟩ := List.mem_map.mp hx
      obtain ⟨h1, h2, h3⟩ := mem_candidates.mp hc
      refine ⟨_, _, h3, ?_⟩
      cases c; simp_all
    · rintro ⟨i, f, h, rfl⟩; exact mem_rated h
  cases hc : (candidates dirs).map (rate r) with
  | nil =>
    refine ⟨fun h => (by cases h), ?_⟩
    rintro ⟨i, ⟨d, hd⟩, _⟩
    have := mem_rated (r := r) ⟨d, hd⟩
    rw [hc] at this
    simp at this
  | cons c l =>
    rw [hc] at hnd hmem
    have hbest := fun {i j f g} => better_of_less (r := r) (a := { file := f, index := i }) (b := { file := g, index := j }) rfl rfl
    simp only at hbest
    obtain ⟨hm1, hm2⟩ := maxElement_spec c l
    unfold choose
    simp only
    constructor
    · intro h
      split at h
      · cases h
      · rename_i hcount
        simp only [Result.chosen.injEq] at h
        obtain ⟨i, g, hu, hg⟩ := (hmem _).mp hm1
        have hgf : g = f := by rw [hg] at h; exact h
        subst hgf
        refine ⟨i, hu, fun j k hk => ?_⟩
        by_cases he : rate r { file := k, index := j } = maxElement c l
        · left
          rw [hg] at he
          have := rate_inj ⟨rfl, rfl⟩ ⟨rfl, rfl⟩ he
          simp only [Candidate.mk.injEq] at this
          exact ⟨this.2.2.1, this.1⟩
        · right
          rw [← hbest, ← hg]
          have hk' := (hmem _).mpr ⟨j, k, hk, rfl⟩
          have h2 := hm2 _ hk'
          rw [count_gt_one hnd] at hcount
          rw [less_iff]
          rw [← Bool.not_eq_true, less_iff] at h2
          have h3 : ¬ ((rate r { file := k, index := j }).priority = (maxElement c l).priority ∧
              (rate r { file := k, index := j }).index = (maxElement c l).index ∧ (rate r { file := k, index := j }).fits = (maxElement c l).fits) := by
            intro h3
            exact hcount ⟨_, hk', _, hm1, he, by simp [h3.1, h3.2.1, h3.2.2], by simp⟩
          revert h2 h3
          cases (maxElement c l).fits <;> cases (rate r { file := k, index := j }).fits <;> simp <;> omega
    · rintro ⟨i, hu, hall⟩
      have hmax : maxElement c l = rate r { file := f, index := i } := by
        obtain ⟨j, g, hg, he⟩ := (hmem _).mp hm1
        rcases hall j g hg with ⟨rfl, rfl⟩ | h
        · exact he
        · rw [← hbest, ← he] at h
          rw [hm2 _ ((hmem _).mpr ⟨i, f, hu, rfl⟩)] at h
          cases h
      rw [if_neg]
      · rw [hmax]; rfl
      · rw [count_gt_one hnd]
        rintro ⟨a, ha, b, hb, hne, hpa, hpb⟩
        have key : ∀ x ∈ c :: l, (decide (x.priority = (maxElement c l).priority) && decide (x.index = (maxElement c l).index) && decide (x.fits = (maxElement c l).fits)) = true →
            x = rate r { file := f, index := i } := by
          intro x hx hp
          obtain ⟨j, g, hg, rfl⟩ := (hmem _).mp hx
          rcases hall j g hg with ⟨rfl, rfl⟩ | h
          · rfl
          · exfalso
            rw [← hbest, less_iff, ← hmax] at h
            simp only [Bool.and_eq_true, decide_eq_true_eq] at hp
            obtain ⟨⟨h1, h2⟩, h3⟩ := hp
            rw [h1, h2, h3] at h
            cases (maxElement c l).fits <;> simp at h
        exact hne ((key a ha hpa).trans (key b hb hpb).symm)

/-- **C67.** The file that is used for a module is the best one of all files in the search paths that are for this module and
whose conditions are true: it has a version in the range if there is any, then the highest priority, then it is in the
first search path. -/
theorem C67_best {dirs : List (List File)} (hl : Listed dirs) {r : Range} {f : File} :
    load dirs r = .chosen f ↔ ∃ i, Best dirs r i f := by
  rw [← choose_iff hl]
  unfold load
  split
  · rename_i h; rw [h]; rfl
  · rename_i c h
    rw [h]
    simp [choose, maxElement, rate]
  · rfl

/-- **C67.** No file is found only if there is none that is for this module and whose condition is true. -/
theorem C67_none {dirs : List (List File)} {r : Range} : load dirs r = .none ↔ ∀ i f, ¬ Usable dirs i f := by
  have hn : ∀ l, choose l = .none ↔ l = [] := by
    intro l
    cases l with
    | nil => simp [choose]
    | cons c l =>
      simp only [choose]
      split <;> simp
  have hc : candidates dirs = [] ↔ ∀ i f, ¬ Usable dirs i f := by
    rw [List.eq_nil_iff_forall_not_mem]
    constructor
    · intro h i f hu; exact h { file := f, index := i } (mem_candidates.mpr ⟨rfl, rfl, hu⟩)
    · intro h c hm; exact h _ _ (mem_candidates.mp hm).2.2
  rw [← hc]
  unfold load
  split
  · rename_i h; simp [h]
  · rename_i c h; simp [h]
  · rename_i h _
    rw [hn, List.map_eq_nil_iff]

/-- **C67.** Several files are reported as equally good only if there are several, none of which is the best one. -/
theorem C67_ambiguous {dirs : List (List File)} (hl : Listed dirs) {r : Range} :
    load dirs r = .ambiguous ↔ (∃ i f, Usable dirs i f) ∧ ∀ i f, ¬ Best dirs r i f := by
  constructor
  · intro h
    refine ⟨?_, fun i f hb => ?_⟩
    · apply Classical.byContradiction
      intro hno
      rw [C67_none.mpr (fun i f hu => hno ⟨i, f, hu⟩)] at h
      cases h
    · rw [(C67_best hl).mpr ⟨i, hb⟩] at h; cases h
  · rintro ⟨⟨i, f, hu⟩, hno⟩
    cases h : load dirs r with
    | none => exact absurd hu (C67_none.mp h i f)
    | chosen g =>
      obtain ⟨j, hj⟩ := (C67_best hl).mp h
      exact absurd hj (hno j g)
    | ambiguous => rfl

/-- **C67.** In which order the files in a directory are listed makes no difference. -/
theorem C67_order {dirs dirs' : List (List File)} (hl : Listed dirs) (hlen : dirs'.length = dirs.length)
    (hp : ∀ (i : Nat) (d d' : List File), dirs[i]? = some d → dirs'[i]? = some d' → d'.Perm d) (r : Range) : load dirs' r = load dirs r := by
  have hu : ∀ i f, Usable dirs' i f ↔ Usable dirs i f := by
    intro i f
    constructor
    · rintro ⟨d', h1, h2, h3⟩
      obtain ⟨hi, _⟩ := List.getElem?_eq_some_iff.mp h1
      have hd : dirs[i]? = some dirs[i] := List.getElem?_eq_getElem (hlen ▸ hi)
      exact ⟨_, hd, (hp i _ _ hd h1).mem_iff.mp h2, h3⟩
    · rintro ⟨d, h1, h2, h3⟩
      obtain ⟨hi, _⟩ := List.getElem?_eq_some_iff.mp h1
      have hd : dirs'[i]? = some dirs'[i] := List.getElem?_eq_getElem (hlen ▸ hi)
      exact ⟨_, hd, (hp i _ _ h1 hd).mem_iff.mpr h2, h3⟩
  have hl' : Listed dirs' := by
    intro d' hd'
    obtain ⟨i, hi, rfl⟩ := List.getElem_of_mem hd'
    have h1 : dirs[i]? = some dirs[i] := List.getElem?_eq_getElem (hlen ▸ hi)
    have h2 : dirs'[i]? = some dirs'[i] := List.getElem?_eq_getElem hi
    exact (hp i _ _ h1 h2).nodup_iff.mpr (hl _ (List.getElem_mem _))
  have hb : ∀ i f, Best dirs' r i f ↔ Best dirs r i f := by
    intro i f
    simp only [Best, hu]
  cases h : load dirs r with
  | none => rw [C67_none] at h ⊢; simpa only [hu] using h
  | chosen f => rw [C67_best hl] at h; rw [C67_best hl']; simpa only [hb] using h
  | ambiguous => rw [C67_ambiguous hl] at h; rw [C67_ambiguous hl']; simpa only [hu, hb] using h

end Verif.Choose
