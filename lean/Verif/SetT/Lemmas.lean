import Verif.SetT.Spec

/-! Helper lemmas for `Set<T>`. -/

namespace Verif.SetT

variable {α : Type _} [LinearOrder α]

theorem mem_sort_ins (a x : α) (l : List α) : x ∈ sort.ins a l ↔ x = a ∨ x ∈ l := by
  induction l with
  | nil => simp [sort.ins]
  | cons b bs ih =>
    simp only [sort.ins]
    split
    · simp only [List.mem_cons, ih]; grind
    · simp

theorem mem_sort (x : α) (l : List α) : x ∈ sort l ↔ x ∈ l := by
  induction l with
  | nil => simp [sort]
  | cons a as ih => simp [sort, mem_sort_ins, ih]

theorem sort_ins_pairwise (a : α) (l : List α) (h : l.Pairwise (· ≤ ·)) :
    (sort.ins a l).Pairwise (· ≤ ·) := by
  induction l with
  | nil => simp [sort.ins]
  | cons b bs ih =>
    simp only [sort.ins]
    simp only [List.pairwise_cons] at h
    split
    · rename_i hb
      simp only [List.pairwise_cons, mem_sort_ins]
      exact ⟨fun x hx => hx.elim (fun e => e ▸ le_of_lt hb) (h.1 x), ih h.2⟩
    · rename_i hb
      have hab : a ≤ b := not_lt.mp hb
      simp only [List.pairwise_cons, List.mem_cons]
      exact ⟨fun x hx => hx.elim (fun e => e ▸ hab) (fun hx => le_trans hab (h.1 x hx)), h⟩

theorem sort_pairwise (l : List α) : (sort l).Pairwise (· ≤ ·) := by
  induction l with
  | nil => simp [sort]
  | cons a as ih => exact sort_ins_pairwise a _ ih

theorem mem_uniq (x : α) (l : List α) : x ∈ uniq l ↔ x ∈ l := by
  fun_induction uniq l <;> simp_all

theorem uniq_strict (l : List α) (h : l.Pairwise (· ≤ ·)) : StrictInc (uniq l) := by
  unfold StrictInc
  fun_induction uniq l with
  | case1 => simp
  | case2 => simp
  | case3 b bs ih => exact ih h.of_cons
  | case4 a b bs hne ih =>
    simp only [List.pairwise_cons, mem_uniq]
    refine ⟨fun x hx => ?_, ih h.of_cons⟩
    simp only [List.pairwise_cons, List.mem_cons] at h
    have hab : a < b := lt_of_le_of_ne (h.1 b (Or.inl rfl)) hne
    simp only [List.mem_cons] at hx
    rcases hx with rfl | hx
    · exact hab
    · exact lt_of_lt_of_le hab (h.2.1 x hx)

theorem lowerBound_append (v : α) (l : List α) :
    (lowerBound v l).1 ++ (lowerBound v l).2 = l := by
  induction l with
  | nil => simp [lowerBound]
  | cons a as ih => simp only [lowerBound]; split <;> simp [ih]

theorem lowerBound_fst_lt (v : α) (l : List α) : ∀ x ∈ (lowerBound v l).1, x < v := by
  induction l with
  | nil => simp [lowerBound]
  | cons a as ih =>
    simp only [lowerBound]; split
    · rename_i h; simp only [List.mem_cons]; rintro x (rfl | hx)
      · exact h
      · exact ih x hx
    · simp

theorem lowerBound_snd_ge (v : α) (l : List α) :
    ∀ a as, (lowerBound v l).2 = a :: as → v ≤ a := by
  induction l with
  | nil => simp [lowerBound]
  | cons a as ih =>
    simp only [lowerBound]; split
    · simpa using ih
    · rename_i h; intro b bs hb; simp only [List.cons.injEq] at hb
      exact hb.1 ▸ not_lt.mp h

/-- What `lower_bound` yields, in one package. -/
theorem lowerBound_spec (v : α) (l : List α) :
    ∃ pre post, lowerBound v l = (pre, post) ∧ l = pre ++ post ∧ (∀ x ∈ pre, x < v) ∧
      (∀ a as, post = a :: as → v ≤ a) :=
  ⟨_, _, rfl, (lowerBound_append v l).symm, lowerBound_fst_lt v l, lowerBound_snd_ge v l⟩

theorem strictInc_append {l m : List α} :
    StrictInc (l ++ m) ↔ StrictInc l ∧ StrictInc m ∧ ∀ a ∈ l, ∀ b ∈ m, a < b := by
  simp [StrictInc, List.pairwise_append]

theorem strictInc_cons {a : α} {l : List α} :
    StrictInc (a :: l) ↔ (∀ b ∈ l, a < b) ∧ StrictInc l := by
  simp [StrictInc, List.pairwise_cons]

theorem insert_spec (l : List α) (v : α) (h : StrictInc l) :
    StrictInc (insert l v).1 ∧ (∀ x, x ∈ (insert l v).1 ↔ x = v ∨ x ∈ l) ∧
      ((insert l v).2 = true ↔ v ∉ l) := by
  obtain ⟨pre, post, he, rfl, hlt, hge⟩ := lowerBound_spec v l
  rw [strictInc_append] at h
  simp only [insert, he]
  cases post with
  | nil =>
    refine ⟨?_, ?_, ?_⟩
    · simp only [strictInc_append]; refine ⟨h.1, by simp [StrictInc], ?_⟩
      simpa using hlt
    · intro x; simp; grind
    · simp; intro hv; exact absurd (hlt v hv) (lt_irrefl v)
  | cons a as =>
    have hva := hge a as rfl
    have h2 := strictInc_cons.mp h.2.1
    by_cases hv : v < a
    · simp only [hv, if_true]
      refine ⟨?_, ?_, ?_⟩
      · rw [strictInc_append, strictInc_cons]
        refine ⟨h.1, ⟨?_, h.2.1⟩, ?_⟩
        · intro b hb
          rcases List.mem_cons.mp hb with rfl | hb
          · exact hv
          · exact lt_trans hv (h2.1 b hb)
        · intro x hx b hb
          rcases List.mem_cons.mp hb with rfl | hb
          · exact hlt x hx
          · exact h.2.2 x hx b hb
      · intro x; simp; grind
      · simp only [List.mem_append, List.mem_cons, true_iff]
        rintro (hp | rfl | hp)
        · exact lt_irrefl v (hlt v hp)
        · exact lt_irrefl v hv
        · exact lt_irrefl v (lt_trans hv (h2.1 v hp))
    · have : v = a := le_antisymm hva (not_lt.mp hv)
      subst this
      simp only [hv, if_false]
      refine ⟨strictInc_append.mpr h, ?_, ?_⟩
      · intro x; simp; grind
      · simp

theorem remove_spec (l : List α) (v : α) (h : StrictInc l) :
    StrictInc (remove l v).1 ∧ (∀ x, x ∈ (remove l v).1 ↔ x ∈ l ∧ x ≠ v) ∧
      ((remove l v).2 = true ↔ v ∈ l) := by
  obtain ⟨pre, post, he, rfl, hlt, hge⟩ := lowerBound_spec v l
  rw [strictInc_append] at h
  have hpre : ∀ x ∈ pre, x ≠ v := fun x hx => ne_of_lt (hlt x hx)
  simp only [remove, he]
  cases post with
  | nil =>
    refine ⟨h.1, ?_, ?_⟩
    · intro x; simp; exact hpre x
    · simp; intro hv; exact hpre v hv rfl
  | cons a as =>
    have hva := hge a as rfl
    have h2 := strictInc_cons.mp h.2.1
    have has : ∀ x ∈ as, x ≠ v := fun x hx => (ne_of_lt (lt_of_le_of_lt hva (h2.1 x hx))).symm
    by_cases hv : v < a
    · simp only [hv, if_true]
      have hav : a ≠ v := (ne_of_lt hv).symm
      refine ⟨strictInc_append.mpr h, ?_, ?_⟩
      · intro x; simp; rintro (hx | rfl | hx)
        · exact hpre x hx
        · exact hav
        · exact has x hx
      · simp; refine ⟨fun hx => hpre v hx rfl, fun e => hav e.symm, fun hx => has v hx rfl⟩
    · have : v = a := le_antisymm hva (not_lt.mp hv)
      subst this
      simp only [hv, if_false]
      refine ⟨?_, ?_, by simp⟩
      · rw [strictInc_append]
        exact ⟨h.1, h2.2, fun x hx b hb => h.2.2 x hx b (List.mem_cons_of_mem _ hb)⟩
      · intro x; simp; constructor
        · rintro (hx | hx)
          · exact ⟨Or.inl hx, hpre x hx⟩
          · exact ⟨Or.inr (Or.inr hx), has x hx⟩
        · rintro ⟨hx | rfl | hx, hne⟩
          · exact Or.inl hx
          · exact absurd rfl hne
          · exact Or.inr hx

theorem containsElem_spec (l : List α) (v : α) (h : StrictInc l) :
    containsElem l v = true ↔ v ∈ l := by
  obtain ⟨pre, post, he, rfl, hlt, hge⟩ := lowerBound_spec v l
  rw [strictInc_append] at h
  have hpre : v ∉ pre := fun hx => lt_irrefl v (hlt v hx)
  simp only [containsElem, he]
  cases post with
  | nil => simp [hpre]
  | cons a as =>
    have hva := hge a as rfl
    have h2 := strictInc_cons.mp h.2.1
    simp only [Bool.not_eq_true', decide_eq_false_iff_not, not_lt, List.mem_append, List.mem_cons]
    constructor
    · intro hav; exact Or.inr (Or.inl (le_antisymm hva hav))
    · rintro (hx | rfl | hx)
      · exact absurd hx hpre
      · exact le_refl _
      · exact absurd (h2.1 v hx) (not_lt.mpr hva)

theorem intersect_mem (l m : List α) (hl : StrictInc l) (hm : StrictInc m) (x : α) :
    x ∈ intersect l m ↔ x ∈ l ∧ x ∈ m := by
  fun_induction intersect l m with
  | case1 => simp
  | case2 => simp
  | case3 a as b bs hab ih =>
    have hl' := strictInc_cons.mp hl
    have hm' := strictInc_cons.mp hm
    rw [ih hl'.2 hm]
    constructor
    · exact fun h => ⟨List.mem_cons_of_mem _ h.1, h.2⟩
    · rintro ⟨h1, h2⟩
      rcases List.mem_cons.mp h1 with rfl | h1
      · rcases List.mem_cons.mp h2 with rfl | h2
        · exact absurd hab (lt_irrefl _)
        · exact absurd (lt_trans hab (hm'.1 x h2)) (lt_irrefl _)
      · exact ⟨h1, h2⟩
  | case4 a as b bs hab hba ih =>
    have hl' := strictInc_cons.mp hl
    have hm' := strictInc_cons.mp hm
    have : a = b := le_antisymm (not_lt.mp hba) (not_lt.mp hab)
    subst this
    simp only [List.mem_cons, ih hl'.2 hm'.2]
    constructor
    · rintro (rfl | ⟨h1, h2⟩)
      · simp
      · exact ⟨Or.inr h1, Or.inr h2⟩
    · rintro ⟨rfl | h1, h2⟩
      · simp
      · rcases h2 with rfl | h2
        · simp
        · exact Or.inr ⟨h1, h2⟩
  | case5 a as b bs hab hba ih =>
    have hl' := strictInc_cons.mp hl
    have hm' := strictInc_cons.mp hm
    have hba : b < a := Classical.not_not.mp hba
    rw [ih hl hm'.2]
    constructor
    · exact fun h => ⟨h.1, List.mem_cons_of_mem _ h.2⟩
    · rintro ⟨h1, h2⟩
      refine ⟨h1, ?_⟩
      rcases List.mem_cons.mp h2 with rfl | h2
      · rcases List.mem_cons.mp h1 with rfl | h1
        · exact absurd hba (lt_irrefl _)
        · exact absurd (lt_trans hba (hl'.1 x h1)) (lt_irrefl _)
      · exact h2

theorem intersect_sublist (l m : List α) : (intersect l m).Sublist l := by
  fun_induction intersect l m with
  | case1 => simp
  | case2 => simp
  | case3 a as b bs hab ih => exact ih.cons a
  | case4 a as b bs hab hba ih => exact ih.cons_cons a
  | case5 a as b bs hab hba ih => exact ih

theorem inter_eq_intersect (l m : List α) : inter l m = intersect l m := by
  fun_induction inter l m with
  | case1 => simp [intersect]
  | case2 => simp [intersect]
  | case3 a as b bs hab ih => rw [intersect]; simp [hab, ih]
  | case4 a as b bs hab hba ih => rw [intersect]; simp [hab, hba, ih]
  | case5 a as b bs hab hba ih => rw [intersect]; simp [hab, hba, ih]

theorem containsSet_spec (l m : List α) (hl : StrictInc l) (hm : StrictInc m) :
    containsSet l m = true ↔ ∀ x ∈ m, x ∈ l := by
  fun_induction containsSet l m with
  | case1 => simp
  | case2 b bs => simp only [Bool.false_eq_true, false_iff]; exact fun h => absurd (h b (by simp)) (by simp)
  | case3 a as b bs hba =>
    have hl' := strictInc_cons.mp hl
    simp only [Bool.false_eq_true, false_iff]
    intro h
    rcases List.mem_cons.mp (h b (by simp)) with rfl | hb
    · exact lt_irrefl _ hba
    · exact lt_irrefl _ (lt_trans hba (hl'.1 b hb))
  | case4 a as b bs hba hab ih =>
    have hl' := strictInc_cons.mp hl
    have hm' := strictInc_cons.mp hm
    have : a = b := le_antisymm (not_lt.mp hba) (not_lt.mp hab)
    subst this
    rw [ih hl'.2 hm'.2]
    constructor
    · intro h x hx
      rcases List.mem_cons.mp hx with rfl | hx
      · simp
      · exact List.mem_cons_of_mem _ (h x hx)
    · intro h x hx
      rcases List.mem_cons.mp (h x (List.mem_cons_of_mem _ hx)) with rfl | h'
      · exact absurd (hm'.1 x hx) (lt_irrefl _)
      · exact h'
  | case5 a as b bs hba hab ih =>
    have hl' := strictInc_cons.mp hl
    have hm' := strictInc_cons.mp hm
    have hab : a < b := Classical.not_not.mp hab
    rw [ih hl'.2 hm]
    constructor
    · intro h x hx; exact List.mem_cons_of_mem _ (h x hx)
    · intro h x hx
      rcases List.mem_cons.mp (h x hx) with rfl | h'
      · rcases List.mem_cons.mp hx with rfl | hx
        · exact absurd hab (lt_irrefl _)
        · exact absurd (lt_trans hab (hm'.1 x hx)) (lt_irrefl _)
      · exact h'

theorem intersects_spec (l m : List α) (hl : StrictInc l) (hm : StrictInc m) :
    intersects l m = true ↔ ∃ x, x ∈ l ∧ x ∈ m := by
  fun_induction intersects l m with
  | case1 => simp
  | case2 => simp
  | case3 a as b bs hab ih =>
    have hl' := strictInc_cons.mp hl
    have hm' := strictInc_cons.mp hm
    rw [ih hl'.2 hm]
    constructor
    · rintro ⟨x, h1, h2⟩; exact ⟨x, List.mem_cons_of_mem _ h1, h2⟩
    · rintro ⟨x, h1, h2⟩
      refine ⟨x, ?_, h2⟩
      rcases List.mem_cons.mp h1 with rfl | h1
      · rcases List.mem_cons.mp h2 with rfl | h2
        · exact absurd hab (lt_irrefl _)
        · exact absurd (lt_trans hab (hm'.1 x h2)) (lt_irrefl _)
      · exact h1
  | case4 a as b bs hab hba ih =>
    have hl' := strictInc_cons.mp hl
    have hm' := strictInc_cons.mp hm
    rw [ih hl hm'.2]
    constructor
    · rintro ⟨x, h1, h2⟩; exact ⟨x, h1, List.mem_cons_of_mem _ h2⟩
    · rintro ⟨x, h1, h2⟩
      refine ⟨x, h1, ?_⟩
      rcases List.mem_cons.mp h2 with rfl | h2
      · rcases List.mem_cons.mp h1 with rfl | h1
        · exact absurd hba (lt_irrefl _)
        · exact absurd (lt_trans hba (hl'.1 x h1)) (lt_irrefl _)
      · exact h2
  | case5 a as b bs hab hba =>
    have : a = b := le_antisymm (not_lt.mp hba) (not_lt.mp hab)
    subst this
    simp only [true_iff]; exact ⟨a, by simp, by simp⟩

theorem minusLoop_spec (l m : List α) (hl : StrictInc l) (hm : StrictInc m) :
    (minusLoop l m).Sublist l ∧ ∀ x, x ∈ minusLoop l m ↔ x ∈ l ∧ x ∉ m := by
  fun_induction minusLoop l m with
  | case1 => simp
  | case2 => simp
  | case3 a as b bs hab ih =>
    have hl' := strictInc_cons.mp hl
    have hm' := strictInc_cons.mp hm
    obtain ⟨i1, i2⟩ := ih hl'.2 hm
    refine ⟨i1.cons_cons a, fun x => ?_⟩
    simp only [List.mem_cons, i2]
    constructor
    · rintro (rfl | ⟨h1, h2⟩)
      · refine ⟨Or.inl rfl, ?_⟩
        rintro (rfl | h)
        · exact lt_irrefl _ hab
        · exact lt_irrefl _ (lt_trans hab (hm'.1 x h))
      · exact ⟨Or.inr h1, h2⟩
    · rintro ⟨rfl | h1, h2⟩
      · exact Or.inl rfl
      · exact Or.inr ⟨h1, h2⟩
  | case4 a as b bs hab hba ih =>
    have hl' := strictInc_cons.mp hl
    have hm' := strictInc_cons.mp hm
    obtain ⟨i1, i2⟩ := ih hl hm'.2
    refine ⟨i1, fun x => ?_⟩
    rw [i2]
    constructor
    · rintro ⟨h1, h2⟩
      refine ⟨h1, fun h => ?_⟩
      rcases List.mem_cons.mp h with rfl | h
      · rcases List.mem_cons.mp h1 with rfl | h1
        · exact lt_irrefl _ hba
        · exact lt_irrefl _ (lt_trans hba (hl'.1 x h1))
      · exact h2 h
    · exact fun h => ⟨h.1, fun h' => h.2 (List.mem_cons_of_mem _ h')⟩
  | case5 a as b bs hab hba ih =>
    have hl' := strictInc_cons.mp hl
    have hm' := strictInc_cons.mp hm
    have : a = b := le_antisymm (not_lt.mp hba) (not_lt.mp hab)
    subst this
    obtain ⟨i1, i2⟩ := ih hl'.2 hm'.2
    refine ⟨i1.cons a, fun x => ?_⟩
    rw [i2]
    constructor
    · rintro ⟨h1, h2⟩
      refine ⟨List.mem_cons_of_mem _ h1, fun h => ?_⟩
      rcases List.mem_cons.mp h with rfl | h
      · exact lt_irrefl _ (hl'.1 x h1)
      · exact h2 h
    · rintro ⟨h1, h2⟩
      simp only [List.mem_cons, not_or] at h1 h2
      exact ⟨h1.resolve_left h2.1, h2.2⟩

theorem minus_spec (l m : List α) (hl : StrictInc l) (hm : StrictInc m) :
    (minus l m).Sublist l ∧ ∀ x, x ∈ minus l m ↔ x ∈ l ∧ x ∉ m := by
  unfold minus
  split
  · rename_i h
    simp only [Bool.or_eq_true, List.isEmpty_iff] at h
    rcases h with rfl | rfl <;> simp
  · exact minusLoop_spec l m hl hm

theorem uniteLoop_spec (other : List α) : ∀ (pre rest : List α), StrictInc (pre ++ rest) →
    StrictInc other → (∀ a ∈ pre, ∀ b ∈ other, a < b) →
    StrictInc (uniteLoop pre rest other) ∧
      ∀ x, x ∈ uniteLoop pre rest other ↔ x ∈ pre ∨ x ∈ rest ∨ x ∈ other := by
  induction other with
  | nil => intro pre rest h1 _ _; simpa [uniteLoop] using h1
  | cons o os ih =>
    intro pre rest h1 h2 h3
    obtain ⟨lt, post, he, rfl, hlt, hge⟩ := lowerBound_spec o rest
    have ho := strictInc_cons.mp h2
    have h1' := strictInc_append.mp h1
    have hr := strictInc_append.mp h1'.2.1
    have hpre' : ∀ a ∈ pre ++ lt, a < o := by
      intro a ha
      rcases List.mem_append.mp ha with ha | ha
      · exact h3 a ha o (by simp)
      · exact hlt a ha
    have hpl : StrictInc (pre ++ lt) := by
      rw [strictInc_append]
      exact ⟨h1'.1, hr.1, fun a ha b hb => h1'.2.2 a ha b (List.mem_append_left _ hb)⟩
    have hplos : ∀ a ∈ pre ++ lt, ∀ b ∈ os, a < b :=
      fun a ha b hb => lt_trans (hpre' a ha) (ho.1 b hb)
    simp only [uniteLoop, he]
    cases post with
    | nil =>
      simp only
      refine ⟨?_, fun x => by simp⟩
      rw [strictInc_append]
      refine ⟨hpl, h2, fun a ha b hb => ?_⟩
      rcases List.mem_cons.mp hb with rfl | hb
      · exact hpre' a ha
      · exact hplos a ha b hb
    | cons g gs =>
      have hog := hge g gs rfl
      have hg := strictInc_cons.mp hr.2.1
      have h1'' : StrictInc ((pre ++ lt) ++ (g :: gs)) := by simpa using h1
      by_cases hlt' : o < g
      · simp only [hlt', if_true]
        obtain ⟨i1, i2⟩ := ih (pre ++ lt) (o :: g :: gs) (by
          rw [strictInc_append, strictInc_cons]
          refine ⟨hpl, ⟨?_, hr.2.1⟩, ?_⟩
          · intro b hb
            rcases List.mem_cons.mp hb with rfl | hb
            · exact hlt'
            · exact lt_trans hlt' (hg.1 b hb)
          · intro a ha b hb
            rcases List.mem_cons.mp hb with rfl | hb
            · exact hpre' a ha
            · exact (strictInc_append.mp h1'').2.2 a ha b hb) ho.2 hplos
        exact ⟨i1, fun x => by rw [i2]; simp; grind⟩
      · simp only [hlt', if_false]
        have : o = g := le_antisymm hog (not_lt.mp hlt')
        subst this
        obtain ⟨i1, i2⟩ := ih (pre ++ lt) (o :: gs) h1'' ho.2 hplos
        exact ⟨i1, fun x => by rw [i2]; simp; grind⟩

theorem unite_spec (l m : List α) (hl : StrictInc l) (hm : StrictInc m) :
    StrictInc (unite l m) ∧ ∀ x, x ∈ unite l m ↔ x ∈ l ∨ x ∈ m := by
  unfold unite
  split
  · simpa using hl
  · simpa using hm
  · have := uniteLoop_spec _ [] _ (by simpa using hl) hm (by simp)
    simpa using this

theorem subtractLoop_spec (other : List α) : ∀ (pre rest : List α), StrictInc (pre ++ rest) →
    StrictInc other → (∀ a ∈ pre, ∀ b ∈ other, a < b) →
    (subtractLoop pre rest other).Sublist (pre ++ rest) ∧
      ∀ x, x ∈ subtractLoop pre rest other ↔ (x ∈ pre ∨ x ∈ rest) ∧ x ∉ other := by
  induction other with
  | nil => intro pre rest h1 _ _; simp [subtractLoop]
  | cons o os ih =>
    intro pre rest h1 h2 h3
    obtain ⟨lt, post, he, rfl, hlt, hge⟩ := lowerBound_spec o rest
    have ho := strictInc_cons.mp h2
    have h1' := strictInc_append.mp h1
    have hr := strictInc_append.mp h1'.2.1
    have hpre' : ∀ a ∈ pre ++ lt, a < o := by
      intro a ha
      rcases List.mem_append.mp ha with ha | ha
      · exact h3 a ha o (by simp)
      · exact hlt a ha
    have hplos : ∀ a ∈ pre ++ lt, ∀ b ∈ os, a < b :=
      fun a ha b hb => lt_trans (hpre' a ha) (ho.1 b hb)
    have hnotin : ∀ a ∈ pre ++ lt, a ∉ o :: os := by
      intro a ha h
      rcases List.mem_cons.mp h with rfl | h
      · exact lt_irrefl _ (hpre' a ha)
      · exact lt_irrefl _ (hplos a ha a h)
    simp only [subtractLoop, he]
    cases post with
    | nil =>
      simp only
      refine ⟨by simp, fun x => ?_⟩
      constructor
      · intro h; exact ⟨by simpa using h, hnotin x h⟩
      · rintro ⟨h, _⟩; simpa using h
    | cons g gs =>
      have hog := hge g gs rfl
      have hg := strictInc_cons.mp hr.2.1
      have h1'' : StrictInc ((pre ++ lt) ++ (g :: gs)) := by simpa using h1
      by_cases hlt' : o < g
      · simp only [hlt', not_true, if_false]
        obtain ⟨i1, i2⟩ := ih (pre ++ lt) (g :: gs) h1'' ho.2 hplos
        refine ⟨by simpa using i1, fun x => ?_⟩
        rw [i2]
        constructor
        · rintro ⟨h, hn⟩
          have hx : x ≠ o := by
            rintro rfl
            rcases h with h | h
            · exact lt_irrefl _ (hpre' x h)
            · rcases List.mem_cons.mp h with rfl | h
              · exact lt_irrefl _ hlt'
              · exact lt_irrefl _ (lt_trans hlt' (hg.1 x h))
          refine ⟨by simp at h ⊢; grind, ?_⟩
          simp only [List.mem_cons, not_or]; exact ⟨hx, hn⟩
        · rintro ⟨h, hn⟩
          simp only [List.mem_cons, not_or] at hn
          exact ⟨by simp at h ⊢; grind, hn.2⟩
      · have : o = g := le_antisymm hog (not_lt.mp hlt')
        subst this
        simp only [lt_irrefl, not_false_eq_true, if_true]
        have hsub : StrictInc ((pre ++ lt) ++ gs) :=
          List.Pairwise.sublist (List.Sublist.append (List.Sublist.refl _)
            (List.sublist_cons_self o gs)) h1''
        obtain ⟨i1, i2⟩ := ih (pre ++ lt) gs hsub ho.2 hplos
        refine ⟨?_, fun x => ?_⟩
        · refine i1.trans ?_
          have : ((pre ++ lt) ++ gs).Sublist ((pre ++ lt) ++ (o :: gs)) :=
            List.Sublist.append (List.Sublist.refl _) (List.sublist_cons_self o gs)
          simpa using this
        · rw [i2]
          constructor
          · rintro ⟨h, hn⟩
            have hx : x ≠ o := by
              rintro rfl
              rcases h with h | h
              · exact lt_irrefl _ (hpre' x h)
              · exact lt_irrefl _ (hg.1 x h)
            refine ⟨by simp at h ⊢; grind, ?_⟩
            simp only [List.mem_cons, not_or]; exact ⟨hx, hn⟩
          · rintro ⟨h, hn⟩
            simp only [List.mem_cons, not_or] at hn
            exact ⟨by simp at h ⊢; grind, hn.2⟩

theorem subtract_spec (l m : List α) (hl : StrictInc l) (hm : StrictInc m) :
    (subtract l m).Sublist l ∧ ∀ x, x ∈ subtract l m ↔ x ∈ l ∧ x ∉ m := by
  unfold subtract
  split
  · simp
  · simp
  · have := subtractLoop_spec _ [] _ (by simpa using hl) hm (by simp)
    simpa using this

omit [LinearOrder α] in
theorem filtered_eq (p : α → Bool) (s : List α) : filtered p s = s.filter p := by
  have : ∀ (s acc : List α),
      s.foldl (fun acc u => if p u then acc ++ [u] else acc) acc = acc ++ s.filter p := by
    intro s
    induction s with
    | nil => simp
    | cons a as ih =>
      intro acc
      simp only [List.foldl_cons, ih, List.filter_cons]
      cases p a <;> simp
  simpa [filtered] using this s []

theorem strictInc_ext {l m : List α} (hl : StrictInc l) (hm : StrictInc m)
    (h : ∀ x, x ∈ l ↔ x ∈ m) : l = m := by
  induction l generalizing m with
  | nil =>
    cases m with
    | nil => rfl
    | cons b bs => exact absurd ((h b).mpr (by simp)) (by simp)
  | cons a as ih =>
    cases m with
    | nil => exact absurd ((h a).mp (by simp)) (by simp)
    | cons b bs =>
      have hl' := strictInc_cons.mp hl
      have hm' := strictInc_cons.mp hm
      have hab : a = b := by
        rcases List.mem_cons.mp ((h a).mp (by simp)) with e | h1
        · exact e
        · rcases List.mem_cons.mp ((h b).mpr (by simp)) with e | h2
          · exact e.symm
          · exact absurd (lt_trans (hm'.1 a h1) (hl'.1 b h2)) (lt_irrefl _)
      subst hab
      congr 1
      refine ih hl'.2 hm'.2 (fun x => ?_)
      constructor
      · intro hx
        rcases List.mem_cons.mp ((h x).mp (List.mem_cons_of_mem _ hx)) with rfl | h'
        · exact absurd (hl'.1 x hx) (lt_irrefl _)
        · exact h'
      · intro hx
        rcases List.mem_cons.mp ((h x).mpr (List.mem_cons_of_mem _ hx)) with rfl | h'
        · exact absurd (hm'.1 x hx) (lt_irrefl _)
        · exact h'

theorem strictInc_of_le_nodup {l : List α} (h : l.Pairwise (· ≤ ·)) (hn : l.Nodup) :
    StrictInc l := by
  have := List.Pairwise.and h hn
  exact this.imp (fun ⟨h1, h2⟩ => lt_of_le_of_ne h1 h2)

theorem sort_ins_perm (a : α) (l : List α) : (sort.ins a l).Perm (a :: l) := by
  induction l with
  | nil => simp [sort.ins]
  | cons b bs ih =>
    simp only [sort.ins]
    split
    · exact (ih.cons b).trans (List.Perm.swap a b bs)
    · exact List.Perm.refl _

theorem sort_perm (l : List α) : (sort l).Perm l := by
  induction l with
  | nil => simp [sort]
  | cons a as ih => exact (sort_ins_perm a _).trans (ih.cons a)

end Verif.SetT
