import Verif.Merge.Model
/-!
# C44: the value with the highest priority wins
-/
namespace Verif.Merge

/-! ## Specification -/

/-- A value from source code in the product or in a module of the product. -/
def Local (v : Val) : Prop :=
  v.kind = .js ∧ (v.scopeM = .product ∨ ∃ n, n < 1000000 ∧ v.scopeM = .module true n) ∧
  (v.scopeF = .product ∨ ∃ b n, n < 1000000 ∧ v.scopeF = .module b n)

/-- What a property has at the beginning: the module's own value, or one from the profile. -/
def Initial (g : Val) : Prop :=
  (g.kind = .js ∨ g.kind = .profile) ∧ g.scopeM = .none ∧ g.scopeF = .none

/-- The values have different names. -/
def Distinct (l : List Val) : Prop := l.Pairwise (fun v w => v.name ≠ w.name)

/-- `v` is before `w`: it has a higher priority, or the same and a greater name. -/
def Before (v w : Val) : Prop := w.prioF < v.prioF ∨ (w.prioF = v.prioF ∧ w.name < v.name)

/-- Priorities have not changed between merging and the final merge. -/
def Unchanged (l : List Val) : Prop := ∀ v ∈ l, v.prioM = v.prioF

/-! ## Priorities -/

/-- **C44.** The order of priorities: internal values, command line, product, modules (nearer ones
first), profile, the module's own value, modules that are not present. -/
theorem C44_priorities (n m : Nat) (hm : m < 1000000) (hn : n < m) (s s' s'' : Scope) :
    priority .internal s > priority .commandLine s' ∧
    priority .commandLine s' > priority .js .product ∧
    priority .js .product > priority .js (.module true n) ∧
    priority .js (.module true n) > priority .js (.module true m) ∧
    priority .js (.module true m) > priority .profile s'' ∧
    priority .profile s'' > priority .js .none ∧
    priority .js .none > priority .js (.module false n) := by
  simp only [priority, intMax]
  omega

theorem local_prioM {v : Val} (h : Local v) : 2 < v.prioM := by
  obtain ⟨h1, h2, _⟩ := h
  unfold Val.prioM
  rw [h1]
  rcases h2 with h2 | ⟨n, hn, h2⟩
  · rw [h2]; simp [priority, intMax]
  · rw [h2]; simp only [priority, intMax]; omega

theorem initial_prio {g : Val} (h : Initial g) : g.prioM ≤ 2 ∧ 1 ≤ g.prioF ∧ g.prioM = g.prioF := by
  obtain ⟨h1 | h1, h2, h3⟩ := h <;> simp [Val.prioM, Val.prioF, priority, h1, h2, h3]

/-! ## Merging -/

theorem merged_perm (vs : List Val) : ∀ (p : Prop'), p.value.kind ≠ .internal →
    p.value.kind ≠ .commandLine → (∀ v ∈ vs, v.kind = .js) →
    ((vs.foldl mergeLocal p).value :: (vs.foldl mergeLocal p).cands).Perm (p.value :: p.cands ++ vs) ∧
    ((vs.foldl mergeLocal p).value.kind = p.value.kind ∨ (vs.foldl mergeLocal p).value.kind = .js) := by
  induction vs with
  | nil => intro p _ _ _; simp
  | cons v vs ih =>
    intro p h1 h2 h3
    have hv := h3 v List.mem_cons_self
    have hstep : mergeLocal p v = ⟨v, p.cands ++ [p.value]⟩ ∨ mergeLocal p v = ⟨p.value, p.cands ++ [v]⟩ := by
      unfold mergeLocal
      rw [if_neg (by rw [hv]; decide), if_neg (by simp [h1, h2])]
      split
      · exact Or.inl rfl
      · exact Or.inr rfl
    rw [List.foldl_cons]
    rcases hstep with hs | hs
    · rw [hs]
      obtain ⟨a, b⟩ := ih ⟨v, p.cands ++ [p.value]⟩ (by simp [hv]) (by simp [hv])
        (fun w hw => h3 w (List.mem_cons_of_mem _ hw))
      refine ⟨a.trans ?_, ?_⟩
      · rw [List.perm_iff_count]
        intro x
        simp [List.count_cons, List.count_append]
        omega
      · rcases b with b | b
        · exact Or.inr (b.trans hv)
        · exact Or.inr b
    · rw [hs]
      obtain ⟨a, b⟩ := ih ⟨p.value, p.cands ++ [v]⟩ h1 h2
        (fun w hw => h3 w (List.mem_cons_of_mem _ hw))
      refine ⟨a.trans ?_, b⟩
      rw [List.perm_iff_count]
      intro x
      simp [List.count_cons, List.count_append]

theorem less_trans {p : Val → Nat} {a b c : Val} (h1 : less p a b = true) (h2 : less p b c = true) :
    less p a c = true := by
  simp only [less] at *
  split at h1 <;> split at h2 <;> split <;> simp_all <;> omega

theorem less_of_not {p : Val → Nat} {a b : Val} (h : less p a b = false) (hn : a.name ≠ b.name) :
    less p b a = true := by
  simp only [less] at *
  split at h <;> split <;> simp_all <;> omega

theorem less_irrefl {p : Val → Nat} {a : Val} : less p a a = false := by simp [less]

/-- The value is the greatest of all at the time of merging. -/
theorem merged_greatest (vs : List Val) : ∀ (p : Prop'), p.value.kind ≠ .internal →
    p.value.kind ≠ .commandLine → (∀ v ∈ vs, v.kind = .js) → Distinct (p.value :: p.cands ++ vs) →
    (∀ w ∈ p.cands, less Val.prioM w p.value = true) →
    ∀ w ∈ (vs.foldl mergeLocal p).cands, less Val.prioM w (vs.foldl mergeLocal p).value = true := by
  induction vs with
  | nil => intro p _ _ _ _ h; exact h
  | cons v vs ih =>
    intro p h1 h2 h3 hd h
    have hv := h3 v List.mem_cons_self
    have hne : p.value.name ≠ v.name := by
      have := (List.pairwise_cons.mp hd).1 v (by simp)
      exact this
    rw [List.foldl_cons]
    unfold mergeLocal
    rw [if_neg (by rw [hv]; decide), if_neg (by simp [h1, h2])]
    by_cases hl : less Val.prioM p.value v = true
    · rw [if_pos hl]
      refine ih ⟨v, p.cands ++ [p.value]⟩ (by simp [hv]) (by simp [hv])
        (fun w hw => h3 w (List.mem_cons_of_mem _ hw)) ?_ ?_
      · unfold Distinct at hd ⊢
        refine hd.perm ?_ (fun h => h.symm)
        rw [List.perm_iff_count]
        intro x
        simp [List.count_cons, List.count_append]
        omega
      · intro w hw
        rcases List.mem_append.mp hw with hw | hw
        · exact less_trans (h w hw) hl
        · rw [List.mem_singleton.mp hw]; exact hl
    · rw [if_neg hl]
      refine ih ⟨p.value, p.cands ++ [v]⟩ h1 h2 (fun w hw => h3 w (List.mem_cons_of_mem _ hw)) ?_ ?_
      · unfold Distinct at hd ⊢
        refine hd.perm ?_ (fun h => h.symm)
        rw [List.perm_iff_count]
        intro x
        simp [List.count_cons, List.count_append]
      · intro w hw
        rcases List.mem_append.mp hw with hw | hw
        · exact h w hw
        · rw [List.mem_singleton.mp hw]
          exact less_of_not (by simpa using hl) hne

theorem distinct_nodup {l : List Val} (h : Distinct l) : l.Nodup :=
  h.imp (fun hne heq => hne (by rw [heq]))

/-! ## The final merge -/

theorem scan_spec : ∀ (l : List Val) (best : Nat × List Val), best.2 ≠ [] → (∀ v ∈ best.2, v.prioF = best.1) →
    (scan best l).2 ≠ [] ∧
    (scan best l).2 = (best.2 ++ l).filter (fun v => v.prioF = (scan best l).1) ∧
    best.1 ≤ (scan best l).1 ∧ ∀ v ∈ best.2 ++ l, v.prioF ≤ (scan best l).1
  | [], best, h, hb => by
    refine ⟨h, ?_, Nat.le_refl _, ?_⟩
    · rw [List.append_nil]
      exact (List.filter_eq_self.mpr (fun v hv => by simp [scan, hb v hv])).symm
    · intro v hv
      rw [List.append_nil] at hv
      exact Nat.le_of_eq (hb v hv)
  | v :: l, best, h, hb => by
    unfold scan
    by_cases h1 : v.prioF < best.1
    · rw [if_pos h1]
      obtain ⟨a, b, c, d⟩ := scan_spec l best h hb
      refine ⟨a, ?_, c, ?_⟩
      · have hv : ¬ v.prioF = (scan best l).1 := by omega
        have hx := b
        rw [List.filter_append] at hx ⊢
        rw [List.filter_cons, if_neg (by simpa using hv)]
        exact hx
      · intro w hw
        rcases List.mem_append.mp hw with hw | hw
        · exact d w (List.mem_append_left _ hw)
        · rcases List.mem_cons.mp hw with rfl | hw
          · omega
          · exact d w (List.mem_append_right _ hw)
    · rw [if_neg h1]
      by_cases h2 : v.prioF > best.1
      · rw [if_pos h2]
        obtain ⟨a, b, c, d⟩ := scan_spec l (v.prioF, [v]) (by simp) (by simp)
        simp only at c
        refine ⟨a, ?_, by omega, ?_⟩
        · have hx := b
          rw [List.filter_append] at hx ⊢
          have hnone : best.2.filter (fun w => w.prioF = (scan (v.prioF, [v]) l).1) = [] := by
            rw [List.filter_eq_nil_iff]
            intro w hw
            have := hb w hw
            simp only [decide_eq_true_eq]
            omega
          rw [hnone, List.nil_append]
          rw [← List.filter_append] at hx
          exact hx
        · intro w hw
          rcases List.mem_append.mp hw with hw | hw
          · have := hb w hw
            omega
          · exact d w (by simpa using hw)
      · rw [if_neg h2]
        obtain ⟨a, b, c, d⟩ := scan_spec l (best.1, best.2 ++ [v]) (by simp) (by
          intro w hw
          rcases List.mem_append.mp hw with hw | hw
          · exact hb w hw
          · rw [List.mem_singleton.mp hw]; simp only; omega)
        refine ⟨a, ?_, c, ?_⟩
        · simpa using b
        · intro w hw
          exact d w (by simpa using hw)

/-- **C44.** However the values were merged: the result is a value with the highest priority of all. The
others are its candidates, those of higher priority (or with greater names, if equal) first; only values
from modules that are not present are left out. -/
theorem C44_highest_priority (scalar : Bool) (g : Val) (vs : List Val) (hg : Initial g)
    (hl : ∀ v ∈ vs, Local v) (hd : Distinct (g :: vs)) :
    let r := result scalar g vs
    r.value ∈ g :: vs ∧ (∀ w ∈ g :: vs, w.prioF ≤ r.value.prioF) ∧
    (∀ w, w ∈ r.cands ↔ w ∈ g :: vs ∧ w ≠ r.value ∧ w.prioF ≠ 0) ∧
    r.cands.Pairwise Before := by
  intro r
  have hgk : g.kind ≠ .internal ∧ g.kind ≠ .commandLine := by
    obtain ⟨h | h, _⟩ := hg <;> rw [h] <;> exact ⟨by decide, by decide⟩
  have hjs : ∀ v ∈ vs, v.kind = .js := fun v hv => (hl v hv).1
  obtain ⟨hperm, hk⟩ := merged_perm vs ⟨g, []⟩ hgk.1 hgk.2 hjs
  have hgr := merged_greatest vs ⟨g, []⟩ hgk.1 hgk.2 hjs (by simpa using hd) (by simp)
  have hperm : ((merged g vs).value :: (merged g vs).cands).Perm (g :: vs) := by
    simpa [merged] using hperm
  have hgr : ∀ w ∈ (merged g vs).cands, less Val.prioM w (merged g vs).value = true := hgr
  have hk : (merged g vs).value.kind = g.kind ∨ (merged g vs).value.kind = .js := hk
  have hdist : Distinct ((merged g vs).value :: (merged g vs).cands) :=
    List.Pairwise.perm hd hperm.symm (fun h => h.symm)
  generalize hp : merged g vs = p at hperm hgr hk hdist
  have hr : r = doFinalMerge scalar p := by rw [← hp]; rfl
  have hnd := distinct_nodup hdist
  have hmem : ∀ w, w ∈ p.value :: p.cands ↔ w ∈ g :: vs := fun w => hperm.mem_iff
  have sortedBefore : ∀ cs : List Val, Distinct cs → (finalize cs).Pairwise Before := by
    intro cs hcs
    have h1 : (finalize cs).Pairwise (fun v w => (!less Val.prioF v w) = true) := by
      apply Common.isort_sorted
      · intro a b
        cases h1 : less Val.prioF a b with
        | false => exact Or.inl rfl
        | true =>
          refine Or.inr ?_
          cases h2 : less Val.prioF b a with
          | false => rfl
          | true =>
            have := less_trans h1 h2
            rw [less_irrefl] at this
            cases this
      · intro a b c hab hbc
        simp only [Bool.not_eq_true', less] at *
        split at hab <;> split at hbc <;> split <;> simp_all <;> omega
    have h2 : Distinct (finalize cs) :=
      List.Pairwise.perm (hcs.sublist List.filter_sublist) (Common.isort_perm _ _).symm
        (fun h => h.symm)
    refine (h1.and h2).imp ?_
    intro v w ⟨a, b⟩
    simp only [Bool.not_eq_true', less] at a
    unfold Before
    split at a <;> simp_all <;> omega
  have memFinal : ∀ cs w, w ∈ finalize cs ↔ w ∈ cs ∧ w.prioF ≠ 0 := by
    intro cs w
    unfold finalize
    rw [Common.mem_isort, List.mem_filter]
    simp
  by_cases hkind : p.value.kind = .js
  · by_cases hempty : p.cands = []
    · have hrr : r = ⟨p.value, [], false⟩ := by
        rw [hr]; unfold doFinalMerge
        rw [if_neg (by simp [hkind]), if_pos (by simp [hempty]), hempty]
      rw [hrr]
      rw [hempty] at hmem
      refine ⟨(hmem _).mp (by simp), ?_, ?_, List.Pairwise.nil⟩
      · intro w hw
        rw [List.mem_singleton.mp ((hmem w).mpr hw)]
        exact Nat.le_refl _
      · intro w
        constructor
        · intro h; cases h
        · rintro ⟨h1, h2, _⟩
          exact absurd (List.mem_singleton.mp ((hmem w).mpr h1)) h2
    · obtain ⟨s1, s2, s3, s4⟩ := scan_spec p.cands (p.value.prioF, [p.value]) (by simp) (by simp)
      generalize hb : scan (p.value.prioF, [p.value]) p.cands = best at s1 s2 s3 s4
      obtain ⟨c, t, hct⟩ := List.exists_cons_of_ne_nil s1
      have hcmem : c ∈ best.2 := by rw [hct]; simp
      have hc2 : c ∈ p.value :: p.cands ∧ c.prioF = best.1 := by
        rw [s2] at hcmem
        have := List.mem_filter.mp hcmem
        exact ⟨by simpa using this.1, by simpa using this.2⟩
      have hmax : ∀ w ∈ g :: vs, w.prioF ≤ c.prioF := by
        intro w hw
        rw [hc2.2]
        exact s4 w (by simpa using (hmem w).mpr hw)
      by_cases hch : p.value = c
      · obtain ⟨wn, hwn⟩ : ∃ wn, r = ⟨p.value, finalize p.cands, wn⟩ := by
          rw [hr]; unfold doFinalMerge
          rw [if_neg (by simp [hkind]), if_neg (by simpa using hempty)]
          simp only [hb, hct, List.headD_cons]
          rw [if_pos hch]
          exact ⟨_, rfl⟩
        rw [hwn]
        refine ⟨(hmem _).mp (by simp), by rw [hch]; exact hmax, ?_, ?_⟩
        · intro w
          simp only
          rw [memFinal, ← hmem]
          constructor
          · rintro ⟨h1, h2⟩
            refine ⟨List.mem_cons_of_mem _ h1, ?_, h2⟩
            rintro rfl
            exact (List.nodup_cons.mp hnd).1 h1
          · rintro ⟨h1, h2, h3⟩
            exact ⟨(List.mem_cons.mp h1).resolve_left h2, h3⟩
        · exact sortedBefore _ (List.pairwise_cons.mp hdist).2
      · obtain ⟨wn, hwn⟩ : ∃ wn, r = ⟨c, finalize (p.cands.erase c ++ [p.value]), wn⟩ := by
          rw [hr]; unfold doFinalMerge
          rw [if_neg (by simp [hkind]), if_neg (by simpa using hempty)]
          simp only [hb, hct, List.headD_cons]
          rw [if_neg hch]
          exact ⟨_, rfl⟩
        have hcc : c ∈ p.cands := (List.mem_cons.mp hc2.1).resolve_left (fun h => hch h.symm)
        rw [hwn]
        refine ⟨(hmem _).mp hc2.1, hmax, ?_, ?_⟩
        · intro w
          simp only
          rw [memFinal, ← hmem, List.mem_append, (List.nodup_cons.mp hnd).2.mem_erase_iff,
            List.mem_singleton, List.mem_cons]
          constructor
          · rintro ⟨⟨h1, h2⟩ | h1, h3⟩
            · exact ⟨Or.inr h2, h1, h3⟩
            · exact ⟨Or.inl h1, by rw [h1]; exact hch, h3⟩
          · rintro ⟨h1 | h1, h2, h3⟩
            · exact ⟨Or.inr h1, h3⟩
            · exact ⟨Or.inl ⟨h2, h1⟩, h3⟩
        · apply sortedBefore
          refine List.Pairwise.perm (List.Pairwise.sublist
            (l₁ := p.value :: p.cands.erase c) ?_ hdist) ?_ (fun h => h.symm)
          · exact List.Sublist.cons_cons _ (List.erase_sublist)
          · rw [List.perm_iff_count]
            intro x
            simp [List.count_cons, List.count_append]
  · -- the profile's value: nothing was merged
    have hkg : p.value.kind = g.kind := hk.resolve_right hkind
    have hvs : p.value = g := by
      have hin := (hmem p.value).mp (by simp)
      rcases List.mem_cons.mp hin with h | h
      · exact h
      · exact absurd (hjs _ h) hkind
    have hnil : p.cands = [] := by
      refine List.eq_nil_iff_forall_not_mem.mpr (fun w hw => ?_)
      have hw' := (hmem w).mp (List.mem_cons_of_mem _ hw)
      have hlt := hgr w hw
      rw [hvs] at hlt
      rcases List.mem_cons.mp hw' with h | h
      · rw [h, less_irrefl] at hlt
        cases hlt
      · have h1 := local_prioM (hl w h)
        have h2 := (initial_prio hg).1
        simp only [less] at hlt
        rw [if_pos (by omega)] at hlt
        simp only [decide_eq_true_eq] at hlt
        omega
    have hrr : r = ⟨p.value, [], false⟩ := by
      rw [hr]; unfold doFinalMerge
      rw [if_pos (by simp [hkind]), hnil]
    rw [hrr]
    rw [hnil] at hmem
    refine ⟨(hmem _).mp (by simp), ?_, ?_, List.Pairwise.nil⟩
    · intro w hw
      rw [List.mem_singleton.mp ((hmem w).mpr hw)]
      exact Nat.le_refl _
    · intro w
      constructor
      · intro h; cases h
      · rintro ⟨h1, h2, _⟩
        exact absurd (List.mem_singleton.mp ((hmem w).mpr h1)) h2

theorem before_antisymm {v w : Val} (h1 : Before v w) (h2 : Before w v) : False := by
  unfold Before at *
  omega

/-- Lists in order with the same members are equal. -/
theorem sorted_unique : ∀ {l l' : List Val}, l.Pairwise Before → l'.Pairwise Before →
    (∀ w, w ∈ l ↔ w ∈ l') → l = l'
  | [], [], _, _, _ => rfl
  | [], b :: l', _, _, h => absurd ((h b).mpr (by simp)) (by simp)
  | a :: l, [], _, _, h => absurd ((h a).mp (by simp)) (by simp)
  | a :: l, b :: l', h1, h2, h => by
    rw [List.pairwise_cons] at h1 h2
    have hab : a = b := by
      refine Classical.byContradiction (fun hne => ?_)
      have ha := (List.mem_cons.mp ((h a).mp (by simp))).resolve_left hne
      have hb := (List.mem_cons.mp ((h b).mpr (by simp))).resolve_left (fun h => hne h.symm)
      exact before_antisymm (h1.1 b hb) (h2.1 a ha)
    subst hab
    rw [sorted_unique h1.2 h2.2 (fun w => by
      have irr : ∀ x, ¬ Before x x := fun x hx => before_antisymm hx hx
      constructor
      · intro hw
        refine (List.mem_cons.mp ((h w).mp (List.mem_cons_of_mem _ hw))).resolve_left ?_
        rintro rfl
        exact irr _ (h1.1 _ hw)
      · intro hw
        refine (List.mem_cons.mp ((h w).mpr (List.mem_cons_of_mem _ hw))).resolve_left ?_
        rintro rfl
        exact irr _ (h2.1 _ hw))]

/-- If priorities have not changed, the value is the first of all. -/
theorem value_first (scalar : Bool) (g : Val) (vs : List Val) (hg : Initial g)
    (hl : ∀ v ∈ vs, Local v) (hd : Distinct (g :: vs)) (hu : Unchanged (g :: vs)) :
    ∀ w ∈ g :: vs, w ≠ (result scalar g vs).value → Before (result scalar g vs).value w := by
  have hgk : g.kind ≠ .internal ∧ g.kind ≠ .commandLine := by
    obtain ⟨h | h, _⟩ := hg <;> rw [h] <;> exact ⟨by decide, by decide⟩
  have hjs : ∀ v ∈ vs, v.kind = .js := fun v hv => (hl v hv).1
  have hperm := (merged_perm vs ⟨g, []⟩ hgk.1 hgk.2 hjs).1
  have hgr := merged_greatest vs ⟨g, []⟩ hgk.1 hgk.2 hjs (by simpa using hd) (by simp)
  have hperm : ((merged g vs).value :: (merged g vs).cands).Perm (g :: vs) := by
    simpa [merged] using hperm
  have hgr : ∀ w ∈ (merged g vs).cands, less Val.prioM w (merged g vs).value = true := hgr
  -- the value before the final merge is the first
  have hfirst : ∀ w ∈ g :: vs, w ≠ (merged g vs).value → Before (merged g vs).value w := by
    intro w hw hne
    have hw' := (List.mem_cons.mp (hperm.mem_iff.mpr hw)).resolve_left hne
    have hlt := hgr w hw'
    have h1 := hu w hw
    have h2 := hu _ (hperm.mem_iff.mp (List.mem_cons_self (a := (merged g vs).value)))
    simp only [less] at hlt
    unfold Before
    split at hlt <;> simp_all <;> omega
  -- and the final merge keeps it
  have hsame : (result scalar g vs).value = (merged g vs).value := by
    unfold result doFinalMerge
    split
    · rfl
    · split
      · rfl
      · obtain ⟨s1, s2, s3, s4⟩ := scan_spec (merged g vs).cands
          ((merged g vs).value.prioF, [(merged g vs).value]) (by simp) (by simp)
        have hle : (scan ((merged g vs).value.prioF, [(merged g vs).value]) (merged g vs).cands).1 =
            (merged g vs).value.prioF := by
          generalize scan ((merged g vs).value.prioF, [(merged g vs).value]) (merged g vs).cands = best
            at s1 s2 s3 s4 ⊢
          obtain ⟨c, t, hct⟩ := List.exists_cons_of_ne_nil s1
          have hcmem : c ∈ best.2 := by rw [hct]; simp
          rw [s2] at hcmem
          have hcm := List.mem_filter.mp hcmem
          have h1 : c ∈ g :: vs := hperm.mem_iff.mp (by simpa using hcm.1)
          have h2 : c.prioF = best.1 := by simpa using hcm.2
          by_cases hcv : c = (merged g vs).value
          · rw [← h2, hcv]
          · have := hfirst c h1 hcv
            unfold Before at this
            simp only at s3
            omega
        have hhead : (scan ((merged g vs).value.prioF, [(merged g vs).value])
            (merged g vs).cands).2.headD (merged g vs).value = (merged g vs).value := by
          rw [s2, hle, List.singleton_append, List.filter_cons, if_pos (by simp)]
          rfl
        simp only [hhead]
        rw [if_pos trivial]
  rw [hsame]
  exact hfirst

/-- **C44.** If no priority changes between merging and the final merge, the result does not depend on the
order in which the values are merged. -/
theorem C44_any_order (scalar : Bool) (g : Val) (vs vs' : List Val) (hg : Initial g)
    (hl : ∀ v ∈ vs, Local v) (hd : Distinct (g :: vs)) (hu : Unchanged (g :: vs)) (hp : vs.Perm vs') :
    (result scalar g vs).value = (result scalar g vs').value ∧
    (result scalar g vs).cands = (result scalar g vs').cands := by
  have hp' := List.Perm.cons g hp
  have hl' : ∀ v ∈ vs', Local v := fun v hv => hl v (hp.mem_iff.mpr hv)
  have hd' : Distinct (g :: vs') := List.Pairwise.perm hd hp' (fun h => h.symm)
  have hu' : Unchanged (g :: vs') := fun v hv => hu v (hp'.mem_iff.mpr hv)
  obtain ⟨a1, a2, a3, a4⟩ := C44_highest_priority scalar g vs hg hl hd
  obtain ⟨b1, b2, b3, b4⟩ := C44_highest_priority scalar g vs' hg hl' hd'
  have hv : (result scalar g vs).value = (result scalar g vs').value := by
    refine Classical.byContradiction (fun hne => ?_)
    have h1 := value_first scalar g vs hg hl hd hu _ (hp'.mem_iff.mpr b1) (fun h => hne h.symm)
    have h2 := value_first scalar g vs' hg hl' hd' hu' _ (hp'.mem_iff.mp a1) hne
    exact before_antisymm h1 h2
  refine ⟨hv, sorted_unique a4 b4 (fun w => ?_)⟩
  rw [a3, b3, hv, hp'.mem_iff]

/-- **C44.** Also if priorities change, provided one value ends up with the highest one. -/
theorem C44_any_order_unique_highest (scalar : Bool) (g : Val) (vs vs' : List Val) (hg : Initial g)
    (hl : ∀ v ∈ vs, Local v) (hd : Distinct (g :: vs)) (hp : vs.Perm vs') (m : Val) (hm : m ∈ g :: vs)
    (hmax : ∀ w ∈ g :: vs, w ≠ m → w.prioF < m.prioF) :
    (result scalar g vs).value = m ∧ (result scalar g vs').value = m ∧
    (result scalar g vs).cands = (result scalar g vs').cands := by
  have hp' := List.Perm.cons g hp
  have hl' : ∀ v ∈ vs', Local v := fun v hv => hl v (hp.mem_iff.mpr hv)
  have hd' : Distinct (g :: vs') := List.Pairwise.perm hd hp' (fun h => h.symm)
  obtain ⟨a1, a2, a3, a4⟩ := C44_highest_priority scalar g vs hg hl hd
  obtain ⟨b1, b2, b3, b4⟩ := C44_highest_priority scalar g vs' hg hl' hd'
  have hv : (result scalar g vs).value = m := by
    refine Classical.byContradiction (fun hne => ?_)
    have h1 := hmax _ a1 hne
    have h2 := a2 m hm
    omega
  have hv' : (result scalar g vs').value = m := by
    refine Classical.byContradiction (fun hne => ?_)
    have h1 := hmax _ (hp'.mem_iff.mpr b1) hne
    have h2 := b2 m (hp'.mem_iff.mp hm)
    omega
  refine ⟨hv, hv', sorted_unique a4 b4 (fun w => ?_)⟩
  rw [a3, b3, hv, hv', hp'.mem_iff]

/-- **C44.** A value from the command line stays, without candidates, whatever the product and its
modules set. -/
theorem C44_command_line_kept (scalar : Bool) (g : Val) (vs : List Val) (hg : g.kind = .commandLine)
    (hl : ∀ v ∈ vs, v.kind = .js) : result scalar g vs = ⟨g, [], false⟩ := by
  have h : ∀ vs : List Val, (∀ v ∈ vs, v.kind = .js) → vs.foldl mergeLocal ⟨g, []⟩ = ⟨g, []⟩ := by
    intro vs
    induction vs with
    | nil => intro _; rfl
    | cons v vs ih =>
      intro h
      rw [List.foldl_cons, show mergeLocal ⟨g, []⟩ v = ⟨g, []⟩ by
        unfold mergeLocal
        rw [if_neg (by rw [h v List.mem_cons_self]; decide), if_pos (Or.inr hg)]]
      exact ih (fun w hw => h w (List.mem_cons_of_mem _ hw))
  unfold result merged
  rw [h vs hl]
  unfold doFinalMerge
  rw [if_pos (by rw [hg]; decide)]

/-- **C44.** A value set internally replaces all others, also from the command line, and stays. -/
theorem C44_internal_wins (scalar : Bool) (g v : Val) (vs ws : List Val) (hv : v.kind = .internal)
    (hl : ∀ w ∈ ws, w.kind = .js) : result scalar g (vs ++ v :: ws) = ⟨v, [], false⟩ := by
  have h : ∀ ws : List Val, (∀ w ∈ ws, w.kind = .js) → ws.foldl mergeLocal ⟨v, []⟩ = ⟨v, []⟩ := by
    intro ws
    induction ws with
    | nil => intro _; rfl
    | cons w ws ih =>
      intro h
      rw [List.foldl_cons, show mergeLocal ⟨v, []⟩ w = ⟨v, []⟩ by
        unfold mergeLocal
        rw [if_neg (by rw [h w List.mem_cons_self]; decide), if_pos (Or.inl hv)]]
      exact ih (fun x hx => h x (List.mem_cons_of_mem _ hx))
  unfold result merged
  rw [List.foldl_append, List.foldl_cons]
  rw [show mergeLocal (vs.foldl mergeLocal ⟨g, []⟩) v = ⟨v, []⟩ by unfold mergeLocal; rw [if_pos hv]]
  rw [h ws hl]
  unfold doFinalMerge
  rw [if_pos (by rw [hv]; decide)]

/-- **C44.** There is a warning exactly for scalar properties with another value of the same (highest)
priority whose source code is not that of the chosen one. -/
theorem C44_conflict_warning (scalar : Bool) (g : Val) (vs : List Val) (hg : Initial g)
    (hl : ∀ v ∈ vs, Local v) (hd : Distinct (g :: vs)) :
    (result scalar g vs).warning = true ↔ scalar = true ∧ ∃ w ∈ g :: vs,
      w.prioF = (result scalar g vs).value.prioF ∧ w.src ≠ (result scalar g vs).value.src := by
  have hgk : g.kind ≠ .internal ∧ g.kind ≠ .commandLine := by
    obtain ⟨h | h, _⟩ := hg <;> rw [h] <;> exact ⟨by decide, by decide⟩
  have hjs : ∀ v ∈ vs, v.kind = .js := fun v hv => (hl v hv).1
  obtain ⟨hperm, hk⟩ := merged_perm vs ⟨g, []⟩ hgk.1 hgk.2 hjs
  have hperm : ((merged g vs).value :: (merged g vs).cands).Perm (g :: vs) := by
    simpa [merged] using hperm
  have hk : (merged g vs).value.kind = g.kind ∨ (merged g vs).value.kind = .js := hk
  obtain ⟨a1, a2, a3, a4⟩ := C44_highest_priority scalar g vs hg hl hd
  have hr : result scalar g vs = doFinalMerge scalar (merged g vs) := rfl
  -- no candidates: no warning and no other values
  have single : ∀ (r : Final), r = result scalar g vs → r.warning = false → r.value = (merged g vs).value →
      (merged g vs).cands = [] → (r.warning = true ↔ scalar = true ∧ ∃ w ∈ g :: vs,
      w.prioF = r.value.prioF ∧ w.src ≠ r.value.src) := by
    intro r _ hw hv hc
    rw [hw, hv]
    constructor
    · intro h; cases h
    · rintro ⟨_, w, h1, _, h3⟩
      have := hperm.mem_iff.mpr h1
      rw [hc] at this
      rw [List.mem_singleton.mp this] at h3
      exact absurd rfl h3
  by_cases hkind : (merged g vs).value.kind = .js
  · by_cases hempty : (merged g vs).cands = []
    · have hrr : result scalar g vs = ⟨(merged g vs).value, (merged g vs).cands, false⟩ := by
        rw [hr]; unfold doFinalMerge
        rw [if_neg (by simp [hkind]), if_pos (by simp [hempty])]
      exact single _ rfl (by rw [hrr]) (by rw [hrr]) hempty
    · obtain ⟨s1, s2, s3, s4⟩ := scan_spec (merged g vs).cands
        ((merged g vs).value.prioF, [(merged g vs).value]) (by simp) (by simp)
      generalize hb : scan ((merged g vs).value.prioF, [(merged g vs).value]) (merged g vs).cands = best
        at s1 s2 s3 s4
      obtain ⟨c, t, hct⟩ := List.exists_cons_of_ne_nil s1
      have hv : (result scalar g vs).value = c := by
        rw [hr]; unfold doFinalMerge
        rw [if_neg (by simp [hkind]), if_neg (by simpa using hempty)]
        simp only [hb, hct, List.headD_cons]
        split
        · assumption
        · rfl
      have hw : (result scalar g vs).warning =
          (scalar && decide (best.2.length > 1) && best.2.tail.any (fun v => v.src != c.src)) := by
        rw [hr]; unfold doFinalMerge
        rw [if_neg (by simp [hkind]), if_neg (by simpa using hempty)]
        simp only [hb, hct, List.headD_cons]
        split <;> rfl
      rw [hw, hv]
      have hmem : ∀ w, w ∈ best.2 ↔ w ∈ g :: vs ∧ w.prioF = best.1 := by
        intro w
        rw [s2, List.mem_filter, ← hperm.mem_iff]
        simp
      have hc : c.prioF = best.1 := ((hmem c).mp (by rw [hct]; simp)).2
      rw [hct] at hmem ⊢
      simp only [Bool.and_eq_true, decide_eq_true_eq, List.any_eq_true, List.tail_cons, bne_iff_ne,
        List.length_cons]
      constructor
      · rintro ⟨⟨h1, _⟩, w, h2, h3⟩
        have := (hmem w).mp (List.mem_cons_of_mem _ h2)
        exact ⟨h1, w, this.1, by rw [hc]; exact this.2, h3⟩
      · rintro ⟨h1, w, h2, h3, h4⟩
        have hin := (hmem w).mpr ⟨h2, by rw [← hc]; exact h3⟩
        have hwt : w ∈ t := (List.mem_cons.mp hin).resolve_left (fun h => h4 (by rw [h]))
        refine ⟨⟨h1, ?_⟩, w, hwt, h4⟩
        have := List.length_pos_of_mem hwt
        omega
  · have hrr : result scalar g vs = ⟨(merged g vs).value, (merged g vs).cands, false⟩ := by
      rw [hr]; unfold doFinalMerge
      rw [if_pos (by simp [hkind])]
    have hvg : (merged g vs).value = g := by
      have hin := hperm.mem_iff.mp (List.mem_cons_self (a := (merged g vs).value))
      rcases List.mem_cons.mp hin with h | h
      · exact h
      · exact absurd (hjs _ h) hkind
    have hgr := merged_greatest vs ⟨g, []⟩ hgk.1 hgk.2 hjs (by simpa using hd) (by simp)
    have hgr : ∀ w ∈ (merged g vs).cands, less Val.prioM w (merged g vs).value = true := hgr
    have hnil : (merged g vs).cands = [] := by
      refine List.eq_nil_iff_forall_not_mem.mpr (fun w hw => ?_)
      have hw' := hperm.mem_iff.mp (List.mem_cons_of_mem _ hw)
      have hlt := hgr w hw
      rw [hvg] at hlt
      rcases List.mem_cons.mp hw' with h | h
      · rw [h, less_irrefl] at hlt
        cases hlt
      · have h1 := local_prioM (hl w h)
        have h2 := (initial_prio hg).1
        simp only [less] at hlt
        rw [if_pos (by omega)] at hlt
        simp only [decide_eq_true_eq] at hlt
        omega
    exact single _ rfl (by rw [hrr]) (by rw [hrr]) hnil

/-! ## Constants -/

/-- **C44.** Constants other than booleans and undefined are what they were made as. -/
theorem C44_constant_origin (h : Heap) (n : Nat) (hf : ∀ a, h.next ≤ a → h.flags a = ⟨false, false⟩) :
    let p := h.fromProfile (.other n)
    let c := h.fromCommandLine (.other n)
    p.2.kind p.1 = .profile ∧ c.2.kind c.1 = .commandLine ∧
    (∀ a, a < h.next → p.2.kind a = h.kind a ∧ c.2.kind a = h.kind a) := by
  have := hf h.next (Nat.le_refl _)
  refine ⟨?_, ?_, ?_⟩
  · simp [Heap.fromProfile, Heap.create, Heap.set, Heap.kind, this]
  · simp [Heap.fromCommandLine, Heap.create, Heap.set, Heap.kind]
  · intro a ha
    have hne : a ≠ h.next := by omega
    simp [Heap.fromProfile, Heap.fromCommandLine, Heap.create, Heap.set, Heap.kind, hne]

/-! ## Cases -/

def def0 : Val := ⟨0, .js, .none, .none, 0, "undefined"⟩
def prod : Val := ⟨1, .js, .product, .product, 5, "'a'"⟩
def modA : Val := ⟨2, .js, .module true 1, .module true 1, 1, "'b'"⟩
def modB : Val := ⟨3, .js, .module true 1, .module true 1, 2, "'c'"⟩
def gone : Val := ⟨4, .js, .module true 2, .module false 2, 3, "'d'"⟩

example : Initial def0 ∧ (∀ v ∈ [modA, modB], Local v) ∧ Distinct (def0 :: [modA, modB]) ∧
    Unchanged (def0 :: [modA, modB]) := by
  refine ⟨by simp [Initial, def0], ?_, by unfold Distinct; decide, by unfold Unchanged; decide⟩
  intro v hv
  simp only [List.mem_cons, List.not_mem_nil, or_false] at hv
  rcases hv with rfl | rfl
  · exact ⟨rfl, Or.inr ⟨1, by decide, rfl⟩, Or.inr ⟨true, 1, by decide, rfl⟩⟩
  · exact ⟨rfl, Or.inr ⟨1, by decide, rfl⟩, Or.inr ⟨true, 1, by decide, rfl⟩⟩

example : result true def0 [modA, prod, gone, modB] = ⟨prod, [modB, modA, def0], false⟩ := by decide

example : result true def0 [modA, modB] = ⟨modB, [modA, def0], true⟩ := by decide

/-- **C44 finding.** If the value chosen while merging loses its priority (the module turns out to be
further away) and two others have the highest one then, the result depends on the order in which they
were merged: the names are not compared (modulepropertymerger.cpp 231-245). -/
theorem C44_order_matters :
    let near : Val := ⟨5, .js, .module true 0, .module true 3, 9, "1"⟩
    let a : Val := ⟨6, .js, .module true 1, .module true 1, 1, "2"⟩
    let b : Val := ⟨7, .js, .module true 1, .module true 1, 2, "3"⟩
    (result false def0 [near, a, b]).value = a ∧ (result false def0 [near, b, a]).value = b := by
  decide

/-- **C44 finding.** All constants `true` are one object (value.cpp 244, 269-273), whose flags are set by
`markAsSetByProfile` and `markAsSetByCommandLine`. So if any boolean property was set on the command line,
a value from the profile that is the same boolean counts as set on the command line: what the product
sets for this property has no effect. -/
theorem C44_shared_boolean :
    -- some property is set on the command line, another one by the profile
    let (_, h1) := Heap.empty.fromCommandLine (.bool true)
    let (a, h2) := h1.fromProfile (.bool true)
    let fromProfile : Val := ⟨0, h2.kind a, .none, .none, 0, "true"⟩
    let inProduct : Val := ⟨1, .js, .product, .product, 5, "false"⟩
    (result true fromProfile [inProduct]).value = fromProfile ∧
    -- without the first one
    let (a, h2) := Heap.empty.fromProfile (.bool true)
    (result true ⟨0, h2.kind a, .none, .none, 0, "true"⟩ [inProduct]).value = inProduct := by
  decide

end Verif.Merge
