import Verif.Anew.Lem
import Verif.Anew.Spec
/-!
# C56, C57: which products are set up anew, and which artifacts are updated
-/
namespace Verif.Anew

theorem find_some {l : List Product} {n : Nat} {p : Product} (h : find l n = some p) : p ∈ l ∧ p.name = n :=
  ⟨List.mem_of_find?_eq_some h, by simpa using List.find?_some h⟩

theorem find_of_mem {l : List Product} (hn : (l.map (·.name)).Nodup) {p : Product} (hp : p ∈ l) :
    find l p.name = some p := by
  unfold find
  induction l with
  | nil => cases hp
  | cons a l ih =>
    simp only [List.map_cons, List.nodup_cons] at hn
    rcases List.mem_cons.1 hp with h | h
    · rw [List.find?_cons_of_pos (by simp [h])]; rw [h]
    · rw [List.find?_cons_of_neg, ih hn.2 h]
      simp only [decide_eq_true_eq]
      exact fun e => hn.1 (by rw [e]; exact List.mem_map_of_mem h)

theorem find_none {l : List Product} {n : Nat} : find l n = none ↔ ∀ p ∈ l, p.name ≠ n := by
  unfold find
  rw [List.find?_eq_none]
  simp

/-- **C56.** A product counts as different exactly if something is different that would change which artifacts there
    are. -/
theorem C56_changed_iff {old new : Product} (hr : (old.rules.map Rule.key).Nodup) (hs : old.scanners.Nodup)
    (hd : old.deps.Nodup) (hdata : old.data.isSome = old.enabled) :
    changed old new = false ↔ Unchanged old new := by
  have hsc : scannerChanges old new = false ↔ old.scanners.Perm new.scanners := by
    unfold scannerChanges
    simp only [Bool.or_eq_false_iff, List.any_eq_false, bne_eq_false_iff_eq, Bool.not_eq_true', List.contains_eq_mem,
      decide_eq_false_iff_not, Decidable.not_not]
    constructor
    · rintro ⟨h1, h2⟩
      exact perm_of_subset _ _ hs h1 h2
    · intro h
      exact ⟨fun x hx => h.mem_iff.1 hx, h.length_eq⟩
  have hde : dependenciesAreEqual old new = true ↔ old.deps.Perm new.deps := by
    unfold dependenciesAreEqual
    simp only [Bool.and_eq_true, decide_eq_true_eq, List.all_eq_true, List.contains_eq_mem]
    constructor
    · rintro ⟨⟨h1, h2⟩, _⟩
      exact perm_of_subset _ _ hd h2 h1
    · intro h
      exact ⟨⟨h.length_eq, fun x hx => h.mem_iff.1 hx⟩, fun x hx => h.mem_iff.2 hx⟩
  have hfi : filesChanged old new = false ↔ (old.files.map (·.path)).Perm (new.files.map (·.path)) := by
    unfold filesChanged
    simp only [Bool.or_eq_false_iff, bne_eq_false_iff_eq, sorted_eq_iff]
    exact ⟨fun h => h.2, fun h => ⟨by simpa using h.length_eq, h⟩⟩
  have hpr : propertyChanges old new = false ↔
      (old.enabled = true → old.tags = new.tags) ∧ (old.enabled = true → old.install = new.install) := by
    unfold propertyChanges
    rw [hdata]
    cases old.enabled <;> simp
  have hru := listsAreEqual_iff (l2 := new.rules) hr
  unfold changed productChanged
  simp only [Bool.or_eq_false_iff, bne_eq_false_iff_eq, Bool.not_eq_false', hsc, hde, hfi, hpr, hru]
  constructor
  · rintro ⟨⟨h1, ⟨⟨h2, h3⟩, h4⟩, h5⟩, h6⟩
    exact ⟨h1, h2.1, h2.2, h3, h4, h5, h6⟩
  · rintro ⟨h1, h2, h3, h4, h5, h6, h7⟩
    exact ⟨⟨h1, ⟨⟨⟨h2, h3⟩, h4⟩, h5⟩, h6⟩, h7⟩

theorem addChanged_spec (old new : List Product) : ∀ (known : List Nat), known.Nodup →
    (addChanged old new known).Nodup ∧
    ∀ n, n ∈ addChanged old new known ↔ n ∈ known ∨ ∃ p ∈ old, p.name = n ∧ ∃ q, find new n = some q ∧
      changed p q = true := by
  unfold addChanged
  induction old with
  | nil => intro known h; exact ⟨h, by simp⟩
  | cons p old ih =>
    intro known hn
    rw [List.foldl_cons]
    cases hf : find new p.name with
    | none =>
      simp only
      obtain ⟨h1, h2⟩ := ih known hn
      refine ⟨h1, fun n => ?_⟩
      rw [h2]
      constructor
      · rintro (h | ⟨x, hx, h⟩)
        · exact .inl h
        · exact .inr ⟨x, by simp [hx], h⟩
      · rintro (h | ⟨x, hx, h3, q, h4, h5⟩)
        · exact .inl h
        · rcases List.mem_cons.1 hx with rfl | hx
          · subst h3; rw [hf] at h4; simp at h4
          · exact .inr ⟨x, hx, h3, q, h4, h5⟩
    | some q =>
      simp only
      by_cases hc : (changed p q && !known.contains p.name) = true
      · rw [if_pos hc]
        simp only [Bool.and_eq_true, Bool.not_eq_true', List.contains_eq_mem, decide_eq_false_iff_not] at hc
        have hn' : (known ++ [p.name]).Nodup := by
          rw [List.nodup_append]
          refine ⟨hn, by simp, ?_⟩
          intro a ha b hb
          rw [List.mem_singleton.1 hb]
          exact fun h => hc.2 (h ▸ ha)
        obtain ⟨h1, h2⟩ := ih _ hn'
        refine ⟨h1, fun n => ?_⟩
        rw [h2]
        constructor
        · rintro (h | ⟨x, hx, h⟩)
          · rcases List.mem_append.1 h with h | h
            · exact .inl h
            · have := List.mem_singleton.1 h
              subst this
              exact .inr ⟨p, by simp, rfl, q, hf, hc.1⟩
          · exact .inr ⟨x, by simp [hx], h⟩
        · rintro (h | ⟨x, hx, h3, q', h4, h5⟩)
          · exact .inl (List.mem_append_left _ h)
          · rcases List.mem_cons.1 hx with rfl | hx
            · exact .inl (by simp [h3])
            · exact .inr ⟨x, hx, h3, q', h4, h5⟩
      · rw [if_neg hc]
        obtain ⟨h1, h2⟩ := ih known hn
        refine ⟨h1, fun n => ?_⟩
        rw [h2]
        constructor
        · rintro (h | ⟨x, hx, h⟩)
          · exact .inl h
          · exact .inr ⟨x, by simp [hx], h⟩
        · rintro (h | ⟨x, hx, h3, q', h4, h5⟩)
          · exact .inl h
          · rcases List.mem_cons.1 hx with rfl | hx
            · subst h3
              rw [hf] at h4
              simp only [Option.some.injEq] at h4
              subst h4
              simp only [h5, Bool.true_and, Bool.not_eq_true', List.contains_eq_mem, decide_eq_false_iff_not,
                Decidable.not_not] at hc
              exact .inl hc
            · exact .inr ⟨x, hx, h3, q', h4, h5⟩

theorem filter_length_lt {α : Type} {f g : α → Bool} (l : List α) (hfg : ∀ x, f x = true → g x = true) {y : α}
    (hy : y ∈ l) (h1 : f y = false) (h2 : g y = true) : (l.filter f).length < (l.filter g).length := by
  induction l with
  | nil => cases hy
  | cons a l ih =>
    have hle : ∀ l : List α, (l.filter f).length ≤ (l.filter g).length := by
      intro l
      induction l with
      | nil => simp
      | cons b l ih =>
        cases hb : f b with
        | true => simp [hb, hfg b hb, ih]
        | false => cases hb' : g b <;> simp [hb, hb'] <;> omega
    rcases List.mem_cons.1 hy with rfl | hy
    · have := hle l
      simp [h1, h2]; omega
    · have := ih hy
      cases hb : f a with
      | true => simp [hb, hfg a hb, this]
      | false => cases hb' : g a <;> simp [hb, hb'] <;> omega

theorem affected_iff {old : List Product} (hn : (old.map (·.name)).Nodup) (C : List Nat) (n : Nat) :
    Affected (depsOf old) C n ↔ ∃ m, DependsOn old n m ∧ m ∈ C := by
  constructor
  · rintro ⟨c, hc, hr⟩
    refine ⟨c, ?_, hc⟩
    clear hc
    induction hr with
    | refl => exact .self _
    | @step p q r h1 _ ih =>
      unfold depsOf at h1
      cases hf : find old p with
      | none => rw [hf] at h1; simp at h1
      | some P =>
        rw [hf] at h1
        simp only [List.mem_map] at h1
        obtain ⟨d, hd, rfl⟩ := h1
        obtain ⟨hP, hname⟩ := find_some hf
        subst hname
        exact .dep hP hd ih
  · rintro ⟨m, hd, hm⟩
    refine ⟨m, hm, ?_⟩
    clear hm
    induction hd with
    | self => exact .refl _
    | dep hp hd _ ih =>
      refine .step ?_ ih
      unfold depsOf
      rw [find_of_mem hn hp]
      exact List.mem_map_of_mem hd

/-- The complete list of changed products. -/
theorem complete_spec {old new : List Product} {known : List Nat} (ho : Restored old) (hd : Distinct old)
    (hnew : (new.map (·.name)).Nodup) (hk : known.Nodup) :
    (∀ p ∈ old, p.name ∈ makeComplete (depsOf old) (old.length + 1) (old.map (·.name)) (addChanged old new known) ↔
      Touched old new known p.name) := by
  obtain ⟨hac, hmem⟩ := addChanged_spec old new known hk
  obtain ⟨rank, hrank⟩ := ho.acyclic
  have hr : ∀ p, ∀ q ∈ depsOf old p, (fun n => (old.filter (fun x => rank x.name < rank n)).length) q <
      (fun n => (old.filter (fun x => rank x.name < rank n)).length) p := by
    intro p q hq
    unfold depsOf at hq
    cases hf : find old p with
    | none => rw [hf] at hq; simp at hq
    | some P =>
      rw [hf] at hq
      simp only [List.mem_map] at hq
      obtain ⟨d, hd, rfl⟩ := hq
      obtain ⟨hP, rfl⟩ := find_some hf
      have hlt := hrank P hP d hd
      obtain ⟨Q, hQ, hQn⟩ := ho.closed P hP d hd
      refine filter_length_lt old ?_ hQ (by simp [hQn]) (by simpa [hQn] using hlt)
      intro x hx
      simp only [decide_eq_true_eq] at hx ⊢
      omega
  obtain ⟨h1, _, _, _⟩ := makeComplete_spec (bound := old.length + 1) hr (old.map (·.name))
    (fun p _ => Nat.lt_succ_of_le (List.length_filter_le _ _)) hac
  intro p hp
  rw [h1 p.name (List.mem_map_of_mem hp), affected_iff ho.names]
  unfold Touched
  refine exists_congr fun m => and_congr_right fun _ => ?_
  rw [hmem]
  refine or_congr Iff.rfl ?_
  constructor
  · rintro ⟨P, hP, hPn, Q, hQ, hc⟩
    obtain ⟨hQm, hQn⟩ := find_some hQ
    refine ⟨P, hP, Q, hQm, hPn, hQn, ?_⟩
    rw [← C56_changed_iff (hd.rules P hP) (hd.scanners P hP) (hd.deps P hP) (ho.data P hP), hc]
    simp
  · rintro ⟨P, hP, Q, hQ, hPn, hQn, hu⟩
    refine ⟨P, hP, hPn, Q, hQn ▸ find_of_mem hnew hQ, ?_⟩
    rw [← C56_changed_iff (hd.rules P hP) (hd.scanners P hP) (hd.deps P hP) (ho.data P hP)] at hu
    simpa using hu

theorem place_fold (left : List Product) : ∀ (new : List Product) (o : Outcome),
    (∀ n, n ∈ (new.foldl (place left) o).setUp ↔ n ∈ o.setUp ∨ ∃ q ∈ new, q.name = n ∧ q.enabled = true ∧
      (find left n).bind (·.data) = none) ∧
    (∀ n x, (n, x) ∈ (new.foldl (place left) o).kept ↔ (n, x) ∈ o.kept ∨ ∃ q ∈ new, q.name = n ∧ q.enabled = true ∧
      ∃ d, (find left n).bind (·.data) = some d ∧ x = updateRules q.rules d) := by
  intro new
  induction new with
  | nil => intro o; simp
  | cons q new ih =>
    intro o
    rw [List.foldl_cons]
    have hstep : place left o q =
        if q.enabled = true then
          (match (find left q.name).bind (·.data) with
          | some d => { o with kept := o.kept ++ [(q.name, updateRules q.rules d)] }
          | none => { o with setUp := o.setUp ++ [q.name] })
        else o := by
      unfold place
      cases hf : find left q.name with
      | none => rfl
      | some p =>
        cases q.enabled <;> simp
        cases p.data <;> rfl
    rw [hstep]
    by_cases he : q.enabled = true
    · rw [if_pos he]
      cases hb : (find left q.name).bind (·.data) with
      | none =>
        simp only
        obtain ⟨h1, h2⟩ := ih { o with setUp := o.setUp ++ [q.name] }
        constructor
        · intro n
          rw [h1]
          constructor
          · rintro (h | ⟨x, hx, h⟩)
            · rcases List.mem_append.1 h with h | h
              · exact .inl h
              · have := List.mem_singleton.1 h
                subst this
                exact .inr ⟨q, by simp, rfl, he, hb⟩
            · exact .inr ⟨x, by simp [hx], h⟩
          · rintro (h | ⟨x, hx, hn, h⟩)
            · exact .inl (List.mem_append_left _ h)
            · rcases List.mem_cons.1 hx with rfl | hx
              · exact .inl (by simp [hn])
              · exact .inr ⟨x, hx, hn, h⟩
        · intro n y
          rw [h2]
          constructor
          · rintro (h | ⟨x, hx, h⟩)
            · exact .inl h
            · exact .inr ⟨x, by simp [hx], h⟩
          · rintro (h | ⟨x, hx, hn, h', d, hd, h⟩)
            · exact .inl h
            · rcases List.mem_cons.1 hx with rfl | hx
              · subst hn; rw [hb] at hd; simp at hd
              · exact .inr ⟨x, hx, hn, h', d, hd, h⟩
      | some d =>
        simp only
        obtain ⟨h1, h2⟩ := ih { o with kept := o.kept ++ [(q.name, updateRules q.rules d)] }
        constructor
        · intro n
          rw [h1]
          constructor
          · rintro (h | ⟨x, hx, h⟩)
            · exact .inl h
            · exact .inr ⟨x, by simp [hx], h⟩
          · rintro (h | ⟨x, hx, hn, h', h⟩)
            · exact .inl h
            · rcases List.mem_cons.1 hx with rfl | hx
              · subst hn; rw [hb] at h; simp at h
              · exact .inr ⟨x, hx, hn, h', h⟩
        · intro n y
          rw [h2]
          constructor
          · rintro (h | ⟨x, hx, h⟩)
            · rcases List.mem_append.1 h with h | h
              · exact .inl h
              · have := List.mem_singleton.1 h
                simp only [Prod.mk.injEq] at this
                obtain ⟨rfl, rfl⟩ := this
                exact .inr ⟨q, by simp, rfl, he, d, hb, rfl⟩
            · exact .inr ⟨x, by simp [hx], h⟩
          · rintro (h | ⟨x, hx, hn, h', d', hd, h⟩)
            · exact .inl (List.mem_append_left _ h)
            · rcases List.mem_cons.1 hx with rfl | hx
              · subst hn
                rw [hb] at hd
                simp only [Option.some.injEq] at hd
                subst hd
                exact .inl (by simp [h])
              · exact .inr ⟨x, hx, hn, h', d', hd, h⟩
    · rw [if_neg he]
      obtain ⟨h1, h2⟩ := ih o
      constructor
      · intro n
        rw [h1]
        constructor
        · rintro (h | ⟨x, hx, h⟩)
          · exact .inl h
          · exact .inr ⟨x, by simp [hx], h⟩
        · rintro (h | ⟨x, hx, hn, h', h⟩)
          · exact .inl h
          · rcases List.mem_cons.1 hx with rfl | hx
            · exact absurd h' he
            · exact .inr ⟨x, hx, hn, h', h⟩
      · intro n y
        rw [h2]
        constructor
        · rintro (h | ⟨x, hx, h⟩)
          · exact .inl h
          · exact .inr ⟨x, by simp [hx], h⟩
        · rintro (h | ⟨x, hx, hn, h', h⟩)
          · exact .inl h
          · rcases List.mem_cons.1 hx with rfl | hx
            · exact absurd h' he
            · exact .inr ⟨x, hx, hn, h', h⟩

theorem find_filter {l : List Product} (hn : (l.map (·.name)).Nodup) (f : Product → Bool) (n : Nat) :
    find (l.filter f) n = (find l n).filter f := by
  cases h : find l n with
  | none =>
    rw [find_none] at h
    simp only [Option.filter]
    rw [find_none]
    intro p hp
    exact h p (List.mem_filter.1 hp).1
  | some p =>
    obtain ⟨hp, hpn⟩ := find_some h
    cases hf : f p with
    | true =>
      simp only [Option.filter, hf]
      have hn' : ((l.filter f).map (·.name)).Nodup := hn.sublist (List.filter_sublist.map _)
      rw [← hpn]
      exact find_of_mem hn' (List.mem_filter.2 ⟨hp, hf⟩)
    | false =>
      simp only [Option.filter, hf]
      rw [if_neg (by simp), find_none]
      intro p' hp' he
      obtain ⟨h1, h2⟩ := List.mem_filter.1 hp'
      have := find_of_mem hn h1
      rw [he, h] at this
      simp only [Option.some.injEq] at this
      rw [this, h2] at hf
      cases hf

/-- Build data that is taken over. -/
theorem left_data {old new : List Product} {C : List Nat} (hn : (old.map (·.name)).Nodup) {q : Product} (hq : q ∈ new)
    (d : List Rule) :
    (find (old.filter (fun p => !(C.contains p.name && (find new p.name).isSome))) q.name).bind (·.data) = some d ↔
    ∃ p ∈ old, p.name = q.name ∧ p.data = some d ∧ q.name ∉ C := by
  have hnew : (find new q.name).isSome = true := by
    cases h : find new q.name with
    | some _ => rfl
    | none => exact absurd rfl (find_none.1 h q hq)
  rw [find_filter hn]
  cases h : find old q.name with
  | none =>
    simp only [Option.filter, Option.bind_none]
    rw [find_none] at h
    constructor
    · intro h'; cases h'
    · rintro ⟨p, hp, hpn, _⟩; exact absurd hpn (h p hp)
  | some p =>
    obtain ⟨hp, hpn⟩ := find_some h
    simp only [Option.filter, hpn, hnew, Bool.and_true]
    constructor
    · intro h'
      by_cases hc : C.contains q.name = true
      · rw [hc] at h'; simp at h'
      · have hc' : C.contains q.name = false := by simpa using hc
        rw [hc'] at h'
        simp at h'
        exact ⟨p, hp, hpn, h', by simpa using hc⟩
    · rintro ⟨p', hp', hpn', hd, hc⟩
      have := find_of_mem hn hp'
      rw [hpn', h] at this
      simp only [Option.some.injEq] at this
      subst this
      have hc' : C.contains q.name = false := by simpa using hc
      rw [hc']
      simpa using hd

theorem updateRules_of_subset (rules : List Rule) (d : List Rule) (h : ∀ r ∈ d, r ∈ rules) :
    updateRules rules d = some d := by
  unfold updateRules
  induction d with
  | nil => rfl
  | cons r d ih =>
    have hr : rules.find? (fun r' => r' = r) = some r := by
      cases hf : rules.find? (fun r' => r' = r) with
      | none =>
        rw [List.find?_eq_none] at hf
        exact absurd (by simp) (hf r (h r (by simp)))
      | some x =>
        have := List.find?_some hf
        simp only [decide_eq_true_eq] at this
        rw [this]
    rw [List.mapM_cons, hr, ih (fun x hx => h x (by simp [hx]))]
    rfl

/-- **C56.** A product keeps its build data exactly if it was there, enabled, and neither it nor anything it depends
    on has changed; it gets all of the data, and no assertion fails. -/
theorem C56_kept {old new : List Product} {known : List Nat} (ho : Restored old) (hd : Distinct old)
    (hnew : (new.map (·.name)).Nodup) (hk : known.Nodup) (n : Nat) (x : Option (List Rule)) :
    (n, x) ∈ (trackAll old new known).kept ↔ ∃ q ∈ new, q.name = n ∧ q.enabled = true ∧ ∃ p ∈ old, p.name = n ∧
      p.enabled = true ∧ x = p.data ∧ ¬ Touched old new known n := by
  have hC := complete_spec ho hd hnew hk
  unfold trackAll track
  simp only
  rw [(place_fold _ new _).2]
  simp only [List.not_mem_nil, false_or]
  refine exists_congr fun q => and_congr_right fun hq => and_congr_right fun hqn => and_congr_right fun _ => ?_
  subst hqn
  simp only [left_data ho.names hq]
  constructor
  · rintro ⟨d, ⟨p, hp, hpn, hpd, hc⟩, rfl⟩
    have hnt : ¬ Touched old new known q.name := by
      rw [← hpn, ← hC p hp, hpn]; exact hc
    have hen : p.enabled = true := by rw [← ho.data p hp, hpd]; rfl
    refine ⟨p, hp, hpn, hen, ?_, hnt⟩
    rw [hpd]
    apply updateRules_of_subset
    intro r hr
    have hu : Unchanged p q := by
      apply Classical.byContradiction
      intro hu
      exact hnt ⟨q.name, .self _, .inr ⟨p, hp, q, hq, hpn, rfl, hu⟩⟩
    exact hu.rules.mem_iff.1 (ho.ruleRefs p hp d hpd r hr)
  · rintro ⟨p, hp, hpn, hen, hx, hnt⟩
    have hs := ho.data p hp
    rw [hen, Option.isSome_iff_exists] at hs
    obtain ⟨d, hpd⟩ := hs
    refine ⟨d, ⟨p, hp, hpn, hpd, ?_⟩, ?_⟩
    · rw [← hpn, hC p hp, hpn]; exact hnt
    · rw [hx, hpd]
      symm
      apply updateRules_of_subset
      intro r hr
      have hu : Unchanged p q := by
        apply Classical.byContradiction
        intro hu
        exact hnt ⟨q.name, .self _, .inr ⟨p, hp, q, hq, hpn, rfl, hu⟩⟩
      exact hu.rules.mem_iff.1 (ho.ruleRefs p hp d hpd r hr)

/-- **C56.** A product is set up exactly if it is enabled and it was not there, or was not enabled, or something it
    depends on has changed. -/
theorem C56_set_up {old new : List Product} {known : List Nat} (ho : Restored old) (hd : Distinct old)
    (hnew : (new.map (·.name)).Nodup) (hk : known.Nodup) (n : Nat) :
    n ∈ (trackAll old new known).setUp ↔ ∃ q ∈ new, q.name = n ∧ q.enabled = true ∧
      ∀ p ∈ old, p.name = n → p.enabled = true → Touched old new known n := by
  have hC := complete_spec ho hd hnew hk
  unfold trackAll track
  simp only
  rw [(place_fold _ new _).1]
  simp only [List.not_mem_nil, false_or]
  refine exists_congr fun q => and_congr_right fun hq => and_congr_right fun hqn => and_congr_right fun _ => ?_
  subst hqn
  rw [Option.eq_none_iff_forall_ne_some]
  constructor
  · intro h p hp hpn hen
    have hs := ho.data p hp
    rw [hen, Option.isSome_iff_exists] at hs
    obtain ⟨d, hpd⟩ := hs
    apply Classical.byContradiction
    intro hnt
    refine h d ((left_data ho.names hq d).2 ⟨p, hp, hpn, hpd, ?_⟩)
    rw [← hpn, hC p hp, hpn]
    exact hnt
  · intro h d hdd
    obtain ⟨p, hp, hpn, hpd, hc⟩ := (left_data ho.names hq d).1 hdd
    have hen : p.enabled = true := by rw [← ho.data p hp, hpd]; rfl
    have := h p hp hpn hen
    rw [← hpn, ← hC p hp, hpn] at this
    exact hc this

/-- **C56.** The artifacts of exactly those products are removed from disk that are not there any more. -/
theorem C56_removed (old new : List Product) (known : List Nat) (n : Nat) :
    n ∈ (trackAll old new known).removed ↔ (∃ p ∈ old, p.name = n) ∧ ∀ q ∈ new, q.name ≠ n := by
  unfold trackAll track
  simp only [List.mem_map, List.mem_filter, Option.isNone_iff_eq_none, find_none]
  constructor
  · rintro ⟨p, ⟨⟨hp, _⟩, h⟩, rfl⟩
    exact ⟨⟨p, hp, rfl⟩, h⟩
  · rintro ⟨⟨p, hp, rfl⟩, h⟩
    exact ⟨p, ⟨⟨hp, by rw [find_none.2 h]; simp⟩, h⟩, rfl⟩

/-- **C56.** What has been built is rescued for each product that was there and is set up anew. -/
theorem C56_rescued {old new : List Product} {known : List Nat} (ho : Restored old) (hd : Distinct old)
    (hnew : (new.map (·.name)).Nodup) (hk : known.Nodup) {p q : Product} (hp : p ∈ old) (hq : q ∈ new)
    (hn : p.name = q.name) :
    p.name ∈ (trackAll old new known).rescued ↔ Touched old new known p.name := by
  have hC := complete_spec ho hd hnew hk p hp
  rw [← hC]
  unfold trackAll track
  simp only [List.mem_filter]
  constructor
  · exact fun h => h.1
  · intro h
    refine ⟨h, ?_⟩
    simp only [Bool.not_eq_true', List.contains_eq_mem, decide_eq_false_iff_not, List.mem_map, List.mem_filter, not_exists,
      not_and]
    rintro x ⟨_, hx⟩ hxn
    rw [Option.isNone_iff_eq_none, find_none] at hx
    exact hx q hq (by rw [hxn, hn])

/-- **C57.** If the product is not set up anew for its own sake, its generated artifacts are updated exactly if its
    groups for artifacts or its module properties are different. -/
theorem C57_update {old new : Product} (hg : (old.groups.map Group.key).Nodup) (hdata : old.data.isSome = true)
    (hc : changed old new = false) :
    needsUpdate old new = false ↔ old.groups.Perm new.groups ∧ old.moduleProps = new.moduleProps := by
  have hp : propertyChanges old new = false := by
    unfold changed productChanged at hc
    simp only [Bool.or_eq_false_iff] at hc
    exact hc.1.2.1.1.1
  unfold needsUpdate
  rw [hdata, hp]
  simp only [Bool.not_false, Bool.and_self, Bool.true_and, Bool.or_eq_false_iff, bne_eq_false_iff_eq,
    Bool.not_eq_false', listsAreEqual_iff hg]

/-- **C57.** If the source files are the same, those are updated that have other tags or properties now. -/
theorem C57_sources {old new : Product} (hn : (old.files.map (·.path)).Nodup) (hc : filesChanged old new = false)
    (s : Source) : s ∈ changedSources old new ↔ s ∈ new.files ∧ s ∉ old.files := by
  unfold filesChanged at hc
  simp only [Bool.or_eq_false_iff, bne_eq_false_iff_eq] at hc
  obtain ⟨hl, hs⟩ := hc
  have hlen : (Common.isort pathLe old.files).length = (Common.isort pathLe new.files).length := by
    rw [(Common.isort_perm pathLe old.files).length_eq, (Common.isort_perm pathLe new.files).length_eq, hl]
  have hinj : ∀ a ∈ old.files, ∀ b ∈ old.files, a.path = b.path → a = b := by
    intro a ha b hb hab
    have h1 := lookup_of_mem hn ha
    have h2 := lookup_of_mem hn hb
    rw [hab, h2] at h1
    simpa using h1.symm
  unfold changedSources
  simp only [List.mem_map, List.mem_filter, decide_eq_true_eq]
  constructor
  · rintro ⟨⟨a, b⟩, ⟨hm, hne⟩, rfl⟩
    simp only at hne ⊢
    have hz := zip_paths _ _ hs a b hm
    have ha : a ∈ old.files := (Common.mem_isort pathLe _ _).1 (List.of_mem_zip hm).1
    have hb : b ∈ new.files := (Common.mem_isort pathLe _ _).1 (List.of_mem_zip hm).2
    exact ⟨hb, fun h => hne (hinj a ha b h hz)⟩
  · rintro ⟨hsn, hso⟩
    obtain ⟨a, ha⟩ := zip_right _ _ hlen s ((Common.mem_isort pathLe _ _).2 hsn)
    refine ⟨(a, s), ⟨ha, ?_⟩, rfl⟩
    simp only
    rintro rfl
    exact hso ((Common.mem_isort pathLe _ _).1 (List.of_mem_zip ha).1)

theorem groupFor_perm {l1 l2 : List Group} (hp : l1.Perm l2) (tags : List Str)
    (h1 : ∀ g ∈ l1, ∀ g' ∈ l1, (∃ t ∈ g.filter, t ∈ tags) → (∃ t ∈ g'.filter, t ∈ tags) → g = g') :
    groupFor l1 tags = groupFor l2 tags := by
  have hm : ∀ g : Group, (g.filter.any (fun t => tags.contains t)) = true ↔ ∃ t ∈ g.filter, t ∈ tags := by
    intro g; simp
  unfold groupFor
  cases ha : l1.find? (fun g => g.filter.any (fun t => tags.contains t)) with
  | none =>
    symm
    rw [List.find?_eq_none] at ha ⊢
    exact fun g hg => ha g (hp.mem_iff.2 hg)
  | some g =>
    cases hb : l2.find? (fun g => g.filter.any (fun t => tags.contains t)) with
    | none =>
      rw [List.find?_eq_none] at hb
      exact absurd (List.find?_some ha) (hb g (hp.mem_iff.1 (List.mem_of_find?_eq_some ha)))
    | some g' =>
      rw [h1 g (List.mem_of_find?_eq_some ha) g' (hp.mem_iff.2 (List.mem_of_find?_eq_some hb))
        ((hm g).1 (List.find?_some (p := fun g : Group => g.filter.any (fun t => tags.contains t)) ha))
        ((hm g').1 (List.find?_some (p := fun g : Group => g.filter.any (fun t => tags.contains t)) hb))]

/-- **C57, part.** If artifacts are not updated, they have the tags and the group they would get now - if the file
    taggers are the same and no two groups match an artifact. Both conditions are needed. -/
theorem C57_artifacts_current_partial {old new : Product} (hg : (old.groups.map Group.key).Nodup)
    (hdata : old.data.isSome = true) (hc : changed old new = false) (hu : needsUpdate old new = false)
    (ht : old.taggers = new.taggers) (file : Str) (pure : List Str)
    (h1 : ∀ g ∈ old.groups, ∀ g' ∈ old.groups, (∃ t ∈ g.filter, t ∈ (provide old file pure).1) →
      (∃ t ∈ g'.filter, t ∈ (provide old file pure).1) → g = g') :
    provide old file pure = provide new file pure := by
  have hp := ((C57_update hg hdata hc).1 hu).1
  have hg' := groupFor_perm hp (provide old file pure).1 h1
  unfold provide at hg' ⊢
  simp only at hg' ⊢
  rw [← ht, hg']

end Verif.Anew
