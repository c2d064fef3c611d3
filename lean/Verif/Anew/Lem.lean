import Verif.Anew.Model
/-!
# C56: lemmas about comparisons and the completion of the list of changed products
-/
namespace Verif.Anew

/-! ## Comparing lists by key -/

theorem lookup_mem {α : Type} {key : α → Str} {l : List α} {k : Str} {e : α} (h : lookup key l k = some e) :
    e ∈ l ∧ key e = k := by
  unfold lookup at h
  have h1 := List.mem_of_find?_eq_some h
  have h2 := List.find?_some h
  exact ⟨by simpa using h1, by simpa using h2⟩

theorem lookup_of_mem {α : Type} {key : α → Str} {l : List α} (hn : (l.map key).Nodup) {e : α} (he : e ∈ l) :
    lookup key l (key e) = some e := by
  have hinj : ∀ a ∈ l, ∀ b ∈ l, key a = key b → a = b := by
    clear he e
    induction l with
    | nil => intro a ha; cases ha
    | cons x l ih =>
      simp only [List.map_cons, List.nodup_cons, List.mem_map, not_exists, not_and] at hn
      intro a ha b hb hab
      rcases List.mem_cons.1 ha with ha' | ha' <;> rcases List.mem_cons.1 hb with hb' | hb'
      · rw [ha', hb']
      · exact absurd (ha' ▸ hab).symm (hn.1 b hb')
      · exact absurd (hb' ▸ hab) (hn.1 a ha')
      · exact ih hn.2 a ha' b hb' hab
  unfold lookup
  cases hf : l.reverse.find? (fun x => key x = key e) with
  | none =>
    rw [List.find?_eq_none] at hf
    exact absurd (by simp) (hf e (by simpa using he))
  | some x =>
    have h1 : x ∈ l := by simpa using List.mem_of_find?_eq_some hf
    have h2 : key x = key e := by simpa using List.find?_some hf
    rw [hinj x h1 e he h2]

theorem perm_of_subset {α : Type} : ∀ (l1 l2 : List α), l1.Nodup → (∀ x ∈ l1, x ∈ l2) → l1.length = l2.length →
    l1.Perm l2 := by
  classical
  intro l1
  induction l1 with
  | nil => intro l2 _ _ h; simp at h; rw [List.eq_nil_of_length_eq_zero h.symm]
  | cons a l1 ih =>
    intro l2 hn hs hl
    rw [List.nodup_cons] at hn
    have ha := hs a (by simp)
    have hp := List.perm_cons_erase ha
    refine (List.Perm.cons a (ih (l2.erase a) hn.2 ?_ ?_)).trans hp.symm
    · intro x hx
      have hne : x ≠ a := fun h => hn.1 (h ▸ hx)
      exact (List.mem_erase_of_ne hne).2 (hs x (by simp [hx]))
    · have := hp.length_eq
      simp at this hl
      omega

theorem nodup_of_map {α β : Type} {f : α → β} {l : List α} (h : (l.map f).Nodup) : l.Nodup := by
  induction l with
  | nil => simp
  | cons a l ih =>
    simp only [List.map_cons, List.nodup_cons] at h ⊢
    exact ⟨fun ha => h.1 (List.mem_map_of_mem ha), ih h.2⟩

theorem listsAreEqual_iff {α : Type} [DecidableEq α] {key : α → Str} {l1 l2 : List α} (hn : (l1.map key).Nodup) :
    listsAreEqual key l1 l2 = true ↔ l1.Perm l2 := by
  unfold listsAreEqual
  simp only [Bool.and_eq_true, decide_eq_true_eq, List.all_eq_true]
  constructor
  · rintro ⟨hl, ha⟩
    refine perm_of_subset l1 l2 (nodup_of_map hn) ?_ hl
    intro e he
    have := ha e he
    rw [lookup_of_mem hn he] at this
    cases hx : lookup key l2 (key e) with
    | none => rw [hx] at this; simp at this
    | some b =>
      rw [hx] at this
      simp only [Option.some.injEq, decide_eq_true_eq] at this
      rw [this]
      exact (lookup_mem hx).1
  · intro hp
    refine ⟨hp.length_eq, ?_⟩
    intro e he
    have hn2 : (l2.map key).Nodup := (hp.map key).nodup_iff.1 hn
    rw [lookup_of_mem hn he, lookup_of_mem hn2 (hp.mem_iff.1 he)]
    simp

/-! ## Sorted lists of source files -/

theorem pathLe_total (a b : Source) : pathLe a b = true ∨ pathLe b a = true := by
  unfold pathLe
  simp only [decide_eq_true_eq]
  by_cases h : b.path < a.path
  · exact .inr (fun h' => absurd (List.lt_trans h h') (List.lt_irrefl _))
  · exact .inl h

theorem pathLe_trans (a b c : Source) (h1 : pathLe a b = true) (h2 : pathLe b c = true) : pathLe a c = true := by
  unfold pathLe at *
  simp only [decide_eq_true_eq] at *
  exact fun h => h1 (by
    rw [List.not_lt] at h1 h2
    exact absurd (List.le_trans h1 h2) (by rw [← List.not_lt]; exact fun hh => hh h))

theorem sorted_paths (l : List Source) :
    ((Common.isort pathLe l).map (·.path)).Pairwise (fun a b => ¬ b < a) := by
  rw [List.pairwise_map]
  exact (Common.isort_sorted pathLe pathLe_total pathLe_trans l).imp (by intro a b h; simpa [pathLe] using h)

theorem sorted_eq_iff (l1 l2 : List Source) :
    (Common.isort pathLe l1).map (·.path) = (Common.isort pathLe l2).map (·.path) ↔
    (l1.map (·.path)).Perm (l2.map (·.path)) := by
  constructor
  · intro h
    refine (((Common.isort_perm pathLe l1).map _).symm.trans ?_).trans ((Common.isort_perm pathLe l2).map _)
    rw [h]
  · intro h
    refine List.Perm.eq_of_pairwise ?_ (sorted_paths l1) (sorted_paths l2)
      (((Common.isort_perm pathLe l1).map _).trans (h.trans ((Common.isort_perm pathLe l2).map _).symm))
    intro a b _ _ h1 h2
    rw [List.not_lt] at h1 h2
    exact List.le_antisymm h1 h2

theorem zip_paths : ∀ (l1 l2 : List Source), l1.map (·.path) = l2.map (·.path) → ∀ a b, (a, b) ∈ l1.zip l2 →
    a.path = b.path := by
  intro l1
  induction l1 with
  | nil => intro l2 _ a b h; simp at h
  | cons x l1 ih =>
    intro l2 h a b hm
    cases l2 with
    | nil => simp at hm
    | cons y l2 =>
      simp only [List.map_cons, List.cons.injEq] at h
      simp only [List.zip_cons_cons, List.mem_cons, Prod.mk.injEq] at hm
      rcases hm with ⟨rfl, rfl⟩ | hm
      · exact h.1
      · exact ih l2 h.2 a b hm

theorem zip_right : ∀ (l1 l2 : List Source), l1.length = l2.length → ∀ b ∈ l2, ∃ a, (a, b) ∈ l1.zip l2 := by
  intro l1
  induction l1 with
  | nil => intro l2 h b hb; simp at h; rw [List.eq_nil_of_length_eq_zero h.symm] at hb; cases hb
  | cons x l1 ih =>
    intro l2 h b hb
    cases l2 with
    | nil => cases hb
    | cons y l2 =>
      rcases List.mem_cons.1 hb with rfl | hb
      · exact ⟨x, by simp⟩
      · obtain ⟨a, ha⟩ := ih l2 (by simpa using h) b hb
        exact ⟨a, by simp [ha]⟩

/-! ## Completing the list -/

/-- There is a way along dependencies. -/
inductive Reach (deps : Nat → List Nat) : Nat → Nat → Prop
  | refl (p : Nat) : Reach deps p p
  | step {p q r : Nat} : q ∈ deps p → Reach deps q r → Reach deps p r

/-- Something changed can be reached. -/
def Affected (deps : Nat → List Nat) (C : List Nat) (p : Nat) : Prop := ∃ c ∈ C, Reach deps p c

theorem affected_step {deps : Nat → List Nat} {C : List Nat} {p : Nat} :
    Affected deps C p ↔ p ∈ C ∨ ∃ q ∈ deps p, Affected deps C q := by
  constructor
  · rintro ⟨c, hc, hr⟩
    cases hr with
    | refl => exact .inl hc
    | step h1 h2 => exact .inr ⟨_, h1, c, hc, h2⟩
  · rintro (h | ⟨q, hq, c, hc, hr⟩)
    · exact ⟨p, h, .refl _⟩
    · exact ⟨c, hc, .step hq hr⟩

structure Ok (deps : Nat → List Nat) (C : List Nat) (s : List Nat × List Nat) : Prop where
  init : ∀ c ∈ C, c ∈ s.1
  changed : ∀ c ∈ s.1, Affected deps C c
  seen : ∀ p ∈ s.2, ¬ Affected deps C p
  nodup : s.1.Nodup

/-- What is known after a call. -/
structure Post (deps : Nat → List Nat) (C : List Nat) (rank : Nat → Nat) (s s' : List Nat × List Nat) (bound : Nat) :
    Prop where
  ok : Ok deps C s'
  grow : ∀ c ∈ s.1, c ∈ s'.1
  new : ∀ c ∈ s'.1, c ∈ s.1 ∨ rank c < bound

theorem check_spec {deps : Nat → List Nat} {C : List Nat} {rank : Nat → Nat}
    (hrank : ∀ p, ∀ q ∈ deps p, rank q < rank p) : ∀ (k : Nat),
    (∀ s p, Ok deps C s → rank p < k → Post deps C rank s (checkDep deps k s p).1 (rank p + 1) ∧
      ((checkDep deps k s p).2 = true ↔ Affected deps C p) ∧
      ((checkDep deps k s p).2 = true → p ∈ (checkDep deps k s p).1.1)) ∧
    (∀ l s b, Ok deps C s → (∀ q ∈ l, rank q < k ∧ rank q < b) → Post deps C rank s (checkDeps (checkDep deps k) s l).1 b ∧
      ((checkDeps (checkDep deps k) s l).2 = true ↔ ∃ q ∈ l, Affected deps C q)) := by
  intro k
  have loop : ∀ k, (∀ s p, Ok deps C s → rank p < k → Post deps C rank s (checkDep deps k s p).1 (rank p + 1) ∧
      ((checkDep deps k s p).2 = true ↔ Affected deps C p) ∧
      ((checkDep deps k s p).2 = true → p ∈ (checkDep deps k s p).1.1)) →
      ∀ l s b, Ok deps C s → (∀ q ∈ l, rank q < k ∧ rank q < b) → Post deps C rank s (checkDeps (checkDep deps k) s l).1 b ∧
        ((checkDeps (checkDep deps k) s l).2 = true ↔ ∃ q ∈ l, Affected deps C q) := by
    intro k hk l
    induction l with
    | nil =>
      intro s b hs _
      simp only [checkDeps]
      exact ⟨⟨hs, fun _ h => h, fun _ h => .inl h⟩, by simp⟩
    | cons q l ih =>
      intro s b hs hl
      have hq := hl q (by simp)
      obtain ⟨hp, hiff, _⟩ := hk s q hs hq.1
      unfold checkDeps
      rcases hcd : checkDep deps k s q with ⟨s', r⟩
      rw [hcd] at hp hiff
      simp only at hp hiff
      have hnew : ∀ c ∈ s'.1, c ∈ s.1 ∨ rank c < b := by
        intro c hc
        rcases hp.new c hc with h | h
        · exact .inl h
        · exact .inr (by omega)
      cases r with
      | true =>
        simp only
        exact ⟨⟨hp.ok, hp.grow, hnew⟩, by simpa using .inl (hiff.1 rfl)⟩
      | false =>
        simp only
        obtain ⟨hp', hiff'⟩ := ih s' b hp.ok (fun x hx => hl x (by simp [hx]))
        refine ⟨⟨hp'.ok, fun c hc => hp'.grow c (hp.grow c hc), ?_⟩, ?_⟩
        · intro c hc
          rcases hp'.new c hc with h | h
          · exact hnew c h
          · exact .inr h
        · rw [hiff']
          constructor
          · rintro ⟨x, hx, ha⟩
            exact ⟨x, by simp [hx], ha⟩
          · rintro ⟨x, hx, ha⟩
            rcases List.mem_cons.1 hx with rfl | hx
            · exact absurd (hiff.2 ha) (by simp)
            · exact ⟨x, hx, ha⟩
  have main : ∀ s p, Ok deps C s → rank p < k → Post deps C rank s (checkDep deps k s p).1 (rank p + 1) ∧
      ((checkDep deps k s p).2 = true ↔ Affected deps C p) ∧
      ((checkDep deps k s p).2 = true → p ∈ (checkDep deps k s p).1.1) := by
    induction k with
    | zero => intro s p _ h; omega
    | succ k ih =>
      intro s p hs hr
      unfold checkDep
      by_cases h1 : s.2.contains p = true
      · rw [if_pos h1]
        simp only [List.contains_eq_mem, decide_eq_true_eq] at h1
        have := hs.seen p h1
        exact ⟨⟨hs, fun _ h => h, fun _ h => .inl h⟩, by simp [this], by simp⟩
      rw [if_neg h1]
      by_cases h2 : s.1.contains p = true
      · rw [if_pos h2]
        simp only [List.contains_eq_mem, decide_eq_true_eq] at h2
        have := hs.changed p h2
        exact ⟨⟨hs, fun _ h => h, fun _ h => .inl h⟩, by simp [this], fun _ => h2⟩
      rw [if_neg h2]
      simp only [List.contains_eq_mem, decide_eq_true_eq] at h2
      obtain ⟨hp, hiff⟩ := loop k ih (deps p) s (rank p) hs
        (fun q hq => by have := hrank p q hq; omega)
      rcases hcd : checkDeps (checkDep deps k) s (deps p) with ⟨s', r⟩
      rw [hcd] at hp hiff
      simp only at hp hiff
      have hnp : p ∉ s'.1 := by
        intro h
        rcases hp.new p h with h | h
        · exact h2 h
        · omega
      have haff : Affected deps C p ↔ r = true := by
        rw [affected_step, hiff]
        constructor
        · rintro (h | h)
          · exact absurd (hs.init p h) h2
          · exact h
        · exact .inr
      cases r with
      | true =>
        simp only
        have hap := haff.2 rfl
        refine ⟨⟨⟨?_, ?_, hp.ok.seen, ?_⟩, ?_, ?_⟩, by simp [hap], by simp⟩
        · intro c hc; exact List.mem_append_left _ (hp.ok.init c hc)
        · intro c hc
          rcases List.mem_append.1 hc with h | h
          · exact hp.ok.changed c h
          · rw [List.mem_singleton.1 h]; exact hap
        · rw [List.nodup_append]
          refine ⟨hp.ok.nodup, by simp, ?_⟩
          intro a ha b hb
          rw [List.mem_singleton.1 hb]
          exact fun h => hnp (h ▸ ha)
        · intro c hc; exact List.mem_append_left _ (hp.grow c hc)
        · intro c hc
          rcases List.mem_append.1 hc with h | h
          · rcases hp.new c h with h | h
            · exact .inl h
            · exact .inr (by omega)
          · rw [List.mem_singleton.1 h]; exact .inr (by omega)
      | false =>
        simp only
        have hap : ¬ Affected deps C p := by rw [haff]; simp
        refine ⟨⟨⟨hp.ok.init, hp.ok.changed, ?_, hp.ok.nodup⟩, hp.grow, ?_⟩, by simp [hap], by simp⟩
        · intro q hq
          rcases List.mem_cons.1 hq with rfl | hq
          · exact hap
          · exact hp.ok.seen q hq
        · intro c hc
          rcases hp.new c hc with h | h
          · exact .inl h
          · exact .inr (by omega)
  exact ⟨main, loop k main⟩

theorem makeComplete_spec {deps : Nat → List Nat} {C : List Nat} {rank : Nat → Nat} {bound : Nat}
    (hrank : ∀ p, ∀ q ∈ deps p, rank q < rank p) (all : List Nat) (hb : ∀ p ∈ all, rank p < bound) (hC : C.Nodup) :
    (∀ p ∈ all, p ∈ makeComplete deps bound all C ↔ Affected deps C p) ∧
    (∀ p ∈ makeComplete deps bound all C, Affected deps C p) ∧ (makeComplete deps bound all C).Nodup ∧
    (∀ c ∈ C, c ∈ makeComplete deps bound all C) := by
  have key : ∀ (all : List Nat) (s : List Nat × List Nat), (∀ p ∈ all, rank p < bound) → Ok deps C s →
      Ok deps C (all.foldl (fun s p => (checkDep deps bound s p).1) s) ∧
      (∀ c ∈ s.1, c ∈ (all.foldl (fun s p => (checkDep deps bound s p).1) s).1) ∧
      ∀ p ∈ all, Affected deps C p → p ∈ (all.foldl (fun s p => (checkDep deps bound s p).1) s).1 := by
    intro all
    induction all with
    | nil => intro s _ hs; exact ⟨hs, fun _ h => h, by simp⟩
    | cons a all ih =>
      intro s hb hs
      obtain ⟨hp, hiff, hin⟩ := (check_spec (C := C) hrank bound).1 s a hs (hb a (by simp))
      obtain ⟨h1, h2, h3⟩ := ih _ (fun p hp => hb p (by simp [hp])) hp.ok
      rw [List.foldl_cons]
      refine ⟨h1, fun c hc => h2 c (hp.grow c hc), ?_⟩
      intro p hp' ha
      rcases List.mem_cons.1 hp' with rfl | hp'
      · exact h2 p (hin (hiff.2 ha))
      · exact h3 p hp' ha
  have hinit : Ok deps C (C, []) := ⟨fun _ h => h, fun c h => ⟨c, h, .refl _⟩, by simp, hC⟩
  obtain ⟨h1, h2, h3⟩ := key all (C, []) hb hinit
  exact ⟨fun p hp => ⟨h1.changed p, h3 p hp⟩, h1.changed, h1.nodup, h2⟩

end Verif.Anew
