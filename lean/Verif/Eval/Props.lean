import Verif.Eval.Main
/-!
# Values of properties (C61)
-/
namespace Verif.Eval

variable {on : Bool}

/-- All properties are declared in the items that they are read from, nothing is inherited. -/
def Own (w : World) : Prop := ∀ i n obj owner v, w.find i n = some (obj, owner, v) → owner = i

theorem declares_own {w : World} (ho : Own w) (i : Item) (n : Name) : declares w i n = (i, n) := by
  unfold declares
  cases hf : w.find i n with
  | none => rfl
  | some x =>
    obtain ⟨obj, owner, v⟩ := x
    rw [ho _ _ _ _ _ hf]

theorem Layered.congr {w : World} {rank rank' : Item × Name → Nat} {t : Table} (h : Layered w rank t)
    (he : ∀ e ∈ t, rank (declares w e.1.1 e.1.2) = rank' (declares w e.1.1 e.1.2)) : Layered w rank' t := by
  induction h with
  | nil => exact .nil
  | @snoc t i n r _ hf ih =>
    refine .snoc (ih (fun e h => he e (List.mem_append_left _ h))) ?_
    have h0 := he ((i, n), r) (by simp)
    simp only at h0
    rw [← h0]
    have : t.filter (fun e => decide (rank' (declares w e.1.1 e.1.2) < rank (declares w i n))) =
        t.filter (fun e => decide (rank (declares w e.1.1 e.1.2) < rank (declares w i n))) := by
      apply List.filter_congr
      intro e hm
      rw [he e (List.mem_append_left _ hm)]
    rw [this]
    exact hf

theorem layered_of_own {w : World} (hw : w.Plain) (ho : Own w) {t : Table} (h : Established w t) :
    ∃ rank u, Layered w rank u ∧ (∀ k, u.lookup k = t.lookup k) ∧ ∀ e ∈ u, rank (declares w e.1.1 e.1.2) < u.length := by
  induction h with
  | nil => exact ⟨fun _ => 0, [], .nil, fun _ => rfl, by simp⟩
  | @snoc t i n r ht hf ih =>
    obtain ⟨rank, u, hu, hl, hr⟩ := ih
    cases hk : u.lookup (i, n) with
    | some r' =>
      refine ⟨rank, u, hu, fun k => ?_, hr⟩
      rw [List.lookup_append, ← hl k]
      by_cases e : k = (i, n)
      · subst e; rw [hk]; rfl
      · have : List.lookup k [((i, n), r)] = none := by
          rw [List.lookup_cons, beq_eq_false_iff_ne.mpr e]; rfl
        rw [this]
        cases u.lookup k <;> rfl
    | none =>
      have hne : ∀ e ∈ u, declares w e.1.1 e.1.2 ≠ (i, n) := by
        intro e hm h
        rw [declares_own ho] at h
        obtain ⟨v', hv'⟩ := lookup_of_mem (l := u) (k := e.1) (v := e.2) hm
        have : e.1 = (i, n) := h
        rw [this, hk] at hv'
        simp at hv'
      refine ⟨fun k => if k = (i, n) then u.length else rank k, u ++ [((i, n), r)], .snoc (hu.congr ?_) ?_, fun k => ?_, ?_⟩
      · intro e hm
        rw [if_neg (hne e hm)]
      · have : u.filter (fun e => decide ((if declares w e.1.1 e.1.2 = (i, n) then u.length else rank (declares w e.1.1 e.1.2)) <
            (if declares w i n = (i, n) then u.length else rank (declares w i n)))) = u := by
          apply List.filter_eq_self.mpr
          intro e hm
          rw [if_neg (hne e hm), if_pos (declares_own ho i n)]
          exact decide_eq_true (hr e hm)
        rw [this]
        exact hf.mono hw (fun k r h => by rw [hl]; exact h)
      · rw [List.lookup_append, List.lookup_append, hl]
      · intro e hm
        simp only [List.length_append, List.length_cons, List.length_nil]
        rcases List.mem_append.mp hm with hm | hm
        · rw [if_neg (hne e hm)]
          have := hr e hm
          omega
        · simp only [List.mem_singleton] at hm
          subst hm
          rw [if_pos (declares_own ho i n)]
          omega

theorem hasLayeredValue_of_own {w : World} (hw : w.Plain) (ho : Own w) {i : Item} {n : Name} {r : Res}
    (h : HasValue w i n r) : HasLayeredValue w i n r := by
  obtain ⟨t, ht, hk⟩ := h
  obtain ⟨rank, u, hu, hl, -⟩ := layered_of_own hw ho ht
  refine ⟨rank, u, hu, ?_⟩
  have : known w u i n = known w t i n := by unfold known; rw [hl]
  unfold Knows at hk ⊢
  rw [this]
  exact hk

/-- The evaluation of a property comes to an end: how deeply evaluations are nested is bounded by the number of declarations
    in the project, and nothing depends on what would happen if they were nested more deeply. -/
theorem C61_terminates {w : World} {keys : List (Item × Name)} (hk : Declarations w keys) (bot bot' : Reader Cache) (k k' : Nat)
    (hd : keys.length + 1 ≤ k) (hd' : keys.length + 1 ≤ k') (i : Item) (n : Name) (x : List Nat) (c : Cache) :
    evaluate w on bot k i n x c = evaluate w on bot' k' i n x c := by
  unfold evaluate
  rw [getProperty_depth hk bot bot' k k' [] List.nodup_nil (by simp) (by simpa using hd) (by simpa using hd')]

/-- A property has at most one value. -/
theorem C61_unique {w : World} (hw : w.Plain) {i : Item} {n : Name} {r r' : Res} (h : HasValue w i n r)
    (h' : HasValue w i n r') : r = r' :=
  hasValue_unique hw h h'

/-- Whatever has been evaluated before without errors: if a value is found, it is the one that the property has. -/
theorem C61_right_partial {w : World} (hw : w.Plain) {keys : List (Item × Name)} (hk : Declarations w keys)
    (bot : Reader Cache) {k : Nat} (hd : keys.length + 1 ≤ k) (before : List (Item × Name))
    (hb : ∀ r ∈ (evaluateAll w on bot k before [] []).1, r ≠ none) (i : Item) (n : Name) {r : Res}
    (h : (evaluate w on bot k i n (evaluateAll w on bot k before [] []).2.1 (evaluateAll w on bot k before [] []).2.2).1 = some r) :
    HasValue w i n r :=
  (evaluate_sound hw hk bot hd i n (evaluateAll_sound hw hk bot hd before (clean_nil w) hb) h).2

/-- A property that has no value, because it would be needed to work it out: there is an error. -/
theorem C61_cycle_partial {w : World} (hw : w.Plain) {keys : List (Item × Name)} (hk : Declarations w keys)
    (bot : Reader Cache) {k : Nat} (hd : keys.length + 1 ≤ k) (before : List (Item × Name))
    (hb : ∀ r ∈ (evaluateAll w on bot k before [] []).1, r ≠ none) (i : Item) (n : Name) (hno : ∀ r, ¬ HasValue w i n r) :
    (evaluate w on bot k i n (evaluateAll w on bot k before [] []).2.1 (evaluateAll w on bot k before [] []).2.2).1 = none := by
  cases h : (evaluate w on bot k i n (evaluateAll w on bot k before [] []).2.1 (evaluateAll w on bot k before [] []).2.2).1 with
  | none => rfl
  | some r => exact absurd (C61_right_partial hw hk bot hd before hb i n h) (hno r)

/-- If it can be worked out such that no declaration is needed in working out itself, the value is found, whatever has been
    evaluated before without errors. -/
theorem C61_found_partial {w : World} (hw : w.Plain) {keys : List (Item × Name)} (hk : Declarations w keys)
    (bot : Reader Cache) {k : Nat} (hd : keys.length + 1 ≤ k) (before : List (Item × Name))
    (hb : ∀ r ∈ (evaluateAll w on bot k before [] []).1, r ≠ none) (i : Item) (n : Name) {r : Res}
    (h : HasLayeredValue w i n r) :
    (evaluate w on bot k i n (evaluateAll w on bot k before [] []).2.1 (evaluateAll w on bot k before [] []).2.2).1 = some r :=
  evaluate_complete hw hk bot hd i n (evaluateAll_sound hw hk bot hd before (clean_nil w) hb) h

theorem evaluateAll_found {w : World} (hw : w.Plain) {keys : List (Item × Name)} (hk : Declarations w keys)
    (bot : Reader Cache) {k : Nat} (hd : keys.length + 1 ≤ k) (f : Item × Name → Res) (l : List (Item × Name)) :
    ∀ {x : List Nat} {c : Cache}, Clean w x c → (∀ p ∈ l, HasLayeredValue w p.1 p.2 (f p)) →
    (evaluateAll w on bot k l x c).1 = l.map (fun p => some (f p)) := by
  induction l with
  | nil => intros; rfl
  | cons a l ih =>
    intro x c hc h
    obtain ⟨i, n⟩ := a
    have h1 := evaluate_complete (on := on) hw hk bot hd i n hc (h (i, n) (by simp))
    simp only [evaluateAll, List.map_cons]
    rw [h1, ih (evaluate_sound hw hk bot hd i n hc h1).1 (fun p hp => h p (List.mem_cons_of_mem _ hp))]

theorem evaluateAll_values {w : World} (hw : w.Plain) {keys : List (Item × Name)} (hk : Declarations w keys)
    (bot : Reader Cache) {k : Nat} (hd : keys.length + 1 ≤ k) (l : List (Item × Name)) :
    ∀ {x : List Nat} {c : Cache}, Clean w x c → (∀ r ∈ (evaluateAll w on bot k l x c).1, r ≠ none) →
    ∀ p ∈ l, ∃ r, HasValue w p.1 p.2 r := by
  induction l with
  | nil => intro x c _ _ p hp; simp at hp
  | cons a l ih =>
    intro x c hc h p hp
    obtain ⟨i, n⟩ := a
    simp only [evaluateAll] at h
    cases hr : (evaluate w on bot k i n x c).1 with
    | none => exact absurd rfl (h none (by simp [hr]))
    | some r =>
      have hs := evaluate_sound hw hk bot hd i n hc hr
      rcases List.mem_cons.mp hp with rfl | hp
      · exact ⟨r, hs.2⟩
      · exact ih hs.1 (fun y hy => h y (List.mem_cons_of_mem _ hy)) p hp

/-- If nothing is inherited, properties that can be evaluated one after the other can be evaluated in any other order, any
    number of times, and have the same values. -/
theorem C61_any_order_partial {on' : Bool} {w : World} (hw : w.Plain) (ho : Own w) {keys : List (Item × Name)} (hk : Declarations w keys)
    (bot bot' : Reader Cache) {k k' : Nat} (hd : keys.length + 1 ≤ k) (hd' : keys.length + 1 ≤ k')
    (l l' : List (Item × Name)) (hl : ∀ r ∈ (evaluateAll w on bot k l [] []).1, r ≠ none) (hs : ∀ p ∈ l', p ∈ l) :
    ∃ f : Item × Name → Res, (evaluateAll w on bot k l [] []).1 = l.map (fun p => some (f p)) ∧
      (evaluateAll w on' bot' k' l' [] []).1 = l'.map (fun p => some (f p)) := by
  have hv := evaluateAll_values hw hk bot hd l (clean_nil w) hl
  classical
  refine ⟨fun p => if h : ∃ r, HasValue w p.1 p.2 r then h.choose else none, ?_, ?_⟩
  all_goals
    refine evaluateAll_found hw hk _ (by assumption) _ _ (clean_nil w) (fun p hp => hasLayeredValue_of_own hw ho ?_)
    have hex : ∃ r, HasValue w p.1 p.2 r := hv p (by first | exact hp | exact hs p hp)
    rw [dif_pos hex]
    exact hex.choose_spec

/-- However properties have been evaluated before without errors, with or without caching: two evaluations of a property that
    succeed have the same result. -/
theorem C61_same_partial {w : World} (hw : w.Plain) {keys : List (Item × Name)} (hk : Declarations w keys) (on on' : Bool)
    (bot bot' : Reader Cache) {k k' : Nat} (hd : keys.length + 1 ≤ k) (hd' : keys.length + 1 ≤ k')
    (before before' : List (Item × Name)) (hb : ∀ r ∈ (evaluateAll w on bot k before [] []).1, r ≠ none)
    (hb' : ∀ r ∈ (evaluateAll w on' bot' k' before' [] []).1, r ≠ none) (i : Item) (n : Name) {r r' : Res}
    (h : (evaluate w on bot k i n (evaluateAll w on bot k before [] []).2.1
      (evaluateAll w on bot k before [] []).2.2).1 = some r)
    (h' : (evaluate w on' bot' k' i n (evaluateAll w on' bot' k' before' [] []).2.1
      (evaluateAll w on' bot' k' before' [] []).2.2).1 = some r') : r = r' :=
  C61_unique hw (C61_right_partial hw hk bot hd before hb i n h) (C61_right_partial hw hk bot' hd' before' hb' i n h')

end Verif.Eval
