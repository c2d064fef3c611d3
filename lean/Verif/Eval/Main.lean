import Verif.Eval.Lem
/-!
# The evaluator finds the values that properties have
-/
namespace Verif.Eval

variable {on : Bool}

/-! ## Depth -/

theorem nodup_length_le {α : Type} [DecidableEq α] : ∀ (l m : List α), l.Nodup → (∀ x ∈ l, x ∈ m) → l.length ≤ m.length := by
  intro l
  induction l with
  | nil => intro m _ _; simp
  | cons a l ih =>
    intro m hn hs
    rw [List.nodup_cons] at hn
    have ha : a ∈ m := hs a (by simp)
    have h1 := ih (m.erase a) hn.2 (fun x hx => by
      refine (List.mem_erase_of_ne ?_).mpr (hs x (by simp [hx]))
      intro e
      subst e
      exact hn.1 hx)
    have h2 := List.length_erase_of_mem ha
    have h3 : 0 < m.length := List.length_pos_of_mem ha
    simp only [List.length_cons]
    omega

theorem getProperty_depth {w : World} {keys : List (Item × Name)} (hk : Declarations w keys) (bot bot' : Reader Cache) :
    ∀ k k' stack, stack.Nodup → (∀ x ∈ stack, x ∈ keys) → keys.length + 1 ≤ stack.length + k →
    keys.length + 1 ≤ stack.length + k' → getProperty w on bot k stack = getProperty w on bot' k' stack := by
  intro k
  induction k with
  | zero =>
    intro k' stack hn hs h _
    have := nodup_length_le stack keys hn hs
    omega
  | succ k ih =>
    intro k' stack hn hs h h'
    cases k' with
    | zero =>
      have := nodup_length_le stack keys hn hs
      omega
    | succ k' =>
      funext i n s
      by_cases hp : n = "parent"
      · rw [getProperty_parent _ _ _ _ _ _ hp, getProperty_parent _ _ _ _ _ _ hp]
      · cases hf : w.find i n with
        | none => rw [getProperty_missing _ _ _ _ _ _ hp hf, getProperty_missing _ _ _ _ _ _ hp hf]
        | some x =>
          obtain ⟨obj, owner, v⟩ := x
          cases hc : stack.contains (owner, n) with
          | true => rw [getProperty_cycle _ _ _ _ _ _ hp hf hc, getProperty_cycle _ _ _ _ _ _ hp hf hc]
          | false =>
            have hnew : (owner, n) ∉ stack := by
              intro hm
              rw [List.contains_iff_mem.mpr hm] at hc
              simp at hc
            have e := ih k' ((owner, n) :: stack) (List.nodup_cons.mpr ⟨hnew, hn⟩)
              (fun x hx => by
                rcases List.mem_cons.mp hx with rfl | hx
                · exact hk _ _ _ _ _ hf
                · exact hs x hx) (by simp only [List.length_cons]; omega) (by simp only [List.length_cons]; omega)
            cases hca : (if on then s.more.lookup (i, n) else none) with
            | some r => rw [getProperty_hit _ _ _ _ _ _ hp hf hc _ hca, getProperty_hit _ _ _ _ _ _ hp hf hc _ hca]
            | none => rw [getProperty_miss _ _ _ _ _ _ hp hf hc _ hca, getProperty_miss _ _ _ _ _ _ hp hf hc _ hca, e]

/-! ## What is found is right -/

/-- Nothing but established values so far -/
def Clean (w : World) (x : List Nat) (c : Cache) : Prop := x = [] ∧ Established w c.reverse

theorem getProperty_sound {w : World} (hw : w.Plain) (k : Nat) (stack : List (Item × Name)) (i : Item) (n : Name)
    (s : St Cache) (h0 : s.err = false) (hc : Clean w s.excl s.more)
    (h : (getProperty w on failing k stack i n s).2.err = false) :
    Clean w (getProperty w on failing k stack i n s).2.excl (getProperty w on failing k stack i n s).2.more ∧
    (known w (getProperty w on failing k stack i n s).2.more.reverse i n (fresh ())).1 =
      (getProperty w on failing k stack i n s).1 := by
  have := (sim_getProperty hw k stack (getProperty w on failing k stack i n s).2.more.reverse i n).2 s (fresh ())
    ⟨h0, hc.1, rfl, hc.2⟩ ⟨h, List.prefix_rfl⟩
  exact ⟨⟨this.2.2.1, this.2.2.2.2⟩, this.1⟩

theorem evaluate_sound {w : World} (hw : w.Plain) {keys : List (Item × Name)} (hk : Declarations w keys) (bot : Reader Cache)
    {k : Nat} (hd : keys.length + 1 ≤ k) (i : Item) (n : Name) {x : List Nat} {c : Cache} (hc : Clean w x c) {r : Res}
    (h : (evaluate w on bot k i n x c).1 = some r) :
    Clean w (evaluate w on bot k i n x c).2.1 (evaluate w on bot k i n x c).2.2 ∧ HasValue w i n r := by
  unfold evaluate at h ⊢
  rw [getProperty_depth hk bot failing k k [] List.nodup_nil (by simp) (by simpa using hd) (by simpa using hd)] at h ⊢
  dsimp only at h ⊢
  split at h
  · simp at h
  · rename_i he
    have he' := eq_false_of_ne_true he
    have hs := getProperty_sound hw k [] i n ⟨false, x, c⟩ rfl hc he'
    refine ⟨hs.1, _, hs.1.2, ?_⟩
    unfold Knows
    rw [hs.2]
    split at h
    · rename_i v hv
      rw [hv]
      injection h with h
      rw [h]
      exact .inl rfl
    · rename_i hv
      rw [hv]
      injection h with h
      exact .inr ⟨rfl, h.symm⟩
    · simp at h

theorem evaluateAll_sound {w : World} (hw : w.Plain) {keys : List (Item × Name)} (hk : Declarations w keys) (bot : Reader Cache)
    {k : Nat} (hd : keys.length + 1 ≤ k) (l : List (Item × Name)) : ∀ {x : List Nat} {c : Cache}, Clean w x c →
    (∀ r ∈ (evaluateAll w on bot k l x c).1, r ≠ none) →
    Clean w (evaluateAll w on bot k l x c).2.1 (evaluateAll w on bot k l x c).2.2 := by
  induction l with
  | nil => intro x c h _; exact h
  | cons a l ih =>
    intro x c hc h
    obtain ⟨i, n⟩ := a
    simp only [evaluateAll] at h ⊢
    cases hr : (evaluate w on bot k i n x c).1 with
    | none => exact absurd rfl (h none (by simp [hr]))
    | some r =>
      exact ih (evaluate_sound hw hk bot hd i n hc hr).1 (fun y hy => h y (List.mem_cons_of_mem _ hy))

theorem clean_nil (w : World) : Clean w [] [] := ⟨rfl, .nil⟩

theorem hasValue_unique {w : World} (hw : w.Plain) {i : Item} {n : Name} {r1 r2 : Res} (h1 : HasValue w i n r1)
    (h2 : HasValue w i n r2) : r1 = r2 := by
  obtain ⟨t, ht, h1⟩ := h1
  obtain ⟨u, hu, h2⟩ := h2
  unfold Knows at h1 h2
  by_cases hn : n = "parent"
  · rw [known_parent _ _ _ hn] at h1 h2
    rcases h1 with h1 | ⟨h1, _⟩ <;> rcases h2 with h2 | ⟨h2, _⟩ <;> simp at h1 h2
    rw [← h1, ← h2]
  · cases hf : w.find i n with
    | none =>
      rw [known_missing _ _ _ hn hf] at h1 h2
      rcases h1 with h1 | ⟨_, h1⟩ <;> rcases h2 with h2 | ⟨_, h2⟩ <;> simp_all
    | some x =>
      cases hlt : t.lookup (i, n) with
      | none => rw [known_none _ _ _ hn hf hlt] at h1; simp at h1
      | some a =>
        cases hlu : u.lookup (i, n) with
        | none => rw [known_none _ _ _ hn hf hlu] at h2; simp at h2
        | some b =>
          rw [known_find _ _ _ hn hf hlt] at h1
          rw [known_find _ _ _ hn hf hlu] at h2
          simp only [Found.val.injEq, reduceCtorEq, false_and, or_false] at h1 h2
          rw [← h1, ← h2]
          exact established_agree hw ht hu _ _ _ (mem_of_lookup hlt) (mem_of_lookup hlu)

/-! ## Layers -/

theorem sub_filter {w : World} (hw : w.Plain) {t : Table} (ht : Established w t) (p : (Item × Name) × Res → Bool) :
    Sub (t.filter p) t := by
  intro k r h
  exact ht.lookup hw (List.mem_filter.mp (mem_of_lookup h)).1

theorem Layered.established {w : World} (hw : w.Plain) {rank : Item × Name → Nat} {t : Table} (h : Layered w rank t) :
    Established w t := by
  induction h with
  | nil => exact .nil
  | snoc _ hf ih => exact .snoc ih (hf.mono hw (sub_filter hw ih _))

theorem Layered.follows {w : World} (hw : w.Plain) {rank : Item × Name → Nat} {t : Table} (h : Layered w rank t) {i : Item}
    {n : Name} {r : Res} (hm : ((i, n), r) ∈ t) :
    Follows w (t.filter (fun e => decide (rank (declares w e.1.1 e.1.2) < rank (declares w i n)))) i n r := by
  induction h with
  | nil => simp at hm
  | @snoc t i' n' r' _ hf ih =>
    rw [List.filter_append]
    rcases List.mem_append.mp hm with hm | hm
    · exact (ih hm).mono hw (sub_append_left _ _)
    · simp only [List.mem_singleton, Prod.mk.injEq] at hm
      obtain ⟨⟨rfl, rfl⟩, rfl⟩ := hm
      exact hf.mono hw (sub_append_left _ _)

/-- The table is right and the evaluator has nothing but established values. -/
def tableRel (w : World) : Rel Unit Cache where
  R t s := t.err = s.err ∧ t.excl = [] ∧ Clean w s.excl s.more
  Fin t := t.err = false
  fin_err _ h := h
  r_err _ _ h := h.1
  r_excl _ _ h := by rw [h.2.1, h.2.2.1]

theorem declares_eq {w : World} {i : Item} {n : Name} {obj owner : Item} {v : Value}
    (hf : w.find i n = some (obj, owner, v)) : declares w i n = (owner, n) := by
  unfold declares
  rw [hf]

theorem getProperty_complete {w : World} (hw : w.Plain) {rank : Item × Name → Nat} {t : Table} (ht : Layered w rank t) :
    ∀ k stack i n r (s : St Cache), ((i, n), r) ∈ t → rank (declares w i n) + 2 ≤ k →
    (∀ x ∈ stack, rank (declares w i n) < rank x) → s.err = false → Clean w s.excl s.more →
    (getProperty w on failing k stack i n s).1 = .val r ∧ (getProperty w on failing k stack i n s).2.err = false := by
  intro k
  induction k with
  | zero => intro stack i n r s _ h; omega
  | succ k ih =>
    intro stack i n r s hm hk hst h0 hc
    obtain ⟨hn, obj, owner, v, hf, h1, h2⟩ := ht.follows hw hm
    have hd := declares_eq hf
    rw [hd] at hk hst h1 h2
    have hcon : stack.contains (owner, n) = false := by
      cases hcn : stack.contains (owner, n) with
      | false => rfl
      | true => exact absurd (hst _ (List.contains_iff_mem.mp hcn)) (Nat.lt_irrefl _)
    cases hca : (if on then s.more.lookup (i, n) else none) with
    | some r' =>
      rw [getProperty_hit _ _ _ _ _ _ hn hf hcon _ hca]
      refine ⟨?_, h0⟩
      have hl : s.more.lookup (i, n) = some r' := by
        cases hcc : on with
        | true => rw [hcc] at hca; simpa using hca
        | false => rw [hcc] at hca; simp at hca
      rw [established_agree hw hc.2 (ht.established hw) _ _ _ (List.mem_reverse.mpr (mem_of_lookup hl)) hm]
    | none =>
      rw [getProperty_miss _ _ _ _ _ _ hn hf hcon _ hca]
      have hrd : SimReader (tableRel w)
          (known w (t.filter (fun e => decide (rank (declares w e.1.1 e.1.2) < rank (owner, n)))))
          (getProperty w on failing k ((owner, n) :: stack)) := by
        intro i' n'
        obtain ⟨k', rfl⟩ : ∃ k', k = k' + 1 := ⟨k - 1, by omega⟩
        by_cases hn' : n' = "parent"
        · constructor
          · intro t' h; rwa [known_parent _ _ _ hn'] at h
          · intro t' s' hR _
            rw [known_parent _ _ _ hn', getProperty_parent _ _ _ _ _ _ hn']
            exact ⟨rfl, hR⟩
        · cases hf' : w.find i' n' with
          | none =>
            constructor
            · intro t' h; rwa [known_missing _ _ _ hn' hf'] at h
            · intro t' s' hR _
              rw [known_missing _ _ _ hn' hf', getProperty_missing _ _ _ _ _ _ hn' hf']
              exact ⟨rfl, hR⟩
          | some x =>
            cases hl : (t.filter (fun e => decide (rank (declares w e.1.1 e.1.2) < rank (owner, n)))).lookup (i', n') with
            | none =>
              constructor
              · intro t' h
                rw [known_none _ _ _ hn' hf' hl] at h
                exact absurd h (by simp [tableRel])
              · intro t' s' _ h
                rw [known_none _ _ _ hn' hf' hl] at h
                exact absurd h (by simp [tableRel])
            | some r' =>
              constructor
              · intro t' h; rwa [known_find _ _ _ hn' hf' hl] at h
              · intro t' s' hR h
                rw [known_find _ _ _ hn' hf' hl] at h ⊢
                have hmem := List.mem_filter.mp (mem_of_lookup hl)
                have hlt : rank (declares w i' n') < rank (owner, n) := by simpa using hmem.2
                have h0' : s'.err = false := by rw [← hR.1]; exact h
                have hg := ih ((owner, n) :: stack) i' n' r' s' hmem.1 (by omega)
                  (fun x hx => by
                    rcases List.mem_cons.mp hx with rfl | hx
                    · exact hlt
                    · exact Nat.lt_trans hlt (hst x hx)) h0' hR.2.2
                have hs := getProperty_sound hw _ _ i' n' s' h0' hR.2.2 hg.2
                refine ⟨hg.1, ?_, hR.2.1, hs.1⟩
                rw [hg.2]
                exact h
      have hE := (sim_evalTop hrd w (env w i n obj owner) v (find_plain hw hf)).2 (fresh ()) s
        ⟨by rw [h0]; rfl, rfl, hc⟩ h2
      refine ⟨by rw [hE.1, h1], ?_⟩
      show (evalTop w _ _ v s).2.err = false
      rw [← hE.2.1]
      exact h2

theorem evaluate_complete {w : World} (hw : w.Plain) {keys : List (Item × Name)} (hk : Declarations w keys) (bot : Reader Cache)
    {k : Nat} (hd : keys.length + 1 ≤ k) (i : Item) (n : Name) {x : List Nat} {c : Cache} (hc : Clean w x c) {r : Res}
    (h : HasLayeredValue w i n r) : (evaluate w on bot k i n x c).1 = some r := by
  obtain ⟨rank, t, ht, h⟩ := h
  unfold evaluate
  have e := getProperty_depth (on := on) hk bot failing k (k + rank (declares w i n) + 2) [] List.nodup_nil (by simp)
    (by simpa using hd) (by simp; omega)
  rw [e]
  dsimp only
  unfold Knows at h
  by_cases hn : n = "parent"
  · rw [known_parent _ _ _ hn] at h
    rw [getProperty_parent _ _ _ _ _ _ hn]
    rcases h with h | ⟨h, _⟩
    · simp only [Found.val.injEq] at h
      simp [h]
    · simp at h
  · cases hf : w.find i n with
    | none =>
      rw [known_missing _ _ _ hn hf] at h
      rw [getProperty_missing _ _ _ _ _ _ hn hf]
      rcases h with h | ⟨_, h⟩
      · simp at h
      · simp [h]
    | some y =>
      cases hl : t.lookup (i, n) with
      | none => rw [known_none _ _ _ hn hf hl] at h; simp at h
      | some a =>
        rw [known_find _ _ _ hn hf hl] at h
        simp only [Found.val.injEq, reduceCtorEq, false_and, or_false] at h
        subst h
        have hg := getProperty_complete (on := on) hw ht (k + rank (declares w i n) + 2) [] i n a ⟨false, x, c⟩ (mem_of_lookup hl)
          (by omega) (by simp) rfl hc
        rw [hg.1, hg.2]
        rfl

end Verif.Eval
