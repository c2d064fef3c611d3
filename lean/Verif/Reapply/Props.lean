import Verif.Reapply.Single
/-!
# C28: when a rule is applied again
-/
namespace Verif.Reapply

variable {Env : Type}

/-- The only rules that are not multiplex rules and that the loader accepts. -/
def single : Rule := ⟨false, true, true⟩

theorem single_valid (r : Rule) (h : r.valid = true) (hm : r.multiplex = false) : r = single := by
  obtain ⟨m, d, q⟩ := r
  simp only at hm
  subst hm
  cases d <;> cases q <;> simp_all [Rule.valid, single]

theorem applyAll_spec (w : World Env) : ∀ (l : List Art) {os os' : List (Output Env)} {next next' : Nat}, l.Nodup →
    Good os next → applyAll single w (l.map (fun a => [a])) os next = (os', next', true) →
    Good os' next' ∧
    (∀ o ∈ os', ∀ a ∈ l, a ∈ o.trafo.inputs → ∃ outs cmds, w.script [a] = .gives outs cmds ∧ o.path ∈ outs ∧
      o.trafo.commands = cmds ∧ o.trafo.basis = some w.env) ∧
    (∀ a ∈ l, ∀ outs cmds, w.script [a] = .gives outs cmds → ∀ p ∈ outs, ∃ o ∈ os', o.path = p ∧
      o.trafo.inputs = [a] ∧ o.trafo.commands = cmds) ∧
    (∀ o, (∀ a ∈ l, a ∉ o.trafo.inputs) → (o ∈ os' ↔ o ∈ os))
  | [], os, os', next, next', _, hg, h => by
    simp only [List.map_nil, applyAll, Prod.mk.injEq] at h
    obtain ⟨rfl, rfl, _⟩ := h
    exact ⟨hg, (fun o _ a ha => by cases ha), (fun a ha => by cases ha), fun o _ => Iff.rfl⟩
  | a :: l, os, os', next, next', hn, hg, h => by
    rw [List.nodup_cons] at hn
    simp only [List.map_cons, applyAll] at h
    by_cases hd : (doApply single w [a] os next).2 = true
    · rw [if_pos hd] at h
      have hgives : ∃ outs cmds, w.script [a] = .gives outs cmds ∧ conflict single [a] os outs = false ∧
          (doApply single w [a] os next).1 = replaceOutputs w [a]
            { unfinished next [a] (rescued os outs) with basis := some w.env, commands := cmds } outs os := by
        unfold doApply at hd ⊢
        cases hs : w.script [a] with
        | refuses => rw [hs] at hd; cases hd
        | fails outs => rw [hs] at hd; simp only at hd; split at hd <;> cases hd
        | gives outs cmds =>
          rw [hs] at hd
          simp only at hd ⊢
          by_cases hc : conflict single [a] os outs = true
          · rw [if_pos hc] at hd; cases hd
          · exact ⟨outs, cmds, rfl, by simpa using hc, by rw [if_neg hc]⟩
      obtain ⟨outs, cmds, hs, hc, he⟩ := hgives
      rw [he] at h
      obtain ⟨r1, r2, r3, r4⟩ := replaceOutputs_spec w a
        { unfinished next [a] (rescued os outs) with basis := some w.env, commands := cmds } outs hg rfl rfl hc
      obtain ⟨i1, i2, i3, i4⟩ := applyAll_spec w l hn.2 r1 h
      have notin : ∀ o ∈ os', a ∈ o.trafo.inputs → ∀ b ∈ l, b ∉ o.trafo.inputs := by
        intro o ho ha b hb hm
        obtain ⟨c, hc, _⟩ := i1.single o ho
        rw [hc] at ha hm
        simp at ha hm
        exact hn.1 (by rw [ha, ← hm]; exact hb)
      refine ⟨i1, ?_, ?_, ?_⟩
      · intro o ho b hb hm
        rcases List.mem_cons.mp hb with rfl | hb
        · have h1 := (i4 o (notin o ho hm)).mp ho
          obtain ⟨h2, h3⟩ := r2 o h1 hm
          exact ⟨outs, cmds, hs, h3, by rw [h2], by rw [h2]⟩
        · exact i2 o ho b hb hm
      · intro b hb outs' cmds' hs' p hp
        rcases List.mem_cons.mp hb with rfl | hb
        · rw [hs] at hs'
          injection hs' with e1 e2
          subst e1 e2
          obtain ⟨o, h1, h2, h3⟩ := r3 p hp
          refine ⟨o, (i4 o ?_).mpr h1, h2, by rw [h3]; rfl, by rw [h3]⟩
          intro c hc hm
          rw [h3] at hm
          have hm : c ∈ [b] := hm
          simp at hm
          exact hn.1 (hm ▸ hc)
        · exact i3 b hb outs' cmds' hs' p hp
      · intro o ho
        rw [i4 o (fun b hb => ho b (by simp [hb])), r4 o (ho a (by simp))]
    · rw [if_neg hd] at h
      simp at h

/-! ## The decision -/

/-- `Pending` as a test. -/
def pend (w : World Env) (n : Node Env) (a : Art) : Bool :=
  (changedInputs w n).contains a || (added w n).contains a || differsFor w n.outputs a

theorem sameSet_iff (a b : List Art) : sameSet a b = true ↔ ∀ x, x ∈ a ↔ x ∈ b := by
  unfold sameSet
  rw [Bool.and_eq_true, List.all_eq_true, List.all_eq_true]
  simp only [List.contains_iff_mem]
  constructor
  · exact fun h x => ⟨h.1 x, h.2 x⟩
  · exact fun h => ⟨fun x => (h x).mp, fun x => (h x).mpr⟩

theorem mem_changedInputs (w : World Env) (n : Node Env) (a : Art) :
    a ∈ changedInputs w n ↔ a ∈ w.inputs ∧ (ExplicitChanged w n ∨ Newer w n a) := by
  unfold changedInputs
  by_cases h1 : (!sameSet w.explicit n.oldExplicit || n.explicitLost) = true
  · rw [if_pos h1]
    have : ExplicitChanged w n := by
      rw [Bool.or_eq_true, Bool.not_eq_true', ← Bool.not_eq_true, sameSet_iff, Classical.not_forall] at h1
      rcases h1 with h1 | h1
      · exact Or.inl h1
      · exact Or.inr (Or.inl h1)
    simp [this]
  · rw [if_neg h1]
    have hne : ¬ (∃ a, ¬ (a ∈ w.explicit ↔ a ∈ n.oldExplicit)) ∧ ¬ n.explicitLost = true := by
      rw [Bool.or_eq_true, Bool.not_eq_true', ← Bool.not_eq_true, sameSet_iff, Classical.not_forall, not_or] at h1
      exact h1
    by_cases h2 : n.considers = true
    · rw [if_neg (by simp [h2])]
      by_cases h3 : w.explicit.any (fun a => n.lastTime < w.time a) = true
      · rw [if_pos h3]
        obtain ⟨e, he, ht⟩ := List.any_eq_true.mp h3
        have : ExplicitChanged w n := Or.inr (Or.inr ⟨h2, e, he, by simpa using ht⟩)
        simp [this]
      · rw [if_neg h3, List.mem_filter]
        have : ¬ ExplicitChanged w n := by
          rintro (h | h | ⟨_, e, he, ht⟩)
          · exact hne.1 h
          · exact hne.2 h
          · exact h3 (List.any_eq_true.mpr ⟨e, he, by simpa using ht⟩)
        simp [this, Newer, h2]
    · rw [if_pos (by simpa using h2)]
      have : ¬ ExplicitChanged w n := by
        rintro (h | h | ⟨h, _⟩)
        · exact hne.1 h
        · exact hne.2 h
        · exact h2 h
      simp [this, Newer, h2]

theorem mem_added (w : World Env) (n : Node Env) (a : Art) : a ∈ added w n ↔ a ∈ w.inputs ∧ a ∉ n.oldInputs := by
  unfold added
  rw [List.mem_filter]
  simp

theorem mem_removed (w : World Env) (n : Node Env) (a : Art) : a ∈ removed w n ↔ a ∈ n.oldInputs ∧ a ∉ w.inputs := by
  unfold removed
  rw [List.mem_filter]
  simp

theorem differsFor_iff (w : World Env) (n : Node Env) (a : Art) :
    differsFor w n.outputs a = true ↔ ScriptChanged w n a := by
  unfold differsFor ScriptChanged
  rw [List.any_eq_true]
  have hd : ∀ t : Trafo Env, differsNow w t = true ↔ ∃ e, t.basis = some e ∧ w.differs e w.env = true := by
    intro t
    unfold differsNow
    cases t.basis with
    | none => simp
    | some e => simp
  constructor
  · rintro ⟨o, ho, h⟩
    simp only [Bool.and_eq_true, List.contains_iff_mem] at h
    exact ⟨o, ho, h.1.1, h.1.2, (hd _).mp h.2⟩
  · rintro ⟨o, ho, h1, h2, h3⟩
    refine ⟨o, ho, ?_⟩
    simp only [Bool.and_eq_true, List.contains_iff_mem]
    exact ⟨⟨h1, h2⟩, (hd _).mpr h3⟩

theorem pend_iff (w : World Env) (n : Node Env) (a : Art) (ha : a ∈ w.inputs) :
    pend w n a = true ↔ Pending w n a := by
  unfold pend Pending
  rw [Bool.or_eq_true, Bool.or_eq_true, List.contains_iff_mem, List.contains_iff_mem, mem_changedInputs,
    mem_added, differsFor_iff]
  grind

theorem separate_apart {w : World Env} {n : Node Env} (hs : Separate w n) (a : Art)
    (ha : a ∈ w.inputs ∨ a ∈ n.oldInputs) : Apart n.outputs a := by
  intro o ho hp
  refine hs o ho a ha ?_
  unfold isParent at hp
  rw [Bool.or_eq_true] at hp
  simpa using hp

theorem decision_single (w : World Env) (n : Node Env) (hi : Inv n) (hs : Separate w n) (hn : w.inputs.Nodup) :
    (decision single w n).outputs = untrackFor w.inputs n.outputs ∧
    (decision single w n).inputs = w.inputs.filter (pend w n) ∧
    ((decision single w n).upToDate = true ↔ (∀ a ∈ w.inputs, ¬ Pending w n a) ∧ ¬ Gone w n) := by
  have hc := checkInputs_eq w w.inputs hn hi.good (fun a ha => separate_apart hs a (Or.inl ha))
  have he : decision single w n = ⟨untrackFor w.inputs n.outputs,
      unchanged w n (w.inputs.filter (differsFor w n.outputs)),
      toApply single w n (w.inputs.filter (differsFor w n.outputs))⟩ := by
    unfold decision
    rw [show (if single.multiplex = true then w.inputs.take 1 else w.inputs) = w.inputs from rfl, hc]
    simp [single]
  rw [he]
  refine ⟨rfl, ?_, ?_⟩
  · show toApply single w n _ = _
    unfold toApply
    rw [if_neg (by decide)]
    apply List.filter_congr
    intro a ha
    unfold pend
    congr 1
    rw [Bool.eq_iff_iff, List.contains_iff_mem, List.mem_filter]
    simp [ha]
  · show unchanged w n _ = true ↔ _
    unfold unchanged
    simp only [Bool.and_eq_true, List.isEmpty_iff, Bool.not_eq_true']
    constructor
    · rintro ⟨⟨⟨⟨h1, h2⟩, h3⟩, h4⟩, h5⟩
      constructor
      · intro a ha hp
        rw [← pend_iff w n a ha] at hp
        unfold pend at hp
        rw [h1, h2] at hp
        simp at hp
        have : a ∈ w.inputs.filter (differsFor w n.outputs) := List.mem_filter.mpr ⟨ha, hp⟩
        rw [h5] at this
        cases this
      · rintro (h | ⟨a, h, h'⟩)
        · rw [h4] at h; cases h
        · have := (mem_removed w n a).mpr ⟨h, h'⟩
          rw [h3] at this
          cases this
    · rintro ⟨h1, h2⟩
      refine ⟨⟨⟨⟨?_, ?_⟩, ?_⟩, ?_⟩, ?_⟩
      · rw [List.eq_nil_iff_forall_not_mem]
        intro a ha
        obtain ⟨ha, h⟩ := (mem_changedInputs w n a).mp ha
        exact h1 a ha (Or.inr (h.elim Or.inl (fun h => Or.inr (Or.inl h))))
      · rw [List.eq_nil_iff_forall_not_mem]
        intro a ha
        obtain ⟨ha, h⟩ := (mem_added w n a).mp ha
        exact h1 a ha (Or.inl h)
      · rw [List.eq_nil_iff_forall_not_mem]
        intro a ha
        exact h2 (Or.inr ⟨a, (mem_removed w n a).mp ha⟩)
      · cases hl : n.inputLost with
        | false => rfl
        | true => exact absurd (Or.inl hl) h2
      · rw [List.eq_nil_iff_forall_not_mem]
        intro a ha
        obtain ⟨ha, h⟩ := List.mem_filter.mp ha
        exact h1 a ha (Or.inr (Or.inr (Or.inr ((differsFor_iff w n a).mp h))))

/-- The outputs that are left after those of removed inputs are gone. -/
def remaining (w : World Env) (n : Node Env) : List (Output Env) :=
  (untrackFor w.inputs n.outputs).filter
    (fun o => !(removed w n).any (fun a => isParent a o && o.trafo.inputs.contains a))

theorem apply_single (w : World Env) (n : Node Env) (hi : Inv n) (hs : Separate w n) (hn : w.inputs.Nodup) :
    ((∀ a ∈ w.inputs, ¬ Pending w n a) ∧ ¬ Gone w n ∧
      apply single w n = ({ n with outputs := updateScanned w (untrackFor w.inputs n.outputs) }, .skipped)) ∨
    (¬ ((∀ a ∈ w.inputs, ¬ Pending w n a) ∧ ¬ Gone w n) ∧
      apply single w n = finish single w n (w.inputs.filter (pend w n)) (remaining w n)) := by
  obtain ⟨d1, d2, d3⟩ := decision_single w n hi hs hn
  by_cases hu : (decision single w n).upToDate = true
  · obtain ⟨h1, h2⟩ := d3.mp hu
    refine Or.inl ⟨h1, h2, ?_⟩
    unfold apply
    simp only []
    rw [if_pos hu, d1]
  · refine Or.inr ⟨fun h => hu (d3.mpr h), ?_⟩
    unfold apply
    simp only []
    rw [if_neg hu, d1, d2]
    have hdrop : dropRemoved (!single.multiplex || !mustApply single (w.inputs.filter (pend w n))) (removed w n)
        (untrackFor w.inputs n.outputs) = some (remaining w n) := by
      unfold dropRemoved
      rw [if_neg, if_pos (by rfl)]
      · rfl
      · rw [List.any_eq_true]
        rintro ⟨o, ho, h⟩
        obtain ⟨a, ha, h⟩ := List.any_eq_true.mp h
        simp only [Bool.and_eq_true, Bool.not_eq_true', ← Bool.not_eq_true, List.contains_iff_mem] at h
        exact h.1.2 (apart_untrackFor (separate_apart hs a (Or.inr ((mem_removed w n a).mp ha).1)) o ho h.1.1)
    rw [hdrop]

/-- C28: a rule that is applied to each input is skipped exactly if it is pending for no input and no input is gone;
    if it is not and there is no error, the scripts are run exactly for the inputs it is pending for. -/
theorem C28_reapplied (w : World Env) (n : Node Env) (hi : Inv n) (hs : Separate w n) (hn : w.inputs.Nodup) :
    ((apply single w n).2 = .skipped ↔ (∀ a ∈ w.inputs, ¬ Pending w n a) ∧ ¬ Gone w n) ∧
    (apply single w n).2 ≠ .assertion ∧
    (∀ ran, (apply single w n).2 = .done ran →
      ∃ l : List Art, ran = l.map (fun a => [a]) ∧ l.Nodup ∧ ∀ a, a ∈ l ↔ a ∈ w.inputs ∧ Pending w n a) := by
  rcases apply_single w n hi hs hn with ⟨h1, h2, h⟩ | ⟨h1, h⟩
  · rw [h]
    refine ⟨?_, ?_, ?_⟩
    · simp [h2]; exact h1
    · intro h; cases h
    · intro ran h; cases h
  · rw [h]
    have mem : ∀ a, a ∈ w.inputs.filter (pend w n) ↔ a ∈ w.inputs ∧ Pending w n a := by
      intro a
      rw [List.mem_filter]
      constructor
      · exact fun h => ⟨h.1, (pend_iff w n a h.1).mp h.2⟩
      · exact fun h => ⟨h.1, (pend_iff w n a h.1).mpr h.2⟩
    have nodup : (w.inputs.filter (pend w n)).Nodup := List.Nodup.sublist List.filter_sublist hn
    unfold finish
    by_cases hm : mustApply single (w.inputs.filter (pend w n)) = true
    · rw [if_pos hm]
      simp only []
      split
      · refine ⟨⟨(fun h => by cases h), fun h => absurd h h1⟩, fun h => (by cases h), ?_⟩
        intro ran hr
        injection hr with hr
        exact ⟨_, hr.symm, nodup, mem⟩
      · exact ⟨⟨(fun h => by cases h), fun h => absurd h h1⟩, fun h => (by cases h), fun ran h => by cases h⟩
    · rw [if_neg hm]
      refine ⟨⟨(fun h => by cases h), fun h => absurd h h1⟩, fun h => (by cases h), ?_⟩
      intro ran hr
      injection hr with hr
      have hnil : w.inputs.filter (pend w n) = [] := by
        unfold mustApply at hm
        simpa [single] using hm
      refine ⟨[], by simpa using hr.symm, List.nodup_nil, ?_⟩
      intro a
      rw [← mem a, hnil]

/-! ## The outputs -/

theorem has_untrackFor (l : List Art) (os : List (Output Env)) (a : Art) (p : Path) (c : List Nat) :
    (∃ o ∈ untrackFor l os, o.path = p ∧ o.trafo.inputs = [a] ∧ o.trafo.commands = c) ↔
    (∃ o ∈ os, o.path = p ∧ o.trafo.inputs = [a] ∧ o.trafo.commands = c) := by
  constructor
  · rintro ⟨o, ho, h⟩
    obtain ⟨o0, h0, e1, _, _, e4, _, e6, _⟩ := mem_untrackFor ho
    exact ⟨o0, h0, by rw [← e1, ← e4, ← e6]; exact h⟩
  · rintro ⟨o, ho, h⟩
    refine ⟨_, untrackFor_mem (l := l) ho, ?_⟩
    split <;> exact h

theorem mem_updateScanned {w : World Env} {os : List (Output Env)} {o : Output Env} (h : o ∈ updateScanned w os) :
    ∃ o0 ∈ os, o.path = o0.path ∧ o.children = o0.children ∧ o.trafo = o0.trafo := by
  unfold updateScanned at h
  by_cases hw : w.wasScanned = true
  · rw [if_pos hw] at h
    obtain ⟨o0, h0, rfl⟩ := List.mem_map.mp h
    exact ⟨o0, h0, rfl, rfl, rfl⟩
  · rw [if_neg hw] at h
    exact ⟨o, h, rfl, rfl, rfl⟩

theorem updateScanned_mem {w : World Env} {os : List (Output Env)} {o0 : Output Env} (h : o0 ∈ os) :
    ∃ o ∈ updateScanned w os, o.path = o0.path ∧ o.children = o0.children ∧ o.trafo = o0.trafo := by
  unfold updateScanned
  by_cases hw : w.wasScanned = true
  · rw [if_pos hw]
    exact ⟨_, List.mem_map.mpr ⟨o0, h, rfl⟩, rfl, rfl, rfl⟩
  · rw [if_neg hw]
    exact ⟨o0, h, rfl, rfl, rfl⟩

theorem good_updateScanned {w : World Env} {os : List (Output Env)} {next : Nat} (h : Good os next) :
    Good (updateScanned w os) next := by
  refine ⟨?_, ?_, ?_, ?_, ?_⟩
  · intro o ho
    obtain ⟨o0, h0, _, e2, e3⟩ := mem_updateScanned ho
    rw [e2, e3]
    exact h.single o0 h0
  · intro o ho o' ho' hi
    obtain ⟨o0, h0, _, _, e3⟩ := mem_updateScanned ho
    obtain ⟨o1, h1, _, _, f3⟩ := mem_updateScanned ho'
    rw [e3, f3] at hi ⊢
    exact h.same o0 h0 o1 h1 hi
  · intro o ho o' ho' hi
    obtain ⟨o0, h0, _, _, e3⟩ := mem_updateScanned ho
    obtain ⟨o1, h1, _, _, f3⟩ := mem_updateScanned ho'
    rw [e3, f3] at hi ⊢
    exact h.ids o0 h0 o1 h1 hi
  · intro o ho
    obtain ⟨o0, h0, _, _, e3⟩ := mem_updateScanned ho
    rw [e3]
    exact h.bound o0 h0
  · unfold updateScanned
    by_cases hw : w.wasScanned = true
    · rw [if_pos hw, List.map_map]
      exact h.paths
    · rw [if_neg hw]
      exact h.paths

theorem has_updateScanned (w : World Env) (os : List (Output Env)) (a : Art) (p : Path) (c : List Nat) :
    (∃ o ∈ updateScanned w os, o.path = p ∧ o.trafo.inputs = [a] ∧ o.trafo.commands = c) ↔
    (∃ o ∈ os, o.path = p ∧ o.trafo.inputs = [a] ∧ o.trafo.commands = c) := by
  constructor
  · rintro ⟨o, ho, h⟩
    obtain ⟨o0, h0, e1, _, e3⟩ := mem_updateScanned ho
    exact ⟨o0, h0, by rw [← e1, ← e3]; exact h⟩
  · rintro ⟨o0, ho, h⟩
    obtain ⟨o, h0, e1, _, e3⟩ := updateScanned_mem (w := w) ho
    exact ⟨o, h0, by rw [e1, e3]; exact h⟩

theorem mem_remaining (w : World Env) (n : Node Env) (hi : Inv n) (o : Output Env) :
    o ∈ remaining w n ↔ o ∈ untrackFor w.inputs n.outputs ∧ ∀ a ∈ o.trafo.inputs, a ∈ w.inputs := by
  unfold remaining
  rw [List.mem_filter]
  constructor
  · rintro ⟨h1, h2⟩
    refine ⟨h1, ?_⟩
    intro a ha
    apply Classical.byContradiction
    intro hno
    rw [Bool.not_eq_true', ← Bool.not_eq_true, List.any_eq_true] at h2
    apply h2
    obtain ⟨o0, h0, _, e2, _, e4, _⟩ := mem_untrackFor h1
    refine ⟨a, (mem_removed w n a).mpr ⟨hi.known o0 h0 a (e4 ▸ ha), hno⟩, ?_⟩
    obtain ⟨b, hb, hbc⟩ := (good_untrackFor hi.good).single o h1
    rw [hb] at ha
    simp at ha
    subst ha
    unfold isParent
    simp [hb, hbc]
  · rintro ⟨h1, h2⟩
    refine ⟨h1, ?_⟩
    rw [Bool.not_eq_true', ← Bool.not_eq_true, List.any_eq_true]
    rintro ⟨a, ha, hp⟩
    rw [Bool.and_eq_true, List.contains_iff_mem] at hp
    exact ((mem_removed w n a).mp ha).2 (h2 a hp.2)

theorem good_remaining (w : World Env) (n : Node Env) (hi : Inv n) : Good (remaining w n) n.next := by
  have hg := good_untrackFor (l := w.inputs) hi.good
  have sub : ∀ o ∈ remaining w n, o ∈ untrackFor w.inputs n.outputs := fun o ho => (List.mem_filter.mp ho).1
  refine ⟨fun o ho => hg.single o (sub o ho), fun o ho o' ho' => hg.same o (sub o ho) o' (sub o' ho'),
    fun o ho o' ho' => hg.ids o (sub o ho) o' (sub o' ho'), fun o ho => hg.bound o (sub o ho), ?_⟩
  exact List.Nodup.sublist (List.Sublist.map _ List.filter_sublist) hg.paths

/-- The node after an application without error. -/
theorem after_single (w : World Env) (n : Node Env) (hi : Inv n) (hs : Separate w n) (hn : w.inputs.Nodup)
    (hok : (apply single w n).2 ≠ .failed) :
    Inv (apply single w n).1 ∧
    (∀ a, a ∈ (apply single w n).1.oldInputs ↔ a ∈ w.inputs) ∧
    (∀ a p c, Has (apply single w n).1 a p c ↔ a ∈ w.inputs ∧
      ((Pending w n a ∧ ∃ outs, w.script [a] = .gives outs c ∧ p ∈ outs) ∨ (¬ Pending w n a ∧ Has n a p c))) ∧
    (∀ o ∈ (apply single w n).1.outputs, o.trafo.tracked = false ∨ o.trafo.basis = some w.env) ∧
    (apply single w n).1.inputLost = false := by
  have known : ∀ a p c, Has n a p c → a ∈ n.oldInputs := by
    rintro a p c ⟨o, ho, _, h, _⟩
    exact hi.known o ho a (by rw [h]; simp)
  rcases apply_single w n hi hs hn with ⟨h1, h2, h⟩ | ⟨h1, h⟩
  · have hin : ∀ a, a ∈ n.oldInputs ↔ a ∈ w.inputs := by
      intro a
      constructor
      · intro ha
        apply Classical.byContradiction
        exact fun hno => h2 (Or.inr ⟨a, ha, hno⟩)
      · intro ha
        apply Classical.byContradiction
        exact fun hno => h1 a ha (Or.inl hno)
    rw [h]
    refine ⟨⟨good_updateScanned (good_untrackFor hi.good), ?_⟩, hin, ?_, ?_, ?_⟩
    · intro o ho a ha
      obtain ⟨o0, h0, _, _, e3⟩ := mem_updateScanned ho
      obtain ⟨o1, h1, _, _, _, e4, _⟩ := mem_untrackFor h0
      exact hi.known o1 h1 a (by rw [← e4, ← e3]; exact ha)
    · intro a p c
      unfold Has
      rw [has_updateScanned, has_untrackFor]
      constructor
      · intro hh
        have ha := (hin a).mp (known a p c hh)
        exact ⟨ha, Or.inr ⟨h1 a ha, hh⟩⟩
      · rintro ⟨ha, ⟨hp, _⟩ | ⟨_, hh⟩⟩
        · exact absurd hp (h1 a ha)
        · exact hh
    · intro o ho
      obtain ⟨o0, h0, _, _, e3⟩ := mem_updateScanned ho
      obtain ⟨o1, h1', _, _, _, e4, _, _, e⟩ := mem_untrackFor h0
      left
      rw [e3, e, if_pos]
      · rfl
      · obtain ⟨a, ha, _⟩ := hi.good.single o1 h1'
        rw [ha]
        simp [(hin a).mp (hi.known o1 h1' a (by rw [ha]; simp))]
    · cases hl : n.inputLost with
      | false => rfl
      | true => exact absurd (Or.inl hl) h2
  · have mem : ∀ a, a ∈ w.inputs.filter (pend w n) ↔ a ∈ w.inputs ∧ Pending w n a := by
      intro a
      rw [List.mem_filter]
      constructor
      · exact fun h => ⟨h.1, (pend_iff w n a h.1).mp h.2⟩
      · exact fun h => ⟨h.1, (pend_iff w n a h.1).mpr h.2⟩
    have nodup : (w.inputs.filter (pend w n)).Nodup := List.Nodup.sublist List.filter_sublist hn
    have hgr := good_remaining w n hi
    have tracked : ∀ o ∈ remaining w n, o.trafo.tracked = false := by
      intro o ho
      obtain ⟨ho, ha⟩ := (mem_remaining w n hi o).mp ho
      obtain ⟨o0, h0, _, _, _, e4, _, _, e⟩ := mem_untrackFor ho
      rw [e, if_pos]
      · rfl
      · obtain ⟨b, hb, _⟩ := hi.good.single o0 h0
        rw [hb]
        have := ha b (by rw [e4, hb]; simp)
        simp [this]
    have hasRem : ∀ a p c, (∃ o ∈ remaining w n, o.path = p ∧ o.trafo.inputs = [a] ∧ o.trafo.commands = c) ↔
        a ∈ w.inputs ∧ Has n a p c := by
      intro a p c
      constructor
      · rintro ⟨o, ho, hh⟩
        obtain ⟨ho, ha⟩ := (mem_remaining w n hi o).mp ho
        exact ⟨ha a (by rw [hh.2.1]; simp), (has_untrackFor w.inputs n.outputs a p c).mp ⟨o, ho, hh⟩⟩
      · rintro ⟨ha, hh⟩
        obtain ⟨o, ho, hh⟩ := (has_untrackFor w.inputs n.outputs a p c).mpr hh
        refine ⟨o, (mem_remaining w n hi o).mpr ⟨ho, ?_⟩, hh⟩
        intro b hb
        rw [hh.2.1] at hb
        simp at hb
        exact hb ▸ ha
    rw [h] at hok ⊢
    unfold finish at hok ⊢
    by_cases hm : mustApply single (w.inputs.filter (pend w n)) = true
    · rw [if_pos hm] at hok ⊢
      simp only [] at hok ⊢
      rw [show portions single (w.inputs.filter (pend w n)) = (w.inputs.filter (pend w n)).map (fun a => [a]) from rfl]
        at hok ⊢
      by_cases ha : (applyAll single w ((w.inputs.filter (pend w n)).map (fun a => [a])) (remaining w n) n.next).2.2
          = true
      · rw [if_pos ha]
        obtain ⟨s1, s2, s3, s4⟩ := applyAll_spec w (w.inputs.filter (pend w n))
          (os' := (applyAll single w ((w.inputs.filter (pend w n)).map (fun a => [a])) (remaining w n) n.next).1)
          (next' := (applyAll single w ((w.inputs.filter (pend w n)).map (fun a => [a])) (remaining w n) n.next).2.1)
          nodup hgr (by rw [← ha])
        have inOld : ∀ o ∈ (applyAll single w ((w.inputs.filter (pend w n)).map (fun a => [a])) (remaining w n) n.next).1,
            ∀ a ∈ o.trafo.inputs, a ∈ w.inputs := by
          intro o ho a ha
          by_cases hp : a ∈ w.inputs.filter (pend w n)
          · exact ((mem a).mp hp).1
          · have : ∀ b ∈ w.inputs.filter (pend w n), b ∉ o.trafo.inputs := by
              intro b hb hbm
              obtain ⟨c, hc, _⟩ := s1.single o ho
              rw [hc] at ha hbm
              simp at ha hbm
              exact hp (by rw [ha, ← hbm]; exact hb)
            exact ((mem_remaining w n hi o).mp ((s4 o this).mp ho)).2 a ha
        refine ⟨⟨good_updateScanned s1, ?_⟩, fun a => Iff.rfl, ?_, ?_, rfl⟩
        · intro o ho a ha
          obtain ⟨o0, h0, _, _, e3⟩ := mem_updateScanned ho
          exact inOld o0 h0 a (by rw [← e3]; exact ha)
        · intro a p c
          unfold Has
          rw [has_updateScanned]
          constructor
          · rintro ⟨o, ho, hh⟩
            have hain : a ∈ o.trafo.inputs := by rw [hh.2.1]; simp
            refine ⟨inOld o ho a hain, ?_⟩
            by_cases hp : a ∈ w.inputs.filter (pend w n)
            · obtain ⟨outs, cmds, q1, q2, q3, _⟩ := s2 o ho a hp hain
              exact Or.inl ⟨((mem a).mp hp).2, outs, by rw [← hh.2.2, q3]; exact q1, by rw [← hh.1]; exact q2⟩
            · refine Or.inr ⟨fun hpe => hp ((mem a).mpr ⟨inOld o ho a hain, hpe⟩), ?_⟩
              have : ∀ b ∈ w.inputs.filter (pend w n), b ∉ o.trafo.inputs := by
                intro b hb hbm
                rw [hh.2.1] at hbm
                simp at hbm
                exact hp (hbm ▸ hb)
              exact ((hasRem a p c).mp ⟨o, (s4 o this).mp ho, hh⟩).2
          · rintro ⟨ha, ⟨hp, outs, q1, q2⟩ | ⟨hp, hh⟩⟩
            · obtain ⟨o, ho, r1, r2, r3⟩ := s3 a ((mem a).mpr ⟨ha, hp⟩) outs c q1 p q2
              exact ⟨o, ho, r1, r2, r3⟩
            · obtain ⟨o, ho, hh⟩ := (hasRem a p c).mpr ⟨ha, hh⟩
              refine ⟨o, (s4 o ?_).mpr ho, hh⟩
              intro b hb hbm
              rw [hh.2.1] at hbm
              simp at hbm
              exact hp (hbm ▸ ((mem b).mp hb).2)
        · intro o ho
          obtain ⟨o0, h0, _, _, e3⟩ := mem_updateScanned ho
          rw [e3]
          obtain ⟨b, hb, _⟩ := s1.single o0 h0
          by_cases hp : b ∈ w.inputs.filter (pend w n)
          · obtain ⟨_, _, _, _, _, q4⟩ := s2 o0 h0 b hp (by rw [hb]; simp)
            exact Or.inr q4
          · refine Or.inl (tracked o0 ((s4 o0 ?_).mp h0))
            intro c hc hcm
            rw [hb] at hcm
            simp at hcm
            exact hp (hcm ▸ hc)
      · rw [if_neg ha] at hok
        exact absurd rfl hok
    · rw [if_neg hm]
      have hnil : w.inputs.filter (pend w n) = [] := by
        unfold mustApply at hm
        simpa [single] using hm
      have hnp : ∀ a ∈ w.inputs, ¬ Pending w n a := by
        intro a ha hp
        have := (mem a).mpr ⟨ha, hp⟩
        rw [hnil] at this
        cases this
      refine ⟨⟨good_updateScanned hgr, ?_⟩, fun a => Iff.rfl, ?_, ?_, rfl⟩
      · intro o ho a ha
        obtain ⟨o0, h0, _, _, e3⟩ := mem_updateScanned ho
        exact ((mem_remaining w n hi o0).mp h0).2 a (by rw [← e3]; exact ha)
      · intro a p c
        unfold Has
        rw [has_updateScanned, hasRem]
        constructor
        · exact fun hh => ⟨hh.1, Or.inr ⟨hnp a hh.1, hh.2⟩⟩
        · rintro ⟨ha, ⟨hp, _⟩ | ⟨_, hh⟩⟩
          · exact absurd hp (hnp a ha)
          · exact ⟨ha, hh⟩
      · intro o ho
        obtain ⟨o0, h0, _, _, e3⟩ := mem_updateScanned ho
        rw [e3]
        exact Or.inl (tracked o0 h0)

/-- C28: after an application without error the outputs of each current input are those that its scripts gave, now if
    the rule was pending for it and unchanged otherwise; there are no others, and the inputs are remembered. -/
theorem C28_outputs (w : World Env) (n : Node Env) (hi : Inv n) (hs : Separate w n) (hn : w.inputs.Nodup)
    (hok : (apply single w n).2 ≠ .failed) :
    (∀ a p c, Has (apply single w n).1 a p c ↔ a ∈ w.inputs ∧
      ((Pending w n a ∧ ∃ outs, w.script [a] = .gives outs c ∧ p ∈ outs) ∨ (¬ Pending w n a ∧ Has n a p c))) ∧
    (∀ o ∈ (apply single w n).1.outputs, ∃ a c, Has (apply single w n).1 a o.path c) ∧
    (∀ a, a ∈ (apply single w n).1.oldInputs ↔ a ∈ w.inputs) ∧ Inv (apply single w n).1 := by
  obtain ⟨h1, h2, h3, _, _⟩ := after_single w n hi hs hn hok
  refine ⟨h3, ?_, h2, h1⟩
  intro o ho
  obtain ⟨a, ha, _⟩ := h1.good.single o ho
  exact ⟨a, _, o, ho, rfl, ha, rfl⟩

theorem times_single (w : World Env) (n : Node Env) (hi : Inv n) (hs : Separate w n) (hn : w.inputs.Nodup)
    (hok : (apply single w n).2 ≠ .failed) (ht : ∀ a, a ∈ w.inputs ∨ a ∈ w.explicit → w.time a ≤ w.now)
    (a : Art) (ha : a ∈ w.inputs) :
    ¬ ExplicitChanged w (apply single w n).1 ∧ ¬ Newer w (apply single w n).1 a := by
  rcases apply_single w n hi hs hn with ⟨h1, _, h⟩ | ⟨h1, h⟩
  · rw [h]
    exact ⟨fun he => h1 a ha (Or.inr (Or.inl he)), fun he => h1 a ha (Or.inr (Or.inr (Or.inl he)))⟩
  · rw [h] at hok ⊢
    unfold finish at hok ⊢
    by_cases hm : mustApply single (w.inputs.filter (pend w n)) = true
    · rw [if_pos hm] at hok ⊢
      simp only [] at hok ⊢
      split at hok
      · rename_i hc
        rw [if_pos hc]
        constructor
        · rintro (⟨x, hx⟩ | hx | ⟨_, x, hx, hlt⟩)
          · exact hx Iff.rfl
          · cases hx
          · have := ht x (Or.inr hx)
            simp only at hlt
            omega
        · rintro ⟨_, hlt⟩
          have := ht a (Or.inl ha)
          simp only at hlt
          omega
      · exact absurd rfl hok
    · rw [if_neg hm]
      have hnil : w.inputs.filter (pend w n) = [] := by
        unfold mustApply at hm
        simpa [single] using hm
      have hnp : ¬ Pending w n a := by
        rw [← pend_iff w n a ha]
        intro hp
        have : a ∈ w.inputs.filter (pend w n) := List.mem_filter.mpr ⟨ha, hp⟩
        rw [hnil] at this
        cases this
      constructor
      · rintro (⟨x, hx⟩ | hx | hx)
        · exact hx Iff.rfl
        · cases hx
        · exact hnp (Or.inr (Or.inl (Or.inr (Or.inr hx))))
      · exact fun he => hnp (Or.inr (Or.inr (Or.inl he)))

/-- C28: if nothing changes, the rule is skipped the next time. (The files must be older than the application, and
    what the scripts read is compared with itself; see the findings for what happens otherwise.) -/
theorem C28_second (w w' : World Env) (n : Node Env) (hi : Inv n) (hs : Separate w n) (hn : w.inputs.Nodup)
    (hok : (apply single w n).2 ≠ .failed) (ht : ∀ a, a ∈ w.inputs ∨ a ∈ w.explicit → w.time a ≤ w.now)
    (hd : w.differs w.env w.env = false)
    (hsame : w'.env = w.env ∧ w'.inputs = w.inputs ∧ w'.explicit = w.explicit ∧ w'.time = w.time ∧
      w'.differs = w.differs)
    (hs' : Separate w' (apply single w n).1) :
    (apply single w' (apply single w n).1).2 = .skipped := by
  obtain ⟨h1, h2, _, h4, h5⟩ := after_single w n hi hs hn hok
  obtain ⟨e1, e2, e3, e4, e5⟩ := hsame
  rw [(C28_reapplied w' _ h1 hs' (e2 ▸ hn)).1]
  constructor
  · intro a ha hp
    rw [e2] at ha
    obtain ⟨t1, t2⟩ := times_single w n hi hs hn hok ht a ha
    rcases hp with hp | hp | hp | ⟨o, ho, _, htr, e, hb, hdf⟩
    · exact hp ((h2 a).mpr ha)
    · apply t1
      unfold ExplicitChanged at hp ⊢
      rw [e3, e4] at hp
      exact hp
    · apply t2
      unfold Newer at hp ⊢
      rw [e4] at hp
      exact hp
    · rcases h4 o ho with h | h
      · rw [h] at htr; cases htr
      · rw [h] at hb
        injection hb with hb
        subst hb
        rw [e1, e5, hd] at hdf
        cases hdf
  · rintro (h | ⟨a, ha, hno⟩)
    · rw [h5] at h; cases h
    · exact hno (e2 ▸ (h2 a).mp ha)

end Verif.Reapply
