import Verif.Reapply.Props
/-!
# C28: multiplex rules
-/
namespace Verif.Reapply

variable {Env : Type}

/-- What holds of a node of a multiplex rule: all its outputs were made together, from all inputs of the last
    application. -/
structure Uniform (n : Node Env) : Prop where
  trafo : ∀ o ∈ n.outputs, ∀ o' ∈ n.outputs, o.trafo = o'.trafo
  inputs : ∀ o ∈ n.outputs, ∀ a, a ∈ o.trafo.inputs ↔ a ∈ n.oldInputs
  children : ∀ o ∈ n.outputs, ∀ a ∈ o.trafo.inputs, a ∈ o.children

theorem checkInput_uniform (w : World Env) (n : Node Env) (hu : Uniform n) (a : Art) (hap : Apart n.outputs a) :
    checkInput w a n.outputs =
      (if a ∈ n.oldInputs then n.outputs.map untrack else n.outputs, differsFor w n.outputs a) := by
  unfold checkInput
  cases hf : n.outputs.find? (isParent a) with
  | none =>
    rw [List.find?_eq_none] at hf
    simp only []
    have hd : differsFor w n.outputs a = false := by
      rw [← Bool.not_eq_true, differsFor_iff]
      rintro ⟨o, ho, h, _⟩
      exact hf o ho (by unfold isParent; simp [hu.children o ho a h])
    rw [hd]
    by_cases ha : a ∈ n.oldInputs
    · cases ho : n.outputs with
      | nil => simp
      | cons o os =>
        have hm : o ∈ n.outputs := by rw [ho]; simp
        exact absurd (by unfold isParent; simp [hu.children o hm a ((hu.inputs o hm a).mpr ha)]) (hf o hm)
    · rw [if_neg ha]
  | some o =>
    have hm : o ∈ n.outputs := List.mem_of_find?_eq_some hf
    have hp : isParent a o = true := List.find?_some (p := isParent a) hf
    have hin := hap o hm hp
    rw [if_pos ((hu.inputs o hm a).mp hin)]
    simp only [check]
    by_cases ht : o.trafo.tracked = true
    · rw [if_pos ht]
      congr 1
      · unfold clear
        apply List.map_congr_left
        intro o' ho'
        rw [if_pos (by rw [hu.trafo o' ho' o hm])]
        rfl
      · rw [Bool.eq_iff_iff]
        unfold differsFor
        rw [List.any_eq_true]
        constructor
        · intro h
          exact ⟨o, hm, by simp [hin, ht, h]⟩
        · rintro ⟨o', ho', h⟩
          rw [hu.trafo o' ho' o hm] at h
          simp only [Bool.and_eq_true] at h
          exact h.2
    · rw [if_neg ht]
      congr 1
      · symm
        rw [List.map_congr_left (g := id)]
        · simp
        · intro o' ho'
          have : o'.trafo.tracked = false := by rw [hu.trafo o' ho' o hm]; simpa using ht
          obtain ⟨p, c, s, ⟨i, is, tr, b, cm⟩⟩ := o'
          simp only at this
          subst this
          rfl
      · symm
        unfold differsFor
        rw [← Bool.not_eq_true, List.any_eq_true]
        rintro ⟨o', ho', h⟩
        rw [hu.trafo o' ho' o hm] at h
        simp only [Bool.and_eq_true] at h
        exact ht h.1.2

theorem uniform_untrack {n : Node Env} (hu : Uniform n) : Uniform { n with outputs := n.outputs.map untrack } := by
  refine ⟨?_, ?_, ?_⟩
  · intro o ho o' ho'
    obtain ⟨o0, h0, rfl⟩ := List.mem_map.mp ho
    obtain ⟨o1, h1, rfl⟩ := List.mem_map.mp ho'
    simp only [untrack, hu.trafo o0 h0 o1 h1]
  · intro o ho a
    obtain ⟨o0, h0, rfl⟩ := List.mem_map.mp ho
    exact hu.inputs o0 h0 a
  · intro o ho a ha
    obtain ⟨o0, h0, rfl⟩ := List.mem_map.mp ho
    exact hu.children o0 h0 a ha

theorem uniform_updateScanned {w : World Env} {n : Node Env} (hu : Uniform n) :
    Uniform { n with outputs := updateScanned w n.outputs } := by
  refine ⟨?_, ?_, ?_⟩
  · intro o ho o' ho'
    obtain ⟨o0, h0, _, _, e3⟩ := mem_updateScanned ho
    obtain ⟨o1, h1, _, _, f3⟩ := mem_updateScanned ho'
    rw [e3, f3]
    exact hu.trafo o0 h0 o1 h1
  · intro o ho a
    obtain ⟨o0, h0, _, _, e3⟩ := mem_updateScanned ho
    rw [e3]
    exact hu.inputs o0 h0 a
  · intro o ho a ha
    obtain ⟨o0, h0, _, e2, e3⟩ := mem_updateScanned ho
    rw [e2]
    exact hu.children o0 h0 a (e3 ▸ ha)

/-- The outputs after the check of a multiplex rule. -/
def checked (w : World Env) (n : Node Env) : List (Output Env) :=
  if w.inputs.head?.any n.oldInputs.contains then n.outputs.map untrack else n.outputs

/-- The outputs after inputs were disconnected. -/
def disconnected (w : World Env) (n : Node Env) (os : List (Output Env)) : List (Output Env) :=
  os.map (fun o => { o with
      children := o.children.filter (fun a => !((removed w n).contains a && o.trafo.inputs.contains a))
      scanned := o.scanned.filter (fun a => !((removed w n).contains a && o.trafo.inputs.contains a)) })

theorem uniform_checked {w : World Env} {n : Node Env} (hu : Uniform n) :
    Uniform { n with outputs := checked w n } := by
  unfold checked
  split
  · exact uniform_untrack hu
  · exact hu

theorem decision_multi (r : Rule) (hm : r.multiplex = true) (w : World Env) (n : Node Env) (hu : Uniform n)
    (hs : Separate w n) (hne : w.inputs ≠ []) :
    (decision r w n).outputs = checked w n ∧ (decision r w n).inputs = w.inputs ∧
    ((decision r w n).upToDate = true ↔ (∀ a ∈ w.inputs, ¬ Pending w n a) ∧ ¬ Gone w n) := by
  obtain ⟨a, as, hw⟩ := List.exists_cons_of_ne_nil hne
  have ha : a ∈ w.inputs := by rw [hw]; simp
  have hc := checkInput_uniform w n hu a (separate_apart hs a (Or.inl ha))
  have hcs : checkInputs w (if r.multiplex = true then w.inputs.take 1 else w.inputs) n.outputs =
      (checked w n, if differsFor w n.outputs a = true then [a] else []) := by
    rw [if_pos hm, hw]
    simp only [List.take_succ_cons, List.take_zero, checkInputs, hc, checked, hw, List.head?_cons, Option.any_some,
      List.contains_iff_mem]
  have hta : ∀ x, toApply r w n x = w.inputs := fun x => if_pos hm
  have he : decision r w n = ⟨checked w n, unchanged w n (if differsFor w n.outputs a = true then [a] else []),
      w.inputs⟩ := by
    unfold decision
    rw [hcs]
    simp only [hta]
    rw [if_neg]
    rw [List.isEmpty_eq_false_iff.mpr hne]
    simp
  rw [he]
  refine ⟨rfl, rfl, ?_⟩
  show unchanged w n _ = true ↔ _
  unfold unchanged
  simp only [Bool.and_eq_true, List.isEmpty_iff, Bool.not_eq_true']
  constructor
  · rintro ⟨⟨⟨⟨h1, h2⟩, h3⟩, h4⟩, h5⟩
    have hall : ∀ b ∈ w.inputs, b ∈ n.oldInputs := by
      intro b hb
      apply Classical.byContradiction
      intro hno
      have := (mem_added w n b).mpr ⟨hb, hno⟩
      rw [h2] at this
      cases this
    constructor
    · intro b hb hp
      rcases hp with hp | hp | hp | ⟨o, ho, _, hp⟩
      · exact hp (hall b hb)
      · have := (mem_changedInputs w n b).mpr ⟨hb, Or.inl hp⟩
        rw [h1] at this
        cases this
      · have := (mem_changedInputs w n b).mpr ⟨hb, Or.inr hp⟩
        rw [h1] at this
        cases this
      · have : differsFor w n.outputs a = true :=
          (differsFor_iff w n a).mpr ⟨o, ho, (hu.inputs o ho a).mpr (hall a ha), hp⟩
        rw [if_pos this] at h5
        cases h5
    · rintro (h | ⟨b, h, h'⟩)
      · rw [h4] at h; cases h
      · have := (mem_removed w n b).mpr ⟨h, h'⟩
        rw [h3] at this
        cases this
  · rintro ⟨h1, h2⟩
    refine ⟨⟨⟨⟨?_, ?_⟩, ?_⟩, ?_⟩, ?_⟩
    · rw [List.eq_nil_iff_forall_not_mem]
      intro b hb
      obtain ⟨hb, h⟩ := (mem_changedInputs w n b).mp hb
      exact h1 b hb (Or.inr (h.elim Or.inl (fun h => Or.inr (Or.inl h))))
    · rw [List.eq_nil_iff_forall_not_mem]
      intro b hb
      obtain ⟨hb, h⟩ := (mem_added w n b).mp hb
      exact h1 b hb (Or.inl h)
    · rw [List.eq_nil_iff_forall_not_mem]
      intro b hb
      exact h2 (Or.inr ⟨b, (mem_removed w n b).mp hb⟩)
    · cases hl : n.inputLost with
      | false => rfl
      | true => exact absurd (Or.inl hl) h2
    · rw [if_neg]
      intro h
      exact h1 a ha (Or.inr (Or.inr (Or.inr ((differsFor_iff w n a).mp h))))

theorem apply_multi (r : Rule) (hm : r.multiplex = true) (w : World Env) (n : Node Env) (hu : Uniform n)
    (hs : Separate w n) (hne : w.inputs ≠ []) :
    ((∀ a ∈ w.inputs, ¬ Pending w n a) ∧ ¬ Gone w n ∧
      apply r w n = ({ n with outputs := updateScanned w (checked w n) }, .skipped)) ∨
    (¬ ((∀ a ∈ w.inputs, ¬ Pending w n a) ∧ ¬ Gone w n) ∧
      apply r w n = finish r w n w.inputs (disconnected w n (checked w n))) := by
  obtain ⟨d1, d2, d3⟩ := decision_multi r hm w n hu hs hne
  by_cases h : (decision r w n).upToDate = true
  · obtain ⟨h1, h2⟩ := d3.mp h
    refine Or.inl ⟨h1, h2, ?_⟩
    unfold apply
    simp only []
    rw [if_pos h, d1]
  · refine Or.inr ⟨fun hh => h (d3.mpr hh), ?_⟩
    unfold apply
    simp only []
    rw [if_neg h, d1, d2]
    have hdrop : dropRemoved (!r.multiplex || !mustApply r w.inputs) (removed w n) (checked w n) =
        some (disconnected w n (checked w n)) := by
      unfold dropRemoved
      rw [if_neg, if_neg]
      · rfl
      · unfold mustApply
        rw [List.isEmpty_eq_false_iff.mpr hne, hm]
        simp
      · rw [List.any_eq_true]
        rintro ⟨o, ho, h⟩
        obtain ⟨a, ha, h⟩ := List.any_eq_true.mp h
        simp only [Bool.and_eq_true, Bool.not_eq_true', ← Bool.not_eq_true, List.contains_iff_mem] at h
        have hap := separate_apart hs a (Or.inr ((mem_removed w n a).mp ha).1)
        unfold checked at ho
        split at ho
        · obtain ⟨o0, h0, rfl⟩ := List.mem_map.mp ho
          exact h.1.2 (hap o0 h0 h.1.1)
        · exact h.1.2 (hap o ho h.1.1)
    rw [hdrop]

theorem finish_multi (r : Rule) (hm : r.multiplex = true) (w : World Env) (n : Node Env) (hne : w.inputs ≠ [])
    (os : List (Output Env)) :
    (∃ outs c, w.script w.inputs = .gives outs c ∧ finish r w n w.inputs os =
      (⟨w.inputs, false, w.explicit, false, w.now, n.considers || w.usesIo || w.wasScanned, updateScanned w
        (replaceOutputs w w.inputs
          { unfinished n.next w.inputs (rescued os outs) with basis := some w.env, commands := c } outs os),
        n.next + 1⟩, .done [w.inputs])) ∨
    ((∀ outs c, w.script w.inputs ≠ .gives outs c) ∧ (finish r w n w.inputs os).2 = .failed) := by
  have hma : mustApply r w.inputs = true := by
    unfold mustApply
    rw [List.isEmpty_eq_false_iff.mpr hne]
    simp
  have hcf : ∀ outs, conflict r w.inputs os outs = false := by
    intro outs
    unfold conflict
    rw [hm]
    rfl
  have hpo : portions r w.inputs = [w.inputs] := if_pos hm
  unfold finish
  rw [if_pos hma]
  simp only [hpo, applyAll, doApply]
  cases hsc : w.script w.inputs with
  | refuses => exact Or.inr ⟨(fun outs c h => by cases h), rfl⟩
  | fails outs =>
    refine Or.inr ⟨(fun outs c h => by cases h), ?_⟩
    simp only [hcf]
    rfl
  | gives outs c =>
    refine Or.inl ⟨outs, c, rfl, ?_⟩
    simp only [hcf]
    rfl

/-- C28: a multiplex rule with inputs is skipped exactly if it is pending for no input and no input is gone; if not,
    its scripts are run once, for all inputs. -/
theorem C28_multiplex_reapplied (r : Rule) (hm : r.multiplex = true) (w : World Env) (n : Node Env) (hu : Uniform n)
    (hs : Separate w n) (hne : w.inputs ≠ []) :
    ((apply r w n).2 = .skipped ↔ (∀ a ∈ w.inputs, ¬ Pending w n a) ∧ ¬ Gone w n) ∧
    (apply r w n).2 ≠ .assertion ∧ (∀ ran, (apply r w n).2 = .done ran → ran = [w.inputs]) := by
  rcases apply_multi r hm w n hu hs hne with ⟨h1, h2, h⟩ | ⟨h1, h⟩
  · rw [h]
    refine ⟨⟨fun _ => ⟨h1, h2⟩, fun _ => rfl⟩, (fun h => by cases h), fun ran h => by cases h⟩
  · rw [h]
    rcases finish_multi r hm w n hne (disconnected w n (checked w n)) with ⟨outs, c, _, hf⟩ | ⟨_, hf⟩
    · rw [hf]
      refine ⟨⟨(fun h => by cases h), fun h => absurd h h1⟩, (fun h => by cases h), ?_⟩
      intro ran hr
      injection hr with hr
      exact hr.symm
    · rw [hf]
      exact ⟨⟨(fun h => by cases h), fun h => absurd h h1⟩, (fun h => by cases h), fun ran h => by cases h⟩

theorem mem_disconnected {w : World Env} {n : Node Env} {os : List (Output Env)} {o : Output Env}
    (h : o ∈ disconnected w n os) : ∃ o0 ∈ os, o.path = o0.path ∧ o.trafo = o0.trafo ∧
      ∀ a ∈ o0.children, a ∈ w.inputs → a ∈ o.children := by
  obtain ⟨o0, h0, rfl⟩ := List.mem_map.mp h
  refine ⟨o0, h0, rfl, rfl, ?_⟩
  intro a ha hw
  rw [List.mem_filter]
  refine ⟨ha, ?_⟩
  rw [Bool.not_eq_true', ← Bool.not_eq_true, Bool.and_eq_true, List.contains_iff_mem]
  exact fun hr => ((mem_removed w n a).mp hr.1).2 hw

theorem mem_checked {w : World Env} {n : Node Env} {o : Output Env} (h : o ∈ checked w n) :
    ∃ o0 ∈ n.outputs, o.path = o0.path ∧ o.children = o0.children ∧ o.trafo.inputs = o0.trafo.inputs ∧
      o.trafo.commands = o0.trafo.commands := by
  unfold checked at h
  split at h
  · obtain ⟨o0, h0, rfl⟩ := List.mem_map.mp h
    exact ⟨o0, h0, rfl, rfl, rfl, rfl⟩
  · exact ⟨o, h, rfl, rfl, rfl, rfl⟩

/-- The outputs after the scripts were run. -/
theorem replaced_multi (w : World Env) (n : Node Env) (hu : Uniform n)
    (hkeep : n.outputs = [] ∨ ∃ a ∈ w.inputs, a ∈ n.oldInputs) (t : Trafo Env) (outs : List Path) :
    (∀ o ∈ replaceOutputs w w.inputs t outs (disconnected w n (checked w n)),
      o.path ∈ outs ∧ o.trafo = t ∧ ∀ a ∈ w.inputs, a ∈ o.children) ∧
    (∀ p ∈ outs, ∃ o ∈ replaceOutputs w w.inputs t outs (disconnected w n (checked w n)), o.path = p) := by
  obtain ⟨c1, c2, c3, c4, _⟩ := creates_spec t (w.inputs ++ w.explicit) outs (disconnected w n (checked w n))
  have mem : ∀ o, o ∈ replaceOutputs w w.inputs t outs (disconnected w n (checked w n)) ↔
      o ∈ outs.foldl (create t (w.inputs ++ w.explicit)) (disconnected w n (checked w n)) ∧
      (o.path ∈ outs ∨ ¬ ∃ a ∈ w.inputs, isParent a o = true ∧ a ∈ o.trafo.inputs) := by
    intro o
    unfold replaceOutputs
    rw [List.mem_filter]
    simp only [Bool.or_eq_true, List.contains_iff_mem, Bool.not_eq_true', ← Bool.not_eq_true, List.any_eq_true,
      Bool.and_eq_true]
  constructor
  · intro o ho
    obtain ⟨h1, h2⟩ := (mem o).mp ho
    by_cases hp : o.path ∈ outs
    · obtain ⟨h3, h4⟩ := c3 o h1 hp
      exact ⟨hp, h3, fun a ha => h4 a (by simp [ha])⟩
    · exfalso
      apply h2.resolve_left hp
      obtain ⟨o0, h0, _, e2, e3⟩ := mem_disconnected (c1 o h1 hp)
      obtain ⟨o1, g0, _, f2, f3, _⟩ := mem_checked h0
      rcases hkeep with hk | ⟨a, ha, hk⟩
      · rw [hk] at g0; cases g0
      · have hain : a ∈ o1.trafo.inputs := (hu.inputs o1 g0 a).mpr hk
        refine ⟨a, ha, ?_, by rw [e2, f3]; exact hain⟩
        unfold isParent
        have := e3 a (by rw [f2]; exact hu.children o1 g0 a hain) ha
        simp [this]
  · intro p hp
    obtain ⟨o, ho, he⟩ := c4 p hp
    exact ⟨o, (mem o).mpr ⟨ho, Or.inl (he ▸ hp)⟩, he⟩

/-- C28: after an application of a multiplex rule with inputs the outputs are those that the scripts gave for all
    current inputs, provided that there were none before or one of the inputs was an input before. -/
theorem C28_multiplex_outputs (r : Rule) (hm : r.multiplex = true) (w : World Env) (n : Node Env) (hu : Uniform n)
    (hs : Separate w n) (hne : w.inputs ≠ []) (hkeep : n.outputs = [] ∨ ∃ a ∈ w.inputs, a ∈ n.oldInputs)
    (ran : List (List Art)) (hd : (apply r w n).2 = .done ran) :
    Uniform (apply r w n).1 ∧ (apply r w n).1.oldInputs = w.inputs ∧
    ∃ outs c, w.script w.inputs = .gives outs c ∧
      (∀ p, p ∈ outs ↔ ∃ o ∈ (apply r w n).1.outputs, o.path = p) ∧
      (∀ o ∈ (apply r w n).1.outputs, o.trafo.inputs = w.inputs ∧ o.trafo.commands = c) := by
  rcases apply_multi r hm w n hu hs hne with ⟨h1, h2, h⟩ | ⟨h1, h⟩
  · rw [h] at hd
    cases hd
  · rw [h] at hd ⊢
    rcases finish_multi r hm w n hne (disconnected w n (checked w n)) with ⟨outs, c, hsc, hf⟩ | ⟨_, hf⟩
    · rw [hf]
      obtain ⟨r1, r2⟩ := replaced_multi w n hu hkeep
        { unfinished n.next w.inputs (rescued (disconnected w n (checked w n)) outs) with
          basis := some w.env, commands := c } outs
      refine ⟨?_, rfl, outs, c, hsc, ?_, ?_⟩
      · refine ⟨?_, ?_, ?_⟩
        · intro o ho o' ho'
          obtain ⟨o0, h0, _, _, e3⟩ := mem_updateScanned ho
          obtain ⟨o1, h1, _, _, f3⟩ := mem_updateScanned ho'
          rw [e3, f3, (r1 o0 h0).2.1, (r1 o1 h1).2.1]
        · intro o ho a
          obtain ⟨o0, h0, _, _, e3⟩ := mem_updateScanned ho
          rw [e3, (r1 o0 h0).2.1]
          exact Iff.rfl
        · intro o ho a ha
          obtain ⟨o0, h0, _, e2, e3⟩ := mem_updateScanned ho
          rw [e3, (r1 o0 h0).2.1] at ha
          rw [e2]
          exact (r1 o0 h0).2.2 a ha
      · intro p
        constructor
        · intro hp
          obtain ⟨o, ho, he⟩ := r2 p hp
          obtain ⟨o', ho', e1, _⟩ := updateScanned_mem (w := w) ho
          exact ⟨o', ho', by rw [e1, he]⟩
        · rintro ⟨o, ho, he⟩
          obtain ⟨o0, h0, e1, _⟩ := mem_updateScanned ho
          rw [← he, e1]
          exact (r1 o0 h0).1
      · intro o ho
        obtain ⟨o0, h0, _, _, e3⟩ := mem_updateScanned ho
        rw [e3, (r1 o0 h0).2.1]
        exact ⟨rfl, rfl⟩
    · rw [hf] at hd
      cases hd

/-- C28: a multiplex rule that is skipped keeps its outputs and the commands to make them. -/
theorem C28_multiplex_skipped (r : Rule) (hm : r.multiplex = true) (w : World Env) (n : Node Env) (hu : Uniform n)
    (hs : Separate w n) (hne : w.inputs ≠ []) (hd : (apply r w n).2 = .skipped) :
    Uniform (apply r w n).1 ∧
    (apply r w n).1.outputs.map (fun o => (o.path, o.trafo.inputs, o.trafo.commands)) =
      n.outputs.map (fun o => (o.path, o.trafo.inputs, o.trafo.commands)) := by
  rcases apply_multi r hm w n hu hs hne with ⟨h1, h2, h⟩ | ⟨h1, h⟩
  · rw [h]
    refine ⟨uniform_updateScanned (n := { n with outputs := checked w n }) (uniform_checked hu), ?_⟩
    have e1 : ∀ os : List (Output Env), (updateScanned w os).map (fun o => (o.path, o.trafo.inputs, o.trafo.commands))
        = os.map (fun o => (o.path, o.trafo.inputs, o.trafo.commands)) := by
      intro os
      unfold updateScanned
      split
      · rw [List.map_map]; rfl
      · rfl
    show (updateScanned w (checked w n)).map _ = _
    rw [e1]
    unfold checked
    split
    · rw [List.map_map]; rfl
    · rfl
  · rw [h] at hd
    rcases finish_multi r hm w n hne (disconnected w n (checked w n)) with ⟨outs, c, hsc, hf⟩ | ⟨_, hf⟩
    · rw [hf] at hd; cases hd
    · rw [hf] at hd; cases hd

/-- C28: if nothing changes, a multiplex rule with inputs is skipped the next time. -/
theorem C28_multiplex_second (r : Rule) (hm : r.multiplex = true) (w w' : World Env) (n : Node Env) (hu : Uniform n)
    (hs : Separate w n) (hne : w.inputs ≠ []) (hkeep : n.outputs = [] ∨ ∃ a ∈ w.inputs, a ∈ n.oldInputs)
    (hok : (apply r w n).2 ≠ .failed) (ht : ∀ a, a ∈ w.inputs ∨ a ∈ w.explicit → w.time a ≤ w.now)
    (hd : w.differs w.env w.env = false)
    (hsame : w'.env = w.env ∧ w'.inputs = w.inputs ∧ w'.explicit = w.explicit ∧ w'.time = w.time ∧
      w'.differs = w.differs)
    (hs' : Separate w' (apply r w n).1) :
    (apply r w' (apply r w n).1).2 = .skipped := by
  obtain ⟨e1, e2, e3, e4, e5⟩ := hsame
  have goal : ∀ n' : Node Env, Uniform n' → Separate w' n' → (∀ a ∈ w.inputs, ¬ Pending w n' a) → ¬ Gone w n' →
      (apply r w' n').2 = .skipped := by
    intro n' g1 g2 g3 g4
    rw [(C28_multiplex_reapplied r hm w' n' g1 g2 (e2 ▸ hne)).1]
    constructor
    · intro a ha hp
      apply g3 a (e2 ▸ ha)
      unfold Pending ExplicitChanged Newer ScriptChanged at hp ⊢
      rw [e1, e3, e4, e5] at hp
      exact hp
    · unfold Gone at g4 ⊢
      rw [e2]
      exact g4
  rcases apply_multi r hm w n hu hs hne with ⟨h1, h2, h⟩ | ⟨h1, h⟩
  · have hsk : (apply r w n).2 = .skipped := by rw [h]
    apply goal _ (C28_multiplex_skipped r hm w n hu hs hne hsk).1 hs'
    · rw [h]
      rintro a ha (hp | hp | hp | ⟨o, ho, hain, htr, hp⟩)
      · exact h1 a ha (Or.inl hp)
      · exact h1 a ha (Or.inr (Or.inl hp))
      · exact h1 a ha (Or.inr (Or.inr (Or.inl hp)))
      · obtain ⟨o0, h0, _, _, f3⟩ := mem_updateScanned ho
        unfold checked at h0
        split at h0
        · obtain ⟨o1, _, rfl⟩ := List.mem_map.mp h0
          rw [f3] at htr
          cases htr
        · rw [f3] at hain htr hp
          exact h1 a ha (Or.inr (Or.inr (Or.inr ⟨o0, h0, hain, htr, hp⟩)))
    · rw [h]
      exact h2
  · rcases finish_multi r hm w n hne (disconnected w n (checked w n)) with ⟨outs, c, hsc, hf⟩ | ⟨_, hf⟩
    · have hdone : (apply r w n).2 = .done [w.inputs] := by rw [h, hf]
      apply goal _ (C28_multiplex_outputs r hm w n hu hs hne hkeep _ hdone).1 hs'
      · obtain ⟨r1, _⟩ := replaced_multi w n hu hkeep
          { unfinished n.next w.inputs (rescued (disconnected w n (checked w n)) outs) with
            basis := some w.env, commands := c } outs
        rw [h, hf]
        rintro a ha (hp | (⟨x, hx⟩ | hx | ⟨_, x, hx, hlt⟩) | ⟨_, hlt⟩ | ⟨o, ho, _, _, e, hb, hdf⟩)
        · exact hp ha
        · exact hx Iff.rfl
        · cases hx
        · have := ht x (Or.inr hx)
          simp only at hlt
          omega
        · have := ht a (Or.inl ha)
          simp only at hlt
          omega
        · obtain ⟨o0, h0, _, _, f3⟩ := mem_updateScanned ho
          rw [f3, (r1 o0 h0).2.1] at hb
          injection hb with hb
          subst hb
          rw [hd] at hdf
          cases hdf
      · rw [h, hf]
        rintro (hg | ⟨a, ha, hno⟩)
        · cases hg
        · exact hno ha
    · rw [h] at hok
      exact absurd hf hok

end Verif.Reapply
