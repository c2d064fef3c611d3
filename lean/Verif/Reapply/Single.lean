import Verif.Reapply.Spec
/-!
# Rules that are applied to each input separately
-/
namespace Verif.Reapply

variable {Env : Type}

/-- What holds of the outputs of a rule that is not a multiplex rule. -/
structure Good (os : List (Output Env)) (next : Nat) : Prop where
  single : ∀ o ∈ os, ∃ a, o.trafo.inputs = [a] ∧ a ∈ o.children
  same : ∀ o ∈ os, ∀ o' ∈ os, o.trafo.inputs = o'.trafo.inputs → o.trafo = o'.trafo
  ids : ∀ o ∈ os, ∀ o' ∈ os, o.trafo.id = o'.trafo.id → o.trafo = o'.trafo
  bound : ∀ o ∈ os, o.trafo.id < next
  paths : (os.map (·.path)).Nodup

/-- What holds of a node of such a rule if no application failed. -/
structure Inv (n : Node Env) : Prop where
  good : Good n.outputs n.next
  known : ∀ o ∈ n.outputs, ∀ a ∈ o.trafo.inputs, a ∈ n.oldInputs

def untrack (o : Output Env) : Output Env := { o with trafo := { o.trafo with tracked := false } }

/-- Resetting the flags for the applications to some inputs. -/
def untrackFor (l : List Art) (os : List (Output Env)) : List (Output Env) :=
  os.map (fun o => if o.trafo.inputs.any l.contains then untrack o else o)

/-- `ScriptChanged` as a test. -/
def differsFor (w : World Env) (os : List (Output Env)) (a : Art) : Bool :=
  os.any (fun o => o.trafo.inputs.contains a && o.trafo.tracked && differsNow w o.trafo)

def Apart (os : List (Output Env)) (a : Art) : Prop :=
  ∀ o ∈ os, isParent a o = true → a ∈ o.trafo.inputs

theorem mem_untrackFor {l : List Art} {os : List (Output Env)} {o : Output Env} (h : o ∈ untrackFor l os) :
    ∃ o0 ∈ os, o.path = o0.path ∧ o.children = o0.children ∧ o.scanned = o0.scanned ∧
      o.trafo.inputs = o0.trafo.inputs ∧ o.trafo.id = o0.trafo.id ∧ o.trafo.commands = o0.trafo.commands ∧
      o = (if o0.trafo.inputs.any l.contains then untrack o0 else o0) := by
  obtain ⟨o0, h0, rfl⟩ := List.mem_map.mp h
  refine ⟨o0, h0, ?_⟩
  split <;> exact ⟨rfl, rfl, rfl, rfl, rfl, rfl, rfl⟩

theorem untrackFor_mem {l : List Art} {os : List (Output Env)} {o0 : Output Env} (h : o0 ∈ os) :
    (if o0.trafo.inputs.any l.contains then untrack o0 else o0) ∈ untrackFor l os :=
  List.mem_map.mpr ⟨o0, h, rfl⟩

theorem good_untrackFor {l : List Art} {os : List (Output Env)} {next : Nat} (h : Good os next) :
    Good (untrackFor l os) next := by
  have key : ∀ o0 o1 : Output Env, o0.trafo = o1.trafo →
      (if o0.trafo.inputs.any l.contains then untrack o0 else o0).trafo =
        (if o1.trafo.inputs.any l.contains then untrack o1 else o1).trafo := by
    intro o0 o1 he
    rw [he]
    split
    · simp only [untrack, he]
    · exact he
  refine ⟨?_, ?_, ?_, ?_, ?_⟩
  · intro o ho
    obtain ⟨o0, h0, e1, e2, e3, e4, _⟩ := mem_untrackFor ho
    obtain ⟨a, ha⟩ := h.single o0 h0
    exact ⟨a, by rw [e4]; exact ha.1, by rw [e2]; exact ha.2⟩
  · intro o ho o' ho' hi
    obtain ⟨o0, h0, _, _, _, e4, _, _, e⟩ := mem_untrackFor ho
    obtain ⟨o1, h1, _, _, _, f4, _, _, f⟩ := mem_untrackFor ho'
    rw [e, f]
    exact key o0 o1 (h.same o0 h0 o1 h1 (by rw [← e4, ← f4]; exact hi))
  · intro o ho o' ho' hi
    obtain ⟨o0, h0, _, _, _, _, e5, _, e⟩ := mem_untrackFor ho
    obtain ⟨o1, h1, _, _, _, _, f5, _, f⟩ := mem_untrackFor ho'
    rw [e, f]
    exact key o0 o1 (h.ids o0 h0 o1 h1 (by rw [← e5, ← f5]; exact hi))
  · intro o ho
    obtain ⟨o0, h0, _, _, _, _, e5, _⟩ := mem_untrackFor ho
    rw [e5]
    exact h.bound o0 h0
  · have : (untrackFor l os).map (·.path) = os.map (·.path) := by
      unfold untrackFor
      rw [List.map_map]
      congr 1
      funext o
      simp only [Function.comp]
      split <;> rfl
    rw [this]
    exact h.paths

theorem apart_untrackFor {l : List Art} {os : List (Output Env)} {a : Art} (h : Apart os a) :
    Apart (untrackFor l os) a := by
  intro o ho hp
  obtain ⟨o0, h0, _, e2, e3, e4, _⟩ := mem_untrackFor ho
  rw [e4]
  refine h o0 h0 ?_
  unfold isParent at hp ⊢
  rw [← e2, ← e3]
  exact hp

theorem untrackFor_untrackFor (l l' : List Art) (os : List (Output Env)) :
    untrackFor l (untrackFor l' os) = untrackFor (l' ++ l) os := by
  unfold untrackFor
  rw [List.map_map]
  apply List.map_congr_left
  intro o _
  simp only [Function.comp]
  have hany : o.trafo.inputs.any (l' ++ l).contains =
      (o.trafo.inputs.any l'.contains || o.trafo.inputs.any l.contains) := by
    rw [Bool.eq_iff_iff, Bool.or_eq_true]
    simp only [List.any_eq_true, List.contains_iff_mem, List.mem_append]
    constructor
    · rintro ⟨x, h1, h2 | h2⟩
      · exact Or.inl ⟨x, h1, h2⟩
      · exact Or.inr ⟨x, h1, h2⟩
    · rintro (⟨x, h1, h2⟩ | ⟨x, h1, h2⟩)
      · exact ⟨x, h1, Or.inl h2⟩
      · exact ⟨x, h1, Or.inr h2⟩
  by_cases h' : o.trafo.inputs.any l'.contains = true
  · rw [if_pos h']
    have hr : o.trafo.inputs.any (l' ++ l).contains = true := by rw [hany, h']; rfl
    rw [show (if o.trafo.inputs.any (l' ++ l).contains = true then untrack o else o) = untrack o from if_pos hr]
    split <;> rfl
  · rw [if_neg h', hany]
    rw [Bool.not_eq_true] at h'
    rw [h', Bool.false_or]

theorem untrackFor_id (l : List Art) (os : List (Output Env))
    (h : ∀ o ∈ os, o.trafo.inputs.any l.contains = true → o.trafo.tracked = false) : untrackFor l os = os := by
  unfold untrackFor
  conv => rhs; rw [← List.map_id os]
  apply List.map_congr_left
  intro o ho
  by_cases hc : o.trafo.inputs.any l.contains = true
  · rw [if_pos hc]
    have := h o ho hc
    show untrack o = o
    unfold untrack
    obtain ⟨p, c, s, i, ins, t, b, cmds⟩ := o
    simp only at this
    rw [this]
  · rw [if_neg hc]; rfl

theorem checkInput_eq (w : World Env) (a : Art) {os : List (Output Env)} {next : Nat} (h : Good os next)
    (ha : Apart os a) : checkInput w a os = (untrackFor [a] os, differsFor w os a) := by
  have own : ∀ o ∈ os, a ∈ o.trafo.inputs → o.trafo.inputs = [a] := by
    intro o ho hm
    obtain ⟨b, hb, _⟩ := h.single o ho
    rw [hb] at hm ⊢
    simp at hm
    rw [hm]
  have anyA : ∀ o : Output Env, o.trafo.inputs.any [a].contains = o.trafo.inputs.contains a := by
    intro o
    rw [Bool.eq_iff_iff]
    simp [List.any_eq_true]
  unfold checkInput
  cases hf : os.find? (isParent a) with
  | none =>
    have none_own : ∀ o ∈ os, a ∉ o.trafo.inputs := by
      intro o ho hm
      have hp := List.find?_eq_none.mp hf o ho
      obtain ⟨b, hb, hc⟩ := h.single o ho
      rw [hb] at hm
      simp at hm
      apply hp
      unfold isParent
      simp [hm, hc]
    simp only [Prod.mk.injEq]
    constructor
    · refine (untrackFor_id _ _ ?_).symm
      intro o ho hc
      rw [anyA] at hc
      exact absurd (by simpa using hc) (none_own o ho)
    · symm
      unfold differsFor
      rw [← Bool.not_eq_true, List.any_eq_true]
      rintro ⟨o, ho, hc⟩
      simp only [Bool.and_eq_true, List.contains_iff_mem] at hc
      exact none_own o ho hc.1.1
  | some o =>
    have ho := List.mem_of_find?_eq_some hf
    have hin := ha o ho (List.find?_some hf)
    have hoa := own o ho hin
    have sameT : ∀ o' ∈ os, a ∈ o'.trafo.inputs → o'.trafo = o.trafo := fun o' ho' hm =>
      h.same o' ho' o ho (by rw [own o' ho' hm, hoa])
    simp only [check]
    by_cases ht : o.trafo.tracked = true
    · rw [if_pos ht]
      simp only [Prod.mk.injEq]
      constructor
      · unfold clear untrackFor
        apply List.map_congr_left
        intro o' ho'
        rw [anyA]
        by_cases hm : a ∈ o'.trafo.inputs
        · rw [if_pos (by rw [sameT o' ho' hm]), if_pos (by simpa using hm)]
          rfl
        · rw [if_neg (fun he => hm (by rw [h.ids o' ho' o ho he]; exact hin)), if_neg (by simpa using hm)]
      · unfold differsFor
        rw [Bool.eq_iff_iff, List.any_eq_true]
        constructor
        · intro hd
          exact ⟨o, ho, by simp [hin, ht, hd]⟩
        · rintro ⟨o', ho', hc⟩
          simp only [Bool.and_eq_true, List.contains_iff_mem] at hc
          rw [← sameT o' ho' hc.1.1]
          exact hc.2
    · rw [if_neg ht]
      simp only [Prod.mk.injEq]
      constructor
      · refine (untrackFor_id _ _ ?_).symm
        intro o' ho' hc
        rw [anyA] at hc
        rw [sameT o' ho' (by simpa using hc)]
        simpa using ht
      · symm
        unfold differsFor
        rw [← Bool.not_eq_true, List.any_eq_true]
        rintro ⟨o', ho', hc⟩
        simp only [Bool.and_eq_true, List.contains_iff_mem] at hc
        rw [sameT o' ho' hc.1.1] at hc
        exact ht hc.1.2

theorem differsFor_untrackFor (w : World Env) (a b : Art) (hab : a ≠ b) {os : List (Output Env)} {next : Nat}
    (h : Good os next) : differsFor w (untrackFor [a] os) b = differsFor w os b := by
  unfold differsFor untrackFor
  rw [List.any_map]
  apply Bool.eq_iff_iff.mpr
  rw [List.any_eq_true, List.any_eq_true]
  have key : ∀ o ∈ os, b ∈ o.trafo.inputs →
      (if o.trafo.inputs.any [a].contains then untrack o else o) = o := by
    intro o ho hb
    obtain ⟨c, hc, _⟩ := h.single o ho
    rw [if_neg]
    rw [hc] at hb ⊢
    simp at hb
    subst hb
    simpa using fun h => hab h.symm
  have inp : ∀ o : Output Env, (if o.trafo.inputs.any [a].contains then untrack o else o).trafo.inputs = o.trafo.inputs := by
    intro o; split <;> rfl
  constructor
  · rintro ⟨o, ho, hc⟩
    refine ⟨o, ho, ?_⟩
    simp only [Function.comp, Bool.and_eq_true, List.contains_iff_mem] at hc ⊢
    have hb : b ∈ o.trafo.inputs := by rw [← inp o]; exact hc.1.1
    rw [key o ho hb] at hc
    exact hc
  · rintro ⟨o, ho, hc⟩
    refine ⟨o, ho, ?_⟩
    simp only [Function.comp, Bool.and_eq_true, List.contains_iff_mem] at hc ⊢
    rw [key o ho hc.1.1]
    exact hc

theorem checkInputs_eq (w : World Env) : ∀ (l : List Art) {os : List (Output Env)} {next : Nat}, l.Nodup →
    Good os next → (∀ a ∈ l, Apart os a) →
    checkInputs w l os = (untrackFor l os, l.filter (differsFor w os))
  | [], os, next, _, _, _ => by
    simp only [checkInputs, List.filter_nil, Prod.mk.injEq, and_true]
    exact (untrackFor_id _ _ (fun o _ hc => by simp at hc)).symm
  | a :: l, os, next, hn, h, ha => by
    rw [List.nodup_cons] at hn
    unfold checkInputs
    rw [checkInput_eq w a h (ha a (by simp))]
    simp only []
    rw [checkInputs_eq w l hn.2 (good_untrackFor h) (fun b hb => apart_untrackFor (ha b (by simp [hb])))]
    simp only []
    rw [untrackFor_untrackFor]
    have hf : l.filter (differsFor w (untrackFor [a] os)) = l.filter (differsFor w os) := by
      apply List.filter_congr
      intro b hb
      exact differsFor_untrackFor w a b (fun he => hn.1 (he ▸ hb)) h
    rw [hf, List.filter_cons]
    rfl

/-! ## Creating outputs -/

theorem create_spec (t : Trafo Env) (conns : List Art) (os : List (Output Env)) (p : Path) :
    (∀ o ∈ create t conns os p, o.path ≠ p → o ∈ os) ∧
    (∀ o ∈ os, o.path ≠ p → o ∈ create t conns os p) ∧
    (∀ o ∈ create t conns os p, o.path = p → o.trafo = t ∧ ∀ a ∈ conns, a ∈ o.children) ∧
    (∃ o ∈ create t conns os p, o.path = p) ∧
    ((os.map (·.path)).Nodup → ((create t conns os p).map (·.path)).Nodup) := by
  unfold create
  by_cases h : os.any (fun o => o.path == p) = true
  · rw [if_pos h]
    obtain ⟨x, hx, hxp⟩ := List.any_eq_true.mp h
    have hxp : x.path = p := by simpa using hxp
    refine ⟨?_, ?_, ?_, ?_, ?_⟩
    · intro o ho hp
      obtain ⟨o0, h0, rfl⟩ := List.mem_map.mp ho
      by_cases hc : o0.path = p
      · rw [if_pos hc] at hp; exact absurd hc hp
      · rw [if_neg hc]; exact h0
    · intro o ho hp
      exact List.mem_map.mpr ⟨o, ho, by rw [if_neg hp]⟩
    · intro o ho hp
      obtain ⟨o0, h0, rfl⟩ := List.mem_map.mp ho
      by_cases hc : o0.path = p
      · rw [if_pos hc]
        exact ⟨rfl, fun a ha => List.mem_append_right _ ha⟩
      · rw [if_neg hc] at hp; exact absurd hp hc
    · exact ⟨_, List.mem_map.mpr ⟨x, hx, rfl⟩, by rw [if_pos hxp]; exact hxp⟩
    · intro hn
      rw [List.map_map]
      have : ((fun o : Output Env => o.path) ∘ fun o =>
          if o.path = p then { o with children := o.children ++ conns, trafo := t } else o) = (fun o => o.path) := by
        funext o
        simp only [Function.comp]
        split <;> rfl
      rw [this]
      exact hn
  · rw [if_neg h]
    have hno : ∀ o ∈ os, o.path ≠ p := fun o ho he =>
      h (List.any_eq_true.mpr ⟨o, ho, by simpa using he⟩)
    refine ⟨?_, ?_, ?_, ?_, ?_⟩
    · intro o ho hp
      rcases List.mem_append.mp ho with ho | ho
      · exact ho
      · simp at ho; rw [ho] at hp; exact absurd rfl hp
    · intro o ho _
      exact List.mem_append_left _ ho
    · intro o ho hp
      rcases List.mem_append.mp ho with ho | ho
      · exact absurd hp (hno o ho)
      · simp at ho; rw [ho]; exact ⟨rfl, fun a ha => ha⟩
    · exact ⟨⟨p, conns, [], t⟩, List.mem_append_right _ (List.mem_singleton.mpr rfl), rfl⟩
    · intro hn
      rw [List.map_append, List.nodup_append]
      refine ⟨hn, by simp, ?_⟩
      intro a ha b hb hab
      obtain ⟨o, ho, rfl⟩ := List.mem_map.mp ha
      simp at hb
      exact hno o ho (hab.trans hb)

theorem creates_spec (t : Trafo Env) (conns : List Art) : ∀ (outs : List Path) (os : List (Output Env)),
    (∀ o ∈ outs.foldl (create t conns) os, o.path ∉ outs → o ∈ os) ∧
    (∀ o ∈ os, o.path ∉ outs → o ∈ outs.foldl (create t conns) os) ∧
    (∀ o ∈ outs.foldl (create t conns) os, o.path ∈ outs → o.trafo = t ∧ ∀ a ∈ conns, a ∈ o.children) ∧
    (∀ p ∈ outs, ∃ o ∈ outs.foldl (create t conns) os, o.path = p) ∧
    ((os.map (·.path)).Nodup → ((outs.foldl (create t conns) os).map (·.path)).Nodup)
  | [], os => by simp
  | p :: outs, os => by
    obtain ⟨c1, c2, c3, c4, c5⟩ := create_spec t conns os p
    obtain ⟨i1, i2, i3, i4, i5⟩ := creates_spec t conns outs (create t conns os p)
    rw [List.foldl_cons]
    refine ⟨?_, ?_, ?_, ?_, fun hn => i5 (c5 hn)⟩
    · intro o ho hp
      simp only [List.mem_cons, not_or] at hp
      exact c1 o (i1 o ho hp.2) hp.1
    · intro o ho hp
      simp only [List.mem_cons, not_or] at hp
      exact i2 o (c2 o ho hp.1) hp.2
    · intro o ho hp
      by_cases hm : o.path ∈ outs
      · exact i3 o ho hm
      · exact c3 o (i1 o ho hm) ((List.mem_cons.mp hp).resolve_right hm)
    · intro q hq
      by_cases hm : q ∈ outs
      · exact i4 q hm
      · obtain ⟨o, ho, hop⟩ := c4
        have hqp := (List.mem_cons.mp hq).resolve_right hm
        exact ⟨o, i2 o ho (by rw [hop, ← hqp]; exact hm), by rw [hop, hqp]⟩

/-- The new outputs of an application to one input. -/
theorem replaceOutputs_spec (w : World Env) (a : Art) (t : Trafo Env) (outs : List Path)
    {os : List (Output Env)} {next : Nat} (h : Good os next) (ht : t.inputs = [a]) (hid : t.id = next)
    (hc : conflict ⟨false, true, true⟩ [a] os outs = false) :
    Good (replaceOutputs w [a] t outs os) (next + 1) ∧
    (∀ o ∈ replaceOutputs w [a] t outs os, a ∈ o.trafo.inputs → o.trafo = t ∧ o.path ∈ outs) ∧
    (∀ p ∈ outs, ∃ o ∈ replaceOutputs w [a] t outs os, o.path = p ∧ o.trafo = t) ∧
    (∀ o, a ∉ o.trafo.inputs → (o ∈ replaceOutputs w [a] t outs os ↔ o ∈ os)) := by
  obtain ⟨c1, c2, c3, c4, c5⟩ := creates_spec t ([a] ++ w.explicit) outs os
  have mem : ∀ o, o ∈ replaceOutputs w [a] t outs os ↔
      o ∈ outs.foldl (create t ([a] ++ w.explicit)) os ∧
      (o.path ∈ outs ∨ ¬ (isParent a o = true ∧ a ∈ o.trafo.inputs)) := by
    intro o
    unfold replaceOutputs
    rw [List.mem_filter]
    simp only [List.any_cons, List.any_nil, Bool.or_false, Bool.or_eq_true, List.contains_iff_mem,
      Bool.not_eq_true', ← Bool.not_eq_true, Bool.and_eq_true]
  have two : ∀ o ∈ replaceOutputs w [a] t outs os,
      (o.path ∈ outs ∧ o.trafo = t ∧ a ∈ o.children) ∨ (o.path ∉ outs ∧ o ∈ os ∧ a ∉ o.trafo.inputs) := by
    intro o ho
    obtain ⟨h1, h2⟩ := (mem o).mp ho
    by_cases hp : o.path ∈ outs
    · obtain ⟨h3, h4⟩ := c3 o h1 hp
      exact Or.inl ⟨hp, h3, h4 a (by simp)⟩
    · have h3 := c1 o h1 hp
      refine Or.inr ⟨hp, h3, ?_⟩
      intro hm
      apply h2.resolve_left hp
      refine ⟨?_, hm⟩
      obtain ⟨b, hb, hbc⟩ := h.single o h3
      rw [hb] at hm
      simp at hm
      unfold isParent
      simp [hm, hbc]
  have noconf : ∀ o ∈ os, o.path ∈ outs → sameSet o.trafo.inputs [a] = true := by
    intro o ho hp
    apply Classical.byContradiction
    intro hs
    have : conflict ⟨false, true, true⟩ [a] os outs = true := by
      unfold conflict
      simp only [Bool.not_false, Bool.true_and]
      exact List.any_eq_true.mpr ⟨o, ho, by simp [hp, hs]⟩
    rw [hc] at this
    cases this
  refine ⟨⟨?_, ?_, ?_, ?_, ?_⟩, ?_, ?_, ?_⟩
  · intro o ho
    rcases two o ho with ⟨_, h2, h3⟩ | ⟨_, h2, _⟩
    · exact ⟨a, by rw [h2]; exact ht, h3⟩
    · exact h.single o h2
  · intro o ho o' ho' hi
    rcases two o ho with ⟨_, h2, _⟩ | ⟨_, h2, h3⟩ <;> rcases two o' ho' with ⟨_, k2, _⟩ | ⟨_, k2, k3⟩
    · rw [h2, k2]
    · exfalso; apply k3; rw [← hi, h2, ht]; simp
    · exfalso; apply h3; rw [hi, k2, ht]; simp
    · exact h.same o h2 o' k2 hi
  · intro o ho o' ho' hi
    rcases two o ho with ⟨_, h2, _⟩ | ⟨_, h2, h3⟩ <;> rcases two o' ho' with ⟨_, k2, _⟩ | ⟨_, k2, k3⟩
    · rw [h2, k2]
    · have := h.bound o' k2; rw [← hi, h2, hid] at this; omega
    · have := h.bound o h2; rw [hi, k2, hid] at this; omega
    · exact h.ids o h2 o' k2 hi
  · intro o ho
    rcases two o ho with ⟨_, h2, _⟩ | ⟨_, h2, _⟩
    · rw [h2, hid]; omega
    · have := h.bound o h2; omega
  · have hs : List.Sublist ((replaceOutputs w [a] t outs os).map (·.path))
        ((outs.foldl (create t ([a] ++ w.explicit)) os).map (·.path)) :=
      List.Sublist.map _ List.filter_sublist
    exact List.Nodup.sublist hs (c5 h.paths)
  · intro o ho hm
    rcases two o ho with ⟨h1, h2, _⟩ | ⟨_, _, h3⟩
    · exact ⟨h2, h1⟩
    · exact absurd hm h3
  · intro p hp
    obtain ⟨o, ho, hop⟩ := c4 p hp
    exact ⟨o, (mem o).mpr ⟨ho, Or.inl (hop ▸ hp)⟩, hop, (c3 o ho (hop ▸ hp)).1⟩
  · intro o ho
    constructor
    · intro hm
      rcases two o hm with ⟨_, h2, _⟩ | ⟨_, h2, _⟩
      · exfalso; apply ho; rw [h2, ht]; simp
      · exact h2
    · intro hm
      have hp : o.path ∉ outs := by
        intro hp
        have hs := noconf o hm hp
        obtain ⟨b, hb, _⟩ := h.single o hm
        rw [hb] at hs ho
        unfold sameSet at hs
        rw [Bool.and_eq_true, List.all_eq_true, List.all_eq_true] at hs
        exact ho (by simpa using hs.2 a (by simp))
      exact (mem o).mpr ⟨c2 o hm hp, Or.inr (fun h => ho h.2)⟩

end Verif.Reapply
