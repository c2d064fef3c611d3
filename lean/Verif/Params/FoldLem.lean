import Verif.Params.Lem
import Verif.Common.Snoc

/-! # Lemmas about merging several maps -/

namespace Verif.Params

theorem eq_nil_or_snoc {α} (l : List α) : l = [] ∨ ∃ l' a, l = l' ++ [a] := by
  induction l using snoc_induction with
  | nil => exact .inl rfl
  | append_singleton l a _ => exact .inr ⟨l, a, rfl⟩

theorem sets_ne {m p v} (h : Sets m p v) : p ≠ [] := by cases h <;> simp

theorem sets_unique {m p v w} (hm : WF m) (h : Sets m p v) (h' : Sets m p w) : v = w := by
  have := (at_sets hm p v).2 h
  rw [(at_sets hm p w).2 h'] at this
  cases this; rfl

theorem sets_mentions {m p v} (h : Sets m p v) : Mentions m p := .inr ⟨p, v, List.prefix_refl _, h⟩

/-- All maps have one entry for a name. -/
def AllWF (l : List (PM × Int)) : Prop := ∀ c ∈ l, WF c.1

theorem wf_next {s : St} {c : PM × Int} (hs : WF s.value) (hc : WF c.1) : WF (next s c).value := wf_merge hs hc

theorem wf_fold {l : List (PM × Int)} (h : AllWF l) {s : St} (hs : WF s.value) : WF (l.foldl next s).value := by
  induction l generalizing s with
  | nil => exact hs
  | cons c l ih => exact ih (fun d hd => h d (by simp [hd])) (wf_next hs (h c (by simp)))

theorem sets_next {s : St} {c : PM × Int} (hs : WF s.value) (hc : WF c.1) (p : Path) (v : Leaf) :
    Sets (next s c).value p v ↔ Sets c.1 p v ∨ (Sets s.value p v ∧ ¬ Mentions c.1 p) := by
  by_cases hp : p = []
  · subst hp
    constructor
    · intro h; exact absurd rfl (sets_ne h)
    · rintro (h | ⟨h, _⟩) <;> exact absurd rfl (sets_ne h)
  rw [← at_sets (wf_next hs hc), ← at_sets hs, ← at_sets hc, ← says_iff hc p hp]
  simp only [next]
  rw [at_merge hc]
  simp

theorem group_merge {same : Bool} {path : Path} {cur : PM} {cs : List Path} {n : PM} (hn : WF n) (p : Path) (hp : p ≠ [])
    {m : PM} (h : at' (merge same path cur cs n).1 p = some (.map m)) :
    (∃ m', at' n p = some (.map m')) ∨ ∃ m', at' cur p = some (.map m') := by
  induction p generalizing path cur cs n with
  | nil => exact absurd rfl hp
  | cons k p ih =>
    simp only [at'] at h ⊢
    rw [get_merge hn] at h
    cases hg : n.get k with
    | none => rw [hg] at h; exact .inr ⟨m, h⟩
    | some e =>
      rw [hg] at h
      cases e with
      | leaf w => simp only at h; split at h <;> cases h
      | map m' =>
        simp only at h ⊢
        cases p with
        | nil => exact .inl ⟨m', rfl⟩
        | cons k' p' =>
          rcases ih (wf_sub hn ((get_iff hn k _).1 hg)) (by simp) h with h | ⟨x, h⟩
          · exact .inl h
          · right
            revert h
            cases hc : cur.get k with
            | none => simp [toMap, at', PM.get]
            | some e =>
              cases e with
              | leaf w => simp [toMap, at', PM.get]
              | map m' => exact fun h => ⟨x, h⟩

theorem group_next {s : St} {c : PM × Int} (hs : WF s.value) (hc : WF c.1) {p : Path} (h : Group (next s c).value p) :
    Group c.1 p ∨ Group s.value p := by
  have hp : p ≠ [] := by cases h <;> simp
  obtain ⟨m, hm⟩ := (at_group (wf_next hs hc) p hp).2 h
  rw [← at_group hc p hp, ← at_group hs p hp]
  exact group_merge hc p hp hm

theorem conflicts_next {s : St} {c : PM × Int} (hs : WF s.value) (hc : WF c.1) (p : Path) :
    p ∈ (next s c).conflicts ↔
      ((∃ v, Sets c.1 p v ∧ s.prio = c.2 ∧ clash (at' s.value p) v = true) ∨
        (p ∈ s.conflicts ∧ (s.prio = c.2 ∨ ¬ ∃ v, Sets c.1 p v))) := by
  simp only [next]
  rw [conflicts_merge hc]
  simp only [List.nil_append, decide_eq_true_eq]
  constructor
  · rintro (⟨q, v, rfl, h1, h2, h3⟩ | ⟨h1, h2⟩)
    · exact .inl ⟨v, (at_sets hc _ v).1 h1, h2, h3⟩
    · refine .inr ⟨h1, h2.imp_right fun h => ?_⟩
      rintro ⟨v, hv⟩
      exact h ⟨p, v, rfl, (at_sets hc p v).2 hv⟩
  · rintro (⟨v, h1, h2, h3⟩ | ⟨h1, h2⟩)
    · exact .inl ⟨p, v, rfl, (at_sets hc p v).2 h1, h2, h3⟩
    · refine .inr ⟨h1, h2.imp_right fun h => ?_⟩
      rintro ⟨q, v, rfl, hv⟩
      exact h ⟨v, (at_sets hc _ v).1 hv⟩

theorem foldl_snoc (l : List (PM × Int)) (c : PM × Int) (s : St) : (l ++ [c]).foldl next s = next (l.foldl next s) c := by
  simp

theorem prio_fold (l : List (PM × Int)) (c : PM × Int) (s : St) : ((l ++ [c]).foldl next s).prio = c.2 := by
  simp [next]

/-- The value comes from the last one that says something. -/
theorem fold_sets {l : List (PM × Int)} (h : AllWF l) (p : Path) (v : Leaf) :
    Sets (l.foldl next {}).value p v ↔ ∃ l1 c l2, l = l1 ++ c :: l2 ∧ Sets c.1 p v ∧ ∀ d ∈ l2, ¬ Mentions d.1 p := by
  induction l using snoc_induction with
  | nil =>
    constructor
    · intro h; cases h with
      | here h => cases h
      | inside h _ => cases h
    · rintro ⟨l1, c, l2, h, _⟩; simp at h
  | append_singleton l c ih =>
    have hl : AllWF l := fun d hd => h d (by simp [hd])
    rw [foldl_snoc, sets_next (wf_fold hl .nil) (h c (by simp)), ih hl]
    constructor
    · rintro (hs | ⟨⟨l1, d, l2, rfl, h1, h2⟩, h3⟩)
      · exact ⟨l, c, [], by simp, hs, by simp⟩
      · refine ⟨l1, d, l2 ++ [c], by simp, h1, ?_⟩
        intro e he
        simp only [List.mem_append, List.mem_singleton] at he
        rcases he with he | rfl
        · exact h2 e he
        · exact h3
    · rintro ⟨l1, d, l2, he, h1, h2⟩
      rcases eq_nil_or_snoc l2 with rfl | ⟨l3, e, rfl⟩
      · have := List.append_inj' he rfl
        injection this.2 with h3 _
        subst h3
        exact .inl h1
      · rw [show l1 ++ d :: (l3 ++ [e]) = (l1 ++ d :: l3) ++ [e] by simp] at he
        have h4 := List.append_inj' he rfl
        injection h4.2 with h3 _
        subst h3
        refine .inr ⟨⟨l1, d, l3, h4.1, h1, fun x hx => h2 x (by simp [hx])⟩, h2 c (by simp)⟩

/-- Above a value, there are groups that are not empty. -/
theorem group_above {m : PM} (hm : WF m) {p q : Path} {v : Leaf} (h : Sets m p v) (hq : q <+: p) (hne : q ≠ p) :
    ∃ m', at' m q = some (.map m') ∧ m' ≠ .nil := by
  induction q generalizing m p with
  | nil =>
    refine ⟨m, rfl, ?_⟩
    intro h'; subst h'
    cases h with
    | here h => cases h
    | inside h _ => cases h
  | cons k q ih =>
    obtain ⟨t, ht⟩ := hq
    cases h with
    | here hh =>
      exfalso; apply hne
      injection ht with h1 h2
      subst h1
      cases q with
      | nil => rfl
      | cons _ _ => cases h2
    | inside hh hs =>
      injection ht with h1 h2
      subst h1
      obtain ⟨m', h1, h2⟩ := ih (wf_sub hm hh) hs ⟨t, h2⟩ (fun h => hne (by rw [h]))
      refine ⟨m', ?_, h2⟩
      simp only [at']
      rw [(get_iff hm k _).2 hh]
      exact h1

/-- What is set and not overridden is the value, or there is a conflict. -/
theorem fold_value {l1 l2 : List (PM × Int)} {c : PM × Int} (h : AllWF (l1 ++ c :: l2))
    (hsort : (l1 ++ c :: l2).Pairwise (fun a b => a.2 ≤ b.2)) {p : Path} {a : String} (hs : Sets c.1 p (some a))
    (hhi : ∀ d ∈ l2, c.2 < d.2 → ¬ Mentions d.1 p) (heq : ∀ d ∈ l2, d.2 = c.2 → ¬ Group d.1 p) :
    Sets ((l1 ++ c :: l2).foldl next {}).value p (some a) ∨
      ∃ q, q <+: p ∧ q ≠ [] ∧ q ∈ ((l1 ++ c :: l2).foldl next {}).conflicts := by
  induction l2 using snoc_induction with
  | nil =>
    left
    have hl : AllWF l1 := fun d hd => h d (by simp [hd])
    rw [foldl_snoc, sets_next (wf_fold hl .nil) (h c (by simp))]
    exact .inl hs
  | append_singleton l2 d ih =>
    rw [show l1 ++ c :: (l2 ++ [d]) = (l1 ++ c :: l2) ++ [d] by simp] at h hsort ⊢
    have hl : AllWF (l1 ++ c :: l2) := fun e he => h e (by rw [List.mem_append]; exact .inl he)
    have hd : WF d.1 := h d (by simp)
    have hw := wf_fold hl (s := {}) .nil
    rw [List.pairwise_append] at hsort
    have hcd : c.2 ≤ d.2 := hsort.2.2 c (by simp) d (by simp)
    have ih' := ih hl hsort.1 (fun e he => hhi e (by simp [he])) (fun e he => heq e (by simp [he]))
    rw [foldl_snoc]
    by_cases hlt : c.2 < d.2
    · have hno := hhi d (by simp) hlt
      rcases ih' with ih' | ⟨q, hq, hq0, hc⟩
      · exact .inl ((sets_next hw hd p _).2 (.inr ⟨ih', hno⟩))
      · refine .inr ⟨q, hq, hq0, (conflicts_next hw hd q).2 (.inr ⟨hc, .inr ?_⟩)⟩
        rintro ⟨v, hv⟩
        exact hno (.inr ⟨q, v, hq, hv⟩)
    · have hde : d.2 = c.2 := by omega
      have hprio : ((l1 ++ c :: l2).foldl next {}).prio = d.2 := by
        rcases eq_nil_or_snoc l2 with rfl | ⟨l3, e, rfl⟩
        · rw [prio_fold, hde]
        · have h1 := hsort.2.2 e (by simp) d (by simp)
          have h2 : c.2 ≤ e.2 := by
            have := hsort.1
            rw [show l1 ++ c :: (l3 ++ [e]) = (l1 ++ c :: l3) ++ [e] by simp, List.pairwise_append] at this
            exact this.2.2 c (by simp) e (by simp)
          rw [show l1 ++ c :: (l3 ++ [e]) = (l1 ++ c :: l3) ++ [e] by simp, prio_fold]
          omega
      rcases ih' with ih' | ⟨q, hq, hq0, hc⟩
      · by_cases hm : Mentions d.1 p
        · rcases hm with hm | ⟨q, v, hq, hv⟩
          · exact absurd hm (heq d (by simp) hde)
          · by_cases hqp : q = p
            · subst hqp
              by_cases hva : v = some a
              · subst hva
                exact .inl ((sets_next hw hd q _).2 (.inl hv))
              · refine .inr ⟨q, hq, sets_ne hv, (conflicts_next hw hd q).2 (.inl ⟨v, hv, hprio, ?_⟩)⟩
                rw [(at_sets hw q _).2 ih']
                simp [clash, hva]
            · obtain ⟨m', h1, h2⟩ := group_above hw ih' hq hqp
              refine .inr ⟨q, hq, sets_ne hv, (conflicts_next hw hd q).2 (.inl ⟨v, hv, hprio, ?_⟩)⟩
              rw [h1]
              simp [clash, h2]
        · exact .inl ((sets_next hw hd p _).2 (.inr ⟨ih', hm⟩))
      · exact .inr ⟨q, hq, hq0, (conflicts_next hw hd q).2 (.inr ⟨hc, .inl hprio⟩)⟩

/-- A conflict is one if those of the same priority set the same parameters. -/
theorem fold_conflict {l : List (PM × Int)} (h : AllWF l) (hsort : l.Pairwise (fun a b => a.2 ≤ b.2))
    (huni : ∀ c ∈ l, ∀ d ∈ l, c.2 = d.2 → ∀ p, (∃ v, Sets c.1 p v) → ∃ v, Sets d.1 p v) {p : Path}
    (hp : p ∈ (l.foldl next {}).conflicts) :
    ∃ c ∈ l, ∃ d ∈ l, ∃ v w, c.2 = d.2 ∧ Sets c.1 p v ∧ Sets d.1 p w ∧ v ≠ w ∧ ∀ e ∈ l, c.2 < e.2 → ¬ ∃ v, Sets e.1 p v := by
  induction l using snoc_induction with
  | nil => simp at hp
  | append_singleton l d ih =>
    have hl : AllWF l := fun e he => h e (by simp [he])
    have hd : WF d.1 := h d (by simp)
    have hw := wf_fold hl (s := {}) .nil
    rw [List.pairwise_append] at hsort
    rw [foldl_snoc, conflicts_next hw hd] at hp
    have huni' : ∀ c ∈ l, ∀ d ∈ l, c.2 = d.2 → ∀ p, (∃ v, Sets c.1 p v) → ∃ v, Sets d.1 p v :=
      fun c hc d hd => huni c (by simp [hc]) d (by simp [hd])
    rcases hp with ⟨w, h1, h2, h3⟩ | ⟨h1, h2⟩
    · rcases eq_nil_or_snoc l with rfl | ⟨l1, e, rfl⟩
      · have : at' ({} : St).value p = none := by
          cases p with
          | nil => exact absurd rfl (sets_ne h1)
          | cons k p => rfl
        simp only [List.foldl_nil] at h3
        rw [this] at h3
        simp [clash] at h3
      · rw [prio_fold] at h2
        obtain ⟨v, hv⟩ := huni d (by simp) e (by simp) h2.symm p ⟨w, h1⟩
        have hl1 : AllWF l1 := fun e he => hl e (by simp [he])
        have hcur : Sets ((l1 ++ [e]).foldl next {}).value p v := by
          rw [foldl_snoc]
          exact (sets_next (wf_fold hl1 .nil) (hl e (by simp)) p v).2 (.inl hv)
        rw [(at_sets hw p v).2 hcur] at h3
        refine ⟨e, by simp, d, by simp, v, w, h2, hv, h1, ?_, ?_⟩
        · intro hvw; subst hvw
          cases v <;> simp [clash] at h3
        · intro x hx hlt
          exfalso
          simp only [List.mem_append, List.mem_singleton] at hx
          rcases hx with hx | rfl
          · rcases hx with hx | rfl
            · have := (List.pairwise_append.1 hsort.1).2.2 x hx e (by simp)
              omega
            · omega
          · omega
    · obtain ⟨c, hc, c', hc', v, w, e1, e2, e3, e4, e5⟩ := ih hl hsort.1 huni' h1
      refine ⟨c, by simp [hc], c', by simp [hc'], v, w, e1, e2, e3, e4, ?_⟩
      intro x hx hlt
      simp only [List.mem_append, List.mem_singleton] at hx
      rcases hx with hx | rfl
      · exact e5 x hx hlt
      · rcases h2 with h2 | h2
        · rcases eq_nil_or_snoc l with rfl | ⟨l1, e, rfl⟩
          · simp at hc
          · rw [prio_fold] at h2
            intro hx
            exact e5 e (by simp) (by omega) (huni x (by simp) e (by simp) h2.symm p hx)
        · exact h2

end Verif.Params
