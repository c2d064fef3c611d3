import Verif.Params.FoldLem

/-! # Lemmas about the contexts in which a module is loaded -/

namespace Verif.Params

theorem mem_insert (x c : PM × Int) (l : List (PM × Int)) : x ∈ insert c l ↔ x = c ∨ x ∈ l := by
  induction l with
  | nil => simp [insert]
  | cons d l ih =>
    simp only [insert]
    split
    · simp only [List.mem_cons, ih]; grind
    · simp

theorem sorted_insert (c : PM × Int) {l : List (PM × Int)} (h : l.Pairwise (fun a b => a.2 ≤ b.2)) :
    (insert c l).Pairwise (fun a b => a.2 ≤ b.2) := by
  induction l with
  | nil => simp [insert]
  | cons d l ih =>
    rw [List.pairwise_cons] at h
    simp only [insert]
    split
    · rename_i hlt
      rw [List.pairwise_cons]
      refine ⟨?_, ih h.2⟩
      intro x hx
      rcases (mem_insert x c l).1 hx with rfl | hx
      · omega
      · exact h.1 x hx
    · rename_i hlt
      rw [List.pairwise_cons, List.pairwise_cons]
      refine ⟨?_, h⟩
      intro x hx
      simp only [List.mem_cons] at hx
      rcases hx with rfl | hx
      · omega
      · have := h.1 x hx; omega

theorem fold_insert (cs : List Context) {l : List (PM × Int)} (h : l.Pairwise (fun a b => a.2 ≤ b.2)) :
    (cs.foldl (fun l c => insert (c.params, c.prio) l) l).Pairwise (fun a b => a.2 ≤ b.2) ∧
      ∀ x, x ∈ cs.foldl (fun l c => insert (c.params, c.prio) l) l ↔ x ∈ l ∨ ∃ c ∈ cs, x = (c.params, c.prio) := by
  induction cs generalizing l with
  | nil => exact ⟨h, by simp⟩
  | cons c cs ih =>
    obtain ⟨h1, h2⟩ := ih (sorted_insert (c.params, c.prio) h)
    refine ⟨h1, fun x => ?_⟩
    rw [List.foldl_cons, h2, mem_insert]
    simp only [List.mem_cons]
    constructor
    · rintro ((rfl | h) | ⟨d, hd, rfl⟩)
      · exact .inr ⟨c, .inl rfl, rfl⟩
      · exact .inl h
      · exact .inr ⟨d, .inr hd, rfl⟩
    · rintro (h | ⟨d, rfl | hd, rfl⟩)
      · exact .inl (.inr h)
      · exact .inl (.inl rfl)
      · exact .inr ⟨d, hd, rfl⟩

/-- The sorted list -/
def cands (defaults : PM) (absent : Nat → Bool) (cs : List Context) : List (PM × Int) :=
  (cs.filter (fun c => decide (c.params ≠ .nil) && !absent c.loader)).foldl
    (fun l c => insert (c.params, c.prio) l) [(defaults, intMin)]

theorem cands_sorted (defaults : PM) (absent : Nat → Bool) (cs : List Context) :
    (cands defaults absent cs).Pairwise (fun a b => a.2 ≤ b.2) := (fold_insert _ (by simp)).1

theorem mem_cands {defaults : PM} {absent : Nat → Bool} {cs : List Context} {x : PM × Int} :
    x ∈ cands defaults absent cs ↔
      x = (defaults, intMin) ∨ ∃ c ∈ cs, absent c.loader = false ∧ c.params ≠ .nil ∧ x = (c.params, c.prio) := by
  unfold cands
  rw [(fold_insert _ (by simp)).2 x]
  simp only [List.mem_singleton, List.mem_filter, Bool.and_eq_true, decide_eq_true_eq, Bool.not_eq_true']
  grind

theorem mergeAll_ok {l : List (PM × Int)} {m : PM} (h : mergeAll l = .ok m) :
    (l.foldl next {}).conflicts = [] ∧ (l.foldl next {}).value = m := by
  unfold mergeAll at h
  simp only at h
  split at h
  · cases h; exact ⟨by assumption, rfl⟩
  · cases h

theorem mergeAll_error {l : List (PM × Int)} {e : List Path} (h : mergeAll l = .error e) :
    (l.foldl next {}).conflicts ≠ [] := by
  unfold mergeAll at h
  simp only at h
  split at h
  · cases h
  · assumption

theorem sets_ne_nil {m p v} (h : Sets m p v) : m ≠ .nil := by
  intro h'; subst h'
  cases h with
  | here h => cases h
  | inside h _ => cases h

theorem mentions_ne_nil {m p} (h : Mentions m p) : m ≠ .nil := by
  rcases h with h | ⟨q, v, _, h⟩
  · intro h'; subst h'
    cases h with
    | here h => cases h
    | inside h _ => cases h
  · exact sets_ne_nil h

/-- Merging two maps for the same loader -/
theorem mergeTwo_ok {m1 m2 m : PM} (h1 : WF m1) (h2 : WF m2) (h : mergeTwo m1 m2 = .ok m) :
    WF m ∧ (∀ p v, Sets m p v → Sets m1 p v ∨ Sets m2 p v) ∧ (∀ p, Group m p → Group m1 p ∨ Group m2 p) ∧
      (∀ p a, Sets m1 p (some a) → ¬ Group m2 p → Sets m p (some a)) ∧ (∀ p v, Sets m2 p v → Sets m p v) := by
  obtain ⟨hc, rfl⟩ := mergeAll_ok h
  have ha : AllWF [(m1, 0), (m2, 0)] := by
    intro c hc; simp only [List.mem_cons, List.not_mem_nil, or_false] at hc
    rcases hc with rfl | rfl <;> assumption
  refine ⟨wf_fold ha .nil, ?_, ?_, ?_, ?_⟩
  · intro p v hs
    obtain ⟨l1, c, l2, he, hs, _⟩ := (fold_sets ha p v).1 hs
    have : c ∈ [(m1, (0 : Int)), (m2, 0)] := by rw [he]; simp
    simp only [List.mem_cons, List.not_mem_nil, or_false] at this
    rcases this with rfl | rfl
    · exact .inl hs
    · exact .inr hs
  · intro p hg
    rw [show [(m1, (0 : Int)), (m2, 0)] = [(m1, 0)] ++ [(m2, 0)] from rfl, foldl_snoc] at hg
    have hw : WF (([(m1, (0 : Int))]).foldl next {}).value := wf_next .nil h1
    rcases group_next hw h2 hg with hg | hg
    · exact .inr hg
    · have hw' : WF ({} : St).value := .nil
      rcases group_next hw' h1 hg with hg | hg
      · exact .inl hg
      · cases hg with
        | here h => cases h
        | inside h _ => cases h
  · intro p a hs hg
    rcases fold_value (l1 := []) (c := (m1, 0)) (l2 := [(m2, 0)]) ha (by simp) hs
      (by intro d hd; simp only [List.mem_singleton] at hd; subst hd; simp)
      (by intro d hd _; simp only [List.mem_singleton] at hd; subst hd; exact hg) with h | ⟨q, _, _, hq⟩
    · exact h
    · rw [List.nil_append] at hq; rw [hc] at hq; cases hq
  · intro p v hs
    exact (fold_sets ha p v).2 ⟨[(m1, 0)], (m2, 0), [], rfl, hs, by simp⟩

theorem mergeTwo_error {m1 m2 : PM} {e : List Path} (h1 : WF m1) (h2 : WF m2) (h : mergeTwo m1 m2 = .error e) :
    ∃ p w, Sets m2 p w ∧ ((∃ a, Sets m1 p (some a) ∧ w ≠ some a) ∨ Group m1 p) := by
  have hne := mergeAll_error h
  rw [show [(m1, (0 : Int)), (m2, 0)] = [(m1, 0)] ++ [(m2, 0)] from rfl, foldl_snoc] at hne
  have hw' : WF ({} : St).value := .nil
  have hw : WF (([(m1, (0 : Int))]).foldl next {}).value := wf_next hw' h1
  obtain ⟨p, hp⟩ := List.exists_mem_of_ne_nil _ hne
  rcases (conflicts_next hw h2 p).1 hp with ⟨w, hs, _, hcl⟩ | ⟨hp, _⟩
  · refine ⟨p, w, hs, ?_⟩
    cases hat : at' (([(m1, (0 : Int))]).foldl next {}).value p with
    | none => rw [hat] at hcl; simp [clash] at hcl
    | some e =>
      cases e with
      | leaf v =>
        have hv := (at_sets hw p v).1 hat
        rw [hat] at hcl
        cases v with
        | none => simp [clash] at hcl
        | some a =>
          simp only [clash, decide_eq_true_eq] at hcl
          rcases (sets_next hw' h1 p _).1 hv with hv | ⟨hv, _⟩
          · exact .inl ⟨a, hv, hcl⟩
          · exact absurd rfl (sets_ne_nil hv)
      | map m' =>
        have hg := (at_group hw p (sets_ne hs)).1 ⟨m', hat⟩
        rcases group_next hw' h1 hg with hg | hg
        · exact .inr hg
        · cases hg with
          | here h => cases h
          | inside h _ => cases h
  · rcases (conflicts_next hw' h1 p).1 hp with ⟨_, _, h3, _⟩ | ⟨h3, _⟩
    · exact absurd h3 (by simp [intMin])
    · cases h3

/-- What holds of the contexts that come from these items -/
structure Inv (rs cs : List Context) : Prop where
  wf : ∀ c ∈ cs, WF c.params
  src : ∀ c ∈ cs, ∃ r ∈ rs, r.loader = c.loader ∧ r.chain = c.chain
  sets : ∀ c ∈ cs, ∀ p v, Sets c.params p v → ∃ r ∈ rs, r.loader = c.loader ∧ Sets r.params p v
  group : ∀ c ∈ cs, ∀ p, Group c.params p → ∃ r ∈ rs, r.loader = c.loader ∧ Group r.params p
  keep : ∀ r ∈ rs, ∀ p a, Sets r.params p (some a) → (∀ r' ∈ rs, r'.loader = r.loader → ¬ Group r'.params p) →
    ∃ c ∈ cs, c.loader = r.loader ∧ Sets c.params p (some a)

theorem addContext_inv {c : Context} {cs cs' rs : List Context} (hc : WF c.params) (hi : Inv rs cs)
    (h : addContext c cs = .ok cs') : Inv (rs ++ [c]) cs' := by
  -- either the context is new, or it is merged with another one
  have key : (∀ d ∈ cs', d ∈ cs ∨ d = c ∨ ∃ e ∈ cs, e.loader = c.loader ∧ d.loader = c.loader ∧ d.chain = e.chain ∧
        mergeTwo e.params c.params = .ok d.params) ∧
      (∀ d ∈ cs, d ∈ cs' ∨ (d.loader = c.loader ∧ ∃ e ∈ cs', e.loader = c.loader ∧ mergeTwo d.params c.params = .ok e.params)) ∧
      (∃ d ∈ cs', d.loader = c.loader ∧ (d = c ∨ ∃ e ∈ cs, mergeTwo e.params c.params = .ok d.params)) := by
    clear hi
    induction cs generalizing cs' with
    | nil => simp only [addContext] at h; cases h; simp
    | cons d l ih =>
      simp only [addContext] at h
      split at h
      · rename_i hl
        cases hm : mergeTwo d.params c.params with
        | error e => rw [hm] at h; cases h
        | ok m =>
          rw [hm] at h
          cases h
          refine ⟨?_, ?_, ?_⟩
          · intro x hx
            simp only [List.mem_cons] at hx
            rcases hx with rfl | hx
            · exact .inr (.inr ⟨d, by simp, hl, hl, rfl, hm⟩)
            · exact .inl (by simp [hx])
          · intro x hx
            simp only [List.mem_cons] at hx
            rcases hx with rfl | hx
            · exact .inr ⟨hl, { x with params := m }, by simp, hl, hm⟩
            · exact .inl (by simp [hx])
          · exact ⟨{ d with params := m }, by simp, hl, .inr ⟨d, by simp, hm⟩⟩
      · rename_i hl
        cases hm : addContext c l with
        | error e => rw [hm] at h; cases h
        | ok l' =>
          rw [hm] at h
          cases h
          obtain ⟨i1, i2, d', i3, i4, i5⟩ := ih hm
          refine ⟨?_, ?_, ?_⟩
          · intro x hx
            simp only [List.mem_cons] at hx
            rcases hx with rfl | hx
            · exact .inl (by simp)
            · rcases i1 x hx with h | h | ⟨e, he, h⟩
              · exact .inl (by simp [h])
              · exact .inr (.inl h)
              · exact .inr (.inr ⟨e, by simp [he], h⟩)
          · intro x hx
            simp only [List.mem_cons] at hx
            rcases hx with rfl | hx
            · exact .inl (by simp)
            · rcases i2 x hx with h | ⟨h, e, he, h'⟩
              · exact .inl (by simp [h])
              · exact .inr ⟨h, e, by simp [he], h'⟩
          · exact ⟨d', by simp [i3], i4, i5.imp_right fun ⟨e, he, h⟩ => ⟨e, by simp [he], h⟩⟩
  obtain ⟨k1, k2, d0, k3, k4, k5⟩ := key
  refine ⟨?_, ?_, ?_, ?_, ?_⟩
  · intro d hd
    rcases k1 d hd with h | rfl | ⟨e, he, _, _, _, hm⟩
    · exact hi.wf d h
    · exact hc
    · exact (mergeTwo_ok (hi.wf e he) hc hm).1
  · intro d hd
    rcases k1 d hd with h | rfl | ⟨e, he, h1, h2, h3, hm⟩
    · obtain ⟨r, hr, h⟩ := hi.src d h; exact ⟨r, by simp [hr], h⟩
    · exact ⟨d, by simp, rfl, rfl⟩
    · obtain ⟨r, hr, h⟩ := hi.src e he
      exact ⟨r, by simp [hr], by rw [h.1, h1, h2], by rw [h.2, h3]⟩
  · intro d hd p v hs
    rcases k1 d hd with h | rfl | ⟨e, he, h1, h2, h3, hm⟩
    · obtain ⟨r, hr, h⟩ := hi.sets d h p v hs; exact ⟨r, by simp [hr], h⟩
    · exact ⟨d, by simp, rfl, hs⟩
    · rcases (mergeTwo_ok (hi.wf e he) hc hm).2.1 p v hs with hs | hs
      · obtain ⟨r, hr, h⟩ := hi.sets e he p v hs
        exact ⟨r, by simp [hr], by rw [h.1, h1, h2], h.2⟩
      · exact ⟨c, by simp, h2.symm, hs⟩
  · intro d hd p hs
    rcases k1 d hd with h | rfl | ⟨e, he, h1, h2, h3, hm⟩
    · obtain ⟨r, hr, h⟩ := hi.group d h p hs; exact ⟨r, by simp [hr], h⟩
    · exact ⟨d, by simp, rfl, hs⟩
    · rcases (mergeTwo_ok (hi.wf e he) hc hm).2.2.1 p hs with hs | hs
      · obtain ⟨r, hr, h⟩ := hi.group e he p hs
        exact ⟨r, by simp [hr], by rw [h.1, h1, h2], h.2⟩
      · exact ⟨c, by simp, h2.symm, hs⟩
  · intro r hr p a hs hg
    simp only [List.mem_append, List.mem_singleton] at hr
    rcases hr with hr | rfl
    · obtain ⟨d, hd, hl, hs'⟩ := hi.keep r hr p a hs (fun r' hr' => hg r' (by simp [hr']))
      rcases k2 d hd with h | ⟨h1, e, he, h2, hm⟩
      · exact ⟨d, h, hl, hs'⟩
      · refine ⟨e, he, by rw [h2, ← h1, hl], ?_⟩
        exact (mergeTwo_ok (hi.wf d hd) hc hm).2.2.2.1 p a hs' (hg c (by simp) (by rw [← h1, hl]))
    · refine ⟨d0, k3, k4, ?_⟩
      rcases k5 with rfl | ⟨e, he, hm⟩
      · exact hs
      · exact (mergeTwo_ok (hi.wf e he) hc hm).2.2.2.2 p _ hs

theorem contexts_inv {rs : List Context} {rs0 cs0 cs : List Context} (hw : ∀ r ∈ rs, WF r.params) (hi : Inv rs0 cs0)
    (h : contexts cs0 rs = .ok cs) : Inv (rs0 ++ rs) cs := by
  induction rs generalizing rs0 cs0 with
  | nil => simp only [contexts] at h; cases h; simpa using hi
  | cons r rs ih =>
    simp only [contexts] at h
    cases ha : addContext r cs0 with
    | error e => rw [ha] at h; cases h
    | ok cs1 =>
      rw [ha] at h
      have := ih (fun r' hr' => hw r' (by simp [hr'])) (addContext_inv (hw r (by simp)) hi ha) h
      rw [List.append_assoc] at this
      exact this

theorem inv_nil : Inv [] [] := ⟨by simp, by simp, by simp, by simp, by simp⟩

theorem addContext_error {c : Context} {cs rs : List Context} {e : List Path} (hc : WF c.params) (hi : Inv rs cs)
    (h : addContext c cs = .error e) :
    ∃ r ∈ rs, r.loader = c.loader ∧ ∃ p w, Sets c.params p w ∧ ((∃ a, Sets r.params p (some a) ∧ w ≠ some a) ∨ Group r.params p) := by
  have key : ∃ d ∈ cs, d.loader = c.loader ∧ ∃ e, mergeTwo d.params c.params = .error e := by
    clear hi
    induction cs with
    | nil => simp [addContext] at h
    | cons d l ih =>
      simp only [addContext] at h
      split at h
      · rename_i hl
        cases hm : mergeTwo d.params c.params with
        | error e => exact ⟨d, by simp, hl, e, hm⟩
        | ok m => rw [hm] at h; cases h
      · cases hm : addContext c l with
        | error e =>
          rw [hm] at h; cases h
          obtain ⟨d', hd', h'⟩ := ih hm
          exact ⟨d', by simp [hd'], h'⟩
        | ok l' => rw [hm] at h; cases h
  obtain ⟨d, hd, hl, e', hm⟩ := key
  obtain ⟨p, w, h1, h2⟩ := mergeTwo_error (hi.wf d hd) hc hm
  rcases h2 with ⟨a, h2, h3⟩ | h2
  · obtain ⟨r, hr, h4, h5⟩ := hi.sets d hd p _ h2
    exact ⟨r, hr, by rw [h4, hl], p, w, h1, .inl ⟨a, h5, h3⟩⟩
  · obtain ⟨r, hr, h4, h5⟩ := hi.group d hd p h2
    exact ⟨r, hr, by rw [h4, hl], p, w, h1, .inr h5⟩

theorem contexts_error {rs : List Context} {rs0 cs0 : List Context} {e : List Path} (hw : ∀ r ∈ rs, WF r.params)
    (hi : Inv rs0 cs0) (h : contexts cs0 rs = .error e) :
    ∃ r ∈ rs0 ++ rs, ∃ r' ∈ rs0 ++ rs, r.loader = r'.loader ∧
      ∃ p w, Sets r'.params p w ∧ ((∃ a, Sets r.params p (some a) ∧ w ≠ some a) ∨ Group r.params p) := by
  induction rs generalizing rs0 cs0 with
  | nil => simp [contexts] at h
  | cons r rs ih =>
    simp only [contexts] at h
    cases ha : addContext r cs0 with
    | error e =>
      obtain ⟨r', hr', h1, h2⟩ := addContext_error (hw r (by simp)) hi ha
      exact ⟨r', by simp [hr'], r, by simp, h1, h2⟩
    | ok cs1 =>
      rw [ha] at h
      obtain ⟨x, hx, y, hy, h'⟩ := ih (fun r' hr' => hw r' (by simp [hr'])) (addContext_inv (hw r (by simp)) hi ha) h
      rw [List.append_assoc] at hx hy
      exact ⟨x, hx, y, hy, h'⟩

end Verif.Params
