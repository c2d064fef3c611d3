import Verif.Params.Spec

/-! # Lemmas about maps and merging -/

namespace Verif.Params

theorem get_iff {m : PM} (h : WF m) (k : String) (e : Entry) : m.get k = some e ↔ Has m k e := by
  induction m with
  | nil => exact ⟨fun h => by simp [PM.get] at h, fun h => by cases h⟩
  | leaf k' v r ih =>
    cases h with
    | leaf hn hr =>
      simp only [PM.get]
      split
      · rename_i hk; subst hk
        constructor
        · intro h; cases h; exact .leaf
        · intro h; cases h with
          | leaf => rfl
          | skipLeaf h => exact absurd h (hn _)
      · rename_i hk
        rw [ih hr]
        constructor
        · exact .skipLeaf
        · intro h; cases h with
          | leaf => exact absurd rfl hk
          | skipLeaf h => exact h
  | sub k' m r _ ih =>
    cases h with
    | sub hn hm hr =>
      simp only [PM.get]
      split
      · rename_i hk; subst hk
        constructor
        · intro h; cases h; exact .sub
        · intro h; cases h with
          | sub => rfl
          | skipSub h => exact absurd h (hn _)
      · rename_i hk
        rw [ih hr]
        constructor
        · exact .skipSub
        · intro h; cases h with
          | sub => exact absurd rfl hk
          | skipSub h => exact h

theorem get_none {m : PM} (h : WF m) (k : String) : m.get k = none ↔ ∀ e, ¬ Has m k e := by
  constructor
  · intro hn e he
    rw [(get_iff h k e).2 he] at hn; cases hn
  · intro hn
    cases hg : m.get k with
    | none => rfl
    | some e => exact absurd ((get_iff h k e).1 hg) (hn e)

theorem wf_sub {m m' : PM} {k : String} (h : WF m) (hm : Has m k (.map m')) : WF m' := by
  induction m with
  | nil => cases hm
  | leaf k' v r ih =>
    cases h with
    | leaf hn hr => cases hm with
      | skipLeaf hm => exact ih hr hm
  | sub k' m r _ ih =>
    cases h with
    | sub hn h1 hr => cases hm with
      | sub => exact h1
      | skipSub hm => exact ih hr hm

theorem get_putLeaf (m : PM) (k k' : String) (v : Leaf) :
    (m.putLeaf k v).get k' = if k = k' then some (.leaf v) else m.get k' := by
  induction m with
  | nil => simp [PM.putLeaf, PM.get]
  | leaf a b r ih => grind [PM.putLeaf, PM.get]
  | sub a b r _ ih => grind [PM.putLeaf, PM.get]

theorem get_putSub (m : PM) (k k' : String) (x : PM) :
    (PM.putSub k x m).get k' = if k = k' then some (.map x) else m.get k' := by
  induction m with
  | nil => simp [PM.putSub, PM.get]
  | leaf a b r ih => grind [PM.putSub, PM.get]
  | sub a b r _ ih => grind [PM.putSub, PM.get]

theorem wf_leaf {k v r} : WF (.leaf k v r) ↔ r.get k = none ∧ WF r := by
  constructor
  · intro h; cases h with
    | leaf hn hr => exact ⟨(get_none hr k).2 hn, hr⟩
  · intro h; exact .leaf ((get_none h.2 k).1 h.1) h.2

theorem wf_subC {k m r} : WF (.sub k m r) ↔ r.get k = none ∧ WF m ∧ WF r := by
  constructor
  · intro h; cases h with
    | sub hn hm hr => exact ⟨(get_none hr k).2 hn, hm, hr⟩
  · intro h; exact .sub ((get_none h.2.2 k).1 h.1) h.2.1 h.2.2

theorem wf_putLeaf {m : PM} (h : WF m) (k : String) (v : Leaf) : WF (m.putLeaf k v) := by
  induction m with
  | nil => exact wf_leaf.2 ⟨rfl, .nil⟩
  | leaf a b r ih =>
    rw [wf_leaf] at h
    simp only [PM.putLeaf]; split
    · rename_i ha; subst ha; exact wf_leaf.2 h
    · rename_i ha
      refine wf_leaf.2 ⟨?_, ih h.2⟩
      rw [get_putLeaf, if_neg (fun h => ha h.symm)]; exact h.1
  | sub a b r _ ih =>
    rw [wf_subC] at h
    simp only [PM.putLeaf]; split
    · rename_i ha; subst ha; exact wf_leaf.2 ⟨h.1, h.2.2⟩
    · rename_i ha
      refine wf_subC.2 ⟨?_, h.2.1, ih h.2.2⟩
      rw [get_putLeaf, if_neg (fun h => ha h.symm)]; exact h.1

theorem wf_putSub {m : PM} (h : WF m) (k : String) {x : PM} (hx : WF x) : WF (PM.putSub k x m) := by
  induction m with
  | nil => exact wf_subC.2 ⟨rfl, hx, .nil⟩
  | leaf a b r ih =>
    rw [wf_leaf] at h
    simp only [PM.putSub]; split
    · rename_i ha; subst ha; exact wf_subC.2 ⟨h.1, hx, h.2⟩
    · rename_i ha
      refine wf_leaf.2 ⟨?_, ih h.2⟩
      rw [get_putSub, if_neg (fun h => ha h.symm)]; exact h.1
  | sub a b r _ ih =>
    rw [wf_subC] at h
    simp only [PM.putSub]; split
    · rename_i ha; subst ha; exact wf_subC.2 ⟨h.1, hx, h.2.2⟩
    · rename_i ha
      refine wf_subC.2 ⟨?_, h.2.1, ih h.2.2⟩
      rw [get_putSub, if_neg (fun h => ha h.symm)]; exact h.1

theorem wf_toMap {m : PM} (h : WF m) (k : String) : WF (toMap (m.get k)) := by
  unfold toMap
  split
  · rename_i m' hg; exact wf_sub h ((get_iff h k _).1 hg)
  · exact .nil

theorem wf_merge {same : Bool} {path : Path} {cur : PM} {cs : List Path} {n : PM} (hc : WF cur) (hn : WF n) :
    WF (merge same path cur cs n).1 := by
  induction n generalizing path cur cs with
  | nil => exact hc
  | leaf k v r ih => exact ih (wf_putLeaf hc k v) (wf_leaf.1 hn).2
  | sub k m r ih1 ih =>
    have h := wf_subC.1 hn
    exact ih (wf_putSub hc k (ih1 (wf_toMap hc k) h.2.1)) h.2.2

/-- What is at this path -/
def at' : PM → Path → Option Entry
  | m, [] => some (.map m)
  | m, k :: p => match m.get k with
    | none => none
    | some (.leaf v) => if p = [] then some (.leaf v) else none
    | some (.map m') => at' m' p

theorem at_sets {m : PM} (h : WF m) (p : Path) (v : Leaf) : at' m p = some (.leaf v) ↔ Sets m p v := by
  induction p generalizing m with
  | nil => exact ⟨fun h => by simp [at'] at h, fun h => by cases h⟩
  | cons k p ih =>
    simp only [at']
    split
    · rename_i hg
      constructor
      · intro h; cases h
      · intro hs
        cases hs with
        | here hh => rw [(get_iff h k _).2 hh] at hg; cases hg
        | inside hh _ => rw [(get_iff h k _).2 hh] at hg; cases hg
    · rename_i w hg
      have hw := (get_iff h k _).1 hg
      constructor
      · intro hs
        split at hs
        · rename_i hp; subst hp; cases hs; exact .here hw
        · cases hs
      · intro hs
        cases hs with
        | here hh => rw [(get_iff h k _).2 hh] at hg; cases hg; simp
        | inside hh _ => rw [(get_iff h k _).2 hh] at hg; cases hg
    · rename_i m' hg
      have hw := (get_iff h k _).1 hg
      rw [ih (wf_sub h hw)]
      constructor
      · exact .inside hw
      · intro hs
        cases hs with
        | here hh => rw [(get_iff h k _).2 hh] at hg; cases hg
        | inside hh hs => rw [(get_iff h k _).2 hh] at hg; cases hg; exact hs

theorem at_group {m : PM} (h : WF m) (p : Path) (hp : p ≠ []) : (∃ m', at' m p = some (.map m')) ↔ Group m p := by
  induction p generalizing m with
  | nil => exact absurd rfl hp
  | cons k p ih =>
    simp only [at']
    split
    · rename_i hg
      constructor
      · intro ⟨_, h⟩; cases h
      · intro hs
        cases hs with
        | here hh => rw [(get_iff h k _).2 hh] at hg; cases hg
        | inside hh _ => rw [(get_iff h k _).2 hh] at hg; cases hg
    · rename_i w hg
      constructor
      · intro ⟨_, hs⟩
        split at hs <;> cases hs
      · intro hs
        cases hs with
        | here hh => rw [(get_iff h k _).2 hh] at hg; cases hg
        | inside hh _ => rw [(get_iff h k _).2 hh] at hg; cases hg
    · rename_i m' hg
      have hw := (get_iff h k _).1 hg
      cases p with
      | nil => exact ⟨fun _ => .here hw, fun _ => ⟨m', rfl⟩⟩
      | cons k' p' =>
        rw [ih (wf_sub h hw) (by simp)]
        constructor
        · exact .inside hw
        · intro hs
          cases hs with
          | inside hh hs => rw [(get_iff h k _).2 hh] at hg; cases hg; exact hs

/-- Says something about this path, by following it -/
def says : PM → Path → Bool
  | _, [] => true
  | m, k :: p => match m.get k with
    | none => false
    | some (.leaf _) => true
    | some (.map m') => says m' p

theorem says_iff {m : PM} (h : WF m) (p : Path) (hp : p ≠ []) : says m p = true ↔ Mentions m p := by
  induction p generalizing m with
  | nil => exact absurd rfl hp
  | cons k p ih =>
    simp only [says]
    split
    · rename_i hg
      have hn := (get_none h k).1 hg
      constructor
      · intro h; cases h
      · rintro (hs | ⟨q, v, ⟨t, hq⟩, hs⟩)
        · cases hs with
          | here hh => exact absurd hh (hn _)
          | inside hh _ => exact absurd hh (hn _)
        · cases hs with
          | here hh => cases hq; exact absurd hh (hn _)
          | inside hh _ => cases hq; exact absurd hh (hn _)
    · rename_i w hg
      have hw := (get_iff h k _).1 hg
      exact ⟨fun _ => .inr ⟨[k], w, ⟨p, rfl⟩, .here hw⟩, fun _ => rfl⟩
    · rename_i m' hg
      have hw := (get_iff h k _).1 hg
      have huniq : ∀ e, Has m k e → e = .map m' := fun e he => by
        have := (get_iff h k _).2 he; rw [hg] at this; cases this; rfl
      cases p with
      | nil =>
        exact ⟨fun _ => .inl (.here hw), fun _ => by simp [says]⟩
      | cons k' p' =>
        rw [ih (wf_sub h hw) (by simp)]
        constructor
        · rintro (hs | ⟨q, v, ⟨t, hq⟩, hs⟩)
          · exact .inl (.inside hw hs)
          · exact .inr ⟨k :: q, v, ⟨t, by rw [← hq]; rfl⟩, .inside hw hs⟩
        · rintro (hs | ⟨q, v, ⟨t, hq⟩, hs⟩)
          · cases hs with
            | inside hh hs => cases huniq _ hh; exact .inl hs
          · cases hs with
            | here hh => cases hq; cases huniq _ hh
            | inside hh hs =>
              injection hq with h1 h2
              subst h1
              cases huniq _ hh
              exact .inr ⟨_, v, ⟨t, h2⟩, hs⟩

theorem get_merge {same : Bool} {path : Path} {cur : PM} {cs : List Path} {n : PM} (hn : WF n) (k : String) :
    (merge same path cur cs n).1.get k = match n.get k with
      | none => cur.get k
      | some (.leaf v) => some (.leaf v)
      | some (.map m) => some (.map (merge same [] (toMap (cur.get k)) [] m).1) := by
  have hfst : ∀ (n cur : PM) (p p' : Path) (cs cs' : List Path), (merge same p cur cs n).1 = (merge same p' cur cs' n).1 := by
    intro n
    induction n with
    | nil => intros; rfl
    | leaf k v r ih => intros; exact ih _ _ _ _ _
    | sub k m r ih1 ih =>
      intro cur p p' cs cs'
      simp only [merge]
      rw [ih1 _ (p ++ [k]) (p' ++ [k]) cs cs']
      exact ih _ _ _ _ _
  induction n generalizing path cur cs with
  | nil => rfl
  | leaf k' v r ih =>
    have h := wf_leaf.1 hn
    simp only [merge, PM.get]
    rw [ih h.2, get_putLeaf]
    by_cases hk : k' = k
    · subst hk; simp [h.1]
    · simp only [hk, if_false]
  | sub k' m r _ ih =>
    have h := wf_subC.1 hn
    simp only [merge, PM.get]
    rw [ih h.2.2, get_putSub]
    by_cases hk : k' = k
    · subst hk; simp only [h.1, if_true]; rw [hfst]
    · simp only [hk, if_false]

theorem at_merge {same : Bool} {path : Path} {cur : PM} {cs : List Path} {n : PM} (hn : WF n) (p : Path) (v : Leaf) :
    at' (merge same path cur cs n).1 p = some (.leaf v) ↔
      at' n p = some (.leaf v) ∨ (at' cur p = some (.leaf v) ∧ says n p = false) := by
  induction p generalizing path cur cs n with
  | nil => simp [at']
  | cons k p ih =>
    simp only [at', says]
    rw [get_merge hn]
    cases hg : n.get k with
    | none => simp
    | some e =>
      cases e with
      | leaf w => simp
      | map m =>
        simp only
        rw [ih (wf_sub hn ((get_iff hn k _).1 hg))]
        constructor
        · rintro (h | ⟨h, h'⟩)
          · exact .inl h
          · refine .inr ⟨?_, h'⟩
            revert h
            cases hc : cur.get k with
            | none => cases p <;> simp [toMap, at', PM.get]
            | some e =>
              cases e with
              | leaf w => cases p <;> simp [toMap, at', PM.get]
              | map m' => exact id
        · rintro (h | ⟨h, h'⟩)
          · exact .inl h
          · refine .inr ⟨?_, h'⟩
            revert h
            cases hc : cur.get k with
            | none => simp
            | some e =>
              cases e with
              | leaf w =>
                cases p with
                | nil => simp [says] at h'
                | cons _ _ => simp
              | map m' => exact id

/-- What one round does to the conflicts at one path -/
theorem conflicts_merge {same : Bool} {path : Path} {cur : PM} {cs : List Path} {n : PM} (hn : WF n) (c : Path) :
    c ∈ (merge same path cur cs n).2 ↔
      ((∃ p v, c = path ++ p ∧ at' n p = some (.leaf v) ∧ same = true ∧ clash (at' cur p) v = true) ∨
        (c ∈ cs ∧ (same = true ∨ ¬ ∃ p v, c = path ++ p ∧ at' n p = some (.leaf v)))) := by
  induction n generalizing path cur cs with
  | nil =>
    have h : ∀ p v, at' .nil p ≠ some (.leaf v) := by intro p v; cases p <;> simp [at', PM.get]
    simp only [merge]
    constructor
    · intro hc; exact .inr ⟨hc, .inr fun ⟨p, v, _, h'⟩ => h p v h'⟩
    · rintro (⟨p, v, _, h', _⟩ | ⟨hc, _⟩)
      · exact absurd h' (h p v)
      · exact hc
  | leaf k v r ih =>
    have h := wf_leaf.1 hn
    simp only [merge]
    rw [ih h.2]
    have hat : ∀ p w, at' (.leaf k v r) p = some (.leaf w) ↔ (p = [k] ∧ w = v) ∨ at' r p = some (.leaf w) := by
      intro p w
      cases p with
      | nil => simp [at']
      | cons k' p' =>
        by_cases hk : k = k'
        · subst hk
          simp only [at', PM.get, if_true, h.1]
          by_cases hp : p' = [] <;> simp [hp, eq_comm]
        · simp only [at', PM.get, hk, if_false]
          constructor
          · exact .inr
          · rintro (⟨he, _⟩ | h)
            · cases he; exact absurd rfl hk
            · exact h
    have hcur : ∀ p w, at' r p = some (.leaf w) → at' (cur.putLeaf k v) p = at' cur p := by
      intro p w hp
      cases p with
      | nil => simp [at'] at hp
      | cons k' p' =>
        have hk : k ≠ k' := by intro hk; subst hk; simp [at', h.1] at hp
        simp only [at']; rw [get_putLeaf, if_neg hk]
    have hck : clash (at' cur [k]) v = clash (cur.get k) v := by
      simp only [at']
      cases cur.get k with
      | none => rfl
      | some e => cases e <;> simp
    cases same with
    | true =>
      simp only [if_true]
      constructor
      · rintro (⟨p, w, hc, hp, _, hcl⟩ | ⟨hc, _⟩)
        · rw [hcur p w hp] at hcl
          exact .inl ⟨p, w, hc, (hat p w).2 (.inr hp), trivial, hcl⟩
        · split at hc
          · rename_i hx
            rw [List.mem_append, List.mem_singleton] at hc
            rcases hc with hc | hc
            · exact .inr ⟨hc, .inl trivial⟩
            · exact .inl ⟨[k], v, hc, (hat _ _).2 (.inl ⟨rfl, rfl⟩), trivial, by rw [hck]; exact hx⟩
          · exact .inr ⟨hc, .inl trivial⟩
      · rintro (⟨p, w, hc, hp, _, hcl⟩ | ⟨hc, _⟩)
        · rcases (hat p w).1 hp with ⟨rfl, rfl⟩ | hp
          · refine .inr ⟨?_, .inl trivial⟩
            rw [if_pos (by rw [← hck]; exact hcl)]
            simp [hc]
          · exact .inl ⟨p, w, hc, hp, trivial, by rw [hcur p w hp]; exact hcl⟩
        · refine .inr ⟨?_, .inl trivial⟩
          split
          · simp [hc]
          · exact hc
    | false =>
      simp only [Bool.false_eq_true, if_false, false_and, and_false, false_or, exists_false, List.mem_filter, decide_eq_true_eq]
      constructor
      · rintro ⟨⟨hc, hne⟩, hno⟩
        refine ⟨hc, ?_⟩
        rintro ⟨p, w, he, hp⟩
        rcases (hat p w).1 hp with ⟨rfl, rfl⟩ | hp
        · exact hne he
        · exact hno ⟨p, w, he, hp⟩
      · rintro ⟨hc, hno⟩
        refine ⟨⟨hc, fun he => hno ⟨[k], v, he, (hat _ _).2 (.inl ⟨rfl, rfl⟩)⟩⟩, ?_⟩
        rintro ⟨p, w, he, hp⟩
        exact hno ⟨p, w, he, (hat p w).2 (.inr hp)⟩
  | sub k m r ih1 ih =>
    have h := wf_subC.1 hn
    simp only [merge]
    rw [ih h.2.2, ih1 h.2.1]
    have hat : ∀ p w, at' (.sub k m r) p = some (.leaf w) ↔
        (∃ p', p = k :: p' ∧ at' m p' = some (.leaf w)) ∨ at' r p = some (.leaf w) := by
      intro p w
      cases p with
      | nil => simp [at']
      | cons k' p' =>
        by_cases hk : k = k'
        · subst hk
          simp [at', PM.get, h.1]
        · simp only [at', PM.get, hk, if_false]
          constructor
          · exact .inr
          · rintro (⟨p', he, _⟩ | h)
            · cases he; exact absurd rfl hk
            · exact h
    have hcur : ∀ x p w, at' r p = some (.leaf w) → at' (PM.putSub k x cur) p = at' cur p := by
      intro x p w hp
      cases p with
      | nil => simp [at'] at hp
      | cons k' p' =>
        have hk : k ≠ k' := by intro hk; subst hk; simp [at', h.1] at hp
        simp only [at']; rw [get_putSub, if_neg hk]
    have hm : ∀ p w, at' m p = some (.leaf w) → at' (toMap (cur.get k)) p = at' cur (k :: p) := by
      intro p w hp
      cases p with
      | nil => simp [at'] at hp
      | cons k' p' =>
        rw [at'.eq_def cur]
        simp only
        cases hc : cur.get k with
        | none => simp [toMap, at', PM.get]
        | some e => cases e <;> simp [toMap, at', PM.get]
    constructor
    · rintro (⟨p, w, hc, hp, hs, hcl⟩ | ⟨⟨p, w, hc, hp, hs, hcl⟩ | ⟨hc, h1⟩, h2⟩)
      · exact .inl ⟨p, w, hc, (hat p w).2 (.inr hp), hs, by rw [← hcur _ p w hp]; exact hcl⟩
      · refine .inl ⟨k :: p, w, by simp [hc], (hat _ w).2 (.inl ⟨p, rfl, hp⟩), hs, ?_⟩
        rw [← hm p w hp]; exact hcl
      · refine .inr ⟨hc, ?_⟩
        rcases h1 with h1 | h1
        · exact .inl h1
        rcases h2 with h2 | h2
        · exact .inl h2
        right
        rintro ⟨p, w, he, hp⟩
        rcases (hat p w).1 hp with ⟨p', rfl, hp'⟩ | hp
        · exact h1 ⟨p', w, by simp [he], hp'⟩
        · exact h2 ⟨p, w, he, hp⟩
    · rintro (⟨p, w, hc, hp, hs, hcl⟩ | ⟨hc, h1⟩)
      · rcases (hat p w).1 hp with ⟨p', rfl, hp'⟩ | hp
        · refine .inr ⟨.inl ⟨p', w, by simp [hc], hp', hs, ?_⟩, .inl hs⟩
          rw [hm p' w hp']; exact hcl
        · exact .inl ⟨p, w, hc, hp, hs, by rw [hcur _ p w hp]; exact hcl⟩
      · right
        rcases h1 with h1 | h1
        · exact ⟨.inr ⟨hc, .inl h1⟩, .inl h1⟩
        · refine ⟨.inr ⟨hc, .inr ?_⟩, .inr ?_⟩
          · rintro ⟨p, w, he, hp⟩
            exact h1 ⟨k :: p, w, by simp [he], (hat _ w).2 (.inl ⟨p, rfl, hp⟩)⟩
          · rintro ⟨p, w, he, hp⟩
            exact h1 ⟨p, w, he, (hat p w).2 (.inr hp)⟩

end Verif.Params
