import Verif.Decl.Lem2

namespace Verif.Decl

variable {h : Heap} {proj : Bool} {root : Nat}

/-- What is claimed of handling one item. -/
def RecOk (h : Heap) (proj : Bool) (root : Nat) (n : Nat) : Prop :=
  ∀ st m i s, CtxOk h st m i → (Enter h proj i → Checked h proj root i) → cnt h s < n →
    Inv h proj root NoE s (handle h proj n st m i s) ∧
      (Enter h proj i → i ∈ (handle h proj n st m i s).handled)

/-- The items to which the properties seen so far lead are handled. -/
def Done (h : Heap) (proj : Bool) (i : Nat) (it : Item) (done : List (Str × Val)) (s : St) : Prop :=
  ∀ n j b, (n, Val.item j b) ∈ done → n ∉ it.decls → ¬ ProviderMap h i n → ¬ Unchecked h i j →
    ¬ NoModule h i n j b → Enter h proj j → j ∈ s.handled

theorem done_snoc {i : Nat} {it : Item} {done : List (Str × Val)} {p : Str × Val} {s s' : St}
    (d : Done h proj i it done s) (hsub : ∀ x ∈ s.handled, x ∈ s'.handled)
    (hp : ∀ j b, p.2 = .item j b → p.1 ∉ it.decls → ¬ ProviderMap h i p.1 → ¬ Unchecked h i j →
      ¬ NoModule h i p.1 j b → Enter h proj j → j ∈ s'.handled) :
    Done h proj i it (done ++ [p]) s' := by
  intro n j b hm h1 h2 h3 h4 h5
  rcases List.mem_append.mp hm with hm | hm
  · exact hsub _ (d n j b hm h1 h2 h3 h4 h5)
  · have := List.mem_singleton.mp hm
    subst this
    exact hp j b rfl h1 h2 h3 h4 h5

theorem own_handled {i : Nat} {it : Item} {done : List (Str × Val)} {s : St} (hi : i ∈ s.handled) :
    ∀ x n k, Own h i it done x n k → x ∈ s.handled := by
  rintro x n k ⟨rfl, _⟩; exact hi

theorem propStep_ok (wf : Shape h) {f : Nat} (ih : RecOk h proj root f) {st : List Nat} {m : List Str}
    {i : Nat} {it : Item} (hit : h[i]? = some it) (c : CtxOk h st m i) (hc : Checked h proj root i)
    (hl : Looked h i) {s0 s : St} (h0 : i ∈ s0.handled) (hcnt : cnt h s0 < f)
    {done : List (Str × Val)} {p : Str × Val} (hm : p ∈ it.props) (hfresh : p.1 ∉ done.map (·.1))
    (a : Inv h proj root (Own h i it done) s0 s) (d : Done h proj i it done s) :
    Inv h proj root (Own h i it (done ++ [p])) s0 (propStep h (handle h proj f) st m i it s p) ∧
      Done h proj i it (done ++ [p]) (propStep h (handle h proj f) st m i it s p) := by
  have hpath := c.path it hit
  have hprov : ∀ n, ProviderMap h i n ↔ it.type = .product ∧ n = sProviders := by
    intro n
    constructor
    · rintro ⟨x, hx, e⟩; rw [hit] at hx; cases hx; exact e
    · intro e; exact ⟨it, hit, e⟩
  have hnot : ∀ k, ¬ Own h i it done i p.1 k := by
    rintro k ⟨_, v, hv, _⟩
    exact hfresh (List.mem_map.mpr ⟨_, hv, rfl⟩)
  have hcs : cnt h s < f := Nat.lt_of_le_of_lt (cnt_mono (inv_sub a)) hcnt
  unfold propStep
  split
  · rename_i hp
    refine ⟨inv_congr a ?_, done_snoc d (fun _ hx => hx) ?_⟩
    · intro x n k
      rw [own_snoc]
      refine ⟨.inl, fun e => e.elim id ?_⟩
      rintro ⟨_, rfl, _, hw⟩
      have h2 := hp.2.2
      cases hv : p.2 with
      | js b => rw [hv] at h2; cases h2
      | variant => rw [hv] at h2; cases h2
      | item j b =>
        rw [hv] at hw
        exact absurd ((hprov _).mpr ⟨hp.1, hp.2.1⟩) hw.2.2.1
    · intro j b _ _ h2
      exact absurd ((hprov _).mpr ⟨hp.1, hp.2.1⟩) h2
  rename_i hp
  split
  · rename_i hdecl
    refine ⟨inv_congr a ?_, done_snoc d (fun _ hx => hx) ?_⟩
    · intro x n k
      rw [own_snoc]
      refine ⟨.inl, fun e => e.elim id ?_⟩
      rintro ⟨_, rfl, h', _⟩
      exact absurd hdecl h'
    · intro j b _ h'
      exact absurd hdecl h'
  rename_i hdecl
  cases hv : p.2 with
  | variant =>
    refine ⟨inv_congr a ?_, done_snoc d (fun _ hx => hx) ?_⟩
    · intro x n k
      rw [own_snoc, hv]
      refine ⟨.inl, fun e => e.elim id ?_⟩
      rintro ⟨_, rfl, _, h'⟩
      exact h'.elim
    · intro j b e; rw [hv] at e; cases e
  | js b =>
    cases b with
    | true =>
      refine ⟨inv_congr a ?_, done_snoc d (fun _ hx => hx) ?_⟩
      · intro x n k
        rw [own_snoc, hv]
        refine ⟨.inl, fun e => e.elim id ?_⟩
        rintro ⟨_, rfl, _, h'⟩
        cases h'.1
      · intro j b e; rw [hv] at e; cases e
    | false =>
      refine ⟨inv_congr (inv_report a ⟨i, p.1, false, _⟩ h0 (hnot _) ⟨_, hpath, rfl⟩) ?_,
        done_snoc d (fun _ hx => hx) ?_⟩
      · intro x n k
        rw [own_snoc, hv]
        refine or_congr_right ?_
        simp only [Report.key, Prod.mk.injEq]
        constructor
        · rintro ⟨rfl, rfl, rfl⟩; exact ⟨rfl, rfl, hdecl, rfl, rfl⟩
        · rintro ⟨rfl, rfl, _, _, rfl⟩; exact ⟨rfl, rfl, rfl⟩
      · intro j b e; rw [hv] at e; cases e
  | item j b =>
    have hnp : ¬ ProviderMap h i p.1 := by
      rw [hprov]
      rintro ⟨e1, e2⟩
      exact hp ⟨e1, e2, by rw [hv]; rfl⟩
    have hsets : Sets h i p.1 (.item j b) := ⟨it, hit, by rw [← hv]; exact hm, hdecl⟩
    simp only
    cases hj : h[j]? with
    | none =>
      refine ⟨inv_congr a ?_, done_snoc d (fun _ hx => hx) ?_⟩
      · intro x n k
        rw [own_snoc, hv]
        refine ⟨.inl, fun e => e.elim id ?_⟩
        rintro ⟨_, rfl, _, _, ⟨t, ht⟩, _⟩
        rw [hj] at ht; cases ht
      · intro j' b' e _ _ _ _ ⟨t, ht, _⟩
        rw [hv] at e; cases e
        rw [hj] at ht; cases ht
    | some t =>
      obtain ⟨k1, k2, k3⟩ := checkItem_spec (n := p.1) (b := b) hit hj c.group
      simp only
      cases hck : checkItem it t p.1 b (inGroup h (i :: st)) with
      | stop =>
        have hu := k1.mp hck
        refine ⟨inv_congr a ?_, done_snoc d (fun _ hx => hx) ?_⟩
        · intro x n k
          rw [own_snoc, hv]
          refine ⟨.inl, fun e => e.elim id ?_⟩
          rintro ⟨_, rfl, _, _, _, _, h', _⟩
          exact absurd hu h'
        · intro j' b' e _ _ h'
          rw [hv] at e; cases e
          exact absurd hu h'
      | error =>
        have hu := k2.mp hck
        refine ⟨inv_congr (inv_report a ⟨i, p.1, true, _⟩ h0 (hnot _) ⟨_, hpath, rfl⟩) ?_,
          done_snoc d (fun _ hx => hx) ?_⟩
        · intro x n k
          rw [own_snoc, hv]
          refine or_congr_right ?_
          simp only [Report.key, Prod.mk.injEq]
          constructor
          · rintro ⟨rfl, rfl, rfl⟩; exact ⟨rfl, rfl, hdecl, rfl, ⟨t, hj⟩, hnp, hu.1, hu.2⟩
          · rintro ⟨rfl, rfl, _, rfl, _⟩; exact ⟨rfl, rfl, rfl⟩
        · intro j' b' e _ _ _ h'
          rw [hv] at e; cases e
          exact absurd hu.2 h'
      | descend =>
        have hu := k3.mp hck
        obtain ⟨g1, g2⟩ := ih (i :: st) ((if it.type = .modulePrefix then m else []) ++ [p.1]) j s
          (ctx_value wf hit c hsets) (fun he => .edge hc hl (.value hsets hnp hu.1 hu.2) he) hcs
        refine ⟨inv_congr (inv_trans a (own_handled (inv_sub a _ h0)) g1) ?_,
          done_snoc d (inv_sub g1) ?_⟩
        · intro x n k
          rw [own_snoc, hv]
          refine ⟨.inl, fun e => e.elim id ?_⟩
          rintro ⟨_, rfl, _, _, _, _, _, h'⟩
          exact absurd h' hu.2
        · intro j' b' e _ _ _ _ he
          rw [hv] at e; cases e
          exact g2 he

theorem props_ok (wf : Shape h) {f : Nat} (ih : RecOk h proj root f) {st : List Nat} {m : List Str}
    {i : Nat} {it : Item} (hit : h[i]? = some it) (c : CtxOk h st m i) (hc : Checked h proj root i)
    (hl : Looked h i) {s0 : St} (h0 : i ∈ s0.handled) (hcnt : cnt h s0 < f) :
    ∀ (rest done : List (Str × Val)) (s : St), done ++ rest = it.props →
      Inv h proj root (Own h i it done) s0 s → Done h proj i it done s →
      Inv h proj root (Own h i it it.props) s0 (rest.foldl (propStep h (handle h proj f) st m i it) s) ∧
      Done h proj i it it.props (rest.foldl (propStep h (handle h proj f) st m i it) s) := by
  intro rest
  induction rest with
  | nil =>
    intro done s e a d
    simp only [List.append_nil] at e
    subst e
    exact ⟨a, d⟩
  | cons p rest ihr =>
    intro done s e a d
    have hnd := wf.names it (List.mem_of_getElem? hit)
    rw [← e, List.map_append, List.nodup_append] at hnd
    have hfresh : p.1 ∉ done.map (·.1) := fun hx => hnd.2.2 _ hx p.1 (by simp) rfl
    obtain ⟨x, y⟩ := propStep_ok wf ih hit c hc hl h0 hcnt (p := p) (by rw [← e]; simp) hfresh a d
    exact ihr (done ++ [p]) _ (by rw [← e]; simp) x y

theorem children_ok (wf : Shape h) {f : Nat} (ih : RecOk h proj root f) {st : List Nat} {m : List Str}
    {i : Nat} {it : Item} (hit : h[i]? = some it) (hc : Checked h proj root i)
    (hl : Looked h i) {s0 : St} (h0 : i ∈ s0.handled) (hcnt : cnt h s0 < f) :
    ∀ (rest : List Nat) (s : St), (∀ x ∈ rest, x ∈ it.children) →
      Inv h proj root (Own h i it it.props) s0 s →
      Inv h proj root (Own h i it it.props) s0 (rest.foldl (childStep h (handle h proj f) st m it) s) ∧
      (∀ x ∈ s.handled, x ∈ (rest.foldl (childStep h (handle h proj f) st m it) s).handled) ∧
      (∀ x ∈ rest, ∀ t, h[x]? = some t → childOk it t = true → Enter h proj x →
        x ∈ (rest.foldl (childStep h (handle h proj f) st m it) s).handled) := by
  intro rest
  induction rest with
  | nil => intro s _ a; exact ⟨a, fun _ hx => hx, fun x hx => by cases hx⟩
  | cons y rest ihr =>
    intro s hsub a
    have hy := hsub y (by simp)
    have hrest : ∀ x ∈ rest, x ∈ it.children := fun x hx => hsub x (List.mem_cons_of_mem _ hx)
    simp only [List.foldl_cons]
    have hcs : cnt h s < f := Nat.lt_of_le_of_lt (cnt_mono (inv_sub a)) hcnt
    have key : Inv h proj root (Own h i it it.props) s0 (childStep h (handle h proj f) st m it s y) ∧
        (∀ x ∈ s.handled, x ∈ (childStep h (handle h proj f) st m it s y).handled) ∧
        (∀ t, h[y]? = some t → childOk it t = true → Enter h proj y →
          y ∈ (childStep h (handle h proj f) st m it s y).handled) := by
      unfold childStep
      cases hyt : h[y]? with
      | none => exact ⟨a, fun _ hx => hx, fun t e => by cases e⟩
      | some t =>
        simp only
        split
        · rename_i hok
          obtain ⟨g1, g2⟩ := ih st m y s (ctx_plain (wf.child it (List.mem_of_getElem? hit) y hy))
            (fun he => .edge hc hl (.child hit hy hyt ((childOk_iff _ _).mp hok).1 ((childOk_iff _ _).mp hok).2) he) hcs
          exact ⟨inv_trans a (own_handled (inv_sub a _ h0)) g1, inv_sub g1, fun _ _ _ he => g2 he⟩
        · rename_i hok
          refine ⟨a, fun _ hx => hx, fun t' e ho => ?_⟩
          cases e
          exact absurd ho hok
    obtain ⟨k1, k2, k3⟩ := key
    obtain ⟨r1, r2, r3⟩ := ihr _ hrest k1
    refine ⟨r1, fun x hx => r2 x (k2 x hx), ?_⟩
    intro x hx t ht ho he
    rcases List.mem_cons.mp hx with e | e
    · subst e
      exact r2 _ (k3 t ht ho he)
    · exact r3 x e t ht ho he

theorem handle_ok (wf : Shape h) : ∀ n, RecOk h proj root n := by
  intro n
  induction n with
  | zero => intro st m i s _ _ hc; omega
  | succ f ih =>
    intro st m i s c hc hcnt
    simp only [handle]
    cases hi : h[i]? with
    | none =>
      refine ⟨inv_refl s, ?_⟩
      rintro ⟨t, ht, _⟩; rw [hi] at ht; cases ht
    | some it =>
      simp only
      by_cases hp : proj = true ∧ it.type = .product
      · rw [if_pos hp]
        refine ⟨inv_refl s, ?_⟩
        rintro ⟨t, ht, hn⟩; rw [hi] at ht; cases ht; exact absurd hp hn
      rw [if_neg hp]
      have hent : Enter h proj i := ⟨it, hi, hp⟩
      have hck := hc hent
      by_cases hh : i ∈ s.handled
      · rw [if_pos hh]; exact ⟨inv_refl s, fun _ => hh⟩
      rw [if_neg hh]
      have hlt : i < h.length := (List.getElem?_eq_some_iff.mp hi).1
      have hmark := cnt_mark hlt hh
      by_cases hs : skipped it = true
      · rw [if_pos hs]
        refine ⟨⟨[i], [], rfl, ?_, by simp, ?_, ?_, by simp, by simp⟩, fun _ => by simp⟩
        · intro x hx; rw [List.mem_singleton.mp hx]; exact ⟨hh, hck⟩
        · intro x hx hl
          rw [List.mem_singleton.mp hx] at hl
          obtain ⟨t, ht, hn⟩ := looked_iff.mp hl
          rw [hi] at ht; cases ht; rw [hs] at hn; cases hn
        · intro x n k
          simp only [List.map_nil, List.not_mem_nil, List.mem_singleton, or_false, false_iff]
          rintro ⟨rfl, hlk, _⟩
          obtain ⟨t, ht, hn⟩ := looked_iff.mp hlk
          rw [hi] at ht; cases ht; rw [hs] at hn; cases hn
      · rw [if_neg hs]
        have hl : Looked h i := looked_iff.mpr ⟨it, hi, by simpa using hs⟩
        let s0 : St := { s with handled := i :: s.handled }
        have h0 : i ∈ s0.handled := by simp [s0]
        have hc0 : cnt h s0 < f := by
          have : cnt h s0 < cnt h s := hmark
          omega
        obtain ⟨p1, p2⟩ := props_ok wf ih hi c hck hl h0 hc0 it.props [] s0 rfl
          (inv_congr (inv_refl s0) (by intro x n k; simp [NoE, Own]))
          (by intro n j b hm; cases hm)
        obtain ⟨q1, q2, q3⟩ := children_ok wf ih (st := st) (m := m) hi hck hl h0 hc0 it.children _
          (fun _ hx => hx) p1
        have hmem := inv_sub q1 i h0
        refine ⟨?_, fun _ => hmem⟩
        obtain ⟨w, rs, e1, e2, e3, e4, e5, e6, e7⟩ := q1
        refine ⟨w ++ [i], rs, ?_, ?_, e3, ?_, ?_, e6, e7⟩
        · rw [e1]; simp [s0]
        · intro x hx
          rcases List.mem_append.mp hx with hx | hx
          · exact ⟨fun h' => (e2 x hx).1 (List.mem_cons_of_mem _ h'), (e2 x hx).2⟩
          · rw [List.mem_singleton.mp hx]; exact ⟨hh, hck⟩
        · intro x hx hlx y hy he
          rcases List.mem_append.mp hx with hx | hx
          · exact e4 x hx hlx y hy he
          · have hxi := List.mem_singleton.mp hx
            subst hxi
            cases hy with
            | child g1 g2 g3 g4 g5 =>
              rw [hi] at g1; cases g1
              exact q3 y g2 _ g3 ((childOk_iff _ _).mpr ⟨g4, g5⟩) he
            | value g1 g2 g3 g4 =>
              obtain ⟨t, ht, hm, hd⟩ := g1
              rw [hi] at ht; cases ht
              exact q2 _ (p2 _ _ _ hm hd g2 g3 g4 he)
        · intro x n k
          rw [e5, own_all hi, List.mem_append, List.mem_singleton]
          constructor
          · rintro (⟨a, b⟩ | ⟨rfl, b⟩)
            · exact .inl ⟨.inl a, b⟩
            · exact .inl ⟨.inr rfl, hl, b⟩
          · rintro (⟨a | rfl, b⟩ | a)
            · exact .inl ⟨a, b⟩
            · exact .inr ⟨rfl, b.2⟩
            · exact a.elim

theorem cnt_le (h : Heap) (s : St) : cnt h s ≤ h.length := by
  unfold cnt
  refine Nat.le_trans (List.length_filter_le _ _) ?_
  simp

end Verif.Decl
