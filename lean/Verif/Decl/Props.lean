import Verif.Decl.Lem3

/-! C121: what is set must be declared. -/
namespace Verif.Decl

variable {h : Heap} {root : Nat}

theorem check_inv (wf : Shape h) (hr : ¬ HasType h root .modulePrefix) :
    ∃ s', s'.reports = check h root ∧ Inv h (projRoot h root) root NoE ⟨[], []⟩ s' ∧
      (Enter h (projRoot h root) root → root ∈ s'.handled) := by
  have := handle_ok (proj := projRoot h root) (root := root) wf (h.length + 1) [] [] root ⟨[], []⟩
    (ctx_plain hr) (fun he => .root he) (Nat.lt_succ_of_le (cnt_le _ _))
  exact ⟨_, rfl, this.1, this.2⟩

/-- **C121.** The check reports exactly the properties that are set without being declared, and the
uses of modules that do not exist, in the items that belong to the one that is checked. -/
theorem C121_reports (wf : Shape h) (hr : ¬ HasType h root .modulePrefix) (i : Nat) (n : Str) (k : Bool) :
    (∃ r ∈ check h root, r.item = i ∧ r.name = n ∧ r.isItem = k) ↔
      Checked h (projRoot h root) root i ∧ Looked h i ∧ Wrong h i n k := by
  obtain ⟨s', e, ⟨w, rs, e1, e2, e3, e4, e5, _, _⟩, hroot⟩ := check_inv wf hr
  simp only [List.append_nil] at e1
  simp only [List.nil_append] at e3
  have hall : ∀ x, Checked h (projRoot h root) root x → x ∈ w := by
    intro x hx
    induction hx with
    | root he => rw [← e1]; exact hroot he
    | edge _ hl hy he ih => rw [← e1]; exact e4 _ ih hl _ hy he
  have hkey : (∃ r ∈ check h root, r.item = i ∧ r.name = n ∧ r.isItem = k) ↔
      (i, n, k) ∈ rs.map Report.key := by
    rw [← e, e3, List.mem_map]
    simp only [Report.key, Prod.mk.injEq]
  rw [hkey, e5]
  simp only [or_false]
  exact ⟨fun ⟨a, b⟩ => ⟨(e2 i a).2, b⟩, fun ⟨a, b⟩ => ⟨hall i a, b⟩⟩

theorem sets_unique (wf : Shape h) {i : Nat} {n : Str} {v v' : Val} (a : Sets h i n v)
    (b : Sets h i n v') : v = v' := by
  obtain ⟨it, hi, hm, _⟩ := a
  obtain ⟨it', hi', hm', _⟩ := b
  rw [hi] at hi'; cases hi'
  have hnd := wf.names it (List.mem_of_getElem? hi)
  clear hi
  generalize it.props = l at hm hm' hnd
  induction l with
  | nil => cases hm
  | cons p l ih =>
    simp only [List.map_cons, List.nodup_cons] at hnd
    rcases List.mem_cons.mp hm with e | e <;> rcases List.mem_cons.mp hm' with e' | e'
    · rw [← e] at e'; cases e'; rfl
    · exact absurd (List.mem_map.mpr ⟨_, e', by rw [← e]⟩) hnd.1
    · exact absurd (List.mem_map.mpr ⟨_, e, by rw [← e']⟩) hnd.1
    · exact ih e e' hnd.2

/-- **C121.** Nothing is reported twice. -/
theorem C121_once (wf : Shape h) (hr : ¬ HasType h root .modulePrefix) :
    ((check h root).map (fun r => (r.item, r.name))).Nodup := by
  have hrep := C121_reports wf hr
  obtain ⟨s', e, ⟨w, rs, e1, e2, e3, e4, e5, _, e7⟩, hroot⟩ := check_inv wf hr
  simp only [List.nil_append] at e3
  rw [← e, e3] at hrep ⊢
  unfold List.Nodup at e7 ⊢
  rw [List.pairwise_map] at e7 ⊢
  refine List.Pairwise.imp_of_mem ?_ e7
  intro a b ha hb hne heq
  apply hne
  simp only [Prod.mk.injEq] at heq
  obtain ⟨q1, q2⟩ := heq
  have wa := ((hrep a.item a.name a.isItem).mp ⟨a, ha, rfl, rfl, rfl⟩).2.2
  have wb := ((hrep b.item b.name b.isItem).mp ⟨b, hb, rfl, rfl, rfl⟩).2.2
  rw [← q1, ← q2] at wb
  simp only [Report.key, Prod.mk.injEq]
  refine ⟨q1, q2, ?_⟩
  generalize a.isItem = ka at wa ⊢
  generalize b.isItem = kb at wb ⊢
  cases ka <;> cases kb
  · rfl
  · obtain ⟨j, b', s1, _⟩ := wb
    have := sets_unique wf wa s1
    cases this
  · obtain ⟨j, b', s1, _⟩ := wa
    have := sets_unique wf s1 wb
    cases this
  · rfl

/-- **C121.** The name in a message is the full name, with all parts of the name of the module. -/
theorem C121_names (wf : Shape h) (hr : ¬ HasType h root .modulePrefix) :
    ∀ r ∈ check h root, ∃ l, PathTo h r.item l ∧ r.path = l ++ [r.name] := by
  obtain ⟨s', e, ⟨w, rs, e1, e2, e3, e4, e5, e6, e7⟩, hroot⟩ := check_inv wf hr
  simp only [List.nil_append] at e3
  rw [← e, e3]
  exact e6

/-- **C121.** With strict checking an error is thrown if and only if something would be reported
otherwise, and it is about something that is wrong. -/
theorem C121_strict (wf : Shape h) (hr : ¬ HasType h root .modulePrefix) :
    (checkStrict h root = none ↔
      ∀ i n k, Checked h (projRoot h root) root i → Looked h i → ¬ Wrong h i n k) ∧
    (∀ r, checkStrict h root = some r →
      Checked h (projRoot h root) root r.item ∧ Looked h r.item ∧ Wrong h r.item r.name r.isItem) := by
  have hrep := C121_reports wf hr
  refine ⟨?_, ?_⟩
  · unfold checkStrict
    rw [List.head?_eq_none_iff]
    constructor
    · intro e i n k a b c
      obtain ⟨r, hm, _⟩ := (hrep i n k).mpr ⟨a, b, c⟩
      rw [e] at hm; cases hm
    · intro hf
      cases hc : check h root with
      | nil => rfl
      | cons r l =>
        obtain ⟨a, b, c⟩ := (hrep r.item r.name r.isItem).mp ⟨r, by rw [hc]; simp, rfl, rfl, rfl⟩
        exact absurd c (hf _ _ _ a b)
  · intro r e
    have hm : r ∈ check h root := List.mem_of_mem_head? (by
      unfold checkStrict at e; rw [e]; rfl)
    exact (hrep _ _ _).mp ⟨r, hm, rfl, rfl, rfl⟩

theorem inside_checked {i : Nat} (hi : Inside h root i) :
    Checked h (projRoot h root) root i ∧ Looked h i := by
  induction hi with
  | @root it hit h1 h2 h3 h4 h5 h6 =>
    have hl : Looked h root := ⟨it, hit, h6, by simp [h1, h2, h3, h4], fun e => absurd e h5⟩
    refine ⟨.root ⟨it, hit, ?_⟩, hl⟩
    rintro ⟨hp, ht⟩
    simp [projRoot, hit, ht] at hp
  | @child i c it t _ hit hc ht hty hg hp hd ih =>
    simp only [List.mem_cons, List.not_mem_nil, or_false, not_or] at hty
    obtain ⟨t1, t2, t3, t4, t5, t6, t7, t8⟩ := hty
    refine ⟨.edge ih.1 ih.2 (.child hit hc ht (by simp [t1, t2, t3, t4]) ?_) ⟨t, ht, fun e => hp e.1 e.2⟩,
      ⟨t, ht, hd, by simp [t1, t5, t7, t8], fun e => absurd e t6⟩⟩
    intro e
    exact ⟨fun e' => hg ⟨e, .inl e'⟩, fun e' => hg ⟨e, .inr e'⟩⟩
  | @module i j n b it t _ hit hm hd ha hp ht hty hdis ih =>
    have hnp : it.type ≠ .properties := by
      obtain ⟨x, hx, _, hs, _⟩ := ih.2
      rw [hit] at hx; cases hx
      intro e
      simp [e] at hs
    refine ⟨.edge ih.1 ih.2 (.value ⟨it, hit, hm, hd⟩ ?_ ?_ ?_) ⟨t, ht, ?_⟩, ⟨t, ht, hdis, ?_, ?_⟩⟩
    · rintro ⟨x, hx, e⟩
      rw [hit] at hx; cases hx; exact hp e
    · rintro (e | e | ⟨e, _⟩)
      · exact ha ((hasType_iff hit _).mp e)
      · exact hnp ((hasType_iff hit _).mp e)
      · have := (hasType_iff ht _).mp e
        rcases hty with hty | hty <;> simp [this] at hty
    · rintro ⟨e1, e2, _⟩
      rcases hty with hty | hty
      · exact e1 ⟨t, ht, hty.1⟩
      · exact e2 ⟨t, ht, hty⟩
    · rintro ⟨_, e⟩
      rcases hty with hty | hty <;> simp [e] at hty
    · rcases hty with hty | hty <;> simp [hty]
    · intro e
      rcases hty with hty | hty
      · exact hty.2
      · rw [hty] at e; cases e

/-- **C121.** A property that is set somewhere inside a product and that is not declared is reported.
Partial: not if it is set in a `Properties` item only (see `C121_finding_block`), and not in groups of
modules (see `C121_finding_module_group`). -/
theorem C121_undeclared_partial (wf : Shape h) (hr : ¬ HasType h root .modulePrefix) {i : Nat} {n : Str}
    (hi : Inside h root i) (hs : Sets h i n (.js false)) : Reported h root i n := by
  obtain ⟨a, b⟩ := inside_checked hi
  obtain ⟨r, hm, e1, e2, _⟩ := (C121_reports wf hr i n false).mpr ⟨a, b, hs⟩
  exact ⟨r, hm, e1, e2⟩

/-- **C121.** The use of a module that does not exist is reported.  Partial: not in `Artifact` items,
groups and `Properties` items (see `C121_finding_artifact`, `C121_finding_group`,
`C121_finding_block_module`). -/
theorem C121_no_module_partial (wf : Shape h) (hr : ¬ HasType h root .modulePrefix) {i j : Nat} {n : Str}
    (hi : Inside h root i) (hs : Sets h i n (.item j false)) (hj : HasType h j .placeholder)
    (hid : ∀ it, h[i]? = some it → n ∉ it.ids) (hp : ¬ ProviderMap h i n)
    (ha : ¬ HasType h i .artifact) (hg : ¬ InGroup h i) : Reported h root i n := by
  obtain ⟨a, b⟩ := inside_checked hi
  obtain ⟨t, ht, hty⟩ := id hj
  have hnp : ¬ HasType h i .properties := by
    obtain ⟨x, hx, _, hsk, _⟩ := b
    rintro ⟨y, hy, e⟩
    rw [hx] at hy; cases hy
    simp [e] at hsk
  have hu : ¬ Unchecked h i j := by
    rintro (e | e | e)
    · exact ha e
    · exact hnp e
    · exact hg e.2
  have hn : NoModule h i n j false := by
    refine ⟨?_, ?_, hid, rfl⟩ <;> rw [hasType_iff ht, hty] <;> simp
  obtain ⟨r, hm, e1, e2, _⟩ :=
    (C121_reports wf hr i n true).mpr ⟨a, b, j, false, hs, ⟨t, ht⟩, hp, hu, hn⟩
  exact ⟨r, hm, e1, e2⟩

/-- **C121.** A property that is declared is never reported. -/
theorem C121_declared (wf : Shape h) (hr : ¬ HasType h root .modulePrefix) {i : Nat} {n : Str} {it : Item}
    (hi : h[i]? = some it) (hd : n ∈ it.decls) : ¬ Reported h root i n := by
  rintro ⟨r, hm, e1, e2⟩
  have := ((C121_reports wf hr i n r.isItem).mp ⟨r, hm, e1, e2, rfl⟩).2.2
  cases hk : r.isItem <;> rw [hk] at this
  · obtain ⟨x, hx, _, hn⟩ := this
    rw [hi] at hx; cases hx; exact hn hd
  · obtain ⟨j, b, ⟨x, hx, _, hn⟩, _⟩ := this
    rw [hi] at hx; cases hx; exact hn hd

/-- **C121 finding.** A property that is set in a `Properties` item, and nowhere else in the item, is
never reported, whatever its name is. -/
theorem C121_finding_block (wf : Shape h) (hr : ¬ HasType h root .modulePrefix) {i : Nat} {n : Str}
    (hs : Sets h i n (.js true)) : ¬ Reported h root i n := by
  rintro ⟨r, hm, e1, e2⟩
  have := ((C121_reports wf hr i n r.isItem).mp ⟨r, hm, e1, e2, rfl⟩).2.2
  cases hk : r.isItem <;> rw [hk] at this
  · have := sets_unique wf hs this; cases this
  · obtain ⟨j, b, s, _⟩ := this
    have := sets_unique wf hs s; cases this

/-- **C121 finding.** The use of a module in a `Properties` item is never reported, whether there is
such a module or not. -/
theorem C121_finding_block_module (wf : Shape h) (hr : ¬ HasType h root .modulePrefix) {i j : Nat}
    {n : Str} (hs : Sets h i n (.item j true)) : ¬ Reported h root i n := by
  rintro ⟨r, hm, e1, e2⟩
  have := ((C121_reports wf hr i n r.isItem).mp ⟨r, hm, e1, e2, rfl⟩).2.2
  cases hk : r.isItem <;> rw [hk] at this
  · have := sets_unique wf hs this; cases this
  · obtain ⟨j', b, s, _, _, _, _, _, _, hb⟩ := this
    have := sets_unique wf hs s
    simp only [Val.item.injEq] at this
    rw [← this.2] at hb; cases hb

/-- **C121 finding.** In `Artifact` items the use of a module that does not exist is never reported. -/
theorem C121_finding_artifact (wf : Shape h) (hr : ¬ HasType h root .modulePrefix) {i j : Nat} {n : Str}
    {b : Bool} (hi : HasType h i .artifact) (hs : Sets h i n (.item j b)) : ¬ Reported h root i n := by
  rintro ⟨r, hm, e1, e2⟩
  have := ((C121_reports wf hr i n r.isItem).mp ⟨r, hm, e1, e2, rfl⟩).2.2
  cases hk : r.isItem <;> rw [hk] at this
  · have := sets_unique wf hs this; cases this
  · obtain ⟨j', b, s, _, _, hu, _⟩ := this
    exact hu (.inl hi)

/-- **C121 finding.** In groups the use of a module that does not exist is never reported. -/
theorem C121_finding_group (wf : Shape h) (hr : ¬ HasType h root .modulePrefix) {i j : Nat} {n : Str}
    {b : Bool} (hi : HasType h i .group) (hs : Sets h i n (.item j b)) (hj : HasType h j .placeholder) :
    ¬ Reported h root i n := by
  rintro ⟨r, hm, e1, e2⟩
  have := ((C121_reports wf hr i n r.isItem).mp ⟨r, hm, e1, e2, rfl⟩).2.2
  cases hk : r.isItem <;> rw [hk] at this
  · have := sets_unique wf hs this; cases this
  · obtain ⟨j', b, s, _, _, hu, _⟩ := this
    have := sets_unique wf hs s
    cases this
    exact hu (.inr (.inr ⟨hj, .group hi⟩))

end Verif.Decl
