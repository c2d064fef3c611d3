import Verif.Decl.Lem

namespace Verif.Decl

def Report.key (r : Report) : Nat × Str × Bool := (r.item, r.name, r.isItem)

/-- How many items are still to be handled. -/
def cnt (h : Heap) (s : St) : Nat := ((List.range h.length).filter (fun x => x ∉ s.handled)).length

theorem filter_length_mono {α : Type} (p q : α → Bool) (l : List α) (hpq : ∀ x ∈ l, p x = true → q x = true) :
    (l.filter p).length ≤ (l.filter q).length := by
  induction l with
  | nil => simp
  | cons a l ih =>
    have := ih (fun x hx => hpq x (List.mem_cons_of_mem _ hx))
    have ha := hpq a (by simp)
    simp only [List.filter_cons]
    cases hp : p a <;> cases hq : q a <;> simp_all <;> omega

theorem filter_length_lt {α : Type} (p q : α → Bool) (l : List α) (hpq : ∀ x ∈ l, p x = true → q x = true)
    (a : α) (ha : a ∈ l) (h1 : p a = false) (h2 : q a = true) :
    (l.filter p).length < (l.filter q).length := by
  induction l with
  | nil => cases ha
  | cons b l ih =>
    simp only [List.filter_cons]
    rcases List.mem_cons.mp ha with e | e
    · subst e
      have := filter_length_mono p q l (fun x hx => hpq x (List.mem_cons_of_mem _ hx))
      simp [h1, h2]; omega
    · have := ih (fun x hx => hpq x (List.mem_cons_of_mem _ hx)) e
      have hb := hpq b (by simp)
      cases hp : p b <;> cases hq : q b <;> simp_all <;> omega

theorem cnt_mono {h : Heap} {s s' : St} (hs : ∀ x ∈ s.handled, x ∈ s'.handled) : cnt h s' ≤ cnt h s := by
  unfold cnt
  apply filter_length_mono
  intro x _ hx
  simp only [decide_eq_true_eq] at hx ⊢
  exact fun h' => hx (hs x h')

theorem cnt_mark {h : Heap} {s : St} {i : Nat} (hi : i < h.length) (hn : i ∉ s.handled) :
    cnt h { s with handled := i :: s.handled } < cnt h s := by
  unfold cnt
  apply filter_length_lt (a := i)
  · intro x _ hx
    simp only [decide_eq_true_eq, List.mem_cons, not_or] at hx ⊢
    exact hx.2
  · simpa using hi
  · simp
  · simpa using hn

/-- What a part of the check does: which items are handled and which reports are added.  `E` gives
the reports for an item whose handling has begun before. -/
def Inv (h : Heap) (proj : Bool) (root : Nat) (E : Nat → Str → Bool → Prop) (s s' : St) : Prop :=
  ∃ w rs, s'.handled = w ++ s.handled ∧ (∀ x ∈ w, x ∉ s.handled ∧ Checked h proj root x) ∧
    s'.reports = s.reports ++ rs ∧
    (∀ x ∈ w, Looked h x → ∀ y, Edge h x y → Enter h proj y → y ∈ s'.handled) ∧
    (∀ x n k, (x, n, k) ∈ rs.map Report.key ↔ (x ∈ w ∧ Looked h x ∧ Wrong h x n k) ∨ E x n k) ∧
    (∀ r ∈ rs, ∃ l, PathTo h r.item l ∧ r.path = l ++ [r.name]) ∧
    (rs.map Report.key).Nodup

abbrev NoE : Nat → Str → Bool → Prop := fun _ _ _ => False

variable {h : Heap} {proj : Bool} {root : Nat}

theorem inv_refl (s : St) : Inv h proj root NoE s s :=
  ⟨[], [], rfl, by simp, by simp, by simp, by simp, by simp, by simp⟩

theorem inv_sub {E : Nat → Str → Bool → Prop} {s s' : St} (i : Inv h proj root E s s') :
    ∀ x ∈ s.handled, x ∈ s'.handled := by
  obtain ⟨w, rs, e, _⟩ := i
  intro x hx; rw [e]; exact List.mem_append_right _ hx

theorem inv_trans {E : Nat → Str → Bool → Prop} {s s1 s2 : St} (a : Inv h proj root E s s1)
    (hE : ∀ x n k, E x n k → x ∈ s1.handled) (b : Inv h proj root NoE s1 s2) :
    Inv h proj root E s s2 := by
  have hsub := inv_sub b
  obtain ⟨w, rs, e1, e2, e3, e4, e5, e6, e7⟩ := a
  obtain ⟨v, qs, f1, f2, f3, f4, f5, f6, f7⟩ := b
  refine ⟨v ++ w, rs ++ qs, ?_, ?_, ?_, ?_, ?_, ?_, ?_⟩
  · rw [f1, e1, List.append_assoc]
  · intro x hx
    rcases List.mem_append.mp hx with hx | hx
    · exact ⟨fun h' => (f2 x hx).1 (by rw [e1]; exact List.mem_append_right _ h'), (f2 x hx).2⟩
    · exact e2 x hx
  · rw [f3, e3, List.append_assoc]
  · intro x hx hl y hy he
    rcases List.mem_append.mp hx with hx | hx
    · exact f4 x hx hl y hy he
    · exact hsub _ (e4 x hx hl y hy he)
  · intro x n k
    rw [List.map_append, List.mem_append, e5, f5, List.mem_append]
    constructor
    · rintro ((⟨p, q⟩ | p) | (⟨p, q⟩ | p))
      · exact .inl ⟨.inr p, q⟩
      · exact .inr p
      · exact .inl ⟨.inl p, q⟩
      · exact p.elim
    · rintro (⟨p | p, q⟩ | p)
      · exact .inr (.inl ⟨p, q⟩)
      · exact .inl (.inl ⟨p, q⟩)
      · exact .inl (.inr p)
  · intro r hr
    rcases List.mem_append.mp hr with hr | hr
    · exact e6 r hr
    · exact f6 r hr
  · rw [List.map_append, List.nodup_append]
    refine ⟨e7, f7, ?_⟩
    rintro ⟨x, n, k⟩ ha b hb e
    subst e
    rw [e5] at ha
    rw [f5] at hb
    rcases hb with hb | hb
    · refine (f2 x hb.1).1 ?_
      rcases ha with ha | ha
      · rw [e1]; exact List.mem_append_left _ ha.1
      · exact hE x n k ha
    · exact hb

theorem inv_report {E : Nat → Str → Bool → Prop} {s s1 : St} (a : Inv h proj root E s s1) (r : Report)
    (hs : r.item ∈ s.handled) (hE : ¬ E r.item r.name r.isItem)
    (hp : ∃ l, PathTo h r.item l ∧ r.path = l ++ [r.name]) :
    Inv h proj root (fun x n k => E x n k ∨ (x, n, k) = r.key) s
      { s1 with reports := s1.reports ++ [r] } := by
  obtain ⟨w, rs, e1, e2, e3, e4, e5, e6, e7⟩ := a
  refine ⟨w, rs ++ [r], e1, e2, ?_, e4, ?_, ?_, ?_⟩
  · simp [e3]
  · intro x n k
    rw [List.map_append, List.mem_append, e5]
    simp [or_assoc]
  · intro q hq
    rcases List.mem_append.mp hq with hq | hq
    · exact e6 q hq
    · rw [List.mem_singleton.mp hq]; exact hp
  · rw [List.map_append, List.nodup_append]
    refine ⟨e7, by simp, ?_⟩
    rintro ⟨x, n, k⟩ ha b hb e
    subst e
    rw [e5] at ha
    simp only [List.map_cons, List.map_nil, List.mem_singleton, Report.key, Prod.mk.injEq] at hb
    obtain ⟨rfl, rfl, rfl⟩ := hb
    rcases ha with ha | ha
    · exact (e2 _ ha.1).1 hs
    · exact hE ha

theorem inv_congr {E F : Nat → Str → Bool → Prop} {s s1 : St} (a : Inv h proj root E s s1)
    (hEF : ∀ x n k, E x n k ↔ F x n k) : Inv h proj root F s s1 := by
  have : E = F := by funext x n k; exact propext (hEF x n k)
  rw [← this]; exact a

/-- What is wrong with one value of item `i`. -/
def WrongV (h : Heap) (i : Nat) (n : Str) : Val → Bool → Prop
  | .js b, k => b = false ∧ k = false
  | .variant, _ => False
  | .item j b, k => k = true ∧ (∃ t, h[j]? = some t) ∧ ¬ ProviderMap h i n ∧ ¬ Unchecked h i j ∧
      NoModule h i n j b

def Own (h : Heap) (i : Nat) (it : Item) (done : List (Str × Val)) : Nat → Str → Bool → Prop :=
  fun x n k => x = i ∧ ∃ v, (n, v) ∈ done ∧ n ∉ it.decls ∧ WrongV h i n v k

theorem own_snoc {i : Nat} {it : Item} {done : List (Str × Val)} {p : Str × Val} {x : Nat} {n : Str} {k : Bool} :
    Own h i it (done ++ [p]) x n k ↔
      Own h i it done x n k ∨ (x = i ∧ n = p.1 ∧ n ∉ it.decls ∧ WrongV h i n p.2 k) := by
  unfold Own
  constructor
  · rintro ⟨e, v, hv, hd, hw⟩
    rcases List.mem_append.mp hv with hv | hv
    · exact .inl ⟨e, v, hv, hd, hw⟩
    · have hv := List.mem_singleton.mp hv
      subst hv
      exact .inr ⟨e, rfl, hd, hw⟩
  · rintro (⟨e, v, hv, hd, hw⟩ | ⟨e, rfl, hd, hw⟩)
    · exact ⟨e, v, List.mem_append_left _ hv, hd, hw⟩
    · exact ⟨e, p.2, by simp, hd, hw⟩

theorem own_all {i : Nat} {it : Item} (hi : h[i]? = some it) {x : Nat} {n : Str} {k : Bool} :
    Own h i it it.props x n k ↔ x = i ∧ Wrong h i n k := by
  unfold Own
  apply and_congr_right
  intro _
  constructor
  · rintro ⟨v, hv, hd, hw⟩
    cases v with
    | variant => exact hw.elim
    | js b => obtain ⟨rfl, rfl⟩ := hw; exact ⟨it, hi, hv, hd⟩
    | item j b => obtain ⟨rfl, hw⟩ := hw; exact ⟨j, b, ⟨it, hi, hv, hd⟩, hw⟩
  · intro hw
    cases k with
    | false =>
      obtain ⟨x, hx, hm, hd⟩ := hw
      rw [hi] at hx; cases hx
      exact ⟨_, hm, hd, rfl, rfl⟩
    | true =>
      obtain ⟨j, b, ⟨x, hx, hm, hd⟩, hw⟩ := hw
      rw [hi] at hx; cases hx
      exact ⟨_, hm, hd, rfl, hw⟩

end Verif.Decl
