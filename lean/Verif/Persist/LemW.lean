import Verif.Persist.LemO

/-! # What the writer records, and that it ends -/

namespace Verif.Persist

open Verif.DS

def Known (p : SP) (a : Nat) : Prop := ∃ i, (a, i) ∈ p.objs

theorem Known.mono {p q : SP} (h : Mono p q) {a : Nat} (k : Known p a) : Known q a :=
  k.imp fun i hi => h.objs _ hi

/-- Every address has one id, and ids are given out in turn. -/
structure UInv (p : SP) : Prop where
  key : ∀ a i j, (a, i) ∈ p.objs → (a, j) ∈ p.objs → i = j
  lt : ∀ a i, (a, i) ∈ p.objs → i < p.last
  len : p.last = p.objs.length
  all : ∀ i, i < p.last → ∃ a, (a, i) ∈ p.objs

section
variable {O : Other} {classes : Nat → Ty}

/-- What the objects which are written completely point to is recorded. -/
def Closed (h : Heap O classes) (Q : List Nat) (p : SP) : Prop :=
  ∀ a, Known p a → a ∉ Q → ∀ b ∈ ptrs (classes (h.cls a)) (h.get a), Known p b

variable (h : Heap O classes)

/-- The effect of writing something with the pointers `S`. -/
def Facts (put : Put) (S : List Nat) : Prop :=
  ∀ p b q, put p = some (b, q) →
    (∀ Q, Closed h Q p → Closed h Q q) ∧ (∀ a ∈ S, Known q a) ∧
    (∀ a, Known q a → Known p a ∨ Reach h S a) ∧ (UInv p → UInv q)

variable {h}

theorem Reach.sub {S T : List Nat} (hst : ∀ a ∈ S, Reach h T a) {a : Nat} (hr : Reach h S a) :
    Reach h T a := by
  induction hr with
  | base ha => exact hst _ ha
  | step _ hb ih => exact Reach.step ih hb

theorem facts_same {put : Put} (hp : ∀ p b q, put p = some (b, q) → q.objs = p.objs ∧ q.last = p.last) :
    Facts h put [] := by
  intro p b q hq
  obtain ⟨e, e'⟩ := hp p b q hq
  have hk : ∀ a, Known q a ↔ Known p a := by intro a; unfold Known; rw [e]
  refine ⟨?_, by simp, fun a ha => Or.inl ((hk a).1 ha), ?_⟩
  · intro Q hc a ha hq b hb
    exact (hk b).2 (hc a ((hk a).1 ha) hq b hb)
  · intro hu
    constructor
    · rw [e]; exact hu.key
    · rw [e, e']; exact hu.lt
    · rw [e, e']; exact hu.len
    · rw [e, e']; exact hu.all

theorem facts_emit (b : Bytes) : Facts h (emit b) [] :=
  facts_same fun p b q hp => by
    simp only [emit, Option.some.injEq, Prod.mk.injEq] at hp
    rw [← hp.2]; exact ⟨rfl, rfl⟩

theorem facts_onV (f : VP → Bytes × VP) : Facts h (onV f) [] :=
  facts_same fun p b q hp => by
    simp only [onV, Option.some.injEq, Prod.mk.injEq] at hp
    rw [← hp.2]; exact ⟨rfl, rfl⟩

theorem facts_str (s : QStr) : Facts h (onS (storeStr s)) [] := facts_onV _

theorem facts_seq {f g : Put} {S T : List Nat} (hf : Facts h f S) (hg : Facts h g T)
    (mg : MonoP g) : Facts h (f.seq g) (S ++ T) := by
  intro p b q hp
  obtain ⟨b1, p1, b2, e1, e2, _⟩ := seq_some hp
  obtain ⟨c1, k1, r1, u1⟩ := hf _ _ _ e1
  obtain ⟨c2, k2, r2, u2⟩ := hg _ _ _ e2
  have hm := mg _ _ _ e2
  refine ⟨fun Q hc => c2 Q (c1 Q hc), ?_, ?_, fun hu => u2 (u1 hu)⟩
  · intro a ha
    rcases List.mem_append.1 ha with ha | ha
    · exact (k1 a ha).mono hm
    · exact k2 a ha
  · intro a ha
    rcases r2 a ha with ha | ha
    · rcases r1 a ha with ha | ha
      · exact Or.inl ha
      · exact Or.inr (ha.sub fun x hx => Reach.base (by simp [hx]))
    · exact Or.inr (ha.sub fun x hx => Reach.base (by simp [hx]))

theorem facts_putSeq {α : Type} {f : α → Put} {S : α → List Nat} (l : List α)
    (hf : ∀ a ∈ l, Facts h (f a) (S a)) (mf : ∀ a ∈ l, MonoP (f a)) :
    Facts h (putSeq f l) (l.flatMap S) := by
  induction l with
  | nil => exact facts_emit []
  | cons a as ih =>
    rw [List.flatMap_cons]
    exact facts_seq (hf a (by simp)) (ih (fun b hb => hf b (by simp [hb])) fun b hb => mf b (by simp [hb]))
      (monoP_putSeq as fun b hb => mf b (by simp [hb]))

theorem facts_val {so : Nat → Put} (hm : ∀ a, MonoP (so a)) (hso : ∀ a, Facts h (so a) [a]) :
    (t : Ty) → (v : Val O t) → Facts h (storeVal h.cls so t v) (ptrs t v) := by
  intro t
  have mv := fun t v => monoP_val (O := O) (cls := h.cls) hm t v
  have f1 : ∀ {b : Bytes} {g : Put} {T : List Nat}, Facts h g T → MonoP g →
      Facts h ((emit b).seq g) T := by
    intro b g T hg mg
    have := facts_seq (facts_emit b) hg mg
    rwa [List.nil_append] at this
  have f2 : ∀ {s : QStr} {g : Put} {T : List Nat}, Facts h g T → MonoP g →
      Facts h ((onS (storeStr s)).seq g) T := by
    intro b g T hg mg
    have := facts_seq (facts_str b) hg mg
    rwa [List.nil_append] at this
  induction t with
  | bool => intro v; exact facts_emit _
  | int w sg => intro v; exact facts_emit _
  | str => intro v; exact facts_str v
  | strs => intro v; exact facts_onV _
  | env => intro v; exact facts_onV _
  | var => intro v; exact facts_onV _
  | pair a b iha ihb => intro v; exact facts_seq (iha v.1) (ihb v.2) (mv b v.2)
  | list a ih =>
    intro v
    exact f1 (facts_putSeq _ (fun x _ => ih x) fun x _ => mv a x) (monoP_putSeq _ fun x _ => mv a x)
  | map a ih =>
    intro v
    exact f1 (facts_putSeq _ (fun x _ => f2 (ih x.2) (mv a x.2))
      fun x _ => monoP_seq (monoP_str _) (mv a x.2))
      (monoP_putSeq _ fun x _ => monoP_seq (monoP_str _) (mv a x.2))
  | umap a ih =>
    intro v
    exact f1 (facts_putSeq _ (fun x _ => f2 (ih x.2) (mv a x.2))
      fun x _ => monoP_seq (monoP_str _) (mv a x.2))
      (monoP_putSeq _ fun x _ => monoP_seq (monoP_str _) (mv a x.2))
  | opt a ih =>
    intro v
    cases v with
    | none => exact facts_emit _
    | some v =>
      have e : ptrs (.opt a) (some v : Option (Val O a)) = ptrs a v := by
        simp [ptrs]
      have := f1 (b := putI32 (-2)) (ih v) (mv a v)
      rw [← e] at this
      exact this
  | ptr sh c =>
    intro v
    cases v with
    | none => exact facts_emit _
    | some a => exact hso a
  | poly sh =>
    intro v
    cases v with
    | none => intro p b q hp; simp [storeVal] at hp
    | some a => exact f1 (hso a) (hm a)

theorem facts_obj (f a : Nat) : Facts h (storeObj h f a) [a] := by
  induction f generalizing a with
  | zero => intro p b q hp; simp [storeObj] at hp
  | succ f ih =>
    intro p b q hp
    rcases storeObj_cases hp with ⟨id, hid, rfl, rfl⟩ | ⟨hnew, b', rfl, hv⟩
    · exact ⟨fun Q hc => hc, by intro x hx; simp at hx; subst hx; exact ⟨id, hid⟩,
        fun a ha => Or.inl ha, fun hu => hu⟩
    · have hm := monoP_val (monoP_obj h f) _ _ _ _ _ hv
      obtain ⟨c1, k1, r1, u1⟩ := facts_val (monoP_obj h f) ih _ _ _ _ _ hv
      have hka : Known q a := ⟨p.last, hm.objs _ (by simp)⟩
      refine ⟨?_, ?_, ?_, ?_⟩
      · intro Q hc x hx hq y hy
        by_cases hxa : x = a
        · subst hxa; exact k1 y hy
        · refine c1 (a :: Q) ?_ x hx (by simp [hxa, hq]) y hy
          intro z ⟨i, hz⟩ hzq w hw
          simp only [List.mem_cons, Prod.mk.injEq, not_or] at hz hzq
          rcases hz with ⟨rfl, _⟩ | hz
          · exact absurd rfl hzq.1
          · obtain ⟨j, hj⟩ := hc z ⟨i, hz⟩ hzq.2 w hw
            exact ⟨j, by simp [hj]⟩
      · intro x hx; simp at hx; subst hx; exact hka
      · intro x hx
        rcases r1 x hx with ⟨i, hi⟩ | hr
        · simp only [List.mem_cons, Prod.mk.injEq] at hi
          rcases hi with ⟨rfl, _⟩ | hi
          · exact Or.inr (Reach.base (by simp))
          · exact Or.inl ⟨i, hi⟩
        · refine Or.inr (hr.sub fun y hy => ?_)
          exact Reach.step (Reach.base (by simp)) hy
      · intro hu
        apply u1
        constructor
        · intro x i j hi hj
          simp only [List.mem_cons, Prod.mk.injEq] at hi hj
          rcases hi with ⟨rfl, rfl⟩ | hi
          · rcases hj with ⟨_, rfl⟩ | hj
            · rfl
            · exact absurd hj (hnew j)
          · rcases hj with ⟨rfl, _⟩ | hj
            · exact absurd hi (hnew i)
            · exact hu.key x i j hi hj
        · intro x i hi
          simp only [List.mem_cons, Prod.mk.injEq] at hi
          rcases hi with ⟨_, rfl⟩ | hi
          · exact Nat.lt_succ_self _
          · exact Nat.lt_succ_of_lt (hu.lt x i hi)
        · simp [hu.len]
        · intro i hi
          by_cases hil : i = p.last
          · exact ⟨a, by simp [hil]⟩
          · obtain ⟨x, hx⟩ := hu.all i (by simp only at hi; omega)
            exact ⟨x, by simp [hx]⟩

/-! ## The end -/

/-- The objects of `dom` not recorded yet. -/
def unseen (dom : List Nat) (p : SP) : Nat :=
  (dom.filter fun a => !(p.objs.any fun x => x.1 == a)).length

theorem any_known {p : SP} {a : Nat} : (p.objs.any fun x => x.1 == a) = true ↔ Known p a := by
  simp only [List.any_eq_true, beq_iff_eq, Known]
  constructor
  · rintro ⟨⟨x, i⟩, hx, rfl⟩; exact ⟨i, hx⟩
  · rintro ⟨i, hi⟩; exact ⟨(a, i), hi, rfl⟩

theorem filter_le {α : Type} {f g : α → Bool} (l : List α) (hfg : ∀ a, f a = true → g a = true) :
    (l.filter f).length ≤ (l.filter g).length := by
  induction l with
  | nil => exact Nat.le_refl _
  | cons a as ih =>
    simp only [List.filter_cons]
    by_cases hf : f a = true
    · simp [hf, hfg a hf, ih]
    · by_cases hg : g a = true
      · simp [hf, hg]; omega
      · simp [hf, hg, ih]

theorem filter_lt {α : Type} {f g : α → Bool} {l : List α} (hfg : ∀ a, f a = true → g a = true)
    {x : α} (hx : x ∈ l) (hf : f x = false) (hg : g x = true) :
    (l.filter f).length < (l.filter g).length := by
  induction l with
  | nil => simp at hx
  | cons a as ih =>
    simp only [List.filter_cons]
    rcases List.mem_cons.1 hx with rfl | hx
    · simp only [hf, hg, if_true, Bool.false_eq_true, if_false, List.length_cons]
      exact Nat.lt_succ_of_le (filter_le as hfg)
    · have := ih hx
      by_cases hfa : f a = true
      · simp [hfa, hfg a hfa, this]
      · by_cases hga : g a = true
        · simp [hfa, hga]; omega
        · simp [hfa, hga, this]

theorem unseen_mono {dom : List Nat} {p q : SP} (hm : Mono p q) : unseen dom q ≤ unseen dom p := by
  apply filter_le
  intro a ha
  simp only [Bool.not_eq_true', ← Bool.not_eq_true] at ha ⊢
  intro hk
  exact ha (any_known.2 ((any_known.1 hk).mono hm))

def Total (dom : List Nat) (n : Nat) (f : Put) : Prop :=
  ∀ p, unseen dom p ≤ n → ∃ b q, f p = some (b, q)

theorem total_emit {dom : List Nat} {n : Nat} (b : Bytes) : Total dom n (emit b) :=
  fun p _ => ⟨b, p, rfl⟩

theorem total_onV {dom : List Nat} {n : Nat} (f : VP → Bytes × VP) : Total dom n (onV f) :=
  fun _ _ => ⟨_, _, rfl⟩

theorem total_str {dom : List Nat} {n : Nat} (s : QStr) : Total dom n (onS (storeStr s)) :=
  total_onV _

theorem total_seq {dom : List Nat} {n : Nat} {f g : Put} (hf : Total dom n f) (mf : MonoP f)
    (hg : Total dom n g) : Total dom n (f.seq g) := by
  intro p hp
  obtain ⟨b, q, h1⟩ := hf p hp
  obtain ⟨b', q', h2⟩ := hg q (Nat.le_trans (unseen_mono (mf _ _ _ h1)) hp)
  exact ⟨b ++ b', q', by simp only [Put.seq, h1, h2]⟩

theorem total_putSeq {α : Type} {dom : List Nat} {n : Nat} {f : α → Put} (l : List α)
    (hf : ∀ a ∈ l, Total dom n (f a)) (mf : ∀ a ∈ l, MonoP (f a)) : Total dom n (putSeq f l) := by
  induction l with
  | nil => exact total_emit []
  | cons a as ih =>
    exact total_seq (hf a (by simp)) (mf a (by simp))
      (ih (fun b hb => hf b (by simp [hb])) fun b hb => mf b (by simp [hb]))

theorem total_val {shared : Nat → Bool} {dom : List Nat} {n : Nat} {so : Nat → Put}
    (hm : ∀ a, MonoP (so a)) (hso : ∀ a ∈ dom, Total dom n (so a)) :
    (t : Ty) → (v : Val O t) → ValOk h.cls shared t v → (∀ a ∈ ptrs t v, a ∈ dom) →
    Total dom n (storeVal h.cls so t v) := by
  intro t
  have mv := fun t v => monoP_val (O := O) (cls := h.cls) hm t v
  induction t with
  | bool => intro v _ _; exact total_emit _
  | int w sg => intro v _ _; exact total_emit _
  | str => intro v _ _; exact total_str v
  | strs => intro v _ _; exact total_onV _
  | env => intro v _ _; exact total_onV _
  | var => intro v _ _; exact total_onV _
  | pair a b iha ihb =>
    intro v hv hd
    simp only [ptrs, List.mem_append] at hd
    exact total_seq (iha v.1 hv.1 fun x hx => hd x (Or.inl hx)) (mv a v.1)
      (ihb v.2 hv.2 fun x hx => hd x (Or.inr hx))
  | list a ih =>
    intro v hv hd
    exact total_seq (total_emit _) (monoP_emit _) (total_putSeq _
      (fun x hx => ih x (hv.2 x hx) fun y hy => hd y (List.mem_flatMap.2 ⟨x, hx, hy⟩)) fun x _ => mv a x)
  | map a ih =>
    intro v hv hd
    exact total_seq (total_emit _) (monoP_emit _) (total_putSeq _
      (fun x hx => total_seq (total_str _) (monoP_str _)
        (ih x.2 (hv.2 x hx) fun y hy => hd y (List.mem_flatMap.2 ⟨x, hx, hy⟩)))
      fun x _ => monoP_seq (monoP_str _) (mv a x.2))
  | umap a ih =>
    intro v hv hd
    exact total_seq (total_emit _) (monoP_emit _) (total_putSeq _
      (fun x hx => total_seq (total_str _) (monoP_str _)
        (ih x.2 (hv.2 x hx) fun y hy => hd y (List.mem_flatMap.2 ⟨x, hx, hy⟩)))
      fun x _ => monoP_seq (monoP_str _) (mv a x.2))
  | opt a ih =>
    intro v hv hd
    cases v with
    | none => exact total_emit _
    | some v =>
      exact total_seq (total_emit _) (monoP_emit _) (ih v (hv v rfl) fun x hx => hd x (by
        simpa [ptrs] using hx))
  | ptr sh c =>
    intro v hv hd
    cases v with
    | none => exact total_emit _
    | some a => exact hso a (hd a (by simp [ptrs]))
  | poly sh =>
    intro v hv hd
    obtain ⟨a, rfl, _⟩ := hv
    exact total_seq (total_emit _) (monoP_emit _) (hso a (hd a (by simp [ptrs])))

theorem total_obj {shared : Nat → Bool}
    (hok : ∀ a, ValOk h.cls shared (classes (h.cls a)) (h.get a)) {dom : List Nat}
    (hd : ∀ a ∈ dom, ∀ b ∈ ptrs (classes (h.cls a)) (h.get a), b ∈ dom) (n a : Nat) (ha : a ∈ dom) :
    Total dom n (storeObj h (n + 1) a) := by
  induction n generalizing a with
  | zero =>
    intro p hp
    simp only [storeObj]
    cases hf : p.objs.find? (fun x => x.1 == a) with
    | some x => exact ⟨_, _, rfl⟩
    | none =>
      exfalso
      have h0 : (dom.filter fun a => !(p.objs.any fun x => x.1 == a)) = [] :=
        List.eq_nil_of_length_eq_zero (Nat.le_zero.1 hp)
      have := List.filter_eq_nil_iff.1 h0 a ha
      simp only [Bool.not_eq_true', Bool.not_eq_false] at this
      obtain ⟨i, hi⟩ := any_known.1 this
      exact List.find?_eq_none.1 hf (a, i) hi (beq_self_eq_true a)
  | succ n ih =>
    intro p hp
    rw [storeObj]
    simp only
    cases hf : p.objs.find? (fun x => x.1 == a) with
    | some x => exact ⟨_, _, rfl⟩
    | none =>
      have hlt : unseen dom { p with objs := (a, p.last) :: p.objs, last := p.last + 1 }
          < unseen dom p := by
        refine filter_lt (x := a) ?_ ha ?_ ?_
        · intro x hx
          simp only [List.any_cons, Bool.not_or, Bool.and_eq_true] at hx
          exact hx.2
        · simp
        · simp only [Bool.not_eq_true', ← Bool.not_eq_true]
          intro hk
          obtain ⟨i, hi⟩ := any_known.1 hk
          exact List.find?_eq_none.1 hf (a, i) hi (beq_self_eq_true a)
      obtain ⟨b, q, hv⟩ := total_val (monoP_obj h (n + 1)) ih _ _ (hok a) (hd a ha)
        { p with objs := (a, p.last) :: p.objs, last := p.last + 1 } (by omega)
      exact ⟨putI32 p.last ++ b, q, by simp only [hv]⟩

end

end Verif.Persist
