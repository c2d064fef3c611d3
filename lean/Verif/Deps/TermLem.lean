import Verif.Deps.CaseLem

/-! # Resolving dependencies by name comes to an end, and nothing is loaded twice -/

namespace Verif.Deps
open Verif.Version

variable {P : Now → Prop}

def key2 (m : Mod) : Name × Option Nat := (m.name, m.product)

structure TInv (w : World) (N : List Name) (s : St) : Prop where
  items : ∀ f ∈ s.stack, ∀ d ∈ f.items, Within N d
  current : ∀ f ∈ s.stack, ∀ d, f.current = some d → Within N d ∧ d.submodules ≠ some []
  pending : ∀ f ∈ s.stack, ∀ d ∈ f.pending, d.name ∈ N ∧ (d.product = none ∨ findProduct w d = d.product)
  names : ∀ m ∈ s.modules, m.name ∈ N
  nodup : (s.modules.map key2).Nodup

theorem within_expand {w : World} {now : Now} {N : List Name} {rg : Bool} {d : Dep} {r : RDep} (h : Within N d) (hs' : d.submodules ≠ some []) (hr : r ∈ expand w now rg d) :
    r.name ∈ N ∧ r.product = none := by
  rcases expand_shape hr with ⟨h1, _, h2⟩ | ⟨_, _, _, h1, _⟩
  · obtain ⟨_, _, _, _, sub, hs, rfl⟩ := expandNamed_iff.mp h2
    refine ⟨h.2 _ ?_, rfl⟩
    cases hsm : d.submodules with
    | none =>
      rw [hsm] at hs
      rcases mem_orOne.mp hs with ⟨rfl, _⟩ | hs
      · exact Or.inl ⟨hsm, by simp⟩
      · simp at hs
    | some subs =>
      rw [hsm] at hs hs'
      rcases mem_orOne.mp hs with ⟨_, hs⟩ | hs
      · simp only [Option.getD_some] at hs; subst hs; simp at hs'
      · exact Or.inr ⟨subs, hsm, sub, hs, rfl⟩
  · rw [h.1] at h1; cases h1

theorem within_adjust {w : World} {N : List Name} {d d' : Dep} (h : Within N d) (ha : adjust w d = .ok d') : Within N d' := by
  obtain ⟨ids, rfl⟩ := adjust_same ha
  exact h

theorem toEnd_perm (l : Loader) (ms : List Mod) : (toEnd l ms).Perm ms := by
  cases l with
  | product => exact List.Perm.refl _
  | module i =>
    have := List.filter_append_perm (fun m : Mod => decide (m.id ≠ i)) ms
    have he : (fun m : Mod => !decide (m.id ≠ i)) = (fun m : Mod => decide (m.id = i)) := by
      funext m; by_cases h : m.id = i <;> simp [h]
    rw [he] at this
    exact this

/-- A new entry differs from all others in name or product. -/
theorem new_key {w : World} {ms : List Mod} {d : RDep} {p : Option Nat} {ds : List Dep} {b : Bool}
    (hd : d.product = none ∨ findProduct w d = d.product)
    (hn : findExisting w d (ms.map Mod.key) = .none) (hs : Source w d p ds b) : (d.name, p) ∉ ms.map key2 := by
  intro hmem
  obtain ⟨m, hm, hk⟩ := List.mem_map.mp hmem
  simp only [key2, Prod.mk.injEq] at hk
  obtain ⟨j, hj, hno⟩ := findExisting_none hn p m.id (List.mem_map.mpr ⟨m, hm, by simp [Mod.key, hk.1, hk.2]⟩)
  subst hj
  obtain ⟨_, _, _, h4⟩ := hs
  have hf : findProduct w d = some j := by
    rcases h4 with h4 | ⟨_, h4⟩
    · rcases hd with hd | hd
      · rw [h4] at hd; cases hd
      · rw [hd]; exact h4
    · exact h4
  obtain ⟨q, hq, hm'⟩ := findProduct_some hf
  exact hno q hq ⟨hm'.2.2.1, hm'.2.1⟩

theorem map_key2 {g : Mod → Mod} (hg : ∀ m, (g m).name = m.name ∧ (g m).product = m.product) (ms : List Mod) : (ms.map g).map key2 = ms.map key2 := by
  rw [List.map_map]
  refine List.map_congr_left (fun m _ => ?_)
  simp [key2, (hg m).1, (hg m).2]

theorem source_within {w : World} {N : List Name} (hb : Bounded w N) {d : RDep} {p : Option Nat} {ds : List Dep} {b : Bool}
    (hn : d.name ∈ N) (hs : Source w d p ds b) : ∀ x ∈ ds, Within N x := by
  cases p with
  | some i =>
    obtain ⟨_, h2, _, _⟩ := hs
    intro x hx
    cases hq : prodAt w i with
    | none => rw [h2, hq] at hx; simp at hx
    | some q =>
      rw [h2, hq] at hx
      exact hb.exports q (List.mem_of_getElem? hq) x hx
  | none =>
    obtain ⟨_, _, _, _, h⟩ := hs
    rcases h with ⟨_, f, h1, rfl⟩ | ⟨_, _, _, rfl⟩
    · exact hb.files _ hn _ _ h1
    · simp

theorem tinv_next {w : World} {N : List Name} (hb : Bounded w N) {now : Now} {s s' : St} (hi : TInv w N s) (h : step w now s = .next s') : TInv w N s' := by
  have tail : ∀ {f : Frame} {fs : List Frame} {d : RDep} {rest : List RDep}, s.stack = f :: fs → f.pending = d :: rest →
      (∀ x ∈ { f with pending := rest } :: fs, ∀ d ∈ x.items, Within N d) ∧
      (∀ x ∈ { f with pending := rest } :: fs, ∀ d, x.current = some d → Within N d ∧ d.submodules ≠ some []) ∧
      (∀ x ∈ { f with pending := rest } :: fs, ∀ d ∈ x.pending, d.name ∈ N ∧ (d.product = none ∨ findProduct w d = d.product)) := by
    intro f fs d rest hs hp
    refine ⟨fun x hx => ?_, fun x hx => ?_, fun x hx y hy => ?_⟩ <;> rcases List.mem_cons.mp hx with rfl | hx
    · exact hi.items f (by rw [hs]; simp)
    · exact hi.items x (by rw [hs]; simp [hx])
    · exact hi.current f (by rw [hs]; simp)
    · exact hi.current x (by rw [hs]; simp [hx])
    · exact hi.pending f (by rw [hs]; simp) y (by rw [hp]; simp [show y ∈ rest from hy])
    · exact hi.pending x (by rw [hs]; simp [hx]) y hy
  have hrest : ∀ {f : Frame} {fs : List Frame}, s.stack = f :: fs → ∀ x ∈ fs, x ∈ s.stack := fun hs x hx => by rw [hs]; simp [hx]
  have hf1 : ∀ {f : Frame} {fs : List Frame}, s.stack = f :: fs → f ∈ s.stack := fun hs => by rw [hs]; simp
  cases step_cases h with
  | skipped f fs d rest hs hp hr hn he =>
    subst he
    obtain ⟨a, b, c⟩ := tail hs hp
    exact ⟨a, b, c, hi.names, hi.nodup⟩
  | again f fs d rest j g hs hp hf hj hg he =>
    subst he
    obtain ⟨a, b, c⟩ := tail hs hp
    refine ⟨a, b, c, fun m hm => ?_, ?_⟩
    · obtain ⟨m0, hm0, rfl⟩ := List.mem_map.mp hm
      rw [(hg m0).name]; exact hi.names m0 hm0
    · rw [map_key2 (fun m => ⟨(hg m).name, (hg m).product⟩)]; exact hi.nodup
  | new f fs d rest p b ds g m hs hp hn hsrc hg hm he =>
    subst he
    obtain ⟨a, b', c⟩ := tail hs hp
    obtain ⟨hdn, hdp⟩ := hi.pending f (hf1 hs) d (by rw [hp]; simp)
    have hw := source_within hb hdn hsrc
    refine ⟨fun x hx => ?_, fun x hx => ?_, fun x hx => ?_, fun x hx => ?_, ?_⟩
    · rcases List.mem_append.mp hx with hx | hx
      · split at hx
        · simp at hx
        · rw [List.mem_singleton] at hx; subst hx; exact hw
      · exact a x hx
    · rcases List.mem_append.mp hx with hx | hx
      · split at hx
        · simp at hx
        · rw [List.mem_singleton] at hx; subst hx; intro d hd; cases hd
      · exact b' x hx
    · rcases List.mem_append.mp hx with hx | hx
      · split at hx
        · simp at hx
        · rw [List.mem_singleton] at hx; subst hx
          intro y hy
          simp only [newFrame, List.mem_singleton] at hy
          subst hy
          exact ⟨hb.base, Or.inl rfl⟩
      · exact c x hx
    · rcases List.mem_append.mp hx with hx | hx
      · obtain ⟨m0, hm0, rfl⟩ := List.mem_map.mp hx
        rw [(hg m0).name]; exact hi.names m0 hm0
      · rw [List.mem_singleton] at hx; subst hx; rw [hm.name]; exact hdn
    · simp only [List.map_append, List.map_cons, List.map_nil]
      rw [map_key2 (fun m => ⟨(hg m).name, (hg m).product⟩), List.nodup_append]
      refine ⟨hi.nodup, by simp, fun x hx y hy hxy => ?_⟩
      rw [List.mem_singleton] at hy
      subst hxy
      rw [hy] at hx
      have := new_key hdp hn hsrc
      rw [show key2 m = (d.name, p) by simp [key2, hm.name, hm.product]] at hx
      exact this hx
  | error f fs d rest e hs hp hl hq he =>
    subst he
    obtain ⟨a, b, c⟩ := tail hs hp
    obtain ⟨g, h1, h2⟩ := unwind_stack { f with pending := rest } fs s.modules
    refine ⟨fun x hx => ?_, fun x hx => ?_, fun x hx => ?_, fun m hm => hi.names m ((unwind_sublist _ _).subset hm),
      ((unwind_sublist _ _).map key2).nodup hi.nodup⟩
    all_goals
      simp only [h1, List.mem_singleton] at hx
      subst hx
    · exact a x h2
    · exact b x h2
    · exact c x h2
  | expanded f fs c hs hp hc he =>
    subst he
    have hcw := hi.current f (hf1 hs) c hc
    refine ⟨fun x hx => ?_, fun x hx => ?_, fun x hx => ?_, hi.names, hi.nodup⟩ <;> rcases List.mem_cons.mp hx with rfl | hx
    · exact hi.items f (hf1 hs)
    · exact hi.items x (hrest hs x hx)
    · intro d hd; cases hd
    · exact hi.current x (hrest hs x hx)
    · intro y hy
      obtain ⟨h1, h2⟩ := within_expand hcw.1 hcw.2 hy
      exact ⟨h1, Or.inl h2⟩
    · exact hi.pending x (hrest hs x hx)
  | evaluated f fs d rest d' c hs hp hc hi' ha hv he =>
    subst he
    refine ⟨fun x hx => ?_, fun x hx => ?_, fun x hx => ?_, hi.names, hi.nodup⟩ <;> rcases List.mem_cons.mp hx with rfl | hx
    · exact fun y hy => hi.items f (hf1 hs) y (by rw [hi']; simp [show y ∈ rest from hy])
    · exact hi.items x (hrest hs x hx)
    · intro y hy
      simp only at hy
      subst hy
      obtain ⟨rfl, _, _, hsm⟩ := evaluate_some hv
      exact ⟨within_adjust (hi.items f (hf1 hs) d (by rw [hi']; simp)) ha, hsm⟩
    · exact hi.current x (hrest hs x hx)
    · intro y hy; simp only [hp] at hy; simp at hy
    · exact hi.pending x (hrest hs x hx)
  | popped f fs hs hp hc hi' he =>
    subst he
    refine ⟨fun x hx => hi.items x (hrest hs x hx), fun x hx => hi.current x (hrest hs x hx), fun x hx => hi.pending x (hrest hs x hx), fun m hm => ?_, ?_⟩
    · simp only at hm
      split at hm
      · exact hi.names m hm
      · exact hi.names m (mem_toEnd'.mp hm)
    · simp only
      split
      · exact hi.nodup
      · exact ((toEnd_perm f.loading s.modules).map key2).nodup_iff.mpr hi.nodup

theorem tinv_initial {w : World} {N : List Name} (hb : Bounded w N) : TInv w N (initial w) := by
  refine ⟨?_, ?_, ?_, by simp [initial], by simp [initial]⟩
  all_goals
    intro f hf
    simp only [initial, List.mem_singleton] at hf
    subst hf
  · exact hb.product
  · intro d hd; cases hd
  · intro d hd
    simp only [List.mem_singleton] at hd
    subst hd
    exact ⟨hb.base, Or.inl rfl⟩

theorem tinv_deferred {w : World} {N : List Name} {now : Now} {s s' : St} (hi : TInv w N s) (h : step w now s = .deferred s') : TInv w N s' := by
  rcases step_deferred h with rfl | ⟨f, fs, d, rest, p, h1, h2, _, _, h5, rfl⟩
  · exact hi
  · have hf : f ∈ s.stack := by rw [h1]; simp
    have hfs : ∀ x ∈ fs, x ∈ s.stack := fun x hx => by rw [h1]; simp [hx]
    refine ⟨fun x hx => ?_, fun x hx => ?_, fun x hx => ?_, hi.names, hi.nodup⟩ <;> rcases List.mem_cons.mp hx with rfl | hx
    · exact hi.items f hf
    · exact hi.items x (hfs x hx)
    · exact hi.current f hf
    · exact hi.current x (hfs x hx)
    · intro y hy
      obtain ⟨hn, hp⟩ := hi.pending f hf d (by rw [h2]; simp)
      rcases List.mem_cons.mp hy with rfl | hy
      · refine ⟨hn, Or.inr ?_⟩
        show findProduct w d = some p
        rcases h5 with h5 | ⟨_, h5⟩
        · rcases hp with hp | hp
          · rw [h5] at hp; cases hp
          · rw [hp]; exact h5
        · exact h5
      · exact hi.pending f hf y (by rw [h2]; simp [hy])
    · exact hi.pending x (hfs x hx)

theorem tinv {w : World} {N : List Name} (hb : Bounded w N) {s : St} (h : Reach P w s) : TInv w N s := by
  induction h with
  | initial => exact tinv_initial hb
  | next _ _ h ih => exact tinv_next hb ih h
  | deferred _ _ h ih => exact tinv_deferred ih h

/-! ## The measure -/

def cnt (d : Dep) : Nat := (expandNamed true d).length

theorem expandNamed_length (rg : Bool) (d : Dep) : (expandNamed rg d).length = cnt d := by
  simp [cnt, expandNamed, List.length_flatMap]

def itemWork (w : World) (d : Dep) : Nat :=
  match adjust w d with
  | .ok d' => cnt d' + 2
  | .error _ => 1

def currentWork : Option Dep → Nat
  | some c => cnt c + 1
  | none => 0

def frameWork (w : World) (f : Frame) : Nat := f.pending.length + currentWork f.current + (f.items.map (itemWork w)).sum + 1

def keys (w : World) (N : List Name) : List (Name × Option Nat) :=
  N.flatMap (fun n => (n, none) :: (List.range w.prods.length).map (fun p => (n, some p)))

def unused (K : List (Name × Option Nat)) (ms : List Mod) : Nat := (K.filter (fun k => decide (k ∉ ms.map key2))).length

def bottom (w : World) : List Frame → Nat
  | [] => 0
  | [f] => 2 * frameWork w f
  | _ :: g :: gs => 2 * frameWork w ((g :: gs).getLast (by simp)) + 1

def work (w : World) (st : List Frame) : Nat := (st.map (frameWork w)).sum

def μ (w : World) (N : List Name) (s : St) : Nat × Nat × Nat := (bottom w s.stack, unused (keys w N) s.modules, work w s.stack)

def Less : Nat × Nat × Nat → Nat × Nat × Nat → Prop := Prod.Lex (· < ·) (Prod.Lex (· < ·) (· < ·))

theorem less_wf : WellFounded Less := (Prod.lex Nat.lt_wfRel (Prod.lex Nat.lt_wfRel Nat.lt_wfRel)).wf

theorem less_first {a b a' b' : Nat} {c c' : Nat} (h : a < a') : Less (a, b, c) (a', b', c') := Prod.Lex.left _ _ h
theorem less_second {a b a' b' : Nat} {c c' : Nat} (h1 : a = a') (h : b < b') : Less (a, b, c) (a', b', c') := by
  subst h1; exact Prod.Lex.right _ (Prod.Lex.left _ _ h)
theorem less_third {a b a' b' : Nat} {c c' : Nat} (h1 : a = a') (h2 : b = b') (h : c < c') : Less (a, b, c) (a', b', c') := by
  subst h1 h2; exact Prod.Lex.right _ (Prod.Lex.right _ h)

theorem mem_keys {w : World} {N : List Name} {n : Name} {p : Option Nat} (hn : n ∈ N) (hp : ∀ i, p = some i → i < w.prods.length) :
    (n, p) ∈ keys w N := by
  simp only [keys, List.mem_flatMap]
  refine ⟨n, hn, ?_⟩
  cases p with
  | none => simp
  | some i => simp [hp i rfl]

theorem filter_length_lt {α : Type} {p q : α → Bool} {l : List α} (h : ∀ x, p x = true → q x = true) {a : α} (ha : a ∈ l) (h1 : p a = false) (h2 : q a = true) :
    (l.filter p).length < (l.filter q).length := by
  have hle : ∀ l : List α, (l.filter p).length ≤ (l.filter q).length := by
    intro l
    induction l with
    | nil => simp
    | cons x l ih =>
      simp only [List.filter_cons]
      by_cases hx : p x = true
      · rw [if_pos hx, if_pos (h x hx)]; simp; exact ih
      · rw [if_neg hx]; split
        · simp; omega
        · exact ih
  induction l with
  | nil => simp at ha
  | cons x l ih =>
    simp only [List.filter_cons]
    rcases List.mem_cons.mp ha with rfl | ha
    · rw [h1, h2]; simp; exact Nat.lt_succ_of_le (hle l)
    · by_cases hx : p x = true
      · rw [if_pos hx, if_pos (h x hx)]; simp; exact ih ha
      · rw [if_neg hx]; split
        · simp; exact Nat.lt_succ_of_lt (ih ha)
        · exact ih ha

theorem unused_congr {K : List (Name × Option Nat)} {ms ms' : List Mod} (h : ∀ k, k ∈ ms'.map key2 ↔ k ∈ ms.map key2) : unused K ms' = unused K ms := by
  unfold unused
  congr 2
  funext k
  simp [h k]

theorem bottom_cons {w : World} (f : Frame) {fs : List Frame} (h : fs ≠ []) : bottom w (f :: fs) = 2 * frameWork w (fs.getLast h) + 1 := by
  cases fs with
  | nil => exact absurd rfl h
  | cons g gs => rfl

theorem bottom_two {w : World} (f g : Frame) {fs : List Frame} (h : fs ≠ []) : bottom w (f :: g :: fs) = 2 * frameWork w (fs.getLast h) + 1 := by
  rw [bottom_cons f (by simp), List.getLast_cons h]

theorem work_cons (w : World) (f : Frame) (fs : List Frame) : work w (f :: fs) = frameWork w f + work w fs := by simp [work]

/-- The work of the front frame has decreased. -/
theorem less_front {w : World} {N : List Name} {s s' : St} {f f' : Frame} {fs : List Frame} (hs : s.stack = f :: fs) (hs' : s'.stack = f' :: fs)
    (hk : ∀ k, k ∈ s'.modules.map key2 ↔ k ∈ s.modules.map key2) (hw : frameWork w f' < frameWork w f) : Less (μ w N s') (μ w N s) := by
  unfold μ
  rw [hs, hs']
  by_cases hn : fs = []
  · subst hn
    exact less_first (by simp only [bottom]; omega)
  · refine less_third ?_ (unused_congr hk) ?_
    · rw [bottom_cons _ hn, bottom_cons _ hn]
    · rw [work_cons, work_cons]; omega

theorem pending_work {w : World} {f : Frame} {d : RDep} {rest : List RDep} (hp : f.pending = d :: rest) :
    frameWork w { f with pending := rest } + 1 = frameWork w f := by
  simp only [frameWork, hp, List.length_cons]; omega

theorem less_next {w : World} {N : List Name} {now : Now} {s s' : St} (hi : TInv w N s) (ho : OInv w s)
    (h : step w now s = .next s') : Less (μ w N s') (μ w N s) := by
  cases step_cases h with
  | skipped f fs d rest hs hp hr hn he =>
    subst he
    exact less_front hs rfl (fun _ => Iff.rfl) (by have := pending_work (w := w) hp; omega)
  | again f fs d rest j g hs hp hf hj hg he =>
    subst he
    refine less_front hs rfl (fun k => ?_) (by have := pending_work (w := w) hp; omega)
    simp only [map_key2 (fun m => ⟨(hg m).name, (hg m).product⟩)]
  | new f fs d rest p b ds g m hs hp hn hsrc hg hm he =>
    obtain ⟨hdn, hdp⟩ := hi.pending f (by rw [hs]; simp) d (by rw [hp]; simp)
    have hpw := pending_work (w := w) hp
    subst he
    unfold μ
    rw [hs]
    by_cases hfs : fs = []
    · subst hfs
      refine less_first ?_
      split
      · simp only [List.nil_append, bottom]; omega
      · simp only [List.cons_append, List.nil_append, bottom, List.getLast_singleton]; omega
    · refine less_second ?_ ?_
      · split
        · simp only [List.nil_append]; rw [bottom_cons _ hfs, bottom_cons _ hfs]
        · simp only [List.cons_append, List.nil_append]; rw [bottom_two _ _ hfs, bottom_cons _ hfs]
      · refine filter_length_lt (a := (d.name, p)) (fun k hk => ?_) ?_ ?_ ?_
        · simp only [decide_eq_true_eq] at hk ⊢
          intro hk'
          apply hk
          rw [List.map_append, map_key2 (fun m => ⟨(hg m).name, (hg m).product⟩)]
          simp [hk']
        · refine mem_keys hdn (fun i hi' => ?_)
          subst hi'
          have : ∃ q, prodAt w i = some q := by
            obtain ⟨_, _, _, h4⟩ := hsrc
            rcases h4 with h4 | ⟨_, h4⟩
            · obtain ⟨q, hq, _⟩ := ho.pending f (by rw [hs]; simp) d (by rw [hp]; simp) i h4
              exact ⟨q, hq⟩
            · obtain ⟨q, hq, _⟩ := findProduct_some h4
              exact ⟨q, hq⟩
          obtain ⟨q, hq⟩ := this
          exact (List.getElem?_eq_some_iff.mp hq).1
        · simp only [decide_eq_false_iff_not, Classical.not_not, List.map_append, List.mem_append, List.map_cons, List.map_nil, List.mem_singleton]
          exact Or.inr (by simp [key2, hm.name, hm.product])
        · simp only [decide_eq_true_eq]
          exact new_key hdp hn hsrc
  | error f fs d rest e hs hp hl hq he =>
    have hpw := pending_work (w := w) hp
    subst he
    unfold μ
    rw [hs]
    refine less_first ?_
    show bottom w (unwind ({ f with pending := rest } :: fs) s.modules).1 < _
    rw [unwind_last]
    by_cases hfs : fs = []
    · subst hfs
      simp only [List.getLast_singleton, bottom]; omega
    · rw [bottom_cons f hfs, List.getLast_cons hfs]; simp only [bottom]; omega
  | expanded f fs c hs hp hc he =>
    subst he
    refine less_front hs rfl (fun _ => Iff.rfl) ?_
    have hcw := (hi.current f (by rw [hs]; simp) c hc).1.1
    have : (expand w now f.requiredG c).length = cnt c := by
      unfold expand
      rw [hcw]
      exact expandNamed_length _ _
    simp only [frameWork, hp, hc, currentWork, this, List.length_nil]; omega
  | evaluated f fs d rest d' c hs hp hc hi' ha hv he =>
    subst he
    refine less_front hs rfl (fun _ => Iff.rfl) ?_
    simp only [frameWork, hp, hc, hi', List.map_cons, List.sum_cons, itemWork, ha]
    cases c with
    | none => simp only [currentWork]; omega
    | some c =>
      obtain ⟨rfl, _⟩ := evaluate_some hv
      simp only [currentWork]; omega
  | popped f fs hs hp hc hi' he =>
    subst he
    unfold μ
    rw [hs]
    cases fs with
    | nil =>
      exact less_first (by simp only [bottom, frameWork]; omega)
    | cons g gs =>
      cases gs with
      | nil => exact less_first (by simp only [bottom, List.getLast_singleton]; omega)
      | cons k ks =>
        refine less_third ?_ ?_ ?_
        · simp only [bottom, List.getLast_cons_cons]
        · refine unused_congr (fun x => ?_)
          simp only [reduceCtorEq, if_false, List.mem_map, mem_toEnd']
        · rw [work_cons w f]; simp only [frameWork]; omega

theorem same_deferred {w : World} {N : List Name} {now : Now} {s s' : St} (h : step w now s = .deferred s') : μ w N s' = μ w N s := by
  rcases step_deferred h with rfl | ⟨f, fs, d, rest, p, h1, h2, _, _, _, rfl⟩
  · rfl
  · have hw : frameWork w { f with pending := { d with product := some p } :: rest } = frameWork w f := by
      simp only [frameWork, h2, List.length_cons]
    unfold μ
    simp only [h1, work_cons, hw]
    congr 1
    by_cases hn : fs = []
    · subst hn; simp only [bottom, hw]
    · rw [bottom_cons _ hn, bottom_cons _ hn]

theorem run_reach {w : World} {now : Nat → Now} {s : Nat → St} (h : Run w now s) : ∀ k, Reach (fun _ => True) w (s k)
  | 0 => by rw [h.1]; exact .initial
  | k + 1 => (h.2 k).elim (fun hk => .next (run_reach h k) trivial hk) (fun hk => .deferred (run_reach h k) trivial hk)

theorem run_ends {w : World} {N : List Name} (hb : Bounded w N) {now : Nat → Now} {s : Nat → St} (h : Run w now s) :
    ∃ j, ∀ k, j ≤ k → step w (now k) (s k) = .deferred (s (k + 1)) := by
  have main : ∀ x : Nat × Nat × Nat, ∀ k, μ w N (s k) = x → ∃ j, ∀ i, j ≤ i → step w (now i) (s i) = .deferred (s (i + 1)) := by
    intro x
    induction x using less_wf.induction with
    | h x ih =>
      have inner : ∀ n k, μ w N (s k) = x → step w (now (k + n)) (s (k + n)) = .next (s (k + n + 1)) →
          ∃ j, ∀ i, j ≤ i → step w (now i) (s i) = .deferred (s (i + 1)) := by
        intro n
        induction n with
        | zero =>
          intro k hk hn
          have := less_next (tinv hb (run_reach h k)) (oinv (run_reach h k)) hn
          rw [hk] at this
          exact ih _ this (k + 1) rfl
        | succ n ihn =>
          intro k hk hn
          rcases h.2 k with h1 | h1
          · have := less_next (tinv hb (run_reach h k)) (oinv (run_reach h k)) h1
            rw [hk] at this
            exact ih _ this (k + 1) rfl
          · refine ihn (k + 1) ((same_deferred h1).trans hk) ?_
            rw [show k + 1 + n = k + (n + 1) by omega]; exact hn
      intro k hk
      by_cases hex : ∃ n, step w (now (k + n)) (s (k + n)) = .next (s (k + n + 1))
      · obtain ⟨n, hn⟩ := hex
        exact inner n k hk hn
      · refine ⟨k, fun i hi => ?_⟩
        rcases h.2 i with h1 | h1
        · exact absurd ⟨i - k, by rw [show k + (i - k) = i by omega]; exact h1⟩ hex
        · exact h1
  exact main _ 0 rfl

end Verif.Deps
