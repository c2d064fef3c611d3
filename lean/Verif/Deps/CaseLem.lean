import Verif.Deps.DeferLem

/-! # What a step can do, and where modules come from -/

namespace Verif.Deps
open Verif.Version

variable {P : Now → Prop}

def newFrame (i : Nat) (d : RDep) (ds : List Dep) : Frame :=
  { loading := .module i, requiredG := d.requiredG, items := ds, current := none, pending := [base] }

inductive StepCase (w : World) (now : Now) (s s' : St) : Prop
  | skipped (f fs d rest) (hs : s.stack = f :: fs) (hp : f.pending = d :: rest) (hr : d.requiredG = false)
      (hn : findExisting w d (s.modules.map Mod.key) = .none)
      (he : s' = { s with stack := { f with pending := rest } :: fs })
  | again (f fs d rest j g) (hs : s.stack = f :: fs) (hp : f.pending = d :: rest)
      (hf : findExisting w d (s.modules.map Mod.key) = .found j) (hj : onStack (.module j) s.stack = false)
      (hg : ∀ m, Updated f.loading d j m (g m))
      (he : s' = { s with stack := { f with pending := rest } :: fs, modules := s.modules.map g })
  | new (f fs d rest p b ds g m) (hs : s.stack = f :: fs) (hp : f.pending = d :: rest)
      (hn : findExisting w d (s.modules.map Mod.key) = .none) (hsrc : Source w d p ds b)
      (hg : ∀ m, SameButLocals f.loading d s.nextId m (g m)) (hm : New f.loading d p ds b s.nextId m)
      (he : s' = { s with stack := (if d.name = ["qbs"] then [] else [newFrame s.nextId d ds]) ++ { f with pending := rest } :: fs,
                          modules := s.modules.map g ++ [m], nextId := s.nextId + 1 })
  | error (f fs d rest e) (hs : s.stack = f :: fs) (hp : f.pending = d :: rest) (hl : load w now f.loading d s = .error e) (hq : d.name ≠ ["qbs"])
      (he : s' = { s with stack := (unwind ({ f with pending := rest } :: fs) s.modules).1,
                          modules := (unwind ({ f with pending := rest } :: fs) s.modules).2, errors := s.errors ++ [e] })
  | expanded (f fs c) (hs : s.stack = f :: fs) (hp : f.pending = []) (hc : f.current = some c)
      (he : s' = { s with stack := { f with current := none, pending := expand w now f.requiredG c } :: fs })
  | evaluated (f fs d rest d' c) (hs : s.stack = f :: fs) (hp : f.pending = []) (hc : f.current = none) (hi : f.items = d :: rest)
      (ha : adjust w d = .ok d') (hv : evaluate d' = .ok c)
      (he : s' = { s with stack := { f with items := rest, current := c } :: fs })
  | popped (f fs) (hs : s.stack = f :: fs) (hp : f.pending = []) (hc : f.current = none) (hi : f.items = [])
      (he : s' = { s with stack := fs, modules := if fs = [] then s.modules else toEnd f.loading s.modules })

theorem loadProduct_ignore {w : World} {now : Now} {l : Loader} {d : RDep} {p : Nat} {s s' : St} (h : loadProduct w now l d p s = .ignore s') :
    s' = s ∧ d.requiredG = false := by
  unfold loadProduct at h
  split at h
  · cases h
  · cases h
  · rename_i hc
    cases h
    refine ⟨rfl, ?_⟩
    unfold checkProd at hc
    split at hc
    · cases hc
    · split at hc
      · cases hc
      · split at hc
        · split at hc <;> cases hc
        · split at hc
          · split at hc
            · cases hc
            · simpa using ‹¬ d.requiredG = true›
          · cases hc
  · split at h
    · cases h
    · exact absurd h addNew_ignore

theorem load_ignore' {w : World} {now : Now} {l : Loader} {d : RDep} {s s' : St} (h : load w now l d s = .ignore s') :
    (s' = s ∧ d.requiredG = false ∧ findExisting w d (s.modules.map Mod.key) = .none) ∨
    ∃ j, findExisting w d (s.modules.map Mod.key) = .found j ∧ loadExisting w l d j s = .ignore s' := by
  unfold load at h
  split at h
  · cases h
  · rename_i j hj
    exact Or.inr ⟨j, hj, h⟩
  · rename_i hn
    refine Or.inl ?_
    suffices s' = s ∧ d.requiredG = false from ⟨this.1, this.2, hn⟩
    split at h
    · exact loadProduct_ignore h
    · split at h
      · exact loadProduct_ignore h
      · unfold loadFile at h
        split at h
        · split at h
          · cases h
          · cases h; exact ⟨rfl, by simpa using ‹¬ d.requiredG = true›⟩
        · split at h
          · exact absurd h addNew_ignore
          · cases h
          · split at h
            · cases h
            · exact absurd h addNew_ignore

theorem step_cases {w : World} {now : Now} {s s' : St} (h : step w now s = .next s') : StepCase w now s s' := by
  unfold step at h
  split at h
  · cases h
  · rename_i f fs hst
    split at h
    · rename_i d rest hpd
      split at h
      · cases h
      · rename_i s1 hl
        cases h
        rcases load_ignore' hl with ⟨rfl, hr, hn⟩ | ⟨j, hj, hl'⟩
        · exact .skipped f fs d rest hst hpd hr hn rfl
        · obtain ⟨h1, h2, h3, h4, g, h5, h6⟩ := loadExisting_ignore hl'
          refine .again f fs d rest j g hst hpd hj h4 h6 ?_
          obtain ⟨a, b, c, e⟩ := s1
          simp only at h1 h2 h3 h5
          subst h1 h2 h3 h5
          rfl
      · rename_i i ds s1 hl
        obtain ⟨hn, rfl, h1, h2, h3, p, b, hsrc, g, m, hg, hgs, hnew⟩ := load_use hl
        refine .new f fs d rest p b ds g m hst hpd hn hsrc hgs hnew ?_
        obtain ⟨a, b, c, e⟩ := s1
        simp only at h1 h2 h3 hg
        subst h1 h2 h3 hg
        by_cases hq : d.name = ["qbs"]
        · rw [if_pos hq] at h ⊢
          cases h; rfl
        · rw [if_neg hq] at h ⊢
          cases h; rfl
      · rename_i e hl
        split at h
        · cases h
        · rename_i hq
          cases h
          exact .error f fs d rest e hst hpd hl hq rfl
    · rename_i hpd
      split at h
      · rename_i c hc
        split at h
        · cases h
        · cases h
          exact .expanded f fs c hst hpd hc rfl
      · rename_i hc
        split at h
        · rename_i d rest hi
          split at h
          · cases h
          · rename_i d' ha
            split at h
            · cases h
            · rename_i c hv
              cases h
              exact .evaluated f fs d rest d' c hst hpd hc hi ha hv rfl
        · rename_i hi
          cases h
          exact .popped f fs hst hpd hc hi rfl

theorem unwind_stack : ∀ (f : Frame) (fs : List Frame) (ms : List Mod), ∃ g, (unwind (f :: fs) ms).1 = [g] ∧ g ∈ f :: fs
  | f, [], ms => ⟨f, rfl, by simp⟩
  | f, g :: gs, ms => by
    obtain ⟨x, h1, h2⟩ := unwind_stack g gs (cutAt f.loading ms)
    exact ⟨x, h1, by simp [h2]⟩

theorem unwind_last : ∀ (f : Frame) (fs : List Frame) (ms : List Mod), (unwind (f :: fs) ms).1 = [(f :: fs).getLast (by simp)]
  | f, [], ms => rfl
  | f, g :: gs, ms => by
    rw [unwind, unwind_last g gs]
    · simp
    · simp

theorem cutAt_sublist (l : Loader) (ms : List Mod) : List.Sublist (cutAt l ms) ms := by
  unfold cutAt
  split
  · exact List.Sublist.refl _
  · exact List.takeWhile_sublist _

theorem unwind_sublist : ∀ (fs : List Frame) (ms : List Mod), List.Sublist (unwind fs ms).2 ms
  | [], ms => List.Sublist.refl _
  | [f], ms => List.Sublist.refl _
  | f :: g :: gs, ms => (unwind_sublist (g :: gs) (cutAt f.loading ms)).trans (cutAt_sublist _ _)

/-- What an entry stands for -/
def Origin (w : World) (m : Mod) : Prop :=
  (∃ p q, m.product = some p ∧ prodAt w p = some q ∧ q.name = toStr m.name ∧ p ≠ w.self ∧ m.depends = q.depends ∧ m.present = true) ∨
  (m.product = none ∧ ∃ r, (m.present = true ∧ ∃ f, w.module m.name r = .file f ∧ m.depends = f.depends) ∨
    (m.present = false ∧ w.module m.name r = .none ∧ m.depends = []))

def Named (w : World) (d : RDep) : Prop := ∀ p, d.product = some p → ∃ q, prodAt w p = some q ∧ q.name = toStr d.name

theorem toStr_single (x : String) : toStr [x] = x := by simp [toStr]

theorem expand_named {w : World} {now : Now} {rg : Bool} {d : Dep} {r : RDep} (h : r ∈ expand w now rg d) : Named w r := by
  intro p hp
  rcases expand_shape h with ⟨h, _⟩ | ⟨p', q, _, _, _, hq, rfl⟩
  · rw [h] at hp; cases hp
  · cases hp
    exact ⟨q, hq, (toStr_single _).symm⟩

theorem Origin.same {w : World} {m m' : Mod} (h : Origin w m) (h1 : m'.name = m.name) (h2 : m'.product = m.product) (h3 : m'.depends = m.depends)
    (h4 : m'.present = m.present) : Origin w m' := by
  unfold Origin
  rw [h1, h2, h3, h4]
  exact h

theorem new_origin {w : World} {l : Loader} {d : RDep} {p : Option Nat} {ds : List Dep} {b : Bool} {i : Nat} {m : Mod}
    (hd : Named w d) (hs : Source w d p ds b) (hm : New l d p ds b i m) : Origin w m := by
  unfold Origin
  rw [hm.name, hm.product, hm.depends, hm.present]
  cases p with
  | some i =>
    obtain ⟨h1, h2, h3, h4⟩ := hs
    have : ∃ q, prodAt w i = some q ∧ q.name = toStr d.name := by
      rcases h4 with h4 | ⟨_, h4⟩
      · exact hd i h4
      · obtain ⟨q, hq, hm⟩ := findProduct_some h4
        exact ⟨q, hq, hm.1⟩
    obtain ⟨q, hq, hqn⟩ := this
    exact Or.inl ⟨i, q, rfl, hq, hqn, h1, by rw [h2, hq]; rfl, h3⟩
  | none =>
    obtain ⟨_, _, _, _, h⟩ := hs
    refine Or.inr ⟨rfl, d.range, ?_⟩
    rcases h with ⟨rfl, f, h1, h2⟩ | ⟨rfl, _, h1, h2⟩
    · exact Or.inl ⟨rfl, f, h1, h2.symm⟩
    · exact Or.inr ⟨rfl, h1, h2⟩

structure OInv (w : World) (s : St) : Prop where
  modules : ∀ m ∈ s.modules, Origin w m
  pending : ∀ f ∈ s.stack, ∀ d ∈ f.pending, Named w d

theorem oinv_tail {w : World} {s : St} {f : Frame} {fs : List Frame} {d : RDep} {rest : List RDep}
    (h : OInv w s) (hs : s.stack = f :: fs) (hp : f.pending = d :: rest) : ∀ x ∈ { f with pending := rest } :: fs, ∀ y ∈ x.pending, Named w y := by
  intro x hx y hy
  rcases List.mem_cons.mp hx with rfl | hx
  · exact h.pending f (by rw [hs]; simp) y (by rw [hp]; simp [show y ∈ rest from hy])
  · exact h.pending x (by rw [hs]; simp [hx]) y hy

theorem mem_toEnd' {l : Loader} {ms : List Mod} {m : Mod} : m ∈ toEnd l ms ↔ m ∈ ms := by
  cases l with
  | product => exact Iff.rfl
  | module i =>
    simp only [toEnd, List.mem_append, List.mem_filter]
    constructor
    · rintro (⟨h, _⟩ | ⟨h, _⟩) <;> exact h
    · intro h
      by_cases hi : m.id = i
      · exact Or.inr ⟨h, by simpa using hi⟩
      · exact Or.inl ⟨h, by simpa using hi⟩

theorem oinv_next {w : World} {now : Now} {s s' : St} (hi : OInv w s) (h : step w now s = .next s') : OInv w s' := by
  cases step_cases h with
  | skipped f fs d rest hs hp hr hn he => subst he; exact ⟨hi.modules, oinv_tail hi hs hp⟩
  | again f fs d rest j g hs hp hf hj hg he =>
    subst he
    refine ⟨fun m hm => ?_, oinv_tail hi hs hp⟩
    obtain ⟨m0, hm0, rfl⟩ := List.mem_map.mp hm
    exact (hi.modules m0 hm0).same (hg m0).name (hg m0).product (hg m0).depends (hg m0).present
  | new f fs d rest p b ds g m hs hp hn hsrc hg hm he =>
    subst he
    refine ⟨fun x hx => ?_, fun x hx => ?_⟩
    · rcases List.mem_append.mp hx with hx | hx
      · obtain ⟨m0, hm0, rfl⟩ := List.mem_map.mp hx
        exact (hi.modules m0 hm0).same (hg m0).name (hg m0).product (hg m0).depends (hg m0).present
      · rw [List.mem_singleton] at hx
        subst hx
        exact new_origin (hi.pending f (by rw [hs]; simp) d (by rw [hp]; simp)) hsrc hm
    · rcases List.mem_append.mp hx with hx | hx
      · split at hx
        · simp at hx
        · rw [List.mem_singleton] at hx
          subst hx
          intro y hy
          simp only [newFrame, List.mem_singleton] at hy
          subst hy
          intro p hp; cases hp
      · exact oinv_tail hi hs hp x hx
  | error f fs d rest e hs hp hl hq he =>
    subst he
    refine ⟨fun m hm => hi.modules m ((unwind_sublist _ _).subset hm), fun x hx => ?_⟩
    obtain ⟨g, h1, h2⟩ := unwind_stack { f with pending := rest } fs s.modules
    simp only [h1, List.mem_singleton] at hx
    subst hx
    exact oinv_tail hi hs hp x h2
  | expanded f fs c hs hp hc he =>
    subst he
    refine ⟨hi.modules, fun x hx y hy => ?_⟩
    rcases List.mem_cons.mp hx with rfl | hx
    · exact expand_named hy
    · exact hi.pending x (by rw [hs]; simp [hx]) y hy
  | evaluated f fs d rest d' c hs hp hc hi' ha hv he =>
    subst he
    refine ⟨hi.modules, fun x hx y hy => ?_⟩
    rcases List.mem_cons.mp hx with rfl | hx
    · simp only [hp] at hy; simp at hy
    · exact hi.pending x (by rw [hs]; simp [hx]) y hy
  | popped f fs hs hp hc hi' he =>
    subst he
    refine ⟨fun m hm => ?_, fun x hx => hi.pending x (by rw [hs]; simp [show x ∈ fs from hx])⟩
    simp only at hm
    split at hm
    · exact hi.modules m hm
    · exact hi.modules m (mem_toEnd'.mp hm)

theorem oinv {w : World} {s : St} (h : Reach P w s) : OInv w s := by
  induction h with
  | initial =>
    refine ⟨by simp [initial], fun f hf d hd => ?_⟩
    simp only [initial, List.mem_singleton] at hf
    subst hf
    simp only [List.mem_singleton] at hd
    subst hd
    intro p hp; cases hp
  | next _ _ h ih => exact oinv_next ih h
  | deferred _ _ h ih =>
    rcases step_deferred h with rfl | ⟨f, fs, d, rest, p, h1, h2, _, _, h5, rfl⟩
    · exact ih
    · refine ⟨ih.modules, fun x hx y hy => ?_⟩
      rcases List.mem_cons.mp hx with rfl | hx
      · rcases List.mem_cons.mp hy with rfl | hy
        · intro p' hp'
          cases hp'
          rcases h5 with h5 | ⟨_, h5⟩
          · exact ih.pending f (by rw [h1]; simp) d (by rw [h2]; simp) p h5
          · obtain ⟨q, hq, hm⟩ := findProduct_some h5
            exact ⟨q, hq, hm.1⟩
        · exact ih.pending f (by rw [h1]; simp) y (by rw [h2]; simp [hy])
      · exact ih.pending x (by rw [h1]; simp [hx]) y hy

end Verif.Deps
