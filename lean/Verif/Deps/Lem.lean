import Verif.Deps.Spec

/-! # Lemmas on loading a module -/

namespace Verif.Deps
open Verif.Version

/-- What an entry has to be like for a dependency -/
def FitsR (w : World) (p : Option Nat) (d : RDep) : Prop :=
  match p with
  | none => d.product = none
  | some i => d.product = some i ∨ ∃ q, prodAt w i = some q ∧ (d.profile = "" ∨ q.profile = d.profile) ∧ q.muxId = d.muxId

theorem findExisting_found {w : World} {d : RDep} {l : List (Name × Option Nat × Nat)} {id : Nat}
    (h : findExisting w d l = .found id) : ∃ p, (d.name, p, id) ∈ l ∧ FitsR w p d := by
  induction l with
  | nil => simp [findExisting] at h
  | cons x l ih =>
    obtain ⟨n, p, i⟩ := x
    unfold findExisting at h
    by_cases hn : n = d.name
    · subst hn
      simp only [ne_eq, not_true_eq_false, if_false] at h
      cases p with
      | none =>
        simp only at h
        split at h
        · simp at h
        · rename_i hp
          simp only [Existing.found.injEq] at h
          subst h
          refine ⟨none, by simp, ?_⟩
          simpa [FitsR] using hp
      | some p =>
        simp only at h
        cases hq : prodAt w p with
        | none =>
          rw [hq] at h
          obtain ⟨p', hp', hf⟩ := ih h
          exact ⟨p', by simp [hp'], hf⟩
        | some q =>
          rw [hq] at h
          simp only at h
          split at h
          · rename_i hc
            simp only [Existing.found.injEq] at h
            subst h
            exact ⟨some p, by simp, Or.inr ⟨q, hq, hc⟩⟩
          · obtain ⟨p', hp', hf⟩ := ih h
            exact ⟨p', by simp [hp'], hf⟩
    · simp only [ne_eq, hn, not_false_eq_true, if_true] at h
      obtain ⟨p', hp', hf⟩ := ih h
      exact ⟨p', by simp [hp'], hf⟩

theorem findExisting_none {w : World} {d : RDep} {l : List (Name × Option Nat × Nat)}
    (h : findExisting w d l = .none) : ∀ p i, (d.name, p, i) ∈ l → ∃ j, p = some j ∧
      ∀ q, prodAt w j = some q → ¬ ((d.profile = "" ∨ q.profile = d.profile) ∧ q.muxId = d.muxId) := by
  induction l with
  | nil => simp
  | cons x l ih =>
    obtain ⟨n, p, i⟩ := x
    unfold findExisting at h
    intro p' i' hm
    by_cases hn : n = d.name
    · subst hn
      simp only [ne_eq, not_true_eq_false, if_false] at h
      cases p with
      | none => simp only at h; split at h <;> simp at h
      | some p =>
        simp only at h
        cases hq : prodAt w p with
        | none =>
          rw [hq] at h
          rcases List.mem_cons.mp hm with hm | hm
          · simp only [Prod.mk.injEq, true_and] at hm
            exact ⟨p, hm.1, by simp [hq]⟩
          · exact ih h _ _ hm
        | some q =>
          rw [hq] at h
          simp only at h
          split at h
          · simp at h
          · rename_i hc
            rcases List.mem_cons.mp hm with hm | hm
            · simp only [Prod.mk.injEq, true_and] at hm
              exact ⟨p, hm.1, by intro q' hq'; rw [hq] at hq'; cases hq'; exact hc⟩
            · exact ih h _ _ hm
    · simp only [ne_eq, hn, not_false_eq_true, if_true] at h
      rcases List.mem_cons.mp hm with hm | hm
      · simp only [Prod.mk.injEq] at hm
        exact absurd hm.1.symm hn
      · exact ih h _ _ hm

theorem findExisting_none_of {w : World} {d : RDep} {l : List (Name × Option Nat × Nat)}
    (h : ∀ p i, (d.name, p, i) ∈ l → ∃ j, p = some j ∧
      ∀ q, prodAt w j = some q → ¬ ((d.profile = "" ∨ q.profile = d.profile) ∧ q.muxId = d.muxId)) :
    findExisting w d l = .none := by
  induction l with
  | nil => rfl
  | cons x l ih =>
    obtain ⟨n, p, i⟩ := x
    have hl := ih (fun p i hm => h p i (by simp [hm]))
    unfold findExisting
    by_cases hn : n = d.name
    · subst hn
      simp only [ne_eq, not_true_eq_false, if_false]
      obtain ⟨j, rfl, hj⟩ := h p i (by simp)
      simp only
      cases hq : prodAt w j with
      | none => exact hl
      | some q => simp only; rw [if_neg (hj q hq)]; exact hl
    · simp only [ne_eq, hn, not_false_eq_true, if_true]; exact hl

/-- Nothing but what the instance knows of other modules is different. -/
structure SameButLocals (l : Loader) (d : RDep) (j : Nat) (m m' : Mod) : Prop where
  id : m'.id = m.id
  name : m'.name = m.name
  product : m'.product = m.product
  depends : m'.depends = m.depends
  present : m'.present = m.present
  required : m'.required = m.required
  range : m'.range = m.range
  loaders : m'.loaders = m.loaders
  locals : ∀ x ∈ m'.locals, x ∈ m.locals ∨ (l = .module m.id ∧ x.id = j ∧ x.name = d.name ∧ x.required = d.required)
  kept : ∀ x ∈ m.locals, x ∈ m'.locals

/-- The module has been asked for once more. -/
structure Updated (l : Loader) (d : RDep) (j : Nat) (m m' : Mod) : Prop where
  id : m'.id = m.id
  name : m'.name = m.name
  product : m'.product = m.product
  depends : m'.depends = m.depends
  present : m'.present = m.present
  other : m.id ≠ j → m'.required = m.required ∧ m'.range = m.range ∧ m'.loaders = m.loaders
  required : m.id = j → m.name ≠ ["qbs"] → m'.required = (m.required || d.requiredG) ∧ m'.range = m.range.narrowDown d.range
  base : m.name = ["qbs"] → m'.required = m.required ∧ m'.range = m.range
  loaders : m.id = j → (d.name = ["qbs"] ∧ m'.loaders = m.loaders) ∨ (d.name ≠ ["qbs"] ∧ l ∈ m.loaders ∧ m'.loaders = m.loaders) ∨
    (d.name ≠ ["qbs"] ∧ l ∉ m.loaders ∧ m'.loaders = m.loaders ++ [l])
  locals : ∀ x ∈ m'.locals, x ∈ m.locals ∨ (l = .module m.id ∧ x.id = j ∧ x.name = d.name ∧ x.required = d.required)
  kept : ∀ x ∈ m.locals, x ∈ m'.locals

theorem addLocal_some {w : World} {l : Loader} {d : RDep} {id : Nat} {prod : Option Nat} {s s' : St}
    (h : addLocal w l d id prod s = some s') :
    s'.stack = s.stack ∧ s'.errors = s.errors ∧ s'.nextId = s.nextId ∧
      ∃ g : Mod → Mod, s'.modules = s.modules.map g ∧ ∀ m, SameButLocals l d id m (g m) := by
  unfold addLocal at h
  cases l with
  | product =>
    simp only [Option.some.injEq] at h
    subst h
    exact ⟨rfl, rfl, rfl, _root_.id, by simp, fun m => ⟨rfl, rfl, rfl, rfl, rfl, rfl, rfl, rfl, fun x hx => Or.inl hx, fun x hx => hx⟩⟩
  | module i =>
    simp only at h
    split at h
    · simp at h
    · simp only [Option.some.injEq] at h
      subst h
      exact ⟨rfl, rfl, rfl, _root_.id, by simp, fun m => ⟨rfl, rfl, rfl, rfl, rfl, rfl, rfl, rfl, fun x hx => Or.inl hx, fun x hx => hx⟩⟩
    · simp only [Option.some.injEq] at h
      subst h
      refine ⟨rfl, rfl, rfl, _, rfl, fun m => ?_⟩
      split
      · rename_i hid
        refine ⟨rfl, rfl, rfl, rfl, rfl, rfl, rfl, rfl, fun x hx => ?_, fun x hx => List.mem_append_left _ hx⟩
        rcases List.mem_append.mp hx with hx | hx
        · exact Or.inl hx
        · rw [List.mem_singleton] at hx
          subst hx
          exact Or.inr ⟨by rw [hid], rfl, rfl, rfl⟩
      · exact ⟨rfl, rfl, rfl, rfl, rfl, rfl, rfl, rfl, fun x hx => Or.inl hx, fun x hx => hx⟩

theorem addLoader_id (d : RDep) (l : Loader) (m : Mod) : (addLoader d l m).id = m.id ∧ (addLoader d l m).name = m.name ∧
    (addLoader d l m).product = m.product ∧ (addLoader d l m).depends = m.depends ∧ (addLoader d l m).present = m.present ∧
    (addLoader d l m).required = m.required ∧ (addLoader d l m).range = m.range ∧ (addLoader d l m).locals = m.locals := by
  unfold addLoader
  split <;> simp

theorem addLoader_loaders (d : RDep) (l : Loader) (m : Mod) :
    (d.name = ["qbs"] ∧ (addLoader d l m).loaders = m.loaders) ∨
    (d.name ≠ ["qbs"] ∧ l ∈ m.loaders ∧ (addLoader d l m).loaders = m.loaders) ∨
    (d.name ≠ ["qbs"] ∧ l ∉ m.loaders ∧ (addLoader d l m).loaders = m.loaders ++ [l]) := by
  unfold addLoader
  split
  · rename_i h
    by_cases hq : d.name = ["qbs"]
    · exact Or.inl ⟨hq, rfl⟩
    · exact Or.inr (Or.inl ⟨hq, h.resolve_left hq, rfl⟩)
  · rename_i h
    have := not_or.mp h
    exact Or.inr (Or.inr ⟨this.1, this.2, rfl⟩)

theorem loadExisting_ignore {w : World} {l : Loader} {d : RDep} {id : Nat} {s s' : St}
    (h : loadExisting w l d id s = .ignore s') :
    s'.stack = s.stack ∧ s'.errors = s.errors ∧ s'.nextId = s.nextId ∧ onStack (.module id) s.stack = false ∧
      ∃ g : Mod → Mod, s'.modules = s.modules.map g ∧ ∀ m, Updated l d id m (g m) := by
  unfold loadExisting at h
  simp only at h
  split at h
  · simp at h
  · rename_i hst
    split at h
    · simp at h
    · split at h
      · simp at h
      · rename_i s2 ha
        simp only [Res.ignore.injEq] at h
        subst h
        obtain ⟨h1, h2, h3, g, hg, hs⟩ := addLocal_some ha
        refine ⟨h1, h2, h3, by simpa using hst, ?_⟩
        simp only [modify] at hg
        rw [List.map_map] at hg
        refine ⟨_, hg, fun m => ?_⟩
        simp only [Function.comp_apply]
        have hs' := hs (if m.id = id then addLoader d l (if m.name = ["qbs"] then m else updateMod d m) else m)
        by_cases hid : m.id = id
        · rw [if_pos hid] at hs' ⊢
          by_cases hq : m.name = ["qbs"]
          · rw [if_pos hq] at hs' ⊢
            obtain ⟨a1, a2, a3, a4, a5, a6, a7, a8⟩ := addLoader_id d l m
            refine ⟨hs'.id.trans a1, hs'.name.trans a2, hs'.product.trans a3, hs'.depends.trans a4, hs'.present.trans a5,
              fun h => absurd hid h, fun _ h => absurd hq h, fun _ => ⟨hs'.required.trans a6, hs'.range.trans a7⟩, fun _ => ?_,
              fun x hx => by have := hs'.locals x hx; rw [a8, a1] at this; exact this, fun x hx => hs'.kept x (by rw [a8]; exact hx)⟩
            rw [hs'.loaders]
            exact addLoader_loaders d l m
          · rw [if_neg hq] at hs' ⊢
            obtain ⟨a1, a2, a3, a4, a5, a6, a7, a8⟩ := addLoader_id d l (updateMod d m)
            refine ⟨hs'.id.trans a1, hs'.name.trans a2, hs'.product.trans a3, hs'.depends.trans a4, hs'.present.trans a5,
              fun h => absurd hid h, fun _ _ => ⟨hs'.required.trans a6, hs'.range.trans a7⟩, fun h => absurd h hq, fun _ => ?_,
              fun x hx => by have := hs'.locals x hx; rw [a8, a1] at this; exact this, fun x hx => hs'.kept x (by rw [a8]; exact hx)⟩
            rw [hs'.loaders]
            exact addLoader_loaders d l (updateMod d m)
        · rw [if_neg hid] at hs' ⊢
          exact ⟨hs'.id, hs'.name, hs'.product, hs'.depends, hs'.present, fun _ => ⟨hs'.required, hs'.range, hs'.loaders⟩,
            fun h => absurd h hid, fun _ => ⟨hs'.required, hs'.range⟩, fun h => absurd h hid, hs'.locals, hs'.kept⟩

theorem loadExisting_use {w : World} {l : Loader} {d : RDep} {id i : Nat} {s s' : St} {ds : List Dep} :
    loadExisting w l d id s ≠ .use i ds s' := by
  unfold loadExisting
  simp only
  split
  · simp
  · split
    · simp
    · split <;> simp

theorem loadExisting_defer {w : World} {l : Loader} {d : RDep} {id p : Nat} {s : St} : loadExisting w l d id s ≠ .defer p := by
  unfold loadExisting
  simp only
  split
  · simp
  · split
    · simp
    · split <;> simp

theorem addNew_ignore {w : World} {l : Loader} {d : RDep} {p : Option Nat} {ds : List Dep} {b : Bool} {s s' : St} :
    addNew w l d p ds b s ≠ .ignore s' := by
  unfold addNew
  split
  · simp
  · simp only
    split <;> simp

theorem addNew_defer {w : World} {l : Loader} {d : RDep} {p : Option Nat} {ds : List Dep} {b : Bool} {s : St} {i : Nat} :
    addNew w l d p ds b s ≠ .defer i := by
  unfold addNew
  split
  · simp
  · simp only
    split <;> simp

/-- A new entry -/
structure New (l : Loader) (d : RDep) (p : Option Nat) (ds : List Dep) (b : Bool) (id : Nat) (m : Mod) : Prop where
  id : m.id = id
  name : m.name = d.name
  product : m.product = p
  depends : m.depends = ds
  present : m.present = b
  required : m.required = d.requiredG
  range : m.range = d.range
  loaders : m.loaders = if d.name = ["qbs"] then [] else [l]
  locals : ∀ x ∈ m.locals, l = .module m.id

theorem addNew_use {w : World} {l : Loader} {d : RDep} {p : Option Nat} {ds ds' : List Dep} {b : Bool} {s s' : St} {i : Nat}
    (h : addNew w l d p ds b s = .use i ds' s') :
    i = s.nextId ∧ ds' = ds ∧ s'.stack = s.stack ∧ s'.errors = s.errors ∧ s'.nextId = s.nextId + 1 ∧
      ∃ (g : Mod → Mod) (m : Mod), s'.modules = s.modules.map g ++ [m] ∧ (∀ m, SameButLocals l d i m (g m)) ∧ New l d p ds b i m := by
  unfold addNew at h
  split at h
  · simp at h
  · simp only at h
    split at h
    · simp at h
    · rename_i s2 ha
      simp only [Res.use.injEq] at h
      obtain ⟨rfl, rfl, rfl⟩ := h
      obtain ⟨h1, h2, h3, g, hg, hs⟩ := addLocal_some ha
      refine ⟨rfl, rfl, h1, h2, h3, g, _, by rw [hg, List.map_append]; rfl, hs, ?_⟩
      have hs' := hs (addLoader d l { id := s.nextId, name := d.name, product := p, depends := ds, present := b, required := d.requiredG, range := d.range, loaders := [], locals := [] })
      obtain ⟨a1, a2, a3, a4, a5, a6, a7, a8⟩ := addLoader_id d l { id := s.nextId, name := d.name, product := p, depends := ds, present := b, required := d.requiredG, range := d.range, loaders := [], locals := [] }
      refine ⟨hs'.id.trans a1, hs'.name.trans a2, hs'.product.trans a3, hs'.depends.trans a4, hs'.present.trans a5,
        hs'.required.trans a6, hs'.range.trans a7, ?_, fun x hx => ?_⟩
      rotate_left
      · rcases hs'.locals x hx with h | h
        · rw [a8] at h; simp at h
        · rw [hs'.id]; exact h.1
      rw [hs'.loaders]
      unfold addLoader
      by_cases hq : d.name = ["qbs"] <;> simp [hq]

theorem head?_contains {a b : Product} (h : sameSubProject a b = true) : ∃ x, a.projects.head? = some x ∧ x ∈ b.projects := by
  unfold sameSubProject at h
  split at h
  · simp at h
  · rename_i p l hp
    exact ⟨p, by simp [hp], by simpa using h⟩

theorem sameSubProject_of {a b : Product} {x : Nat} (h : a.projects.head? = some x) (h2 : x ∈ b.projects) : sameSubProject a b = true := by
  unfold sameSubProject
  cases hp : a.projects with
  | nil => simp [hp] at h
  | cons p l => simp only [hp, List.head?_cons, Option.some.injEq] at h; subst h; simpa using h2

/-- The condition in `findProduct` -/
theorem findProduct_some {w : World} {d : RDep} {p : Nat} (h : findProduct w d = some p) :
    ∃ q, prodAt w p = some q ∧ Meant w d.limit d.name d.profile d.muxId q := by
  unfold findProduct at h
  have := List.find?_some h
  split at this
  · rename_i q s hq hs
    refine ⟨q, hq, ?_⟩
    simp only [Bool.and_eq_true, decide_eq_true_eq, Bool.or_eq_true, Bool.not_eq_true'] at this
    refine ⟨this.1.1.1, this.1.1.2, this.1.2.imp _root_.id Eq.symm, fun hl => ⟨s, hs, ?_⟩⟩
    exact head?_contains (this.2.resolve_left (by simp [hl]))
  · simp at this

theorem findProduct_none {w : World} {d : RDep} (hself : (prodAt w w.self).isSome) (h : findProduct w d = none) :
    ∀ q ∈ w.prods, ¬ Meant w d.limit d.name d.profile d.muxId q := by
  intro q hq hm
  unfold findProduct at h
  obtain ⟨p, hp⟩ := List.mem_iff_getElem?.mp hq
  rw [List.find?_eq_none] at h
  have hlt : p < w.prods.length := (List.getElem?_eq_some_iff.mp hp).1
  obtain ⟨s, hs⟩ := Option.isSome_iff_exists.mp hself
  have := h p (by simpa using hlt)
  have hpa : prodAt w p = some q := hp
  simp only [hpa, hs, Bool.and_eq_true, decide_eq_true_eq, Bool.or_eq_true, Bool.not_eq_true'] at this
  obtain ⟨m1, m2, m3, m4⟩ := hm
  have t4 : d.limit = false ∨ sameSubProject s q = true := by
    cases hl : d.limit with
    | false => exact Or.inl rfl
    | true =>
      obtain ⟨s', hs', x, hx, hx2⟩ := m4 hl
      rw [hs] at hs'; cases hs'
      exact Or.inr (sameSubProject_of hx hx2)
  exact this ⟨⟨⟨m1, m2⟩, m3.imp _root_.id Eq.symm⟩, t4⟩

/-- What the new entry is an instance of -/
def Source (w : World) (d : RDep) (p : Option Nat) (ds : List Dep) (b : Bool) : Prop :=
  match p with
  | some i => i ≠ w.self ∧ ds = ((prodAt w i).map (·.depends)).getD [] ∧ b = true ∧ (d.product = some i ∨ (d.product = none ∧ findProduct w d = some i))
  | none => d.product = none ∧ findProduct w d = none ∧ d.profile = "" ∧ d.muxId = "" ∧
      ((b = true ∧ ∃ f, w.module d.name d.range = .file f ∧ f.depends = ds) ∨ (b = false ∧ d.requiredG = false ∧ w.module d.name d.range = .none ∧ ds = []))

theorem load_use {w : World} {now : Now} {l : Loader} {d : RDep} {s s' : St} {i : Nat} {ds : List Dep}
    (h : load w now l d s = .use i ds s') :
    findExisting w d (s.modules.map Mod.key) = .none ∧
    i = s.nextId ∧ s'.stack = s.stack ∧ s'.errors = s.errors ∧ s'.nextId = s.nextId + 1 ∧
      ∃ (p : Option Nat) (b : Bool), Source w d p ds b ∧ ∃ (g : Mod → Mod) (m : Mod), s'.modules = s.modules.map g ++ [m] ∧
        (∀ m, SameButLocals l d i m (g m)) ∧ New l d p ds b i m := by
  have key : ∀ p, loadProduct w now l d p s = .use i ds s' → p ≠ w.self ∧
      addNew w l d (some p) (((prodAt w p).map (·.depends)).getD []) true s = .use i ds s' := by
    intro p hp
    unfold loadProduct at hp
    split at hp
    · simp at hp
    · simp at hp
    · simp at hp
    · split at hp
      · simp at hp
      · rename_i hn; exact ⟨hn, hp⟩
  unfold load at h
  split at h
  · simp at h
  · exact absurd h loadExisting_use
  · rename_i he
    refine ⟨he, ?_⟩
    cases hp : d.product with
    | some p =>
      rw [hp] at h
      simp only at h
      obtain ⟨hns, h⟩ := key p h
      obtain ⟨rfl, rfl, h1, h2, h3, g, m, hg, hs, hn⟩ := addNew_use h
      exact ⟨rfl, h1, h2, h3, some p, true, ⟨hns, rfl, rfl, Or.inl hp⟩, g, m, hg, hs, hn⟩
    | none =>
      rw [hp] at h
      simp only at h
      cases hf : findProduct w d with
      | some p =>
        rw [hf] at h
        simp only at h
        obtain ⟨hns, h⟩ := key p h
        obtain ⟨rfl, rfl, h1, h2, h3, g, m, hg, hs, hn⟩ := addNew_use h
        exact ⟨rfl, h1, h2, h3, some p, true, ⟨hns, rfl, rfl, Or.inr ⟨hp, hf⟩⟩, g, m, hg, hs, hn⟩
      | none =>
        rw [hf] at h
        simp only [loadFile] at h
        split at h
        · split at h <;> simp at h
        · rename_i hpm
          have hpm := not_or.mp hpm
          split at h
          · rename_i f hfile
            obtain ⟨rfl, rfl, h1, h2, h3, g, m, hg, hs, hn⟩ := addNew_use h
            exact ⟨rfl, h1, h2, h3, none, true, ⟨hp, hf, by simpa using hpm.1, by simpa using hpm.2, Or.inl ⟨rfl, f, hfile, rfl⟩⟩, g, m, hg, hs, hn⟩
          · simp at h
          · rename_i hfile
            split at h
            · simp at h
            · rename_i hreq
              obtain ⟨rfl, rfl, h1, h2, h3, g, m, hg, hs, hn⟩ := addNew_use h
              exact ⟨rfl, h1, h2, h3, none, false, ⟨hp, hf, by simpa using hpm.1, by simpa using hpm.2, Or.inr ⟨rfl, by simpa using hreq, hfile, rfl⟩⟩, g, m, hg, hs, hn⟩

theorem load_ignore {w : World} (hself : (prodAt w w.self).isSome) {now : Now} {l : Loader} {d : RDep} {s s' : St}
    (hd : d.checkProduct = false ∨ d.product = none)
    (h : load w now l d s = .ignore s') :
    s'.stack = s.stack ∧ s'.errors = s.errors ∧ s'.nextId = s.nextId ∧
    ((s' = s ∧ d.requiredG = false ∧ d.product = none ∧ Unavailable w d.limit d.name d.profile d.muxId) ∨
     ∃ id, onStack (.module id) s.stack = false ∧ (∃ m ∈ s.modules, m.id = id ∧ m.name = d.name ∧ FitsR w m.product d) ∧
       ∃ g : Mod → Mod, s'.modules = s.modules.map g ∧ ∀ m, Updated l d id m (g m)) := by
  have key : ∀ p, loadProduct w now l d p s = .ignore s' → s' = s ∧ d.requiredG = false ∧ d.checkProduct = true ∧
      ((prodAt w p).map (·.disabled)).getD false = true := by
    intro p hp
    unfold loadProduct at hp
    split at hp
    · simp at hp
    · simp at hp
    · rename_i hc
      simp only [Res.ignore.injEq] at hp
      unfold checkProd at hc
      split at hc
      · simp at hc
      · rename_i hcp
        split at hc
        · simp at hc
        · split at hc
          · split at hc <;> simp at hc
          · split at hc
            · split at hc
              · simp at hc
              · exact ⟨hp.symm, by simpa using ‹¬ d.requiredG = true›, by simpa using hcp, by assumption⟩
            · simp at hc
    · split at hp
      · simp at hp
      · exact absurd hp addNew_ignore
  unfold load at h
  split at h
  · simp at h
  · rename_i id hid
    obtain ⟨h1, h2, h3, h4, hg⟩ := loadExisting_ignore h
    refine ⟨h1, h2, h3, Or.inr ⟨id, h4, ?_, hg⟩⟩
    obtain ⟨p, hp, hf⟩ := findExisting_found hid
    obtain ⟨m, hm, hmk⟩ := List.mem_map.mp hp
    simp only [Mod.key, Prod.mk.injEq] at hmk
    exact ⟨m, hm, hmk.2.2, hmk.1, by rw [hmk.2.1]; exact hf⟩
  · cases hp : d.product with
    | some p =>
      rw [hp] at h
      simp only at h
      obtain ⟨_, _, hc, _⟩ := key p h
      rcases hd with hd | hd
      · simp [hd] at hc
      · simp [hd] at hp
    | none =>
      rw [hp] at h
      simp only at h
      cases hf : findProduct w d with
      | some p =>
        rw [hf] at h
        simp only at h
        obtain ⟨rfl, hr, _, hdis⟩ := key p h
        refine ⟨rfl, rfl, rfl, Or.inl ⟨rfl, hr, rfl, Or.inl ?_⟩⟩
        obtain ⟨q, hq, hm⟩ := findProduct_some hf
        rw [hq] at hdis
        exact ⟨q, List.mem_of_getElem? hq, hm, by simpa using hdis⟩
      | none =>
        rw [hf] at h
        simp only [loadFile] at h
        split at h
        · rename_i hpm
          split at h
          · simp at h
          · rename_i hr
            simp only [Res.ignore.injEq] at h
            subst h
            exact ⟨rfl, rfl, rfl, Or.inl ⟨rfl, by simpa using hr, rfl, Or.inr ⟨hpm, findProduct_none hself hf⟩⟩⟩
        · split at h
          · exact absurd h addNew_ignore
          · simp at h
          · split at h
            · simp at h
            · exact absurd h addNew_ignore

end Verif.Deps
