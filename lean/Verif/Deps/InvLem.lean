import Verif.Deps.Lem

/-! # What holds while dependencies are being resolved -/

namespace Verif.Deps
open Verif.Version

variable {P : Now → Prop}

/-- The same entry, later -/
structure Ext (m m' : Mod) : Prop where
  id : m'.id = m.id
  name : m'.name = m.name
  product : m'.product = m.product
  depends : m'.depends = m.depends
  present : m'.present = m.present
  required : m.required = true → m'.required = true
  range : ∃ more, m'.range = Range.accumulate m.range more
  loaders : ∀ l ∈ m.loaders, l ∈ m'.loaders

theorem Ext.refl (m : Mod) : Ext m m := ⟨rfl, rfl, rfl, rfl, rfl, _root_.id, ⟨[], rfl⟩, fun _ h => h⟩

theorem SameButLocals.ext {l : Loader} {d : RDep} {j : Nat} {m m' : Mod} (h : SameButLocals l d j m m') : Ext m m' :=
  ⟨h.id, h.name, h.product, h.depends, h.present, fun hr => h.required.trans hr, ⟨[], h.range⟩, fun l hl => by rw [h.loaders]; exact hl⟩

theorem Updated.ext {l : Loader} {d : RDep} {j : Nat} {m m' : Mod} (h : Updated l d j m m') : Ext m m' := by
  have hl : ∀ x ∈ m.loaders, x ∈ m'.loaders := by
    intro x hx
    by_cases hj : m.id = j
    · rcases h.loaders hj with ⟨_, hl⟩ | ⟨_, _, hl⟩ | ⟨_, _, hl⟩ <;> rw [hl] <;> simp [hx]
    · rw [(h.other hj).2.2]; exact hx
  by_cases hj : m.id = j
  · by_cases hq : m.name = ["qbs"]
    · exact ⟨h.id, h.name, h.product, h.depends, h.present, fun hr => (h.base hq).1.trans hr, ⟨[], (h.base hq).2⟩, hl⟩
    · obtain ⟨h1, h2⟩ := h.required hj hq
      exact ⟨h.id, h.name, h.product, h.depends, h.present, fun hr => by rw [h1, hr]; rfl, ⟨[d.range], h2⟩, hl⟩
  · obtain ⟨h1, h2, _⟩ := h.other hj
    exact ⟨h.id, h.name, h.product, h.depends, h.present, fun hr => h1.trans hr, ⟨[], h2⟩, hl⟩

def Le (ms ms' : List Mod) : Prop := ∀ m ∈ ms, ∃ m' ∈ ms', Ext m m'

theorem Le.refl (ms : List Mod) : Le ms ms := fun m hm => ⟨m, hm, Ext.refl m⟩

theorem DependsOf.mono {w : World} {ms ms' : List Mod} (h : Le ms ms') {l : Loader} {ds : List Dep} (hd : DependsOf w ms l ds) :
    DependsOf w ms' l ds := by
  cases l with
  | product => exact hd
  | module i =>
    obtain ⟨m, hm, h1, h2⟩ := hd
    obtain ⟨m', hm', he⟩ := h m hm
    exact ⟨m', hm', he.id.trans h1, he.depends.trans h2⟩

theorem Optional.mono {w : World} {ms ms' : List Mod} (h : Le ms ms') {l : Loader} (ho : Optional w ms l) : Optional w ms' l := by
  induction ho with
  | here hm hl hd hdd ha hr =>
    obtain ⟨m', hm', he⟩ := h _ hm
    rw [← he.id]
    exact Optional.here hm' (he.loaders _ hl) (hd.mono h) hdd (by rw [he.name]; exact ha) hr
  | before hm hl _ ih =>
    obtain ⟨m', hm', he⟩ := h _ hm
    rw [← he.id]
    exact Optional.before hm' (he.loaders _ hl) ih

theorem Counts.mono {m m' : Mod} (h : Ext m m') {r : Range} (hc : Counts m r) : Counts m' r := by
  obtain ⟨f, more, h1, h2⟩ := hc
  obtain ⟨more2, h3⟩ := h.range
  refine ⟨f, more ++ more2, ?_, ?_⟩
  · rw [h3, h1, Range.accumulate, Range.accumulate, Range.accumulate, List.foldl_append]
  · rcases List.mem_cons.mp h2 with h2 | h2
    · simp [h2]
    · simp [h2]

/-- A dependency has been dealt with. -/
def Handled (w : World) (ms : List Mod) (l : Loader) (r : RDep) : Prop :=
  (∃ m ∈ ms, m.name = r.name ∧ FitsR w m.product r ∧
    (r.name ≠ ["qbs"] → l ∈ m.loaders ∧ (r.requiredG = true → m.required = true) ∧ Counts m r.range)) ∨
  (r.requiredG = false ∧ r.product = none ∧ Unavailable w r.limit r.name r.profile r.muxId)

theorem Handled.mono {w : World} {ms ms' : List Mod} (h : Le ms ms') {l : Loader} {r : RDep} (hh : Handled w ms l r) :
    Handled w ms' l r := by
  rcases hh with ⟨m, hm, h1, h2, h3⟩ | hh
  · obtain ⟨m', hm', he⟩ := h m hm
    refine Or.inl ⟨m', hm', he.name.trans h1, by rw [he.product]; exact h2, fun hq => ?_⟩
    obtain ⟨a, b, c⟩ := h3 hq
    exact ⟨he.loaders _ a, fun hr => he.required (b hr), c.mono he⟩
  · exact Or.inr hh

/-- What a `Depends` item has come to -/
def Prov (P : Now → Prop) (w : World) (rg : Bool) (d : Dep) (r : RDep) : Prop :=
  ∃ d' now, adjust w d = .ok d' ∧ evaluate d' = .ok (some d') ∧ P now ∧ r ∈ expand w now rg d'

/-- All dependencies of a `Depends` item have been dealt with. -/
def ItemDone (P : Now → Prop) (w : World) (ms : List Mod) (l : Loader) (d : Dep) : Prop :=
  (∃ d' c, adjust w d = .ok d' ∧ evaluate d' = .ok c) ∧
  ∀ d', adjust w d = .ok d' → evaluate d' = .ok (some d') → ∃ rg now, P now ∧ (rg = false → Optional w ms l) ∧
    ∀ r ∈ expand w now rg d', Handled w ms l r

theorem ItemDone.mono {w : World} {ms ms' : List Mod} (h : Le ms ms') {l : Loader} {d : Dep} (hh : ItemDone P w ms l d) :
    ItemDone P w ms' l d := by
  refine ⟨hh.1, fun d' h1 h2 => ?_⟩
  obtain ⟨rg, now, hP, h3, h4⟩ := hh.2 d' h1 h2
  exact ⟨rg, now, hP, fun hr => (h3 hr).mono h, fun r hr => (h4 r hr).mono h⟩

structure FrameOk (P : Now → Prop) (w : World) (ms : List Mod) (f : Frame) (ds : List Dep) : Prop where
  opt : f.requiredG = false → Optional w ms f.loading
  pending : ∀ r ∈ f.pending, r = base ∨ ∃ d ∈ ds, Prov P w f.requiredG d r
  current : ∀ c, f.current = some c → evaluate c = .ok (some c) ∧ ∃ d ∈ ds, adjust w d = .ok c
  items : ∀ d ∈ f.items, d ∈ ds
  all : ∀ d ∈ ds, d ∈ f.items ∨ ItemDone P w ms f.loading d ∨ (∃ c, f.current = some c ∧ adjust w d = .ok c) ∨
    ∃ d' now, (adjust w d = .ok d' ∧ evaluate d' = .ok (some d') ∧ P now) ∧ ∀ r ∈ expand w now f.requiredG d', r ∈ f.pending ∨ Handled w ms f.loading r

theorem FrameOk.mono {w : World} {ms ms' : List Mod} (h : Le ms ms') {f : Frame} {ds : List Dep} (hf : FrameOk P w ms f ds) :
    FrameOk P w ms' f ds := by
  refine ⟨fun hr => (hf.opt hr).mono h, hf.pending, hf.current, hf.items, fun d hd => ?_⟩
  rcases hf.all d hd with h1 | h1 | h1 | ⟨d', now, h1, h2⟩
  · exact Or.inl h1
  · exact Or.inr (Or.inl (h1.mono h))
  · exact Or.inr (Or.inr (Or.inl h1))
  · exact Or.inr (Or.inr (Or.inr ⟨d', now, h1, fun r hr => (h2 r hr).imp _root_.id (fun x => x.mono h)⟩))

/-- Each item on the stack was loaded by the one below, the lowest one is the product. -/
def Chain (ms : List Mod) : List Loader → Prop
  | [] => True
  | [l] => l = .product
  | l :: l' :: ls => (∃ m ∈ ms, l = .module m.id ∧ m.name ≠ ["qbs"] ∧ l' ∈ m.loaders) ∧ Chain ms (l' :: ls)

theorem Chain.mono {ms ms' : List Mod} (h : Le ms ms') : ∀ {ls : List Loader}, Chain ms ls → Chain ms' ls
  | [], _ => trivial
  | [_], hc => hc
  | l :: l' :: ls, hc => by
    obtain ⟨⟨m, hm, h1, h2, h3⟩, hr⟩ := hc
    obtain ⟨m', hm', he⟩ := h m hm
    exact ⟨⟨m', hm', by rw [h1, he.id], by rw [he.name]; exact h2, he.loaders _ h3⟩, hr.mono h⟩

structure Core (P : Now → Prop) (w : World) (ms : List Mod) (L : List Loader) (nextId : Nat) : Prop where
  ids : (ms.map (·.id)).Nodup
  lt : ∀ m ∈ ms, m.id < nextId
  nodup : L.Nodup
  chain : Chain ms L
  done : ∀ m ∈ ms, m.name ≠ ["qbs"] → Loader.module m.id ∉ L → ∀ d ∈ m.depends, ItemDone P w ms (.module m.id) d
  doneProduct : L = [] → ∀ d ∈ w.depends, ItemDone P w ms .product d
  sound : ∀ m ∈ ms, m.name ≠ ["qbs"] → m.loaders ≠ []
  loaders : ∀ m ∈ ms, ∀ l ∈ m.loaders, ∃ ds d rg r, DependsOf w ms l ds ∧ d ∈ ds ∧ Prov P w rg d r ∧ r.name = m.name ∧ FitsR w m.product r
  adj : ∀ e ∈ ms, ∀ l ∈ e.loaders, Loader.module e.id ∈ L → ∃ pre post, L = pre ++ Loader.module e.id :: l :: post
  order : ∀ a m b, ms = a ++ m :: b → Loader.module m.id ∉ L → ∀ e ∈ ms, Loader.module m.id ∈ e.loaders → e ∈ a

structure Inv (P : Now → Prop) (w : World) (s : St) : Prop where
  core : Core P w s.modules (s.stack.map (·.loading)) s.nextId
  frames : ∀ f ∈ s.stack, ∃ ds, DependsOf w s.modules f.loading ds ∧ FrameOk P w s.modules f ds

theorem inv_initial (w : World) : Inv P w (initial w) := by
  refine ⟨?_, ?_⟩
  · refine ⟨List.nodup_nil, by simp [initial], by simp [initial], ?_, by simp [initial], by simp [initial], by simp [initial], by simp [initial],
      by simp [initial], by simp [initial]⟩
    simp [initial, Chain]
  · intro f hf
    simp only [initial, List.mem_singleton] at hf
    subst hf
    exact ⟨w.depends, rfl, ⟨by simp, by simp, by simp, fun d hd => hd, fun d hd => Or.inl hd⟩⟩

/-- Entries with the same instance are the same. -/
theorem eq_of_id {ms : List Mod} (h : (ms.map (·.id)).Nodup) {m m' : Mod} (hm : m ∈ ms) (hm' : m' ∈ ms) (hid : m.id = m'.id) : m = m' := by
  induction ms with
  | nil => simp at hm
  | cons x xs ih =>
    simp only [List.map_cons, List.nodup_cons, List.mem_map, not_exists, not_and] at h
    rcases List.mem_cons.mp hm with h1 | h1 <;> rcases List.mem_cons.mp hm' with h2 | h2
    · rw [h1, h2]
    · rw [h1] at hid; exact absurd hid.symm (h.1 _ h2)
    · rw [h2] at hid; exact absurd hid (h.1 _ h1)
    · exact ih h.2 h1 h2

theorem split_unique {ms a c a0 c0 : List Mod} {x : Mod} (h : (ms.map (·.id)).Nodup) (h1 : ms = a ++ x :: c) (h2 : ms = a0 ++ x :: c0) :
    a = a0 := by
  subst h1
  rcases List.append_eq_append_iff.mp h2 with ⟨t, ht1, ht2⟩ | ⟨t, ht1, ht2⟩
  · cases t with
    | nil => simpa using ht1.symm
    | cons y t =>
      exfalso
      simp only [List.cons_append, List.cons.injEq] at ht2
      rw [ht2.2] at h
      simp only [List.map_append, List.map_cons, List.nodup_append, List.nodup_cons] at h
      exact h.2.1.1 (by simp)
  · cases t with
    | nil => simpa using ht1
    | cons y t =>
      exfalso
      simp only [List.cons_append, List.cons.injEq] at ht2
      rw [ht1, ← ht2.1] at h
      simp only [List.map_append, List.map_cons, List.nodup_append, List.nodup_cons] at h
      exact h.2.2 x.id (by simp) x.id (by simp) rfl

/-- Which entries there are after an update, and how they differ -/
theorem core_update {w : World} {ms : List Mod} {L : List Loader} {n : Nat} (hc : Core P w ms L n) {l : Loader} {d : RDep} {j : Nat}
    {g : Mod → Mod} (hg : ∀ m, Updated l d j m (g m)) (hl : l ∈ L) (hj : Loader.module j ∉ L)
    {ds : List Dep} {dd : Dep} {rg : Bool} (hds : DependsOf w ms l ds) (hdd : d.name ≠ ["qbs"] → dd ∈ ds ∧ Prov P w rg dd d)
    (hm : ∃ m ∈ ms, m.id = j ∧ m.name = d.name ∧ FitsR w m.product d) :
    Core P w (ms.map g) L n ∧ Le ms (ms.map g) := by
  have hle : Le ms (ms.map g) := fun m hm => ⟨g m, List.mem_map_of_mem hm, (hg m).ext⟩
  refine ⟨?_, hle⟩
  have hids : (ms.map g).map (·.id) = ms.map (·.id) := by
    rw [List.map_map]; exact List.map_congr_left (fun m _ => (hg m).id)
  -- the loaders after the update
  have hload : ∀ m ∈ ms, ∀ x ∈ (g m).loaders, x ∈ m.loaders ∨ (x = l ∧ m.id = j ∧ d.name ≠ ["qbs"]) := by
    intro m _ x hx
    by_cases hmj : m.id = j
    · rcases (hg m).loaders hmj with ⟨_, h⟩ | ⟨_, _, h⟩ | ⟨hq, _, h⟩
      · rw [h] at hx; exact Or.inl hx
      · rw [h] at hx; exact Or.inl hx
      · rw [h] at hx
        rcases List.mem_append.mp hx with hx | hx
        · exact Or.inl hx
        · exact Or.inr ⟨by simpa using hx, hmj, hq⟩
    · rw [((hg m).other hmj).2.2] at hx; exact Or.inl hx
  refine ⟨by rw [hids]; exact hc.ids, ?_, hc.nodup, hc.chain.mono hle, ?_, ?_, ?_, ?_, ?_, ?_⟩
  · intro m hm
    obtain ⟨m0, hm0, rfl⟩ := List.mem_map.mp hm
    rw [(hg m0).id]; exact hc.lt m0 hm0
  · intro m hm hq hn d hd
    obtain ⟨m0, hm0, rfl⟩ := List.mem_map.mp hm
    rw [(hg m0).name] at hq
    rw [(hg m0).id] at hn ⊢
    rw [(hg m0).depends] at hd
    exact (hc.done m0 hm0 hq hn d hd).mono hle
  · intro hL d hd
    exact (hc.doneProduct hL d hd).mono hle
  · intro m hm hq
    obtain ⟨m0, hm0, rfl⟩ := List.mem_map.mp hm
    rw [(hg m0).name] at hq
    have := hc.sound m0 hm0 hq
    intro h0
    obtain ⟨x, hx⟩ := List.exists_mem_of_ne_nil _ this
    have := (hg m0).ext.loaders x hx
    rw [h0] at this
    simp at this
  · intro m hm' x hx
    obtain ⟨m0, hm0, rfl⟩ := List.mem_map.mp hm'
    rcases hload m0 hm0 x hx with hx | ⟨rfl, hmj, hq⟩
    · obtain ⟨ds, d0, rg, r, h1, h2, h3, h4, h5⟩ := hc.loaders m0 hm0 x hx
      exact ⟨ds, d0, rg, r, h1.mono hle, h2, h3, by rw [(hg m0).name]; exact h4, by rw [(hg m0).product]; exact h5⟩
    · obtain ⟨m1, hm1, h1, h2, h3⟩ := hm
      have := eq_of_id hc.ids hm1 hm0 (h1.trans hmj.symm)
      subst this
      exact ⟨ds, dd, rg, d, hds.mono hle, (hdd hq).1, (hdd hq).2, by rw [(hg m1).name]; exact h2.symm, by rw [(hg m1).product]; exact h3⟩
  · intro e he x hx hst
    obtain ⟨m0, hm0, rfl⟩ := List.mem_map.mp he
    rw [(hg m0).id] at hst ⊢
    rcases hload m0 hm0 x hx with hx | ⟨rfl, hmj, _⟩
    · exact hc.adj m0 hm0 x hx hst
    · rw [hmj] at hst; exact absurd hst hj
  · intro a m b hab hn e he hl'
    obtain ⟨e0, he0, rfl⟩ := List.mem_map.mp he
    obtain ⟨a0, rest, hms, ha, hrest⟩ := List.map_eq_append_iff.mp hab
    obtain ⟨m0, b0, hrest2, hm0, hb⟩ := List.map_eq_cons_iff.mp hrest
    subst hrest2 hm0 ha
    rw [(hg m0).id] at hn hl'
    rcases hload e0 he0 _ hl' with hx | ⟨hx, _, _⟩
    · exact List.mem_map_of_mem (hc.order a0 m0 b0 hms hn e0 he0 hx)
    · rw [hx] at hn; exact absurd hl hn

/-- A new entry, which is put onto the stack unless it is the base module -/
theorem core_new {w : World} {ms : List Mod} {L : List Loader} {n : Nat} (hc : Core P w ms L n) {l : Loader} {d : RDep}
    {p : Option Nat} {ds' : List Dep} {b : Bool} {m : Mod} {g : Mod → Mod} (hg : ∀ m, SameButLocals l d n m (g m))
    (hm : New l d p ds' b n m) {L0 : List Loader} (hL : L = l :: L0)
    {ds : List Dep} {dd : Dep} {rg : Bool} (hds : DependsOf w ms l ds) (hdd : d.name ≠ ["qbs"] → dd ∈ ds ∧ Prov P w rg dd d)
    (hfit : FitsR w p d) :
    Core P w (ms.map g ++ [m]) (if d.name = ["qbs"] then L else .module n :: L) (n + 1) ∧ Le ms (ms.map g ++ [m]) := by
  have hle : Le ms (ms.map g ++ [m]) := fun x hx => ⟨g x, by simp; exact Or.inl ⟨x, hx, rfl⟩, (hg x).ext⟩
  refine ⟨?_, hle⟩
  have hids : (ms.map g).map (·.id) = ms.map (·.id) := by
    rw [List.map_map]; exact List.map_congr_left (fun m _ => (hg m).id)
  have hnL : Loader.module n ∉ L := by
    have : ∀ {L : List Loader}, Chain ms L → Loader.module n ∉ L := by
      intro L
      induction L with
      | nil => simp
      | cons x xs ih =>
        intro hch
        cases xs with
        | nil => rw [show x = .product from hch]; simp
        | cons y ys =>
          obtain ⟨⟨e, he, hx, _⟩, hr⟩ := hch
          intro hmem
          rcases List.mem_cons.mp hmem with h | h
          · rw [hx, Loader.module.injEq] at h
            exact absurd (hc.lt e he) (by omega)
          · exact ih hr h
    exact this hc.chain
  have hmem : ∀ {x : Mod}, x ∈ ms.map g ++ [m] → (∃ x0 ∈ ms, x = g x0) ∨ x = m := by
    intro x hx
    rcases List.mem_append.mp hx with hx | hx
    · obtain ⟨x0, h0, rfl⟩ := List.mem_map.mp hx; exact Or.inl ⟨x0, h0, rfl⟩
    · exact Or.inr (by simpa using hx)
  -- nobody has been loaded by the new one
  have hfresh : ∀ x ∈ ms, Loader.module n ∉ x.loaders := by
    intro x hx h
    obtain ⟨ds, _, _, _, hd, _⟩ := hc.loaders x hx _ h
    obtain ⟨y, hy, hyn, _⟩ := hd
    exact absurd (hc.lt y hy) (by omega)
  have hml : ∀ x ∈ m.loaders, x = l ∧ d.name ≠ ["qbs"] := by
    intro x hx
    rw [hm.loaders] at hx
    split at hx
    · simp at hx
    · rename_i hq; exact ⟨by simpa using hx, hq⟩
  have hlne : l ≠ Loader.module n := by
    intro h; apply hnL; rw [hL, h]; simp
  have hsub : ∀ x, x ∈ L → x ∈ (if d.name = ["qbs"] then L else .module n :: L) := by
    intro x hx; split <;> simp [hx]
  refine ⟨?_, ?_, ?_, ?_, ?_, ?_, ?_, ?_, ?_, ?_⟩
  · rw [List.map_append, hids, List.nodup_append]
    refine ⟨hc.ids, by simp, ?_⟩
    intro a ha c hcc hac
    simp only [List.map_cons, List.map_nil, List.mem_singleton] at hcc
    obtain ⟨e, he, rfl⟩ := List.mem_map.mp ha
    rw [hcc, hm.id] at hac
    exact absurd (hc.lt e he) (by omega)
  · intro x hx
    rcases hmem hx with ⟨x0, h0, rfl⟩ | rfl
    · rw [(hg x0).id]; have := hc.lt x0 h0; omega
    · rw [hm.id]; omega
  · split
    · exact hc.nodup
    · exact List.nodup_cons.mpr ⟨hnL, hc.nodup⟩
  · split
    · exact hc.chain.mono hle
    · rename_i hq
      rw [hL]
      have := hc.chain.mono hle
      rw [hL] at this
      exact ⟨⟨m, by simp, by rw [hm.id], by rw [hm.name]; exact hq, by rw [hm.loaders, if_neg hq]; simp⟩, this⟩
  · intro x hx hq hn dd' hd
    rcases hmem hx with ⟨x0, h0, rfl⟩ | rfl
    · rw [(hg x0).name] at hq
      rw [(hg x0).id] at hn ⊢
      rw [(hg x0).depends] at hd
      exact (hc.done x0 h0 hq (fun h => hn (hsub _ h)) dd' hd).mono hle
    · rw [hm.name] at hq
      rw [if_neg hq, hm.id] at hn
      exact absurd (List.mem_cons_self) hn
  · intro h0
    split at h0
    · rw [hL] at h0; cases h0
    · cases h0
  · intro x hx hq
    rcases hmem hx with ⟨x0, h0, rfl⟩ | rfl
    · rw [(hg x0).name] at hq
      rw [(hg x0).loaders]
      exact hc.sound x0 h0 hq
    · rw [hm.name] at hq
      rw [hm.loaders, if_neg hq]; simp
  · intro x hx y hy
    rcases hmem hx with ⟨x0, h0, rfl⟩ | rfl
    · rw [(hg x0).loaders] at hy
      obtain ⟨ds, d0, rg, r, h1, h2, h3, h4, h5⟩ := hc.loaders x0 h0 y hy
      exact ⟨ds, d0, rg, r, h1.mono hle, h2, h3, by rw [(hg x0).name]; exact h4, by rw [(hg x0).product]; exact h5⟩
    · obtain ⟨rfl, hq⟩ := hml y hy
      exact ⟨ds, dd, rg, d, hds.mono hle, (hdd hq).1, (hdd hq).2, hm.name.symm, by rw [hm.product]; exact hfit⟩
  · intro e he x hx hst
    rcases hmem he with ⟨e0, h0, rfl⟩ | rfl
    · rw [(hg e0).loaders] at hx
      rw [(hg e0).id] at hst ⊢
      split at hst
      · rename_i hq; rw [if_pos hq]; exact hc.adj e0 h0 x hx hst
      · rename_i hq
        rw [if_neg hq]
        rcases List.mem_cons.mp hst with h | h
        · rw [Loader.module.injEq] at h; exact absurd (hc.lt e0 h0) (by omega)
        · obtain ⟨pre, post, hpp⟩ := hc.adj e0 h0 x hx h
          exact ⟨.module n :: pre, post, by rw [hpp]; rfl⟩
    · obtain ⟨rfl, hq⟩ := hml x hx
      rw [if_neg hq, hm.id, hL]
      exact ⟨[], L0, rfl⟩
  · intro a x c hab hn e he hl'
    have hxm : x ∈ ms.map g ++ [m] := by rw [hab]; simp
    have hxL : Loader.module x.id ∉ L := fun h => hn (hsub _ h)
    rcases hmem hxm with ⟨x0, h0, rfl⟩ | rfl
    · rw [(hg x0).id] at hxL hl'
      rcases hmem he with ⟨e0, he0, rfl⟩ | rfl
      · rw [(hg e0).loaders] at hl'
        -- the position of `x0` in the old list
        obtain ⟨a0, b0, hab0⟩ := List.append_of_mem h0
        have hea := hc.order a0 x0 b0 hab0 hxL e0 he0 hl'
        have hnd : ((ms.map g ++ [m]).map (·.id)).Nodup := by
          rw [List.map_append, hids, List.nodup_append]
          refine ⟨hc.ids, by simp, ?_⟩
          intro u hu v hv huv
          simp only [List.map_cons, List.map_nil, List.mem_singleton] at hv
          obtain ⟨e, he, rfl⟩ := List.mem_map.mp hu
          rw [hv, hm.id] at huv
          exact absurd (hc.lt e he) (by omega)
        have : a = a0.map g := split_unique (c0 := b0.map g ++ [m]) hnd hab (by rw [hab0]; simp)
        rw [this]
        exact List.mem_map_of_mem hea
      · obtain ⟨h, _⟩ := hml _ hl'
        apply absurd _ hxL
        rw [h, hL]; simp
    · rw [hm.id] at hl'
      rcases hmem he with ⟨e0, he0, rfl⟩ | rfl
      · rw [(hg e0).loaders] at hl'
        exact absurd hl' (hfresh e0 he0)
      · exact absurd (hml _ hl').1.symm hlne

theorem mem_toEnd {i : Nat} {ms : List Mod} {m : Mod} : m ∈ toEnd (.module i) ms ↔ m ∈ ms := by
  simp only [toEnd, List.mem_append, List.mem_filter, decide_eq_true_eq]
  constructor
  · rintro (h | h) <;> exact h.1
  · intro h
    by_cases hi : m.id = i
    · exact Or.inr ⟨h, by simpa using hi⟩
    · exact Or.inl ⟨h, by simpa using hi⟩

/-- All dependencies of the module on top of the stack have been dealt with. -/
theorem core_pop {w : World} {ms : List Mod} {L : List Loader} {n i : Nat} (hc : Core P w ms (.module i :: L) n) (hL : L ≠ [])
    (hd : ∀ m ∈ ms, m.id = i → ∀ d ∈ m.depends, ItemDone P w ms (.module i) d) :
    Core P w (toEnd (.module i) ms) L n ∧ Le ms (toEnd (.module i) ms) := by
  have hle : Le ms (toEnd (.module i) ms) := fun m hm => ⟨m, mem_toEnd.mpr hm, Ext.refl m⟩
  have hge : Le (toEnd (.module i) ms) ms := fun m hm => ⟨m, mem_toEnd.mp hm, Ext.refl m⟩
  refine ⟨?_, hle⟩
  have hnd := List.nodup_cons.mp hc.nodup
  have hids : ((toEnd (.module i) ms).map (·.id)).Nodup := by
    have hp : List.Perm (toEnd (.module i) ms) ms := by
      have := List.filter_append_perm (fun m : Mod => decide (m.id ≠ i)) ms
      refine List.Perm.trans ?_ this
      simp only [toEnd]
      apply List.Perm.append_left
      apply List.Perm.of_eq
      apply List.filter_congr
      intro m _
      simp
    exact (hp.map _).nodup_iff.mpr hc.ids
  refine ⟨hids, fun m hm => hc.lt m (mem_toEnd.mp hm), hnd.2, ?_, ?_, fun h => absurd h hL, fun m hm => hc.sound m (mem_toEnd.mp hm), ?_, ?_, ?_⟩
  · have := hc.chain
    cases L with
    | nil => trivial
    | cons x xs => exact this.2.mono hle
  · intro m hm hq hn d hdd
    have hm' := mem_toEnd.mp hm
    by_cases hmi : m.id = i
    · rw [hmi]; exact (hd m hm' hmi d hdd).mono hle
    · refine (hc.done m hm' hq ?_ d hdd).mono hle
      intro h
      rcases List.mem_cons.mp h with h | h
      · rw [Loader.module.injEq] at h; exact hmi h
      · exact hn h
  · intro m hm l hl
    obtain ⟨ds, d0, rg, r, h1, h2⟩ := hc.loaders m (mem_toEnd.mp hm) l hl
    exact ⟨ds, d0, rg, r, h1.mono hle, h2⟩
  · intro e he l hl hst
    obtain ⟨pre, post, hpp⟩ := hc.adj e (mem_toEnd.mp he) l hl (List.mem_cons_of_mem _ hst)
    cases pre with
    | nil =>
      simp only [List.nil_append, List.cons.injEq] at hpp
      rw [hpp.1] at hnd
      exact absurd hst hnd.1
    | cons x pre =>
      simp only [List.cons_append, List.cons.injEq] at hpp
      exact ⟨pre, post, hpp.2⟩
  · intro a m b hab hn e he hl
    have hm : m ∈ ms := mem_toEnd.mp (by rw [hab]; simp)
    have he' := mem_toEnd.mp he
    by_cases hmi : m.id = i
    · -- it is the last one
      have hei : e.id ≠ i := by
        intro hei
        have := eq_of_id hc.ids he' hm (hei.trans hmi.symm)
        subst this
        obtain ⟨pre, post, hpp⟩ := hc.adj e he' _ hl (by rw [hmi]; exact List.mem_cons_self)
        have := hc.nodup
        rw [hpp] at this
        simp only [List.nodup_append, List.nodup_cons] at this
        exact this.2.1.1 (by simp)
      have hlast : toEnd (.module i) ms = ms.filter (fun x => x.id ≠ i) ++ [m] := by
        simp only [toEnd]
        congr 1
        have hnd2 : ((ms.filter (fun x => decide (x.id = i))).map (·.id)).Nodup := List.Nodup.sublist ((List.filter_sublist).map _) hc.ids
        have hmem : m ∈ ms.filter (fun x => decide (x.id = i)) := by simp [hm, hmi]
        have hall : ∀ x ∈ ms.filter (fun x => decide (x.id = i)), x = m := by
          intro x hx
          simp only [List.mem_filter, decide_eq_true_eq] at hx
          exact eq_of_id hc.ids hx.1 hm (hx.2.trans hmi.symm)
        generalize hF : ms.filter (fun x => decide (x.id = i)) = F at hnd2 hmem hall
        match F, hnd2, hmem, hall with
        | [x], _, _, hall => rw [hall x (by simp)]
        | x :: y :: F, hnd2, _, hall =>
          have h1 := hall x (by simp)
          have h2 := hall y (by simp)
          rw [h1, h2] at hnd2
          simp at hnd2
      have := split_unique (c0 := []) hids hab hlast
      rw [this]
      simp [he', hei]
    · have hnc : Loader.module m.id ∉ .module i :: L := by
        intro h
        rcases List.mem_cons.mp h with h | h
        · rw [Loader.module.injEq] at h; exact hmi h
        · exact hn h
      obtain ⟨a0, b0, hab0⟩ := List.append_of_mem hm
      have hea := hc.order a0 m b0 hab0 hnc e he' hl
      have hei : e.id ≠ i := by
        intro hei
        obtain ⟨pre, post, hpp⟩ := hc.adj e he' _ hl (by rw [hei]; exact List.mem_cons_self)
        apply hnc
        rw [hpp]; simp
      have := split_unique (a0 := a0.filter (fun x => x.id ≠ i)) (c0 := b0.filter (fun x => x.id ≠ i) ++ ms.filter (fun x => x.id = i)) hids hab (by
        simp only [toEnd]
        conv => lhs; lhs; rw [hab0]
        simp [List.filter_append, List.filter_cons, hmi])
      rw [this]
      simp [hea, hei]

end Verif.Deps
