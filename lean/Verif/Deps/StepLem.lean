import Verif.Deps.InvLem

/-! # Each step keeps the invariant -/

namespace Verif.Deps
open Verif.Version

variable {P : Now → Prop}

/-- Only the variants are set. -/
theorem adjust_same {w : World} {d d' : Dep} (h : adjust w d = .ok d') : ∃ ids, d' = { d with muxIds := ids } := by
  unfold adjust at h
  have hok : ∀ {x : Dep}, (Except.ok d : Except Err Dep) = .ok x → ∃ ids, x = { d with muxIds := ids } := fun hx => ⟨d.muxIds, by cases hx; rfl⟩
  have hok' : ∀ {x : Dep} {ids}, (Except.ok { d with muxIds := ids } : Except Err Dep) = .ok x → ∃ ids, x = { d with muxIds := ids } :=
    fun {_ ids} hx => ⟨ids, by cases hx; rfl⟩
  split at h
  · exact hok h
  · split at h
    · split at h
      · exact hok h
      · cases h
    · dsimp only at h
      split at h
      · exact hok h
      · split at h
        · exact hok h
        · split at h
          · split at h
            · exact hok' h
            · split at h
              · cases h
              · exact hok' h
              · cases h
          · split at h
            · cases h
            · exact hok' h

theorem mem_orOne {α : Type} {l : List α} {a x : α} : x ∈ orOne l a ↔ (x = a ∧ l = []) ∨ x ∈ l := by
  unfold orOne
  cases l <;> simp

theorem expandNamed_iff {rg : Bool} {d : Dep} {r : RDep} : r ∈ expandNamed rg d ↔
    ∃ pr ∈ orOne (d.profiles.getD []) "", ∃ i ∈ orOne d.muxIds "", ∃ sub ∈ orOne (d.submodules.getD []) [],
      r = { name := d.name ++ sub, profile := pr, muxId := i, range := d.range, limit := d.limit, required := d.required, requiredG := d.required && rg } := by
  simp only [expandNamed, List.mem_flatMap, List.mem_map]
  constructor
  · rintro ⟨pr, h1, i, h2, sub, h3, rfl⟩; exact ⟨pr, h1, i, h2, sub, h3, rfl⟩
  · rintro ⟨pr, h1, i, h2, sub, h3, rfl⟩; exact ⟨pr, h1, i, h2, sub, h3, rfl⟩

theorem expand_shape {w : World} {now : Now} {rg : Bool} {d : Dep} {r : RDep} (h : r ∈ expand w now rg d) :
    (r.product = none ∧ d.productTypes = none ∧ r ∈ expandNamed rg d) ∨
    (∃ p q types, d.productTypes = some types ∧ p ∈ now.ofType types ∧ prodAt w p = some q ∧
      r = { name := [q.name], product := some p, range := d.range, checkProduct := false }) := by
  unfold expand at h
  split at h
  · rename_i types ht
    obtain ⟨p, hp, hr⟩ := List.mem_filterMap.mp h
    obtain ⟨q, hq, rfl⟩ := Option.map_eq_some_iff.mp hr
    exact Or.inr ⟨p, q, types, ht, (List.mem_filter.mp hp).1, hq, rfl⟩
  · rename_i ht
    refine Or.inl ⟨?_, ht, h⟩
    obtain ⟨_, _, _, _, _, _, rfl⟩ := expandNamed_iff.mp h
    rfl

theorem evaluate_some {d c : Dep} (h : evaluate d = .ok (some c)) : c = d ∧ d.enabled = true ∧ d.name ≠ ["qbs"] ∧ d.submodules ≠ some [] := by
  unfold evaluate at h
  split at h
  · simp at h
  · rename_i h1
    split at h
    · simp at h
    · rename_i h2
      split at h
      · simp at h
      · rename_i h3
        split at h
        · simp at h
        · split at h
          · simp at h
          · split at h
            · simp at h
            · simp only [Except.ok.injEq, Option.some.injEq] at h
              exact ⟨h.symm, by simpa using h1, h2, h3⟩

/-- Where dependencies by name come from -/
theorem asks_of_named {w : World} {rg : Bool} {d d' : Dep} {r : RDep} (h1 : adjust w d = .ok d') (h2 : evaluate d' = .ok (some d'))
    (h3 : d'.productTypes = none) (h4 : r ∈ expandNamed rg d') :
    Asks w d r.name r.profile r.muxId ∧ r.requiredG = (d.required && rg) ∧ r.required = d.required ∧ r.range = d.range ∧ r.limit = d.limit := by
  obtain ⟨ids, hd'⟩ := adjust_same h1
  obtain ⟨_, he, hn, hs⟩ := evaluate_some h2
  obtain ⟨pr, hpr, i, hi, sub, hsub, rfl⟩ := expandNamed_iff.mp h4
  have hd : d'.enabled = d.enabled ∧ d'.name = d.name ∧ d'.submodules = d.submodules ∧ d'.profiles = d.profiles ∧ d'.required = d.required ∧
    d'.productTypes = d.productTypes ∧ d'.range = d.range ∧ d'.limit = d.limit := by subst hd'; simp
  obtain ⟨a1, a2, a3, a4, a5, a6, a7, a8⟩ := hd
  refine ⟨⟨a1 ▸ he, a6 ▸ h3, a2 ▸ hn, ?_, ?_, ⟨d', h1, ?_⟩⟩, by rw [← a5], a5, a7, a8⟩
  · rw [a3] at hs hsub
    cases hsm : d.submodules with
    | none =>
      rw [hsm] at hsub
      rcases mem_orOne.mp hsub with ⟨rfl, _⟩ | h
      · exact Or.inl ⟨hsm, by simp [a2]⟩
      · simp at h
    | some subs =>
      rw [hsm] at hsub hs
      rcases mem_orOne.mp hsub with ⟨_, h⟩ | h
      · simp at h; simp [h] at hs
      · exact Or.inr ⟨subs, hsm, sub, h, by rw [a2]⟩
  · rw [a4] at hpr
    exact mem_orOne.mp hpr
  · exact mem_orOne.mp hi

theorem prov_product {w : World} {rg : Bool} {d : Dep} {r : RDep} (h : Prov P w rg d r) : r.checkProduct = false ∨ r.product = none := by
  obtain ⟨d', now, _, _, _, h3⟩ := h
  rcases expand_shape h3 with ⟨h, _⟩ | ⟨_, _, _, _, _, _, rfl⟩
  · exact Or.inr h
  · exact Or.inl rfl

theorem prov_optional {w : World} {rg : Bool} {d : Dep} {r : RDep} (h : Prov P w rg d r) (hr : r.requiredG = false) :
    (∃ pr i, Asks w d r.name pr i ∧ d.required = false) ∨ rg = false := by
  obtain ⟨d', now, h1, h2, _, h3⟩ := h
  rcases expand_shape h3 with ⟨h, hp, hn⟩ | ⟨_, _, _, _, _, _, rfl⟩
  · obtain ⟨ha, hq, _⟩ := asks_of_named h1 h2 hp hn
    rw [hq] at hr
    cases hd : d.required with
    | false => exact Or.inl ⟨_, _, ha, rfl⟩
    | true => simp only [hd, Bool.true_and] at hr; exact Or.inr hr
  · simp at hr

theorem onStack_iff {l : Loader} {fs : List Frame} : onStack l fs = true ↔ l ∈ fs.map (·.loading) := by
  simp [onStack, List.any_eq_true, List.mem_map]

/-- The dependency at the front has been dealt with; nothing else is different for this frame. -/
theorem frameOk_tail {w : World} {ms ms' : List Mod} (hle : Le ms ms') {f : Frame} {ds : List Dep} {d : RDep} {rest : List RDep}
    (hp : f.pending = d :: rest) (hf : FrameOk P w ms f ds) (hh : Handled w ms' f.loading d) :
    FrameOk P w ms' { f with pending := rest } ds := by
  have hf' := hf.mono hle
  refine ⟨hf'.opt, fun r hr => hf'.pending r (by rw [hp]; simp [hr]), hf'.current, hf'.items, fun x hx => ?_⟩
  rcases hf'.all x hx with h | h | h | ⟨d', now, h1, h2⟩
  · exact Or.inl h
  · exact Or.inr (Or.inl h)
  · exact Or.inr (Or.inr (Or.inl h))
  · refine Or.inr (Or.inr (Or.inr ⟨d', now, h1, fun r hr => ?_⟩))
    rcases h2 r hr with h | h
    · rw [hp] at h
      rcases List.mem_cons.mp h with rfl | h
      · exact Or.inr hh
      · exact Or.inl h
    · exact Or.inr h

theorem source_fits {w : World} {d : RDep} {p : Option Nat} {ds : List Dep} {b : Bool} (h : Source w d p ds b) : FitsR w p d := by
  cases p with
  | none => exact h.1
  | some i =>
    rcases h.2.2.2 with h | ⟨_, h⟩
    · exact Or.inl h
    · obtain ⟨q, hq, hm⟩ := findProduct_some h
      exact Or.inr ⟨q, hq, hm.2.2.1, hm.2.1⟩

theorem inv_step {w : World} (hself : (prodAt w w.self).isSome) {now : Now} (hP : P now) {s s' : St} (hi : Inv P w s)
    (h : step w now s = .next s') (he : s'.errors = []) : Inv P w s' ∧ s.errors = [] := by
  unfold step at h
  split at h
  · simp at h
  · rename_i f fs hst
    obtain ⟨ds, hds, hf⟩ := hi.frames f (by rw [hst]; simp)
    have hcore := hi.core
    rw [hst, List.map_cons] at hcore
    have hfs : ∀ g ∈ fs, ∃ ds, DependsOf w s.modules g.loading ds ∧ FrameOk P w s.modules g ds := fun g hg => hi.frames g (by rw [hst]; simp [hg])
    split at h
    · -- a pending dependency
      rename_i d rest hp
      have hprov := hf.pending d (by rw [hp]; simp)
      have hdd : d.name ≠ ["qbs"] → ∃ dd ∈ ds, Prov P w f.requiredG dd d := by
        intro hq
        rcases hprov with rfl | h
        · exact absurd rfl hq
        · exact h
      have hdp : d.checkProduct = false ∨ d.product = none := by
        rcases hprov with rfl | ⟨_, _, h⟩
        · exact Or.inr rfl
        · exact prov_product h
      split at h
      · simp at h
      · -- ignored
        rename_i s1 hl
        simp only [Next.next.injEq] at h
        subst h
        obtain ⟨h1, h2, h3, hcase⟩ := load_ignore hself hdp hl
        rcases hcase with ⟨rfl, hr, hpn, hu⟩ | ⟨j, hj, hm, g, hg, hup⟩
        · refine ⟨⟨by simpa using hcore, ?_⟩, he⟩
          intro x hx
          rcases List.mem_cons.mp hx with rfl | hx
          · exact ⟨ds, hds, frameOk_tail (Le.refl _) hp hf (Or.inr ⟨hr, hpn, hu⟩)⟩
          · exact hfs x hx
        · have hjL : Loader.module j ∉ f.loading :: fs.map (·.loading) := by
            intro hmem
            have : onStack (.module j) s.stack = true := onStack_iff.mpr (by rw [hst]; simpa using hmem)
            rw [hj] at this; simp at this
          obtain ⟨dd, hdd'⟩ : ∃ dd, d.name ≠ ["qbs"] → dd ∈ ds ∧ Prov P w f.requiredG dd d := by
            by_cases hq : d.name = ["qbs"]
            · exact ⟨{}, fun h => absurd hq h⟩
            · obtain ⟨dd, a, b⟩ := hdd hq; exact ⟨dd, fun _ => ⟨a, b⟩⟩
          obtain ⟨hc', hle⟩ := core_update hcore hup (by simp) hjL hds hdd' hm
          refine ⟨⟨by simp only [List.map_cons, hg, h3]; exact hc', ?_⟩, by simpa [h2] using he⟩
          intro x hx
          simp only [hg] at hx ⊢
          rcases List.mem_cons.mp hx with rfl | hx
          · refine ⟨ds, hds.mono hle, frameOk_tail hle hp hf (Or.inl ?_)⟩
            obtain ⟨m, hm, hmj, hmn, hmf⟩ := hm
            refine ⟨g m, List.mem_map_of_mem hm, (hup m).name.trans hmn, by rw [(hup m).product]; exact hmf, fun hq => ?_⟩
            have hmq : m.name ≠ ["qbs"] := by rw [hmn]; exact hq
            obtain ⟨a, b⟩ := (hup m).required hmj hmq
            refine ⟨?_, fun hr => by rw [a, hr, Bool.or_true], ⟨m.range, [d.range], b, by simp⟩⟩
            rcases (hup m).loaders hmj with ⟨h, _⟩ | ⟨_, h, h'⟩ | ⟨_, _, h'⟩
            · exact absurd h hq
            · rw [h']; exact h
            · rw [h']; simp
          · obtain ⟨ds', a, b⟩ := hfs x hx
            exact ⟨ds', a.mono hle, b.mono hle⟩
      · -- a new module
        rename_i i deps s1 hl
        obtain ⟨hne, rfl, h1, h2, h3, p, b, hsrc, g, m, hg, hgs, hnew⟩ := load_use hl
        obtain ⟨dd, hdd'⟩ : ∃ dd, d.name ≠ ["qbs"] → dd ∈ ds ∧ Prov P w f.requiredG dd d := by
          by_cases hq : d.name = ["qbs"]
          · exact ⟨{}, fun h => absurd hq h⟩
          · obtain ⟨dd, a, b⟩ := hdd hq; exact ⟨dd, fun _ => ⟨a, b⟩⟩
        obtain ⟨hc', hle⟩ := core_new hcore hgs hnew rfl hds hdd' (source_fits hsrc)
        have hhandled : Handled w s1.modules f.loading d := by
          rw [hg]
          refine Or.inl ⟨m, by simp, hnew.name, by rw [hnew.product]; exact source_fits hsrc, fun hq => ?_⟩
          exact ⟨by rw [hnew.loaders, if_neg hq]; simp, fun hr => hnew.required.trans hr, ⟨d.range, [], hnew.range, by simp⟩⟩
        rw [← hg] at hle
        by_cases hq : d.name = ["qbs"]
        · rw [if_pos hq] at h hc'
          simp only [Next.next.injEq] at h
          subst h
          refine ⟨⟨by simp only [List.map_cons, hg, h3]; exact hc', ?_⟩, by simpa [h2] using he⟩
          intro x hx
          rcases List.mem_cons.mp hx with rfl | hx
          · exact ⟨ds, hds.mono hle, frameOk_tail hle hp hf hhandled⟩
          · obtain ⟨ds', a, b⟩ := hfs x hx
            exact ⟨ds', a.mono hle, b.mono hle⟩
        · rw [if_neg hq] at h hc'
          simp only [Next.next.injEq] at h
          subst h
          refine ⟨⟨by simp only [List.map_cons, hg, h3]; exact hc', ?_⟩, by simpa [h2] using he⟩
          intro x hx
          rcases List.mem_cons.mp hx with rfl | hx
          · refine ⟨m.depends, ⟨m, by rw [hg]; simp, hnew.id, rfl⟩, ?_⟩
            refine ⟨fun hr => ?_, by simp, by simp, fun y hy => ?_, fun y hy => Or.inl ?_⟩
            · obtain ⟨hdm, hpr⟩ := hdd' hq
              have hml : f.loading ∈ m.loaders := by rw [hnew.loaders, if_neg hq]; simp
              have hmm : m ∈ s1.modules := by rw [hg]; simp
              show Optional w s1.modules (.module s.nextId)
              rw [← hnew.id]
              rcases prov_optional hpr hr with ⟨pr, v, ha, hreq⟩ | hrg
              · exact Optional.here hmm hml (hds.mono hle) hdm (by rw [hnew.name]; exact ha) hreq
              · exact Optional.before hmm hml ((hf.opt hrg).mono hle)
            · rw [hnew.depends]; exact hy
            · rw [hnew.depends] at hy; exact hy
          · rcases List.mem_cons.mp hx with rfl | hx
            · exact ⟨ds, hds.mono hle, frameOk_tail hle hp hf hhandled⟩
            · obtain ⟨ds', a, b⟩ := hfs x hx
              exact ⟨ds', a.mono hle, b.mono hle⟩
      · -- an error
        rename_i e hl
        split at h
        · simp at h
        · simp only [Next.next.injEq] at h
          subst h
          simp at he
    · rename_i hp
      split at h
      · -- a current item
        rename_i c hcur
        split at h
        · simp at h
        · simp only [Next.next.injEq] at h
          subst h
          refine ⟨⟨by simpa using hcore, ?_⟩, he⟩
          intro x hx
          rcases List.mem_cons.mp hx with rfl | hx
          · refine ⟨ds, hds, ?_⟩
            obtain ⟨hev, dd, hdd, hadj⟩ := hf.current c hcur
            refine ⟨hf.opt, fun r hr => Or.inr ⟨dd, hdd, c, now, hadj, hev, hP, hr⟩, by simp, hf.items, fun y hy => ?_⟩
            rcases hf.all y hy with h | h | ⟨c', hc', h⟩ | ⟨d', now', h1, h2⟩
            · exact Or.inl h
            · exact Or.inr (Or.inl h)
            · rw [hcur] at hc'
              cases hc'
              exact Or.inr (Or.inr (Or.inr ⟨c, now, ⟨h, hev, hP⟩, fun r hr => Or.inl hr⟩))
            · refine Or.inr (Or.inl ?_)
              refine ⟨⟨_, _, h1.1, h1.2.1⟩, fun d'' h3 h4 => ?_⟩
              rw [h1.1] at h3
              cases h3
              refine ⟨f.requiredG, now', h1.2.2, hf.opt, fun r hr => ?_⟩
              rcases h2 r hr with h | h
              · rw [hp] at h; simp at h
              · exact h
          · exact hfs x hx
      · rename_i hcur
        split at h
        · -- the next item
          rename_i d rest hit
          split at h
          · simp at h
          · rename_i d' hadj
            split at h
            · simp at h
            · rename_i c hev
              simp only [Next.next.injEq] at h
              subst h
              refine ⟨⟨by simpa using hcore, ?_⟩, he⟩
              intro x hx
              rcases List.mem_cons.mp hx with rfl | hx
              · refine ⟨ds, hds, ⟨hf.opt, hf.pending, ?_, fun y hy => hf.items y (by rw [hit]; simp [show y ∈ rest from hy]), fun y hy => ?_⟩⟩
                · intro c' hc'
                  simp only at hc'
                  subst hc'
                  obtain ⟨rfl, _⟩ := evaluate_some hev
                  exact ⟨hev, d, hf.items d (by rw [hit]; simp), hadj⟩
                · rcases hf.all y hy with h | h | ⟨c', hc', h⟩ | h
                  · rw [hit] at h
                    rcases List.mem_cons.mp h with rfl | h
                    · cases c with
                      | none =>
                        refine Or.inr (Or.inl ?_)
                        refine ⟨⟨_, _, hadj, hev⟩, fun d'' h3 h4 => ?_⟩
                        rw [hadj] at h3
                        cases h3
                        rw [hev] at h4
                        simp at h4
                      | some c =>
                        obtain ⟨rfl, _⟩ := evaluate_some hev
                        exact Or.inr (Or.inr (Or.inl ⟨c, rfl, hadj⟩))
                    · exact Or.inl h
                  · exact Or.inr (Or.inl h)
                  · rw [hcur] at hc'; simp at hc'
                  · exact Or.inr (Or.inr (Or.inr h))
              · exact hfs x hx
        · -- all items have been dealt with
          rename_i hit
          simp only [Next.next.injEq] at h
          subst h
          have hall : ∀ d ∈ ds, ItemDone P w s.modules f.loading d := by
            intro d hd
            rcases hf.all d hd with h | h | ⟨c', hc', _⟩ | ⟨d', now', h1, h2⟩
            · rw [hit] at h; simp at h
            · exact h
            · rw [hcur] at hc'; simp at hc'
            · refine ⟨⟨_, _, h1.1, h1.2.1⟩, fun d'' h3 h4 => ?_⟩
              rw [h1.1] at h3
              cases h3
              refine ⟨f.requiredG, now', h1.2.2, hf.opt, fun r hr => ?_⟩
              rcases h2 r hr with h | h
              · rw [hp] at h; simp at h
              · exact h
          by_cases hn : fs = []
          · subst hn
            simp only [if_true]
            refine ⟨⟨?_, by simp⟩, he⟩
            have hlp : f.loading = .product := hcore.chain
            simp only [List.map_nil] at hcore ⊢
            refine ⟨hcore.ids, hcore.lt, List.nodup_nil, trivial, fun m hm hq _ => ?_, fun _ => ?_, hcore.sound, hcore.loaders, by simp, ?_⟩
            · exact hcore.done m hm hq (by rw [hlp]; simp)
            · rw [hlp] at hds hall
              rw [← show ds = w.depends from hds]; exact hall
            · intro a m b hab _ e he' hl'
              exact hcore.order a m b hab (by rw [hlp]; simp) e he' hl'
          · simp only [hn, if_false]
            obtain ⟨g, gs, rfl⟩ := List.exists_cons_of_ne_nil hn
            obtain ⟨⟨m, hm, hlm, hmq, _⟩, _⟩ := hcore.chain
            rw [hlm] at hcore hall hds ⊢
            obtain ⟨hc', hle⟩ := core_pop hcore (by simp) (by
              intro m' hm' hid d hd
              obtain ⟨m1, hm1, hid1, hd1⟩ := hds
              have := eq_of_id hcore.ids hm' hm1 (hid.trans hid1.symm)
              subst this
              exact hall d (by rw [← hd1]; exact hd))
            refine ⟨⟨hc', ?_⟩, he⟩
            intro x hx
            obtain ⟨ds', a, b⟩ := hfs x hx
            exact ⟨ds', a.mono hle, b.mono hle⟩

end Verif.Deps
