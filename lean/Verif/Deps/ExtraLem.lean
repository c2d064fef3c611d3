import Verif.Deps.SuccLem

/-! # What is missing is not required, and nothing is loaded for the base module -/

namespace Verif.Deps
open Verif.Version

variable {P : Now → Prop}

structure AInv (w : World) (ms : List Mod) : Prop where
  absent : ∀ m ∈ ms, m.present = false → Optional w ms (.module m.id)
  base : ∀ e ∈ ms, ∀ m ∈ ms, Loader.module m.id ∈ e.loaders → m.name ≠ ["qbs"]

theorem ainv_next {w : World} {now : Now} {s s' : St} (hi : Inv P w s) (ha : AInv w s.modules)
    (h : step w now s = .next s') (he : s'.errors = []) : AInv w s'.modules := by
  cases step_cases h with
  | skipped f fs d rest hs hp hr hn he => subst he; exact ha
  | expanded f fs c hs hp hc he => subst he; exact ha
  | evaluated f fs d rest d' c hs hp hc hi' ha' hv he => subst he; exact ha
  | error f fs d rest e hs hp hl hq he' => subst he'; simp at he
  | popped f fs hs hp hc hi' he' =>
    subst he'
    simp only
    split
    · exact ha
    · refine ⟨fun m hm hpr => (ha.absent m (mem_toEnd'.mp hm) hpr).mono (fun x hx => ⟨x, mem_toEnd'.mpr hx, Ext.refl x⟩), fun e he m hm => ?_⟩
      exact ha.base e (mem_toEnd'.mp he) m (mem_toEnd'.mp hm)
  | again f fs d rest j g hs hp hf hj hg he' =>
    subst he'
    have hle : Le s.modules (s.modules.map g) := fun m hm => ⟨g m, List.mem_map_of_mem hm, (hg m).ext⟩
    refine ⟨fun m hm hpr => ?_, fun e he m hm hl => ?_⟩
    · obtain ⟨m0, hm0, rfl⟩ := List.mem_map.mp hm
      rw [(hg m0).present] at hpr
      rw [(hg m0).id]
      exact (ha.absent m0 hm0 hpr).mono hle
    · obtain ⟨m0, hm0, rfl⟩ := List.mem_map.mp hm
      obtain ⟨e0, he0, rfl⟩ := List.mem_map.mp he
      rw [(hg m0).name]
      rw [(hg m0).id] at hl
      have hold : Loader.module m0.id ∈ e0.loaders ∨ Loader.module m0.id = f.loading := by
        by_cases hej : e0.id = j
        · rcases (hg e0).loaders hej with ⟨_, h⟩ | ⟨_, _, h⟩ | ⟨_, _, h⟩
          · rw [h] at hl; exact Or.inl hl
          · rw [h] at hl; exact Or.inl hl
          · rw [h] at hl
            rcases List.mem_append.mp hl with hl | hl
            · exact Or.inl hl
            · exact Or.inr (by simpa using hl)
        · rw [((hg e0).other hej).2.2] at hl; exact Or.inl hl
      rcases hold with h | h
      · exact ha.base e0 he0 m0 hm0 h
      · exact chain_not_base hi hi.core.chain m0 hm0 (by rw [hs, h]; simp)
  | new f fs d rest p b ds g m hs hp hn hsrc hg hm he' =>
    subst he'
    have hle : Le s.modules (s.modules.map g ++ [m]) := fun x hx => ⟨g x, by simp; exact Or.inl ⟨x, hx, rfl⟩, (hg x).ext⟩
    obtain ⟨ds0, hds0, hf⟩ := hi.frames f (by rw [hs]; simp)
    refine ⟨fun x hx hpr => ?_, fun e he x hx hl => ?_⟩
    · rcases List.mem_append.mp hx with hx | hx
      · obtain ⟨m0, hm0, rfl⟩ := List.mem_map.mp hx
        rw [(hg m0).present] at hpr
        rw [(hg m0).id]
        exact (ha.absent m0 hm0 hpr).mono hle
      · rw [List.mem_singleton] at hx
        subst hx
        rw [hm.present] at hpr
        subst hpr
        have hreq : d.requiredG = false := by
          cases p with
          | some i => exact absurd hsrc.2.2.1 (by simp)
          | none =>
            rcases hsrc.2.2.2.2 with ⟨h, _⟩ | ⟨_, h, _⟩
            · cases h
            · exact h
        rcases hf.pending d (by rw [hp]; simp) with rfl | ⟨dd, hdd, hpv⟩
        · cases hreq
        · have hxl : d.name ≠ ["qbs"] := by
            intro hq
            obtain ⟨d', nw, h1, h2, _, h3⟩ := hpv
            rcases expand_shape h3 with ⟨_, h5, h6⟩ | ⟨_, _, _, _, _, _, rfl⟩
            · obtain ⟨hask, _⟩ := asks_of_named h1 h2 h5 h6
              rcases hask.name with ⟨_, h⟩ | ⟨subs, h17, sub, _, h⟩
              · rw [hq] at h; exact hask.notBase h.symm
              · have hne : dd.name ≠ [] := by
                  intro h0
                  obtain ⟨ids, rfl⟩ := adjust_same h1
                  unfold evaluate at h2
                  simp only [hask.enabled, h0, hask.byName, h17, Bool.true_eq_false, if_false, ne_eq, not_true_eq_false, false_and, reduceCtorEq, and_self, if_true,
                    show ([] : Name) ≠ ["qbs"] by simp] at h2
                  split at h2
                  · cases h2
                  · simp at h2
                have hsub : sub = [] := by
                  have hlen := congrArg List.length (hq ▸ h)
                  simp only [List.length_cons, List.length_nil, List.length_append] at hlen
                  have : dd.name.length ≠ 0 := by simpa using hne
                  exact List.eq_nil_of_length_eq_zero (by omega)
                rw [hsub, List.append_nil, hq] at h
                exact hask.notBase h.symm
            · cases hreq
          have hml : f.loading ∈ x.loaders := by rw [hm.loaders, if_neg hxl]; simp
          have hmm : x ∈ s.modules.map g ++ [x] := by simp
          rcases prov_optional hpv hreq with ⟨pr, v, hask, hr⟩ | hrg
          · exact Optional.here hmm hml (hds0.mono hle) hdd (by rw [hm.name]; exact hask) hr
          · exact Optional.before hmm hml ((hf.opt hrg).mono hle)
    · have hfr : ∀ y ∈ s.modules, Loader.module s.nextId ∉ y.loaders := by
        intro y hy h
        obtain ⟨_, _, _, _, ⟨z, hz, hzn, _⟩, _⟩ := hi.core.loaders y hy _ h
        exact absurd (hi.core.lt z hz) (by omega)
      have hchain : ∀ y ∈ s.modules, Loader.module y.id = f.loading → y.name ≠ ["qbs"] :=
        fun y hy h => chain_not_base hi hi.core.chain y hy (by rw [hs, h]; simp)
      have hlm : ∀ l ∈ m.loaders, l = f.loading := by
        intro l hl
        rw [hm.loaders] at hl
        split at hl
        · simp at hl
        · simpa using hl
      have hnl : Loader.module s.nextId ≠ f.loading := by
        intro h0
        rw [← h0] at hds0
        obtain ⟨z, hz, hzn, _⟩ := hds0
        exact absurd (hi.core.lt z hz) (by omega)
      rcases List.mem_append.mp hx with hx | hx
      · obtain ⟨x0, hx0, rfl⟩ := List.mem_map.mp hx
        rw [(hg x0).name]
        rw [(hg x0).id] at hl
        rcases List.mem_append.mp he with he | he
        · obtain ⟨e0, he0, rfl⟩ := List.mem_map.mp he
          rw [(hg e0).loaders] at hl
          exact ha.base e0 he0 x0 hx0 hl
        · rw [List.mem_singleton] at he
          subst he
          exact hchain x0 hx0 (hlm _ hl)
      · rw [List.mem_singleton] at hx
        subst hx
        rw [hm.id] at hl
        rcases List.mem_append.mp he with he | he
        · obtain ⟨e0, he0, rfl⟩ := List.mem_map.mp he
          rw [(hg e0).loaders] at hl
          exact absurd hl (hfr e0 he0)
        · rw [List.mem_singleton] at he
          subst he
          exact absurd (hlm _ hl) hnl

theorem ainv {w : World} (hself : (prodAt w w.self).isSome) {s : St} (h : Reach P w s) (he : s.errors = []) : AInv w s.modules := by
  induction h with
  | initial => exact ⟨by simp [initial], by simp [initial]⟩
  | next hr _ h ih =>
    have he0 := step_errors h he
    rcases good hself hr he0 with hi | ⟨s0, f, fs, d, rest, p, hi, hres⟩
    · exact ainv_next hi (ih he0) h he
    · rcases step_resumed hres _ with h1 | ⟨x, h1, h2⟩ | h1
      · rw [h1] at h; cases h
      · rw [h1] at h; cases h; rw [h2] at he; simp at he
      · rw [h1] at h
        refine ainv_next hi ?_ h he
        have := ih he0
        rw [hres.eq] at this
        exact this
  | deferred _ _ h ih =>
    have := ih (by rw [← deferred_errors h]; exact he)
    rcases step_deferred h with rfl | ⟨_, _, _, _, _, _, _, _, _, _, rfl⟩ <;> exact this

end Verif.Deps
