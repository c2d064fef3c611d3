import Verif.Present.Props
import Verif.Deps.Props

/-! # The list of modules that comes out of resolving dependencies -/

namespace Verif.Present
open Verif.Version
open Verif

variable {P : Deps.Now → Prop}

def toLoader : Deps.Loader → Loader
  | .product => .product
  | .module i => .module i

/-- An entry as it is when probes are run. `off` says which products are disabled by then. -/
def ofEntry (off : Nat → Bool) (m : Deps.Mod) : Mod :=
  { id := m.id, name := m.name, disabled := (m.product.map off).getD false, required := m.required, range := m.range,
    loaders := m.loaders.map toLoader, locals := m.locals.map (fun x => (x.id, x.required)) }

/-- The ones that no file was found for. -/
def missing (ms : List Deps.Mod) : List Nat := (ms.filter (fun m => m.present = false)).map (·.id)

/-- What instances know of the modules they depend on -/
structure LInv (ms : List Deps.Mod) (L : List Deps.Loader) : Prop where
  locals : ∀ m ∈ ms, ∀ x ∈ m.locals, ∃ e ∈ ms, e.id = x.id ∧ (e.name = ["qbs"] ∨ Deps.Loader.module m.id ∈ e.loaders)
  order : ∀ a m b, ms = a ++ m :: b → Deps.Loader.module m.id ∉ L → ∀ x ∈ m.locals, ∃ e ∈ a, e.id = x.id

theorem split_map {α β : Type} {g : α → β} {l : List α} {a b : List β} {y : β} (h : l.map g = a ++ y :: b) :
    ∃ a0 y0 b0, l = a0 ++ y0 :: b0 ∧ a = a0.map g ∧ y = g y0 ∧ b = b0.map g := by
  obtain ⟨a0, c0, rfl, h1, h2⟩ := List.map_eq_append_iff.mp h
  cases c0 with
  | nil => simp at h2
  | cons y0 b0 =>
    simp only [List.map_cons, List.cons.injEq] at h2
    exact ⟨a0, y0, b0, rfl, h1.symm, h2.1.symm, h2.2.symm⟩

theorem linv_next {w : Deps.World} {now : Deps.Now} {s s' : Deps.St} (hi : Deps.Inv P w s) (hl : LInv s.modules (s.stack.map (·.loading)))
    (h : Deps.step w now s = .next s') (he : s'.errors = []) : LInv s'.modules (s'.stack.map (·.loading)) := by
  cases Deps.step_cases h with
  | skipped f fs d rest hs hp hr hn he => subst he; rw [hs] at hl; exact hl
  | expanded f fs c hs hp hc he => subst he; rw [hs] at hl; exact hl
  | evaluated f fs d rest d' c hs hp hc hi' ha' hv he => subst he; rw [hs] at hl; exact hl
  | error f fs d rest e hs hp hl hq he' => subst he'; simp at he
  | again f fs d rest j g hs hp hf hj hg he' =>
    subst he'
    rw [hs] at hl
    obtain ⟨k, hk⟩ := Deps.findExisting_found hf
    refine ⟨fun m hm x hx => ?_, fun a m b hab hmL x hx => ?_⟩
    · obtain ⟨m0, hm0, rfl⟩ := List.mem_map.mp hm
      rcases (hg m0).locals x hx with hx | ⟨h1, h2, _⟩
      · obtain ⟨e, he, h3, h4⟩ := hl.locals m0 hm0 x hx
        refine ⟨g e, List.mem_map_of_mem he, (hg e).id.trans h3, ?_⟩
        rw [(hg e).name, (hg m0).id]
        exact h4.imp _root_.id ((hg e).ext.loaders _)
      · obtain ⟨hk1, _⟩ := hk
        obtain ⟨e, he, hek⟩ := List.mem_map.mp hk1
        simp only [Deps.Mod.key, Prod.mk.injEq] at hek
        refine ⟨g e, List.mem_map_of_mem he, by rw [(hg e).id, hek.2.2, h2], ?_⟩
        rw [(hg e).name, (hg m0).id, ← h1]
        by_cases hq : d.name = ["qbs"]
        · exact Or.inl (by rw [hek.1]; exact hq)
        · refine Or.inr ?_
          rcases (hg e).loaders hek.2.2 with ⟨h, _⟩ | ⟨_, h3, h4⟩ | ⟨_, _, h4⟩
          · exact absurd h hq
          · rw [h4]; exact h3
          · rw [h4]; simp
    · obtain ⟨a0, m0, b0, h1, rfl, rfl, rfl⟩ := split_map hab
      rw [(hg m0).id] at hmL
      rcases (hg m0).locals x hx with hx | ⟨h2, _⟩
      · obtain ⟨e, he, h3⟩ := hl.order a0 m0 b0 h1 hmL x hx
        exact ⟨g e, List.mem_map_of_mem he, (hg e).id.trans h3⟩
      · exact absurd (by simp [← h2]) hmL
  | new f fs d rest p b ds g m hs hp hn hsrc hg hm he' =>
    subst he'
    rw [hs] at hl
    obtain ⟨ds0, hds0, hf⟩ := hi.frames f (by rw [hs]; simp)
    have hnl : Deps.Loader.module s.nextId ≠ f.loading := by
      intro h0
      rw [← h0] at hds0
      obtain ⟨z, hz, hzn, _⟩ := hds0
      exact absurd (hi.core.lt z hz) (by omega)
    have hm0 : ∀ x, x ∉ m.locals := by
      intro x hx
      have := hm.locals x hx
      rw [hm.id] at this
      exact hnl this.symm
    refine ⟨fun y hy x hx => ?_, fun a y c hab hmL x hx => ?_⟩
    · rcases List.mem_append.mp hy with hy | hy
      · obtain ⟨y0, hy0, rfl⟩ := List.mem_map.mp hy
        rcases (hg y0).locals x hx with hx | ⟨h1, h2, _⟩
        · obtain ⟨e, he, h3, h4⟩ := hl.locals y0 hy0 x hx
          refine ⟨g e, by simp; exact Or.inl ⟨e, he, rfl⟩, (hg e).id.trans h3, ?_⟩
          rw [(hg e).name, (hg y0).id, (hg e).loaders]
          exact h4
        · refine ⟨m, by simp, by rw [hm.id, h2], ?_⟩
          rw [hm.name, hm.loaders, (hg y0).id, h1]
          by_cases hq : d.name = ["qbs"]
          · exact Or.inl hq
          · exact Or.inr (by simp [hq])
      · rw [List.mem_singleton] at hy
        subst hy
        exact absurd hx (hm0 x)
    · rcases List.eq_nil_or_concat c with rfl | ⟨c0, z, rfl⟩
      · have h1 := (List.append_inj' (show s.modules.map g ++ [m] = a ++ [y] from hab) rfl)
        obtain ⟨_, h1⟩ := h1
        rw [List.cons.injEq] at h1
        rw [← h1.1] at hx
        exact absurd hx (hm0 x)
      · have h1 := (List.append_inj' (show s.modules.map g ++ [m] = (a ++ y :: c0) ++ [z] from by simpa using hab) rfl)
        obtain ⟨a0, y0, b0, h2, rfl, rfl, rfl⟩ := split_map h1.1
        rw [(hg y0).id] at hmL
        rcases (hg y0).locals x hx with hx | ⟨h3, _⟩
        · obtain ⟨e, he, h4⟩ := hl.order a0 y0 b0 h2 (by
            intro hy; apply hmL; simp only [List.map_append, List.mem_append]; exact Or.inr hy) x hx
          exact ⟨g e, List.mem_map_of_mem he, (hg e).id.trans h4⟩
        · exact absurd (by simp [← h3]) hmL
  | popped f fs hs hp hc hi' he' =>
    subst he'
    have hcore := hi.core
    rw [hs] at hcore hl
    simp only [List.map_cons] at hcore hl
    by_cases hfs : fs = []
    · subst hfs
      have hpr : f.loading = .product := hcore.chain
      rw [hpr] at hl
      simp only [if_true]
      exact ⟨hl.locals, fun a m b hab _ => hl.order a m b hab (by simp)⟩
    · simp only [if_neg hfs]
      cases hfl : f.loading with
      | product =>
        exfalso
        have hch := hcore.chain
        cases fs with
        | nil => exact hfs rfl
        | cons f1 fs1 =>
          obtain ⟨⟨m, _, h1, _⟩, _⟩ := hch
          rw [hfl] at h1; cases h1
      | module i =>
        rw [hfl] at hcore hl
        have hbase : ∀ y ∈ s.modules, y.name = ["qbs"] → y.id ≠ i := by
          intro y hy hq hid
          exact Deps.chain_not_base hi hi.core.chain y hy (by rw [hs]; simp [hfl, hid]) hq
        have hnd := List.nodup_cons.mp hcore.nodup
        -- nothing that is finished depends on what is being loaded
        have hne : ∀ m ∈ s.modules, Deps.Loader.module m.id ∉ fs.map (·.loading) → ∀ x ∈ m.locals, ∀ e ∈ s.modules, e.id = x.id → e.id ≠ i := by
          intro m hm hmL x hx e he hex hei
          obtain ⟨e1, he1, h1, h2⟩ := hl.locals m hm x hx
          have h3 := Deps.eq_of_id hcore.ids he he1 (hex.trans h1.symm)
          subst h3
          rcases h2 with h2 | h2
          · exact hbase e he h2 hei
          · obtain ⟨pre, post, h4⟩ := hcore.adj e he _ h2 (by rw [hei]; simp)
            rw [hei] at h4
            cases pre with
            | nil =>
              simp only [List.nil_append, List.cons.injEq, true_and] at h4
              exact hmL (by rw [h4]; simp)
            | cons y pre =>
              simp only [List.cons_append, List.cons.injEq] at h4
              exact hnd.1 (by rw [h4.2]; simp)
        refine ⟨fun m hm x hx => ?_, fun a m b hab hmL x hx => ?_⟩
        · obtain ⟨e, he, h1, h2⟩ := hl.locals m (Deps.mem_toEnd'.mp hm) x hx
          exact ⟨e, Deps.mem_toEnd'.mpr he, h1, h2⟩
        · have hmm : m ∈ s.modules := by
            apply (Deps.mem_toEnd' (l := .module i)).mp
            rw [hab]; simp
          obtain ⟨e, he, h1, h2⟩ := hl.locals m hmm x hx
          have hei := hne m hmm hmL x hx e he h1
          by_cases hmi : m.id = i
          · -- everything else is in front of it
            refine ⟨e, ?_, h1⟩
            have hin : e ∈ Deps.toEnd (.module i) s.modules := Deps.mem_toEnd'.mpr he
            rw [hab] at hin
            rcases List.mem_append.mp hin with h | h
            · exact h
            · exfalso
              -- what comes after is the same module
              have hids : ((Deps.toEnd (.module i) s.modules).map (·.id)).Nodup := by
                have hp : List.Perm (Deps.toEnd (.module i) s.modules) s.modules := by
                  have := List.filter_append_perm (fun m : Deps.Mod => decide (m.id ≠ i)) s.modules
                  refine List.Perm.trans ?_ this
                  simp only [Deps.toEnd]
                  apply List.Perm.append_left
                  apply List.Perm.of_eq
                  apply List.filter_congr
                  intro x _
                  by_cases hx : x.id = i <;> simp [hx]
                exact (hp.map (·.id)).nodup_iff.mpr hcore.ids
              obtain ⟨c1, c2, hc⟩ := List.append_of_mem (show e ∈ m :: b from h)
              cases c1 with
              | nil =>
                simp only [List.nil_append, List.cons.injEq] at hc
                rw [hc.1] at hmi; exact hei hmi
              | cons y c1 =>
                simp only [List.cons_append, List.cons.injEq] at hc
                -- the part from m on consists of the entries that are moved
                have htail : e ∈ s.modules.filter (fun m => m.id = i) := by
                  have hab' : s.modules.filter (fun m => m.id ≠ i) ++ s.modules.filter (fun m => m.id = i) = a ++ m :: b := hab
                  rcases List.append_eq_append_iff.mp hab' with ⟨t, ht1, ht2⟩ | ⟨t, ht1, ht2⟩
                  · rw [ht2]; simp only [List.mem_append, List.mem_cons]; exact Or.inr (Or.inr (by rw [hc.2]; simp))
                  · cases t with
                    | nil =>
                      simp only [List.nil_append] at ht2
                      rw [← ht2, hc.2]; simp
                    | cons z t =>
                      simp only [List.cons_append, List.cons.injEq] at ht2
                      exfalso
                      have : m ∈ s.modules.filter (fun m => m.id ≠ i) := by rw [ht1, ht2.1]; simp
                      simp only [ne_eq, decide_not, List.mem_filter, Bool.not_eq_true', decide_eq_false_iff_not] at this
                      exact this.2 hmi
                simp only [List.mem_filter, decide_eq_true_eq] at htail
                exact hei htail.2
          · -- the order is as before
            have hab' : s.modules.filter (fun m => m.id ≠ i) ++ s.modules.filter (fun m => m.id = i) = a ++ m :: b := hab
            obtain ⟨a1, b1, h3⟩ := List.append_of_mem hmm
            obtain ⟨e2, he2, h4⟩ := hl.order a1 m b1 h3 (by
              intro h
              rcases List.mem_cons.mp h with h | h
              · simp only [Deps.Loader.module.injEq] at h; exact hmi h
              · exact hmL h) x hx
            have h5 : e2 = e := Deps.eq_of_id hcore.ids (by rw [h3]; simp [he2]) he (h4.trans h1.symm)
            subst h5
            refine ⟨e2, ?_, h1⟩
            have h6 : s.modules.filter (fun m => m.id ≠ i) = a1.filter (fun m => m.id ≠ i) ++ m :: b1.filter (fun m => m.id ≠ i) := by
              rw [h3]; simp [hmi]
            rw [h6] at hab'
            have hids : ((Deps.toEnd (.module i) s.modules).map (·.id)).Nodup := by
              have hp : List.Perm (Deps.toEnd (.module i) s.modules) s.modules := by
                have := List.filter_append_perm (fun m : Deps.Mod => decide (m.id ≠ i)) s.modules
                refine List.Perm.trans ?_ this
                simp only [Deps.toEnd]
                apply List.Perm.append_left
                apply List.Perm.of_eq
                apply List.filter_congr
                intro x _
                by_cases hx : x.id = i <;> simp [hx]
              exact (hp.map (·.id)).nodup_iff.mpr hcore.ids
            have h7 := Deps.split_unique (a0 := a1.filter (fun m => m.id ≠ i)) (c0 := b1.filter (fun m => m.id ≠ i) ++ s.modules.filter (fun m => m.id = i)) hids hab
              (by rw [hab, ← hab']; simp)
            rw [h7]
            simp [he2, hei]

/-- The names are right. -/
def NInv (ms : List Deps.Mod) : Prop := ∀ m ∈ ms, ∀ x ∈ m.locals, ∀ e ∈ ms, e.id = x.id → e.name = x.name

theorem ninv_next {w : Deps.World} {now : Deps.Now} {s s' : Deps.St} (hi : Deps.Inv P w s) (hl : LInv s.modules (s.stack.map (·.loading))) (hq : NInv s.modules)
    (h : Deps.step w now s = .next s') (he : s'.errors = []) : NInv s'.modules := by
  cases Deps.step_cases h with
  | skipped f fs d rest hs hp hr hn he => subst he; exact hq
  | expanded f fs c hs hp hc he => subst he; exact hq
  | evaluated f fs d rest d' c hs hp hc hi' ha' hv he => subst he; exact hq
  | error f fs d rest e hs hp hl hq he' => subst he'; simp at he
  | popped f fs hs hp hc hi' he' =>
    subst he'
    intro m hm x hx e he
    simp only at hm he
    split at hm
    · rename_i h1; rw [if_pos h1] at he; exact hq m hm x hx e he
    · rename_i h1; rw [if_neg h1] at he; exact hq m (Deps.mem_toEnd'.mp hm) x hx e (Deps.mem_toEnd'.mp he)
  | again f fs d rest j g hs hp hf hj hg he' =>
    subst he'
    intro m hm x hx e he hex
    obtain ⟨m0, hm0, rfl⟩ := List.mem_map.mp hm
    obtain ⟨e0, he0, rfl⟩ := List.mem_map.mp he
    rw [(hg e0).name]
    rw [(hg e0).id] at hex
    rcases (hg m0).locals x hx with hx | ⟨h1, h2, h3, h4⟩
    · exact hq m0 hm0 x hx e0 he0 hex
    · obtain ⟨k, hk, _⟩ := Deps.findExisting_found hf
      obtain ⟨y, hy, hyk⟩ := List.mem_map.mp hk
      simp only [Deps.Mod.key, Prod.mk.injEq] at hyk
      have := Deps.eq_of_id hi.core.ids hy he0 (hyk.2.2.trans (h2.symm.trans hex.symm))
      subst this
      rw [hyk.1, h3]
  | new f fs d rest p b ds g m hs hp hn hsrc hg hm he' =>
    subst he'
    intro y hy x hx e he hex
    have hlt : ∀ z ∈ s.modules, z.id ≠ s.nextId := fun z hz => Nat.ne_of_lt (hi.core.lt z hz)
    rcases List.mem_append.mp hy with hy | hy
    · obtain ⟨m0, hm0, rfl⟩ := List.mem_map.mp hy
      rcases List.mem_append.mp he with he | he
      · obtain ⟨e0, he0, rfl⟩ := List.mem_map.mp he
        rw [(hg e0).id] at hex
        rw [(hg e0).name]
        rcases (hg m0).locals x hx with hx | ⟨_, h2, _⟩
        · exact hq m0 hm0 x hx e0 he0 hex
        · exact absurd (hex.trans h2) (hlt e0 he0)
      · rw [List.mem_singleton] at he
        subst he
        rw [hm.id] at hex
        rw [hm.name]
        rcases (hg m0).locals x hx with hx | ⟨_, _, h3, _⟩
        · obtain ⟨z, hz, hzx, _⟩ := hl.locals m0 hm0 x hx
          exact absurd (hzx.trans hex.symm) (hlt z hz)
        · exact h3.symm
    · rw [List.mem_singleton] at hy
      subst hy
      exfalso
      have h0 := hm.locals x hx
      rw [hm.id] at h0
      obtain ⟨ds0, hds0, _⟩ := hi.frames f (by rw [hs]; simp)
      rw [h0] at hds0
      obtain ⟨z, hz, hzn, _⟩ := hds0
      exact hlt z hz hzn

/-- Where the entries come from -/
def QInv (P : Deps.Now → Prop) (w : Deps.World) (ms : List Deps.Mod) : Prop :=
  ∀ m ∈ ms, ∀ x ∈ m.locals, (x.name = ["qbs"] ∧ x.required = true) ∨ ∃ d ∈ m.depends,
    (∃ pr i, Deps.Asks w d x.name pr i ∧ x.required = d.required) ∨ (x.required = true ∧ ∃ now p q, P now ∧ Deps.AsksBulk w now.ofType d p q ∧ x.name = [q.name])

theorem qinv_next {w : Deps.World} {now : Deps.Now} {s s' : Deps.St} (hi : Deps.Inv P w s) (hq : QInv P w s.modules)
    (h : Deps.step w now s = .next s') (he : s'.errors = []) : QInv P w s'.modules := by
  have key : ∀ f fs d rest, s.stack = f :: fs → f.pending = d :: rest → ∀ m ∈ s.modules, f.loading = .module m.id →
      (d.name = ["qbs"] ∧ d.required = true) ∨ ∃ dd ∈ m.depends,
        (∃ pr i, Deps.Asks w dd d.name pr i ∧ d.required = dd.required) ∨ (d.required = true ∧ ∃ now p q, P now ∧ Deps.AsksBulk w now.ofType dd p q ∧ d.name = [q.name]) := by
    intro f fs d rest hs hp m hm hfl
    obtain ⟨ds, hds, hf⟩ := hi.frames f (by rw [hs]; simp)
    rw [hfl] at hds
    obtain ⟨m', hm', h1, rfl⟩ := hds
    have := Deps.eq_of_id hi.core.ids hm' hm h1
    subst this
    rcases hf.pending d (by rw [hp]; simp) with rfl | ⟨dd, hdd, d', now, h2, h3, hP, h4⟩
    · exact Or.inl ⟨rfl, rfl⟩
    · refine Or.inr ⟨dd, hdd, ?_⟩
      rcases Deps.expand_shape h4 with ⟨_, h5, h6⟩ | ⟨p, q, types, h5, h6, h7, rfl⟩
      · obtain ⟨ha, _, hr, _⟩ := Deps.asks_of_named h2 h3 h5 h6
        exact Or.inl ⟨_, _, ha, hr⟩
      · exact Or.inr ⟨rfl, now, p, q, hP, Deps.bulk_of_expand h2 h3 h4 h5 h6 h7, rfl⟩
  cases Deps.step_cases h with
  | skipped f fs d rest hs hp hr hn he => subst he; exact hq
  | expanded f fs c hs hp hc he => subst he; exact hq
  | evaluated f fs d rest d' c hs hp hc hi' ha' hv he => subst he; exact hq
  | error f fs d rest e hs hp hl hq he' => subst he'; simp at he
  | popped f fs hs hp hc hi' he' =>
    subst he'
    intro m hm
    refine hq m ?_
    simp only at hm
    split at hm
    · exact hm
    · exact Deps.mem_toEnd'.mp hm
  | again f fs d rest j g hs hp hf hj hg he' =>
    subst he'
    intro m hm x hx
    obtain ⟨m0, hm0, rfl⟩ := List.mem_map.mp hm
    rw [(hg m0).depends]
    rcases (hg m0).locals x hx with hx | ⟨h1, _, h3, h4⟩
    · exact hq m0 hm0 x hx
    · rw [h3, h4]
      exact key f fs d rest hs hp m0 hm0 h1
  | new f fs d rest p b ds g m hs hp hn hsrc hg hm he' =>
    subst he'
    intro y hy x hx
    rcases List.mem_append.mp hy with hy | hy
    · obtain ⟨m0, hm0, rfl⟩ := List.mem_map.mp hy
      rw [(hg m0).depends]
      rcases (hg m0).locals x hx with hx | ⟨h1, _, h3, h4⟩
      · exact hq m0 hm0 x hx
      · rw [h3, h4]
        exact key f fs d rest hs hp m0 hm0 h1
    · rw [List.mem_singleton] at hy
      subst hy
      exfalso
      have h0 := hm.locals x hx
      rw [hm.id] at h0
      obtain ⟨ds0, hds0, _⟩ := hi.frames f (by rw [hs]; simp)
      rw [h0] at hds0
      obtain ⟨z, hz, hzn, _⟩ := hds0
      exact absurd (hi.core.lt z hz) (by omega)

theorem qinv {w : Deps.World} (hself : (Deps.prodAt w w.self).isSome) {s : Deps.St} (h : Deps.Reach P w s) (he : s.errors = []) :
    QInv P w s.modules := by
  induction h with
  | initial => intro m hm; simp [Deps.initial] at hm
  | next hr _ h ih =>
    have he0 := Deps.step_errors h he
    rcases Deps.good hself hr he0 with hi | ⟨s0, f, fs, d, rest, p, hi, hres⟩
    · exact qinv_next hi (ih he0) h he
    · rcases Deps.step_resumed hres _ with h1 | ⟨x, h1, h2⟩ | h1
      · rw [h1] at h; cases h
      · rw [h1] at h; cases h; rw [h2] at he; simp at he
      · rw [h1] at h
        refine qinv_next hi ?_ h he
        have := ih he0
        rw [hres.eq] at this
        exact this
  | deferred _ _ h ih =>
    have := ih (by rw [← Deps.deferred_errors h]; exact he)
    rcases Deps.step_deferred h with rfl | ⟨_, _, _, _, _, h1, _, _, _, _, rfl⟩ <;> exact this

/-- **C69.** What an instance is recorded to depend on is what its `Depends` items ask for: it is recorded as required if it is the module `qbs`, if it is found
by product type, or if an item for it says so, and as not required if an item says so. -/
theorem C69_recorded {w : Deps.World} (hself : (Deps.prodAt w w.self).isSome) {s : Deps.St} (h : Deps.Success P w s) :
    ∀ m ∈ s.modules, ∀ x ∈ m.locals, (x.name = ["qbs"] ∧ x.required = true) ∨ ∃ d ∈ m.depends,
      (∃ pr i, Deps.Asks w d x.name pr i ∧ x.required = d.required) ∨
      (x.required = true ∧ ∃ now p q, P now ∧ Deps.AsksBulk w now.ofType d p q ∧ x.name = [q.name]) :=
  qinv hself h.1 h.2.2

/-! ## What is asked for is recorded -/

theorem addLocal_has {w : Deps.World} {k : Nat} {d : Deps.RDep} {id : Nat} {prod : Option Nat} {s s' : Deps.St}
    (h : Deps.addLocal w (.module k) d id prod s = some s') (hnd : (s.modules.map (·.id)).Nodup) :
    ∀ m ∈ s'.modules, m.id = k → ∃ x ∈ m.locals, x.name = d.name := by
  unfold Deps.addLocal at h
  simp only at h
  split at h
  · cases h
  · rename_i j hf
    cases h
    intro m hm hk
    obtain ⟨p, hp, _⟩ := Deps.findExisting_found hf
    obtain ⟨x, hx, hxk⟩ := List.mem_map.mp hp
    simp only [Deps.Local.key, Prod.mk.injEq] at hxk
    simp only [Deps.localsOf] at hx
    cases hfd : s.modules.find? (fun m => decide (m.id = k)) with
    | none => rw [hfd] at hx; simp at hx
    | some y =>
      rw [hfd] at hx
      have h1 := List.mem_of_find?_eq_some hfd
      have h2 := List.find?_some hfd
      simp only [decide_eq_true_eq] at h2
      have := Deps.eq_of_id hnd h1 hm (h2.trans hk.symm)
      subst this
      exact ⟨x, hx, hxk.1⟩
  · cases h
    intro m hm hk
    simp only [Deps.modify] at hm
    obtain ⟨y, _, rfl⟩ := List.mem_map.mp hm
    by_cases hy : y.id = k
    · rw [if_pos hy]
      exact ⟨_, List.mem_append_right _ (List.mem_singleton.mpr rfl), rfl⟩
    · rw [if_neg hy] at hk; exact absurd hk hy

theorem loadExisting_has {w : Deps.World} {k : Nat} {d : Deps.RDep} {id : Nat} {s s' : Deps.St} (h : Deps.loadExisting w (.module k) d id s = .ignore s')
    (hnd : (s.modules.map (·.id)).Nodup) : ∀ m ∈ s'.modules, m.id = k → ∃ x ∈ m.locals, x.name = d.name := by
  unfold Deps.loadExisting at h
  simp only at h
  split at h
  · cases h
  · split at h
    · cases h
    · split at h
      · cases h
      · rename_i s2 ha
        cases h
        refine addLocal_has ha ?_
        simp only [Deps.modify, List.map_map]
        rw [show ((fun x : Deps.Mod => x.id) ∘ fun m => if m.id = id then Deps.addLoader d (Deps.Loader.module k) (if m.name = ["qbs"] then m else Deps.updateMod d m) else m)
          = fun x => x.id from ?_]
        · exact hnd
        · funext m
          simp only [Function.comp_apply]
          split
          · rw [(Deps.addLoader_id _ _ _).1]
            split <;> rfl
          · rfl

theorem addNew_has {w : Deps.World} {k : Nat} {d : Deps.RDep} {p : Option Nat} {ds ds' : List Deps.Dep} {b : Bool} {s s' : Deps.St} {i : Nat}
    (h : Deps.addNew w (.module k) d p ds b s = .use i ds' s') (hnd : (s.modules.map (·.id)).Nodup) (hlt : ∀ m ∈ s.modules, m.id < s.nextId) :
    ∀ m ∈ s'.modules, m.id = k → ∃ x ∈ m.locals, x.name = d.name := by
  unfold Deps.addNew at h
  split at h
  · cases h
  · simp only at h
    split at h
    · cases h
    · rename_i s2 ha
      cases h
      refine addLocal_has ha ?_
      simp only [List.map_append, List.map_cons, List.map_nil, (Deps.addLoader_id _ _ _).1]
      rw [List.nodup_append]
      refine ⟨hnd, by simp, ?_⟩
      intro a ha b hb
      simp only [List.mem_singleton] at hb
      obtain ⟨m, hm, rfl⟩ := List.mem_map.mp ha
      have := hlt m hm
      omega

/-- What the item that is being loaded knows after a step -/
theorem step_has {w : Deps.World} {now : Deps.Now} {s s' : Deps.St} (hi : Deps.Inv P w s) (h : Deps.step w now s = .next s') (he : s'.errors = [])
    {f : Deps.Frame} {fs : List Deps.Frame} {d : Deps.RDep} {rest : List Deps.RDep} (hs : s.stack = f :: fs) (hp : f.pending = d :: rest)
    {k : Nat} (hk : f.loading = .module k) : s'.modules = s.modules ∨ ∀ m ∈ s'.modules, m.id = k → ∃ x ∈ m.locals, x.name = d.name := by
  have hnd := hi.core.ids
  have hlt := hi.core.lt
  unfold Deps.step at h
  rw [hs] at h
  simp only at h
  rw [hp] at h
  simp only at h
  rw [hk] at h
  split at h
  · cases h
  · rename_i s1 hl
    cases h
    rcases Deps.load_ignore' hl with ⟨rfl, _, _⟩ | ⟨j, _, hl'⟩
    · exact Or.inl rfl
    · refine Or.inr ?_
      exact fun m hm => loadExisting_has hl' hnd m hm
  · rename_i i ds s1 hl
    have hmod : s'.modules = s1.modules := by
      split at h <;> cases h <;> rfl
    rw [hmod]
    refine Or.inr ?_
    have hprod : ∀ p, Deps.loadProduct w now (.module k) d p s = .use i ds s1 → ∀ m ∈ s1.modules, m.id = k → ∃ x ∈ m.locals, x.name = d.name := by
      intro p h
      unfold Deps.loadProduct at h
      split at h
      · cases h
      · cases h
      · cases h
      · split at h
        · cases h
        · exact addNew_has h hnd hlt
    unfold Deps.load at hl
    split at hl
    · cases hl
    · exact absurd hl Deps.loadExisting_use
    · split at hl
      · exact hprod _ hl
      · split at hl
        · exact hprod _ hl
        · unfold Deps.loadFile at hl
          split at hl
          · split at hl <;> cases hl
          · split at hl
            · exact addNew_has hl hnd hlt
            · cases hl
            · split at hl
              · cases hl
              · exact addNew_has hl hnd hlt
  · split at h
    · cases h
    · cases h; simp at he

/-- Who loads something knows it. -/
def HInv (ms : List Deps.Mod) : Prop := ∀ m ∈ ms, ∀ e ∈ ms, Deps.Loader.module m.id ∈ e.loaders → ∃ x ∈ m.locals, x.name = e.name

theorem hinv_next {w : Deps.World} {now : Deps.Now} {s s' : Deps.St} (hi : Deps.Inv P w s) (hh : HInv s.modules)
    (h : Deps.step w now s = .next s') (he : s'.errors = []) : HInv s'.modules := by
  have hstep := fun f fs d rest hs hp k hk => step_has hi h he (f := f) (fs := fs) (d := d) (rest := rest) hs hp (k := k) hk
  cases Deps.step_cases h with
  | skipped f fs d rest hs hp hr hn he => subst he; exact hh
  | expanded f fs c hs hp hc he => subst he; exact hh
  | evaluated f fs d rest d' c hs hp hc hi' ha' hv he => subst he; exact hh
  | error f fs d rest e hs hp hl hq he' => subst he'; simp at he
  | popped f fs hs hp hc hi' he' =>
    subst he'
    intro m hm e he
    simp only at hm he
    split at hm
    · rename_i h1; rw [if_pos h1] at he; exact hh m hm e he
    · rename_i h1; rw [if_neg h1] at he; exact hh m (Deps.mem_toEnd'.mp hm) e (Deps.mem_toEnd'.mp he)
  | again f fs d rest j g hs hp hf hj hg he' =>
    subst he'
    intro m hm e he hl
    have hs' := fun k hk => hstep f fs d rest hs hp k hk
    obtain ⟨m0, hm0, rfl⟩ := List.mem_map.mp hm
    obtain ⟨e0, he0, rfl⟩ := List.mem_map.mp he
    rw [(hg m0).id] at hl
    rw [(hg e0).name]
    have hold : Deps.Loader.module m0.id ∈ e0.loaders → ∃ x ∈ (g m0).locals, x.name = e0.name := by
      intro h1
      obtain ⟨x, hx, h2⟩ := hh m0 hm0 e0 he0 h1
      exact ⟨x, (hg m0).kept x hx, h2⟩
    by_cases hej : e0.id = j
    · rcases (hg e0).loaders hej with ⟨_, h4⟩ | ⟨_, h3, h4⟩ | ⟨_, h3, h4⟩
      · rw [h4] at hl; exact hold hl
      · rw [h4] at hl; exact hold hl
      · rw [h4] at hl
        rcases List.mem_append.mp hl with hl1 | hl1
        · exact hold hl1
        · rw [List.mem_singleton] at hl1
          obtain ⟨k, hk, _⟩ := Deps.findExisting_found hf
          obtain ⟨y, hy, hyk⟩ := List.mem_map.mp hk
          simp only [Deps.Mod.key, Prod.mk.injEq] at hyk
          have := Deps.eq_of_id hi.core.ids hy he0 (hyk.2.2.trans hej.symm)
          subst this
          rw [hyk.1]
          rcases hs' m0.id hl1.symm with h5 | h5
          · -- nothing has changed, so there was no new entry
            exfalso
            have h6 : g y ∈ s.modules := by
              have : g y ∈ s.modules.map g := List.mem_map_of_mem hy
              simp only at h5
              rw [h5] at this; exact this
            have h7 := Deps.eq_of_id hi.core.ids h6 hy ((hg y).id)
            rw [h7] at h4
            have := congrArg List.length h4
            simp at this
          · exact h5 (g m0) hm ((hg m0).id)
    · rw [((hg e0).other hej).2.2] at hl
      exact hold hl
  | new f fs d rest p b ds g m hs hp hn hsrc hg hm he' =>
    subst he'
    intro y hy e he hl
    have hs' := fun k hk => hstep f fs d rest hs hp k hk
    have hlen : ¬ (s.modules.map g ++ [m] = s.modules) := by
      intro h0
      have := congrArg List.length h0
      simp at this
    have hfr : ∀ z ∈ s.modules, Deps.Loader.module s.nextId ∉ z.loaders := by
      intro z hz h
      obtain ⟨_, _, _, _, ⟨z', hz', hzn, _⟩, _⟩ := hi.core.loaders z hz _ h
      exact absurd (hi.core.lt z' hz') (by omega)
    have hnl : Deps.Loader.module s.nextId ≠ f.loading := by
      intro h0
      obtain ⟨ds0, hds0, _⟩ := hi.frames f (by rw [hs]; simp)
      rw [← h0] at hds0
      obtain ⟨z, hz, hzn, _⟩ := hds0
      exact absurd (hi.core.lt z hz) (by omega)
    rcases List.mem_append.mp he with he | he
    · obtain ⟨e0, he0, rfl⟩ := List.mem_map.mp he
      rw [(hg e0).loaders] at hl
      rw [(hg e0).name]
      rcases List.mem_append.mp hy with hy | hy
      · obtain ⟨m0, hm0, rfl⟩ := List.mem_map.mp hy
        rw [(hg m0).id] at hl
        obtain ⟨x, hx, h2⟩ := hh m0 hm0 e0 he0 hl
        exact ⟨x, (hg m0).kept x hx, h2⟩
      · rw [List.mem_singleton] at hy
        rw [hy, hm.id] at hl
        exact absurd hl (hfr e0 he0)
    · rw [List.mem_singleton] at he
      rw [he] at hl ⊢
      have hlf : Deps.Loader.module y.id = f.loading := by
        rw [hm.loaders] at hl
        split at hl
        · simp at hl
        · simpa using hl
      rw [hm.name]
      rcases hs' y.id hlf.symm with h5 | h5
      · exact absurd h5 hlen
      · exact h5 y hy rfl

theorem hinv {w : Deps.World} (hself : (Deps.prodAt w w.self).isSome) {s : Deps.St} (h : Deps.Reach P w s) (he : s.errors = []) : HInv s.modules := by
  induction h with
  | initial => intro m hm; simp [Deps.initial] at hm
  | next hr _ h ih =>
    have he0 := Deps.step_errors h he
    rcases Deps.good hself hr he0 with hi | ⟨s0, f, fs, d, rest, p, hi, hres⟩
    · exact hinv_next hi (ih he0) h he
    · rcases Deps.step_resumed hres _ with h1 | ⟨x, h1, h2⟩ | h1
      · rw [h1] at h; cases h
      · rw [h1] at h; cases h; rw [h2] at he; simp at he
      · rw [h1] at h
        refine hinv_next hi ?_ h he
        have := ih he0
        rw [hres.eq] at this
        exact this
  | deferred _ _ h ih =>
    have := ih (by rw [← Deps.deferred_errors h]; exact he)
    rcases Deps.step_deferred h with rfl | ⟨_, _, _, _, _, h1, _, _, _, _, rfl⟩ <;> exact this

theorem linv {w : Deps.World} (hself : (Deps.prodAt w w.self).isSome) {s : Deps.St} (h : Deps.Reach P w s) (he : s.errors = []) :
    LInv s.modules (s.stack.map (·.loading)) := by
  induction h with
  | initial => exact ⟨by simp [Deps.initial], by simp [Deps.initial]⟩
  | next hr _ h ih =>
    have he0 := Deps.step_errors h he
    rcases Deps.good hself hr he0 with hi | ⟨s0, f, fs, d, rest, p, hi, hres⟩
    · exact linv_next hi (ih he0) h he
    · rcases Deps.step_resumed hres _ with h1 | ⟨x, h1, h2⟩ | h1
      · rw [h1] at h; cases h
      · rw [h1] at h; cases h; rw [h2] at he; simp at he
      · rw [h1] at h
        refine linv_next hi ?_ h he
        have := ih he0
        rw [hres.eq] at this
        rw [hres.stack]
        exact this
  | deferred _ _ h ih =>
    have := ih (by rw [← Deps.deferred_errors h]; exact he)
    rcases Deps.step_deferred h with rfl | ⟨_, _, _, _, _, h1, _, _, _, _, rfl⟩
    · exact this
    · rw [h1] at this; exact this

theorem ninv {w : Deps.World} (hself : (Deps.prodAt w w.self).isSome) {s : Deps.St} (h : Deps.Reach P w s) (he : s.errors = []) : NInv s.modules := by
  induction h with
  | initial => intro m hm; simp [Deps.initial] at hm
  | next hr _ h ih =>
    have he0 := Deps.step_errors h he
    have hl := linv hself hr he0
    rcases Deps.good hself hr he0 with hi | ⟨s0, f, fs, d, rest, p, hi, hres⟩
    · exact ninv_next hi hl (ih he0) h he
    · rcases Deps.step_resumed hres _ with h1 | ⟨x, h1, h2⟩ | h1
      · rw [h1] at h; cases h
      · rw [h1] at h; cases h; rw [h2] at he; simp at he
      · rw [h1] at h
        have := ih he0
        rw [hres.eq] at this hl
        refine ninv_next hi ?_ this h he
        rw [hres.stack]
        exact hl
  | deferred _ _ h ih =>
    have := ih (by rw [← Deps.deferred_errors h]; exact he)
    rcases Deps.step_deferred h with rfl | ⟨_, _, _, _, _, h1, _, _, _, _, rfl⟩ <;> exact this

theorem mem_toLoader {i : Nat} {l : List Deps.Loader} : Loader.module i ∈ l.map toLoader ↔ Deps.Loader.module i ∈ l := by
  constructor
  · intro h
    obtain ⟨x, hx, h1⟩ := List.mem_map.mp h
    cases x with
    | product => cases h1
    | module j => cases h1; exact hx
  · exact fun h => List.mem_map.mpr ⟨_, h, rfl⟩

/-- **C69.** The list of modules that comes out of resolving dependencies is as it has to be. -/
theorem C69_wf {w : Deps.World} (hself : (Deps.prodAt w w.self).isSome) {s : Deps.St} (h : Deps.Success P w s) (off : Nat → Bool) :
    WF (s.modules.map (ofEntry off)) := by
  have hl := linv hself h.1 h.2.2
  have hi := Deps.success_inv hself h
  refine ⟨?_, ?_, ?_⟩
  · rw [List.map_map]; exact hi.core.ids
  · intro a m b hab x hx
    obtain ⟨a0, m0, b0, h1, rfl, rfl, rfl⟩ := split_map hab
    obtain ⟨y, hy, rfl⟩ := List.mem_map.mp hx
    obtain ⟨e, he, h2⟩ := hl.order a0 m0 b0 h1 (by rw [h.2.1]; simp) y hy
    have hes : e ∈ s.modules := by rw [h1]; simp [he]
    obtain ⟨e', he', h3, h4⟩ := hl.locals m0 (by rw [h1]; simp) y hy
    have := Deps.eq_of_id hi.core.ids hes he' (h2.trans h3.symm)
    subst this
    refine ⟨ofEntry off e, List.mem_map_of_mem he, h2, ?_⟩
    rcases h4 with h4 | h4
    · exact Or.inl (by simp [ofEntry, h4])
    · exact Or.inr (mem_toLoader.mpr h4)
  · intro a m b hab i hl
    obtain ⟨a0, m0, b0, h1, rfl, rfl, rfl⟩ := split_map hab
    have hm0 : m0 ∈ s.modules := by rw [h1]; simp
    have hl := mem_toLoader.mp hl
    obtain ⟨ds, _, _, _, ⟨z, hz, hzi, _⟩, _⟩ := hi.core.loaders m0 hm0 _ hl
    obtain ⟨za, zb, hzab⟩ := List.append_of_mem hz
    have := Deps.C66_order hself h hzab m0 hm0 (by rw [hzi]; exact hl)
    obtain ⟨c1, c2, rfl⟩ := List.append_of_mem this
    have h2 := Deps.split_unique hi.core.ids h1 (show s.modules = c1 ++ m0 :: (c2 ++ z :: zb) by rw [hzab]; simp)
    subst h2
    have h3 : b0 = c2 ++ z :: zb := by
      have : a0 ++ m0 :: b0 = a0 ++ m0 :: (c2 ++ z :: zb) := by rw [← h1, hzab]; simp
      have := List.append_cancel_left this
      simpa using this
    exact ⟨ofEntry off z, List.mem_map_of_mem (by rw [h3]; simp), hzi⟩

/-! ## Required modules -/

/-- What is required is required by something that is required. -/
structure RInv (s : Deps.St) : Prop where
  frames : ∀ f ∈ s.stack, f.requiredG = true → f.loading = .product ∨ ∃ m ∈ s.modules, f.loading = .module m.id ∧ m.required = true
  mods : ∀ m ∈ s.modules, m.required = true → m.name ≠ ["qbs"] → Deps.Loader.product ∈ m.loaders ∨
    ∃ d ∈ s.modules, d.required = true ∧ Deps.Loader.module d.id ∈ m.loaders

theorem prov_required {w : Deps.World} {N : List Deps.Name} {rg : Bool} {d : Deps.Dep} {r : Deps.RDep} (hw : Deps.Within N d)
    (h : Deps.Prov P w rg d r) (hr : r.requiredG = true) : rg = true := by
  obtain ⟨d', now, h1, h2, _, h3⟩ := h
  rcases Deps.expand_shape h3 with ⟨_, h5, h6⟩ | ⟨_, _, _, h4, _⟩
  · obtain ⟨_, hq, _⟩ := Deps.asks_of_named h1 h2 h5 h6
    rw [hq, Bool.and_eq_true] at hr
    exact hr.2
  · obtain ⟨_, rfl⟩ := Deps.adjust_same h1
    rw [show _ = none from hw.1] at h4; cases h4

theorem rinv_next {w : Deps.World} {N : List Deps.Name} (hb : Deps.Bounded w N) {now : Deps.Now} {s s' : Deps.St} (hi : Deps.Inv P w s) (ho : ∀ m ∈ s.modules, Deps.Origin w m)
    (ht : ∀ m ∈ s.modules, m.name ∈ N) (hr : RInv s) (h : Deps.step w now s = .next s') (he : s'.errors = []) : RInv s' := by
  -- what is required is asked for by something that is required
  have hreq : ∀ f fs d rest, s.stack = f :: fs → f.pending = d :: rest → d.requiredG = true → d.name ≠ ["qbs"] →
      f.loading = .product ∨ ∃ m ∈ s.modules, f.loading = .module m.id ∧ m.required = true := by
    intro f fs d rest hs hp hd hq
    have hfm : f ∈ s.stack := by rw [hs]; simp
    obtain ⟨ds, hds, hf⟩ := hi.frames f hfm
    rcases hf.pending d (by rw [hp]; simp) with rfl | ⟨dd, hdd, hpv⟩
    · exact absurd rfl hq
    · refine hr.frames f hfm (prov_required (N := N) ?_ hpv hd)
      apply Deps.item_within hb
      cases hfl : f.loading with
      | product =>
        rw [hfl] at hds
        exact Or.inl (hds ▸ hdd)
      | module i =>
        rw [hfl] at hds
        obtain ⟨m, hm, _, hmd⟩ := hds
        exact Or.inr (Deps.item_of_origin (ho m hm) (ht m hm) (hmd ▸ hdd))
  cases Deps.step_cases h with
  | skipped f fs d rest hs hp _ hn he =>
    subst he
    refine ⟨fun x hx => ?_, hr.mods⟩
    rcases List.mem_cons.mp hx with rfl | hx
    · exact hr.frames f (by rw [hs]; simp)
    · exact hr.frames x (by rw [hs]; simp [hx])
  | expanded f fs c hs hp hc he =>
    subst he
    refine ⟨fun x hx => ?_, hr.mods⟩
    rcases List.mem_cons.mp hx with rfl | hx
    · exact hr.frames f (by rw [hs]; simp)
    · exact hr.frames x (by rw [hs]; simp [hx])
  | evaluated f fs d rest d' c hs hp hc hi' ha' hv he =>
    subst he
    refine ⟨fun x hx => ?_, hr.mods⟩
    rcases List.mem_cons.mp hx with rfl | hx
    · exact hr.frames f (by rw [hs]; simp)
    · exact hr.frames x (by rw [hs]; simp [hx])
  | error f fs d rest e hs hp hl hq he' => subst he'; simp at he
  | popped f fs hs hp hc hi' he' =>
    subst he'
    have hmem : ∀ m, m ∈ (if fs = [] then s.modules else Deps.toEnd f.loading s.modules) ↔ m ∈ s.modules := by
      intro m
      split
      · rfl
      · exact Deps.mem_toEnd'
    refine ⟨fun x hx hxr => ?_, fun m hm hmr hq => ?_⟩
    · rcases hr.frames x (by rw [hs]; simp [show x ∈ fs from hx]) hxr with h | ⟨m, hm, h⟩
      · exact Or.inl h
      · exact Or.inr ⟨m, (hmem m).mpr hm, h⟩
    · rcases hr.mods m ((hmem m).mp hm) hmr hq with h | ⟨d, hd, h⟩
      · exact Or.inl h
      · exact Or.inr ⟨d, (hmem d).mpr hd, h⟩
  | again f fs d rest j g hs hp hf hj hg he' =>
    subst he'
    have hup : ∀ {l : Deps.Loader}, (l = .product ∨ ∃ m ∈ s.modules, l = .module m.id ∧ m.required = true) →
        l = .product ∨ ∃ m ∈ s.modules.map g, l = .module m.id ∧ m.required = true := by
      rintro l (h | ⟨m, hm, h1, h2⟩)
      · exact Or.inl h
      · exact Or.inr ⟨g m, List.mem_map_of_mem hm, by rw [(hg m).id]; exact h1, (hg m).ext.required h2⟩
    refine ⟨fun x hx hxr => ?_, fun m hm hmr hq => ?_⟩
    · rcases List.mem_cons.mp hx with rfl | hx
      · exact hup (hr.frames f (by rw [hs]; simp) hxr)
      · exact hup (hr.frames x (by rw [hs]; simp [hx]) hxr)
    · obtain ⟨m0, hm0, rfl⟩ := List.mem_map.mp hm
      have hold : m0.required = true → Deps.Loader.product ∈ (g m0).loaders ∨ ∃ d ∈ s.modules.map g, d.required = true ∧ Deps.Loader.module d.id ∈ (g m0).loaders := by
        intro h0
        rcases hr.mods m0 hm0 h0 (by rw [← (hg m0).name]; exact hq) with h | ⟨y, hy, h1, h2⟩
        · exact Or.inl ((hg m0).ext.loaders _ h)
        · exact Or.inr ⟨g y, List.mem_map_of_mem hy, (hg y).ext.required h1, by rw [(hg y).id]; exact (hg m0).ext.loaders _ h2⟩
      by_cases h0 : m0.required = true
      · exact hold h0
      · by_cases hmj : m0.id = j
        · have hq0 : m0.name ≠ ["qbs"] := by rw [← (hg m0).name]; exact hq
          have h1 := ((hg m0).required hmj hq0).1
          rw [hmr] at h1
          have hd : d.requiredG = true := by
            simp only [h0, Bool.false_or] at h1
            exact h1.symm
          obtain ⟨k, hk, _⟩ := Deps.findExisting_found hf
          obtain ⟨e, he, hek⟩ := List.mem_map.mp hk
          simp only [Deps.Mod.key, Prod.mk.injEq] at hek
          have := Deps.eq_of_id hi.core.ids he hm0 (hek.2.2.trans hmj.symm)
          subst this
          have hdq : d.name ≠ ["qbs"] := by rw [← hek.1]; exact hq0
          have hfl : f.loading ∈ (g e).loaders := by
            rcases (hg e).loaders hmj with ⟨h, _⟩ | ⟨_, h3, h4⟩ | ⟨_, _, h4⟩
            · exact absurd h hdq
            · rw [h4]; exact h3
            · rw [h4]; simp
          rcases hreq f fs d rest hs hp hd hdq with h | ⟨y, hy, h2, h3⟩
          · exact Or.inl (h ▸ hfl)
          · exact Or.inr ⟨g y, List.mem_map_of_mem hy, (hg y).ext.required h3, by rw [(hg y).id, ← h2]; exact hfl⟩
        · rw [((hg m0).other hmj).1] at hmr
          exact absurd hmr h0
  | new f fs d rest p b ds g m hs hp hn hsrc hg hm he' =>
    subst he'
    have hup : ∀ {l : Deps.Loader}, (l = .product ∨ ∃ m ∈ s.modules, l = .module m.id ∧ m.required = true) →
        l = .product ∨ ∃ x ∈ s.modules.map g ++ [m], l = .module x.id ∧ x.required = true := by
      rintro l (h | ⟨x, hx, h1, h2⟩)
      · exact Or.inl h
      · exact Or.inr ⟨g x, by simp; exact Or.inl ⟨x, hx, rfl⟩, by rw [(hg x).id]; exact h1, (hg x).required.trans h2⟩
    refine ⟨fun x hx hxr => ?_, fun x hx hxr hq => ?_⟩
    · rcases List.mem_append.mp hx with hx | hx
      · split at hx
        · simp at hx
        · rw [List.mem_singleton] at hx
          subst hx
          exact Or.inr ⟨m, by simp, by simp [Deps.newFrame, hm.id], by rw [hm.required]; exact hxr⟩
      · rcases List.mem_cons.mp hx with rfl | hx
        · exact hup (hr.frames f (by rw [hs]; simp) hxr)
        · exact hup (hr.frames x (by rw [hs]; simp [hx]) hxr)
    · rcases List.mem_append.mp hx with hx | hx
      · obtain ⟨m0, hm0, rfl⟩ := List.mem_map.mp hx
        rw [(hg m0).required] at hxr
        rw [(hg m0).name] at hq
        rw [(hg m0).loaders]
        rcases hr.mods m0 hm0 hxr hq with h | ⟨y, hy, h1, h2⟩
        · exact Or.inl h
        · exact Or.inr ⟨g y, by simp; exact Or.inl ⟨y, hy, rfl⟩, (hg y).required.trans h1, by rw [(hg y).id]; exact h2⟩
      · rw [List.mem_singleton] at hx
        subst hx
        rw [hm.required] at hxr
        rw [hm.name] at hq
        have hfl : f.loading ∈ x.loaders := by rw [hm.loaders, if_neg hq]; simp
        rcases hup (hreq f fs d rest hs hp hxr hq) with h | ⟨y, hy, h2, h3⟩
        · exact Or.inl (h ▸ hfl)
        · exact Or.inr ⟨y, hy, h3, h2 ▸ hfl⟩

theorem rinv {w : Deps.World} {N : List Deps.Name} (hb : Deps.Bounded w N) (hself : (Deps.prodAt w w.self).isSome) {s : Deps.St} (h : Deps.Reach P w s)
    (he : s.errors = []) : RInv s := by
  induction h with
  | initial =>
    refine ⟨fun f hf _ => ?_, by simp [Deps.initial]⟩
    simp only [Deps.initial, List.mem_singleton] at hf
    subst hf
    exact Or.inl rfl
  | next hr _ h ih =>
    have he0 := Deps.step_errors h he
    have ho := (Deps.oinv hr).modules
    have ht := (Deps.tinv hb hr).names
    rcases Deps.good hself hr he0 with hi | ⟨s0, f, fs, d, rest, p, hi, hres⟩
    · exact rinv_next hb hi ho ht (ih he0) h he
    · rcases Deps.step_resumed hres _ with h1 | ⟨x, h1, h2⟩ | h1
      · rw [h1] at h; cases h
      · rw [h1] at h; cases h; rw [h2] at he; simp at he
      · rw [h1] at h
        have ih := ih he0
        rw [hres.eq] at ih ho ht
        refine rinv_next hb hi ho ht ⟨?_, ih.mods⟩ h he
        · intro g hg
          rw [hres.stack] at hg
          rcases List.mem_cons.mp hg with rfl | hg
          · exact ih.frames { g with pending := { d with product := some p } :: rest } (by simp)
          · exact ih.frames g (by simp [hg])
  | deferred _ _ h ih =>
    have := ih (by rw [← Deps.deferred_errors h]; exact he)
    rcases Deps.step_deferred h with rfl | ⟨f, fs, d, rest, p, h1, _, _, _, _, rfl⟩
    · exact this
    · refine ⟨fun g hg => ?_, this.mods⟩
      rcases List.mem_cons.mp hg with rfl | hg
      · exact this.frames f (by rw [h1]; simp)
      · exact this.frames g (by rw [h1]; simp [hg])

/-- The modules of a product with its dependencies resolved -/
def resolved (off : Nat → Bool) (e : Env) (s : Deps.St) : St := run e (s.modules.map (ofEntry off)) (missing s.modules)

/-- **C69.** With dependencies resolved and no error, a module that is present has everything it requires. -/
theorem C69_resolved_complete {w : Deps.World} (hself : (Deps.prodAt w w.self).isSome) {s : Deps.St} (h : Deps.Success P w s) (off : Nat → Bool) (e : Env)
    (he : (resolved off e s).errors = []) : ∀ m ∈ s.modules, m.id ∉ (resolved off e s).gone → ∀ x ∈ m.locals, x.required = true →
      ∃ d ∈ s.modules, d.id = x.id ∧ d.id ∉ (resolved off e s).gone := by
  intro m hm hg x hx hr
  obtain ⟨d, hd, h1, h2⟩ := C69_complete (C69_wf hself h off) he (ofEntry off m) (List.mem_map_of_mem hm) hg x.id
    (List.mem_map.mpr ⟨x, hx, by rw [hr]⟩)
  obtain ⟨d0, hd0, rfl⟩ := List.mem_map.mp hd
  exact ⟨d0, hd0, h1, h2⟩

/-- **C69.** With dependencies resolved and no error, if a module is present and all its `Depends` items are required, then for each name that
they ask for a module with this name is present. What is missing: that it is the right
variant, and that one item requires it is enough. Both are findings. -/
theorem C69_resolved_fulfilled_partial {w : Deps.World} (hself : (Deps.prodAt w w.self).isSome) {s : Deps.St} (h : Deps.Success P w s) (off : Nat → Bool) (e : Env)
    (he : (resolved off e s).errors = []) : ∀ m ∈ s.modules, m.id ∉ (resolved off e s).gone → (∀ d ∈ m.depends, d.required = true) →
      ∀ d ∈ s.modules, Deps.Loader.module m.id ∈ d.loaders → ∃ d' ∈ s.modules, d'.name = d.name ∧ d'.id ∉ (resolved off e s).gone := by
  intro m hm hg hreq d hd hl
  obtain ⟨x, hx, hxn⟩ := hinv hself h.1 h.2.2 m hm d hd hl
  have hxr : x.required = true := by
    rcases qinv hself h.1 h.2.2 m hm x hx with ⟨_, h1⟩ | ⟨dd, hdd, ⟨_, _, _, h1⟩ | ⟨h1, _⟩⟩
    · exact h1
    · rw [h1]; exact hreq dd hdd
    · exact h1
  obtain ⟨d', hd', h1, h2⟩ := C69_resolved_complete hself h off e he m hm hg x hx hxr
  refine ⟨d', hd', ?_, h2⟩
  rw [← hxn]
  exact (ninv hself h.1 h.2.2 m hm x hx d' hd' h1)

/-- **C69.** With dependencies resolved and no error, a module that is present has a version that each `Depends` item that asks for it
allows, as C03 says, and the product depends on it by way of modules that are present. -/
theorem C69_resolved_present {w : Deps.World} (hself : (Deps.prodAt w w.self).isSome) {s : Deps.St} (h : Deps.Success P w s) (off : Nat → Bool) (e : Env)
    (he : (resolved off e s).errors = []) : ∀ m ∈ s.modules, m.id ∉ (resolved off e s).gone → m.present = true ∧ (∀ p, m.product = some p → off p = false) ∧
      (∃ g, m.range.accepts (e.version m.id g) = true) ∧ Imported (s.modules.map (ofEntry off)) (resolved off e s) (ofEntry off m) := by
  intro m hm hg
  obtain ⟨h1, h2, ⟨g, _, h3⟩, _⟩ := C69_checked he (ofEntry off m) (List.mem_map_of_mem hm) hg
  refine ⟨?_, ?_, ⟨g, h3⟩, C69_imported (C69_wf hself h off) he _ (List.mem_map_of_mem hm) hg⟩
  · cases hp : m.present with
    | true => rfl
    | false => exact absurd (List.mem_map.mpr ⟨m, List.mem_filter.mpr ⟨hm, by simp [hp]⟩, rfl⟩) h1
  · intro p hp
    have : (m.product.map off).getD false = false := h2
    rw [hp] at this
    exact this

/-- **C69.** With dependencies resolved and no error, all required modules are present, provided that none of them is missing and none
comes from a disabled product, and that there are no dependencies by product type. -/
theorem C69_resolved_required {w : Deps.World} {names : List Deps.Name} (hb : Deps.Bounded w names) (hself : (Deps.prodAt w w.self).isSome) {s : Deps.St}
    (h : Deps.Success P w s) (off : Nat → Bool) (e : Env) (he : (resolved off e s).errors = [])
    (hthere : ∀ m ∈ s.modules, m.required = true → m.present = true ∧ ∀ p, m.product = some p → off p = false) :
    ∀ m ∈ s.modules, m.required = true → m.id ∉ (resolved off e s).gone := by
  have hr := rinv hb hself h.1 h.2.2
  have hids := (Deps.success_inv hself h).core.ids
  intro m hm hmr
  refine C69_required (C69_wf hself h off) he ?_ ?_ (ofEntry off m) (List.mem_map_of_mem hm) hmr
  · intro x hx hxr
    obtain ⟨x0, hx0, rfl⟩ := List.mem_map.mp hx
    obtain ⟨h1, h2⟩ := hthere x0 hx0 hxr
    refine ⟨fun hx => ?_, ?_⟩
    · obtain ⟨y, hy, hyx⟩ := List.mem_map.mp hx
      obtain ⟨hy1, hy2⟩ := List.mem_filter.mp hy
      have := Deps.eq_of_id hids hy1 hx0 hyx
      subst this
      simp [h1] at hy2
    · show (x0.product.map off).getD false = false
      cases hp : x0.product with
      | none => rfl
      | some p => exact h2 p hp
  · intro x hx hxr hq
    obtain ⟨x0, hx0, rfl⟩ := List.mem_map.mp hx
    have hq0 : x0.name ≠ ["qbs"] := by
      intro h0; apply hq; simp [ofEntry, h0]
    rcases hr.mods x0 hx0 hxr hq0 with h1 | ⟨d, hd, h1, h2⟩
    · exact Or.inl (List.mem_map.mpr ⟨_, h1, rfl⟩)
    · exact Or.inr ⟨ofEntry off d, List.mem_map_of_mem hd, h1, mem_toLoader.mpr h2⟩

end Verif.Present
