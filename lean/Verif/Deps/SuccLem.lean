import Verif.Deps.TermLem

/-! # If everything is in order, there is no error -/

namespace Verif.Deps
open Verif.Version

variable {P : Now → Prop}

theorem findExisting_no_clash {w : World} {d : RDep} (hd : d.product = none) {ks : List (Name × Option Nat × Nat)} : findExisting w d ks ≠ .clash := by
  induction ks with
  | nil => simp [findExisting]
  | cons x l ih =>
    obtain ⟨n, q, i⟩ := x
    unfold findExisting
    split
    · exact ih
    · split
      · simp [hd]
      · split
        · exact ih
        · split
          · simp
          · exact ih

theorem addLocal_ok {w : World} {l : Loader} {d : RDep} (hd : d.product = none) {i : Nat} {p : Option Nat} {s : St} : addLocal w l d i p s ≠ none := by
  unfold addLocal
  split
  · simp
  · split
    · rename_i h; exact absurd h (findExisting_no_clash hd)
    · simp
    · simp

theorem collision_none {N : List Name} (hp : ∀ n ∈ N, ∀ n' ∈ N, n.isPrefixOf n' = true → n = n') {n : Name} (hn : n ∈ N) {ms : List Mod}
    (hm : ∀ m ∈ ms, m.name ∈ N) : collision n ms = none := by
  unfold collision
  rw [Option.map_eq_none_iff, List.find?_eq_none]
  intro m hmem h
  simp only [ne_eq, Bool.and_eq_true, decide_eq_true_eq, Bool.or_eq_true, bne_iff_ne, decide_not, Bool.not_eq_eq_eq_not, Bool.not_true, decide_eq_false_iff_not] at h
  rcases h.2 with h2 | h2
  · exact h.1 (by rw [hp _ (hm m hmem) _ hn h2])
  · exact h.1 (by rw [hp _ hn _ (hm m hmem) h2])

theorem addNew_ok {w : World} {N : List Name} (hp : ∀ n ∈ N, ∀ n' ∈ N, n.isPrefixOf n' = true → n = n') {l : Loader} {d : RDep} (hd : d.product = none)
    (hn : d.name ∈ N) {p : Option Nat} {ds : List Dep} {b : Bool} {s : St} (hm : ∀ m ∈ s.modules, m.name ∈ N) : ∃ i x, addNew w l d p ds b s = .use i ds x := by
  unfold addNew
  rw [collision_none hp hn hm]
  dsimp only
  split
  · rename_i h; exact absurd h (addLocal_ok hd)
  · exact ⟨_, _, rfl⟩

def rk (rp : Nat → Nat) (rf : Name → Nat) (m : Mod) : Nat := rankOf rp rf m.name m.product

/-- The dependencies of an entry -/
theorem lower_of_origin {w : World} {N : List Name} {rp : Nat → Nat} {rf : Name → Nat} (hs : Sane w N rp rf) {m : Mod} (ho : Origin w m) (hn : m.name ∈ N) :
    ∀ d ∈ m.depends, Lower w rp rf (rk rp rf m) d := by
  intro d hd
  rcases ho with ⟨p, q, h1, h2, _, _, h3, _⟩ | ⟨h1, r, ⟨_, f, h2, h3⟩ | ⟨_, _, h3⟩⟩
  · rw [rk, h1]; rw [h3] at hd
    exact hs.exports p q h2 d hd
  · rw [rk, h1]; rw [h3] at hd
    exact hs.files _ hn r f h2 d hd
  · rw [h3] at hd; simp at hd

theorem named_of_origin {w : World} {m : Mod} (ho : Origin w m) : ∀ i, m.product = some i → ∃ q, prodAt w i = some q ∧ q.name = toStr m.name := by
  intro i hi
  rcases ho with ⟨p, q, h1, h2, h3, _⟩ | ⟨h1, _⟩
  · rw [h1] at hi; cases hi; exact ⟨q, h2, h3⟩
  · rw [h1] at hi; cases hi

theorem item_of_origin {w : World} {N : List Name} {m : Mod} (ho : Origin w m) (hn : m.name ∈ N) {d : Dep} (hd : d ∈ m.depends) :
    (∃ q ∈ w.prods, d ∈ q.depends) ∨ ∃ n ∈ N, ∃ r f, w.module n r = .file f ∧ d ∈ f.depends := by
  rcases ho with ⟨p, q, h1, h2, _, _, h3, _⟩ | ⟨h1, r, ⟨_, f, h2, h3⟩ | ⟨_, _, h3⟩⟩
  · exact Or.inl ⟨q, List.mem_of_getElem? h2, by rw [← h3]; exact hd⟩
  · exact Or.inr ⟨_, hn, r, f, h2, by rw [← h3]; exact hd⟩
  · rw [h3] at hd; simp at hd

theorem fits_of_fitsR {w : World} {p : Option Nat} {r : RDep} (hr : r.product = none) (h : FitsR w p r) : Fits w p r.profile r.muxId := by
  intro i hi
  subst hi
  rcases h with h | h
  · rw [hr] at h; cases h
  · exact h

theorem item_within {w : World} {N : List Name} (hb : Bounded w N) {d : Dep}
    (h : d ∈ w.depends ∨ (∃ q ∈ w.prods, d ∈ q.depends) ∨ ∃ n ∈ N, ∃ r f, w.module n r = .file f ∧ d ∈ f.depends) : Within N d := by
  rcases h with h | ⟨q, hq, h⟩ | ⟨n, hn, r, f, hf, h⟩
  · exact hb.product d h
  · exact hb.exports q hq d h
  · exact hb.files n hn r f hf d h

theorem prov_asks {w : World} {N : List Name} {rg : Bool} {d : Dep} {r : RDep} (hw : Within N d) (h : Prov P w rg d r) :
    r.product = none ∧ Asks w d r.name r.profile r.muxId ∧ r.limit = d.limit ∧ r.range = d.range := by
  obtain ⟨d', now, h1, h2, _, h3⟩ := h
  rcases expand_shape h3 with ⟨h4, h5, h6⟩ | ⟨_, _, _, h4, _⟩
  · obtain ⟨a, _, _, b, c⟩ := asks_of_named h1 h2 h5 h6
    exact ⟨h4, a, c, b⟩
  · obtain ⟨_, rfl⟩ := adjust_same h1
    rw [show _ = none from hw.1] at h4; cases h4

theorem rank_loaded {w : World} {N : List Name} {rp : Nat → Nat} {rf : Name → Nat} (hs : Sane w N rp rf) {s : St} (hi : Inv P w s) (ho : OInv w s)
    (ht : TInv w N s) {e m : Mod} (he : e ∈ s.modules) (hm : m ∈ s.modules) (hl : Loader.module m.id ∈ e.loaders) : rk rp rf e < rk rp rf m := by
  obtain ⟨ds, d, rg, r, h1, h2, h3, h4, h5⟩ := hi.core.loaders e he _ hl
  obtain ⟨m', hm', hid, hdep⟩ := h1
  have := eq_of_id hi.core.ids hm' hm hid
  subst this
  rw [← hdep] at h2
  have hmo := ho.modules m' hm
  have hmn := ht.names m' hm
  obtain ⟨h6, h7, _⟩ := prov_asks (item_within hs.bounded (Or.inr (item_of_origin hmo hmn h2))) h3
  have := lower_of_origin hs hmo hmn d h2 r.name r.profile r.muxId e.product h7 (fits_of_fitsR h6 h5) (h4 ▸ named_of_origin (ho.modules e he))
  rw [h4] at this
  exact this

/-- On the stack, ranks increase from the front on. -/
theorem rank_stack {w : World} {N : List Name} {rp : Nat → Nat} {rf : Name → Nat} (hs : Sane w N rp rf) {s : St} (hi : Inv P w s) (ho : OInv w s)
    (ht : TInv w N s) : ∀ {L : List Loader}, Chain s.modules L → ∀ {e m : Mod} {ls : List Loader}, L = .module e.id :: ls → e ∈ s.modules → m ∈ s.modules →
      Loader.module m.id ∈ ls → rk rp rf e < rk rp rf m
  | [], _, _, _, _, h, _, _, _ => by simp at h
  | [l], hc, e, m, ls, h, _, _, hm => by
    simp only [List.cons.injEq] at h
    rw [← h.2] at hm; simp at hm
  | l :: l' :: ls', hc, e, m, ls, h, he, hm, hmem => by
    simp only [List.cons.injEq] at h
    obtain ⟨rfl, rfl⟩ := h
    obtain ⟨⟨e', he', h1, _, h2⟩, hc'⟩ := hc
    simp only [Loader.module.injEq] at h1
    have := eq_of_id hi.core.ids he he' h1
    subst this
    cases hl' : l' with
    | product =>
      subst hl'
      cases ls' with
      | nil => simp at hmem
      | cons x xs =>
        obtain ⟨⟨_, _, h, _⟩, _⟩ := hc'
        cases h
    | module j =>
      subst hl'
      obtain ⟨m1, hm1, hj⟩ : ∃ m1 ∈ s.modules, m1.id = j := by
        obtain ⟨ds, _, _, _, ⟨m1, hm1, hj, _⟩, _⟩ := hi.core.loaders e he _ h2
        exact ⟨m1, hm1, hj⟩
      subst hj
      have h3 := rank_loaded hs hi ho ht he hm1 h2
      rcases List.mem_cons.mp hmem with h4 | h4
      · simp only [Loader.module.injEq] at h4
        rw [eq_of_id hi.core.ids hm hm1 h4]
        exact h3
      · exact Nat.lt_trans h3 (rank_stack hs hi ho ht hc' rfl hm1 hm h4)

theorem chain_not_base {w : World} {s : St} (hi : Inv P w s) : ∀ {L : List Loader}, Chain s.modules L → ∀ m ∈ s.modules, Loader.module m.id ∈ L → m.name ≠ ["qbs"]
  | [], _, _, _, h => by simp at h
  | [l], hc, _, _, h => by
    rw [show l = .product from hc] at h; simp at h
  | l :: l' :: ls, hc, m, hm, h => by
    rcases List.mem_cons.mp h with h | h
    · obtain ⟨⟨m', hm', h1, h2, _⟩, _⟩ := hc
      rw [h1] at h
      simp only [Loader.module.injEq] at h
      rw [eq_of_id hi.core.ids hm hm' h]; exact h2
    · exact chain_not_base hi hc.2 m hm h

/-- The dependency in front can be loaded. -/
theorem load_ok {w : World} {N : List Name} {rp : Nat → Nat} {rf : Name → Nat} (hs : Sane w N rp rf) {s : St} (hi : Inv P w s) (ho : OInv w s)
    (ht : TInv w N s) {now : Now} (hnow : ∀ p, now.queued p = false) {f : Frame} {fs : List Frame} {d : RDep} {rest : List RDep}
    (hst : s.stack = f :: fs) (hpd : f.pending = d :: rest) :
    (∃ x, load w now f.loading d s = .ignore x) ∨ ∃ i ds x, load w now f.loading d s = .use i ds x := by
  obtain ⟨ds, hds, hf⟩ := hi.frames f (by rw [hst]; simp)
  have hdN := (ht.pending f (by rw [hst]; simp) d (by rw [hpd]; simp)).1
  have hcore := hi.core
  rw [hst, List.map_cons] at hcore
  have hitem : ∀ x ∈ ds, (x ∈ w.depends ∨ (∃ q ∈ w.prods, x ∈ q.depends) ∨ ∃ n ∈ N, ∃ r f, w.module n r = .file f ∧ x ∈ f.depends) := by
    intro x hx
    cases hl : f.loading with
    | product => rw [hl] at hds; exact Or.inl (by rw [← show ds = w.depends from hds]; exact hx)
    | module i =>
      rw [hl] at hds
      obtain ⟨m, hm, _, rfl⟩ := hds
      exact Or.inr (item_of_origin (ho.modules m hm) (ht.names m hm) hx)
  have hprov := hf.pending d (by rw [hpd]; simp)
  have hnone : d.product = none := by
    rcases hprov with rfl | ⟨x, hx, hp⟩
    · rfl
    · exact (prov_asks (item_within hs.bounded (hitem x hx)) hp).1
  unfold load
  split
  · rename_i h; exact absurd h (findExisting_no_clash hnone)
  · rename_i j hj
    refine Or.inl ?_
    obtain ⟨p, hp, hfit⟩ := findExisting_found hj
    obtain ⟨e, he, hek⟩ := List.mem_map.mp hp
    simp only [Mod.key, Prod.mk.injEq] at hek
    obtain ⟨hen, rfl, rfl⟩ := hek
    have hoff : onStack (.module e.id) s.stack = false := by
      rw [← Bool.not_eq_true]
      intro hon
      rw [onStack_iff, hst, List.map_cons] at hon
      rcases hprov with rfl | ⟨x, hx, hpx⟩
      · exact chain_not_base hi hcore.chain e he hon hen
      · obtain ⟨_, hask, _⟩ := prov_asks (item_within hs.bounded (hitem x hx)) hpx
        cases hl : f.loading with
        | product =>
          rw [hl] at hon hcore
          cases fs with
          | nil => simp at hon
          | cons g gs =>
            obtain ⟨⟨_, _, h, _⟩, _⟩ := hcore.chain
            cases h
        | module i =>
          rw [hl] at hds hon hcore
          obtain ⟨m, hm, rfl, rfl⟩ := hds
          have hlow := lower_of_origin hs (ho.modules m hm) (ht.names m hm) x hx _ _ _ e.product hask (fits_of_fitsR hnone hfit) (hen ▸ named_of_origin (ho.modules e he))
          rw [← hen] at hlow
          change rk rp rf e < rk rp rf m at hlow
          rcases List.mem_cons.mp hon with h | h
          · simp only [Loader.module.injEq] at h
            rw [eq_of_id hi.core.ids he hm h] at hlow
            exact Nat.lt_irrefl _ hlow
          · exact Nat.lt_asymm hlow (rank_stack hs hi ho ht hcore.chain rfl hm he h)
    unfold loadExisting
    dsimp only
    rw [hoff]
    simp only [Bool.false_eq_true, if_false]
    have hnames : ∀ m ∈ modify e.id (fun m => addLoader d f.loading (if m.name = ["qbs"] then m else updateMod d m)) s.modules, m.name ∈ N := by
      intro m hm
      obtain ⟨m0, hm0, rfl⟩ := List.mem_map.mp hm
      have := ht.names m0 hm0
      split
      · rw [(addLoader_id _ _ _).2.1]
        split
        · exact this
        · exact this
      · exact this
    rw [collision_none hs.prefixFree hdN hnames]
    dsimp only
    split
    · rename_i h; exact absurd h (addLocal_ok hnone)
    · exact ⟨_, rfl⟩
  · refine Or.inr ?_
    rw [hnone]
    dsimp only
    -- what is available
    have hav : (∃ p q, findProduct w d = some p ∧ prodAt w p = some q ∧ p ≠ w.self ∧ q.disabled = false) ∨
        (findProduct w d = none ∧ d.profile = "" ∧ d.muxId = "" ∧ ∃ f, w.module d.name d.range = .file f) := by
      rcases hprov with rfl | ⟨x, hx, hpx⟩
      · refine Or.inr ⟨?_, rfl, rfl, hs.base.2⟩
        cases hfp : findProduct w base with
        | none => rfl
        | some p =>
          obtain ⟨q, hq, hm⟩ := findProduct_some hfp
          have h1 := hm.1
          rw [show base.name = ["qbs"] from rfl, toStr_single] at h1
          exact absurd h1 (hs.base.1 q (List.mem_of_getElem? hq))
      · obtain ⟨_, hask, hlim, hran⟩ := prov_asks (item_within hs.bounded (hitem x hx)) hpx
        have := (hs.items x (hitem x hx)).2.2 _ _ _ hask
        unfold Available at this
        rw [← hlim, ← hran] at this
        cases hfp : findProduct w d with
        | some p =>
          obtain ⟨q, hq, hm⟩ := findProduct_some hfp
          rcases this with ⟨_, h2⟩ | ⟨h2, _⟩
          · exact Or.inl ⟨p, q, rfl, hq, h2 p q hq hm⟩
          · exact absurd hm (h2 q (List.mem_of_getElem? hq))
        | none =>
          rcases this with ⟨⟨q, hq, hm⟩, _⟩ | ⟨_, h2⟩
          · exact absurd hm (findProduct_none hs.self hfp q hq)
          · exact Or.inr ⟨rfl, h2⟩
    rcases hav with ⟨p, q, h1, h2, h3, h4⟩ | ⟨h1, h2, h3, ff, h4⟩
    · rw [h1]
      dsimp only
      unfold loadProduct
      have hc : checkProd w now d p = .use := by
        unfold checkProd
        split
        · rfl
        · simp [h3, hnow p, h2, h4]
      rw [hc]
      dsimp only
      rw [if_neg h3]
      obtain ⟨i, x, hx⟩ := addNew_ok hs.prefixFree hnone hdN (w := w) (l := f.loading) (p := some p) (ds := ((prodAt w p).map (·.depends)).getD []) (b := true) ht.names
      exact ⟨i, _, x, hx⟩
    · rw [h1]
      dsimp only
      unfold loadFile
      rw [h2, h3, h4]
      simp only [ne_eq, not_true_eq_false, or_self, if_false]
      obtain ⟨i, x, hx⟩ := addNew_ok hs.prefixFree hnone hdN (w := w) (l := f.loading) (p := none) (ds := ff.depends) (b := true) ht.names
      exact ⟨i, _, x, hx⟩

/-- No step fails. -/
theorem step_ok {w : World} {N : List Name} {rp : Nat → Nat} {rf : Name → Nat} (hs : Sane w N rp rf) {s : St} (hi : Inv P w s) (ho : OInv w s)
    (ht : TInv w N s) {now : Now} (hnow : ∀ p, now.queued p = false) : s.stack = [] ∨ ∃ s', step w now s = .next s' ∧ s'.errors = s.errors := by
  cases hst : s.stack with
  | nil => exact Or.inl rfl
  | cons f fs =>
    refine Or.inr ?_
    obtain ⟨ds, hds, hf⟩ := hi.frames f (by rw [hst]; simp)
    cases hpd : f.pending with
    | cons d rest =>
      rcases load_ok hs hi ho ht hnow hst hpd with ⟨x, hl⟩ | ⟨i, ds, x, hl⟩
      · have hx : x.errors = s.errors := by
          rcases load_ignore' hl with ⟨rfl, _⟩ | ⟨_, _, h⟩
          · rfl
          · exact (loadExisting_ignore h).2.1
        refine ⟨{ x with stack := { f with pending := rest } :: fs }, ?_, hx⟩
        unfold step; rw [hst]; dsimp only; rw [hpd]; dsimp only; rw [hl]
      · have hx := (load_use hl).2.2.2.1
        by_cases hq : d.name = ["qbs"]
        · refine ⟨{ x with stack := { f with pending := rest } :: fs }, ?_, hx⟩
          unfold step; rw [hst]; dsimp only; rw [hpd]; dsimp only; rw [hl]; dsimp only; rw [if_pos hq]
        · refine ⟨{ x with stack := newFrame i d ds :: { f with pending := rest } :: fs }, ?_, hx⟩
          unfold step; rw [hst]; dsimp only; rw [hpd]; dsimp only; rw [hl]; dsimp only; rw [if_neg hq]; rfl
    | nil =>
      cases hc : f.current with
      | some c =>
        have hcw := (ht.current f (by rw [hst]; simp) c hc).1.1
        exact ⟨{ s with stack := { f with current := none, pending := expand w now f.requiredG c } :: fs },
          by unfold step; rw [hst]; dsimp only; rw [hpd]; dsimp only; rw [hc]; dsimp only; rw [if_neg (by simp [hcw])], rfl⟩
      | none =>
        cases hit : f.items with
        | nil =>
          refine ⟨{ s with stack := fs, modules := if fs = [] then s.modules else toEnd f.loading s.modules }, ?_, rfl⟩
          unfold step; rw [hst]; dsimp only; rw [hpd]; dsimp only; rw [hc]; dsimp only; rw [hit]
        | cons d rest =>
          have hd := hf.items d (by rw [hit]; simp)
          have hitem : (d ∈ w.depends ∨ (∃ q ∈ w.prods, d ∈ q.depends) ∨ ∃ n ∈ N, ∃ r f, w.module n r = .file f ∧ d ∈ f.depends) := by
            cases hl : f.loading with
            | product => rw [hl] at hds; exact Or.inl (by rw [← show ds = w.depends from hds]; exact hd)
            | module i =>
              rw [hl] at hds
              obtain ⟨m, hm, _, rfl⟩ := hds
              exact Or.inr (item_of_origin (ho.modules m hm) (ht.names m hm) hd)
          obtain ⟨hname, ⟨d', had⟩, _⟩ := hs.items d hitem
          have hw := item_within hs.bounded hitem
          have hev : ∃ c, evaluate d' = .ok c := by
            obtain ⟨ids, rfl⟩ := adjust_same had
            unfold evaluate
            dsimp only
            rw [hw.1]
            split
            · exact ⟨_, rfl⟩
            · split
              · exact ⟨_, rfl⟩
              · split
                · exact ⟨_, rfl⟩
                · simp [hname]
          obtain ⟨c, hev⟩ := hev
          refine ⟨{ s with stack := { f with items := rest, current := c } :: fs }, ?_, rfl⟩
          unfold step; rw [hst]; dsimp only; rw [hpd]; dsimp only; rw [hc]; dsimp only; rw [hit]; dsimp only; rw [had]; dsimp only; rw [hev]

/-- States that are reached without an error -/
theorem succeeds {w : World} {N : List Name} {rp : Nat → Nat} {rf : Name → Nat} (hs : Sane w N rp rf) {now : Now} (hP : P now) (hnow : ∀ p, now.queued p = false) :
    ∃ s, Success P w s := by
  have main : ∀ x : Nat × Nat × Nat, ∀ s, μ w N s = x → Reach P w s → s.errors = [] → Inv P w s → ∃ s, Success P w s := by
    intro x
    induction x using less_wf.induction with
    | h x ih =>
      intro s hx hr he hi
      have ho := oinv hr
      have ht := tinv hs.bounded hr
      rcases step_ok hs hi ho ht hnow with h | ⟨s', h, he'⟩
      · exact ⟨s, hr, h, he⟩
      · have hl := less_next ht ho h
        rw [hx] at hl
        have he2 : s'.errors = [] := he'.trans he
        exact ih _ hl s' rfl (.next hr hP h) he2 (inv_step hs.self hP hi h he2).1
  exact main _ _ rfl .initial rfl (inv_initial w)

end Verif.Deps
