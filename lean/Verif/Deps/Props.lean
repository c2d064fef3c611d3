import Verif.Deps.ExtraLem

/-! # C66: dependencies are resolved -/

namespace Verif.Deps
open Verif.Version

variable {P : Now → Prop}

theorem expand_of_asks {w : World} {now : Now} {rg : Bool} {d d' : Dep} {n : Name} {pr i : String} (h : Asks w d n pr i) (ha : adjust w d = .ok d') :
    ∃ r ∈ expand w now rg d', r.name = n ∧ r.profile = pr ∧ r.muxId = i ∧ r.product = none ∧ r.range = d.range ∧ r.limit = d.limit ∧
      r.requiredG = (d.required && rg) := by
  obtain ⟨ids, rfl⟩ := adjust_same ha
  obtain ⟨d'', h1, h2⟩ := h.variant
  rw [ha] at h1
  cases h1
  have hx : ∃ sub ∈ orOne (d.submodules.getD []) [], n = d.name ++ sub := by
    rcases h.name with ⟨h3, rfl⟩ | ⟨subs, h3, sub, h4, rfl⟩
    · exact ⟨[], mem_orOne.mpr (Or.inl ⟨rfl, by rw [h3]; rfl⟩), by simp⟩
    · exact ⟨sub, mem_orOne.mpr (Or.inr (by rw [h3]; exact h4)), rfl⟩
  obtain ⟨sub, hs, rfl⟩ := hx
  refine ⟨{ name := d.name ++ sub, profile := pr, muxId := i, range := d.range, limit := d.limit, required := d.required, requiredG := d.required && rg }, ?_,
    rfl, rfl, rfl, rfl, rfl, rfl, rfl⟩
  unfold expand
  dsimp only
  rw [h.byName]
  exact expandNamed_iff.mpr ⟨pr, mem_orOne.mpr h.profile, i, mem_orOne.mpr h2, sub, hs, rfl⟩

theorem evaluate_of_asks {w : World} {d d' : Dep} {n : Name} {pr i : String} (h : Asks w d n pr i) (ha : adjust w d = .ok d') {c : Option Dep}
    (he : evaluate d' = .ok c) : evaluate d' = .ok (some d') := by
  obtain ⟨ids, rfl⟩ := adjust_same ha
  unfold evaluate at he ⊢
  have hsub : d.submodules ≠ some [] := by
    rcases h.name with ⟨h3, _⟩ | ⟨subs, h3, sub, h4, _⟩
    · rw [h3]; simp
    · rw [h3]; intro h5; cases h5; simp at h4
  simp only [h.enabled, h.notBase, h.byName, hsub, Bool.true_eq_false, if_false, ne_eq, not_true_eq_false, reduceCtorEq, and_false, false_and, and_true] at he ⊢
  split at he
  · cases he
  · rename_i hn
    rw [if_neg hn]

theorem done_of_success {w : World} (hself : (prodAt w w.self).isSome) {s : St} (h : Success P w s) {l : Loader} {ds : List Dep}
    (hds : DependsOf w s.modules l ds) (hb : ∀ m ∈ s.modules, l = .module m.id → m.name ≠ ["qbs"]) : ∀ d ∈ ds, ItemDone P w s.modules l d := by
  have hc := (success_inv hself h).core
  rw [h.2.1] at hc
  intro d hd
  cases l with
  | product => rw [show ds = w.depends from hds] at hd; exact hc.doneProduct rfl d hd
  | module i =>
    obtain ⟨m, hm, rfl, rfl⟩ := hds
    exact hc.done m hm (hb m hm rfl) (by simp) d hd

/-- **C66.** When the dependencies of a product have been resolved without an error, there is an entry for everything that a
`Depends` item of the product, or of a module or product it depends on, asks for by name. The entry is for the profile and
the variant asked for, the versions asked for count, and it is required if the item says so, and everything on the way as well.
Nothing is missing, unless the item or something on the way says that it is not required, and the product is disabled or
does not exist for the profile or variant. -/
theorem C66_fulfilled {w : World} (hself : (prodAt w w.self).isSome) {s : St} (h : Success P w s) {l : Loader} {ds : List Dep}
    (hds : DependsOf w s.modules l ds) (hb : ∀ m ∈ s.modules, l = .module m.id → m.name ≠ ["qbs"]) {d : Dep} (hd : d ∈ ds)
    {n : Name} {pr i : String} (ha : Asks w d n pr i) :
    (∃ m ∈ s.modules, m.name = n ∧ Fits w m.product pr i ∧ l ∈ m.loaders ∧ Counts m d.range ∧
      (d.required = true → ¬ Optional w s.modules l → m.required = true)) ∨
    ((d.required = false ∨ Optional w s.modules l) ∧ Unavailable w d.limit n pr i) := by
  obtain ⟨⟨d', c, h1, h2⟩, hall⟩ := done_of_success hself h hds hb d hd
  have h3 := evaluate_of_asks ha h1 h2
  obtain ⟨rg, now, hP, hrg, hh⟩ := hall d' h1 h3
  obtain ⟨r, hr, h4, h5, h6, h7, h8, h9, h10⟩ := expand_of_asks (now := now) (rg := rg) ha h1
  have hreq : ∀ {b : Bool}, r.requiredG = false → d.required = false ∨ Optional w s.modules l := by
    intro _ hf
    rw [h10] at hf
    cases hdr : d.required with
    | false => exact Or.inl rfl
    | true => rw [hdr, Bool.true_and] at hf; exact Or.inr (hrg hf)
  rcases hh r hr with ⟨m, hm, h11, h12, h13⟩ | ⟨h11, _, h12⟩
  · have hq : r.name ≠ ["qbs"] ∨ r.name = ["qbs"] := by by_cases hq : r.name = ["qbs"] <;> simp [hq]
    rcases hq with hq | hq
    · obtain ⟨h14, h15, h16⟩ := h13 hq
      refine Or.inl ⟨m, hm, h11.trans h4, ?_, h14, by rw [← h8]; exact h16, fun hdr hno => h15 ?_⟩
      · rw [← h5, ← h6]; exact fits_of_fitsR h7 h12
      · cases hrr : r.requiredG with
        | true => rfl
        | false =>
          rcases hreq (b := true) hrr with h | h
          · rw [hdr] at h; cases h
          · exact absurd h hno
    · -- a name that is the one of the base module after all: there is only one way, an item without a name
      exfalso
      rw [h4] at hq
      rcases ha.name with ⟨_, h⟩ | ⟨subs, h17, sub, _, h⟩
      · rw [hq] at h; exact ha.notBase h.symm
      · obtain ⟨ids, rfl⟩ := adjust_same h1
        have hne : d.name ≠ [] := by
          intro h0
          unfold evaluate at h3
          simp only [ha.enabled, h0, ha.byName, h17, Bool.true_eq_false, if_false, ne_eq, not_true_eq_false, false_and, reduceCtorEq, and_self, if_true,
            show ([] : Name) ≠ ["qbs"] by simp] at h3
          split at h3
          · cases h3
          · simp at h3
        have : sub = [] := by
          have hlen := congrArg List.length (hq ▸ h)
          simp only [List.length_cons, List.length_nil, List.length_append] at hlen
          have : d.name.length ≠ 0 := by simpa using hne
          exact List.eq_nil_of_length_eq_zero (by omega)
        rw [this, List.append_nil, hq] at h
        exact ha.notBase h.symm
  · refine Or.inr ⟨hreq (b := true) h11, ?_⟩
    rw [h9, h4, h5, h6] at h12
    exact h12

/-- **C66.** If a product has one of the types that a `Depends` item asks for whenever they are looked up, then there is an entry
for it, or for another product of the same name that is no variant. -/
theorem C66_by_type {w : World} (hself : (prodAt w w.self).isSome) {s : St} {p : Nat} {types : List String}
    (h : Success (fun now => p ∈ now.ofType types) w s) {l : Loader} {ds : List Dep}
    (hds : DependsOf w s.modules l ds) (hb : ∀ m ∈ s.modules, l = .module m.id → m.name ≠ ["qbs"]) {d : Dep} (hd : d ∈ ds)
    (hen : d.enabled = true) (hn : d.name = []) (hsub : d.submodules ≠ some []) (ht : d.productTypes = some types) (htypes : types ≠ [])
    {q me : Product} (hq : prodAt w p = some q) (hme : prodAt w w.self = some me) (hps : p ≠ w.self) (hqn : q.name ≠ me.name) (hqb : q.name ≠ "qbs")
    (hlim : d.limit = true → ∃ x, me.projects.head? = some x ∧ x ∈ q.projects) :
    ∃ m ∈ s.modules, m.name = [q.name] ∧ l ∈ m.loaders ∧ m.required = true ∧ Counts m d.range ∧ ∃ p', m.product = some p' ∧
      (p' = p ∨ ∃ q', prodAt w p' = some q' ∧ q'.name = q.name ∧ q'.muxId = "") := by
  obtain ⟨⟨d', c, h1, h2⟩, hall⟩ := done_of_success hself h hds hb d hd
  obtain ⟨ids, hd'⟩ := adjust_same h1
  have hev : evaluate d' = .ok (some d') := by
    subst hd'
    unfold evaluate
    simp [hen, hn, hsub, ht, htypes]
  obtain ⟨rg, now, hP, hrg, hh⟩ := hall d' h1 hev
  have hr : ({ name := [q.name], product := some p, range := d'.range, checkProduct := false } : RDep) ∈ expand w now rg d' := by
    unfold expand
    rw [show d'.productTypes = some types by rw [hd']; exact ht]
    refine List.mem_filterMap.mpr ⟨p, List.mem_filter.mpr ⟨hP, ?_⟩, by rw [hq]; rfl⟩
    rw [hq, hme]
    simp only [decide_eq_true hps, decide_eq_true hqn, Bool.true_and]
    cases hl : d.limit with
    | false => rw [show d'.limit = false by rw [hd']; exact hl]; rfl
    | true =>
      obtain ⟨x, hx1, hx2⟩ := hlim hl
      rw [sameSubProject_of hx1 hx2]; simp
  rcases hh _ hr with ⟨m, hm, h11, h12, h13⟩ | ⟨h11, _⟩
  · obtain ⟨h14, h15, h16⟩ := h13 (by simp [hqb])
    refine ⟨m, hm, h11, h14, h15 rfl, by rw [show d.range = d'.range by rw [hd']]; exact h16, ?_⟩
    cases hpm : m.product with
    | none => rw [hpm] at h12; exact absurd h12 (by simp [FitsR])
    | some p' =>
      rw [hpm] at h12
      refine ⟨p', rfl, ?_⟩
      rcases h12 with h12 | ⟨q', hq', _, hmx⟩
      · exact Or.inl (by simpa using h12.symm)
      · refine Or.inr ⟨q', hq', ?_, hmx⟩
        rcases (oinv h.1).modules m hm with ⟨p2, q2, hp2, hq2, hn2, _⟩ | ⟨hno, _⟩
        · rw [hpm] at hp2; cases hp2
          rw [hq'] at hq2; cases hq2
          rw [hn2, h11]; exact toStr_single _
        · rw [hpm] at hno; cases hno
  · cases h11

/-- **C66.** Everything comes after what it depends on. -/
theorem C66_order {w : World} (hself : (prodAt w w.self).isSome) {s : St} (h : Success P w s) {a b : List Mod} {m : Mod}
    (hab : s.modules = a ++ m :: b) : ∀ e ∈ s.modules, Loader.module m.id ∈ e.loaders → e ∈ a := by
  have hc := (success_inv hself h).core
  rw [h.2.1] at hc
  exact hc.order a m b hab (by simp)

theorem before_trans {ms : List Mod} {R : Mod → Mod → Prop} (hR : ∀ a m b, ms = a ++ m :: b → ∀ e, R m e → e ∈ a) {m e : Mod}
    (h : Relation.TransGen R m e) : ∀ a b, ms = a ++ m :: b → e ∈ a := by
  induction h with
  | single h => exact fun a b hab => hR a _ b hab _ h
  | tail _ h ih =>
    intro a b hab
    have := ih a b hab
    obtain ⟨a1, b1, rfl⟩ := List.append_of_mem this
    have := hR a1 _ (b1 ++ m :: b) (by rw [hab]; simp) _ h
    simp [this]

/-- **C66.** If dependencies are resolved, there is no cycle among them. -/
theorem C66_acyclic {w : World} (hself : (prodAt w w.self).isSome) {s : St} (h : Success P w s) (m : Mod) :
    ¬ Relation.TransGen (fun m e => m ∈ s.modules ∧ e ∈ s.modules ∧ Loader.module m.id ∈ e.loaders) m m := by
  intro ht
  have hm : m ∈ s.modules := by cases ht with | single h => exact h.1 | tail _ h => exact h.2.1
  obtain ⟨a, b, hab⟩ := List.append_of_mem hm
  have hma := before_trans (ms := s.modules) (fun a m b hab e he => C66_order hself h hab e he.2.1 he.2.2) ht a b hab
  have hid := (success_inv hself h).core.ids
  rw [hab] at hid
  simp only [List.map_append, List.map_cons, List.nodup_append] at hid
  exact hid.2.2 m.id (List.mem_map_of_mem hma) m.id (by simp) rfl

theorem transGen_trans {α : Type} {R : α → α → Prop} {a b c : α} (h1 : Relation.TransGen R a b) (h2 : Relation.TransGen R b c) : Relation.TransGen R a c := by
  induction h2 with
  | single h => exact .tail h1 h
  | tail _ h ih => exact .tail ih h

theorem bulk_of_expand {w : World} {now : Now} {rg : Bool} {d d' : Dep} {p : Nat} {q : Product} {types : List String} (h3 : adjust w d = .ok d')
    (h4 : evaluate d' = .ok (some d')) (h5 : ({ name := [q.name], product := some p, range := d'.range, checkProduct := false } : RDep) ∈ expand w now rg d')
    (h8 : d'.productTypes = some types) (h9 : p ∈ now.ofType types) (h10 : prodAt w p = some q) : AsksBulk w now.ofType d p q := by
  obtain ⟨_, hen, hnb, hsm⟩ := evaluate_some h4
  obtain ⟨ids, rfl⟩ := adjust_same h3
  unfold expand at h5
  rw [h8] at h5
  obtain ⟨p', hp', heq⟩ := List.mem_filterMap.mp h5
  obtain ⟨q', hq', heq'⟩ := Option.map_eq_some_iff.mp heq
  simp only [RDep.mk.injEq, Option.some.injEq] at heq'
  obtain ⟨_, rfl, _⟩ := heq'
  obtain ⟨_, hcond⟩ := List.mem_filter.mp hp'
  rw [h10] at hcond hq'
  cases hq'
  cases hs : prodAt w w.self with
  | none => rw [hs] at hcond; simp at hcond
  | some me =>
    rw [hs] at hcond
    simp only [Bool.and_eq_true, decide_eq_true_eq, Bool.or_eq_true, Bool.not_eq_true'] at hcond
    refine ⟨hen, hsm, ⟨types, h8, ?_, h9⟩, h10, hcond.1.1, me, hs, hcond.1.2, fun hlim => ?_⟩
    · intro h0
      subst h0
      unfold evaluate at h4
      dsimp only at h4 h8 hen hnb hsm
      rw [h8] at h4
      simp [hen, hnb, hsm] at h4
    · rcases hcond.2 with h | h
      · rw [show d.limit = true from hlim] at h; cases h
      · exact head?_contains h

theorem fits_bulk {w : World} {o : Option Nat} {p : Nat} {n : Name} {rg : Range} (h : FitsR w o { name := n, product := some p, range := rg, checkProduct := false }) :
    ∃ p', o = some p' ∧ (p' = p ∨ ∃ q', prodAt w p' = some q' ∧ q'.muxId = "") := by
  cases o with
  | none => cases h
  | some p' =>
    refine ⟨p', rfl, ?_⟩
    rcases h with h | ⟨q', h1, _, h2⟩
    · exact Or.inl (by simpa using h.symm)
    · exact Or.inr ⟨q', h1, h2⟩

/-- What a recorded loader means -/
theorem needs_of_loader {w : World} {s : St} (hi : Inv P w s) {e : Mod} (he : e ∈ s.modules) {l : Loader} (hl : l ∈ e.loaders) : Needs P w s.modules l e := by
  obtain ⟨ds, d, rg, r, h1, h2, ⟨d', now, h3, h4, hP, h5⟩, h6, h7⟩ := hi.core.loaders e he l hl
  refine ⟨ds, d, h1, h2, ?_⟩
  rcases expand_shape h5 with ⟨h8, h9, h10⟩ | ⟨p, q, types, h8, h9, h10, rfl⟩
  · obtain ⟨hask, _⟩ := asks_of_named h3 h4 h9 h10
    rw [h6] at hask
    exact Or.inl ⟨_, _, hask, fits_of_fitsR h8 h7⟩
  · exact Or.inr ⟨now, p, q, hP, bulk_of_expand h3 h4 h5 h8 h9 h10, h6.symm, fits_bulk h7⟩

/-- **C66.** There is nothing that the product does not depend on, apart from the base module. -/
theorem C66_only_needed {w : World} (hself : (prodAt w w.self).isSome) {s : St} (h : Success P w s) :
    ∀ m ∈ s.modules, m.name ≠ ["qbs"] → Needed P w s.modules m := by
  have hi := success_inv hself h
  have main : ∀ n, ∀ a m b, s.modules = a ++ m :: b → b.length = n → m.name ≠ ["qbs"] → Needed P w s.modules m := by
    intro n
    induction n using Nat.strongRecOn with
    | _ n ih =>
      intro a m b hab hn hq
      have hm : m ∈ s.modules := by rw [hab]; simp
      obtain ⟨l, hl⟩ := List.exists_mem_of_ne_nil _ (hi.core.sound m hm hq)
      have hneed := needs_of_loader hi hm hl
      cases l with
      | product => exact .direct hm hneed
      | module i =>
        obtain ⟨ds, d, hd, hdd, hask⟩ := hneed
        obtain ⟨m', hm', rfl, rfl⟩ := hd
        obtain ⟨a', b', hab'⟩ := List.append_of_mem hm'
        have hma := C66_order hself h hab' m hm hl
        obtain ⟨a1, b1, rfl⟩ := List.append_of_mem hma
        have hlen : b'.length < n := by
          have h1 : s.modules = a1 ++ m :: (b1 ++ m' :: b') := by rw [hab']; simp
          have ha := split_unique hi.core.ids hab h1
          subst ha
          rw [hab] at h1
          have hb := List.append_cancel_left h1
          simp only [List.cons.injEq, true_and] at hb
          rw [← hn, hb]
          simp only [List.length_append, List.length_cons]; omega
        have hq' : m'.name ≠ ["qbs"] := (ainv hself h.1 h.2.2).base m hm m' hm' hl
        exact .indirect (ih _ hlen (a1 ++ m :: b1) m' b' (by rw [hab']) rfl hq') ⟨hm', hm, m'.depends, d, ⟨m', hm', rfl, rfl⟩, hdd, hask⟩
  intro m hm hq
  obtain ⟨a, b, hab⟩ := List.append_of_mem hm
  exact main _ a m b hab rfl hq

/-- **C66.** An entry stands for the product with its name, never for the product itself whose dependencies these are, or for a file
of this module. It is only absent if there is no file. -/
theorem C66_right_one {w : World} {s : St} (h : Success P w s) : ∀ m ∈ s.modules,
    (∃ p q, m.product = some p ∧ prodAt w p = some q ∧ q.name = toStr m.name ∧ p ≠ w.self ∧ m.depends = q.depends ∧ m.present = true) ∨
    (m.product = none ∧ ∃ r, (m.present = true ∧ ∃ f, w.module m.name r = .file f ∧ m.depends = f.depends) ∨
      (m.present = false ∧ w.module m.name r = .none ∧ m.depends = [])) := (oinv h.1).modules

/-- **C66.** Only what is not required is absent: the item that asks for it, or one on the way to it, says so. -/
theorem C66_absent {w : World} (hself : (prodAt w w.self).isSome) {s : St} (h : Success P w s) :
    ∀ m ∈ s.modules, m.present = false → Optional w s.modules (.module m.id) := (ainv hself h.1 h.2.2).absent

/-- **C66.** Nothing is loaded twice, if no dependencies are by product type. This holds at all times, also after errors. -/
theorem C66_once {w : World} {names : List Name} (hb : Bounded w names) {s : St} (h : Reach P w s) :
    (s.modules.map (fun m => (m.name, m.product))).Nodup := (tinv hb h).nodup

/-- **C66.** Resolving dependencies by name comes to an end: a run that does not end does nothing but defer from some
point on. -/
theorem C66_ends {w : World} {names : List Name} (hb : Bounded w names) {now : Nat → Now} {s : Nat → St} (h : Run w now s) :
    ∃ j, ∀ k, j ≤ k → step w (now k) (s k) = .deferred (s (k + 1)) := run_ends hb h

/-- **C66.** There is no run without end if deferring is not allowed any more at some point. -/
theorem C66_ends_without_deferring {w : World} {names : List Name} (hb : Bounded w names) {now : Nat → Now} {s : Nat → St}
    {j : Nat} (hd : ∀ k, j ≤ k → (now k).mayDefer = false) : ¬ Run w now s := by
  intro h
  obtain ⟨i, hi⟩ := run_ends hb h
  have h1 := hi (i + j) (by omega)
  have h2 := hd (i + j) (by omega)
  generalize now (i + j) = nw at h1 h2
  unfold step at h1
  split at h1
  · cases h1
  · split at h1
    · split at h1
      · rename_i p hl
        have key : ∀ {l d q s}, loadProduct w nw l d q s ≠ .defer p := by
          intro l d q s hx
          unfold loadProduct at hx
          split at hx
          · rename_i hc
            unfold checkProd at hc
            rw [h2] at hc
            split at hc
            · cases hc
            · split at hc
              · cases hc
              · split at hc
                · simp at hc
                · split at hc
                  · split at hc <;> cases hc
                  · cases hc
          · cases hx
          · cases hx
          · split at hx
            · cases hx
            · exact absurd hx addNew_defer
        unfold load at hl
        split at hl
        · cases hl
        · exact absurd hl loadExisting_defer
        · split at hl
          · exact absurd hl key
          · split at hl
            · exact absurd hl key
            · unfold loadFile at hl
              split at hl
              · split at hl <;> cases hl
              · split at hl
                · exact absurd hl addNew_defer
                · cases hl
                · split at hl
                  · cases hl
                  · exact absurd hl addNew_defer
      · cases h1
      · split at h1 <;> cases h1
      · split at h1 <;> cases h1
    · split at h1
      · rw [h2] at h1
        simp at h1
      · split at h1
        · split at h1
          · cases h1
          · split at h1 <;> cases h1
        · cases h1

/-- **C66.** If everything that is asked for is there and nothing depends on itself, then the dependencies are resolved
without an error. -/
theorem C66_succeeds {w : World} {names : List Name} {rankProduct : Nat → Nat} {rankFile : Name → Nat}
    (hs : Sane w names rankProduct rankFile) {now : Now} (hP : P now) (hnow : ∀ p, now.queued p = false) : ∃ s, Success P w s := succeeds hs hP hnow

/-! ## Cycles -/

theorem chainTo_split {l : Loader} : ∀ {fs : List Frame}, onStack l fs = true →
    ∃ pre post, fs.map (·.loading) = pre ++ l :: post ∧ chainTo l fs = pre ++ [l]
  | [], h => by simp [onStack] at h
  | f :: fs, h => by
    unfold chainTo
    by_cases hf : f.loading = l
    · exact ⟨[], fs.map (·.loading), by simp [hf], by simp [hf]⟩
    · rw [if_neg hf]
      have : onStack l fs = true := by
        rw [onStack_iff] at h ⊢
        simp only [List.map_cons, List.mem_cons] at h
        rcases h with h | h
        · exact absurd h.symm hf
        · exact h
      obtain ⟨pre, post, h1, h2⟩ := chainTo_split this
      exact ⟨f.loading :: pre, post, by simp [h1], by simp [h2]⟩

theorem chain_tail {ms : List Mod} {l : Loader} {ls : List Loader} (h : Chain ms (l :: ls)) : Chain ms ls := by
  cases ls with
  | nil => trivial
  | cons x xs => exact h.2

theorem chain_drop {ms : List Mod} : ∀ {a b : List Loader}, Chain ms (a ++ b) → Chain ms b
  | [], _, h => h
  | _ :: a, _, h => chain_drop (a := a) (chain_tail h)

/-- What is further down on the stack depends on what is above. -/
theorem chain_depends {w : World} {s : St} (hi : Inv P w s) : ∀ {L : List Loader} {x : Mod} {ls : List Loader}, Chain s.modules L → L = .module x.id :: ls →
    x ∈ s.modules → ∀ y ∈ s.modules, Loader.module y.id ∈ ls → Relation.TransGen (DependsOn P w s.modules) y x
  | [], _, _, _, h, _, _, _, _ => by simp at h
  | [l], x, ls, hc, h, _, y, _, hm => by
    simp only [List.cons.injEq] at h
    rw [← h.2] at hm; simp at hm
  | l :: l' :: ls', x, ls, hc, h, hx, y, hy, hmem => by
    simp only [List.cons.injEq] at h
    obtain ⟨rfl, rfl⟩ := h
    obtain ⟨⟨e', he', h1, _, h2⟩, hc'⟩ := hc
    simp only [Loader.module.injEq] at h1
    have := eq_of_id hi.core.ids hx he' h1
    subst this
    cases hl' : l' with
    | product =>
      subst hl'
      cases ls' with
      | nil => simp at hmem
      | cons x xs =>
        obtain ⟨⟨_, _, h, _⟩, _⟩ := hc'
        cases h
    | module j =>
      subst hl'
      have hneed := needs_of_loader hi hx h2
      obtain ⟨m1, hm1, hj⟩ : ∃ m1 ∈ s.modules, m1.id = j := by
        obtain ⟨_, _, ⟨m1, hm1, hj, _⟩, _⟩ := hneed
        exact ⟨m1, hm1, hj⟩
      subst hj
      have hstep : DependsOn P w s.modules m1 x := ⟨hm1, hx, hneed⟩
      rcases List.mem_cons.mp hmem with h4 | h4
      · simp only [Loader.module.injEq] at h4
        rw [eq_of_id hi.core.ids hy hm1 h4]
        exact .single hstep
      · exact .tail (chain_depends hi hc' rfl hm1 y hy h4) hstep

/-- **C66.** If a cycle is reported as the first error, there is one: every module in the message depends on itself by way of
the others. -/
theorem C66_cycle_real {w : World} (hself : (prodAt w w.self).isSome) {s s' : St} {now : Now} (hr : Reach P w s) (he : s.errors = [])
    (h : step w now s = .next s') {chain : List Loader} (he' : s'.errors = [.cyclic chain]) :
    ∀ l ∈ chain, l ≠ .product → ∃ m ∈ s.modules, l = .module m.id ∧ Relation.TransGen (DependsOn P w s.modules) m m := by
  -- without deferring
  have main : ∀ {s0 : St}, Inv P w s0 → s0.errors = [] → step w now s0 = .next s' →
      ∀ l ∈ chain, l ≠ .product → ∃ m ∈ s0.modules, l = .module m.id ∧ Relation.TransGen (DependsOn P w s0.modules) m m := by
    intro s hi he h
    cases step_cases h with
    | skipped f fs d rest hs hp hr hn heq => rw [heq] at he'; simp [he] at he'
    | again f fs d rest j g hs hp hf hj hg heq => rw [heq] at he'; simp [he] at he'
    | new f fs d rest p b ds g m hs hp hn hsrc hg hm heq => rw [heq] at he'; simp [he] at he'
    | expanded f fs c hs hp hc heq => rw [heq] at he'; simp [he] at he'
    | evaluated f fs d rest d' c hs hp hc hi' ha' hv heq => rw [heq] at he'; simp [he] at he'
    | popped f fs hs hp hc hi' heq => rw [heq] at he'; simp [he] at he'
    | error f fs d rest e hs hp hl hq heq =>
      rw [heq] at he'
      simp only [he, List.nil_append, List.cons.injEq, and_true] at he'
      subst he'
      obtain ⟨ds, hds, hf⟩ := hi.frames f (by rw [hs]; simp)
      have hprov : ∃ dd ∈ ds, Prov P w f.requiredG dd d := by
        rcases hf.pending d (by rw [hp]; simp) with rfl | h
        · exact absurd rfl hq
        · exact h
      obtain ⟨dd, hdd, hpv⟩ := hprov
      -- the only way to get this error
      have hnew : ∀ {p ds b}, addNew w f.loading d p ds b s ≠ .error (.cyclic chain) := by
        intro p ds b hx
        unfold addNew at hx
        split at hx
        · simp at hx
        · simp only at hx
          split at hx <;> simp at hx
      have hprodself : ∀ {p}, loadProduct w now f.loading d p s = .error (.cyclic chain) → p = w.self ∧ d.checkProduct = false := by
        intro p hx
        unfold loadProduct at hx
        split at hx
        · cases hx
        · rename_i e hc
          simp only [Res.error.injEq] at hx
          subst hx
          unfold checkProd at hc
          split at hc
          · cases hc
          · split at hc
            · cases hc
            · split at hc
              · split at hc <;> cases hc
              · split at hc
                · split at hc <;> cases hc
                · cases hc
        · cases hx
        · rename_i hc
          split at hx
          · rename_i hps
            refine ⟨hps, ?_⟩
            unfold checkProd at hc
            split at hc
            · assumption
            · cases hc
          · exact absurd hx hnew
      unfold load at hl
      split at hl
      · simp at hl
      · rename_i j hj
        unfold loadExisting at hl
        simp only at hl
        split at hl
        · rename_i hon
          simp only [Res.error.injEq, Err.cyclic.injEq] at hl
          obtain ⟨pre, post, h1, h2⟩ := chainTo_split hon
          obtain ⟨p, hpm, hfit⟩ := findExisting_found hj
          obtain ⟨ej, hej, hk⟩ := List.mem_map.mp hpm
          simp only [Mod.key, Prod.mk.injEq] at hk
          obtain ⟨hk1, rfl, rfl⟩ := hk
          have hc := hi.core.chain
          have hfront : s.stack.map (·.loading) = f.loading :: fs.map (·.loading) := by rw [hs]; rfl
          -- the front is a module
          obtain ⟨i0, hi0⟩ : ∃ i0, f.loading = .module i0 := by
            cases hfl : f.loading with
            | module i => exact ⟨i, rfl⟩
            | product =>
              rw [hfl] at hfront
              rw [hfront] at hc
              cases hfs : fs.map (·.loading) with
              | nil =>
                rw [hfs] at hfront
                rw [hfront] at h1
                have : Loader.module ej.id ∈ [Loader.product] := by rw [h1]; simp
                simp at this
              | cons x xs =>
                rw [hfs] at hc
                obtain ⟨⟨_, _, h, _⟩, _⟩ := hc
                cases h
          rw [hi0] at hfront hds
          obtain ⟨m0, hm0, rfl, rfl⟩ := hds
          have hfj : DependsOn P w s.modules m0 ej := by
            refine ⟨hm0, hej, m0.depends, dd, ⟨m0, hm0, rfl, rfl⟩, hdd, ?_⟩
            obtain ⟨d', nw, h3, h4, hP, h5⟩ := hpv
            rcases expand_shape h5 with ⟨h8, h9, h10⟩ | ⟨p, q, types, h8, h9, h10, hdeq⟩
            · obtain ⟨hask, _⟩ := asks_of_named h3 h4 h9 h10
              rw [← hk1] at hask
              exact Or.inl ⟨_, _, hask, fits_of_fitsR h8 hfit⟩
            · refine Or.inr ⟨nw, p, q, hP, ?_, by rw [hk1, hdeq], fits_bulk (hdeq ▸ hfit)⟩
              exact bulk_of_expand h3 h4 (hdeq ▸ h5) h8 h9 h10
          intro l hlm hlp
          rw [← hl, h2] at hlm
          -- from the element up to the front, and from the end of the chain to the element
          have hL : Chain s.modules (pre ++ .module ej.id :: post) := by rw [← h1]; exact hc
          have hfirst : pre ++ .module ej.id :: post = .module m0.id :: fs.map (·.loading) := by rw [← h1, hfront]
          have hmodl : ∃ m ∈ s.modules, l = .module m.id := by
            rcases List.mem_append.mp hlm with h | h
            · obtain ⟨a, b, rfl⟩ := List.append_of_mem h
              have hcd := chain_drop (a := a) (b := l :: (b ++ .module ej.id :: post)) (by simpa using hL)
              cases hb : b ++ Loader.module ej.id :: post with
              | nil => simp at hb
              | cons x xs =>
                rw [hb] at hcd
                obtain ⟨⟨m, hm, h, _⟩, _⟩ := hcd
                exact ⟨m, hm, h⟩
            · exact ⟨ej, hej, by simpa using h⟩
          obtain ⟨m, hm, rfl⟩ := hmodl
          refine ⟨m, hm, rfl, ?_⟩
          have hup : m = m0 ∨ Relation.TransGen (DependsOn P w s.modules) m m0 := by
            have hmem : Loader.module m.id ∈ .module m0.id :: fs.map (·.loading) := by
              rw [← hfirst]
              rcases List.mem_append.mp hlm with h | h
              · simp [h]
              · simp only [List.mem_singleton] at h; rw [h]; simp
            rcases List.mem_cons.mp hmem with h | h
            · simp only [Loader.module.injEq] at h
              exact Or.inl (eq_of_id hi.core.ids hm hm0 h)
            · exact Or.inr (chain_depends hi hL hfirst hm0 m hm h)
          have hdown : m = ej ∨ Relation.TransGen (DependsOn P w s.modules) ej m := by
            rcases List.mem_append.mp hlm with h | h
            · obtain ⟨a, b, rfl⟩ := List.append_of_mem h
              have hcd := chain_drop (a := a) (b := .module m.id :: (b ++ .module ej.id :: post)) (by simpa using hL)
              exact Or.inr (chain_depends hi hcd rfl hm ej hej (by simp))
            · simp only [List.mem_singleton, Loader.module.injEq] at h
              exact Or.inl (eq_of_id hi.core.ids hm hej h)
          rcases hup with rfl | hup <;> rcases hdown with hdown | hdown
          · rw [← hdown] at hfj; exact .single hfj
          · exact transGen_trans (.single hfj) hdown
          · rw [← hdown] at hfj; exact .tail hup hfj
          · exact transGen_trans (.tail hup hfj) hdown
        · split at hl
          · simp at hl
          · split at hl <;> simp at hl
      · -- no entry yet
        exfalso
        have hnoself : ∀ {p}, (d.product = some p ∨ (d.product = none ∧ findProduct w d = some p)) →
            loadProduct w now f.loading d p s ≠ .error (.cyclic chain) := by
          intro p hdp hx
          obtain ⟨h1, h2⟩ := hprodself hx
          obtain ⟨d', nw, h3, h4, hP, h5⟩ := hpv
          rcases expand_shape h5 with ⟨h8, h9, h10⟩ | ⟨p', q, types, h8, h9, h10, hdeq⟩
          · obtain ⟨_, _, _, _, _, _, rfl⟩ := expandNamed_iff.mp h10
            simp at h2
          · have := bulk_of_expand h3 h4 (hdeq ▸ h5) h8 h9 h10
            rw [hdeq] at hdp
            simp only [Option.some.injEq, reduceCtorEq, false_and, or_false] at hdp
            exact this.other.1 (hdp.trans h1)
        split at hl
        · rename_i p hdp
          exact hnoself (Or.inl hdp) hl
        · rename_i hdp
          split at hl
          · rename_i p hfp
            exact hnoself (Or.inr ⟨hdp, hfp⟩) hl
          · unfold loadFile at hl
            split at hl
            · split at hl <;> simp at hl
            · split at hl
              · exact absurd hl hnew
              · simp at hl
              · split at hl
                · simp at hl
                · exact absurd hl hnew
  rcases good hself hr he with hi | ⟨s0, f, fs, d, rest, p, hi, hres⟩
  · exact main hi he h
  · have hm : s0.modules = s.modules := by rw [hres.eq]
    have hs0 : s0.errors = [] := by rw [← he, hres.eq]
    rcases step_resumed hres now with h1 | ⟨x, h1, h2⟩ | h1
    · rw [h1] at h; cases h
    · rw [h1] at h; cases h; rw [h2] at he'; simp [hs0] at he'
    · rw [h1] at h; rw [← hm]; exact main hi hs0 h

end Verif.Deps
