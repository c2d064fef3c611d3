import Verif.Touch.Spec
import Verif.UpToDate.Props
/-!
# C111: `qbs update-timestamps` marks the build as up to date
-/
namespace Verif.Touch

open Verif.UpToDate

/-! ### What the command changes -/

theorem mem_productsToUse (names : List Nat) (ps : List Product) (p : Product) :
    p ∈ productsToUse names ps ↔ Chosen names ps p := by
  unfold productsToUse Chosen
  simp only [List.mem_filter, Bool.or_eq_true, List.isEmpty_iff, List.any_eq_true, beq_iff_eq]
  constructor
  · rintro ⟨⟨h1, h2⟩, h3⟩
    refine ⟨h1, h3, h2.imp id ?_⟩
    rintro ⟨x, hx, rfl⟩; exact hx
  · rintro ⟨h1, h2, h3⟩
    exact ⟨⟨h1, h3.imp id fun h => ⟨_, h, rfl⟩⟩, h2⟩

/-- Nothing but recorded times differs. -/
def SameRest (st st' : St) : Prop :=
  st'.depTs = st.depTs ∧ st'.marked = st.marked ∧ st'.status = st.status

theorem visitNodes_spec (generated onDisk : Art → Bool) (now : Nat) : ∀ (l : List Art) (st : St),
    SameRest st (visitNodes generated onDisk now st l) ∧
    ∀ a, (visitNodes generated onDisk now st l).ts a =
      if generated a = true ∧ onDisk a = true ∧ a ∈ l then now else st.ts a := by
  intro l
  induction l with
  | nil => intro st; exact ⟨⟨rfl, rfl, rfl⟩, fun a => by simp [visitNodes]⟩
  | cons b l ih =>
    intro st
    obtain ⟨⟨h1, h2, h3⟩, h4⟩ := ih (if generated b then doVisit onDisk now st b else st)
    have hr : SameRest st (if generated b then doVisit onDisk now st b else st) := by
      unfold doVisit
      split
      · split <;> exact ⟨rfl, rfl, rfl⟩
      · exact ⟨rfl, rfl, rfl⟩
    refine ⟨⟨h1.trans hr.1, h2.trans hr.2.1, h3.trans hr.2.2⟩, fun a => ?_⟩
    rw [visitNodes, h4]
    by_cases hab : a = b
    · subst hab
      cases hg : generated a <;> cases hd : onDisk a <;> simp [doVisit, hd, upd]
    · have : (if generated b then doVisit onDisk now st b else st).ts a = st.ts a := by
        unfold doVisit
        split
        · split
          · simp [upd, hab]
          · rfl
        · rfl
      rw [this]
      simp [hab]

theorem updateProducts_spec (generated onDisk : Art → Bool) (now : Nat) :
    ∀ (ps : List Product) (st : St),
    SameRest st (updateProducts generated onDisk now st ps) ∧
    ∀ a, (updateProducts generated onDisk now st ps).ts a =
      if generated a = true ∧ onDisk a = true ∧ ∃ p ∈ ps, a ∈ p.nodes then now else st.ts a := by
  intro ps
  induction ps with
  | nil => intro st; exact ⟨⟨rfl, rfl, rfl⟩, fun a => by simp [updateProducts]⟩
  | cons p ps ih =>
    intro st
    obtain ⟨⟨h1, h2, h3⟩, h4⟩ := ih (visitNodes generated onDisk now st p.nodes)
    obtain ⟨⟨g1, g2, g3⟩, g4⟩ := visitNodes_spec generated onDisk now p.nodes st
    refine ⟨⟨h1.trans g1, h2.trans g2, h3.trans g3⟩, fun a => ?_⟩
    rw [updateProducts, h4, g4]
    by_cases hg : generated a = true <;> by_cases hd : onDisk a = true <;>
      by_cases hp : a ∈ p.nodes <;> by_cases hq : ∃ p ∈ ps, a ∈ p.nodes <;>
      simp [hg, hd, hp, hq]

/-- **C111 (what is changed).** The command gives the recorded time of the run to exactly the
generated files that exist and belong to a chosen, enabled product; no other recorded time, mark
or file dependency changes; and it opens only existing target files of these products. -/
theorem C111_times (generated onDisk : Art → Bool) (now : Nat) (names : List Nat)
    (ps : List Product) (st : St) :
    (∀ a, (generated a = true ∧ onDisk a = true ∧ ∃ p, Chosen names ps p ∧ a ∈ p.nodes) →
      (updateTimestamps generated onDisk now names ps st).ts a = now) ∧
    (∀ a, ¬ (generated a = true ∧ onDisk a = true ∧ ∃ p, Chosen names ps p ∧ a ∈ p.nodes) →
      (updateTimestamps generated onDisk now names ps st).ts a = st.ts a) ∧
    (updateTimestamps generated onDisk now names ps st).depTs = st.depTs ∧
    (updateTimestamps generated onDisk now names ps st).marked = st.marked ∧
    (∀ a, a ∈ opened onDisk (productsToUse names ps) ↔
      onDisk a = true ∧ ∃ p, Chosen names ps p ∧ a ∈ p.targets) := by
  obtain ⟨⟨h1, h2, _⟩, h4⟩ := updateProducts_spec generated onDisk now (productsToUse names ps) st
  refine ⟨fun a ha => ?_, fun a ha => ?_, h1, h2, fun a => ?_⟩
  · obtain ⟨hg, hd, p, hp, hn⟩ := ha
    rw [updateTimestamps, h4, if_pos ⟨hg, hd, p, (mem_productsToUse _ _ _).2 hp, hn⟩]
  · rw [updateTimestamps, h4, if_neg]
    rintro ⟨hg, hd, p, hp, hn⟩
    exact ha ⟨hg, hd, p, (mem_productsToUse _ _ _).1 hp, hn⟩
  · simp only [opened, List.mem_flatMap, List.mem_filter, mem_productsToUse]
    constructor
    · rintro ⟨p, hp, ha, hd⟩; exact ⟨hd, p, hp, ha⟩
    · rintro ⟨hd, p, hp, ha⟩; exact ⟨p, hp, ha, hd⟩

/-! ### The next build -/

/-- **C111 (the next build does nothing), partial.** Update the times of all products, whatever
was recorded and however sources were edited before. If no source file and no file dependency is
newer than the command, the next build starts no job, in whatever order it looks at the
transformers, and records no other times.

Missing: a transformer that an interrupted build left marked is run all the same
(`C111_interrupted`), naming some products can make others out of date (`C111_some_products`), and
a build that checks the times on the disk is not impressed (`C111_check_timestamps`). -/
theorem C111_next_build_partial (g : Graph) (wf : WF g) (har : ∀ t, g.alwaysRun t = false)
    (generated onDisk : Art → Bool) (ps : List Product) (hown : Owned g generated ps)
    (st : St) (now : Nat) (hnow : 0 < now) (hpast : ∀ a, st.ts a ≤ now)
    (hthere : OutputsThere g onDisk) (hmark : ∀ t ∈ g.transformers, st.marked t = false)
    (src : Art → Nat) (dep : FileDep → Nat)
    (hsrc : ∀ a, IsSource g a → src a ≠ 0 ∧ src a ≤ now) (hdep : ∀ d, dep d ≠ 0 ∧ dep d ≤ now)
    (o : Opts) (changed : Trafo → Bool) (hf : o.force = false) (hch : ∀ t, changed t = false)
    (clock : Nat) (evs : List Ev)
    (hh : Hist g o changed
      (beginBuild generated src dep (updateTimestamps generated onDisk now [] ps st)) clock evs) :
    ∃ st2, run g o changed
        (beginBuild generated src dep (updateTimestamps generated onDisk now [] ps st)) evs =
        some (st2, []) ∧
      ∀ a, generated a = true → onDisk a = true → st2.ts a = now := by
  obtain ⟨h1, h2, _, h4, _⟩ := C111_times generated onDisk now [] ps st
  have hset : ∀ a, generated a = true → onDisk a = true →
      (updateTimestamps generated onDisk now [] ps st).ts a = now := by
    intro a hg hd
    obtain ⟨t, ht⟩ := (hown.gen a).1 hg
    obtain ⟨p, hp, he, hn⟩ := hown.owner t a ht
    exact h1 a ⟨hg, hd, p, ⟨hp, he, Or.inl rfl⟩, hn⟩
  have hle : ∀ a, (updateTimestamps generated onDisk now [] ps st).ts a ≤ now := by
    intro a
    by_cases h : generated a = true ∧ onDisk a = true ∧ ∃ p, Chosen [] ps p ∧ a ∈ p.nodes
    · rw [h1 a h]; omega
    · rw [h2 a h]; exact hpast a
  have hfresh : ∀ t a, a ∈ g.outputs t → onDisk a = true →
      Fresh g (beginBuild generated src dep
        (updateTimestamps generated onDisk now [] ps st)).ts dep a := by
    intro t a ha hd
    have hg : generated a = true := (hown.gen a).2 ⟨t, ha⟩
    have hts : (beginBuild generated src dep
        (updateTimestamps generated onDisk now [] ps st)).ts a = now := by
      simp only [beginBuild, hg, if_true]; exact hset a hg hd
    refine ⟨by rw [hts]; omega, ?_, ?_⟩
    · intro c _
      rw [hts]
      simp only [beginBuild]
      by_cases hc : generated c = true
      · rw [if_pos hc]; exact hle c
      · rw [if_neg hc]
        exact (hsrc c fun t' ht' => hc ((hown.gen c).2 ⟨t', ht'⟩)).2
    · intro d _; rw [hts]; exact hdep d
  have hq : Quiet g (beginBuild generated src dep
      (updateTimestamps generated onDisk now [] ps st)) := by
    refine ⟨?_, ?_, ?_, ?_, ?_⟩
    · intro a ha
      have hg : ¬ generated a = true := fun h => by
        obtain ⟨t, ht⟩ := (hown.gen a).1 h; exact ha t ht
      simp only [beginBuild, hg]
      exact (hsrc a ha).1
    · intro t ht; simp only [beginBuild]; rw [h4]; exact hmark t ht
    · intro t ht a ha hal; exact hfresh t a ha ((hthere t ht).1 a ha hal)
    · intro t ht
      obtain ⟨a, ha, hd⟩ := (hthere t ht).2
      exact ⟨a, ha, hfresh t a ha hd⟩
    · intro t h; cases h
  obtain ⟨st2, hr, hts⟩ := quiet_run g wf o changed hf har hch evs _ clock hq hh
  refine ⟨st2, hr, fun a hg hd => ?_⟩
  rw [hts]
  simp only [beginBuild, hg, if_true]
  exact hset a hg hd

/-- A transformer with an output older than a source file stays that way until it is looked at. -/
theorem stale_stays (g : Graph) (wf : WF g) (o : Opts) (changed : Trafo → Bool)
    (hf : o.force = false) (t : Trafo) (a c : Art) (ha : a ∈ g.outputs t)
    (hal : g.alwaysUpdated a = true) (hc : c ∈ g.children a) (hs : IsSource g c) :
    ∀ (evs : List Ev) (st st1 : St) (clock : Nat) (l : List Trafo),
    Hist g o changed st clock evs → run g o changed st evs = some (st1, l) →
    o.selected t = true → o.rulesOnly = false →
    st.status t = .pending → st.ts a < st.ts c → st1.status t = .done → t ∈ l := by
  intro evs
  induction evs with
  | nil =>
    intro st st1 clock l _ hr _ _ hp _ hd
    cases hr
    rw [hp] at hd; cases hd
  | cons e es ih =>
    intro st st1 clock l hh hr hsel hro hp hm hd
    obtain ⟨hok, hnext⟩ := hh
    simp only [run] at hr
    cases hst : step g o changed st e with
    | none => rw [hst] at hr; cases hr
    | some r =>
      obtain ⟨st2, l1⟩ := r
      rw [hst] at hr
      simp only at hr
      cases hr2 : run g o changed st2 es with
      | none => rw [hr2] at hr; cases hr
      | some r2 =>
        obtain ⟨st3, l2⟩ := r2
        rw [hr2] at hr
        simp only [Option.some.injEq, Prod.mk.injEq] at hr
        obtain ⟨rfl, rfl⟩ := hr
        have hih := ih st2 st3 _ l2 (hnext _ _ hst) hr2 hsel hro
        cases e with
        | done t' now disk =>
          simp only [step, Option.some.injEq, Prod.mk.injEq] at hst
          obtain ⟨rfl, rfl⟩ := hst
          have hne : t ≠ t' := by
            rintro rfl; have := hok.1; rw [hp] at this; cases this
          have ha' : ¬ a ∈ g.outputs t' := fun h => hne (wf.unique t t' a ha h)
          have := hih (by simp [finishJob, finishTransformer, upd, hne, hp])
            (by simpa [finishJob, finishTransformer, ha', hs t'] using hm) hd
          simpa using this
        | start t' disk =>
          simp only [step] at hst
          cases hpr : potentiallyRun g o disk changed st t' with
          | none => rw [hpr] at hst; cases hst
          | some r3 =>
            obtain ⟨st4, b⟩ := r3
            rw [hpr] at hst
            simp only [Option.some.injEq, Prod.mk.injEq] at hst
            obtain ⟨rfl, rfl⟩ := hst
            by_cases he : t = t'
            · subst he
              have hi := C20_skipped_iff_up_to_date g wf o disk changed st st4 t b hsel hro hpr
              have : b = true := by
                cases b with
                | true => rfl
                | false =>
                  have := ((hi.1 rfl).2.2.2.1 a ha (Or.inl hal)).2.1 c hc
                  rw [effTs_noforce g o disk st t hf] at this
                  omega
              simp [this]
            · have hkeep : st4.status t = st.status t ∧ st4.ts = st.ts := by
                unfold potentiallyRun at hpr
                split at hpr
                · simp only [Option.some.injEq, Prod.mk.injEq] at hpr
                  rw [← hpr.1]
                  simp [finishTransformer, upd, he]
                · cases hme : mustExecute g o disk changed st t' with
                  | none => rw [hme] at hpr; cases hpr
                  | some r5 =>
                    obtain ⟨st5, b5⟩ := r5
                    obtain ⟨hn, _⟩ := mustExecute_spec g wf o disk changed st st5 t' b5 hme
                    have h55 : st5 = st := hn.same hf
                    subst h55
                    rw [hme] at hpr
                    cases b5 with
                    | false =>
                      simp only [Option.some.injEq, Prod.mk.injEq] at hpr
                      rw [← hpr.1]
                      simp [finishTransformer, upd, he]
                    | true =>
                      simp only [hro, Bool.false_eq_true, if_false, Option.some.injEq,
                        Prod.mk.injEq] at hpr
                      rw [← hpr.1]
                      simp [upd, he]
              have := hih (by rw [hkeep.1]; exact hp) (by rw [hkeep.2]; exact hm) hd
              simp [this]

/-- **C111 (later edits are noticed).** If a source file is edited after the command, a build that
completes runs every transformer with an always updated output made from it. -/
theorem C111_later_edit (g : Graph) (wf : WF g) (generated onDisk : Art → Bool)
    (ps : List Product) (hown : Owned g generated ps) (names : List Nat) (st : St) (now : Nat)
    (hpast : ∀ a, st.ts a ≤ now) (src : Art → Nat) (dep : FileDep → Nat)
    (t : Trafo) (a c : Art) (ha : a ∈ g.outputs t) (hal : g.alwaysUpdated a = true)
    (hc : c ∈ g.children a) (hs : IsSource g c) (hlate : now < src c)
    (o : Opts) (changed : Trafo → Bool) (hf : o.force = false) (hsel : o.selected t = true)
    (hro : o.rulesOnly = false) (clock : Nat) (evs : List Ev) (st1 : St) (l : List Trafo)
    (hh : Hist g o changed
      (beginBuild generated src dep (updateTimestamps generated onDisk now names ps st)) clock evs)
    (hrun : run g o changed
      (beginBuild generated src dep (updateTimestamps generated onDisk now names ps st)) evs =
      some (st1, l))
    (hdone : st1.status t = .done) : t ∈ l := by
  obtain ⟨h1, h2, _⟩ := C111_times generated onDisk now names ps st
  refine stale_stays g wf o changed hf t a c ha hal hc hs evs _ st1 clock l hh hrun hsel hro rfl
    ?_ hdone
  have hg : generated a = true := (hown.gen a).2 ⟨t, ha⟩
  have hgc : ¬ generated c = true := fun h => by
    obtain ⟨t', ht'⟩ := (hown.gen c).1 h; exact hs t' ht'
  simp only [beginBuild, hg, if_true, hgc]
  have : (updateTimestamps generated onDisk now names ps st).ts a ≤ now := by
    by_cases h : generated a = true ∧ onDisk a = true ∧ ∃ p, Chosen names ps p ∧ a ∈ p.nodes
    · rw [h1 a h]; omega
    · rw [h2 a h]; exact hpast a
  exact Nat.lt_of_le_of_lt this hlate

end Verif.Touch
