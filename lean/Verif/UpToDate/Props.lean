import Verif.UpToDate.Spec
/-!
# C20: up-to-date decisions are sound, and a second build does nothing
-/
namespace Verif.UpToDate

/-! ### The check itself -/

theorem childrenOk_true (g : Graph) (st : St) (a : Art) : ∀ cs,
    childrenOk g st a cs = some true → ∀ c ∈ cs, st.ts c ≤ st.ts a := by
  intro cs
  induction cs with
  | nil => intro _ c hc; cases hc
  | cons c cs ih =>
    intro h c' hc'
    simp only [childrenOk] at h
    split at h
    · cases h
    · split at h
      · cases h
      · rcases List.mem_cons.1 hc' with rfl | hc'
        · omega
        · exact ih h c' hc'

theorem childrenOk_false (g : Graph) (st : St) (a : Art) : ∀ cs,
    childrenOk g st a cs = some false → ∃ c ∈ cs, st.ts a < st.ts c := by
  intro cs
  induction cs with
  | nil => intro h; cases h
  | cons c cs ih =>
    intro h
    simp only [childrenOk] at h
    split at h
    · cases h
    · split at h
      · rename_i h2; exact ⟨c, by simp, h2⟩
      · obtain ⟨c', hc', h'⟩ := ih h
        exact ⟨c', by simp [hc'], h'⟩

theorem childrenOk_none (g : Graph) (st : St) (a : Art) : ∀ cs,
    childrenOk g st a cs = none → ∃ c ∈ cs, g.alwaysUpdated c = true ∧ st.ts c = 0 := by
  intro cs
  induction cs with
  | nil => intro h; cases h
  | cons c cs ih =>
    intro h
    simp only [childrenOk] at h
    split at h
    · rename_i h1; exact ⟨c, by simp, h1⟩
    · split at h
      · cases h
      · obtain ⟨c', hc', h'⟩ := ih h
        exact ⟨c', by simp [hc'], h'⟩

theorem fileDepsOk_iff (st : St) (a : Art) : ∀ ds,
    fileDepsOk st a ds = true ↔ ∀ d ∈ ds, st.depTs d ≠ 0 ∧ st.depTs d ≤ st.ts a := by
  intro ds
  induction ds with
  | nil => simp [fileDepsOk]
  | cons d ds ih =>
    simp only [fileDepsOk, List.mem_cons, forall_eq_or_imp]
    by_cases h0 : st.depTs d = 0
    · simp [h0]
    · rw [if_neg h0]
      by_cases h1 : st.ts a < st.depTs d
      · rw [if_pos h1]; simp; omega
      · rw [if_neg h1, ih]
        constructor
        · intro h; exact ⟨⟨h0, by omega⟩, h⟩
        · intro h; exact h.2

theorem isUpToDate_iff (g : Graph) (st : St) (a : Art) (b : Bool)
    (h : isUpToDate g st a = some b) : b = true ↔ Fresh g st.ts st.depTs a := by
  unfold isUpToDate at h
  by_cases h0 : st.ts a = 0
  · rw [if_pos h0] at h
    cases h
    simp [Fresh, h0]
  · rw [if_neg h0] at h
    cases hc : childrenOk g st a (g.children a) with
    | none => rw [hc] at h; cases h
    | some r =>
      rw [hc] at h
      cases r with
      | false =>
        cases h
        obtain ⟨c, hcm, hlt⟩ := childrenOk_false g st a _ hc
        constructor
        · intro h; cases h
        · intro hf; have := hf.2.1 c hcm; omega
      | true =>
        have hk := childrenOk_true g st a _ hc
        simp only [Option.some.injEq] at h
        rw [← h, fileDepsOk_iff]
        exact ⟨fun hd => ⟨h0, hk, hd⟩, fun hf => hf.2.2⟩

/-- `st` differs from `st0` at most in refreshed timestamps of outputs of `t`. -/
structure Near (g : Graph) (o : Opts) (t : Trafo) (st0 st : St) : Prop where
  other : ∀ a, a ∉ g.outputs t → st.ts a = st0.ts a
  same : o.force = false → st = st0
  deps : st.depTs = st0.depTs
  marked : st.marked = st0.marked
  status : st.status = st0.status

theorem near_refresh (g : Graph) (o : Opts) (disk : Art → Nat) (t : Trafo) (st0 st : St)
    (a : Art) (ha : a ∈ g.outputs t) (h : Near g o t st0 st) :
    Near g o t st0 (refresh o disk st a) := by
  unfold refresh
  by_cases hf : o.force = true
  · rw [if_pos hf]
    refine ⟨?_, ?_, h.deps, h.marked, h.status⟩
    · intro x hx
      have : x ≠ a := by rintro rfl; exact hx ha
      simp only [upd, if_neg this]
      exact h.other x hx
    · intro hff; rw [hf] at hff; cases hff
  · rw [if_neg hf]; exact h

theorem fresh_near (g : Graph) (wf : WF g) (o : Opts) (disk : Art → Nat) (t : Trafo)
    (st0 st : St) (a : Art) (ha : a ∈ g.outputs t) (h : Near g o t st0 st) :
    Fresh g (refresh o disk st a).ts (refresh o disk st a).depTs a ↔
      Fresh g (effTs g o disk st0 t) st0.depTs a := by
  have hn := near_refresh g o disk t st0 st a ha h
  have h1 : (refresh o disk st a).ts a = effTs g o disk st0 t a := by
    unfold refresh effTs
    by_cases hf : o.force = true
    · simp [hf, ha, upd]
    · have hf' : o.force = false := by cases hh : o.force <;> simp_all
      rw [if_neg hf, if_neg (by simp [hf]), h.same hf']
  have h2 : ∀ c ∈ g.children a, (refresh o disk st a).ts c = effTs g o disk st0 t c := by
    intro c hc
    have := wf.noSelf t a c ha hc
    rw [hn.other c this, effTs, if_neg (by simp [this])]
  unfold Fresh
  rw [h1, hn.deps]
  constructor
  · rintro ⟨x, y, z⟩; exact ⟨x, fun c hc => by rw [← h2 c hc]; exact y c hc, z⟩
  · rintro ⟨x, y, z⟩; exact ⟨x, fun c hc => by rw [h2 c hc]; exact y c hc, z⟩

theorem outputsLoop_spec (g : Graph) (wf : WF g) (o : Opts) (disk : Art → Nat) (t : Trafo)
    (st0 : St) : ∀ (outs : List Art) (st : St) (hA hO : Bool), (∀ a ∈ outs, a ∈ g.outputs t) →
    Near g o t st0 st →
    match outputsLoop g o disk st hA hO outs with
    | .assertion => True
    | .rerun st1 => Near g o t st0 st1 ∧
        ∃ a ∈ outs, (g.alwaysUpdated a = true ∨ o.force = true) ∧
          ¬ Fresh g (effTs g o disk st0 t) st0.depTs a
    | .ended st1 hA1 hO1 => Near g o t st0 st1 ∧
        (∀ a ∈ outs, (g.alwaysUpdated a = true ∨ o.force = true) →
          Fresh g (effTs g o disk st0 t) st0.depTs a) ∧
        ((hA1 = true ∨ hO1 = true) ↔
          (hA = true ∨ hO = true) ∨ ∃ a ∈ outs, Fresh g (effTs g o disk st0 t) st0.depTs a) := by
  intro outs
  induction outs with
  | nil =>
    intro st hA hO _ hn
    simp [outputsLoop, hn]
  | cons a as ih =>
    intro st hA hO hsub hn
    have ha : a ∈ g.outputs t := hsub a (by simp)
    have hn1 := near_refresh g o disk t st0 st a ha hn
    have hfr := fresh_near g wf o disk t st0 st a ha hn
    have hsub' : ∀ x ∈ as, x ∈ g.outputs t := fun x hx => hsub x (by simp [hx])
    cases hu : isUpToDate g (refresh o disk st a) a with
    | none =>
      have : outputsLoop g o disk st hA hO (a :: as) = .assertion := by
        simp only [outputsLoop, hu]
      rw [this]; trivial
    | some b =>
      have hb := isUpToDate_iff g _ a b hu
      rw [hfr] at hb
      cases b with
      | true =>
        have hF := hb.1 rfl
        by_cases hal : g.alwaysUpdated a = true
        · have : outputsLoop g o disk st hA hO (a :: as)
              = outputsLoop g o disk (refresh o disk st a) true hO as := by
            simp only [outputsLoop, hu, hal, if_true]
          rw [this]
          have := ih (refresh o disk st a) true hO hsub' hn1
          revert this
          cases outputsLoop g o disk (refresh o disk st a) true hO as with
          | assertion => intro _; trivial
          | rerun st1 =>
            rintro ⟨h1, x, hx, h2⟩
            exact ⟨h1, x, by simp [hx], h2⟩
          | ended st1 hA1 hO1 =>
            rintro ⟨h1, h2, h3⟩
            refine ⟨h1, ?_, ?_⟩
            · intro x hx hc
              rcases List.mem_cons.1 hx with rfl | hx
              · exact hF
              · exact h2 x hx hc
            · rw [h3]
              constructor
              · intro _; exact Or.inr ⟨a, by simp, hF⟩
              · intro _; exact Or.inl (Or.inl rfl)
        · have hal' : g.alwaysUpdated a = false := by
            cases hh : g.alwaysUpdated a <;> simp_all
          have : outputsLoop g o disk st hA hO (a :: as)
              = outputsLoop g o disk (refresh o disk st a) hA true as := by
            simp only [outputsLoop, hu, hal']
            simp
          rw [this]
          have := ih (refresh o disk st a) hA true hsub' hn1
          revert this
          cases outputsLoop g o disk (refresh o disk st a) hA true as with
          | assertion => intro _; trivial
          | rerun st1 =>
            rintro ⟨h1, x, hx, h2⟩
            exact ⟨h1, x, by simp [hx], h2⟩
          | ended st1 hA1 hO1 =>
            rintro ⟨h1, h2, h3⟩
            refine ⟨h1, ?_, ?_⟩
            · intro x hx hc
              rcases List.mem_cons.1 hx with rfl | hx
              · exact hF
              · exact h2 x hx hc
            · rw [h3]
              constructor
              · intro _; exact Or.inr ⟨a, by simp, hF⟩
              · intro _; exact Or.inl (Or.inr rfl)
      | false =>
        have hF : ¬ Fresh g (effTs g o disk st0 t) st0.depTs a := fun h => by
          have := hb.2 h; cases this
        by_cases hc : g.alwaysUpdated a = true ∨ o.force = true
        · have : outputsLoop g o disk st hA hO (a :: as) = .rerun (refresh o disk st a) := by
            simp only [outputsLoop, hu]
            rw [if_pos (by simpa using hc)]
          rw [this]
          exact ⟨hn1, a, by simp, hc, hF⟩
        · have : outputsLoop g o disk st hA hO (a :: as)
              = outputsLoop g o disk (refresh o disk st a) hA hO as := by
            simp only [outputsLoop, hu]
            rw [if_neg (by simpa using hc)]
          rw [this]
          have := ih (refresh o disk st a) hA hO hsub' hn1
          revert this
          cases outputsLoop g o disk (refresh o disk st a) hA hO as with
          | assertion => intro _; trivial
          | rerun st1 =>
            rintro ⟨h1, x, hx, h2⟩
            exact ⟨h1, x, by simp [hx], h2⟩
          | ended st1 hA1 hO1 =>
            rintro ⟨h1, h2, h3⟩
            refine ⟨h1, ?_, ?_⟩
            · intro x hx hcx
              rcases List.mem_cons.1 hx with rfl | hx
              · exact absurd hcx hc
              · exact h2 x hx hcx
            · rw [h3]
              constructor
              · rintro (h | ⟨x, hx, h⟩)
                · exact Or.inl h
                · exact Or.inr ⟨x, by simp [hx], h⟩
              · rintro (h | ⟨x, hx, h⟩)
                · exact Or.inl h
                · rcases List.mem_cons.1 hx with rfl | hx
                  · exact absurd h hF
                  · exact Or.inr ⟨x, hx, h⟩

/-- The complete condition under which a transformer is considered up to date. -/
def UpToDateT (g : Graph) (o : Opts) (disk : Art → Nat) (changed : Trafo → Bool) (st : St)
    (t : Trafo) : Prop :=
  g.alwaysRun t = false ∧ st.marked t = false ∧ changed t = false ∧
    (∀ a ∈ g.outputs t, (g.alwaysUpdated a = true ∨ o.force = true) →
      Fresh g (effTs g o disk st t) st.depTs a) ∧
    ∃ a ∈ g.outputs t, Fresh g (effTs g o disk st t) st.depTs a

theorem mustExecute_spec (g : Graph) (wf : WF g) (o : Opts) (disk : Art → Nat)
    (changed : Trafo → Bool) (st st1 : St) (t : Trafo) (b : Bool)
    (h : mustExecute g o disk changed st t = some (st1, b)) :
    Near g o t st st1 ∧ (b = false ↔ UpToDateT g o disk changed st t) := by
  have hn0 : Near g o t st st := ⟨fun _ _ => rfl, fun _ => rfl, rfl, rfl, rfl⟩
  unfold mustExecute at h
  by_cases har : g.alwaysRun t = true
  · rw [if_pos har] at h; cases h
    exact ⟨hn0, by simp [UpToDateT, har]⟩
  rw [if_neg har] at h
  have har' : g.alwaysRun t = false := by cases hh : g.alwaysRun t <;> simp_all
  by_cases hm : st.marked t = true
  · rw [if_pos hm] at h; cases h
    exact ⟨hn0, by simp [UpToDateT, hm]⟩
  rw [if_neg hm] at h
  have hm' : st.marked t = false := by cases hh : st.marked t <;> simp_all
  have hs := outputsLoop_spec g wf o disk t st (g.outputs t) st false false
    (fun _ h => h) hn0
  revert hs h
  cases outputsLoop g o disk st false false (g.outputs t) with
  | assertion => intro h; cases h
  | rerun st2 =>
    intro h hs
    cases h
    obtain ⟨h1, a, ha, hc, hF⟩ := hs
    refine ⟨h1, ?_⟩
    constructor
    · intro h; cases h
    · intro hu; exact absurd (hu.2.2.2.1 a ha hc) hF
  | ended st2 hA hO =>
    intro h hs
    obtain ⟨h1, h2, h3⟩ := hs
    by_cases hch : changed t = true
    · simp only [hch, if_true] at h
      cases h
      exact ⟨h1, by simp [UpToDateT, hch]⟩
    · have hch' : changed t = false := by cases hh : changed t <;> simp_all
      simp only [hch'] at h
      cases h
      refine ⟨h1, ?_⟩
      simp only [Bool.false_eq_true, or_self, false_or] at h3
      constructor
      · intro hb
        refine ⟨har', hm', hch', h2, h3.1 ?_⟩
        cases hA <;> cases hO <;> simp_all
      · intro hu
        have := h3.2 hu.2.2.2.2
        cases hA <;> cases hO <;> simp_all

/-- **C20 (skipping).** A transformer that the user asked to build is skipped exactly if it does
not always run, is not marked for a re-run, no change was tracked for its commands, every output
that is always updated (with `forceTimestampCheck`: every output) exists as far as qbs knows and
is not older than any of its inputs, and at least one output is. -/
theorem C20_skipped_iff_up_to_date (g : Graph) (wf : WF g) (o : Opts) (disk : Art → Nat)
    (changed : Trafo → Bool) (st st1 : St) (t : Trafo) (started : Bool)
    (hsel : o.selected t = true) (hro : o.rulesOnly = false)
    (h : potentiallyRun g o disk changed st t = some (st1, started)) :
    started = false ↔
      (g.alwaysRun t = false ∧ st.marked t = false ∧ changed t = false ∧
        (∀ a ∈ g.outputs t, (g.alwaysUpdated a = true ∨ o.force = true) →
          Fresh g (effTs g o disk st t) st.depTs a) ∧
        ∃ a ∈ g.outputs t, Fresh g (effTs g o disk st t) st.depTs a) := by
  unfold potentiallyRun at h
  rw [if_neg (by simp [hsel])] at h
  cases hm : mustExecute g o disk changed st t with
  | none => rw [hm] at h; cases h
  | some r =>
    obtain ⟨st2, b⟩ := r
    have hs := (mustExecute_spec g wf o disk changed st st2 t b hm).2
    rw [hm] at h
    cases b with
    | false =>
      simp only [Option.some.injEq, Prod.mk.injEq] at h
      rw [← h.2]
      exact hs
    | true =>
      simp only [hro, Option.some.injEq, Prod.mk.injEq] at h
      have hst : started = true := by
        have := h
        simp at this
        exact this.2
      rw [hst]
      exact hs

/-! ### Histories -/

/-- The invariant of a build without `forceTimestampCheck`. -/
structure Inv (g : Graph) (st : St) (clock : Nat) : Prop where
  sources : ∀ a, IsSource g a → st.ts a ≠ 0
  past : ∀ a, st.ts a ≤ clock
  clockPos : 0 < clock
  deps : ∀ d, st.depTs d ≠ 0 ∧ st.depTs d ≤ clock
  unmarked : ∀ t, st.status t = .done → st.marked t = false
  freshAll : ∀ t, st.status t = .done → ∀ a ∈ g.outputs t, g.alwaysUpdated a = true →
    Fresh g st.ts st.depTs a
  freshSome : ∀ t, st.status t = .done → ∃ a ∈ g.outputs t, Fresh g st.ts st.depTs a
  below : ∀ t, st.status t ≠ .pending → ∀ a ∈ g.outputs t, ∀ c ∈ g.children a, ∀ t',
    c ∈ g.outputs t' → st.status t' = .done

theorem inv_ready (g : Graph) (st : St) (clock : Nat) (h : Ready g st clock) :
    Inv g st clock := by
  refine ⟨h.sources, h.past, h.clockPos, h.deps, ?_, ?_, ?_, ?_⟩
  · intro t ht; rw [h.pending t] at ht; cases ht
  · intro t ht; rw [h.pending t] at ht; cases ht
  · intro t ht; rw [h.pending t] at ht; cases ht
  · intro t ht; exact absurd (h.pending t) ht

open Classical in
/-- No assertion fails when a transformer is looked at whose inputs are done. -/
theorem no_assert (g : Graph) (o : Opts) (disk : Art → Nat) (changed : Trafo → Bool)
    (st : St) (clock : Nat) (t : Trafo) (hi : Inv g st clock) (hf : o.force = false)
    (hb : ∀ a ∈ g.outputs t, ∀ c ∈ g.children a, ∀ t', c ∈ g.outputs t' →
      st.status t' = .done) : mustExecute g o disk changed st t ≠ none := by
  have hup : ∀ a ∈ g.outputs t, isUpToDate g st a ≠ none := by
    intro a ha h
    unfold isUpToDate at h
    split at h
    · cases h
    · cases hc : childrenOk g st a (g.children a) with
      | none =>
        obtain ⟨c, hcm, hal, h0⟩ := childrenOk_none g st a _ hc
        by_cases hs : IsSource g c
        · exact hi.sources c hs h0
        · simp only [IsSource, Classical.not_forall, Classical.not_not] at hs
          obtain ⟨t', ht'⟩ := hs
          have hd := hb a ha c hcm t' ht'
          exact (hi.freshAll t' hd c ht' hal).1 h0
      | some r => rw [hc] at h; cases r <;> cases h
  have hloop : ∀ (outs : List Art) (hA hO : Bool), (∀ a ∈ outs, a ∈ g.outputs t) →
      outputsLoop g o disk st hA hO outs ≠ .assertion := by
    intro outs
    induction outs with
    | nil => intro hA hO _ h; cases h
    | cons a as ih =>
      intro hA hO hsub h
      have hr : refresh o disk st a = st := by simp [refresh, hf]
      have h1 := hup a (hsub a (by simp))
      have hsub' : ∀ x ∈ as, x ∈ g.outputs t := fun x hx => hsub x (by simp [hx])
      simp only [outputsLoop, hr] at h
      cases hu : isUpToDate g st a with
      | none => exact h1 hu
      | some b =>
        rw [hu] at h
        cases b with
        | true =>
          simp only at h
          split at h
          · exact ih _ _ hsub' h
          · exact ih _ _ hsub' h
        | false =>
          simp only at h
          split at h
          · cases h
          · exact ih _ _ hsub' h
  unfold mustExecute
  split
  · intro h; cases h
  · split
    · intro h; cases h
    · have := hloop (g.outputs t) false false (fun _ h => h)
      revert this
      cases outputsLoop g o disk st false false (g.outputs t) with
      | assertion => intro h; exact absurd rfl h
      | rerun st1 => intro _ h; cases h
      | ended st1 a b =>
        intro _ h
        simp only at h
        split at h <;> cases h

theorem effTs_noforce (g : Graph) (o : Opts) (disk : Art → Nat) (st : St) (t : Trafo)
    (hf : o.force = false) : effTs g o disk st t = st.ts := by
  funext a; simp [effTs, hf]

theorem start_cases (g : Graph) (wf : WF g) (o : Opts) (disk : Art → Nat)
    (changed : Trafo → Bool) (st : St) (clock : Nat) (t : Trafo) (hi : Inv g st clock)
    (hf : o.force = false) (hro : o.rulesOnly = false) (hsel : ∀ t, o.selected t = true)
    (hb : ∀ a ∈ g.outputs t, ∀ c ∈ g.children a, ∀ t', c ∈ g.outputs t' →
      st.status t' = .done) :
    (potentiallyRun g o disk changed st t = some (finishTransformer st t, false) ∧
      UpToDateT g o disk changed st t) ∨
    (potentiallyRun g o disk changed st t
        = some ({ st with status := upd st.status t .running }, true) ∧
      ¬ UpToDateT g o disk changed st t) := by
  unfold potentiallyRun
  rw [if_neg (by simp [hsel])]
  cases hm : mustExecute g o disk changed st t with
  | none => exact absurd hm (no_assert g o disk changed st clock t hi hf hb)
  | some r =>
    obtain ⟨st2, b⟩ := r
    obtain ⟨hn, hs⟩ := mustExecute_spec g wf o disk changed st st2 t b hm
    have : st2 = st := hn.same hf
    subst this
    cases b with
    | false => left; exact ⟨rfl, hs.1 rfl⟩
    | true =>
      right
      refine ⟨by simp [hro], ?_⟩
      intro h; have := hs.2 h; cases this

theorem marksParent_true (g : Graph) (t t' : Trafo) (h : marksParent g t t' = true) :
    ∃ a ∈ g.outputs t, ∃ p ∈ g.outputs t', a ∈ g.children p := by
  unfold marksParent at h
  simp only [List.any_eq_true, Bool.and_eq_true, beq_iff_eq] at h
  obtain ⟨a, ha, _, p, hp, c, hc, rfl⟩ := h
  exact ⟨_, ha, p, hp, hc⟩

theorem inv_start (g : Graph) (wf : WF g) (o : Opts) (disk : Art → Nat)
    (changed : Trafo → Bool) (st st1 : St) (clock : Nat) (t : Trafo) (l : List Trafo)
    (hi : Inv g st clock)
    (hf : o.force = false) (hro : o.rulesOnly = false) (hsel : ∀ t, o.selected t = true)
    (hok : EvOk g st clock (.start t disk))
    (hs : step g o changed st (.start t disk) = some (st1, l)) : Inv g st1 clock := by
  obtain ⟨htm, hp, hb⟩ := hok
  have hne : ∀ t', st.status t' = .done → t' ≠ t := by
    rintro t' hd rfl; rw [hp] at hd; cases hd
  simp only [step] at hs
  rcases start_cases g wf o disk changed st clock t hi hf hro hsel hb with ⟨h1, hu⟩ | ⟨h1, _⟩
  · rw [h1] at hs
    simp only [Option.some.injEq, Prod.mk.injEq] at hs
    rw [← hs.1]
    have heff := effTs_noforce g o disk st t hf
    unfold UpToDateT at hu
    rw [heff] at hu
    refine ⟨hi.sources, hi.past, hi.clockPos, hi.deps, ?_, ?_, ?_, ?_⟩
    · intro t' ht'
      simp only [finishTransformer, upd] at ht' ⊢
      by_cases he : t' = t
      · simp [he]
      · rw [if_neg he] at ht' ⊢; exact hi.unmarked t' ht'
    · intro t' ht' a ha hal
      simp only [finishTransformer, upd] at ht' ⊢
      by_cases he : t' = t
      · subst he; exact hu.2.2.2.1 a ha (Or.inl hal)
      · rw [if_neg he] at ht'; exact hi.freshAll t' ht' a ha hal
    · intro t' ht'
      simp only [finishTransformer, upd] at ht' ⊢
      by_cases he : t' = t
      · subst he; exact hu.2.2.2.2
      · rw [if_neg he] at ht'; exact hi.freshSome t' ht'
    · intro t' ht' a ha c hc t'' ht''
      simp only [finishTransformer, upd] at ht' ⊢
      by_cases he2 : t'' = t
      · rw [if_pos he2]
      · rw [if_neg he2]
        by_cases he : t' = t
        · subst he; exact hb a ha c hc t'' ht''
        · rw [if_neg he] at ht'; exact hi.below t' ht' a ha c hc t'' ht''
  · rw [h1] at hs
    simp only [Option.some.injEq, Prod.mk.injEq] at hs
    rw [← hs.1]
    have hback : ∀ t', upd st.status t .running t' = .done → st.status t' = .done := by
      intro t' ht'
      simp only [upd] at ht'
      by_cases he : t' = t
      · rw [if_pos he] at ht'; cases ht'
      · rw [if_neg he] at ht'; exact ht'
    refine ⟨hi.sources, hi.past, hi.clockPos, hi.deps, ?_, ?_, ?_, ?_⟩
    · intro t' ht'; exact hi.unmarked t' (hback t' ht')
    · intro t' ht'; exact hi.freshAll t' (hback t' ht')
    · intro t' ht'; exact hi.freshSome t' (hback t' ht')
    · intro t' ht' a ha c hc t'' ht''
      have hdone : st.status t'' = .done := by
        simp only [upd] at ht'
        by_cases he : t' = t
        · subst he; exact hb a ha c hc t'' ht''
        · rw [if_neg he] at ht'; exact hi.below t' ht' a ha c hc t'' ht''
      simp only [upd]
      rw [if_neg (hne t'' hdone)]
      exact hdone

theorem mem_any (l : List Art) (a : Art) : (l.any fun x => x == a) = true ↔ a ∈ l := by
  simp

theorem inv_done (g : Graph) (wf : WF g) (st : St) (clock : Nat) (t : Trafo) (now : Nat)
    (disk : Art → Nat) (hi : Inv g st clock) (hok : EvOk g st clock (.done t now disk)) :
    Inv g (finishJob g st t now disk) now := by
  obtain ⟨hr, hclk, hfut, hw⟩ := hok
  have hbel := hi.below t (by rw [hr]; intro h; cases h)
  have hnotdone : st.status t ≠ .done := by rw [hr]; intro h; cases h
  -- the new timestamps
  have hts : ∀ a, (finishJob g st t now disk).ts a =
      if a ∈ g.outputs t then (if g.alwaysUpdated a then now else disk a) else st.ts a := by
    intro a
    simp only [finishJob, finishTransformer]
    by_cases ha : a ∈ g.outputs t
    · rw [if_pos ((mem_any _ _).2 ha), if_pos ha]
    · rw [if_neg (fun h => ha ((mem_any _ _).1 h)), if_neg ha]
  have hdeps : (finishJob g st t now disk).depTs = st.depTs := rfl
  have hstat : ∀ t', (finishJob g st t now disk).status t' =
      if t' = t then .done else st.status t' := by
    intro t'; simp only [finishJob, finishTransformer, upd]
  have hmark : ∀ t', t' ≠ t → (finishJob g st t now disk).marked t' =
      (marksParent g t t' || st.marked t') := by
    intro t' h; simp only [finishJob, finishTransformer, upd]; rw [if_neg h]
  -- children of a transformer that is no longer pending keep their time
  have hkeep : ∀ t', st.status t' ≠ .pending → ∀ a ∈ g.outputs t', ∀ c ∈ g.children a,
      c ∉ g.outputs t := by
    intro t' hp a ha c hc hct
    exact hnotdone (hi.below t' hp a ha c hc t hct)
  -- freshness of the other finished transformers is kept
  have hfr : ∀ t', st.status t' = .done → ∀ a ∈ g.outputs t', Fresh g st.ts st.depTs a →
      Fresh g (finishJob g st t now disk).ts (finishJob g st t now disk).depTs a := by
    intro t' hd a ha hF
    have hat : a ∉ g.outputs t := by
      intro h; have := wf.unique t t' a h ha; subst this; exact hnotdone hd
    have hp : st.status t' ≠ .pending := by rw [hd]; intro h; cases h
    refine ⟨?_, ?_, ?_⟩
    · rw [hts, if_neg hat]; exact hF.1
    · intro c hc
      rw [hts, hts, if_neg hat, if_neg (hkeep t' hp a ha c hc)]
      exact hF.2.1 c hc
    · intro d hd'
      rw [hdeps, hts, if_neg hat]; exact hF.2.2 d hd'
  have hrp : st.status t ≠ .pending := by rw [hr]; intro h; cases h
  have hown : ∀ a ∈ g.outputs t, g.alwaysUpdated a = true →
      Fresh g (finishJob g st t now disk).ts (finishJob g st t now disk).depTs a := by
    intro a ha hal
    have hta : (finishJob g st t now disk).ts a = now := by
      rw [hts, if_pos ha, if_pos hal]
    refine ⟨?_, ?_, ?_⟩
    · rw [hta]; have := hi.clockPos; omega
    · intro c hc
      rw [hta, hts, if_neg (hkeep t hrp a ha c hc)]
      exact Nat.le_trans (hi.past c) hclk
    · intro d _
      rw [hta, hdeps]
      exact ⟨(hi.deps d).1, Nat.le_trans (hi.deps d).2 hclk⟩
  refine ⟨?_, ?_, ?_, ?_, ?_, ?_, ?_, ?_⟩
  · intro a hs
    rw [hts, if_neg (hs t)]; exact hi.sources a hs
  · intro a
    rw [hts]
    by_cases ha : a ∈ g.outputs t
    · rw [if_pos ha]
      by_cases hal : g.alwaysUpdated a = true
      · rw [if_pos hal]; exact Nat.le_refl _
      · rw [if_neg hal]; exact hfut a ha
    · rw [if_neg ha]; exact Nat.le_trans (hi.past a) hclk
  · have := hi.clockPos; omega
  · intro d; rw [hdeps]; exact ⟨(hi.deps d).1, Nat.le_trans (hi.deps d).2 hclk⟩
  · intro t' ht'
    rw [hstat] at ht'
    by_cases he : t' = t
    · subst he; simp [finishJob, finishTransformer, upd]
    · rw [if_neg he] at ht'
      rw [hmark t' he, hi.unmarked t' ht', Bool.or_false]
      cases hmp : marksParent g t t' with
      | false => rfl
      | true =>
        obtain ⟨a, ha, p, hp, hc⟩ := marksParent_true g t t' hmp
        exact absurd ha (hkeep t' (by rw [ht']; intro h; cases h) p hp a hc)
  · intro t' ht' a ha hal
    rw [hstat] at ht'
    by_cases he : t' = t
    · subst he; exact hown a ha hal
    · rw [if_neg he] at ht'
      exact hfr t' ht' a ha (hi.freshAll t' ht' a ha hal)
  · intro t' ht'
    rw [hstat] at ht'
    by_cases he : t' = t
    · subst he
      rcases hw with ⟨a, ha, hal⟩ | ⟨a, ha, hF⟩
      · exact ⟨a, ha, hown a ha hal⟩
      · by_cases hal : g.alwaysUpdated a = true
        · exact ⟨a, ha, hown a ha hal⟩
        · refine ⟨a, ha, ?_⟩
          have hta : (finishJob g st t' now disk).ts a = disk a := by
            rw [hts, if_pos ha, if_neg hal]
          obtain ⟨h0, h1, h2⟩ := hF
          simp only [if_pos] at h0 h1 h2
          refine ⟨by rw [hta]; exact h0, ?_, ?_⟩
          · intro c hc
            have hne : c ≠ a := by
              rintro rfl; exact wf.noSelf t' c c ha hc ha
            have := h1 c hc
            rw [if_neg hne] at this
            rw [hta, hts, if_neg (hkeep t' hrp a ha c hc)]
            exact this
          · intro d hd; rw [hta, hdeps]; exact h2 d hd
    · rw [if_neg he] at ht'
      obtain ⟨a, ha, hF⟩ := hi.freshSome t' ht'
      exact ⟨a, ha, hfr t' ht' a ha hF⟩
  · intro t' ht' a ha c hc t'' ht''
    rw [hstat] at ht' ⊢
    by_cases he2 : t'' = t
    · rw [if_pos he2]
    · rw [if_neg he2]
      by_cases he : t' = t
      · subst he; exact hbel a ha c hc t'' ht''
      · rw [if_neg he] at ht'; exact hi.below t' ht' a ha c hc t'' ht''

/-- The clock at the end of a history. -/
def clockEnd : Nat → List Ev → Nat
  | c, [] => c
  | c, e :: es => clockEnd (clockAfter c e) es

theorem inv_run (g : Graph) (wf : WF g) (o : Opts) (changed : Trafo → Bool)
    (hf : o.force = false) (hro : o.rulesOnly = false) (hsel : ∀ t, o.selected t = true) :
    ∀ (evs : List Ev) (st : St) (clock : Nat), Inv g st clock → Hist g o changed st clock evs →
    ∃ st1 l, run g o changed st evs = some (st1, l) ∧ Inv g st1 (clockEnd clock evs) := by
  intro evs
  induction evs with
  | nil => intro st clock hi _; exact ⟨st, [], rfl, hi⟩
  | cons e es ih =>
    intro st clock hi hh
    obtain ⟨hok, hnext⟩ := hh
    have hstep : ∃ st1 l, step g o changed st e = some (st1, l) ∧
        Inv g st1 (clockAfter clock e) := by
      cases e with
      | start t disk =>
        have hb := hok.2.2
        rcases start_cases g wf o disk changed st clock t hi hf hro hsel hb with
          ⟨h1, _⟩ | ⟨h1, _⟩
        · have hs : step g o changed st (.start t disk)
              = some (finishTransformer st t, []) := by simp [step, h1]
          exact ⟨_, _, hs, inv_start g wf o disk changed st _ clock t _ hi hf hro hsel hok hs⟩
        · have hs : step g o changed st (.start t disk)
              = some ({ st with status := upd st.status t .running }, [t]) := by simp [step, h1]
          exact ⟨_, _, hs, inv_start g wf o disk changed st _ clock t _ hi hf hro hsel hok hs⟩
      | done t now disk =>
        exact ⟨_, _, rfl, inv_done g wf st clock t now disk hi hok⟩
    obtain ⟨st1, l, hs, hi1⟩ := hstep
    obtain ⟨st2, l2, hr, hi2⟩ := ih st1 (clockAfter clock e) hi1 (hnext st1 l hs)
    refine ⟨st2, l ++ l2, ?_, hi2⟩
    simp only [run, hs, hr]

/-- **C20 (no internal error).** In a normal build the check "an input that is always updated has
a time" never fails, whatever the history. -/
theorem C20_no_assertion (g : Graph) (wf : WF g) (o : Opts) (changed : Trafo → Bool)
    (hf : o.force = false) (hro : o.rulesOnly = false) (hsel : ∀ t, o.selected t = true)
    (st : St) (clock : Nat) (hr : Ready g st clock) (evs : List Ev)
    (hh : Hist g o changed st clock evs) : run g o changed st evs ≠ none := by
  obtain ⟨st1, l, h, _⟩ := inv_run g wf o changed hf hro hsel evs st clock (inv_ready g st clock hr) hh
  rw [h]; intro h; cases h

/-- The state a second build starts from: what the first one recorded, nothing looked at yet. -/
def nextBuild (st : St) : St := { st with status := fun _ => .pending }

/-- All transformers are up to date as recorded, and no job is running. -/
structure Quiet (g : Graph) (st : St) : Prop where
  sources : ∀ a, IsSource g a → st.ts a ≠ 0
  unmarked : ∀ t ∈ g.transformers, st.marked t = false
  freshAll : ∀ t ∈ g.transformers, ∀ a ∈ g.outputs t, g.alwaysUpdated a = true →
    Fresh g st.ts st.depTs a
  freshSome : ∀ t ∈ g.transformers, ∃ a ∈ g.outputs t, Fresh g st.ts st.depTs a
  idle : ∀ t, st.status t ≠ .running

theorem quiet_not_none (g : Graph) (wf : WF g) (o : Opts) (disk : Art → Nat)
    (changed : Trafo → Bool) (st : St) (t : Trafo) (hq : Quiet g st) (hf : o.force = false) :
    mustExecute g o disk changed st t ≠ none := by
  -- reuse `no_assert` in a state where everything counts as done
  have key : ∀ a, ∀ c ∈ g.children a, ¬ (g.alwaysUpdated c = true ∧ st.ts c = 0) := by
    intro a c _ ⟨hal, h0⟩
    by_cases hs : IsSource g c
    · exact hq.sources c hs h0
    · simp only [IsSource, Classical.not_forall, Classical.not_not] at hs
      obtain ⟨t', ht'⟩ := hs
      have hm : t' ∈ g.transformers := wf.known t' (fun h => by rw [h] at ht'; cases ht')
      exact (hq.freshAll t' hm c ht' hal).1 h0
  have hup : ∀ a, isUpToDate g st a ≠ none := by
    intro a h
    unfold isUpToDate at h
    split at h
    · cases h
    · cases hc : childrenOk g st a (g.children a) with
      | none =>
        obtain ⟨c, hcm, hh⟩ := childrenOk_none g st a _ hc
        exact key a c hcm hh
      | some r => rw [hc] at h; cases r <;> cases h
  have hloop : ∀ (outs : List Art) (hA hO : Bool),
      outputsLoop g o disk st hA hO outs ≠ .assertion := by
    intro outs
    induction outs with
    | nil => intro hA hO h; cases h
    | cons a as ih =>
      intro hA hO h
      have hr : refresh o disk st a = st := by simp [refresh, hf]
      simp only [outputsLoop, hr] at h
      cases hu : isUpToDate g st a with
      | none => exact hup a hu
      | some b =>
        rw [hu] at h
        cases b with
        | true =>
          simp only at h
          split at h
          · exact ih _ _ h
          · exact ih _ _ h
        | false =>
          simp only at h
          split at h
          · cases h
          · exact ih _ _ h
  unfold mustExecute
  split
  · intro h; cases h
  · split
    · intro h; cases h
    · have := hloop (g.outputs t) false false
      revert this
      cases outputsLoop g o disk st false false (g.outputs t) with
      | assertion => intro h; exact absurd rfl h
      | rerun st1 => intro _ h; cases h
      | ended st1 a b =>
        intro _ h
        simp only at h
        split at h <;> cases h

theorem quiet_start (g : Graph) (wf : WF g) (o : Opts) (disk : Art → Nat)
    (changed : Trafo → Bool) (st : St) (t : Trafo) (hq : Quiet g st) (hf : o.force = false)
    (har : ∀ t, g.alwaysRun t = false) (hch : ∀ t, changed t = false)
    (ht : t ∈ g.transformers) :
    potentiallyRun g o disk changed st t = some (finishTransformer st t, false) := by
  unfold potentiallyRun
  by_cases hsel : o.selected t = false
  · rw [if_pos hsel]
  rw [if_neg hsel]
  cases hm : mustExecute g o disk changed st t with
  | none => exact absurd hm (quiet_not_none g wf o disk changed st t hq hf)
  | some r =>
    obtain ⟨st2, b⟩ := r
    obtain ⟨hn, hs⟩ := mustExecute_spec g wf o disk changed st st2 t b hm
    have : st2 = st := hn.same hf
    subst this
    have : b = false := by
      apply hs.2
      unfold UpToDateT
      rw [effTs_noforce g o disk st2 t hf]
      refine ⟨har t, hq.unmarked t ht, hch t, ?_, hq.freshSome t ht⟩
      intro a ha hc
      rcases hc with hc | hc
      · exact hq.freshAll t ht a ha hc
      · rw [hf] at hc; cases hc
    subst this
    rfl

theorem quiet_finish (g : Graph) (st : St) (t : Trafo) (hq : Quiet g st) :
    Quiet g (finishTransformer st t) := by
  refine ⟨hq.sources, ?_, hq.freshAll, hq.freshSome, ?_⟩
  · intro t' ht'
    simp only [finishTransformer, upd]
    by_cases he : t' = t
    · rw [if_pos he]
    · rw [if_neg he]; exact hq.unmarked t' ht'
  · intro t'
    simp only [finishTransformer, upd]
    by_cases he : t' = t
    · rw [if_pos he]; intro h; cases h
    · rw [if_neg he]; exact hq.idle t'

theorem quiet_run (g : Graph) (wf : WF g) (o : Opts) (changed : Trafo → Bool)
    (hf : o.force = false) (har : ∀ t, g.alwaysRun t = false) (hch : ∀ t, changed t = false) :
    ∀ (evs : List Ev) (st : St) (clock : Nat), Quiet g st → Hist g o changed st clock evs →
    ∃ st1, run g o changed st evs = some (st1, []) ∧ st1.ts = st.ts := by
  intro evs
  induction evs with
  | nil => intro st clock _ _; exact ⟨st, rfl, rfl⟩
  | cons e es ih =>
    intro st clock hq hh
    obtain ⟨hok, hnext⟩ := hh
    cases e with
    | done t now disk => exact absurd hok.1 (hq.idle t)
    | start t disk =>
      have hs : step g o changed st (.start t disk) = some (finishTransformer st t, []) := by
        simp [step, quiet_start g wf o disk changed st t hq hf har hch hok.1]
      obtain ⟨st2, hr, hts⟩ := ih _ _ (quiet_finish g st t hq) (hnext _ _ hs)
      exact ⟨st2, by simp only [run, hs, hr]; simp, by rw [hts]; rfl⟩

/-- **C20 (second build).** Take any complete, successful build, in any order of events the
executor allows. If nothing changes afterwards, the next build starts no job at all, in any
order, with any selection of targets; and no recorded time changes.

Assumptions besides `WF` and `Ready`: no transformer has `alwaysRun`, the change tracker reports
nothing in the second build, and neither build uses `forceTimestampCheck`. The histories contain
the assumption that the clock does not run backwards and that commands write their outputs. -/
theorem C20_second_build_does_nothing (g : Graph) (wf : WF g) (har : ∀ t, g.alwaysRun t = false)
    (o o2 : Opts) (changed changed2 : Trafo → Bool)
    (hf : o.force = false) (hro : o.rulesOnly = false) (hsel : ∀ t, o.selected t = true)
    (hf2 : o2.force = false) (hch2 : ∀ t, changed2 t = false)
    (st st1 : St) (clock clock2 : Nat) (evs evs2 : List Ev) (l : List Trafo)
    (hr : Ready g st clock) (hh : Hist g o changed st clock evs)
    (hrun : run g o changed st evs = some (st1, l)) (hdone : Complete g st1)
    (hh2 : Hist g o2 changed2 (nextBuild st1) clock2 evs2) :
    ∃ st2, run g o2 changed2 (nextBuild st1) evs2 = some (st2, []) ∧ st2.ts = st1.ts := by
  obtain ⟨st1', l', h, hi⟩ :=
    inv_run g wf o changed hf hro hsel evs st clock (inv_ready g st clock hr) hh
  rw [hrun] at h
  cases h
  have hq : Quiet g (nextBuild st1) :=
    ⟨hi.sources, fun t ht => hi.unmarked t (hdone t ht),
      fun t ht => hi.freshAll t (hdone t ht), fun t ht => hi.freshSome t (hdone t ht),
      fun t h => by cases h⟩
  exact quiet_run g wf o2 changed2 hf2 har hch2 evs2 (nextBuild st1) clock2 hq hh2

/-- The transformers whose inputs were rebuilt are marked and stay marked until looked at. -/
theorem marked_stays (g : Graph) (wf : WF g) (o : Opts) (changed : Trafo → Bool)
    (t : Trafo) : ∀ (evs : List Ev) (st st1 : St) (clock : Nat) (l : List Trafo),
    Hist g o changed st clock evs → run g o changed st evs = some (st1, l) →
    o.selected t = true → o.rulesOnly = false →
    st.status t = .pending → st.marked t = true → st1.status t = .done → t ∈ l := by
  intro evs
  induction evs with
  | nil =>
    intro st st1 clock l _ hr _ _ hp _ hd
    cases hr
    rw [hp] at hd; cases hd
  | cons e es ih =>
    intro st st1 clock l hh hr hsel hro hp hm hd
    obtain ⟨hok, hnext⟩ := hh
    simp only [run] at hr
    cases hs : step g o changed st e with
    | none => rw [hs] at hr; cases hr
    | some r =>
      obtain ⟨st2, l1⟩ := r
      rw [hs] at hr
      simp only at hr
      cases hr2 : run g o changed st2 es with
      | none => rw [hr2] at hr; cases hr
      | some r2 =>
        obtain ⟨st3, l2⟩ := r2
        rw [hr2] at hr
        simp only [Option.some.injEq, Prod.mk.injEq] at hr
        obtain ⟨rfl, rfl⟩ := hr
        have hih := ih st2 st3 _ l2 (hnext _ _ hs) hr2 hsel hro
        cases e with
        | done t' now disk =>
          simp only [step, Option.some.injEq, Prod.mk.injEq] at hs
          obtain ⟨rfl, rfl⟩ := hs
          have hne : t ≠ t' := by
            rintro rfl; have := hok.1; rw [hp] at this; cases this
          have := hih (by simp [finishJob, finishTransformer, upd, hne, hp])
            (by simp [finishJob, finishTransformer, upd, hne, hm]) hd
          simpa using this
        | start t' disk =>
          simp only [step] at hs
          cases hpr : potentiallyRun g o disk changed st t' with
          | none => rw [hpr] at hs; cases hs
          | some r3 =>
            obtain ⟨st4, b⟩ := r3
            rw [hpr] at hs
            simp only [Option.some.injEq, Prod.mk.injEq] at hs
            obtain ⟨rfl, rfl⟩ := hs
            by_cases he : t = t'
            · subst he
              have hi := C20_skipped_iff_up_to_date g wf o disk changed st st4 t b hsel hro hpr
              have : b = true := by
                cases b with
                | true => rfl
                | false => have := (hi.1 rfl).2.1; rw [hm] at this; cases this
              simp [this]
            · -- another transformer was looked at
              have hkeep : st4.status t = st.status t ∧ st4.marked t = st.marked t := by
                unfold potentiallyRun at hpr
                split at hpr
                · simp only [Option.some.injEq, Prod.mk.injEq] at hpr
                  rw [← hpr.1]
                  simp [finishTransformer, upd, he]
                · cases hme : mustExecute g o disk changed st t' with
                  | none => rw [hme] at hpr; cases hpr
                  | some r5 =>
                    obtain ⟨st5, b5⟩ := r5
                    obtain ⟨hn, _⟩ := mustExecute_spec g wf o disk changed st st5 t' b5 hme
                    rw [hme] at hpr
                    cases b5 with
                    | false =>
                      simp only [Option.some.injEq, Prod.mk.injEq] at hpr
                      rw [← hpr.1]
                      simp [finishTransformer, upd, he, hn.status, hn.marked]
                    | true =>
                      simp only [hro, Bool.false_eq_true, if_false, Option.some.injEq,
                        Prod.mk.injEq] at hpr
                      rw [← hpr.1]
                      simp [upd, he, hn.status, hn.marked]
              have := hih (by rw [hkeep.1]; exact hp) (by rw [hkeep.2]; exact hm) hd
              simp [this]

/-- **C20 (propagation).** If in a build the job of `t` finishes and one of its always updated
outputs is an input of an output of `t'`, which has not been looked at yet, then a job is started
for `t'` before the build is complete. -/
theorem C20_rebuilt_input_reruns (g : Graph) (wf : WF g) (o : Opts) (changed : Trafo → Bool)
    (hsel : ∀ t, o.selected t = true) (hro : o.rulesOnly = false)
    (t t' : Trafo) (now : Nat) (disk : Art → Nat) (a p : Art)
    (ha : a ∈ g.outputs t) (hal : g.alwaysUpdated a = true) (hp : p ∈ g.outputs t')
    (hc : a ∈ g.children p) (st st1 : St) (clock : Nat) (evs : List Ev) (l : List Trafo)
    (hpend : st.status t' = .pending)
    (hh : Hist g o changed st clock (.done t now disk :: evs))
    (hrun : run g o changed st (.done t now disk :: evs) = some (st1, l))
    (hdone : st1.status t' = .done) : t' ∈ l := by
  obtain ⟨hok, hnext⟩ := hh
  have hne : t' ≠ t := by rintro rfl; have := hok.1; rw [hpend] at this; cases this
  simp only [run, step] at hrun
  cases hr2 : run g o changed (finishJob g st t now disk) evs with
  | none => rw [hr2] at hrun; cases hrun
  | some r =>
    obtain ⟨st2, l2⟩ := r
    rw [hr2] at hrun
    simp only [Option.some.injEq, Prod.mk.injEq, List.nil_append] at hrun
    obtain ⟨rfl, rfl⟩ := hrun
    refine marked_stays g wf o changed t' evs _ st2 _ l2 (hnext _ _ rfl) hr2 (hsel t') hro ?_ ?_
      hdone
    · simp [finishJob, finishTransformer, upd, hne, hpend]
    · have hmp : marksParent g t t' = true := by
        unfold marksParent
        simp only [List.any_eq_true, Bool.and_eq_true, beq_iff_eq]
        exact ⟨a, ha, hal, p, hp, a, hc, rfl⟩
      simp [finishJob, finishTransformer, upd, hne, hmp]

/-! ### A concrete case: source 0 -> object 1 (transformer 0) -> program 2 (transformer 1) -/

/-- source 0, object 1 made by transformer 0, program 2 made by transformer 1. -/
def exG : Graph where
  alwaysUpdated := fun _ => true
  children := fun a => if a = 1 then [0] else if a = 2 then [1] else []
  fileDeps := fun _ => []
  transformers := [0, 1]
  outputs := fun t => if t = 0 then [1] else if t = 1 then [2] else []
  alwaysRun := fun _ => false

def exO : Opts := { force := false, rulesOnly := false, selected := fun _ => true }

/-- First build: the source has time 5, nothing was built. -/
def exSt : St where
  ts := fun a => if a = 1 ∨ a = 2 then 0 else 5
  depTs := fun _ => 1
  marked := fun _ => false
  status := fun _ => .pending

def exEvs : List Ev :=
  [.start 0 (fun _ => 0), .done 0 7 (fun _ => 7), .start 1 (fun _ => 0), .done 1 9 (fun _ => 9)]

theorem exG_wf : WF exG := by
  have hout : ∀ t a, a ∈ exG.outputs t ↔ (t = 0 ∧ a = 1) ∨ (t = 1 ∧ a = 2) := by
    intro t a
    simp only [exG]
    by_cases h0 : t = 0
    · subst h0; simp
    · rw [if_neg h0]
      by_cases h1 : t = 1
      · subst h1; simp
      · simp [h0, h1]
  refine ⟨?_, ?_, ?_, ?_⟩
  · intro t t' a h h'
    rw [hout] at h h'
    grind
  · intro t ht
    simp only [exG, List.mem_cons, List.not_mem_nil, or_false] at ht
    rcases ht with rfl | rfl <;> simp [exG]
  · intro t ht
    simp only [exG] at ht ⊢
    by_cases h0 : t = 0
    · simp [h0]
    · by_cases h1 : t = 1
      · simp [h1]
      · simp [h0, h1] at ht
  · intro t a c ha hc hct
    rw [hout] at ha hct
    simp only [exG] at hc
    rcases ha with ⟨rfl, rfl⟩ | ⟨rfl, rfl⟩
    · simp at hc; grind
    · simp at hc; grind

theorem exReady : Ready exG exSt 6 := by
  refine ⟨fun _ => rfl, ?_, ?_, by decide, fun _ => by simp [exSt]⟩
  · intro a hs
    have h1 : a ≠ 1 := by rintro rfl; exact hs 0 (by simp [exG])
    have h2 : a ≠ 2 := by rintro rfl; exact hs 1 (by simp [exG])
    simp [exSt, h1, h2]
  · intro a
    simp only [exSt]
    split <;> omega

/-- The first build runs both jobs in order, and it is a possible history. -/
theorem exHist : Hist exG exO (fun _ => false) exSt 6 exEvs := by
  have hout : ∀ t a, a ∈ exG.outputs t ↔ (t = 0 ∧ a = 1) ∨ (t = 1 ∧ a = 2) := by
    intro t a
    simp only [exG]
    by_cases h0 : t = 0
    · subst h0; simp
    · rw [if_neg h0]
      by_cases h1 : t = 1
      · subst h1; simp
      · simp [h0, h1]
  refine ⟨⟨by simp [exG], rfl, ?_⟩, ?_⟩
  · intro a ha c hc t' ht'
    rw [hout] at ha ht'
    rcases ha with ⟨_, rfl⟩ | ⟨h, _⟩
    · simp [exG] at hc; grind
    · grind
  intro st1 l h1
  cases h1
  refine ⟨⟨rfl, by decide, by intro a ha; simp, Or.inl ⟨1, by simp [exG], rfl⟩⟩, ?_⟩
  intro st2 l2 h2
  cases h2
  refine ⟨⟨by simp [exG], rfl, ?_⟩, ?_⟩
  · intro a ha c hc t' ht'
    rw [hout] at ha ht'
    rcases ha with ⟨h, _⟩ | ⟨_, rfl⟩
    · grind
    · simp [exG] at hc
      have : t' = 0 := by grind
      subst this
      rfl
  intro st3 l3 h3
  cases h3
  refine ⟨⟨rfl, by decide, by intro a ha; simp, Or.inl ⟨2, by simp [exG], rfl⟩⟩, ?_⟩
  intro st4 l4 _
  trivial

/-- The hypotheses of the theorems above are met by the first build, which runs both jobs, and
its result is complete. -/
example : WF exG ∧ Ready exG exSt 6 ∧ Hist exG exO (fun _ => false) exSt 6 exEvs ∧
    (∃ st1, run exG exO (fun _ => false) exSt exEvs = some (st1, [0, 1]) ∧
      Complete exG st1 ∧ st1.ts 1 = 7 ∧ st1.ts 2 = 9) :=
  ⟨exG_wf, exReady, exHist, _, rfl, by
    intro t ht
    simp only [exG, List.mem_cons, List.not_mem_nil, or_false] at ht
    rcases ht with rfl | rfl <;> rfl, rfl, rfl⟩

/-- And the second build starts nothing. -/
example : ∃ st1, run exG exO (fun _ => false) exSt exEvs = some (st1, [0, 1]) ∧
    (run exG exO (fun _ => false) (nextBuild st1)
      [.start 0 (fun _ => 7), .start 1 (fun _ => 9)]).map (·.2) = some [] :=
  ⟨_, rfl, rfl⟩

/-! ### Findings -/

/-- One transformer with two outputs that are not always updated. -/
def exG2 : Graph where
  alwaysUpdated := fun a => a == 0
  children := fun a => if a = 1 ∨ a = 2 then [0] else []
  fileDeps := fun _ => []
  transformers := [0]
  outputs := fun t => if t = 0 then [1, 2] else []
  alwaysRun := fun _ => false

/-- **C20 (finding).** With `alwaysUpdated: false` one output that is up to date hides another
one that is older than the input: the transformer is skipped. (The comment in the code
acknowledges this.) -/
theorem C20_up_to_date_output_hides_another :
    ∃ st, st.ts 2 < st.ts 0 ∧
      (potentiallyRun exG2 exO (fun _ => 0) (fun _ => false) st 0).map (·.2) = some false :=
  ⟨{ ts := fun a => if a = 0 then 5 else if a = 1 then 6 else 4, depTs := fun _ => 1,
     marked := fun _ => false, status := fun _ => .pending }, by decide, rfl⟩

/-- **C20 (finding).** An output that was deleted after the build is not noticed unless
`forceTimestampCheck` is used. -/
theorem C20_deleted_output_unnoticed :
    ∃ st, (potentiallyRun exG exO (fun _ => 0) (fun _ => false) st 0).map (·.2) = some false ∧
      (potentiallyRun exG { exO with force := true } (fun _ => 0) (fun _ => false) st 0).map (·.2)
        = some true :=
  ⟨{ ts := fun a => if a = 0 then 5 else 7, depTs := fun _ => 1,
     marked := fun _ => false, status := fun _ => .pending }, rfl, rfl⟩

/-- **C20 (finding).** If only rules are executed and a generated input has never been built
while the output it belongs to has, the assertion about the input's time fails (in qbs: an
internal error). -/
theorem C20_rules_only_can_assert :
    ∃ st, run exG { exO with rulesOnly := true } (fun _ => false) st
      [.start 0 (fun _ => 0), .start 1 (fun _ => 0)] = none ∧ Ready exG st 9 :=
  ⟨{ ts := fun a => if a = 1 then 0 else if a = 2 then 7 else 5, depTs := fun _ => 1,
     marked := fun _ => false, status := fun _ => .pending }, rfl, by
    refine ⟨fun _ => rfl, ?_, ?_, by decide, fun _ => by simp⟩
    · intro a hs
      have h1 : a ≠ 1 := by rintro rfl; exact hs 0 (by simp [exG])
      simp only [if_neg h1]
      split <;> omega
    · intro a
      dsimp only
      split
      · omega
      · split <;> omega⟩

end Verif.UpToDate
