import Verif.Job.Spec
/-!
# What the automaton's acceptance means for a log
-/
namespace Verif.Job

def isRun : Obs → Bool
  | .run _ => true
  | _ => false

def isFinished : Obs → Bool
  | .finished _ => true
  | _ => false

def startOf : Obs → Option Nat
  | .start i => some i
  | _ => none

/-- What was seen since the last `run`, latest first. -/
def sinceRun (l : List Obs) : List Obs := l.takeWhile (fun o => !isRun o)

/-- The commands of the last `run`. -/
def lastRun : List Obs → Option (List Cmd)
  | [] => none
  | .run cs :: _ => some cs
  | _ :: l => lastRun l

/-- The commands started since the last `run`, in order. -/
def startedSince (l : List Obs) : List Nat := ((sinceRun l).filterMap startOf).reverse

def numRuns (l : List Obs) : Nat := l.countP isRun
def numFinished (l : List Obs) : Nat := l.countP isFinished

/-- An exit code that means success for one of the commands. -/
def goodExit (cs : List Cmd) (code : Nat) : Prop :=
  ∃ (i : Nat) (c : Cmd), cs[i]? = some c ∧ c.kind = .process ∧ code ≤ c.maxExit ∧ c.saveError = false

structure Facts (l : List Obs) (m : Mon) : Prop where
  counts : numRuns l = numFinished l + (if m.phase = .idle then 0 else 1)
  noAssert : Obs.assertion ∉ l
  order : ∃ k, startedSince l = List.range k ∧ ∀ cs, lastRun l = some cs → k ≤ cs.length
  fresh : ∀ cs, m.phase = .fresh cs → sinceRun l = [] ∧ lastRun l = some cs ∧ m.canceled = false
  busy : ∀ cs i out, m.phase = .busy cs i out →
    lastRun l = some cs ∧ i < cs.length ∧ startedSince l = List.range (i + 1) ∧
    (Obs.cancel ∈ sinceRun l → m.canceled = true) ∧
    (∀ o ∈ sinceRun l, isFinished o = false) ∧
    ((Obs.notStarted ∈ sinceRun l ∨ Obs.setupFailed ∈ sinceRun l) →
      out = some false ∧ hasKind .process cs i) ∧
    (∀ code cr, Obs.exit code cr ∈ sinceRun l → goodExit cs code ∨
      (out = some false ∧ hasKind .process cs i))

theorem processOk_false {cs : List Cmd} {i : Nat} {out : Option Bool} (h : out = some false)
    (hk : hasKind .process cs i) : processOk cs i out = false := by
  unfold hasKind at hk
  cases hc : cs[i]? with
  | none => simp [hc] at hk
  | some c => simp [hc] at hk; simp [processOk, hc, hk, h]

theorem goodExit_of {cs : List Cmd} {i code : Nat} (hk : hasKind .process cs i)
    (h : exitOk cs i code = true) : goodExit cs code := by
  unfold hasKind at hk
  cases hc : cs[i]? with
  | none => simp [hc] at hk
  | some c =>
    simp [hc] at hk
    simp [exitOk, hc] at h
    exact ⟨i, c, hc, hk, h.1, h.2⟩

theorem sinceRun_cons {o : Obs} (h : isRun o = false) (l : List Obs) :
    sinceRun (o :: l) = o :: sinceRun l := by
  simp [sinceRun, List.takeWhile_cons, h]

theorem lastRun_cons {o : Obs} (h : isRun o = false) (l : List Obs) :
    lastRun (o :: l) = lastRun l := by
  cases o <;> first | rfl | simp [isRun] at h

theorem startedSince_cons {o : Obs} (h : isRun o = false) (h2 : startOf o = none)
    (l : List Obs) : startedSince (o :: l) = startedSince l := by
  simp [startedSince, sinceRun_cons h, List.filterMap_cons, h2]

/-- An observation that is none of `run`, `start`, `finished`. -/
theorem Facts.plain {l : List Obs} {m m' : Mon} {o : Obs} (h : Facts l m) (hr : isRun o = false)
    (hs : startOf o = none) (hf : isFinished o = false) (hna : o ≠ .assertion)
    (hidle : m'.phase = .idle ↔ m.phase = .idle)
    (hfresh : ∀ cs, m'.phase ≠ .fresh cs)
    (hbusy : ∀ cs i out', m'.phase = .busy cs i out' → ∃ out, m.phase = .busy cs i out ∧
      (m.canceled = true → m'.canceled = true) ∧ (o = .cancel → m'.canceled = true) ∧
      ((o = .notStarted ∨ o = .setupFailed) → out' = some false ∧ hasKind .process cs i) ∧
      (out = some false → out' = some false) ∧
      (∀ code cr, o = .exit code cr → goodExit cs code ∨
        (out' = some false ∧ hasKind .process cs i))) :
    Facts (o :: l) m' := by
  refine ⟨?_, ?_, ?_, ?_, ?_⟩
  · have := h.counts
    simp only [numRuns, numFinished, List.countP_cons, hr, hf] at this ⊢
    simp only [hidle]
    simpa using this
  · have := h.noAssert
    intro hc
    rcases List.mem_cons.mp hc with hc | hc
    · exact hna hc.symm
    · exact this hc
  · rw [startedSince_cons hr hs, lastRun_cons hr]; exact h.order
  · intro cs hc; exact absurd hc (hfresh cs)
  · intro cs i out' hp
    obtain ⟨out, h1, h2, h3, h4, h5, h6⟩ := hbusy cs i out' hp
    obtain ⟨g1, g2, g3, g4, g5, g6, g7⟩ := h.busy cs i out h1
    rw [startedSince_cons hr hs, lastRun_cons hr, sinceRun_cons hr]
    refine ⟨g1, g2, g3, ?_, ?_, ?_, ?_⟩
    · intro hc
      rcases List.mem_cons.mp hc with hc | hc
      · exact h3 hc.symm
      · exact h2 (g4 hc)
    · intro x hx
      rcases List.mem_cons.mp hx with rfl | hx
      · exact hf
      · exact g5 x hx
    · intro hx
      simp only [List.mem_cons] at hx
      rcases hx with (hx | hx) | (hx | hx)
      · exact h4 (Or.inl hx.symm)
      · exact ⟨h5 (g6 (Or.inl hx)).1, (g6 (Or.inl hx)).2⟩
      · exact h4 (Or.inr hx.symm)
      · exact ⟨h5 (g6 (Or.inr hx)).1, (g6 (Or.inr hx)).2⟩
    · intro code cr hx
      rcases List.mem_cons.mp hx with hx | hx
      · exact h6 code cr hx.symm
      · rcases g7 code cr hx with g | g
        · exact Or.inl g
        · exact Or.inr ⟨h5 g.1, g.2⟩

theorem facts : ∀ (l : List Obs) (m : Mon), accept l = some m → Facts l m
  | [], m, h => by
    simp [accept] at h; subst h
    exact ⟨by simp [numRuns, numFinished, Mon.init], by simp, ⟨0, rfl, fun _ h => by cases h⟩,
      fun _ h => by simp [Mon.init] at h, fun _ _ _ h => by simp [Mon.init] at h⟩
  | o :: l, m, h => by
    cases ha : accept l with
    | none => simp [accept, ha] at h
    | some m0 =>
      have h0 := facts l m0 ha
      have h : m0.next o = some m := by simpa [accept, ha] using h
      cases o with
      | assertion => simp [Mon.next] at h
      | run cs =>
        cases hp : m0.phase with
        | idle =>
          simp only [Mon.next, hp, Option.some.injEq] at h
          subst h
          refine ⟨?_, ?_, ?_, ?_, ?_⟩
          · have := h0.counts
            simp only [hp, if_true] at this
            simp only [numRuns, numFinished, List.countP_cons, isRun, isFinished] at this ⊢
            simp; omega
          · have := h0.noAssert; simpa using this
          · exact ⟨0, rfl, fun _ _ => Nat.zero_le _⟩
          · intro cs' hc
            simp only [Phase.fresh.injEq] at hc
            subst hc
            exact ⟨rfl, rfl, rfl⟩
          · intro _ _ _ hc; cases hc
        | fresh _ => simp [Mon.next, hp] at h
        | busy _ _ _ => simp [Mon.next, hp] at h
      | start i =>
        cases hp : m0.phase with
        | idle => simp [Mon.next, hp] at h
        | fresh cs =>
          simp only [Mon.next, hp] at h
          by_cases hc : i = 0 ∧ 0 < cs.length
          · rw [if_pos hc] at h
            simp only [Option.some.injEq] at h
            subst h
            obtain ⟨rfl, hpos⟩ := hc
            obtain ⟨f1, f2, f3⟩ := h0.fresh cs hp
            have hst : startedSince (.start 0 :: l) = List.range 1 := by
              simp [startedSince, sinceRun_cons (o := .start 0) rfl, f1, startOf, List.range_succ]
            refine ⟨?_, ?_, ⟨1, hst, ?_⟩, ?_, ?_⟩
            · have := h0.counts
              simp only [hp, numRuns, numFinished, List.countP_cons, isRun, isFinished] at this ⊢
              simpa using this
            · have := h0.noAssert; simpa using this
            · intro cs' h'
              rw [lastRun_cons rfl, f2] at h'
              cases h'; exact hpos
            · intro _ hc; cases hc
            · intro cs' i' out' hc
              simp only [Phase.busy.injEq] at hc
              obtain ⟨rfl, rfl, rfl⟩ := hc
              rw [lastRun_cons rfl, sinceRun_cons rfl, f1]
              exact ⟨f2, hpos, hst, by simp, by simp [isFinished], by simp, by simp⟩
          · rw [if_neg hc] at h; cases h
        | busy cs j out =>
          simp only [Mon.next, hp] at h
          obtain ⟨g1, g2, g3, g4, g5, g6, g7⟩ := h0.busy cs j out hp
          by_cases hc : i = j + 1 ∧ i < cs.length ∧ m0.canceled = false ∧
              processOk cs j out = true ∧ (m0.tainted = false → m0.mustFail out = false)
          · rw [if_pos hc] at h
            simp only [Option.some.injEq] at h
            subst h
            obtain ⟨rfl, hlen, hcan, hpo, _⟩ := hc
            have hst : startedSince (.start (j + 1) :: l) = List.range (j + 1 + 1) := by
              rw [List.range_succ, ← g3]
              simp [startedSince, sinceRun_cons (o := .start (j + 1)) rfl, startOf]
            refine ⟨?_, ?_, ⟨j + 1 + 1, hst, ?_⟩, ?_, ?_⟩
            · have := h0.counts
              simp only [hp, numRuns, numFinished, List.countP_cons, isRun, isFinished] at this ⊢
              simpa using this
            · have := h0.noAssert; simpa using this
            · intro cs' h'
              rw [lastRun_cons rfl, g1] at h'
              cases h'; exact hlen
            · intro _ hc; cases hc
            · intro cs' i' out' hc
              simp only [Phase.busy.injEq] at hc
              obtain ⟨rfl, rfl, rfl⟩ := hc
              rw [lastRun_cons rfl, sinceRun_cons rfl]
              refine ⟨g1, hlen, hst, ?_, ?_, ?_, ?_⟩
              · intro hx; exact g4 (by simpa using hx)
              · intro x hx
                rcases List.mem_cons.mp hx with rfl | hx
                · rfl
                · exact g5 x hx
              · intro hx
                have := g6 (by simpa using hx)
                rw [processOk_false this.1 this.2] at hpo; cases hpo
              · intro code cr hx
                rcases g7 code cr (by simpa using hx) with g | g
                · exact Or.inl g
                · rw [processOk_false g.1 g.2] at hpo; cases hpo
          · rw [if_neg hc] at h; cases h
      | finished e =>
        have key : numRuns (.finished e :: l) = numFinished (.finished e :: l) →
            m.phase = .idle → Facts (.finished e :: l) m := by
          intro hn hi
          refine ⟨by simp [hn, hi], ?_, ?_, ?_, ?_⟩
          · have := h0.noAssert; simpa using this
          · rw [startedSince_cons rfl rfl, lastRun_cons rfl]; exact h0.order
          · intro _ hc; rw [hi] at hc; cases hc
          · intro _ _ _ hc; rw [hi] at hc; cases hc
        have hn : m0.phase ≠ .idle →
            numRuns (.finished e :: l) = numFinished (.finished e :: l) := by
          intro hp
          have := h0.counts
          simp only [if_neg hp] at this
          simp only [numRuns, numFinished, List.countP_cons, isRun, isFinished] at this ⊢
          simp; omega
        cases hp : m0.phase with
        | idle => simp [Mon.next, hp] at h
        | fresh cs =>
          simp only [Mon.next, hp] at h
          split at h
          · simp only [Option.some.injEq] at h
            exact key (hn (by simp [hp])) (by rw [← h])
          · cases h
        | busy cs i out =>
          simp only [Mon.next, hp] at h
          split at h
          · simp only [Option.some.injEq] at h
            exact key (hn (by simp [hp])) (by rw [← h])
          · cases h
      | cancel =>
        cases hp : m0.phase with
        | idle => simp [Mon.next, hp] at h
        | fresh cs => simp [Mon.next, hp] at h
        | busy cs i out =>
          simp only [Mon.next, hp, Option.some.injEq] at h
          subst h
          refine h0.plain rfl rfl rfl (by simp) (by simp [hp]) (by simp) ?_
          intro cs' i' out' hc
          exact ⟨out', by rw [hp]; exact hc, by simp, by simp, by simp, by simp, by simp⟩
      | timeout k =>
        have hsame : m.phase = m0.phase → m.canceled = m0.canceled → (∀ cs, m0.phase ≠ .fresh cs) →
            Facts (.timeout k :: l) m := by
          intro h1 h2 h3
          refine h0.plain rfl rfl rfl (by simp) (by rw [h1]) (by rw [h1]; exact h3) ?_
          intro cs' i' out' hc
          exact ⟨out', by rw [← h1]; exact hc, by rw [h2]; exact id, by simp, by simp, by simp,
            by simp⟩
        cases k <;> cases hp : m0.phase <;> simp only [Mon.next, hp] at h
        · split at h
          · simp only [Option.some.injEq] at h
            exact hsame (by rw [← h]; simp [hp]) (by rw [← h]) (by simp [hp])
          · cases h
        · cases h
        · simp only [Option.some.injEq] at h
          exact hsame (by rw [← h, hp]) (by rw [← h]) (by simp [hp])
        · simp only [Option.some.injEq] at h
          exact hsame (by rw [← h]; simp [hp]) (by rw [← h]) (by simp [hp])
        · cases h
        · simp only [Option.some.injEq] at h
          exact hsame (by rw [← h]; simp [hp]) (by rw [← h]) (by simp [hp])
      | exit code cr =>
        cases hp : m0.phase with
        | idle => simp [Mon.next, hp] at h
        | fresh cs => simp [Mon.next, hp] at h
        | busy cs i out =>
          cases out with
          | some b => simp [Mon.next, hp] at h
          | none =>
            simp only [Mon.next, hp] at h
            split at h
            · rename_i hk
              simp only [Option.some.injEq] at h
              subst h
              refine h0.plain rfl rfl rfl (by simp) (by simp [hp]) (by simp) ?_
              intro cs' i' out' hc
              simp only [Phase.busy.injEq] at hc
              obtain ⟨rfl, rfl, rfl⟩ := hc
              refine ⟨none, hp, by simp, by simp, by simp, by simp, ?_⟩
              intro code' cr' he
              simp only [Obs.exit.injEq] at he
              obtain ⟨rfl, rfl⟩ := he
              cases hx : exitOk cs i code with
              | true => exact Or.inl (goodExit_of hk hx)
              | false => exact Or.inr ⟨rfl, hk⟩
            · cases h
      | notStarted =>
        cases hp : m0.phase with
        | idle => simp [Mon.next, hp] at h
        | fresh cs => simp [Mon.next, hp] at h
        | busy cs i out =>
          simp only [Mon.next, hp] at h
          split at h
          · rename_i hk
            simp only [Option.some.injEq] at h
            subst h
            refine h0.plain rfl rfl rfl (by simp) (by simp [hp]) (by simp) ?_
            intro cs' i' out' hc
            simp only [Phase.busy.injEq] at hc
            obtain ⟨rfl, rfl, rfl⟩ := hc
            exact ⟨out, hp, by simp, by simp, fun _ => ⟨rfl, hk⟩, by simp, by simp⟩
          · cases h
      | setupFailed =>
        cases hp : m0.phase with
        | idle => simp [Mon.next, hp] at h
        | fresh cs => simp [Mon.next, hp] at h
        | busy cs i out =>
          cases out with
          | some b => simp [Mon.next, hp] at h
          | none =>
            simp only [Mon.next, hp] at h
            split at h
            · rename_i hk
              simp only [Option.some.injEq] at h
              subst h
              refine h0.plain rfl rfl rfl (by simp) (by simp [hp]) (by simp) ?_
              intro cs' i' out' hc
              simp only [Phase.busy.injEq] at hc
              obtain ⟨rfl, rfl, rfl⟩ := hc
              exact ⟨none, hp, by simp, by simp, fun _ => ⟨rfl, hk⟩, by simp, by simp⟩
            · cases h
      | evaluated ok =>
        cases hp : m0.phase with
        | idle => simp [Mon.next, hp] at h
        | fresh cs => simp [Mon.next, hp] at h
        | busy cs i out =>
          cases out with
          | some b => simp [Mon.next, hp] at h
          | none =>
            simp only [Mon.next, hp] at h
            split at h
            · rename_i hk
              simp only [Option.some.injEq] at h
              subst h
              refine h0.plain rfl rfl rfl (by simp) (by simp [hp]) (by simp) ?_
              intro cs' i' out' hc
              simp only [Phase.busy.injEq] at hc
              obtain ⟨rfl, rfl, rfl⟩ := hc
              exact ⟨none, hp, by simp, by simp, by simp, by simp, by simp⟩
            · cases h
      | skipped =>
        cases hp : m0.phase with
        | idle => simp [Mon.next, hp] at h
        | fresh cs => simp [Mon.next, hp] at h
        | busy cs i out =>
          cases out with
          | some b => simp [Mon.next, hp] at h
          | none =>
            simp only [Mon.next, hp, Option.some.injEq] at h
            subst h
            refine h0.plain rfl rfl rfl (by simp) (by simp [hp]) (by simp) ?_
            intro cs' i' out' hc
            simp only [Phase.busy.injEq] at hc
            obtain ⟨rfl, rfl, rfl⟩ := hc
            exact ⟨none, hp, by simp, by simp, by simp, by simp, by simp⟩

end Verif.Job
