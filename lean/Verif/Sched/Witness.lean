import Verif.Sched.Props
/-!
# C52: executions
-/
namespace Verif.Sched

set_option synthInstance.maxSize 4000

/-- Choices: `go i` is the next step of the i-th running thread, or of the scheduler dealing with its end. -/
inductive Choice
  | go (i : Nat)
  | schedule
  | bulk
  | single
deriving DecidableEq, Repr

def goThread (pr : Project) (s : State) (t : Thread) : State :=
  match t.phase with
  | .resolving => work pr s t
  | .stage2 => setThread s t.p t.allowed .done
  | .done => handle pr s true t

def exec (pr : Project) (s : State) : Choice → Option State
  | .go i => s.running[i]?.map (goThread pr s)
  | .schedule =>
    match s.queue with
    | [] => none
    | e :: rest => if s.running.length < s.maxJobs then some (schedule s true e rest) else none
  | .bulk =>
    if s.running.isEmpty && s.queue.isEmpty && !s.waitBulk.isEmpty then some (scheduleBulk s) else none
  | .single =>
    if s.running.isEmpty && s.queue.isEmpty && s.waitBulk.isEmpty && !s.waitSingle.isEmpty then
      some (scheduleSingle s s.waitSingle)
    else none

def run (pr : Project) (s : State) : List Choice → Option State
  | [] => some s
  | c :: cs => (exec pr s c).bind (fun s' => run pr s' cs)

theorem exec_step {pr : Project} {s s' : State} {c : Choice} (h : exec pr s c = some s') : Step pr true s s' := by
  cases c with
  | go i =>
    simp only [exec, Option.map_eq_some_iff] at h
    obtain ⟨t, ht, rfl⟩ := h
    have hm := List.mem_of_getElem? ht
    unfold goThread
    cases hp : t.phase with
    | resolving => exact .work t hm hp
    | stage2 => exact .stage2 t hm hp
    | done => exact .handle t true hm hp
  | schedule =>
    simp only [exec] at h
    cases hq : s.queue with
    | nil => rw [hq] at h; cases h
    | cons e rest =>
      rw [hq] at h
      simp only [] at h
      by_cases hc : s.running.length < s.maxJobs
      · rw [if_pos hc] at h
        injection h with h
        subst h
        exact .schedule true e rest hc hq
      · rw [if_neg hc] at h; cases h
  | bulk =>
    simp only [exec] at h
    by_cases hc : (s.running.isEmpty && s.queue.isEmpty && !s.waitBulk.isEmpty) = true
    · rw [if_pos hc] at h
      injection h with h
      subst h
      simp only [Bool.and_eq_true, List.isEmpty_iff, Bool.not_eq_true', List.isEmpty_eq_false_iff] at hc
      exact .bulk hc.1.1 hc.1.2 hc.2
    · rw [if_neg hc] at h; cases h
  | single =>
    simp only [exec] at h
    by_cases hc : (s.running.isEmpty && s.queue.isEmpty && s.waitBulk.isEmpty && !s.waitSingle.isEmpty) = true
    · rw [if_pos hc] at h
      injection h with h
      subst h
      simp only [Bool.and_eq_true, List.isEmpty_iff, Bool.not_eq_true', List.isEmpty_eq_false_iff] at hc
      exact .single _ hc.1.1.1 hc.1.1.2 hc.1.2 hc.2 (List.Perm.refl _)
    · rw [if_neg hc] at h; cases h

theorem run_reachable {pr : Project} {cs : List Choice} : ∀ {s s' : State}, Reachable pr s → run pr s cs = some s' →
    Reachable pr s' := by
  induction cs with
  | nil => intro s s' hr h; injection h with h; exact h ▸ hr
  | cons c cs ih =>
    intro s s' hr h
    simp only [run, Option.bind_eq_some_iff] at h
    obtain ⟨x, hx, h⟩ := h
    exact ih (.step hr (exec_step hx)) h

/-- One job: threads run to their end at once. -/
def sequential (s : State) : Option Choice :=
  match s.running with
  | _ :: _ => some (.go 0)
  | [] =>
    match s.queue with
    | _ :: _ => some .schedule
    | [] => if s.waitBulk ≠ [] then some .bulk else if s.waitSingle ≠ [] then some .single else none

def trace (pr : Project) : Nat → State → List Choice
  | 0, _ => []
  | n + 1, s =>
    match sequential s with
    | none => []
    | some c => c :: ((exec pr s c).map (trace pr n)).getD []

def finals (pr : Project) (cs : List Choice) {α : Type} (f : State → α) : Option α := (run pr (initial pr) cs).map f

def endedB (s : State) : Bool := s.running.isEmpty && s.queue.isEmpty && s.waitBulk.isEmpty && s.waitSingle.isEmpty

theorem ended_iff {s : State} : endedB s = true ↔ Ended s := by
  unfold endedB Ended
  simp only [Bool.and_eq_true, List.isEmpty_iff]
  constructor
  · rintro ⟨⟨⟨h1, h2⟩, h3⟩, h4⟩; exact ⟨h1, h2, h3, h4⟩
  · rintro ⟨h1, h2, h3, h4⟩; exact ⟨⟨⟨h1, h2⟩, h3⟩, h4⟩

/-- From an evaluation to a reachable state. -/
theorem of_final {pr : Project} {cs : List Choice} {α : Type} {f : State → α} {a : α}
    (h : finals pr cs f = some a) : ∃ s, Reachable pr s ∧ f s = a := by
  unfold finals at h
  rw [Option.map_eq_some_iff] at h
  obtain ⟨s, hs, h⟩ := h
  exact ⟨s, run_reachable .init hs, h⟩

/-! ## A project without trouble -/

/-- An application (2), a library (1) for it, a package (0) of everything with type 7, and a product (3) with a false
    condition that another one (4) requires. -/
def proj : Project where
  products := [0, 1, 2, 3, 4]
  items
    | 0 => [.bulk [7]]
    | 2 => [.single 1 true, .single 3 false]
    | 4 => [.single 3 true, .single 1 true]
    | _ => []
  types
    | 2 => [7]
    | _ => [8]
  name p := p
  enabled p := p != 3
  broken _ := false
  states := [0, 1]
  maxJobs := 2

theorem needs_proj {p q : P} (h : Needs proj p q) : (p = 2 ∧ q = 1) ∨ (p = 2 ∧ q = 3) ∨ (p = 4 ∧ q = 3) ∨
    (p = 4 ∧ q = 1) := by
  obtain ⟨r, h⟩ := h
  unfold proj at h
  simp only [] at h
  split at h
  · simp at h
  · simp at h; rcases h with ⟨rfl, _⟩ | ⟨rfl, _⟩ <;> simp
  · simp at h; rcases h with ⟨rfl, _⟩ | ⟨rfl, _⟩ <;> simp
  · cases h

theorem acyclic_of {pr : Project} (f : P → Nat) (h : ∀ p q, Needs pr p q → q ≠ p → f q < f p) : Acyclic pr :=
  Subrelation.wf (fun {q p} hx => h p q hx.1 hx.2) (InvImage.wf f Nat.lt_wfRel.wf)

theorem proj_acyclic : Acyclic proj := by
  refine acyclic_of (fun p => if p = 2 ∨ p = 4 then 1 else 0) ?_
  intro p q h _
  rcases needs_proj h with ⟨rfl, rfl⟩ | ⟨rfl, rfl⟩ | ⟨rfl, rfl⟩ | ⟨rfl, rfl⟩ <;> decide

theorem proj_ok : proj.Ok where
  distinct := by decide
  closed p _ q h := by rcases needs_proj h with ⟨rfl, rfl⟩ | ⟨rfl, rfl⟩ | ⟨rfl, rfl⟩ | ⟨rfl, rfl⟩ <;> decide
  states := by decide
  jobs := by decide

/-- Two threads, the first one always goes on as far as possible when both could. -/
def twoThreads (s : State) : Option Choice :=
  if s.running.length < s.maxJobs && !s.queue.isEmpty then some .schedule
  else match s.running with
    | _ :: _ :: _ => some (.go 1)
    | _ :: _ => some (.go 0)
    | [] => if s.waitBulk ≠ [] then some .bulk else if s.waitSingle ≠ [] then some .single else none

def traceBy (pr : Project) (pick : State → Option Choice) : Nat → State → List Choice
  | 0, _ => []
  | n + 1, s =>
    match pick s with
    | none => []
    | some c => c :: ((exec pr s c).map (traceBy pr pick n)).getD []

/-- Everything is resolved, with different numbers of threads and in different orders. -/
example : finals proj (trace proj 60 (initial proj))
      (fun s => (endedB s, s.finished, s.disabled, s.deps 0, s.deps 2, s.deps 4)) =
      some (true, [1, 3, 4, 2, 0], [4, 4, 3], [2], [1], [1]) ∧
    finals proj (traceBy proj twoThreads 60 (initial proj))
      (fun s => (endedB s, s.finished, s.disabled, s.deps 0, s.deps 2, s.deps 4)) =
      some (true, [1, 3, 4, 2, 0], [4, 4, 3], [2], [1], [1]) := by decide +kernel

/-- While it goes on, there are threads that wait for each other's products. -/
example : ∃ s, Reachable proj s ∧ ¬Ended s ∧ s.running.length = 1 ∧ s.waitBulk = [(0, 1)] ∧ s.waitSingle = [] := by
  have h : finals proj [.schedule, .schedule, .go 0, .go 0]
    (fun s => (endedB s, s.running.length, s.waitBulk, s.waitSingle)) = some (false, 1, [(0, 1)], []) := by
    decide +kernel
  obtain ⟨s, hr, hs⟩ := of_final h
  simp only [Prod.mk.injEq] at hs
  refine ⟨s, hr, ?_, hs.2.1, hs.2.2⟩
  rw [← ended_iff, hs.1]
  simp

/-- The hypothesis about dependencies by type holds for this project. -/
example : ∀ p q, Wants proj p q → ¬Above proj q := by
  have hb : ∀ p ts, Item.bulk ts ∈ proj.items p → p = 0 ∧ ts = [7] := by
    intro p ts h
    unfold proj at h
    simp only [] at h
    split at h <;> simp at h
    exact ⟨rfl, h⟩
  have ha : ∀ q, Above proj q → q = 0 := by
    intro q h
    induction h with
    | bulk h => exact (hb _ _ h).1
    | needs h _ ih =>
      subst ih
      rcases needs_proj h with ⟨_, h⟩ | ⟨_, h⟩ | ⟨_, h⟩ | ⟨_, h⟩ <;> cases h
  rintro p q ⟨_, ts, h1, x, h2, h3⟩ hab
  obtain ⟨_, rfl⟩ := hb p ts h1
  rw [ha q hab] at h3
  simp at h2
  subst h2
  revert h3
  decide

/-- Not every product is disabled: 2 is not, but 4 is. -/
example : Bad proj 4 ∧ ¬Bad proj 2 := by
  have h1 : ¬Bad proj 1 := by
    intro h
    cases h with
    | broken h => cases h
    | condition h => cases h
    | self h => rcases needs_proj h with ⟨h, _⟩ | ⟨h, _⟩ | ⟨h, _⟩ | ⟨h, _⟩ <;> cases h
    | dependency h _ => cases h
  refine ⟨.dependency (q := 3) (by simp [proj]) (.condition rfl), ?_⟩
  intro h
  cases h with
  | broken h => cases h
  | condition h => cases h
  | self h => rcases needs_proj h with ⟨_, h⟩ | ⟨_, h⟩ | ⟨h, _⟩ | ⟨h, _⟩ <;> cases h
  | @dependency _ q h hb =>
    have : q = 1 := by simpa [proj] using h
    subst this
    exact h1 hb

/-- Threads cannot always be created; then there are fewer. -/
example : ∃ s, Reachable proj s ∧ s.maxJobs = 1 ∧ s.queue.length = 5 := by
  refine ⟨_, .step .init (.schedule false (0, none, none) _ (by decide) rfl), ?_, ?_⟩ <;> decide +kernel

/-! ## Findings -/

/-- Two products that depend on each other. -/
def pair : Project where
  products := [0, 1]
  items
    | 0 => [.single 1 true]
    | 1 => [.single 0 true]
    | _ => []
  types _ := []
  name p := p
  enabled _ := true
  broken _ := false
  states := [0]
  maxJobs := 1

/-- **C52 finding.** If two products depend on each other (and errors are not fatal, as in relaxed mode), both are
    resolved twice: the table of the products that wait is not cleared when the cycle is broken up. -/
theorem C52_cycle_resolved_twice : ∃ s, Reachable pair s ∧ Ended s ∧ s.finished = [0, 1, 1, 0] := by
  have h : finals pair (trace pair 60 (initial pair)) (fun s => (endedB s, s.finished)) =
    some (true, [0, 1, 1, 0]) := by decide +kernel
  obtain ⟨s, hr, hs⟩ := of_final h
  simp only [Prod.mk.injEq] at hs
  exact ⟨s, hr, ended_iff.mp hs.1, hs.2⟩

/-- A product that depends on one of two that depend on each other. -/
def chain : Project := { pair with
  products := [2, 0, 1]
  items := fun
    | 0 => [.single 1 true]
    | 1 => [.single 0 true]
    | 2 => [.single 0 true]
    | _ => [] }

/-- **C52 finding.** An error about cyclic dependencies is reported for a product that is on no cycle. -/
theorem C52_cycle_wrong_product : (∃ s, Reachable chain s ∧ Ended s ∧ (2, 0) ∈ s.cycles) ∧
    ∀ p, ¬Needs chain p 2 := by
  refine ⟨?_, ?_⟩
  · have h : finals chain (trace chain 80 (initial chain)) (fun s => (endedB s, s.cycles.contains (2, 0))) =
      some (true, true) := by decide +kernel
    obtain ⟨s, hr, hs⟩ := of_final h
    simp only [Prod.mk.injEq] at hs
    exact ⟨s, hr, ended_iff.mp hs.1, by simpa using hs.2⟩
  · rintro p ⟨r, h⟩
    unfold chain at h
    simp only [] at h
    split at h <;> simp at h

/-- The first product wants everything of type 7, the second one everything of type 8, which is nothing; the third one is
    of type 7 and depends on the second one. -/
def late : Project where
  products := [0, 1, 2]
  items
    | 0 => [.bulk [7]]
    | 1 => [.bulk [8]]
    | 2 => [.single 1 true]
    | _ => []
  types
    | 2 => [7]
    | _ => []
  name p := p
  enabled _ := true
  broken _ := false
  states := [0, 1]
  maxJobs := 2

theorem late_wants {p q : P} : Wants late p q → p = 0 ∧ q = 2 := by
  rintro ⟨_, ts, h1, x, h2, h3⟩
  have hq : q = 2 ∧ x = 7 := by
    unfold late at h3
    simp only [] at h3
    split at h3
    · simp at h3; exact ⟨rfl, h3⟩
    · cases h3
  obtain ⟨rfl, rfl⟩ := hq
  unfold late at h1
  simp only [] at h1
  split at h1
  · exact ⟨rfl, rfl⟩
  · simp at h1
    subst h1
    simp at h2
  · simp at h1
  · cases h1

theorem late_needs {p q : P} : Needs late p q → p = 2 ∧ q = 1 := by
  rintro ⟨r, h⟩
  unfold late at h
  simp only [] at h
  split at h
  · simp at h
  · simp at h
  · simp at h; exact ⟨rfl, h.1⟩
  · cases h

theorem late_ok : late.Ok where
  distinct := by decide
  closed p _ q h := by obtain ⟨rfl, rfl⟩ := late_needs h; decide
  states := by decide
  jobs := by decide

theorem late_acyclic : Acyclic late := by
  refine acyclic_of (fun p => p) ?_
  intro p q h _
  obtain ⟨rfl, rfl⟩ := late_needs h
  decide

/-- The choices: the first two products start together. The first one finds nothing. The second one is finished, and then
    the third one, before the first one. -/
def lateChoices : List Choice :=
  [.schedule, .schedule, .go 0, .go 0, .go 0, .go 0, .schedule, .go 0, .go 0, .bulk, .schedule, .schedule,
    .go 0, .go 1, .go 1, .go 1, .go 1, .schedule, .go 1, .go 1, .go 1, .go 1, .go 0, .go 0, .go 0]

/-- **C52 finding.** A project without any cycle, not even one that takes dependencies by type into account: depending on
    timing, there is an error that a product and another one that wants its type depend on each other, or the
    dependency gets lost without any error. -/
theorem C52_outcome_depends_on_timing :
    (∃ s, Reachable late s ∧ Ended s ∧ (2, 0) ∈ s.missed) ∧
    (∃ s, Reachable late s ∧ Ended s ∧ s.missed = [] ∧ s.cycles = [] ∧ s.disabled = [] ∧ 2 ∉ s.deps 0) ∧
    Wants late 0 2 ∧ WellFounded (fun q p => Needs late p q ∨ Wants late p q) := by
  refine ⟨?_, ?_, ⟨by decide, [7], by decide, 7, by decide, by decide⟩, ?_⟩
  · have h : finals late (trace late 60 (initial late)) (fun s => (endedB s, s.missed)) =
      some (true, [(2, 0)]) := by decide +kernel
    obtain ⟨s, hr, hs⟩ := of_final h
    simp only [Prod.mk.injEq] at hs
    exact ⟨s, hr, ended_iff.mp hs.1, by rw [hs.2]; decide⟩
  · have h : finals late lateChoices (fun s => (endedB s, s.missed, s.cycles, s.disabled, s.deps 0)) =
      some (true, [], [], [], []) := by decide +kernel
    obtain ⟨s, hr, hs⟩ := of_final h
    simp only [Prod.mk.injEq] at hs
    exact ⟨s, hr, ended_iff.mp hs.1, hs.2.1, hs.2.2.1, hs.2.2.2.1, by rw [hs.2.2.2.2]; decide⟩
  · refine Subrelation.wf ?_ (InvImage.wf (fun p : P => if p = 0 then 2 else if p = 2 then 1 else 0) Nat.lt_wfRel.wf)
    rintro q p (h | h)
    · obtain ⟨rfl, rfl⟩ := late_needs h
      show (0 : Nat) < 1
      decide
    · obtain ⟨rfl, rfl⟩ := late_wants h
      show (1 : Nat) < 2
      decide

/-- Two products that want all of a common type, and are of that type. -/
def both : Project where
  products := [0, 1]
  items
    | 0 => [.bulk [7]]
    | 1 => [.bulk [7]]
    | _ => []
  types _ := [7]
  name p := p
  enabled _ := true
  broken _ := false
  states := [0]
  maxJobs := 1

/-- **C52 finding.** If two products want all products of a common type and are of that type themselves, no error is
    reported; which one depends on the other one is decided by the order in which they are handled. -/
theorem C52_bulk_order : (∃ s, Reachable both s ∧ Ended s ∧ s.deps 0 = [] ∧ s.deps 1 = [0] ∧ s.missed = [] ∧
      s.cycles = []) ∧
    (∃ s, Reachable { both with products := [1, 0] } s ∧ Ended s ∧ s.deps 0 = [1] ∧ s.deps 1 = [] ∧ s.missed = [] ∧
      s.cycles = []) := by
  constructor
  · have h : finals both (trace both 60 (initial both)) (fun s => (endedB s, s.deps 0, s.deps 1, s.missed, s.cycles)) =
      some (true, [], [0], [], []) := by decide +kernel
    obtain ⟨s, hr, hs⟩ := of_final h
    simp only [Prod.mk.injEq] at hs
    exact ⟨s, hr, ended_iff.mp hs.1, hs.2⟩
  · have h : finals { both with products := [1, 0] } (trace both 60 (initial { both with products := [1, 0] }))
      (fun s => (endedB s, s.deps 0, s.deps 1, s.missed, s.cycles)) = some (true, [1], [], [], []) := by decide +kernel
    obtain ⟨s, hr, hs⟩ := of_final h
    simp only [Prod.mk.injEq] at hs
    exact ⟨s, hr, ended_iff.mp hs.1, hs.2⟩

end Verif.Sched
