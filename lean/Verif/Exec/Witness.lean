import Verif.Exec.Props

/-
Concrete builds: cases that meet the hypotheses of the theorems in Verif/Exec/Props.lean, and
counterexamples to the claims that do not hold in full.
-/

namespace Verif.Exec.Witness

open Verif.Exec

/-! ### Running concrete builds

`exec` performs one step if its preconditions hold; `execs_reach` shows that what it computes are
steps of the model. -/

inductive Act where
  | skip (i : Nat) | delay (i : Nat) | ignore (i : Nat) | source (i : Nat) | upToDate (i : Nat)
  | run (i : Nat) | endLoop | finishLater | jobEnds (i : Nat) | ok (i : Nat) | fail (i : Nat)
  | request | timer | rule (i : Nat) (r : Node) (e : Effect)

/-- Take the `i`-th leaf. -/
def pop (s : St) (i : Nat) (k : List Node → List Node → Node → Option St) : Option St :=
  match s.leaves.drop i with
  | [] => none
  | n :: l2 =>
    if s.phase = .scheduling ∧ s.avail ≠ [] ∧ s.leaves = s.leaves.take i ++ n :: l2 then
      k (s.leaves.take i) l2 n
    else none

def exec (cfg : Cfg) (s : St) : Act → Option St
  | .skip i => pop s i fun l1 l2 n =>
      if s.bs n ≠ .buildable then some { s with leaves := l1 ++ l2 } else none
  | .delay i => pop s i fun l1 l2 n =>
      if s.bs n = .buildable ∧ blocked cfg s n = true then
        some { s with leaves := l1 ++ l2, delayed := n :: s.delayed } else none
  | .ignore i => pop s i fun l1 l2 n =>
      if s.bs n = .buildable ∧ blocked cfg s n = false ∧ s.g.kind n ≠ .source ∧
          productOk cfg s n = false then
        some (finishNode .ignored { s with leaves := l1 ++ l2 } n) else none
  | .source i => pop s i fun l1 l2 n =>
      if s.bs n = .buildable ∧ blocked cfg s n = false ∧ s.g.kind n = .source then
        some (finishNode .source { s with leaves := l1 ++ l2 } n) else none
  | .upToDate i => pop s i fun l1 l2 n =>
      if s.bs n = .buildable ∧ blocked cfg s n = false ∧ s.g.kind n = .gen ∧
          productOk cfg s n = true then
        some (finishTransformer (.skipped (s.g.tr n)) { s with leaves := l1 ++ l2 } (s.g.tr n)
          (s.g.outputs (s.g.tr n)).length) else none
  | .run i => pop s i fun l1 l2 n =>
      if s.bs n = .buildable ∧ blocked cfg s n = false ∧ s.g.kind n = .gen ∧
          productOk cfg s n = true ∧ cfg.executeRulesOnly = false then
        runTransformer cfg { s with leaves := l1 ++ l2 } (s.g.tr n) else none
  | .endLoop =>
      if s.phase = .scheduling ∧ (s.leaves = [] ∨ s.avail = []) then
        some (let s1 := { s with leaves := s.leaves ++ s.delayed, delayed := [] }
         if s1.leaves = [] ∧ s1.proc = [] then
           if s1.fromFinishJob then finish s1 else { s1 with phase := .finishPending }
         else { s1 with phase := .waiting })
      else none
  | .finishLater => if s.phase = .finishPending then some (finish s) else none
  | .jobEnds i => match s.proc[i]? with
      | none => none
      | some (j, t) => if s.phase ≠ .done ∧ (j, t) ∈ s.proc ∧ s.live j = true then
          some { s with live := upd s.live j false } else none
  | .ok i => match s.proc[i]? with
      | none => none
      | some (j, t) => if s.phase = .waiting ∧ (j, t) ∈ s.proc ∧ s.live j = false then
          some (afterJob cfg true
            (finishTransformer (.ran t) { endJob cfg s j t with log := .succeeded t :: s.log } t
              (s.g.outputs t).length)) else none
  | .fail i => match s.proc[i]? with
      | none => none
      | some (j, t) => if s.phase = .waiting ∧ (j, t) ∈ s.proc ∧ s.live j = false then
          some (afterJob cfg false { endJob cfg s j t with log := .failed t :: s.log }) else none
  | .request => if s.cancelRequested = false then some { s with cancelRequested := true } else none
  | .timer =>
      if (s.phase = .waiting ∨ s.phase = .finishPending) ∧ s.st = .running ∧
          s.cancelRequested = true then some (cancelJobs s) else none
  | .rule i r e => pop s i fun l1 l2 n =>
      if s.bs n = .buildable ∧ blocked cfg s n = false ∧ s.g.kind n = .rule ∧
          productOk cfg s n = true ∧ n = r then
        some (executeRule { s with leaves := l1 ++ l2 } n e) else none

/-- The rule applications of a script meet the contract. -/
def RulesOk (C : St → Node → Effect → Prop) : Graph → List Act → Prop
  | _, [] => True
  | g, .rule _ r e :: as => (∀ s, s.g = g → C s r e) ∧ RulesOk C e.g as
  | g, _ :: as => RulesOk C g as

theorem pop_some {s : St} {i : Nat} {k : List Node → List Node → Node → Option St} {s' : St}
    (h : pop s i k = some s') : ∃ l1 l2 n, s.phase = .scheduling ∧ s.leaves = l1 ++ n :: l2 ∧
      s.avail ≠ [] ∧ k l1 l2 n = some s' := by
  unfold pop at h
  split at h
  · simp at h
  · split at h
    · rename_i hc
      exact ⟨_, _, _, hc.1, hc.2.2, hc.2.1, h⟩
    · simp at h

theorem exec_step {cfg : Cfg} (C : St → Node → Effect → Prop) {s s' : St} {a : Act}
    (as : List Act) (hok : RulesOk C s.g (a :: as)) (h : exec cfg s a = some s') :
    Step cfg C s s' ∧ RulesOk C s'.g as := by
  cases a <;> simp only [exec] at h
  case skip i =>
    obtain ⟨l1, l2, n, h1, h2, h3, h4⟩ := pop_some h
    split at h4 <;> simp only [Option.some.injEq, reduceCtorEq] at h4
    subst h4; rename_i hc
    exact ⟨.popSkip s l1 l2 n h1 h2 h3 hc, hok⟩
  case delay i =>
    obtain ⟨l1, l2, n, h1, h2, h3, h4⟩ := pop_some h
    split at h4 <;> simp only [Option.some.injEq, reduceCtorEq] at h4
    subst h4; rename_i hc
    exact ⟨.popDelay s l1 l2 n h1 h2 h3 hc.1 hc.2, hok⟩
  case ignore i =>
    obtain ⟨l1, l2, n, h1, h2, h3, h4⟩ := pop_some h
    split at h4 <;> simp only [Option.some.injEq, reduceCtorEq] at h4
    subst h4; rename_i hc
    exact ⟨.popIgnore s l1 l2 n h1 h2 h3 hc.1 hc.2.1 hc.2.2.1 hc.2.2.2, hok⟩
  case source i =>
    obtain ⟨l1, l2, n, h1, h2, h3, h4⟩ := pop_some h
    split at h4 <;> simp only [Option.some.injEq, reduceCtorEq] at h4
    subst h4; rename_i hc
    exact ⟨.popSource s l1 l2 n h1 h2 h3 hc.1 hc.2.1 hc.2.2, hok⟩
  case upToDate i =>
    obtain ⟨l1, l2, n, h1, h2, h3, h4⟩ := pop_some h
    split at h4 <;> simp only [Option.some.injEq, reduceCtorEq] at h4
    subst h4; rename_i hc
    exact ⟨.popSkipTransformer s l1 l2 n h1 h2 h3 hc.1 hc.2.1 hc.2.2.1 hc.2.2.2,
      by unfold finishTransformer; rw [(finishLoop_frame _ _ _).1]; exact hok⟩
  case run i =>
    obtain ⟨l1, l2, n, h1, h2, h3, h4⟩ := pop_some h
    split at h4
    rotate_left
    · simp at h4
    rename_i hc
    refine ⟨.popRun s s' l1 l2 n h1 h2 h3 hc.1 hc.2.1 hc.2.2.1 hc.2.2.2.1 hc.2.2.2.2 h4, ?_⟩
    unfold runTransformer at h4
    split at h4
    · simp at h4
    · simp only [Option.some.injEq] at h4
      subst h4
      exact hok
  case endLoop =>
    split at h <;> simp only [Option.some.injEq, reduceCtorEq] at h
    subst h; rename_i hc
    refine ⟨.endLoop s hc.1 hc.2, ?_⟩
    split
    · split <;> exact hok
    · exact hok
  case finishLater =>
    split at h <;> simp only [Option.some.injEq, reduceCtorEq] at h
    subst h; rename_i hc
    exact ⟨.finishLater s hc, hok⟩
  case jobEnds i =>
    split at h
    · simp at h
    · split at h <;> simp only [Option.some.injEq, reduceCtorEq] at h
      subst h; rename_i hc
      exact ⟨.jobEnds s _ _ hc.1 hc.2.1 hc.2.2, hok⟩
  case ok i =>
    split at h
    · simp at h
    · split at h <;> simp only [Option.some.injEq, reduceCtorEq] at h
      subst h; rename_i hc
      refine ⟨.jobOk s _ _ hc.1 hc.2.1 hc.2.2, ?_⟩
      rw [(afterJob_frame _ _ _).2.1]
      unfold finishTransformer
      rw [(finishLoop_frame _ _ _).1]
      exact hok
  case fail i =>
    split at h
    · simp at h
    · split at h <;> simp only [Option.some.injEq, reduceCtorEq] at h
      subst h; rename_i hc
      refine ⟨.jobFail s _ _ hc.1 hc.2.1 hc.2.2, ?_⟩
      rw [(afterJob_frame _ _ _).2.1]
      exact hok
  case request =>
    split at h <;> simp only [Option.some.injEq, reduceCtorEq] at h
    subst h; rename_i hc
    exact ⟨.requestCancel s hc, hok⟩
  case timer =>
    split at h <;> simp only [Option.some.injEq, reduceCtorEq] at h
    subst h; rename_i hc
    refine ⟨.timer s hc.1 hc.2.1 hc.2.2, ?_⟩
    unfold cancelJobs
    split <;> exact hok
  case rule i r e =>
    obtain ⟨l1, l2, n, h1, h2, h3, h4⟩ := pop_some h
    split at h4 <;> simp only [Option.some.injEq, reduceCtorEq] at h4
    subst h4; rename_i hc
    obtain ⟨c1, c2, c3, c4, rfl⟩ := hc
    exact ⟨.popRule s l1 l2 n e h1 h2 h3 c1 c2 c3 c4 (hok.1 _ rfl), hok.2⟩

def execs (cfg : Cfg) : St → List Act → Option St
  | s, [] => some s
  | s, a :: as => match exec cfg s a with
    | none => none
    | some s' => execs cfg s' as

theorem execs_reach {cfg : Cfg} {C : St → Node → Effect → Prop} {g : Graph} {roots : List Node} :
    ∀ (as : List Act) {s s' : St}, Reach cfg C g roots s → RulesOk C s.g as →
      execs cfg s as = some s' → Reach cfg C g roots s'
  | [], s, s', hr, _, h => by simp only [execs, Option.some.injEq] at h; subst h; exact hr
  | a :: as, s, s', hr, hok, h => by
      simp only [execs] at h
      split at h
      · simp at h
      · rename_i s1 h1
        obtain ⟨e1, e2⟩ := exec_step C as hok h1
        exact execs_reach as (.step _ _ hr e1) e2 h

/-- If a script computes to a state satisfying a decidable predicate, such a state is reachable. -/
theorem script {cfg : Cfg} {C : St → Node → Effect → Prop} {g : Graph} {roots : List Node}
    (as : List Act) (hok : RulesOk C g as) (p : St → Bool)
    (h : ((execs cfg (initial cfg g roots) as).map p).getD false = true) :
    ∃ s', Reach cfg C g roots s' ∧ p s' = true := by
  cases he : execs cfg (initial cfg g roots) as with
  | none => rw [he] at h; simp at h
  | some s' =>
    rw [he] at h
    exact ⟨s', execs_reach (C := C) as .init hok he, by simpa using h⟩

/-- Two jobs; every transformer uses pool 7, which product 0 limits to one job. -/
def cfg (keepGoing : Bool) : Cfg where
  maxJobs := 2
  keepGoing := keepGoing
  executeRulesOnly := false
  partialBuild := false
  buildable := fun _ => true
  limit := fun p => if p = 0 then some (fun _ => 1) else none
  pools := fun _ => [7]
  trProduct := fun t => t

/-- Source 0; rule node 1 fed by it; artifacts 2 and 3 of transformers 0 and 1, made from 0 and 2. -/
def g0 : Graph where
  nodes := [0, 1, 2, 3]
  kind := fun n => if n = 0 then .source else if n = 1 then .rule else .gen
  tr := fun n => n - 2
  product := fun _ => 0
  children := fun n => if n = 1 then [0] else if n = 2 then [0] else if n = 3 then [2, 1] else []

/-- Applying rule node 1 creates artifact 4 of transformer 2, made from 0. -/
def g1 : Graph where
  nodes := [0, 1, 2, 3, 4]
  kind := g0.kind
  tr := g0.tr
  product := g0.product
  children := fun n => if n = 4 then [0, 1] else g0.children n

def eff : Effect := ⟨g1, [4], []⟩

theorem wf0 : WF g0 := by
  constructor <;> decide

theorem wf1 : WF g1 := by
  constructor <;> decide

theorem acyclic0 : Acyclic g0 := ⟨fun n => n, by decide⟩
theorem acyclic1 : Acyclic g1 := ⟨fun n => n, by decide⟩

theorem effOk (s : St) (hg : s.g = g0) : LiveEffect s 1 eff := by
  constructor
  case waiters =>
    rw [hg]
    intro n _ hn _ _ _ hx
    have : g1.children n = g0.children n :=
      (by decide : ∀ n ∈ g0.nodes, g1.children n = g0.children n) n hn
    rw [← this] at hx
    exact hx
  case acyclic => exact acyclic1
  case gains =>
    rw [hg]
    intro n _ hn _ c hc hc'
    have : g1.children n = g0.children n :=
      (by decide : ∀ n ∈ g0.nodes, g1.children n = g0.children n) n hn
    exact absurd (this ▸ hc) hc'
  case created => rw [hg]; decide
  case toSafeEffect =>
    constructor
    case wf => exact wf1
    case removed =>
      rw [hg]
      intro n hn hn'
      exact absurd ((by decide : ∀ n ∈ g0.nodes, n ∈ g1.nodes) n hn) hn'
    all_goals first | rw [hg]; decide | decide

/-- The source is taken, the rule applied, transformer 0 launched; transformer 2 has to wait because
    of the job limit of pool 7. -/
def acts1 : List Act := [.source 0, .rule 0 1 eff, .run 1, .skip 0, .delay 0, .endLoop]

theorem ok1 (as : List Act) (h : RulesOk LiveEffect g1 as) : RulesOk LiveEffect g0 (acts1 ++ as) :=
  ⟨effOk, h⟩

theorem run1 (kg : Bool) : ∃ s, Reach (cfg kg) LiveEffect g0 [3] s ∧
    s.phase = .waiting ∧ s.proc = [(0, 0)] ∧ s.live 0 = true ∧ s.leaves = [4] ∧
    s.log = [.start 0 [0], .completed 1 .applied, .apply 1 [0], .completed 0 .source] := by
  obtain ⟨s, h1, h2⟩ := script (cfg := cfg kg) (roots := [3]) acts1 (ok1 [] trivial)
    (fun s => decide (
    s.phase = .waiting ∧ s.proc = [(0, 0)] ∧ s.live 0 = true ∧ s.leaves = [4] ∧
    s.log = [.start 0 [0], .completed 1 .applied, .apply 1 [0], .completed 0 .source]))
    (by cases kg <;> decide +kernel)
  exact ⟨s, h1, by simpa using h2⟩

theorem safe : ∀ s r e, LiveEffect s r e → SafeEffect s r e := fun _ _ _ h => h.toSafeEffect

theorem rootsOk : ∀ n ∈ [3], n ∈ g0.nodes := by decide

/-- Non-vacuity of C14–C16 and C19 (running jobs): in that state transformer 0 was launched and
    rule 1 applied, with the source file as completed dependency. -/
example : ∃ s, Reach (cfg false) LiveEffect g0 [3] s ∧
    (∃ pre, HappenedAfter s.log (.start 0 [0]) pre ∧ Completed pre 0) ∧
    (∃ pre, HappenedAfter s.log (.apply 1 [0]) pre ∧ Completed pre 0) ∧
    Running s 0 ∧ (cfg false).limit ((cfg false).trProduct 0) = some (fun _ => 1) ∧
    7 ∈ (cfg false).pools 0 ∧ s.log.countP (isStart 0) = 1 := by
  obtain ⟨s, h, _, h2, h3, _, h5⟩ := run1 false
  refine ⟨s, h, ⟨_, ⟨[], h5⟩, .source, by simp⟩, ⟨_, ⟨[_, _], h5⟩, .source, by simp⟩,
    ⟨0, by rw [h2]; simp, h3⟩, rfl, by decide, by rw [h5]; decide⟩

/-- The build goes on to its end: transformer 0 succeeds, transformers 1 and 2 follow. -/
def acts2 : List Act := acts1 ++
  [.jobEnds 0, .ok 0, .run 0, .run 0, .endLoop, .jobEnds 0, .jobEnds 1, .ok 0, .endLoop, .ok 0,
   .endLoop]

/-- Non-vacuity of C17: a build that finishes undisturbed, with everything completed. -/
example : ∃ s, Reach (cfg false) LiveEffect g0 [3] s ∧ Finished s.log ∧ Clean s.log ∧
    (∀ t, Ev.failed t ∉ s.log) ∧ ¬ ReportsError (cfg false) [3] s ∧ Completed s.log 4 ∧
    Completed s.log 3 := by
  obtain ⟨s, h1, h2⟩ := script (C := LiveEffect) (cfg := cfg false) (roots := [3]) acts2
    (ok1 _ trivial)
    (fun s => decide (s.log =
      [.finished false, .completed 4 (.ran 2), .succeeded 2, .completed 3 (.ran 1), .succeeded 1,
       .start 1 [2, 1], .start 2 [0, 1], .completed 2 (.ran 0), .succeeded 0,
       .start 0 [0], .completed 1 .applied, .apply 1 [0], .completed 0 .source] ∧
       s.bs 3 = .built ∧ s.explicitly = false))
    (by decide +kernel)
  simp only [decide_eq_true_eq] at h2
  obtain ⟨h2, h3, h4⟩ := h2
  refine ⟨s, h1, ⟨false, by simp [h2]⟩, ⟨?_, by simp [h2]⟩, by simp [h2], ?_,
    ⟨.ran 2, by simp [h2]⟩, ⟨.ran 1, by simp [h2]⟩⟩
  · rintro ⟨js, hj⟩; simp [h2] at hj
  · rintro (h | ⟨_, t, h⟩ | ⟨_, n, hn, h⟩ | h)
    · simp [h2] at h
    · simp [h2] at h
    · simp only [List.mem_singleton] at hn; subst hn; exact h h3
    · simp [h4] at h

/-- With keep-going transformer 0 fails; transformer 2, which does not depend on it, is still run. -/
def acts3 : List Act := acts1 ++ [.jobEnds 0, .fail 0, .run 0, .endLoop, .jobEnds 0, .ok 0, .endLoop]

/-- Non-vacuity of C18. -/
example : ∃ s, Reach (cfg true) LiveEffect g0 [3] s ∧ Finished s.log ∧ Clean s.log ∧
    Ev.failed 0 ∈ s.log ∧ 3 ∈ s.g.nodes ∧ DependsOn s.g 3 2 ∧ s.g.kind 2 = .gen ∧ s.g.tr 2 = 0 ∧
    Completed s.log 4 ∧ ReportsError (cfg true) [3] s := by
  obtain ⟨s, h1, h2⟩ := script (C := LiveEffect) (cfg := cfg true) (roots := [3]) acts3
    (ok1 _ trivial)
    (fun s => decide (s.log =
      [.finished false, .completed 4 (.ran 2), .succeeded 2, .start 2 [0, 1], .failed 0,
       .start 0 [0], .completed 1 .applied, .apply 1 [0], .completed 0 .source] ∧
       s.bs 3 = .buildable ∧ 3 ∈ s.g.nodes ∧ 2 ∈ s.g.children 3 ∧ s.g.kind 2 = .gen ∧ s.g.tr 2 = 0))
    (by decide +kernel)
  simp only [decide_eq_true_eq] at h2
  obtain ⟨h2, h3, h4, h5, h6, h7⟩ := h2
  refine ⟨s, h1, ⟨false, by simp [h2]⟩, ⟨?_, by simp [h2]⟩, by simp [h2], h4,
    .step 3 2 .refl h5, h6, h7, ⟨.ran 2, by simp [h2]⟩,
    .inr (.inr (.inl ⟨rfl, 3, by simp, by simp [h3]⟩))⟩
  rintro ⟨js, hj⟩; simp [h2] at hj

/-- Non-vacuity of C19: a request arrives while a job is running, the timer notices it, the job is
    told to stop, and the build ends when the job has ended. -/
def acts4 : List Act := acts1 ++ [.request, .timer, .jobEnds 0, .fail 0]

/-- C19, what does not hold: a build canceled by the timer does not report the cancellation.
    `finished` is emitted with `m_explicitlyCanceled` false (checkForCancellation:1022-1030 does
    not set it), so "Build canceled" (executor.cpp:996-1000) is missing. If no root of a primary
    product is affected and keep-going is on, the canceled build reports no error at all, although
    transformer 2, whose output was part of the build, was never launched. -/
theorem C19_timer_cancel_unreported : ∃ s, Reach (cfg true) LiveEffect g0 [3] s ∧
    Finished s.log ∧ Canceled s.log ∧ HappenedAfter s.log (.cancelJobs [0])
      [.start 0 [0], .completed 1 .applied, .apply 1 [0], .completed 0 .source] ∧
    s.cancelRequested = true ∧ ¬ ReportsError (cfg true) [0] s ∧ ¬ Completed s.log 4 := by
  obtain ⟨s, h1, h2⟩ := script (C := LiveEffect) (cfg := cfg true) (roots := [3]) acts4
    (ok1 _ trivial)
    (fun s => decide (s.log =
      [.finished false, .failed 0, .cancelJobs [0],
       .start 0 [0], .completed 1 .applied, .apply 1 [0], .completed 0 .source] ∧
       s.bs 0 = .built ∧ s.explicitly = false ∧ s.cancelRequested = true))
    (by decide +kernel)
  simp only [decide_eq_true_eq] at h2
  obtain ⟨h2, h3, h4, h5⟩ := h2
  refine ⟨s, h1, ⟨false, by simp [h2]⟩, ⟨[0], by simp [h2]⟩, ⟨[_, _], h2⟩, h5, ?_, ?_⟩
  · rintro (h | ⟨h, _⟩ | ⟨_, n, hn, h⟩ | h)
    · simp [h2] at h
    · simp [cfg] at h
    · simp only [List.mem_singleton] at hn; subst hn; exact h h3
    · simp [h4] at h
  · rintro ⟨w, hw⟩; simp [h2] at hw

/-- Non-vacuity of `C19_request_stops_new_work`. -/
example : ∃ s, Reach (cfg false) LiveEffect g0 [3] s ∧ s.cancelRequested = true ∧
    s.phase ≠ .scheduling ∧ s.leaves = [4] ∧ s.bs 4 = .buildable := by
  obtain ⟨s, h1, h2⟩ := script (C := LiveEffect) (cfg := cfg false) (roots := [3])
    (acts1 ++ [.request]) (ok1 [.request] trivial)
    (fun s => decide (s.cancelRequested = true ∧
    s.phase ≠ .scheduling ∧ s.leaves = [4] ∧ s.bs 4 = .buildable))
    (by decide +kernel)
  exact ⟨s, h1, by simpa using h2⟩

/-- C19, the other limit: a request that comes in during a scheduling pass does not stop this pass;
    commands are still launched. -/
theorem C19_request_during_pass : ∃ s pre, Reach (cfg false) LiveEffect g0 [3] pre ∧
    pre.cancelRequested = true ∧ Started s.log 0 ∧ ¬ Started pre.log 0 ∧
    Step (cfg false) LiveEffect pre s := by
  obtain ⟨s, h1, h2⟩ := script (C := LiveEffect) (g := g0) (cfg := cfg false) (roots := [3])
    [.source 0, .request] trivial
    (fun s => decide (s.cancelRequested = true ∧ s.log = [.completed 0 .source]) &&
      (((exec (cfg false) s (.run 1)).map fun (s' : St) => decide (Ev.start 0 [0] ∈ s'.log)).getD false))
    (by decide +kernel)
  simp only [Bool.and_eq_true, decide_eq_true_eq] at h2
  obtain ⟨⟨h2, h3⟩, h4⟩ := h2
  cases he : exec (cfg false) s (.run 1) with
  | none => rw [he] at h4; simp at h4
  | some s' =>
    rw [he] at h4
    refine ⟨s', s, h1, h2, ⟨[0], by simpa using h4⟩, ?_, (exec_step (a := .run 1) LiveEffect (s := s) [] trivial he).1⟩
    rintro ⟨d, hd⟩; simp [h3] at hd

/-- Non-vacuity of C49: with rules only, the rule is applied and the artifact's transformer is passed
    over. -/
example : ∃ s, Reach { cfg false with executeRulesOnly := true } LiveEffect g0 [3] s ∧
    s.log = [.completed 2 (.skipped 0), .completed 1 .applied, .apply 1 [0],
      .completed 0 .source] := by
  obtain ⟨s, h1, h2⟩ := script (C := LiveEffect) (cfg := { cfg false with executeRulesOnly := true })
    (roots := [3]) [.source 0, .rule 0 1 eff, .upToDate 1] ⟨effOk, trivial⟩
    (fun s => decide (s.log = [.completed 2 (.skipped 0), .completed 1 .applied, .apply 1 [0],
      .completed 0 .source]))
    (by decide +kernel)
  exact ⟨s, h1, by simpa using h2⟩

/-- Non-vacuity of C50: a partial build in which product 0 is selected launches commands and
    applies a rule. -/
example : ∃ s, Reach { cfg false with partialBuild := true, buildable := fun p => p == 0 }
      LiveEffect g0 [3] s ∧ Ev.start 0 [0] ∈ s.log ∧ Ev.apply 1 [0] ∈ s.log := by
  obtain ⟨s, h1, h2⟩ := script (C := LiveEffect)
    (cfg := { cfg false with partialBuild := true, buildable := fun p => p == 0 })
    (roots := [3]) acts1 (ok1 [] trivial)
    (fun s => decide (Ev.start 0 [0] ∈ s.log ∧ Ev.apply 1 [0] ∈ s.log))
    (by decide +kernel)
  exact ⟨s, h1, by simpa using h2⟩

/-! ### C14 without the assumption on siblings -/

/-- Sources 0 and 1; artifacts 2 and 3 of the same transformer, but only 3 depends on 1 (per-artifact
    `explicitlyDependsOn`, rulesapplicator.cpp:653-658). -/
def gSib : Graph where
  nodes := [0, 1, 2, 3]
  kind := fun n => if n < 2 then .source else .gen
  tr := fun _ => 0
  product := fun _ => 0
  children := fun n => if n = 2 then [0] else if n = 3 then [0, 1] else []

/-- C14 fails for such a graph: the commands are launched when the dependencies of the first output
    are there, although the other output depends on something that has not been completed.
    -/
theorem C14_unequal_siblings_violation : ∃ s, Reach (cfg false) LiveEffect gSib [2, 3] s ∧
    ∃ pre, HappenedAfter s.log (.start 0 [0, 0, 1]) pre ∧ ¬ Completed pre 1 := by
  obtain ⟨s, h1, h2⟩ := script (C := LiveEffect) (g := gSib) (cfg := cfg false) (roots := [2, 3])
    [.source 1, .run 1] trivial
    (fun s => decide (s.log = [.start 0 [0, 0, 1], .completed 0 .source]))
    (by decide +kernel)
  simp only [decide_eq_true_eq] at h2
  refine ⟨s, h1, _, ⟨[], h2⟩, ?_⟩
  rintro ⟨w, hw⟩; simp at hw

/-! ### C17 without the assumption on waiting nodes -/

/-- Source 0; rule node 1; artifact 2 made by it; artifact 3 made from 0 and depending on 2. -/
def gHang : Graph where
  nodes := [0, 1, 2, 3]
  kind := fun n => if n = 0 then .source else if n = 1 then .rule else .gen
  tr := fun n => n - 2
  product := fun _ => 0
  children := fun n => if n = 1 then [0] else if n = 2 then [1] else if n = 3 then [0, 2] else []

/-- The rule no longer produces 2; 3 keeps its other dependency. -/
def gHang' : Graph where
  nodes := [0, 1, 3]
  kind := gHang.kind
  tr := gHang.tr
  product := gHang.product
  children := fun n => if n = 1 then [0] else if n = 3 then [0] else []

theorem hangOk (s : St) (hg : s.g = gHang) : SafeEffect s 1 ⟨gHang', [], []⟩ := by
  constructor
  case wf => constructor <;> decide
  case removed =>
    rw [hg]
    intro n hn hn'
    have : n = 2 := (by decide : ∀ n ∈ gHang.nodes, n ∉ gHang'.nodes → n = 2) n hn hn'
    subst this
    exact .output 2 (by decide) (by decide) (by decide)
  all_goals first | rw [hg]; decide | decide

/-- C17 fails if a rule application takes the last unfinished dependency away from a waiting
    artifact: nothing puts that artifact back into the queue (executor.cpp:580-595 only looks at
    created and invalidated artifacts), and the build ends, undisturbed, without having built it.
    The user is told that the product could not be built. -/
theorem C17_lost_dependency_hangs : WF gHang ∧ Acyclic gHang ∧
    ∃ s, Reach (cfg false) SafeEffect gHang [3] s ∧ Finished s.log ∧ Clean s.log ∧
      (∀ t, Ev.failed t ∉ s.log) ∧ 3 ∈ s.g.nodes ∧ ¬ Completed s.log 3 ∧
      (∀ c ∈ s.g.children 3, Completed s.log c) ∧ ReportsError (cfg false) [3] s := by
  refine ⟨by constructor <;> decide, ⟨id, by decide⟩, ?_⟩
  obtain ⟨s, h1, h2⟩ := script (C := SafeEffect) (cfg := cfg false) (roots := [3])
    [.source 0, .rule 0 1 ⟨gHang', [], []⟩, .endLoop, .finishLater] ⟨hangOk, trivial⟩
    (fun s => decide (s.log =
      [.finished false, .completed 1 .applied, .apply 1 [0], .completed 0 .source] ∧
       s.bs 3 = .buildable ∧ 3 ∈ s.g.nodes ∧ s.g.children 3 = [0]))
    (by decide +kernel)
  simp only [decide_eq_true_eq] at h2
  obtain ⟨h2, h3, h4, h5⟩ := h2
  refine ⟨s, h1, ⟨false, by simp [h2]⟩, ⟨?_, by simp [h2]⟩, by simp [h2], h4, ?_, ?_,
    .inr (.inr (.inl ⟨rfl, 3, by simp, by simp [h3]⟩))⟩
  · rintro ⟨js, hj⟩; simp [h2] at hj
  · rintro ⟨w, hw⟩; simp [h2] at hw
  · rw [h5]; intro c hc
    simp only [List.mem_singleton] at hc; subst hc
    exact ⟨.source, by simp [h2]⟩

/-- C18, what does not hold: with keep-going a failing transformer that no root node of a primary
    product depends on is only mentioned in the log; the build itself reports success. -/
theorem C18_keep_going_failure_unreported : ∃ s, Reach (cfg true) LiveEffect g0 [3] s ∧
    Finished s.log ∧ Ev.failed 0 ∈ s.log ∧ ¬ ReportsError (cfg true) [4] s := by
  obtain ⟨s, h1, h2⟩ := script (C := LiveEffect) (cfg := cfg true) (roots := [3]) acts3
    (ok1 _ trivial)
    (fun s => decide (s.log =
      [.finished false, .completed 4 (.ran 2), .succeeded 2, .start 2 [0, 1], .failed 0,
       .start 0 [0], .completed 1 .applied, .apply 1 [0], .completed 0 .source] ∧
       s.bs 4 = .built ∧ s.explicitly = false))
    (by decide +kernel)
  simp only [decide_eq_true_eq] at h2
  obtain ⟨h2, h3, h4⟩ := h2
  refine ⟨s, h1, ⟨false, by simp [h2]⟩, by simp [h2], ?_⟩
  rintro (h | ⟨h, _⟩ | ⟨_, n, hn, h⟩ | h)
  · simp [h2] at h
  · simp [cfg] at h
  · simp only [List.mem_singleton] at hn; subst hn; exact h h3
  · simp [h4] at h

end Verif.Exec.Witness
