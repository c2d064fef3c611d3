import Verif.Common.Snoc
/-!
# Waiting for threads, and canceling, while a project is resolved (C52)

Model of how the scheduler of src/lib/corelib/loader/productsresolver.cpp and its threads wait for each other
(`runScheduler` 224-253, `startJob` 350-402, `checkForCancelation` 404-413, `handleFinishedThreads` 415-428), of
src/lib/corelib/loader/loaderutils.cpp 125-131 and of src/lib/corelib/loader/productresolver.cpp 196-224, 231-234.
There are several threads (`std::launch::async`). What is resolved is left out: the scheduler starts any number of
threads. The two mutexes are `m_cancelingMutex` ("C") and `m_threadsMutex` ("T"); who holds them follows from where
everybody is. The condition variable does not wake up anybody without a reason.
-/
namespace Verif.Sched.Locks

/-- Where a thread is. -/
inductive Pc
  /-- before `checkCancelation` in `ProductResolverStage1::start` -/
  | start
  | work
  /-- at `std::lock_guard cancelingLock(m_cancelingMutex)` -/
  | wantC
  /-- has C, at `ThreadsLocker threadsLock(..)` -/
  | wantT
  /-- has C and T -/
  | marking
  /-- has C, about to unlock it -/
  | leaving
  | ended
deriving DecidableEq, Repr

/-- A thread, with `ThreadInfo::done`. -/
structure Thr where
  pc : Pc
  done : Bool
deriving DecidableEq, Repr

/-- Where the scheduler is. -/
inductive Sc
  /-- in `scheduleNext`, with T -/
  | scheduling
  /-- in `m_threadsNotifier.wait`, without T -/
  | waiting
  /-- notified, wants T -/
  | woken
  /-- in `checkForCancelation`, with T -/
  | checking
  /-- has T, wants C -/
  | wantC
  /-- has T, in the loop that waits for all threads -/
  | joining
  /-- in `handleFinishedThreads`, with T -/
  | handling
  | finished
  | canceled
deriving DecidableEq, Repr

structure State where
  threads : List Thr
  sched : Sc
  /-- `ProgressObserver::canceled` -/
  requested : Bool
  /-- `TopLevelProjectContext::m_canceled` -/
  canceled : Bool
  /-- `m_canceling` -/
  canceling : Bool
deriving DecidableEq, Repr

def initial : State := ⟨[], .scheduling, false, false, false⟩

def holdsC (t : Thr) : Bool := t.pc == .wantT || t.pc == .marking || t.pc == .leaving

/-- Is `m_cancelingMutex` free? -/
def freeC (s : State) : Bool := !s.threads.any holdsC

def schedHoldsT : Sc → Bool
  | .scheduling | .checking | .wantC | .joining | .handling => true
  | _ => false

/-- Is `m_threadsMutex` free? -/
def freeT (s : State) : Bool := !schedHoldsT s.sched && !s.threads.any (fun t => t.pc == .marking)

/-- What threads and scheduler can do. -/
inductive Step : State → State → Prop
  /-- `checkCancelation` throws what nobody but `std::async` catches, loaderutils.cpp 127-130,
      productresolver.cpp 198-206, 234 -/
  | throw {pre post : List Thr} {d : Bool} {s : State} : s.threads = pre ++ ⟨.start, d⟩ :: post →
      s.requested = true ∨ s.canceled = true →
      Step s { s with threads := pre ++ ⟨.ended, d⟩ :: post, canceled := true }
  | begin {pre post : List Thr} {d : Bool} {s : State} : s.threads = pre ++ ⟨.start, d⟩ :: post → s.canceled = false →
      s.requested = false → Step s { s with threads := pre ++ ⟨.work, d⟩ :: post }
  /-- end of `resolveProduct` -/
  | resolved {pre post : List Thr} {d : Bool} {s : State} : s.threads = pre ++ ⟨.work, d⟩ :: post →
      Step s { s with threads := pre ++ ⟨.wantC, d⟩ :: post }
  /-- the script engine is interrupted, productresolver.cpp 201-204, 218-221 -/
  | interrupted {pre post : List Thr} {d : Bool} {s : State} : s.threads = pre ++ ⟨.work, d⟩ :: post →
      s.requested = true → Step s { s with threads := pre ++ ⟨.wantC, d⟩ :: post, canceled := true }
  /-- productsresolver.cpp 368-371 -/
  | lockC {pre post : List Thr} {d : Bool} {s : State} : s.threads = pre ++ ⟨.wantC, d⟩ :: post → freeC s = true →
      Step s { s with threads := pre ++ ⟨if s.canceling then .leaving else .wantT, d⟩ :: post }
  | lockT {pre post : List Thr} {d : Bool} {s : State} : s.threads = pre ++ ⟨.wantT, d⟩ :: post → freeT s = true →
      Step s { s with threads := pre ++ ⟨.marking, d⟩ :: post }
  /-- productsresolver.cpp 372-379, and unlocking T -/
  | mark {pre post : List Thr} {d : Bool} {s : State} : s.threads = pre ++ ⟨.marking, d⟩ :: post →
      Step s { s with
        threads := pre ++ ⟨.leaving, true⟩ :: post, sched := if s.sched = .waiting then .woken else s.sched }
  | unlockC {pre post : List Thr} {d : Bool} {s : State} : s.threads = pre ++ ⟨.leaving, d⟩ :: post →
      Step s { s with threads := pre ++ ⟨.ended, d⟩ :: post }
  /-- `startJob` -/
  | spawn {s : State} : s.sched = .scheduling → Step s { s with threads := s.threads ++ [⟨.start, false⟩] }
  /-- productsresolver.cpp 236-242 -/
  | wait {s : State} : s.sched = .scheduling → Step s { s with sched := if s.threads = [] then .finished else .waiting }
  | wake {s : State} : s.sched = .woken → freeT s = true → Step s { s with sched := .checking }
  /-- productsresolver.cpp 406 -/
  | check {s : State} : s.sched = .checking → Step s { s with sched := if s.canceled then .wantC else .handling }
  /-- productsresolver.cpp 407-409 -/
  | cancel {s : State} : s.sched = .wantC → freeC s = true → Step s { s with sched := .joining, canceling := true }
  /-- productsresolver.cpp 410-412 -/
  | join {s : State} : s.sched = .joining → (∀ t ∈ s.threads, t.pc = .ended) → Step s { s with sched := .canceled }
  /-- productsresolver.cpp 422-432; the threads' futures are waited for -/
  | handle {s : State} : s.sched = .handling → (∀ t ∈ s.threads, t.done = true → t.pc = .ended) →
      Step s { s with sched := .scheduling, threads := s.threads.filter (fun t => !t.done) }

/-- The states that can be reached. The user may cancel at any time. -/
inductive Reachable : State → Prop
  | init : Reachable initial
  | step {s s' : State} : Reachable s → Step s s' → Reachable s'
  | request {s : State} : Reachable s → Reachable { s with requested := true }

/-- `runScheduler` has returned or thrown. -/
def Over (s : State) : Prop := s.sched = .finished ∨ s.sched = .canceled

/-- All threads have ended, but the scheduler waits to be notified. -/
def HangsWaiting (s : State) : Prop := s.sched = .waiting ∧ ∀ t ∈ s.threads, t.pc = .ended

/-- The scheduler has T and wants C, a thread has C and wants T. -/
def HangsLocking (s : State) : Prop := s.sched = .wantC ∧ ∃ t ∈ s.threads, t.pc = .wantT

structure Inv (s : State) : Prop where
  /-- a thread that has ended without saying so is one that threw, or there is canceling -/
  silent : ∀ t ∈ s.threads, t.done = false → (t.pc = .ended ∨ t.pc = .leaving) → s.canceled = true
  loud : ∀ t ∈ s.threads, t.done = true → t.pc = .ended ∨ t.pc = .leaving
  waiting : s.sched = .waiting → s.threads ≠ [] ∧ ∀ t ∈ s.threads, t.done = false
  quiet : s.sched = .scheduling → ∀ t ∈ s.threads, t.done = false
  mutexT : schedHoldsT s.sched = true → ∀ t ∈ s.threads, t.pc ≠ .marking
  flag : s.canceled = true → s.requested = true
  wantC : s.sched = .wantC → s.canceled = true
  joining : s.sched = .joining → s.canceling = true
  canceling : s.canceling = true → s.canceled = true ∧ (s.sched = .joining ∨ s.sched = .canceled) ∧
    ∀ t ∈ s.threads, t.pc ≠ .wantT ∧ t.pc ≠ .marking

theorem mem_replace {pre post : List Thr} {a b t : Thr} (h : t ∈ pre ++ b :: post) :
    t = b ∨ t ∈ pre ++ a :: post := by
  rcases List.mem_append.mp h with h | h
  · exact Or.inr (List.mem_append_left _ h)
  · rcases List.mem_cons.mp h with h | h
    · exact Or.inl h
    · exact Or.inr (List.mem_append_right _ (List.mem_cons_of_mem _ h))

theorem mem_mid {pre post : List Thr} {a : Thr} : a ∈ pre ++ a :: post :=
  List.mem_append_right _ List.mem_cons_self

theorem freeC_iff {s : State} : freeC s = true ↔ ∀ t ∈ s.threads, t.pc ≠ .wantT ∧ t.pc ≠ .marking ∧ t.pc ≠ .leaving := by
  unfold freeC holdsC
  rw [Bool.not_eq_true', List.any_eq_false]
  simp only [Bool.or_eq_true, beq_iff_eq, not_or, and_assoc]

theorem freeT_iff {s : State} : freeT s = true ↔ schedHoldsT s.sched = false ∧ ∀ t ∈ s.threads, t.pc ≠ .marking := by
  unfold freeT
  rw [Bool.and_eq_true, Bool.not_eq_true', Bool.not_eq_true', List.any_eq_false]
  simp only [beq_iff_eq]

theorem inv_replace {s : State} (h : Inv s) {pre post : List Thr} {a b : Thr} (hs : s.threads = pre ++ a :: post)
    {c : Bool} (hc : s.canceled = true → c = true) (hreq : c = true → s.requested = true)
    (h1 : b.done = false → (b.pc = .ended ∨ b.pc = .leaving) → c = true)
    (h2 : b.done = true → b.pc = .ended ∨ b.pc = .leaving)
    (h3 : b.done = a.done)
    (h4 : s.canceling = true → b.pc ≠ .wantT ∧ b.pc ≠ .marking)
    (h5 : schedHoldsT s.sched = true → b.pc ≠ .marking) :
    Inv { s with threads := pre ++ b :: post, canceled := c } := by
  refine ⟨?_, ?_, ?_, ?_, ?_, hreq, fun hw => hc (h.wantC hw), h.joining, ?_⟩
  · intro t ht hd hp
    rcases mem_replace (a := a) ht with rfl | ht
    · exact h1 hd hp
    · exact hc (h.silent t (by rw [hs]; exact ht) hd hp)
  · intro t ht hd
    rcases mem_replace (a := a) ht with rfl | ht
    · exact h2 hd
    · exact h.loud t (by rw [hs]; exact ht) hd
  · intro hw
    obtain ⟨_, hall⟩ := h.waiting hw
    refine ⟨by simp, ?_⟩
    intro t ht
    rcases mem_replace (a := a) ht with rfl | ht
    · rw [h3]; exact hall a (by rw [hs]; exact mem_mid)
    · exact hall t (by rw [hs]; exact ht)
  · intro hw t ht
    rcases mem_replace (a := a) ht with rfl | ht
    · rw [h3]; exact h.quiet hw a (by rw [hs]; exact mem_mid)
    · exact h.quiet hw t (by rw [hs]; exact ht)
  · intro hw t ht
    rcases mem_replace (a := a) ht with rfl | ht
    · exact h5 hw
    · exact h.mutexT hw t (by rw [hs]; exact ht)
  · intro hcc
    obtain ⟨g1, g2, g3⟩ := h.canceling hcc
    refine ⟨hc g1, g2, ?_⟩
    intro t ht
    rcases mem_replace (a := a) ht with rfl | ht
    · exact h4 hcc
    · exact g3 t (by rw [hs]; exact ht)

theorem inv_step {s s' : State} (h : Inv s) (hs : Step s s') : Inv s' := by
  cases hs with
  | @throw pre post d _ ht hr =>
    refine inv_replace h ht (fun _ => rfl) (fun _ => ?_) (fun _ _ => rfl) (fun _ => Or.inl rfl) rfl
      (fun _ => by simp) (fun _ => by simp)
    rcases hr with hr | hr
    · exact hr
    · exact h.flag hr
  | @begin pre post d _ ht hc hr =>
    refine inv_replace (c := s.canceled) h ht (fun hx => hx) h.flag ?_ ?_ rfl (fun _ => by simp) (fun _ => by simp)
    · intro _ hp; rcases hp with hp | hp <;> cases hp
    · intro hd
      have := h.loud ⟨.start, d⟩ (by rw [ht]; exact mem_mid) hd
      rcases this with hp | hp <;> cases hp
  | @resolved pre post d _ ht =>
    refine inv_replace (c := s.canceled) h ht (fun hx => hx) h.flag ?_ ?_ rfl (fun _ => by simp) (fun _ => by simp)
    · intro _ hp; rcases hp with hp | hp <;> cases hp
    · intro hd
      have := h.loud ⟨.work, d⟩ (by rw [ht]; exact mem_mid) hd
      rcases this with hp | hp <;> cases hp
  | @interrupted pre post d _ ht hr =>
    refine inv_replace h ht (fun _ => rfl) (fun _ => hr) (fun _ _ => rfl) ?_ rfl (fun _ => by simp) (fun _ => by simp)
    intro hd
    have := h.loud ⟨.work, d⟩ (by rw [ht]; exact mem_mid) hd
    rcases this with hp | hp <;> cases hp
  | @lockC pre post d _ ht hf =>
    have hd : d = false := by
      apply Classical.byContradiction
      intro hn
      have := h.loud ⟨.wantC, d⟩ (by rw [ht]; exact mem_mid) (by simpa using hn)
      rcases this with hp | hp <;> cases hp
    refine inv_replace (c := s.canceled) h ht (fun hx => hx) h.flag ?_ ?_ rfl ?_ ?_
    · intro _ hp
      by_cases hc : s.canceling = true
      · exact (h.canceling hc).1
      · simp only [if_neg hc] at hp
        rcases hp with hp | hp <;> cases hp
    · intro hx
      rw [hd] at hx
      cases hx
    · intro hc
      simp [hc]
    · intro _
      show (if s.canceling then Pc.leaving else .wantT) ≠ .marking
      split <;> simp
  | @lockT pre post d _ ht hf =>
    refine inv_replace (c := s.canceled) h ht (fun hx => hx) h.flag ?_ ?_ rfl ?_ ?_
    · intro _ hp; rcases hp with hp | hp <;> cases hp
    · intro hd
      have := h.loud ⟨.wantT, d⟩ (by rw [ht]; exact mem_mid) hd
      rcases this with hp | hp <;> cases hp
    · intro hc
      exact absurd rfl ((h.canceling hc).2.2 ⟨.wantT, d⟩ (by rw [ht]; exact mem_mid)).1
    · intro hx
      rw [(freeT_iff.mp hf).1] at hx
      cases hx
  | @mark pre post d _ ht =>
    have hnc : s.canceling = false := by
      rw [← Bool.not_eq_true]
      intro hc
      exact absurd rfl ((h.canceling hc).2.2 ⟨.marking, d⟩ (by rw [ht]; exact mem_mid)).2
    have hnt : schedHoldsT s.sched = false := by
      rw [← Bool.not_eq_true]
      intro hx
      exact h.mutexT hx ⟨.marking, d⟩ (by rw [ht]; exact mem_mid) rfl
    refine ⟨?_, ?_, ?_, ?_, ?_, h.flag, ?_, ?_, ?_⟩
    · intro t htm hd hp
      rcases mem_replace (a := ⟨.marking, d⟩) htm with rfl | htm
      · cases hd
      · exact h.silent t (by rw [ht]; exact htm) hd hp
    · intro t htm hd
      rcases mem_replace (a := ⟨.marking, d⟩) htm with rfl | htm
      · exact Or.inr rfl
      · exact h.loud t (by rw [ht]; exact htm) hd
    · intro hw
      have hw : (if s.sched = .waiting then Sc.woken else s.sched) = .waiting := hw
      by_cases hsw : s.sched = .waiting
      · rw [if_pos hsw] at hw; cases hw
      · rw [if_neg hsw] at hw; exact absurd hw hsw
    · intro hw
      have hw : (if s.sched = .waiting then Sc.woken else s.sched) = .scheduling := hw
      by_cases hsw : s.sched = .waiting
      · rw [if_pos hsw] at hw; cases hw
      · rw [if_neg hsw] at hw; rw [hw] at hnt; cases hnt
    · intro hw
      have hw : schedHoldsT (if s.sched = .waiting then Sc.woken else s.sched) = true := hw
      by_cases hsw : s.sched = .waiting
      · rw [if_pos hsw] at hw; cases hw
      · rw [if_neg hsw] at hw; rw [hw] at hnt; cases hnt
    · intro hw
      have hw : (if s.sched = .waiting then Sc.woken else s.sched) = .wantC := hw
      by_cases hsw : s.sched = .waiting
      · rw [if_pos hsw] at hw; cases hw
      · rw [if_neg hsw] at hw; exact h.wantC hw
    · intro hw
      have hw : (if s.sched = .waiting then Sc.woken else s.sched) = .joining := hw
      by_cases hsw : s.sched = .waiting
      · rw [if_pos hsw] at hw; cases hw
      · rw [if_neg hsw] at hw; exact h.joining hw
    · intro hc
      have hc : s.canceling = true := hc
      rw [hnc] at hc; cases hc
  | @unlockC pre post d _ ht =>
    refine inv_replace (c := s.canceled) h ht (fun hx => hx) h.flag ?_ (fun _ => Or.inl rfl) rfl (fun _ => by simp)
      (fun _ => by simp)
    intro hd _
    exact h.silent ⟨.leaving, d⟩ (by rw [ht]; exact mem_mid) hd (Or.inr rfl)
  | spawn hsc =>
    have hmem : ∀ t, t ∈ s.threads ++ [⟨.start, false⟩] → t ∈ s.threads ∨ t = ⟨.start, false⟩ := by
      intro t ht
      rcases List.mem_append.mp ht with ht | ht
      · exact Or.inl ht
      · exact Or.inr (List.mem_singleton.mp ht)
    refine ⟨?_, ?_, ?_, ?_, ?_, h.flag, ?_, ?_, ?_⟩
    · intro t ht hd hp
      rcases hmem t ht with ht | rfl
      · exact h.silent t ht hd hp
      · rcases hp with hp | hp <;> cases hp
    · intro t ht hd
      rcases hmem t ht with ht | rfl
      · exact h.loud t ht hd
      · cases hd
    · intro hw
      have hw : s.sched = .waiting := hw
      rw [hsc] at hw; cases hw
    · intro _ t ht
      rcases hmem t ht with ht | rfl
      · exact h.quiet hsc t ht
      · rfl
    · intro hw t ht
      rcases hmem t ht with ht | rfl
      · exact h.mutexT hw t ht
      · simp
    · exact h.wantC
    · exact h.joining
    · intro hc
      have := (h.canceling hc).2.1
      rw [hsc] at this
      rcases this with hp | hp <;> cases hp
  | wait hsc =>
    have hnc : s.canceling = false := by
      rw [← Bool.not_eq_true]
      intro hc
      have := (h.canceling hc).2.1
      rw [hsc] at this
      rcases this with hp | hp <;> cases hp
    have hsch : (if s.threads = [] then Sc.finished else .waiting) = .finished ∨
        (if s.threads = [] then Sc.finished else .waiting) = .waiting := by
      split
      · exact Or.inl rfl
      · exact Or.inr rfl
    refine ⟨h.silent, h.loud, ?_, ?_, ?_, h.flag, ?_, ?_, ?_⟩
    · intro hw
      have hw : (if s.threads = [] then Sc.finished else .waiting) = .waiting := hw
      refine ⟨?_, h.quiet hsc⟩
      intro hn
      rw [if_pos hn] at hw
      cases hw
    · intro hw
      rcases hsch with hx | hx <;> rw [hx] at hw <;> cases hw
    · intro hw
      have hw : schedHoldsT (if s.threads = [] then Sc.finished else .waiting) = true := hw
      rcases hsch with hx | hx <;> rw [hx] at hw <;> cases hw
    · intro hw
      rcases hsch with hx | hx <;> rw [hx] at hw <;> cases hw
    · intro hw
      rcases hsch with hx | hx <;> rw [hx] at hw <;> cases hw
    · intro hc
      have hc : s.canceling = true := hc
      rw [hnc] at hc; cases hc
  | wake hsc hf =>
    refine ⟨h.silent, h.loud, (fun hw => by cases hw), (fun hw => by cases hw), (fun _ => (freeT_iff.mp hf).2), h.flag,
      (fun hw => by cases hw), (fun hw => by cases hw), ?_⟩
    intro hc
    have := (h.canceling hc).2.1
    rw [hsc] at this
    rcases this with hp | hp <;> cases hp
  | check hsc =>
    have hsch : (if s.canceled then Sc.wantC else .handling) = .wantC ∨
        (if s.canceled then Sc.wantC else .handling) = .handling := by
      split
      · exact Or.inl rfl
      · exact Or.inr rfl
    refine ⟨h.silent, h.loud, ?_, ?_, (fun _ => h.mutexT (by rw [hsc]; rfl)), h.flag, ?_, ?_, ?_⟩
    · intro hw
      rcases hsch with hx | hx <;> rw [hx] at hw <;> cases hw
    · intro hw
      rcases hsch with hx | hx <;> rw [hx] at hw <;> cases hw
    · intro hw
      have hw : (if s.canceled then Sc.wantC else .handling) = .wantC := hw
      by_cases hc : s.canceled = true
      · exact hc
      · rw [if_neg hc] at hw; cases hw
    · intro hw
      rcases hsch with hx | hx <;> rw [hx] at hw <;> cases hw
    · intro hc
      have := (h.canceling hc).2.1
      rw [hsc] at this
      rcases this with hp | hp <;> cases hp
  | cancel hsc hf =>
    refine ⟨h.silent, h.loud, (fun hw => by cases hw), (fun hw => by cases hw),
      (fun _ => h.mutexT (by rw [hsc]; rfl)), h.flag, (fun hw => by cases hw), (fun _ => rfl), ?_⟩
    intro _
    exact ⟨h.wantC hsc, Or.inl rfl, fun t ht => ⟨(freeC_iff.mp hf t ht).1, (freeC_iff.mp hf t ht).2.1⟩⟩
  | join hsc hall =>
    refine ⟨h.silent, h.loud, (fun hw => by cases hw), (fun hw => by cases hw), (fun hw => by cases hw), h.flag,
      (fun hw => by cases hw), (fun hw => by cases hw), ?_⟩
    intro hc
    exact ⟨(h.canceling hc).1, Or.inr rfl, (h.canceling hc).2.2⟩
  | handle hsc hall =>
    have hsub : ∀ t ∈ s.threads.filter (fun t => !t.done), t ∈ s.threads ∧ t.done = false := by
      intro t ht
      have := List.mem_filter.mp ht
      exact ⟨this.1, by simpa using this.2⟩
    refine ⟨fun t ht => h.silent t (hsub t ht).1, fun t ht => h.loud t (hsub t ht).1, (fun hw => by cases hw),
      (fun _ t ht => (hsub t ht).2), (fun _ t ht => h.mutexT (by rw [hsc]; rfl) t (hsub t ht).1), h.flag,
      (fun hw => by cases hw), (fun hw => by cases hw), ?_⟩
    intro hc
    have := (h.canceling hc).2.1
    rw [hsc] at this
    rcases this with hp | hp <;> cases hp

theorem inv_reachable {s : State} (h : Reachable s) : Inv s := by
  induction h with
  | init =>
    refine ⟨?_, ?_, ?_, ?_, ?_, ?_, ?_, ?_, ?_⟩
    · intro t ht; cases ht
    · intro t ht; cases ht
    · intro hw; cases hw
    · intro _ t ht; cases ht
    · intro _ t ht; cases ht
    · intro hw; cases hw
    · intro hw; cases hw
    · intro hw; cases hw
    · intro hw; cases hw
  | step _ hs ih => exact inv_step ih hs
  | request _ ih =>
    exact ⟨ih.silent, ih.loud, ih.waiting, ih.quiet, ih.mutexT, fun _ => rfl, ih.wantC, ih.joining, ih.canceling⟩

theorem split_mem {l : List Thr} {t : Thr} (h : t ∈ l) : ∃ pre post, l = pre ++ t :: post :=
  List.append_of_mem h

/-- A thread that is not done can go on, unless it needs a mutex that somebody else has. -/
theorem thread_step {s : State} {t : Thr} (ht : t ∈ s.threads)
    (h : t.pc = .start ∨ t.pc = .work ∨ t.pc = .marking ∨ t.pc = .leaving ∨ (t.pc = .wantC ∧ freeC s = true) ∨
      (t.pc = .wantT ∧ freeT s = true)) : ∃ s', Step s s' := by
  obtain ⟨pre, post, hs⟩ := split_mem ht
  obtain ⟨pc, d⟩ := t
  rcases h with h | h | h | h | ⟨h, hf⟩ | ⟨h, hf⟩
  · have h : pc = .start := h
    subst h
    by_cases hc : s.canceled = true
    · exact ⟨_, .throw hs (Or.inr hc)⟩
    · by_cases hr : s.requested = true
      · exact ⟨_, .throw hs (Or.inl hr)⟩
      · exact ⟨_, .begin hs (by simpa using hc) (by simpa using hr)⟩
  · have h : pc = .work := h
    subst h
    exact ⟨_, .resolved hs⟩
  · have h : pc = .marking := h
    subst h
    exact ⟨_, .mark hs⟩
  · have h : pc = .leaving := h
    subst h
    exact ⟨_, .unlockC hs⟩
  · have h : pc = .wantC := h
    subst h
    exact ⟨_, .lockC hs hf⟩
  · have h : pc = .wantT := h
    subst h
    exact ⟨_, .lockT hs hf⟩

/-- If no thread can go on, all have ended or somebody is at the mutexes. -/
theorem threads_stuck {s : State} (h : ¬∃ s', Step s s') : ∀ t ∈ s.threads, t.pc = .ended ∨
    (t.pc = .wantT ∧ freeT s = false) ∨ (t.pc = .wantC ∧ ∃ u ∈ s.threads, u.pc = .wantT ∧ freeT s = false) := by
  have hmid : ∀ t ∈ s.threads, t.pc = .wantT → freeT s = false := by
    intro t ht hp
    rw [← Bool.not_eq_true]
    intro hf
    exact h (thread_step ht (Or.inr (Or.inr (Or.inr (Or.inr (Or.inr ⟨hp, hf⟩))))))
  intro t ht
  cases hp : t.pc with
  | start => exact absurd (thread_step ht (Or.inl hp)) h
  | work => exact absurd (thread_step ht (Or.inr (Or.inl hp))) h
  | marking => exact absurd (thread_step ht (Or.inr (Or.inr (Or.inl hp)))) h
  | leaving => exact absurd (thread_step ht (Or.inr (Or.inr (Or.inr (Or.inl hp))))) h
  | ended => exact Or.inl rfl
  | wantT => exact Or.inr (Or.inl ⟨rfl, hmid t ht hp⟩)
  | wantC =>
    refine Or.inr (Or.inr ⟨rfl, ?_⟩)
    by_cases hf : freeC s = true
    · exact absurd (thread_step ht (Or.inr (Or.inr (Or.inr (Or.inr (Or.inl ⟨hp, hf⟩)))))) h
    · rw [freeC_iff] at hf
      obtain ⟨u, hu⟩ := Classical.not_forall.mp hf
      obtain ⟨hum, hu⟩ := Classical.not_imp.mp hu
      refine ⟨u, hum, ?_⟩
      have : u.pc = .wantT := by
        apply Classical.byContradiction
        intro hn
        apply hu
        refine ⟨hn, ?_, ?_⟩
        · intro hx; exact h (thread_step hum (Or.inr (Or.inr (Or.inl hx))))
        · intro hx; exact h (thread_step hum (Or.inr (Or.inr (Or.inr (Or.inl hx)))))
      exact ⟨this, hmid u hum this⟩

/-- Where it can get stuck. -/
theorem stuck_cases {s : State} (hr : Reachable s) (hn : ¬Over s) (h : ¬∃ s', Step s s') :
    s.requested = true ∧ (HangsWaiting s ∨ HangsLocking s) := by
  have hi := inv_reachable hr
  have hth := threads_stuck h
  have nofree : schedHoldsT s.sched = false → ∀ t ∈ s.threads, t.pc = .ended := by
    intro hx
    have hf : freeT s = true := by
      rw [freeT_iff]
      refine ⟨hx, ?_⟩
      intro t ht hp
      exact h (thread_step ht (Or.inr (Or.inr (Or.inl hp))))
    intro t ht
    rcases hth t ht with h1 | ⟨_, h1⟩ | ⟨_, _, _, _, h1⟩
    · exact h1
    · rw [hf] at h1; cases h1
    · rw [hf] at h1; cases h1
  cases hsc : s.sched with
  | scheduling => exact absurd ⟨_, .spawn hsc⟩ h
  | waiting =>
    have hall := nofree (by rw [hsc]; rfl)
    obtain ⟨hne, hd⟩ := hi.waiting hsc
    refine ⟨?_, Or.inl ⟨hsc, hall⟩⟩
    obtain ⟨t, ht⟩ := List.exists_mem_of_ne_nil _ hne
    exact hi.flag (hi.silent t ht (hd t ht) (Or.inl (hall t ht)))
  | woken =>
    have hf : freeT s = true := by
      rw [freeT_iff]
      refine ⟨by rw [hsc]; rfl, ?_⟩
      intro t ht hp
      exact h (thread_step ht (Or.inr (Or.inr (Or.inl hp))))
    exact absurd ⟨_, .wake hsc hf⟩ h
  | checking => exact absurd ⟨_, .check hsc⟩ h
  | wantC =>
    refine ⟨hi.flag (hi.wantC hsc), Or.inr ⟨hsc, ?_⟩⟩
    by_cases hf : freeC s = true
    · exact absurd ⟨_, .cancel hsc hf⟩ h
    · rw [freeC_iff] at hf
      obtain ⟨u, hu⟩ := Classical.not_forall.mp hf
      obtain ⟨hum, hu⟩ := Classical.not_imp.mp hu
      refine ⟨u, hum, ?_⟩
      apply Classical.byContradiction
      intro hn
      apply hu
      refine ⟨hn, ?_, ?_⟩
      · intro hx; exact h (thread_step hum (Or.inr (Or.inr (Or.inl hx))))
      · intro hx; exact h (thread_step hum (Or.inr (Or.inr (Or.inr (Or.inl hx)))))
  | joining =>
    have hc := hi.joining hsc
    have hno := (hi.canceling hc).2.2
    refine absurd ⟨_, .join hsc ?_⟩ h
    intro t ht
    rcases hth t ht with h1 | ⟨h1, _⟩ | ⟨_, u, hu, h1, _⟩
    · exact h1
    · exact absurd h1 (hno t ht).1
    · exact absurd h1 (hno u hu).1
  | handling =>
    refine absurd ⟨_, .handle hsc ?_⟩ h
    intro t ht hd
    rcases hi.loud t ht hd with h1 | h1
    · exact h1
    · exact absurd (thread_step ht (Or.inr (Or.inr (Or.inr (Or.inl h1))))) h
  | finished => exact absurd (Or.inl hsc) hn
  | canceled => exact absurd (Or.inr hsc) hn

/-- **C52.** As long as nobody cancels, scheduler and threads do not wait for each other in vain: until the scheduler is
    done, something can go on. In particular no notification gets lost. -/
theorem C52_no_lost_wakeup {s : State} (hr : Reachable s) (hc : s.requested = false) (hn : ¬Over s) :
    ∃ s', Step s s' := by
  apply Classical.byContradiction
  intro h
  have := (stuck_cases hr hn h).1
  rw [hc] at this
  cases this

/-- **C52.** Canceling gets stuck in two situations only: all threads have ended silently, or scheduler and a thread each
    have a mutex that the other one needs. (That these happen is shown below, so the property does not hold.) -/
theorem C52_cancel_partial {s : State} (hr : Reachable s) (hn : ¬Over s) (h1 : ¬HangsWaiting s)
    (h2 : ¬HangsLocking s) : ∃ s', Step s s' := by
  apply Classical.byContradiction
  intro h
  rcases (stuck_cases hr hn h).2 with hx | hx
  · exact h1 hx
  · exact h2 hx

/-- A thread that waits for the scheduler's mutex does not keep the scheduler from waking up. -/
example : ∃ s, Reachable s ∧ s.requested = false ∧ ¬Over s ∧ s.sched = .woken ∧ ⟨.wantT, false⟩ ∈ s.threads := by
  refine ⟨⟨[⟨.ended, true⟩, ⟨.wantT, false⟩], .woken, false, false, false⟩, ?_, rfl, ?_, rfl, ?_⟩
  · have a1 := Reachable.step .init (.spawn rfl)
    have a2 := Reachable.step a1 (.spawn rfl)
    have a3 := Reachable.step a2 (.wait rfl)
    have a4 := Reachable.step a3 (.begin (pre := []) rfl rfl rfl)
    have a5 := Reachable.step a4 (.begin (pre := [⟨.work, false⟩]) rfl rfl rfl)
    have a6 := Reachable.step a5 (.resolved (pre := []) rfl)
    have a7 := Reachable.step a6 (.lockC (pre := []) rfl rfl)
    have a8 := Reachable.step a7 (.lockT (pre := []) rfl rfl)
    have a9 := Reachable.step a8 (.mark (pre := []) rfl)
    have b1 := Reachable.step a9 (.unlockC (pre := []) rfl)
    have b2 := Reachable.step b1 (.resolved (pre := [⟨.ended, true⟩]) rfl)
    exact Reachable.step b2 (.lockC (pre := [⟨.ended, true⟩]) rfl rfl)
  · rintro (h | h) <;> cases h
  · decide

/-- Nothing can be done any more. -/
theorem stuck_of {s : State} (hsc : s.sched = .waiting ∨ s.sched = .wantC) (hc : s.sched = .wantC → freeC s = false)
    (hth : ∀ t ∈ s.threads, t.pc = .ended ∨ (t.pc = .wantT ∧ freeT s = false)) : ¬∃ s', Step s s' := by
  rintro ⟨s', hs⟩
  have hno : ∀ (pc : Pc) (d : Bool) (pre post : List Thr), s.threads = pre ++ ⟨pc, d⟩ :: post → pc = .ended ∨
      (pc = .wantT ∧ freeT s = false) := fun pc d pre post h => hth ⟨pc, d⟩ (by rw [h]; exact mem_mid)
  have hsn : ∀ sc, s.sched = sc → sc ≠ .waiting → sc ≠ .wantC → False := by
    rintro sc rfl h1 h2
    rcases hsc with h | h
    · exact h1 h
    · exact h2 h
  cases hs with
  | throw ht _ => rcases hno _ _ _ _ ht with h | ⟨h, _⟩ <;> cases h
  | begin ht _ _ => rcases hno _ _ _ _ ht with h | ⟨h, _⟩ <;> cases h
  | resolved ht => rcases hno _ _ _ _ ht with h | ⟨h, _⟩ <;> cases h
  | interrupted ht _ => rcases hno _ _ _ _ ht with h | ⟨h, _⟩ <;> cases h
  | lockC ht _ => rcases hno _ _ _ _ ht with h | ⟨h, _⟩ <;> cases h
  | lockT ht hf =>
    rcases hno _ _ _ _ ht with h | ⟨_, h⟩
    · cases h
    · rw [hf] at h; cases h
  | mark ht => rcases hno _ _ _ _ ht with h | ⟨h, _⟩ <;> cases h
  | unlockC ht => rcases hno _ _ _ _ ht with h | ⟨h, _⟩ <;> cases h
  | spawn h => exact hsn _ h (by simp) (by simp)
  | wait h => exact hsn _ h (by simp) (by simp)
  | wake h _ => exact hsn _ h (by simp) (by simp)
  | check h => exact hsn _ h (by simp) (by simp)
  | cancel h hf => rw [hc h] at hf; cases hf
  | join h _ => exact hsn _ h (by simp) (by simp)
  | handle h _ => exact hsn _ h (by simp) (by simp)

/-- **C52 finding.** If the user cancels when the threads have just been started, each of them throws an exception that
    is not caught where the others are, so that nobody notifies the scheduler: it waits forever. -/
theorem C52_cancel_never_noticed : ∃ s, Reachable s ∧ HangsWaiting s ∧ s.threads.length = 2 ∧ ¬Over s ∧
    ¬∃ s', Step s s' := by
  refine ⟨⟨[⟨.ended, false⟩, ⟨.ended, false⟩], .waiting, true, true, false⟩, ?_, ⟨rfl, by decide⟩, rfl, ?_, ?_⟩
  · have a1 := Reachable.step .init (.spawn rfl)
    have a2 := Reachable.step a1 (.spawn rfl)
    have a3 := Reachable.step a2 (.wait rfl)
    have a4 := Reachable.request a3
    have a5 := Reachable.step a4 (.throw (pre := []) rfl (Or.inl rfl))
    exact Reachable.step a5 (.throw (pre := [⟨.ended, false⟩]) rfl (Or.inl rfl))
  · rintro (h | h) <;> cases h
  · exact stuck_of (Or.inl rfl) (fun h => by cases h) (by decide)

/-- **C52 finding.** Scheduler and threads take the two mutexes in different orders: canceling can end in a deadlock. -/
theorem C52_cancel_deadlock : ∃ s, Reachable s ∧ HangsLocking s ∧ ¬Over s ∧ ¬∃ s', Step s s' := by
  refine ⟨⟨[⟨.ended, true⟩, ⟨.wantT, false⟩], .wantC, true, true, false⟩, ?_, ⟨rfl, by decide⟩, ?_, ?_⟩
  · have a1 := Reachable.step .init (.spawn rfl)
    have a2 := Reachable.step a1 (.spawn rfl)
    have a3 := Reachable.step a2 (.wait rfl)
    have a4 := Reachable.step a3 (.begin (pre := []) rfl rfl rfl)
    have a5 := Reachable.step a4 (.begin (pre := [⟨.work, false⟩]) rfl rfl rfl)
    have c := Reachable.request a5
    have a6 := Reachable.step c (.interrupted (pre := []) rfl rfl)
    have a7 := Reachable.step a6 (.lockC (pre := []) rfl rfl)
    have a8 := Reachable.step a7 (.lockT (pre := []) rfl rfl)
    have a9 := Reachable.step a8 (.mark (pre := []) rfl)
    have b1 := Reachable.step a9 (.unlockC (pre := []) rfl)
    have b2 := Reachable.step b1 (.interrupted (pre := [⟨.ended, true⟩]) rfl rfl)
    have b3 := Reachable.step b2 (.lockC (pre := [⟨.ended, true⟩]) rfl rfl)
    have b4 := Reachable.step b3 (.wake rfl rfl)
    exact Reachable.step b4 (.check rfl)
  · rintro (h | h) <;> cases h
  · exact stuck_of (Or.inr rfl) (fun _ => rfl) (by decide)

end Verif.Sched.Locks
