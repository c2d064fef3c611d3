import Verif.Proc.LemTold

namespace Verif.Proc

/-- What is known about timeouts and requests to stop while a command is running -/
structure Timing (s : St) (c : Cmd) : Prop where
  reason : s.expired = true → s.stopped = false → s.cancelReason = true
  armed : c.timeout = true → c.dry = false → s.expired = false → s.watchdog = true
  asked : Req.stop s.n ∈ s.toLauncher → s.stopped = true ∨ s.expired = true
  alive : ∀ n k, s.proc = .alive n k → 0 < k → s.stopped = true ∨ s.expired = true
  real : s.real = some .notStopped → s.stopped = true ∨ s.expired = true

/-- ... and what that means for reports -/
def Timely (e : Entry) : Prop :=
  (e.expired = true → e.stopped = false → e.cmd.dry = false → e.outcome = .timedOut) ∧
  (e.real = some .notStopped → e.stopped = true ∨ e.expired = true)

def TI (s : St) : Prop := (∀ c, s.current = some c → Timing s c) ∧ ∀ e ∈ s.out, Timely e

theorem Timing.congr {s t : St} {c : Cmd} (h : Timing s c) (h1 : t.expired = s.expired) (h2 : t.stopped = s.stopped)
    (h3 : t.cancelReason = s.cancelReason) (h4 : t.watchdog = s.watchdog) (h5 : t.n = s.n) (h6 : t.toLauncher = s.toLauncher)
    (h7 : t.proc = s.proc) (h8 : t.real = s.real) : Timing t c :=
  ⟨by rw [h1, h2, h3]; exact h.reason, by rw [h1, h4]; exact h.armed, by rw [h5, h6, h1, h2]; exact h.asked,
   by rw [h7, h1, h2]; exact h.alive, by rw [h8, h1, h2]; exact h.real⟩

theorem TI.congr {s t : St} (h : TI s) (h0 : t.current = s.current) (h1 : t.expired = s.expired) (h2 : t.stopped = s.stopped)
    (h3 : t.cancelReason = s.cancelReason) (h4 : t.watchdog = s.watchdog) (h5 : t.n = s.n) (h6 : t.toLauncher = s.toLauncher)
    (h7 : t.proc = s.proc) (h8 : t.real = s.real) (h9 : t.out = s.out) : TI t :=
  ⟨fun c hc => (h.1 c (h0 ▸ hc)).congr h1 h2 h3 h4 h5 h6 h7 h8, h9 ▸ h.2⟩

theorem ti_finish {s : St} {c : Cmd} (o : Outcome) (hc : s.current = some c) (ho : ∀ e ∈ s.out, Timely e)
    (h : s.real = some .notStopped → s.stopped = true ∨ s.expired = true)
    (h2 : s.expired = true → s.stopped = false → c.dry = false → o = .timedOut) : TI (finish o s) := by
  refine ⟨by rw [current_finish]; simp, ?_⟩
  unfold finish
  rw [hc]
  intro e he
  simp only [List.mem_append, List.mem_singleton] at he
  rcases he with he | rfl
  · exact ho e he
  · exact ⟨h2, h⟩

theorem ti_remove {s : St} (h : TI s) : TI (removeResponseFile s) := by
  unfold removeResponseFile
  split
  · exact h.congr rfl rfl rfl rfl rfl rfl rfl rfl rfl rfl
  · exact h

theorem ti_error {s : St} (h : TI s) (hc : s.current.isSome = true) : TI (onProcessError s) := by
  obtain ⟨c, hc⟩ := Option.isSome_iff_exists.1 hc
  unfold onProcessError
  by_cases ha : s.active = true
  · rw [if_pos ha]; exact h.congr rfl rfl rfl rfl rfl rfl rfl rfl rfl rfl
  rw [if_neg ha]
  by_cases hr : s.cancelReason = true
  · rw [if_pos hr]; exact h
  rw [if_neg hr]
  split
  · obtain ⟨f1, f2, f3, f4, f5, f6, f7, f8, f9, f10⟩ := remove_fields s
    refine ti_finish (c := c) _ (f1.trans hc) (ti_remove h).2 ?_ ?_
    · rw [f3, f4, f5]; exact (h.1 c hc).real
    · rw [f4, f5]; intro h1 h2; exact absurd ((h.1 c hc).reason h1 h2) hr
  · exact h

theorem ti_finished {s : St} (h : TI s) (hc : s.current.isSome = true) : TI (onProcessFinished s) := by
  obtain ⟨c, hc⟩ := Option.isSome_iff_exists.1 hc
  unfold onProcessFinished
  by_cases ha : s.active = true
  · rw [if_pos ha]; exact h.congr rfl rfl rfl rfl rfl rfl rfl rfl rfl rfl
  rw [if_neg ha]
  obtain ⟨f1, f2, f3, f4, f5, f6, f7, f8, f9, f10⟩ := remove_fields s
  by_cases hr : s.cancelReason = true
  · have : sendProcessOutput (removeResponseFile s) = finish .timedOut (removeResponseFile s) := by
      unfold sendProcessOutput
      simp only [f8]
      rw [if_pos hr]
    rw [this]
    refine ti_finish (c := c) _ (f1.trans hc) (ti_remove h).2 ?_ (fun _ _ _ => rfl)
    rw [f3, f4, f5]; exact (h.1 c hc).real
  · obtain ⟨o, ho⟩ := send_eq (removeResponseFile s)
    rw [ho]
    refine ti_finish (c := c) _ (f1.trans hc) (ti_remove h).2 ?_ ?_
    · rw [f3, f4, f5]; exact (h.1 c hc).real
    · rw [f4, f5]; intro h1 h2; exact absurd ((h.1 c hc).reason h1 h2) hr

/-- `Process::cancel` of the launcher, for a command that is to be stopped -/
theorem ti_launcherCancel {s : St} (h : TI s) (hx : s.stopped = true ∨ s.expired = true) : TI (launcherCancel s) := by
  unfold launcherCancel
  split
  · exact h
  · split
    · exact ⟨fun c hc => ⟨(h.1 c hc).reason, (h.1 c hc).armed, (h.1 c hc).asked, fun _ _ _ _ => hx, (h.1 c hc).real⟩, h.2⟩
    · exact ⟨fun c hc => ⟨(h.1 c hc).reason, (h.1 c hc).armed, (h.1 c hc).asked, fun _ _ _ _ => hx, fun _ => hx⟩, h.2⟩

theorem ti_processCancel {s : St} (h : TI s) (hc : s.pstate ≠ .notRunning → s.current.isSome = true)
    (hx : s.stopped = true ∨ s.expired = true) : TI (processCancel s) := by
  cases hp : s.pstate with
  | notRunning => rw [processCancel_notRunning hp]; exact h
  | starting =>
    have := hc (by simp [hp])
    rw [processCancel_starting hp]
    exact ti_error (h.congr rfl rfl rfl rfl rfl rfl rfl rfl rfl rfl) this
  | running =>
    rw [processCancel_running hp]
    exact ⟨fun c hc => ⟨(h.1 c hc).reason, (h.1 c hc).armed, fun _ => hx, (h.1 c hc).alive, (h.1 c hc).real⟩, h.2⟩

/-- Everything but the timer is in order. -/
theorem ti_arm {s : St} (ho : ∀ e ∈ s.out, Timely e)
    (h : ∀ c, s.current = some c → s.expired = false ∧ s.stopped = false ∧ Req.stop s.n ∉ s.toLauncher ∧ s.proc = .idle ∧ s.real = none ∧
      (c.timeout = true → c.dry = false → s.watchdog = true)) : TI s := by
  refine ⟨fun c hc => ?_, ho⟩
  obtain ⟨h1, h2, h3, h4, h5, h6⟩ := h c hc
  exact ⟨by simp [h1], fun a b _ => h6 a b, fun hm => absurd hm h3, by simp [h4], by simp [h5]⟩

/-- What a new command looks like after its start -/
def Fresh (c : Cmd) (s : St) : Prop :=
  (∀ e ∈ s.out, Timely e) ∧
  ∀ c', s.current = some c' → c' = c ∧ s.expired = false ∧ s.stopped = false ∧ Req.stop s.n ∉ s.toLauncher ∧ s.proc = .idle ∧ s.real = none

theorem fresh_finish {s : St} {c : Cmd} (o : Outcome) (h : Fresh c s) (hc : s.current = some c) : Fresh c (finish o s) := by
  obtain ⟨_, h1, h2, h3, h4, h5⟩ := h.2 c hc
  refine ⟨?_, by rw [current_finish]; simp⟩
  unfold finish
  rw [hc]
  intro e he
  simp only [List.mem_append, List.mem_singleton] at he
  rcases he with he | rfl
  · exact h.1 e he
  · exact ⟨by simp [h1], by simp [h5]⟩

theorem fresh_congr {s t : St} {c : Cmd} (h : Fresh c s) (h0 : t.current = s.current) (h1 : t.expired = s.expired) (h2 : t.stopped = s.stopped)
    (h5 : t.n = s.n) (h6 : t.toLauncher = s.toLauncher) (h7 : t.proc = s.proc) (h8 : t.real = s.real) (h9 : t.out = s.out) : Fresh c t :=
  ⟨h9 ▸ h.1, by rw [h0, h1, h2, h5, h6, h7, h8]; exact h.2⟩

theorem fresh_processStart {s : St} {c : Cmd} (h : Fresh c s) (hc : s.current = some c) : Fresh c (processStart s) := by
  unfold processStart
  split
  · unfold onProcessError
    split
    · exact fresh_congr h rfl rfl rfl rfl rfl rfl rfl rfl
    · split
      · exact fresh_congr h rfl rfl rfl rfl rfl rfl rfl rfl
      · rw [if_pos rfl]
        refine fresh_finish _ ?_ ?_
        · unfold removeResponseFile
          split <;> exact fresh_congr h rfl rfl rfl rfl rfl rfl rfl rfl
        · rw [(remove_fields _).1]; exact hc
  · simp only
    split
    · unfold processDoStart
      refine ⟨h.1, ?_⟩
      intro c' hc'
      obtain ⟨h0, h1, h2, h3, h4, h5⟩ := h.2 c' hc'
      refine ⟨h0, h1, h2, ?_, h4, h5⟩
      simp only [List.mem_append, List.mem_singleton, not_or]
      exact ⟨h3, by simp⟩
    · exact fresh_congr h rfl rfl rfl rfl rfl rfl rfl rfl

theorem fresh_doStart {s : St} {c : Cmd} (h : Fresh c s) (hc : s.current = some c) (hp : s.pstate = .notRunning) :
    Fresh c (doStart c s).1 ∧ ((doStart c s).2 = false → c.dry = true ∨ (doStart c s).1.current = none) := by
  unfold doStart
  rw [if_neg (by simp [hp])]
  split
  · rename_i hd
    exact ⟨fresh_congr h rfl rfl rfl rfl rfl rfl rfl rfl, fun _ => .inl hd⟩
  · split
    · exact ⟨fresh_finish _ h hc, fun _ => .inr current_finish⟩
    · split
      · exact ⟨fresh_processStart h hc, by simp⟩
      · split
        · refine ⟨fresh_processStart ?_ hc, by simp⟩
          exact fresh_congr h rfl rfl rfl rfl rfl rfl rfl rfl
        · split
          · exact ⟨fresh_finish _ h hc, fun _ => .inr current_finish⟩
          · refine ⟨fresh_finish _ ?_ hc, fun _ => .inr current_finish⟩
            exact fresh_congr h rfl rfl rfl rfl rfl rfl rfl rfl

theorem ti_start {s : St} (hi : Inv s) (h : TI s) (hn : s.current = none) (c : Cmd) : TI (start c s) := by
  have he : Empty s := by
    obtain ⟨_, hp⟩ := hi
    cases hp with
    | over _ b => exact b
    | _ => simp_all
  unfold start
  generalize hs1 : ({ s with current := some c, n := s.n + 1, real := none, expired := false, stopped := false, stale := decide (s.perror ≠ .unknown) || s.cancelReason } : St) = s1
  have hc1 : s1.current = some c := by subst hs1; rfl
  have hp1 : s1.pstate = .notRunning := by subst hs1; exact he.pstate
  have hf : Fresh c s1 := by
    subst hs1
    refine ⟨h.2, ?_⟩
    intro c' hc'
    simp only [Option.some.injEq] at hc'
    refine ⟨hc'.symm, rfl, rfl, ?_, he.proc, rfl⟩
    intro hm
    have := hi.1.upper _ hm
    simp only [Req.num] at this
    omega
  obtain ⟨h1, h2⟩ := fresh_doStart hf hc1 hp1
  show TI (if (doStart c s1).2 = true ∧ c.timeout = true then { (doStart c s1).1 with watchdog := true } else (doStart c s1).1)
  by_cases hw : (doStart c s1).2 = true ∧ c.timeout = true
  · rw [if_pos hw]
    refine ti_arm h1.1 ?_
    intro c' hc'
    obtain ⟨a0, a1, a2, a3, a4, a5⟩ := h1.2 c' hc'
    exact ⟨a1, a2, a3, a4, a5, fun _ _ => rfl⟩
  · rw [if_neg hw]
    refine ti_arm h1.1 ?_
    intro c' hc'
    obtain ⟨a0, a1, a2, a3, a4, a5⟩ := h1.2 c' hc'
    refine ⟨a1, a2, a3, a4, a5, ?_⟩
    intro ht hd
    subst a0
    cases hb : (doStart c' s1).2 with
    | true => exact absurd ⟨hb, ht⟩ hw
    | false =>
      rcases h2 hb with h3 | h3
      · simp [hd] at h3
      · simp [h3] at hc'

theorem ti_step {s s' : St} {e : Ev} (h : Inv s) (ht : TI s) (hs : step s e = some s') : TI s' := by
  cases e with
  | start c =>
    simp only [step] at hs
    by_cases hc : s.current = none
    · rw [if_pos hc] at hs; cases hs; exact ti_start h ht hc c
    · rw [if_neg hc] at hs; cases hs
  | dryDone =>
    simp only [step] at hs
    by_cases hc : s.dryTimer = true
    · rw [if_pos hc] at hs; cases hs
      obtain ⟨_, hp⟩ := h
      cases hp with
      | dry c a1 a2 =>
        exact ti_finish (s := { s with dryTimer := false }) (c := c) _ a1 ht.2 (ht.1 c a1).real (by simp [a2])
      | over _ e => simp [e.dryTimer] at hc
      | stuck _ e => simp [e.dryTimer] at hc
      | _ => simp_all
    · rw [if_neg hc] at hs; cases hs
  | socketReady =>
    simp only [step] at hs
    by_cases hc : s.ready = false ∧ s.dead = false
    · rw [if_pos hc] at hs; cases hs
      unfold handleSocketReady processDoStart
      simp only
      split
      · refine ⟨fun c hc => ⟨(ht.1 c hc).reason, (ht.1 c hc).armed, ?_, (ht.1 c hc).alive, (ht.1 c hc).real⟩, ht.2⟩
        intro hm
        simp only [List.mem_append, List.mem_singleton] at hm
        rcases hm with hm | hm
        · exact (ht.1 c hc).asked hm
        · cases hm
      · exact ht.congr rfl rfl rfl rfl rfl rfl rfl rfl rfl rfl
    · rw [if_neg hc] at hs; cases hs
  | socketError =>
    simp only [step] at hs
    by_cases hc : s.ready = true
    · rw [if_pos hc] at hs; cases hs
      unfold handleSocketError
      simp only
      have h1 : TI { s with socketError := true, ready := false, dead := true, toLauncher := [], fromLauncher := [], proc := .idle } :=
        ⟨fun c hc => ⟨(ht.1 c hc).reason, (ht.1 c hc).armed, by simp, by simp, (ht.1 c hc).real⟩, ht.2⟩
      split
      · rename_i hp
        have := current_of_pstate h hp
        exact ti_error (h1.congr rfl rfl rfl rfl rfl rfl rfl rfl rfl rfl) this
      · exact h1
    · rw [if_neg hc] at hs; cases hs
  | launcherTakes =>
    simp only [step] at hs
    cases hl : s.toLauncher with
    | nil => rw [hl] at hs; cases hs
    | cons r l =>
      rw [hl] at hs; cases hs
      have h1 : TI { s with toLauncher := l } :=
        ⟨fun c hc => ⟨(ht.1 c hc).reason, (ht.1 c hc).armed, fun hm => (ht.1 c hc).asked (by rw [hl]; exact List.mem_cons_of_mem _ hm),
          (ht.1 c hc).alive, (ht.1 c hc).real⟩, ht.2⟩
      rcases proc_cases s with hp | ⟨n, k, hp⟩
      · cases r with
        | start m =>
          rw [takes_start m (by exact hp)]
          refine ⟨fun c hc => ⟨(h1.1 c hc).reason, (h1.1 c hc).armed, (h1.1 c hc).asked, ?_, (h1.1 c hc).real⟩, h1.2⟩
          intro n k he hk
          simp only [LProc.alive.injEq] at he
          omega
        | stop m => rw [takes_stop_idle m (by exact hp)]; exact h1
      · obtain ⟨rfl, a1, a2, a3, a4, a5, a7, a8, a9, _⟩ := alive_runs h hp
        cases r with
        | start m => exact absurd (by rw [hl]; exact List.mem_cons_self) (a8 m)
        | stop m =>
          have hm : m = s.n := a9 (.stop m) (by rw [hl]; exact List.mem_cons_self)
          subst hm
          rw [takes_stop_alive s.n s.n k (by exact hp)]
          obtain ⟨c, hc⟩ := Option.isSome_iff_exists.1 a1
          exact ti_launcherCancel (h1.congr rfl rfl rfl rfl rfl rfl rfl rfl rfl rfl) ((ht.1 c hc).asked (by rw [hl]; exact List.mem_cons_self))
  | procFails =>
    simp only [step] at hs
    cases hl : s.proc with
    | idle => rw [hl] at hs; cases hs
    | alive n k =>
      rw [hl] at hs; cases hs
      exact ⟨fun c hc => ⟨(ht.1 c hc).reason, (ht.1 c hc).armed, (ht.1 c hc).asked, by simp, by simp⟩, ht.2⟩
  | procExits code crashed =>
    simp only [step] at hs
    cases hl : s.proc with
    | idle => rw [hl] at hs; cases hs
    | alive n k =>
      rw [hl] at hs; cases hs
      refine ⟨fun c hc => ⟨(ht.1 c hc).reason, (ht.1 c hc).armed, (ht.1 c hc).asked, by simp, ?_⟩, ht.2⟩
      cases crashed <;> simp
  | stopTimer =>
    simp only [step] at hs
    cases hl : s.proc with
    | idle => rw [hl] at hs; cases hs
    | alive n k =>
      rw [hl] at hs; simp only at hs
      by_cases hk : k > 0
      · rw [if_pos hk] at hs; cases hs
        obtain ⟨rfl, a1, _⟩ := alive_runs h hl
        obtain ⟨c, hc⟩ := Option.isSome_iff_exists.1 a1
        exact ti_launcherCancel ht ((ht.1 c hc).alive _ k hl hk)
      · rw [if_neg hk] at hs; cases hs
  | deliver =>
    simp only [step] at hs
    cases hl : s.fromLauncher with
    | nil => rw [hl] at hs; cases hs
    | cons r l =>
      rw [hl] at hs; cases hs
      unfold handlePacket
      cases r with
      | error m =>
        simp only
        split
        · exact ht.congr rfl rfl rfl rfl rfl rfl rfl rfl rfl rfl
        · rename_i hp
          have := current_of_pstate h hp
          exact ti_error (ht.congr rfl rfl rfl rfl rfl rfl rfl rfl rfl rfl) this
      | finished m code cr =>
        simp only
        split
        · exact ht.congr rfl rfl rfl rfl rfl rfl rfl rfl rfl rfl
        · rename_i hp
          have := current_of_pstate h (by intro he; simp [he] at hp)
          exact ti_finished (ht.congr rfl rfl rfl rfl rfl rfl rfl rfl rfl rfl) this
  | timeout =>
    simp only [step] at hs
    by_cases hc : s.watchdog = true
    · rw [if_pos hc] at hs; cases hs
      unfold cancel
      refine ti_processCancel ?_ (fun hp => current_of_pstate (s := s) h hp) (.inr rfl)
      exact ⟨fun c hc => ⟨fun _ _ => rfl, by simp, fun _ => .inr rfl, fun _ _ _ _ => .inr rfl, fun _ => .inr rfl⟩, ht.2⟩
    · rw [if_neg hc] at hs; cases hs
  | cancel =>
    simp only [step] at hs
    by_cases hc : s.current.isSome = true
    · rw [if_pos hc] at hs; cases hs
      unfold cancel
      refine ti_processCancel ?_ (fun hp => current_of_pstate (s := s) h hp) (.inl rfl)
      exact ⟨fun c hc => ⟨by simp, (ht.1 c hc).armed, fun _ => .inl rfl, fun _ _ _ _ => .inl rfl, fun _ => .inl rfl⟩, ht.2⟩
    · rw [if_neg hc] at hs; cases hs
  | setActive b =>
    simp only [step] at hs
    cases hs; exact ht.congr rfl rfl rfl rfl rfl rfl rfl rfl rfl rfl
  | delayedError =>
    simp only [step] at hs
    by_cases hc : s.delayedError > 0
    · rw [if_pos hc] at hs; cases hs
      refine ti_error (ht.congr rfl rfl rfl rfl rfl rfl rfl rfl rfl rfl) ?_
      obtain ⟨hb, hp⟩ := h
      cases hp with
      | over _ e => simp [e.e1] at hc
      | stuck a _ => exact a
      | _ => simp_all
    · rw [if_neg hc] at hs; cases hs
  | delayedFinished =>
    simp only [step] at hs
    by_cases hc : s.delayedFinished > 0
    · rw [if_pos hc] at hs; cases hs
      refine ti_finished (ht.congr rfl rfl rfl rfl rfl rfl rfl rfl rfl rfl) ?_
      obtain ⟨hb, hp⟩ := h
      cases hp with
      | over _ e => simp [e.e2] at hc
      | stuck a _ => exact a
      | _ => simp_all
    · rw [if_neg hc] at hs; cases hs

theorem ti_run {s s' : St} {l : List Ev} (h : Inv s) (ht : TI s) (hr : run s l = some s') : TI s' := by
  induction l generalizing s with
  | nil => simp only [run, Option.some.injEq] at hr; exact hr ▸ ht
  | cons e l ih =>
    simp only [run] at hr
    cases hs : step s e with
    | none => rw [hs] at hr; cases hr
    | some t => rw [hs] at hr; exact ih (inv_step h hs) (ti_step h ht hs) hr

theorem ti_reachable {s : St} (h : Reachable s) : TI s := by
  obtain ⟨r, l, hr⟩ := h
  exact ti_run (inv_init r) ⟨fun c hc => by simp [init] at hc, by simp [init]⟩ hr

/-! ## Giving up a process -/

theorem real_finish (o : Outcome) (t : St) : (finish o t).real = t.real := by
  unfold finish; split <;> rfl

theorem real_error (t : St) : (onProcessError t).real = t.real := by
  unfold onProcessError
  split
  · rfl
  · split
    · rfl
    · split
      · rw [real_finish]; exact (remove_fields t).2.2.1
      · rfl

theorem real_finished (t : St) : (onProcessFinished t).real = t.real := by
  unfold onProcessFinished
  split
  · rfl
  · obtain ⟨o, ho⟩ := send_eq (removeResponseFile t)
    rw [ho, real_finish]; exact (remove_fields t).2.2.1

theorem real_processStart (t : St) : (processStart t).real = t.real := by
  unfold processStart
  split
  · rw [real_error]
  · simp only
    split <;> rfl

theorem real_doStart (c : Cmd) (t : St) : (doStart c t).1.real = t.real := by
  unfold doStart
  split
  · rfl
  · split
    · rfl
    · split
      · exact real_finish _ _
      · split
        · exact real_processStart _
        · split
          · exact real_processStart _
          · split
            · exact real_finish _ _
            · exact real_finish _ _

theorem real_cancel (b : Bool) (t : St) : (cancel b t).real = t.real := by
  unfold cancel processCancel
  split
  · rfl
  · rw [real_error]
  · rfl

theorem real_launcherCancel {t : St} (h2 : (launcherCancel t).real = some .notStopped) (h1 : t.real = none) :
    ∃ n k, t.proc = .alive n k ∧ 2 ≤ k := by
  unfold launcherCancel at h2
  rcases proc_cases t with hp | ⟨n, k, hp⟩
  · rw [hp] at h2; simp [h1] at h2
  · rw [hp] at h2
    simp only at h2
    by_cases hk : k < 2
    · rw [if_pos hk] at h2; simp [h1] at h2
    · exact ⟨n, k, hp, by omega⟩

theorem given_up {s s' : St} {e : Ev} (hs : step s e = some s') (h1 : s.real = none) (h2 : s'.real = some .notStopped) :
    ∃ n k, s.proc = .alive n k ∧ 2 ≤ k := by
  have no : ∀ {t : St} {P : Prop}, t.real = none → t.real = some .notStopped → P := by
    intro t P a b; rw [a] at b; cases b
  cases e with
  | start c =>
    simp only [step] at hs
    split at hs
    · cases hs
      refine no ?_ h2
      unfold start
      simp only
      split
      · exact real_doStart _ _
      · exact real_doStart _ _
    · cases hs
  | dryDone =>
    simp only [step] at hs
    split at hs
    · cases hs; rw [real_finish] at h2; exact no h1 h2
    · cases hs
  | socketReady =>
    simp only [step] at hs
    split at hs
    · cases hs
      refine no ?_ h2
      unfold handleSocketReady
      simp only
      split <;> exact h1
    · cases hs
  | socketError =>
    simp only [step] at hs
    split at hs
    · cases hs
      refine no ?_ h2
      unfold handleSocketError
      simp only
      split
      · exact (real_error _).trans h1
      · exact h1
    · cases hs
  | launcherTakes =>
    simp only [step] at hs
    split at hs
    · cases hs
    · cases hs
      unfold launcherTakes at h2
      split at h2
      · exact no h1 h2
      · exact no h1 h2
      · exact no h1 h2
      · have := real_launcherCancel h2
        exact this h1
  | procFails =>
    simp only [step] at hs
    split at hs
    · cases hs; simp at h2
    · cases hs
  | procExits code crashed =>
    simp only [step] at hs
    split at hs
    · cases hs; cases crashed <;> simp at h2
    · cases hs
  | stopTimer =>
    simp only [step] at hs
    split at hs
    · split at hs
      · cases hs; exact real_launcherCancel h2 h1
      · cases hs
    · cases hs
  | deliver =>
    simp only [step] at hs
    split at hs
    · cases hs
    · cases hs
      refine no ?_ h2
      unfold handlePacket
      split
      · split
        · exact h1
        · exact (real_error _).trans h1
      · split
        · exact h1
        · exact (real_finished _).trans h1
  | timeout =>
    simp only [step] at hs
    split at hs
    · cases hs; rw [real_cancel] at h2; exact no h1 h2
    · cases hs
  | cancel =>
    simp only [step] at hs
    split at hs
    · cases hs; rw [real_cancel] at h2; exact no h1 h2
    · cases hs
  | setActive b =>
    simp only [step] at hs
    cases hs; exact no h1 h2
  | delayedError =>
    simp only [step] at hs
    split at hs
    · cases hs; rw [real_error] at h2; exact no h1 h2
    · cases hs
  | delayedFinished =>
    simp only [step] at hs
    split at hs
    · cases hs; rw [real_finished] at h2; exact no h1 h2
    · cases hs

end Verif.Proc
