import Verif.Proc.LemEnd

namespace Verif.Proc

/-- A process that is to be stopped has been told so, will be told so, or has ended. -/
def Told (s : St) : Prop :=
  s.stopped = true ∨ s.expired = true → s.pstate ≠ .notRunning →
    (∃ l1 l2, s.toLauncher = l1 ++ Req.start s.n :: l2 ∧ Req.stop s.n ∈ l2) ∨
    (∃ k, s.proc = .alive s.n k ∧ (0 < k ∨ Req.stop s.n ∈ s.toLauncher)) ∨ s.fromLauncher ≠ []

theorem told_of_not {s : St} (h : s.pstate = .notRunning) : Told s := fun _ hp => absurd h hp

theorem proc_cases (s : St) : s.proc = .idle ∨ ∃ n k, s.proc = .alive n k := by
  cases s.proc with
  | idle => exact .inl rfl
  | alive n k => exact .inr ⟨n, k, rfl⟩

theorem pstate_finish (o : Outcome) (s : St) : (finish o s).pstate = s.pstate := by
  unfold finish; split <;> rfl

theorem pstate_remove (s : St) : (removeResponseFile s).pstate = s.pstate := by
  unfold removeResponseFile; split <;> rfl

theorem pstate_error (s : St) : (onProcessError s).pstate = s.pstate := by
  unfold onProcessError
  split
  · rfl
  · split
    · rfl
    · split
      · rw [pstate_finish, pstate_remove]
      · rfl

theorem pstate_finished (s : St) : (onProcessFinished s).pstate = s.pstate := by
  unfold onProcessFinished
  split
  · rfl
  · obtain ⟨o, ho⟩ := send_eq (removeResponseFile s)
    rw [ho, pstate_finish, pstate_remove]

theorem pstate_launcherCancel (s : St) : (launcherCancel s).pstate = s.pstate := by
  unfold launcherCancel
  split
  · rfl
  · split <;> rfl

/-- A process that waits for the launcher has not been asked to stop. -/
theorem starting_not_told {s : St} (h : Inv s) (ht : Told s) (hp : s.pstate = .starting) : s.stopped = false ∧ s.expired = false := by
  obtain ⟨hb, hph⟩ := h
  cases hph with
  | starting a1 a2 a3 a4 a5 a6 a7 a8 =>
    by_cases hx : s.stopped = true ∨ s.expired = true
    · rcases ht hx (by simp [hp]) with ⟨l1, l2, h1, _⟩ | ⟨k, h1, _⟩ | h1
      · exact absurd (by rw [h1]; simp) (a8 s.n)
      · simp [a6] at h1
      · exact absurd a7 h1
    · simp only [not_or, Bool.not_eq_true] at hx
      exact hx
  | over _ e => simp [e.pstate] at hp
  | stuck _ e => simp [e.pstate] at hp
  | _ => simp_all

theorem told_launcherCancel {s : St} (hp : ∃ k, s.proc = .alive s.n k) : Told (launcherCancel s) := by
  obtain ⟨k, hp⟩ := hp
  intro _ _
  have e : launcherCancel s = (if k < 2 then { s with proc := .alive s.n (k + 1) }
    else { s with proc := .idle, real := some .notStopped, fromLauncher := s.fromLauncher ++ [.finished s.n (-1) true] }) := by
    unfold launcherCancel; rw [hp]
  rw [e]
  split
  · exact .inr (.inl ⟨k + 1, rfl, .inl (by omega)⟩)
  · exact .inr (.inr (by simp))

theorem told_cancel {s : St} (h : Inv s) (b : Bool) : Told (cancel b s) := by
  unfold cancel
  obtain ⟨hb, hph⟩ := h
  have run : s.pstate = .running → processCancel { s with cancelReason := b } = { s with cancelReason := b, toLauncher := s.toLauncher ++ [.stop s.n] } := by
    intro hp
    rw [processCancel_running (by exact hp)]
  have none : s.pstate = .notRunning → Told (processCancel { s with cancelReason := b }) := by
    intro hp
    rw [processCancel_notRunning (by exact hp)]
    exact told_of_not hp
  cases hph with
  | over a e => exact none e.pstate
  | stuck a e c => exact none e.pstate
  | dry c a1 a2 a3 a4 a5 a6 a7 a8 a9 => exact none a6
  | starting a1 a2 a3 a4 a5 a6 a7 a8 a9 a10 a11 a12 =>
    rw [processCancel_starting (by exact a5)]
    exact told_of_not (pstate_error _)
  | sent l1 l2 a1 a2 a3 a4 a5 a6 a7 a8 a9 a10 a11 a12 a13 =>
    rw [run a5]
    intro _ _
    exact .inl ⟨l1, l2 ++ [.stop s.n], by simp [a8], by simp⟩
  | runs k a1 a2 a3 a4 a5 a6 a7 a8 a9 a10 a11 a12 =>
    rw [run a5]
    intro _ _
    exact .inr (.inl ⟨k, a6, .inr (by simp)⟩)
  | failed a1 a2 a3 a4 a5 a6 a7 a8 a9 a10 a11 =>
    rw [run a5]
    intro _ _
    exact .inr (.inr (by simp [a7]))
  | done c r a1 a2 a3 a4 a5 a6 a7 a8 a9 a10 a11 =>
    rw [run a5]
    intro _ _
    exact .inr (.inr (by simp [a7]))
  | delayedError a1 a2 a3 a4 a5 a6 a7 a8 a9 a10 => exact none a5
  | delayedFinished a1 a2 a3 a4 a5 a6 a7 a8 a9 a10 => exact none a5

theorem same_processStart (s : St) : Same s (processStart s) := by
  unfold processStart
  split
  · exact Same.trans ⟨rfl, rfl, rfl, rfl⟩ (same_error _)
  · simp only
    split <;> exact ⟨rfl, rfl, rfl, rfl⟩

theorem same_doStart (c : Cmd) (s : St) : Same s (doStart c s).1 := by
  unfold doStart
  split
  · exact .rfl' s
  · split
    · exact ⟨rfl, rfl, rfl, rfl⟩
    · split
      · exact same_finish _ _
      · split
        · exact same_processStart s
        · split
          · exact Same.trans ⟨rfl, rfl, rfl, rfl⟩ (same_processStart _)
          · split
            · exact same_finish _ _
            · exact Same.trans ⟨rfl, rfl, rfl, rfl⟩ (same_finish _ _)

theorem told_start (c : Cmd) (s : St) : Told (start c s) := by
  have h : (start c s).stopped = false ∧ (start c s).expired = false := by
    unfold start
    simp only
    have := same_doStart c { s with current := some c, n := s.n + 1, real := none, expired := false, stopped := false, stale := decide (s.perror ≠ .unknown) || s.cancelReason }
    split
    · exact ⟨this.2.2.1, this.2.1⟩
    · exact ⟨this.2.2.1, this.2.1⟩
  intro hx
  simp [h.1, h.2] at hx

theorem told_takes {s : St} (h : Inv s) (ht : Told s) {r : Req} {l : List Req} (hl : s.toLauncher = r :: l) :
    Told (launcherTakes r { s with toLauncher := l }) := by
  obtain ⟨hb, hph⟩ := h
  cases r with
  | start m =>
    rcases proc_cases s with hp | ⟨n, k, hp⟩
    · skip
      rw [takes_start m (by exact hp)]
      intro hx hy
      rcases ht hx hy with ⟨l1, l2, h1, h2⟩ | ⟨k, h1, _⟩ | h1
      · have hm := hb.startN m (by rw [hl]; exact List.mem_cons_self)
        subst hm
        refine .inr (.inl ⟨0, rfl, .inr ?_⟩)
        cases l1 with
        | nil =>
          have e := hl.symm.trans h1
          simp only [List.nil_append, List.cons.injEq, true_and] at e
          show Req.stop s.n ∈ l
          rw [e]; exact h2
        | cons x l1 =>
          have e := hl.symm.trans h1
          simp only [List.cons_append, List.cons.injEq] at e
          show Req.stop s.n ∈ l
          rw [e.2]
          simp [h2]
      · simp [hp] at h1
      · exact .inr (.inr h1)
    · skip
      have e : launcherTakes (.start m) { s with toLauncher := l } = { s with toLauncher := l } := by
        unfold launcherTakes
        simp only [hp]
      rw [e]
      have hmem : Req.start m ∈ s.toLauncher := by rw [hl]; exact List.mem_cons_self
      cases hph with
      | runs k' a1 a2 a3 a4 a5 a6 a7 a8 => exact absurd hmem (a8 m)
      | over _ e => simp [e.proc] at hp
      | stuck _ e => simp [e.proc] at hp
      | _ => simp_all
  | stop m =>
    rcases proc_cases s with hp | ⟨n, k, hp⟩
    · skip
      rw [takes_stop_idle m (by exact hp)]
      intro hx hy
      rcases ht hx hy with ⟨l1, l2, h1, h2⟩ | ⟨k, h1, _⟩ | h1
      · cases l1 with
        | nil => have e := hl.symm.trans h1; simp at e
        | cons x l1 =>
          have e := hl.symm.trans h1
          simp only [List.cons_append, List.cons.injEq] at e
          exact .inl ⟨l1, l2, e.2, h2⟩
      · simp [hp] at h1
      · exact .inr (.inr h1)
    · skip
      obtain ⟨rfl, _⟩ := alive_runs ⟨hb, hph⟩ hp
      rw [takes_stop_alive m s.n k (by exact hp)]
      exact told_launcherCancel ⟨k, hp⟩

theorem told_step {s s' : St} {e : Ev} (h : Inv s) (ht : Told s) (hs : step s e = some s') : Told s' := by
  cases e with
  | start c =>
    simp only [step] at hs
    by_cases hc : s.current = none
    · rw [if_pos hc] at hs; cases hs; exact told_start c s
    · rw [if_neg hc] at hs; cases hs
  | dryDone =>
    simp only [step] at hs
    by_cases hc : s.dryTimer = true
    · rw [if_pos hc] at hs; cases hs
      refine told_of_not ?_
      rw [pstate_finish]
      obtain ⟨_, hp⟩ := h
      cases hp with
      | over _ e => exact e.pstate
      | stuck _ e => exact e.pstate
      | _ => simp_all
    · rw [if_neg hc] at hs; cases hs
  | socketReady =>
    simp only [step] at hs
    by_cases hc : s.ready = false ∧ s.dead = false
    · rw [if_pos hc] at hs; cases hs
      unfold handleSocketReady
      simp only
      split
      · rename_i hp
        obtain ⟨h1, h2⟩ := starting_not_told h ht hp
        intro hx
        simp [processDoStart, h1, h2] at hx
      · exact ht
    · rw [if_neg hc] at hs; cases hs
  | socketError =>
    simp only [step] at hs
    by_cases hc : s.ready = true
    · rw [if_pos hc] at hs; cases hs
      unfold handleSocketError
      simp only
      split
      · exact told_of_not (pstate_error _)
      · rename_i hp
        exact told_of_not (by simpa using hp)
    · rw [if_neg hc] at hs; cases hs
  | launcherTakes =>
    simp only [step] at hs
    cases hl : s.toLauncher with
    | nil => rw [hl] at hs; cases hs
    | cons r l => rw [hl] at hs; cases hs; exact told_takes h ht hl
  | procFails =>
    simp only [step] at hs
    cases hl : s.proc with
    | idle => rw [hl] at hs; cases hs
    | alive n k => rw [hl] at hs; cases hs; exact fun _ _ => .inr (.inr (by simp))
  | procExits code crashed =>
    simp only [step] at hs
    cases hl : s.proc with
    | idle => rw [hl] at hs; cases hs
    | alive n k => rw [hl] at hs; cases hs; exact fun _ _ => .inr (.inr (by simp))
  | stopTimer =>
    simp only [step] at hs
    cases hl : s.proc with
    | idle => rw [hl] at hs; cases hs
    | alive n k =>
      rw [hl] at hs; simp only at hs
      by_cases hk : k > 0
      · rw [if_pos hk] at hs; cases hs
        obtain ⟨rfl, _⟩ := alive_runs h hl
        exact told_launcherCancel ⟨k, hl⟩
      · rw [if_neg hk] at hs; cases hs
  | deliver =>
    simp only [step] at hs
    cases hl : s.fromLauncher with
    | nil => rw [hl] at hs; cases hs
    | cons r l =>
      rw [hl] at hs; cases hs
      refine told_of_not ?_
      obtain ⟨_, hph⟩ := h
      cases hph with
      | over _ e => simp [e.fromL] at hl
      | stuck _ e => simp [e.fromL] at hl
      | failed a1 a2 a3 a4 a5 a6 a7 =>
        have e2 := hl.symm.trans a7
        simp only [List.cons.injEq] at e2
        obtain ⟨rfl, rfl⟩ := e2
        unfold handlePacket
        simp only
        rw [if_neg (by simp [a5])]
        exact pstate_error _
      | done c x a1 a2 a3 a4 a5 a6 a7 =>
        have e2 := hl.symm.trans a7
        simp only [List.cons.injEq] at e2
        obtain ⟨rfl, rfl⟩ := e2
        unfold handlePacket
        simp only
        rw [if_neg (by simp [a5])]
        exact pstate_finished _
      | _ => simp_all
  | timeout =>
    simp only [step] at hs
    by_cases hc : s.watchdog = true
    · rw [if_pos hc] at hs; cases hs; exact told_cancel (inv_expired h) true
    · rw [if_neg hc] at hs; cases hs
  | cancel =>
    simp only [step] at hs
    by_cases hc : s.current.isSome = true
    · rw [if_pos hc] at hs; cases hs; exact told_cancel (inv_stopped h) false
    · rw [if_neg hc] at hs; cases hs
  | setActive b =>
    simp only [step] at hs
    cases hs; exact ht
  | delayedError =>
    simp only [step] at hs
    by_cases hc : s.delayedError > 0
    · rw [if_pos hc] at hs; cases hs
      refine told_of_not ?_
      rw [pstate_error]
      obtain ⟨hb, hp⟩ := h
      cases hp with
      | over _ e => exact e.pstate
      | stuck _ e => exact e.pstate
      | _ => simp_all
    · rw [if_neg hc] at hs; cases hs
  | delayedFinished =>
    simp only [step] at hs
    by_cases hc : s.delayedFinished > 0
    · rw [if_pos hc] at hs; cases hs
      refine told_of_not ?_
      rw [pstate_finished]
      obtain ⟨hb, hp⟩ := h
      cases hp with
      | over _ e => exact e.pstate
      | stuck _ e => exact e.pstate
      | _ => simp_all
    · rw [if_neg hc] at hs; cases hs

theorem told_run {s s' : St} {l : List Ev} (h : Inv s) (ht : Told s) (hr : run s l = some s') : Told s' := by
  induction l generalizing s with
  | nil => simp only [run, Option.some.injEq] at hr; exact hr ▸ ht
  | cons e l ih =>
    simp only [run] at hr
    cases hs : step s e with
    | none => rw [hs] at hr; cases hr
    | some t => rw [hs] at hr; exact ih (inv_step h hs) (told_step h ht hs) hr

theorem told_reachable {s : St} (h : Reachable s) : Told s := by
  obtain ⟨r, l, hr⟩ := h
  exact told_run (inv_init r) (told_of_not rfl) hr

/-- The process is there, or its end will be, or has been, noticed. -/
def Going (s : St) : Prop :=
  s.current = none ∨ (∃ k, s.proc = .alive s.n k) ∨ (∃ n c x, s.fromLauncher = [.finished n c x] ∧ s.pstate = .running) ∨ s.delayedFinished = 1

theorem going_finished {s : St} (ha : s.active = false) : Going (onProcessFinished s) := by
  unfold onProcessFinished
  rw [if_neg (by simp [ha])]
  obtain ⟨o, ho⟩ := send_eq (removeResponseFile s)
  rw [ho]
  exact .inl current_finish

theorem going_launcherCancel {s : St} (h5 : s.pstate = .running) (h7 : s.fromLauncher = []) (hp : ∃ k, s.proc = .alive s.n k) : Going (launcherCancel s) := by
  obtain ⟨k, hp⟩ := hp
  have e : launcherCancel s = (if k < 2 then { s with proc := .alive s.n (k + 1) }
    else { s with proc := .idle, real := some .notStopped, fromLauncher := s.fromLauncher ++ [.finished s.n (-1) true] }) := by
    unfold launcherCancel; rw [hp]
  rw [e]
  split
  · exact .inr (.inl ⟨k + 1, rfl⟩)
  · exact .inr (.inr (.inl ⟨s.n, -1, true, by simp [h7], h5⟩))

theorem going_step {s s' : St} {e : Ev} (h : Inv s) (hg : Going s) (ha : s.active = false) (he : e.own = true) (hs : step s e = some s') : Going s' := by
  have h0 := h
  obtain ⟨hb, hph⟩ := h
  cases e with
  | start c => cases he
  | timeout => cases he
  | cancel => cases he
  | setActive b => cases he
  | socketError => cases he
  | procFails => cases he
  | procExits _ _ => cases he
  | dryDone =>
    simp only [step] at hs
    by_cases hc : s.dryTimer = true
    · rw [if_pos hc] at hs; cases hs; exact .inl current_finish
    · rw [if_neg hc] at hs; cases hs
  | socketReady =>
    simp only [step] at hs
    by_cases hc : s.ready = false ∧ s.dead = false
    · rw [if_pos hc] at hs; cases hs
      unfold handleSocketReady processDoStart
      simp only
      split
      · rename_i hp
        rcases hg with h1 | h1 | h1 | h1
        · exact .inl h1
        · exact .inr (.inl h1)
        · obtain ⟨n, c, x, _, h2⟩ := h1; simp [hp] at h2
        · exact .inr (.inr (.inr h1))
      · exact hg
    · rw [if_neg hc] at hs; cases hs
  | launcherTakes =>
    simp only [step] at hs
    cases hl : s.toLauncher with
    | nil => rw [hl] at hs; cases hs
    | cons r l =>
      rw [hl] at hs; cases hs
      rcases proc_cases s with hp | ⟨n, k, hp⟩
      · skip
        cases r with
        | start m =>
          rw [takes_start m (by exact hp)]
          rcases hg with h1 | h1 | h1 | h1
          · exact .inl h1
          · simp [hp] at h1
          · exact .inr (.inr (.inl h1))
          · exact .inr (.inr (.inr h1))
        | stop m =>
          rw [takes_stop_idle m (by exact hp)]
          exact hg
      · skip
        obtain ⟨rfl, a1, a2, a3, a4, a5, a7, a8, _⟩ := alive_runs h0 hp
        cases r with
        | start m => exact absurd (by rw [hl]; exact List.mem_cons_self) (a8 m)
        | stop m =>
          rw [takes_stop_alive m s.n k (by exact hp)]
          exact going_launcherCancel a5 a7 ⟨k, hp⟩
  | stopTimer =>
    simp only [step] at hs
    cases hl : s.proc with
    | idle => rw [hl] at hs; cases hs
    | alive n k =>
      rw [hl] at hs; simp only at hs
      by_cases hk : k > 0
      · rw [if_pos hk] at hs; cases hs
        obtain ⟨rfl, a1, a2, a3, a4, a5, a7, a8, _⟩ := alive_runs h0 hl
        exact going_launcherCancel a5 a7 ⟨k, hl⟩
      · rw [if_neg hk] at hs; cases hs
  | deliver =>
    simp only [step] at hs
    cases hl : s.fromLauncher with
    | nil => rw [hl] at hs; cases hs
    | cons r l =>
      rw [hl] at hs; cases hs
      cases hph with
      | over _ e => simp [e.fromL] at hl
      | stuck _ e => simp [e.fromL] at hl
      | failed a1 a2 a3 a4 a5 a6 a7 =>
        rcases hg with h1 | ⟨k, h1⟩ | ⟨n, c, x, h1, _⟩ | h1
        · simp [h1] at a1
        · simp [a6] at h1
        · simp [a7] at h1
        · simp [a4] at h1
      | done c x a1 a2 a3 a4 a5 a6 a7 =>
        have e2 := hl.symm.trans a7
        simp only [List.cons.injEq] at e2
        obtain ⟨rfl, rfl⟩ := e2
        unfold handlePacket
        simp only
        rw [if_neg (by simp [a5])]
        exact going_finished ha
      | _ => simp_all
  | delayedError =>
    simp only [step] at hs
    by_cases hc : s.delayedError > 0
    · rw [if_pos hc] at hs; cases hs
      cases hph with
      | over _ e => simp [e.e1] at hc
      | stuck _ e => simp [e.e1] at hc
      | delayedError a1 a2 a3 a4 a5 a6 a7 =>
        rcases hg with h1 | ⟨k, h1⟩ | ⟨n, c, x, h1, _⟩ | h1
        · simp [h1] at a1
        · simp [a6] at h1
        · simp [a7] at h1
        · simp [a4] at h1
      | _ => simp_all
    · rw [if_neg hc] at hs; cases hs
  | delayedFinished =>
    simp only [step] at hs
    by_cases hc : s.delayedFinished > 0
    · rw [if_pos hc] at hs; cases hs
      exact going_finished ha
    · rw [if_neg hc] at hs; cases hs

/-- A command that cannot go on stays as it is, whatever happens. -/
theorem stuck_step {s s' : St} {e : Ev} (he : Empty s) (hc : s.current.isSome = true) (hs : step s e = some s') :
    Empty s' ∧ s'.current.isSome = true ∧ s'.out = s.out := by
  cases e with
  | start c =>
    simp only [step] at hs
    by_cases h : s.current = none
    · simp [h] at hc
    · rw [if_neg h] at hs; cases hs
  | dryDone => simp [step, he.dryTimer] at hs
  | socketReady =>
    simp only [step] at hs
    by_cases h : s.ready = false ∧ s.dead = false
    · rw [if_pos h] at hs; cases hs
      unfold handleSocketReady
      simp only
      rw [if_neg (by simp [he.pstate])]
      exact ⟨he.congr rfl rfl rfl rfl rfl rfl rfl, hc, rfl⟩
    · rw [if_neg h] at hs; cases hs
  | socketError =>
    simp only [step] at hs
    by_cases h : s.ready = true
    · rw [if_pos h] at hs; cases hs
      unfold handleSocketError
      simp only
      rw [if_neg (by simp [he.pstate])]
      exact ⟨⟨he.dryTimer, he.e1, he.e2, he.pstate, rfl, rfl, by simp⟩, hc, rfl⟩
    · rw [if_neg h] at hs; cases hs
  | launcherTakes =>
    simp only [step] at hs
    cases hl : s.toLauncher with
    | nil => rw [hl] at hs; cases hs
    | cons r l =>
      rw [hl] at hs; cases hs
      cases r with
      | start m => exact absurd (by rw [hl]; exact List.mem_cons_self) (he.noStart m)
      | stop m =>
        rw [takes_stop_idle m (by exact he.proc)]
        exact ⟨⟨he.dryTimer, he.e1, he.e2, he.pstate, he.proc, he.fromL, fun k hk => he.noStart k (by rw [hl]; exact List.mem_cons_of_mem _ hk)⟩, hc, rfl⟩
  | procFails => simp [step, he.proc] at hs
  | procExits _ _ => simp [step, he.proc] at hs
  | stopTimer => simp [step, he.proc] at hs
  | deliver => simp [step, he.fromL] at hs
  | timeout =>
    simp only [step] at hs
    by_cases h : s.watchdog = true
    · rw [if_pos h] at hs; cases hs
      unfold cancel
      rw [processCancel_notRunning (by exact he.pstate)]
      exact ⟨he.congr rfl rfl rfl rfl rfl rfl rfl, hc, rfl⟩
    · rw [if_neg h] at hs; cases hs
  | cancel =>
    simp only [step] at hs
    rw [if_pos hc] at hs; cases hs
    unfold cancel
    rw [processCancel_notRunning (by exact he.pstate)]
    exact ⟨he.congr rfl rfl rfl rfl rfl rfl rfl, hc, rfl⟩
  | setActive b =>
    simp only [step] at hs
    cases hs
    exact ⟨he.congr rfl rfl rfl rfl rfl rfl rfl, hc, rfl⟩
  | delayedError => simp [step, he.e1] at hs
  | delayedFinished => simp [step, he.e2] at hs

theorem stuck_run {s s' : St} {l : List Ev} (he : Empty s) (hc : s.current.isSome = true) (hr : run s l = some s') :
    s'.current.isSome = true ∧ s'.out = s.out := by
  induction l generalizing s with
  | nil => simp only [run, Option.some.injEq] at hr; subst hr; exact ⟨hc, rfl⟩
  | cons e l ih =>
    simp only [run] at hr
    cases hs : step s e with
    | none => rw [hs] at hr; cases hr
    | some t =>
      rw [hs] at hr
      obtain ⟨h1, h2, h3⟩ := stuck_step he hc hs
      obtain ⟨h4, h5⟩ := ih h1 h2 hr
      exact ⟨h4, h5.trans h3⟩

end Verif.Proc
