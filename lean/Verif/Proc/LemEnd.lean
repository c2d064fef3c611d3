import Verif.Proc.LemStep

namespace Verif.Proc

/-! ## Commands are reported in order -/

def cmds (s : St) : List Cmd := s.out.map Entry.cmd ++ s.current.toList

theorem cmds_finish {s : St} (o : Outcome) (h : s.current.isSome = true) : cmds (finish o s) = cmds s := by
  obtain ⟨c, hc⟩ := Option.isSome_iff_exists.1 h
  unfold finish cmds
  rw [hc]
  simp

theorem cmds_remove (s : St) : cmds (removeResponseFile s) = cmds s := by
  unfold removeResponseFile
  split <;> rfl

theorem cmds_error {s : St} (h : s.current.isSome = true) : cmds (onProcessError s) = cmds s := by
  unfold onProcessError
  split
  · rfl
  · split
    · rfl
    · split
      · rw [cmds_finish _ (by rw [(remove_fields s).1]; exact h), cmds_remove]
      · rfl

theorem send_eq (s : St) : ∃ o, sendProcessOutput s = finish o s := by
  have key : ∀ (x : Prop) [Decidable x] (a b : Outcome), (if x then finish a s else finish b s) = finish (if x then a else b) s := by
    intro x _ a b; split <;> rfl
  unfold sendProcessOutput
  simp only [key]
  exact ⟨_, rfl⟩

theorem cmds_finished {s : St} (h : s.current.isSome = true) : cmds (onProcessFinished s) = cmds s := by
  unfold onProcessFinished
  split
  · rfl
  · have h' : (removeResponseFile s).current.isSome = true := by rw [(remove_fields s).1]; exact h
    obtain ⟨o, ho⟩ := send_eq (removeResponseFile s)
    rw [ho, cmds_finish _ h', cmds_remove]

theorem cmds_launcherCancel (s : St) : cmds (launcherCancel s) = cmds s := by
  unfold launcherCancel
  split
  · rfl
  · split <;> rfl

theorem cmds_processStart {s : St} (h : s.current.isSome = true) : cmds (processStart s) = cmds s := by
  unfold processStart
  split
  · rw [cmds_error (by exact h)]; rfl
  · simp only
    split <;> rfl

theorem cmds_doStart {s : St} (c : Cmd) (h : s.current.isSome = true) : cmds (doStart c s).1 = cmds s := by
  unfold doStart
  split
  · rfl
  · split
    · rfl
    · split
      · exact cmds_finish _ h
      · split
        · exact cmds_processStart h
        · split
          · exact cmds_processStart (s := { s with responseFile := true, files := s.files + 1 }) h
          · split
            · exact cmds_finish _ h
            · exact cmds_finish (s := { s with files := s.files + 1 }) _ h

theorem current_of_pstate {s : St} (h : Inv s) (hp : s.pstate ≠ .notRunning) : s.current.isSome = true := by
  obtain ⟨_, hp'⟩ := h
  cases hp' with
  | over _ e => exact absurd e.pstate hp
  | stuck a _ => exact a
  | _ => simp_all

theorem cmds_processCancel {s : St} (h : s.pstate ≠ .notRunning → s.current.isSome = true) : cmds (processCancel s) = cmds s := by
  cases hp : s.pstate with
  | notRunning => rw [processCancel_notRunning hp]
  | starting =>
    have hc := h (by simp [hp])
    rw [processCancel_starting hp, cmds_error (by exact hc)]; rfl
  | running => rw [processCancel_running hp]; rfl

theorem cmds_cancel {s : St} (h : Inv s) (b : Bool) : cmds (cancel b s) = cmds s := by
  unfold cancel
  rw [cmds_processCancel (s := { s with cancelReason := b }) (fun hp => current_of_pstate (s := s) h hp)]; rfl

theorem cmds_step {s s' : St} {e : Ev} (h : Inv s) (hs : step s e = some s') : cmds s' = cmds s ++ starts [e] := by
  cases e with
  | start c =>
    simp only [step] at hs
    by_cases hc : s.current = none
    · rw [if_pos hc] at hs
      cases hs
      simp only [starts]
      unfold start
      simp only
      have : cmds (doStart c { s with current := some c, n := s.n + 1, real := none, expired := false, stopped := false, stale := decide (s.perror ≠ .unknown) || s.cancelReason }).1 = cmds s ++ [c] := by
        rw [cmds_doStart c rfl]
        unfold cmds
        simp [hc]
      split
      · exact this
      · exact this
    · rw [if_neg hc] at hs; cases hs
  | dryDone =>
    simp only [step] at hs
    simp only [starts, List.append_nil]
    by_cases hc : s.dryTimer = true
    · rw [if_pos hc] at hs; cases hs
      refine cmds_finish (s := { s with dryTimer := false }) _ ?_
      obtain ⟨_, hp⟩ := h
      cases hp with
      | dry c a1 => simp [a1]
      | over _ e => simp [e.dryTimer] at hc
      | stuck _ e => simp [e.dryTimer] at hc
      | _ => simp_all
    · rw [if_neg hc] at hs; cases hs
  | socketReady =>
    simp only [step] at hs
    simp only [starts, List.append_nil]
    by_cases hc : s.ready = false ∧ s.dead = false
    · rw [if_pos hc] at hs; cases hs
      unfold handleSocketReady
      simp only
      split <;> rfl
    · rw [if_neg hc] at hs; cases hs
  | socketError =>
    simp only [step] at hs
    simp only [starts, List.append_nil]
    by_cases hc : s.ready = true
    · rw [if_pos hc] at hs; cases hs
      unfold handleSocketError
      simp only
      split
      · rename_i hp
        have hcur := current_of_pstate h hp
        rw [cmds_error (by exact hcur)]; rfl
      · rfl
    · rw [if_neg hc] at hs; cases hs
  | launcherTakes =>
    simp only [step] at hs
    simp only [starts, List.append_nil]
    cases hl : s.toLauncher with
    | nil => rw [hl] at hs; cases hs
    | cons r l =>
      rw [hl] at hs; cases hs
      unfold launcherTakes
      split
      · rfl
      · rfl
      · rfl
      · rw [cmds_launcherCancel]; rfl
  | procFails =>
    simp only [step] at hs
    simp only [starts, List.append_nil]
    cases hl : s.proc with
    | idle => rw [hl] at hs; cases hs
    | alive n k => rw [hl] at hs; cases hs; rfl
  | procExits code crashed =>
    simp only [step] at hs
    simp only [starts, List.append_nil]
    cases hl : s.proc with
    | idle => rw [hl] at hs; cases hs
    | alive n k => rw [hl] at hs; cases hs; rfl
  | stopTimer =>
    simp only [step] at hs
    simp only [starts, List.append_nil]
    cases hl : s.proc with
    | idle => rw [hl] at hs; cases hs
    | alive n k =>
      rw [hl] at hs; simp only at hs
      by_cases hk : k > 0
      · rw [if_pos hk] at hs; cases hs; exact cmds_launcherCancel s
      · rw [if_neg hk] at hs; cases hs
  | deliver =>
    simp only [step] at hs
    simp only [starts, List.append_nil]
    cases hl : s.fromLauncher with
    | nil => rw [hl] at hs; cases hs
    | cons r l =>
      rw [hl] at hs; cases hs
      unfold handlePacket
      cases r with
      | error m =>
        simp only
        split
        · rfl
        · rename_i hp
          have hcur := current_of_pstate h hp
          rw [cmds_error (by exact hcur)]; rfl
      | finished m code cr =>
        simp only
        split
        · rfl
        · rename_i hp
          have hcur := current_of_pstate h (by intro he; simp [he] at hp)
          rw [cmds_finished (by exact hcur)]; rfl
  | timeout =>
    simp only [step] at hs
    simp only [starts, List.append_nil]
    by_cases hc : s.watchdog = true
    · rw [if_pos hc] at hs; cases hs; rw [cmds_cancel (inv_expired h)]; rfl
    · rw [if_neg hc] at hs; cases hs
  | cancel =>
    simp only [step] at hs
    simp only [starts, List.append_nil]
    by_cases hc : s.current.isSome = true
    · rw [if_pos hc] at hs; cases hs; rw [cmds_cancel (inv_stopped h)]; rfl
    · rw [if_neg hc] at hs; cases hs
  | setActive b =>
    simp only [step] at hs
    simp only [starts, List.append_nil]
    cases hs; rfl
  | delayedError =>
    simp only [step] at hs
    simp only [starts, List.append_nil]
    by_cases hc : s.delayedError > 0
    · rw [if_pos hc] at hs; cases hs
      refine cmds_error (s := { s with delayedError := s.delayedError - 1 }) ?_
      obtain ⟨hb, hp⟩ := h
      cases hp with
      | over _ e => simp [e.e1] at hc
      | stuck a _ => exact a
      | _ => simp_all
    · rw [if_neg hc] at hs; cases hs
  | delayedFinished =>
    simp only [step] at hs
    simp only [starts, List.append_nil]
    by_cases hc : s.delayedFinished > 0
    · rw [if_pos hc] at hs; cases hs
      refine cmds_finished (s := { s with delayedFinished := s.delayedFinished - 1 }) ?_
      obtain ⟨hb, hp⟩ := h
      cases hp with
      | over _ e => simp [e.e2] at hc
      | stuck a _ => exact a
      | _ => simp_all
    · rw [if_neg hc] at hs; cases hs

theorem starts_cons (e : Ev) (l : List Ev) : starts (e :: l) = starts [e] ++ starts l := by
  cases e <;> rfl

theorem cmds_run {s s' : St} {l : List Ev} (h : Inv s) (hr : run s l = some s') : cmds s' = cmds s ++ starts l := by
  induction l generalizing s with
  | nil => simp only [run, Option.some.injEq] at hr; simp [hr, starts]
  | cons e l ih =>
    simp only [run] at hr
    cases hs : step s e with
    | none => rw [hs] at hr; cases hr
    | some t =>
      rw [hs] at hr
      rw [ih (inv_step h hs) hr, cmds_step h hs, starts_cons e l, List.append_assoc]

/-! ## Internal events come to an end -/

def Req.weight : Req → Nat
  | .start _ => 7
  | .stop _ => 1

def LProc.weight : LProc → Nat
  | .idle => 0
  | .alive _ k => 5 - min k 2

def weights (l : List Req) : Nat := (l.map Req.weight).sum

def rank (s : St) : Nat :=
  (if s.ready = false ∧ s.dead = false then 10 else 0) + weights s.toLauncher + s.proc.weight + 2 * s.fromLauncher.length +
    s.delayedError + s.delayedFinished + (if s.dryTimer then 1 else 0)

theorem rank_finish (o : Outcome) (s : St) : rank (finish o s) = rank s ∧ (finish o s).active = s.active := by
  unfold finish
  split <;> exact ⟨rfl, rfl⟩

theorem rank_remove (s : St) : rank (removeResponseFile s) = rank s ∧ (removeResponseFile s).active = s.active := by
  unfold removeResponseFile
  split <;> exact ⟨rfl, rfl⟩

theorem rank_error {s : St} (ha : s.active = false) : rank (onProcessError s) = rank s ∧ (onProcessError s).active = false := by
  unfold onProcessError
  rw [if_neg (by simp [ha])]
  split
  · exact ⟨rfl, ha⟩
  · split
    · rw [(rank_finish _ _).1, (rank_finish _ _).2, (rank_remove s).1, (rank_remove s).2]; exact ⟨rfl, ha⟩
    · exact ⟨rfl, ha⟩

theorem rank_finished {s : St} (ha : s.active = false) : rank (onProcessFinished s) = rank s ∧ (onProcessFinished s).active = false := by
  unfold onProcessFinished
  rw [if_neg (by simp [ha])]
  obtain ⟨o, ho⟩ := send_eq (removeResponseFile s)
  rw [ho, (rank_finish _ _).1, (rank_finish _ _).2, (rank_remove s).1, (rank_remove s).2]; exact ⟨rfl, ha⟩

theorem rank_launcherCancel {s : St} {n k : Nat} (hp : s.proc = .alive n k) :
    rank (launcherCancel s) ≤ rank s ∧ (0 < k → rank (launcherCancel s) < rank s) ∧ (launcherCancel s).active = s.active := by
  unfold launcherCancel
  rw [hp]
  simp only
  split
  · refine ⟨?_, ?_, rfl⟩ <;> simp only [rank, hp, LProc.weight] <;> omega
  · refine ⟨?_, ?_, rfl⟩ <;> simp only [rank, hp, LProc.weight, List.length_append, List.length_cons, List.length_nil] <;> omega

theorem rank_step {s s' : St} {e : Ev} (ha : s.active = false) (he : e.internal = true) (hs : step s e = some s') :
    rank s' < rank s ∧ s'.active = false := by
  cases e with
  | start c => cases he
  | timeout => cases he
  | cancel => cases he
  | setActive b => cases he
  | socketError => cases he
  | dryDone =>
    simp only [step] at hs
    by_cases hc : s.dryTimer = true
    · rw [if_pos hc] at hs; cases hs
      rw [(rank_finish _ _).1, (rank_finish _ _).2]
      refine ⟨?_, ha⟩
      simp [rank, hc]
    · rw [if_neg hc] at hs; cases hs
  | socketReady =>
    simp only [step] at hs
    by_cases hc : s.ready = false ∧ s.dead = false
    · rw [if_pos hc] at hs; cases hs
      unfold handleSocketReady processDoStart
      simp only
      split
      · refine ⟨?_, ha⟩
        simp [rank, hc.1, hc.2, weights, Req.weight]
        omega
      · refine ⟨?_, ha⟩
        simp [rank, hc.1, hc.2]
    · rw [if_neg hc] at hs; cases hs
  | launcherTakes =>
    simp only [step] at hs
    cases hl : s.toLauncher with
    | nil => rw [hl] at hs; cases hs
    | cons r l =>
      rw [hl] at hs; cases hs
      unfold launcherTakes
      split
      · rename_i hp
        simp only at hp
        refine ⟨?_, ha⟩
        simp [rank, hl, hp, weights, Req.weight, LProc.weight]
        omega
      · refine ⟨?_, ha⟩
        simp [rank, hl, weights, Req.weight]
      · refine ⟨?_, ha⟩
        simp [rank, hl, weights, Req.weight]
      · rename_i m n k hp
        simp only at hp
        have h1 := rank_launcherCancel (s := { s with toLauncher := l, hits := s.hits ++ [(m, n)] }) (n := n) (k := k) hp
        refine ⟨Nat.lt_of_le_of_lt h1.1 ?_, h1.2.2.trans ha⟩
        simp [rank, hl, weights, Req.weight]
  | procFails =>
    simp only [step] at hs
    cases hl : s.proc with
    | idle => rw [hl] at hs; cases hs
    | alive n k =>
      rw [hl] at hs; cases hs
      refine ⟨?_, ha⟩
      simp only [rank, hl, LProc.weight, List.length_append, List.length_cons, List.length_nil]
      omega
  | procExits code crashed =>
    simp only [step] at hs
    cases hl : s.proc with
    | idle => rw [hl] at hs; cases hs
    | alive n k =>
      rw [hl] at hs; cases hs
      refine ⟨?_, ha⟩
      simp only [rank, hl, LProc.weight, List.length_append, List.length_cons, List.length_nil]
      omega
  | stopTimer =>
    simp only [step] at hs
    cases hl : s.proc with
    | idle => rw [hl] at hs; cases hs
    | alive n k =>
      rw [hl] at hs; simp only at hs
      by_cases hk : k > 0
      · rw [if_pos hk] at hs; cases hs
        have := rank_launcherCancel hl
        exact ⟨this.2.1 hk, this.2.2.trans ha⟩
      · rw [if_neg hk] at hs; cases hs
  | deliver =>
    simp only [step] at hs
    cases hl : s.fromLauncher with
    | nil => rw [hl] at hs; cases hs
    | cons r l =>
      rw [hl] at hs; cases hs
      have hlt : rank { s with fromLauncher := l } < rank s := by simp [rank, hl]
      unfold handlePacket
      cases r with
      | error m =>
        simp only
        split
        · exact ⟨hlt, ha⟩
        · have := rank_error (s := { s with fromLauncher := l, perror := .failedToStart, pstate := .notRunning }) ha
          exact ⟨by rw [this.1]; exact hlt, this.2⟩
      | finished m code cr =>
        simp only
        split
        · exact ⟨hlt, ha⟩
        · have := rank_finished (s := { s with fromLauncher := l, pstate := .notRunning, exitCode := code }) ha
          exact ⟨by rw [this.1]; exact hlt, this.2⟩
  | delayedError =>
    simp only [step] at hs
    by_cases hc : s.delayedError > 0
    · rw [if_pos hc] at hs; cases hs
      have := rank_error (s := { s with delayedError := s.delayedError - 1 }) ha
      refine ⟨?_, this.2⟩
      rw [this.1]
      simp only [rank]
      omega
    · rw [if_neg hc] at hs; cases hs
  | delayedFinished =>
    simp only [step] at hs
    by_cases hc : s.delayedFinished > 0
    · rw [if_pos hc] at hs; cases hs
      have := rank_finished (s := { s with delayedFinished := s.delayedFinished - 1 }) ha
      refine ⟨?_, this.2⟩
      rw [this.1]
      simp only [rank]
      omega
    · rw [if_neg hc] at hs; cases hs

/-- What is kept by some events holds after any number of them, and they come to an end. -/
theorem run_internal {p : Ev → Bool} (hp : ∀ e, p e = true → e.internal = true) {P : St → Prop}
    (hP : ∀ s e s', P s → p e = true → step s e = some s' → P s') {s s' : St} {l : List Ev} (h : P s) (ha : s.active = false)
    (hl : ∀ e ∈ l, p e = true) (hr : run s l = some s') : P s' ∧ s'.active = false ∧ l.length + rank s' ≤ rank s := by
  induction l generalizing s with
  | nil => simp only [run, Option.some.injEq] at hr; subst hr; exact ⟨h, ha, by simp⟩
  | cons e l ih =>
    simp only [run] at hr
    cases hs : step s e with
    | none => rw [hs] at hr; cases hr
    | some t =>
      rw [hs] at hr
      have he := hl e List.mem_cons_self
      have h1 := rank_step ha (hp e he) hs
      obtain ⟨a, b, c⟩ := ih (hP s e t h he hs) h1.2 (fun e he => hl e (List.mem_cons_of_mem _ he)) hr
      refine ⟨a, b, ?_⟩
      simp only [List.length_cons]
      omega

/-- A state with a command, in which nothing can happen, is one the command cannot leave. -/
theorem stopped_stuck {s : St} (h : Inv s) (hc : s.current.isSome = true) (hs : Stopped Ev.internal s) :
    Empty s ∧ (s.stale = true ∨ s.expired = true) := by
  obtain ⟨hb, hp⟩ := h
  cases hp with
  | over a _ => simp [a] at hc
  | stuck _ e c => exact ⟨e, c⟩
  | dry c a1 a2 a3 => have := hs .dryDone rfl; simp [step, a3] at this
  | starting a1 a2 a3 a4 a5 a6 a7 a8 a9 a10 => have := hs .socketReady rfl; simp [step, a9, a10] at this
  | sent l1 l2 a1 a2 a3 a4 a5 a6 a7 a8 =>
    have := hs .launcherTakes rfl
    cases l1 with
    | nil => simp [step, a8] at this
    | cons x l1 => simp [step, a8] at this
  | runs k a1 a2 a3 a4 a5 a6 => have := hs .procFails rfl; simp [step, a6] at this
  | failed a1 a2 a3 a4 a5 a6 a7 => have := hs .deliver rfl; simp [step, a7] at this
  | done c r a1 a2 a3 a4 a5 a6 a7 => have := hs .deliver rfl; simp [step, a7] at this
  | delayedError a1 a2 a3 => have := hs .delayedError rfl; simp [step, a3] at this
  | delayedFinished a1 a2 a3 a4 => have := hs .delayedFinished rfl; simp [step, a4] at this

/-! ## What internal events leave as it is -/

def Same (s t : St) : Prop := t.stale = s.stale ∧ t.expired = s.expired ∧ t.stopped = s.stopped ∧ t.n = s.n

theorem Same.rfl' (s : St) : Same s s := ⟨rfl, rfl, rfl, rfl⟩

theorem Same.trans {a b c : St} (h1 : Same a b) (h2 : Same b c) : Same a c :=
  ⟨h2.1.trans h1.1, h2.2.1.trans h1.2.1, h2.2.2.1.trans h1.2.2.1, h2.2.2.2.trans h1.2.2.2⟩

theorem same_finish (o : Outcome) (s : St) : Same s (finish o s) := by
  unfold finish
  split <;> exact ⟨rfl, rfl, rfl, rfl⟩

theorem same_remove (s : St) : Same s (removeResponseFile s) := by
  unfold removeResponseFile
  split <;> exact ⟨rfl, rfl, rfl, rfl⟩

theorem same_error (s : St) : Same s (onProcessError s) := by
  unfold onProcessError
  split
  · exact ⟨rfl, rfl, rfl, rfl⟩
  · split
    · exact .rfl' s
    · split
      · exact (same_remove s).trans (same_finish _ _)
      · exact .rfl' s

theorem same_finished (s : St) : Same s (onProcessFinished s) := by
  unfold onProcessFinished
  split
  · exact ⟨rfl, rfl, rfl, rfl⟩
  · obtain ⟨o, ho⟩ := send_eq (removeResponseFile s)
    rw [ho]
    exact (same_remove s).trans (same_finish _ _)

theorem same_launcherCancel (s : St) : Same s (launcherCancel s) := by
  unfold launcherCancel
  split
  · exact .rfl' s
  · split <;> exact ⟨rfl, rfl, rfl, rfl⟩

theorem same_step {s s' : St} {e : Ev} (he : e.internal = true) (hs : step s e = some s') : Same s s' := by
  cases e with
  | start c => cases he
  | timeout => cases he
  | cancel => cases he
  | setActive b => cases he
  | socketError => cases he
  | dryDone =>
    simp only [step] at hs
    split at hs
    · cases hs; exact same_finish _ { s with dryTimer := false }
    · cases hs
  | socketReady =>
    simp only [step] at hs
    split at hs
    · cases hs
      unfold handleSocketReady
      simp only
      split <;> exact ⟨rfl, rfl, rfl, rfl⟩
    · cases hs
  | launcherTakes =>
    simp only [step] at hs
    split at hs
    · cases hs
    · cases hs
      unfold launcherTakes
      split
      · exact ⟨rfl, rfl, rfl, rfl⟩
      · exact ⟨rfl, rfl, rfl, rfl⟩
      · exact ⟨rfl, rfl, rfl, rfl⟩
      · rename_i m n k _
        exact Same.trans ⟨rfl, rfl, rfl, rfl⟩ (same_launcherCancel _)
  | procFails =>
    simp only [step] at hs
    split at hs
    · cases hs; exact ⟨rfl, rfl, rfl, rfl⟩
    · cases hs
  | procExits code crashed =>
    simp only [step] at hs
    split at hs
    · cases hs; exact ⟨rfl, rfl, rfl, rfl⟩
    · cases hs
  | stopTimer =>
    simp only [step] at hs
    split at hs
    · split at hs
      · cases hs; exact same_launcherCancel s
      · cases hs
    · cases hs
  | deliver =>
    simp only [step] at hs
    split at hs
    · cases hs
    · cases hs
      unfold handlePacket
      split
      · split
        · exact ⟨rfl, rfl, rfl, rfl⟩
        · exact Same.trans ⟨rfl, rfl, rfl, rfl⟩ (same_error _)
      · split
        · exact ⟨rfl, rfl, rfl, rfl⟩
        · exact Same.trans ⟨rfl, rfl, rfl, rfl⟩ (same_finished _)
  | delayedError =>
    simp only [step] at hs
    split at hs
    · cases hs; exact Same.trans ⟨rfl, rfl, rfl, rfl⟩ (same_error _)
    · cases hs
  | delayedFinished =>
    simp only [step] at hs
    split at hs
    · cases hs; exact Same.trans ⟨rfl, rfl, rfl, rfl⟩ (same_finished _)
    · cases hs

end Verif.Proc
