import Verif.Proc.LemTime

/-! # What holds for the processes of commands -/

namespace Verif.Proc

/-- **C75.** Commands are reported in the order in which they were started. None is left out, none is reported twice, and nothing
is reported that was not started; the one that is running, if any, comes last. -/
theorem C75_once {ready : Bool} {l : List Ev} {s : St} (h : run (init ready) l = some s) :
    starts l = s.out.map Entry.cmd ++ s.current.toList := by
  have := cmds_run (inv_init ready) h
  exact this.symm

/-- **C75.** What is said about a command is true: a command is successful only if its exit code is accepted (or in a dry run), and
every failure has its reason. -/
theorem C75_justified {s : St} (h : Reachable s) : ∀ e ∈ s.out, e.Justified := (inv_reachable h).1.outOk

/-- **C75, part.** The process of a command that exits is what decides about it: if neither the timeout has expired nor an earlier
command of the same executor has left something behind, and the output can be saved, then the command is successful exactly if the
exit code is accepted. Missing: commands that come after one that could not be started, or that took too long
(`C75_error_stays`, `C75_timeout_stays`). -/
theorem C75_exit_code_partial {s : St} (h : Reachable s) {e : Entry} (he : e ∈ s.out) {code : Int} (hr : e.real = some (.exited code))
    (h1 : e.expired = false) (h2 : e.stale = false) (h3 : e.cmd.saveFails = false) (h4 : e.cmd.dry = false) (h5 : e.cmd.badDir = false)
    (h6 : e.cmd.response < 2) (h7 : e.lost = false) :
    e.outcome = .success ↔ Accepted e.cmd code := by
  have hj := C75_justified h e he
  unfold Entry.Justified at hj
  have hcode : ∀ r c, e.real = some r → r.code = some c → c = code := by
    intro r c h1 h2
    rw [hr] at h1
    cases h1
    simpa [Real.code] using h2.symm
  cases ho : e.outcome with
  | success =>
    rw [ho] at hj
    rcases hj with hj | ⟨r, c, a, b, d⟩
    · simp [h4] at hj
    · rw [hcode r c a b] at d
      simp [d]
  | badExitCode =>
    rw [ho] at hj
    obtain ⟨r, c, a, b, d⟩ := hj
    rw [hcode r c a b] at d
    simp [d]
  | timedOut => rw [ho] at hj; simp [h1, h2] at hj
  | processError => rw [ho] at hj; simp [h3, h2] at hj
  | notStarted => rw [ho] at hj; simp [hr, h7] at hj
  | badDir => rw [ho] at hj; simp [h5] at hj
  | badResponse => rw [ho] at hj; simp at hj; omega

/-- **C75.** To stop a command never stops the process of another one, however late the launcher learns about it. -/
theorem C75_stops_its_own_process {s : St} (h : Reachable s) : ∀ p ∈ s.hits, p.1 = p.2 := (inv_reachable h).1.hits

/-- **C75, part.** While no command is running there are no response files, apart from those of commands which failed because a
file they were to include could not be opened (`C75_response_file_left`). -/
theorem C75_response_files_partial {s : St} (h : Reachable s) (hc : s.current = none) :
    s.files = (s.out.filter (fun e => decide (e.outcome = .badResponse ∧ e.cmd.response ≥ 3))).length := by
  have hb := (inv_reachable h).1
  have hf := hb.files
  cases hr : s.responseFile with
  | true => obtain ⟨c, h1, _⟩ := hb.resp hr; simp [hc] at h1
  | false => rw [hr] at hf; simpa [leaks] using hf

/-- **C75, part.** A command comes to an end if the launcher and the process do: unless the script engine is busy, there are only
finitely many steps that launcher, process and executor can make, and when no more can be made, the command has been reported.
Missing: commands whose time is up (see `C75_stop_ends` for those whose process is running), and those that come after one that
could not be started or took too long. -/
theorem C75_ends_partial {s : St} (h : Reachable s) (ha : s.active = false) (h1 : s.stale = false) (h2 : s.expired = false) :
    Ends Ev.internal s := by
  refine ⟨rank s, ?_⟩
  intro l s' hl hr
  obtain ⟨⟨hi, hse⟩, _, hlen⟩ := run_internal (p := Ev.internal) (fun _ h => h)
    (P := fun t => Inv t ∧ t.stale = false ∧ t.expired = false)
    (fun s e s' hs he h => ⟨inv_step hs.1 h, (same_step he h).1.trans hs.2.1, (same_step he h).2.1.trans hs.2.2⟩)
    (s := s) ⟨inv_reachable h, h1, h2⟩ ha hl hr
  refine ⟨by omega, ?_⟩
  intro hst
  cases hc : s'.current with
  | none => rfl
  | some c =>
    have := (stopped_stuck hi (by simp [hc]) hst).2
    simp [hse.1, hse.2] at this

/-- **C75.** A process that is to be stopped, because its time is up or the build is canceled, need not help: even if it ignores
everything, the command comes to an end after finitely many steps of the launcher and the executor. -/
theorem C75_stop_ends {s : St} (h : Reachable s) (ha : s.active = false) {n k : Nat} (hp : s.proc = .alive n k)
    (hx : s.stopped = true ∨ s.expired = true) : Ends Ev.own s := by
  refine ⟨rank s, ?_⟩
  intro l s' hl hr
  have own_int : ∀ e : Ev, e.own = true → e.internal = true := by
    intro e he
    cases e <;> first | rfl | cases he
  have hn := (alive_runs (inv_reachable h) hp).1
  subst hn
  obtain ⟨⟨hi, hg, ht, hse, _⟩, hact, hlen⟩ := run_internal (p := Ev.own) own_int
    (P := fun t => Inv t ∧ Going t ∧ Told t ∧ (t.stopped = true ∨ t.expired = true) ∧ t.active = false)
    (fun s e s' hs he h => ⟨inv_step hs.1 h, going_step hs.1 hs.2.1 hs.2.2.2.2 he h, told_step hs.1 hs.2.2.1 h,
      by rw [(same_step (own_int e he) h).2.1, (same_step (own_int e he) h).2.2.1]; exact hs.2.2.2.1,
      (rank_step hs.2.2.2.2 (own_int e he) h).2⟩)
    (s := s) ⟨inv_reachable h, .inr (.inl ⟨k, hp⟩), told_reachable h, hx, ha⟩ ha hl hr
  refine ⟨by omega, ?_⟩
  intro hst
  rcases hg with h1 | ⟨k', h1⟩ | ⟨m, c, x, h1, _⟩ | h1
  · exact h1
  · exfalso
    have hrun := alive_runs hi h1
    rcases ht hse (by simp [hrun.2.2.2.2.2.1]) with ⟨l1, l2, h2, _⟩ | ⟨k2, h2, h3⟩ | h2
    · exact hrun.2.2.2.2.2.2.2.1 s'.n (by rw [h2]; simp)
    · rcases h3 with h3 | h3
      · have := hst .stopTimer rfl
        simp [step, h2, h3] at this
      · have := hst .launcherTakes rfl
        cases hq : s'.toLauncher with
        | nil => simp [hq] at h3
        | cons r l => simp [step, hq] at this
    · exact h2 hrun.2.2.2.2.2.2.1
  · have := hst .deliver rfl
    simp [step, h1] at this
  · have := hst .delayedFinished rfl
    simp [step, h1] at this

/-- **C75.** When the job is canceled while the launcher is not there yet, the command ends at once, without a process. -/
theorem C75_cancel_before_start {s s' : St} (h : Reachable s) (hp : s.pstate = .starting) (ha : s.active = false)
    (hs : step s .cancel = some s') : s'.current = none ∧ ∃ e, s'.out = s.out ++ [e] ∧ e.outcome = .notStarted ∧ e.real = none := by
  have hi := inv_reachable h
  have hc := current_of_pstate hi (by simp [hp])
  have hreal : s.real = none := by
    obtain ⟨_, hph⟩ := hi
    cases hph with
    | over _ e => simp [e.pstate] at hp
    | stuck _ e => simp [e.pstate] at hp
    | _ => simp_all
  simp only [step] at hs
  rw [if_pos hc] at hs
  cases hs
  obtain ⟨c, hc'⟩ := Option.isSome_iff_exists.1 hc
  unfold cancel
  rw [processCancel_starting (by exact hp)]
  unfold onProcessError
  rw [if_neg (by simp [ha]), if_neg (by simp), if_pos rfl]
  refine ⟨current_finish, ?_⟩
  unfold finish removeResponseFile
  split
  · rename_i h2
    split at h2 <;> simp [hc'] at h2
  · rename_i c2 h2
    split
    · exact ⟨_, rfl, rfl, hreal⟩
    · exact ⟨_, rfl, rfl, hreal⟩

/-- **C75.** While a command with a timeout is running, its time can be up, unless it has been so already. -/
theorem C75_timeout_armed {s : St} (h : Reachable s) {c : Cmd} (hc : s.current = some c) (ht : c.timeout = true) (hd : c.dry = false)
    (he : s.expired = false) : ∃ s', step s .timeout = some s' := by
  have := ((ti_reachable h).1 c hc).armed ht hd he
  exact ⟨_, by simp only [step]; rw [if_pos this]⟩

/-- **C75.** If the time of a command is up while it is running, then it is reported so, unless the build is canceled as well. -/
theorem C75_timeout_reported {s : St} (h : Reachable s) {e : Entry} (he : e ∈ s.out) (h1 : e.expired = true) (h2 : e.stopped = false)
    (h3 : e.cmd.dry = false) : e.outcome = .timedOut := ((ti_reachable h).2 e he).1 h1 h2 h3

/-- **C75.** Only processes of commands that are to be stopped are stopped or given up. -/
theorem C75_stopped_only_if_asked {s : St} (h : Reachable s) :
    (∀ n k, s.proc = .alive n k → 0 < k → s.stopped = true ∨ s.expired = true) ∧
    ∀ e ∈ s.out, e.real = some .notStopped → e.stopped = true ∨ e.expired = true := by
  have ht := ti_reachable h
  refine ⟨?_, fun e he => (ht.2 e he).2⟩
  intro n k hp
  obtain ⟨c, hc⟩ := Option.isSome_iff_exists.1 (alive_runs (inv_reachable h) hp).2.1
  exact (ht.1 c hc).alive n k hp

/-- **C75.** A process is given up only after it has been told to terminate and then been killed. -/
theorem C75_given_up {s s' : St} {e : Ev} (h : Reachable s) (hs : step s e = some s') (h1 : s.real = none) (h2 : s'.real = some .notStopped) :
    ∃ k ≥ 2, s.proc = .alive s.n k := by
  obtain ⟨n, k, hp, hk⟩ := given_up hs h1 h2
  have hn := (alive_runs (inv_reachable h) hp).1
  subst hn
  exact ⟨k, hk, hp⟩

/-! ## Findings -/

/-- The process of the first command exits in one way or another. -/
def simple (c : Cmd) (code : Int) (crashed : Bool) : List Ev := [.start c, .launcherTakes, .procExits code crashed, .deliver]

/-- **C75 finding.** That a process has crashed is ignored: a command whose process is killed by a signal is successful if the
number of the signal is not greater than the maximal exit code (qbsprocess.cpp 172-182 reads neither the error nor the exit status,
launchersockethandler.cpp 195-198 sends both). -/
theorem C75_crash_is_success (c : Cmd) (h1 : c.dry = false) (h2 : c.badDir = false) (h3 : c.response = 0) (h4 : c.saveFails = false)
    (h5 : 11 ≤ c.maxExitCode) (h6 : c.maxExitCode < 4294967296) :
    ∃ s, run (init true) (simple c 11 true) = some s ∧ s.out = [⟨1, c, .success, some (.crashed 11), false, false, false, false⟩] := by
  have e1 : ¬ (u32 11 > u32 c.maxExitCode) := by unfold u32; omega
  cases ht : c.timeout <;>
  simp [simple, run, step, start, doStart, processStart, processDoStart, init, launcherTakes, handlePacket, onProcessFinished,
      sendProcessOutput, removeResponseFile, finish, h1, h2, h3, h4, e1, ht]

/-- **C75 finding.** With a negative maximal exit code, every exit code is accepted: both numbers are compared as unsigned ones
(processcommandexecutor.cpp 315-316). -/
theorem C75_negative_max (c : Cmd) (h : c.maxExitCode = -1) (code : Int) : Accepted c code := by
  unfold Accepted
  rw [h]
  omega

/-- **C75 finding.** An executor does not recover from a command whose program could not be started: the error stays
(`m_error` in qbsprocess.cpp is never reset), so with "keep going" the next command of the same executor is reported as failed
although its process has exited with 0. -/
theorem C75_error_stays : ∃ s, run (init true) [.start {}, .launcherTakes, .procFails, .deliver,
      .start {}, .launcherTakes, .procExits 0 false, .deliver] = some s ∧
    s.out.map (fun e => (e.outcome, e.real)) = [(.notStarted, some .failedToStart), (.processError, some (.exited 0))] := by
  refine ⟨_, rfl, rfl⟩

/-- **C75 finding.** Nor does it recover from a timeout: the next command of the same executor, which has no timeout, is reported as
one whose time was up (`m_cancelReason` is only set in processcommandexecutor.cpp 202-209). -/
theorem C75_timeout_stays : ∃ s, run (init true) [.start { timeout := true }, .launcherTakes, .timeout, .launcherTakes, .procExits 15 true,
      .deliver, .start {}, .launcherTakes, .procExits 0 false, .deliver] = some s ∧
    s.out.map (fun e => (e.cmd.timeout, e.outcome, e.real)) =
      [(true, .timedOut, some (.crashed 15)), (false, .timedOut, some (.exited 0))] := by
  refine ⟨_, rfl, rfl⟩

/-- **C75 finding.** A command whose time is up never ends if its process could not be started, or the launcher is lost, or was not
there yet: the error is ignored, because the end of the process is waited for (processcommandexecutor.cpp 341-342). Nothing that
happens later, not even canceling the build, ends it. -/
theorem C75_hangs (l0 : List Ev) (h0 : l0 ∈ [[Ev.start { timeout := true }, .timeout],
      [.start { timeout := true }, .socketReady, .timeout, .socketError],
      [.start { timeout := true }, .socketReady, .launcherTakes, .procFails, .timeout, .deliver]]) :
    ∃ s, run (init false) l0 = some s ∧ s.current = some { timeout := true } ∧
      ∀ l s', run s l = some s' → s'.current.isSome = true ∧ s'.out = [] := by
  simp only [List.mem_cons, List.not_mem_nil, or_false] at h0
  rcases h0 with rfl | rfl | rfl
  · exact ⟨_, rfl, rfl, fun l s' hr => stuck_run (l := l) ⟨rfl, rfl, rfl, rfl, rfl, rfl, fun k => List.not_mem_nil⟩ rfl hr⟩
  · exact ⟨_, rfl, rfl, fun l s' hr => stuck_run (l := l) ⟨rfl, rfl, rfl, rfl, rfl, rfl, fun k => List.not_mem_nil⟩ rfl hr⟩
  · exact ⟨_, rfl, rfl, fun l s' hr => stuck_run (l := l) ⟨rfl, rfl, rfl, rfl, rfl, rfl, fun k => show Req.start k ∉ [Req.stop 1] by simp⟩ rfl hr⟩

/-- **C75 finding.** After a timeout the executor is such that also a later command without a timeout never ends if its program
cannot be started. -/
theorem C75_hangs_later : ∃ s, run (init true) [.start { timeout := true }, .launcherTakes, .timeout, .launcherTakes, .procExits 15 true,
      .deliver, .start {}, .launcherTakes, .procFails, .deliver] = some s ∧ s.current = some {} ∧
      ∀ l s', run s l = some s' → s'.current.isSome = true ∧ s'.out = s.out :=
  ⟨_, rfl, rfl, fun l _ hr => stuck_run (l := l) ⟨rfl, rfl, rfl, rfl, rfl, rfl, fun k hk => by cases hk⟩ rfl hr⟩

/-- **C75 finding.** A process that exits in time, with an accepted exit code, is reported as one whose time was up if the report is
put off, because a rule is just being applied, until after the timeout (processcommandexecutor.cpp 371-376; the timer is only
stopped by the report). -/
theorem C75_late_report : ∃ s, run (init true) [.start { timeout := true }, .launcherTakes, .procExits 0 false, .setActive true, .deliver,
      .timeout, .setActive false, .delayedFinished] = some s ∧
    s.out.map (fun e => (e.outcome, e.real)) = [(.timedOut, some (.exited 0))] := by
  refine ⟨_, rfl, rfl⟩

/-- **C75 finding.** The response file of a command stays behind if a file it is to include cannot be opened
(processcommandexecutor.cpp 171-178 returns before the name is noted). -/
theorem C75_response_file_left : ∃ s, run (init true) [.start { response := 3 }] = some s ∧ s.current = none ∧ s.files = 1 := by
  refine ⟨_, rfl, rfl, rfl⟩

end Verif.Proc
