import Verif.Job.Lem
/-!
# Every event preserves the invariant
-/
namespace Verif.Job

theorem lt_of_get {cs : List Cmd} {i : Nat} {c : Cmd} (h : cs[i]? = some c) : i < cs.length := by
  rw [List.getElem?_eq_some_iff] at h
  exact h.1

theorem exitOk_eq {cs : List Cmd} {i : Nat} {c : Cmd} (h : cs[i]? = some c) (code : Nat) :
    exitOk cs i code = (decide (code ≤ c.maxExit) && !c.saveError) := by
  simp [exitOk, h]

theorem processOk_true {cs : List Cmd} {i : Nat} {c : Cmd} (h : cs[i]? = some c) :
    processOk cs i (some true) = true := by
  simp [processOk, h]

theorem processOk_js {cs : List Cmd} {i : Nat} {c : Cmd} (h : cs[i]? = some c) (hk : c.kind = .js)
    (out : Option Bool) : processOk cs i out = true := by
  simp [processOk, h, hk]

/-- The process executor's command is over. -/
theorem BusyP.mid {s s' : St} {m m' : Mon} {cs : List Cmd} {i : Nat} {out : Option Bool} {c : Cmd}
    {st : PStage} (h : BusyP s m cs i out c st) (hn : NoP s')
    (h1 : s'.sockErr = s.sockErr) (h2 : s'.conn = s.conn) (h3 : s'.jzero = s.jzero)
    (h4 : s'.jrunning = s.jrunning) (h5 : s'.jthread = s.jthread) (h6 : s'.cmds = s.cmds)
    (h7 : m'.tainted = m.tainted) (h8 : m'.canceled = m.canceled) (h9 : m'.timedOut = m.timedOut)
    (h10 : m.tainted = false → s'.perr = true → m'.startFailed = true)
    (h11 : s'.pcancel = s.pcancel) (h12 : s'.jcancelled = s.jcancelled)
    (h20 : m'.everTimedOut = m.everTimedOut) : Mid s' m' cs := by
  refine ⟨by rw [h1, h2]; exact h.sock, hn, h.noJ.of h3 h4 h5, by rw [h6]; exact h.cmds, ?_, ?_, ?_,
    by rw [h11, h20]; exact h.ever⟩
  · rw [h7]; exact h10
  · rw [h7, h9, h11]; exact h.pcancel
  · rw [h7, h8, h12]; exact h.jcancelled

theorem G_pFailed {s s' : St} {m m' : Mon} {cs : List Cmd} {i : Nat} {out out' : Option Bool}
    {c : Cmd} {st : PStage} (h : BusyP s m cs i out c st) (ha : accept s'.log = some m')
    (hp : m'.phase = .busy cs i out') (hn : NoP s')
    (h1 : s'.sockErr = s.sockErr) (h2 : s'.conn = s.conn) (h3 : s'.jzero = s.jzero)
    (h4 : s'.jrunning = s.jrunning) (h5 : s'.jthread = s.jthread) (h6 : s'.cmds = s.cmds)
    (h7 : m'.tainted = m.tainted) (h8 : m'.canceled = m.canceled) (h9 : m'.timedOut = m.timedOut)
    (h10 : m.tainted = false → s'.perr = true → m'.startFailed = true)
    (h11 : s'.pcancel = s.pcancel) (h12 : s'.jcancelled = s.jcancelled)
    (h20 : m'.everTimedOut = m.everTimedOut)
    (hf : m.tainted = false → m'.mustFail out' = true) : G (pFailed s') := by
  have hm := h.mid hn h1 h2 h3 h4 h5 h6 h7 h8 h9 h10 h11 h12 h20
  have := Rel_onCommandFailed { s' with pwatch := false } m' cs i out' ha
    ⟨hm.sock, hm.noP.of rfl rfl rfl rfl rfl rfl rfl rfl, hm.noJ.of rfl rfl rfl, hm.cmds,
      hm.perr, hm.pcancel, hm.jcancelled, hm.ever⟩ hp (by rw [h7]; exact hf) (fun _ => rfl)
  exact ⟨_, this.1, Or.inl this.2⟩

/-- `onProcessError`, when the error has just been noted. -/
theorem G_onProcessError (active : Bool) {s s' : St} {m m' : Mon} {cs : List Cmd} {i : Nat}
    {out : Option Bool} {c : Cmd} {st : PStage} (h : BusyP s m cs i out c st)
    (ha : accept s'.log = some m') (hp : m'.phase = .busy cs i (some false)) (hn : NoP s')
    (h1 : s'.sockErr = true ↔ s'.conn = .lost) (h3 : s'.jzero = s.jzero)
    (h4 : s'.jrunning = s.jrunning) (h5 : s'.jthread = s.jthread) (h6 : s'.cmds = s.cmds)
    (h7 : m'.tainted = m.tainted) (h8 : m'.canceled = m.canceled) (h9 : m'.timedOut = m.timedOut)
    (h10 : m'.startFailed = true)
    (h11 : s'.pcancel = s.pcancel) (h12 : s'.jcancelled = s.jcancelled)
    (h13 : s'.idx = s.idx) (h14 : s'.cur = s.cur) (h15 : s'.err = s.err)
    (h16 : s'.pcmd = s.pcmd) (h20 : m'.everTimedOut = m.everTimedOut) :
    G (onProcessError active s') := by
  have hever : s'.pcancel = true → m'.everTimedOut = true := by
    rw [h11, h20]; exact h.ever
  unfold onProcessError
  have hB : ∀ d : Nat, ∀ st', PStage.holds c { s' with pdelErr := d } (some false) st' →
      st' ≠ .zero → (st' = .lost → m'.everTimedOut = true) →
      BusyP { s' with pdelErr := d } m' cs i (some false) c st' := by
    intro d st' hst hz hlost
    refine ⟨h1, h.noJ.of h3 h4 h5, hp, by rw [← h.cmds]; exact h6, by rw [← h.idx]; exact h13,
      by rw [← h.cur]; exact h14, by rw [h8, ← h.err]; exact h15, h.cmd, h.kind,
      by rw [← h.pcmd]; exact h16, hst, fun _ _ => ⟨h10, rfl⟩, ?_, ?_, ?_, (fun hz' => absurd hz' hz),
      hever, hlost⟩
    · rw [h7, h9]
      have := h.pcancel
      rw [← h11] at this
      exact this
    · rw [h7, h8, h9]
      have := h.timedOut
      rw [← h11] at this
      exact this
    · rw [h7, h8]
      have := h.jcancelled
      rw [← h12] at this
      exact this
  cases active with
  | true =>
    rw [if_pos rfl]
    refine ⟨m', ha, Or.inr (Or.inl ⟨cs, i, some false, c, .delErr, hB _ _ ?_ (by simp) (by simp)⟩)⟩
    exact ⟨hn.1, by simp [hn.2], hn.3, hn.4, hn.5, hn.6, hn.7, hn.8, rfl⟩
  | false =>
    rw [if_neg (by simp)]
    by_cases hpc : s'.pcancel = true
    · rw [if_pos hpc]
      refine ⟨m', ha, Or.inr (Or.inl ⟨cs, i, some false, c, .lost, hB s'.pdelErr _ ?_ (by simp)
        (fun _ => hever hpc)⟩)⟩
      exact ⟨hn.1, hn.2, hn.3, hn.4, hn.5, hn.6, hn.7, hn.8, rfl⟩
    · rw [if_neg hpc]
      have hm : Mid { s' with pwatch := false } m' cs := by
        refine ⟨h1, hn.of rfl rfl rfl rfl rfl rfl rfl rfl, h.noJ.of h3 h4 h5,
          by rw [← h.cmds]; exact h6, fun _ _ => h10, ?_, ?_, hever⟩
        · intro _ hx; exact absurd hx hpc
        · rw [h7, h8]
          have := h.jcancelled
          rw [← h12] at this
          exact this
      have := Rel_onCommandFailed { s' with pwatch := false } m' cs i (some false) ha hm hp
        (fun _ => by simp [Mon.mustFail]) (fun _ => rfl)
      exact ⟨_, this.1, Or.inl this.2⟩

/-- A process command that is over reports its result. -/
theorem G_sendProcessOutput (active : Bool) {s s' : St} {m : Mon} {cs : List Cmd} {i : Nat}
    {out : Option Bool} {c : Cmd} {st : PStage} (h : BusyP s m cs i out c st)
    (ha : accept s'.log = some m) (hn : NoP s')
    (hout : out = some (decide (s'.pexit ≤ c.maxExit) && !c.saveError))
    (h1 : s'.sockErr = s.sockErr) (h2 : s'.conn = s.conn) (h3 : s'.jzero = s.jzero)
    (h4 : s'.jrunning = s.jrunning) (h5 : s'.jthread = s.jthread) (h6 : s'.cmds = s.cmds)
    (h10 : s'.perr = s.perr)
    (h11 : s'.pcancel = s.pcancel) (h12 : s'.jcancelled = s.jcancelled)
    (h13 : s'.idx = s.idx) (h15 : s'.err = s.err)
    (h16 : s'.pcmd = s.pcmd) (hz : st ≠ .zero) : G (sendProcessOutput active s') := by
  have hperr : m.tainted = false → s'.perr = true → m.startFailed = true := by
    intro h1 h2; rw [h10] at h2; exact (h.perr h1 h2).1
  have hfail : (m.tainted = false → m.mustFail out = true) → G (pFailed s') := fun hf =>
    G_pFailed h ha h.phase hn h1 h2 h3 h4 h5 h6 rfl rfl rfl hperr h11 h12 rfl hf
  unfold sendProcessOutput
  simp only [h16, h.pcmd]
  by_cases hpc : s'.pcancel = true
  · rw [if_pos hpc]
    apply hfail
    intro ht
    rw [h11] at hpc
    simp [Mon.mustFail, h.pcancel ht hpc]
  · rw [if_neg hpc]
    by_cases hpe : (s'.perr || c.saveError) = true
    · rw [if_pos hpe]
      apply hfail
      intro ht
      rw [Bool.or_eq_true] at hpe
      rcases hpe with hpe | hpe
      · rw [h10] at hpe
        simp [Mon.mustFail, (h.perr ht hpe).2]
      · simp [Mon.mustFail, hout, hpe]
    · rw [if_neg hpe]
      by_cases hfe : decide (s'.pexit > c.maxExit) = true
      · rw [if_pos hfe]
        apply hfail
        intro ht
        have : ¬ s'.pexit ≤ c.maxExit := by simpa using hfe
        simp [Mon.mustFail, hout, this]
      · rw [if_neg hfe]
        have hm := h.mid (m' := m) hn h1 h2 h3 h4 h5 h6 rfl rfl rfl hperr h11 h12 rfl
        have hle : s'.pexit ≤ c.maxExit := by simpa using hfe
        have hpe' : s'.perr = false ∧ c.saveError = false := by simpa using hpe
        refine G_onCommandSucceeded active { s' with pwatch := false } m cs i out ha
          ⟨hm.sock, hm.noP.of rfl rfl rfl rfl rfl rfl rfl rfl, hm.noJ.of rfl rfl rfl, hm.cmds,
            hm.perr, hm.pcancel, hm.jcancelled, hm.ever⟩ h.phase (by rw [← h.idx]; exact h13)
          (lt_of_get h.cmd) (by rw [← h.err]; exact h15)
          (fun _ => by rw [hout, hpe'.2]; simp [hle, processOk, h.cmd]) ?_ (fun _ => rfl)
        intro ht hc
        refine ⟨?_, ?_, hpe'.1⟩
        · rw [hout]; simp [hle, hpe'.2]
        · cases hx : m.timedOut with
          | false => rfl
          | true =>
            have := h.timedOut ht hx hc
            rw [← h11] at this
            exact absurd this hpc

end Verif.Job
