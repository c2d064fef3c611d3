import Verif.Job.Spec
/-!
# The invariant of a job
-/
namespace Verif.Job

def Stops (l : List Req) : Prop := ∀ r ∈ l, r = .stop

/-- No process command is in progress. -/
structure NoP (s : St) : Prop where
  pzero : s.pzero = 0
  pdelErr : s.pdelErr = 0
  pdelFin : s.pdelFin = 0
  pst : s.pst = .notRunning
  toC : s.toC = []
  lst : s.lst = .notRunning
  lstop : s.lstop = .inactive
  toL : Stops s.toL

structure NoJ (s : St) : Prop where
  jzero : s.jzero = 0
  jrunning : s.jrunning = false
  jthread : s.jthread = .idle

/-- The stages of a process command. -/
inductive PStage where
  | zero | starting | sent | launched | answered (a : Ans) | delErr | delFin | lost
deriving DecidableEq

def ansOut (c : Cmd) : Ans → Option Bool
  | .error => none
  | .finished code _ => some (decide (code ≤ c.maxExit) && !c.saveError)

def PStage.holds (c : Cmd) (s : St) (out : Option Bool) : PStage → Prop
  | .zero => s.pzero = 1 ∧ s.pdelErr = 0 ∧ s.pdelFin = 0 ∧ s.pst = .notRunning ∧ s.toC = [] ∧
      s.lst = .notRunning ∧ s.lstop = .inactive ∧ Stops s.toL ∧ out = none
  | .starting => s.pzero = 0 ∧ s.pdelErr = 0 ∧ s.pdelFin = 0 ∧ s.pst = .starting ∧ s.toC = [] ∧
      s.lst = .notRunning ∧ s.lstop = .inactive ∧ Stops s.toL ∧ out = none ∧ s.conn = .waiting
  | .sent => s.pzero = 0 ∧ s.pdelErr = 0 ∧ s.pdelFin = 0 ∧ s.pst = .running ∧ s.toC = [] ∧
      s.lst = .notRunning ∧ s.lstop = .inactive ∧ out = none ∧ s.conn = .ready ∧
      ∃ l1 l2, s.toL = l1 ++ .start :: l2 ∧ Stops l1 ∧ Stops l2
  | .launched => s.pzero = 0 ∧ s.pdelErr = 0 ∧ s.pdelFin = 0 ∧ s.pst = .running ∧ s.toC = [] ∧
      s.lst ≠ .notRunning ∧ out = none ∧ s.conn = .ready ∧ Stops s.toL
  | .answered a => s.pzero = 0 ∧ s.pdelErr = 0 ∧ s.pdelFin = 0 ∧ s.pst = .running ∧
      s.toC = [a] ∧ s.lst = .notRunning ∧ s.lstop = .inactive ∧ out = ansOut c a ∧
      s.conn = .ready ∧ Stops s.toL
  | .delErr => s.pzero = 0 ∧ s.pdelErr = 1 ∧ s.pdelFin = 0 ∧ s.pst = .notRunning ∧ s.toC = [] ∧
      s.lst = .notRunning ∧ s.lstop = .inactive ∧ Stops s.toL ∧ out = some false
  | .delFin => s.pzero = 0 ∧ s.pdelErr = 0 ∧ s.pdelFin = 1 ∧ s.pst = .notRunning ∧ s.toC = [] ∧
      s.lst = .notRunning ∧ s.lstop = .inactive ∧ Stops s.toL ∧
      out = some (decide (s.pexit ≤ c.maxExit) && !c.saveError)
  | .lost => s.pzero = 0 ∧ s.pdelErr = 0 ∧ s.pdelFin = 0 ∧ s.pst = .notRunning ∧ s.toC = [] ∧
      s.lst = .notRunning ∧ s.lstop = .inactive ∧ Stops s.toL ∧ out = some false

inductive JStage where
  | zero | queued | checked | evaluating | done
deriving DecidableEq

def JStage.holds (s : St) (m : Mon) (out : Option Bool) : JStage → Prop
  | .zero => s.jzero = 1 ∧ s.jrunning = false ∧ s.jthread = .idle ∧ out = none
  | .queued => s.jzero = 0 ∧ s.jrunning = true ∧ s.jthread = .queued ∧ out = none
  | .checked => s.jzero = 0 ∧ s.jrunning = true ∧ s.jthread = .checked ∧ out = none
  | .evaluating => s.jzero = 0 ∧ s.jrunning = true ∧ s.jthread = .evaluating ∧ out = none ∧
      (m.tainted = false → s.jcancelled = false → s.jsucc = true)
  | .done => s.jzero = 0 ∧ s.jrunning = true ∧ s.jthread = .done ∧
      (m.tainted = false → s.err = false → out = some s.jsucc)

/-- The job between two commands: command `i` is over or nothing was started yet. -/
structure Mid (s : St) (m : Mon) (cs : List Cmd) : Prop where
  sock : s.sockErr = true ↔ s.conn = .lost
  noP : NoP s
  noJ : NoJ s
  cmds : s.cmds = some cs
  perr : m.tainted = false → s.perr = true → m.startFailed = true
  pcancel : m.tainted = false → s.pcancel = true → m.timedOut = true
  jcancelled : m.tainted = false → s.jcancelled = true → m.canceled = true
  ever : s.pcancel = true → m.everTimedOut = true

structure Idle (s : St) (m : Mon) : Prop where
  sock : s.sockErr = true ↔ s.conn = .lost
  noP : NoP s
  noJ : NoJ s
  phase : m.phase = .idle
  cmds : s.cmds = none
  idx : s.idx = none
  cur : s.cur = none
  err : s.err = false
  perr : m.tainted = false → s.perr = false
  pcancel : m.tainted = false → s.pcancel = false
  jcancelled : m.tainted = false → s.jcancelled = false
  pwatch : m.tainted = false → s.pwatch = false
  ever : s.pcancel = true → m.everTimedOut = true

structure BusyP (s : St) (m : Mon) (cs : List Cmd) (i : Nat) (out : Option Bool) (c : Cmd)
    (st : PStage) : Prop where
  sock : s.sockErr = true ↔ s.conn = .lost
  noJ : NoJ s
  phase : m.phase = .busy cs i out
  cmds : s.cmds = some cs
  idx : s.idx = some i
  cur : s.cur = some .process
  err : s.err = m.canceled
  cmd : cs[i]? = some c
  kind : c.kind = .process
  pcmd : s.pcmd = some c
  stage : st.holds c s out
  perr : m.tainted = false → s.perr = true → m.startFailed = true ∧ out = some false
  pcancel : m.tainted = false → s.pcancel = true → m.timedOut = true
  timedOut : m.tainted = false → m.timedOut = true → m.canceled = false → s.pcancel = true
  jcancelled : m.tainted = false → s.jcancelled = true → m.canceled = true
  zero : st = .zero → m.tainted = false → s.pwatch = false ∧ m.timedOut = false
  ever : s.pcancel = true → m.everTimedOut = true
  lost : st = .lost → m.everTimedOut = true

structure BusyJ (s : St) (m : Mon) (cs : List Cmd) (i : Nat) (out : Option Bool) (c : Cmd)
    (st : JStage) : Prop where
  sock : s.sockErr = true ↔ s.conn = .lost
  noP : NoP s
  phase : m.phase = .busy cs i out
  cmds : s.cmds = some cs
  idx : s.idx = some i
  cur : s.cur = some .js
  err : s.err = m.canceled
  cmd : cs[i]? = some c
  kind : c.kind = .js
  stage : st.holds s m out
  perr : m.tainted = false → s.perr = false
  pcancel : m.tainted = false → s.pcancel = false
  timedOut : m.tainted = false → m.timedOut = false
  jcancelled : m.tainted = false → s.jcancelled = true → m.canceled = true
  pwatch : m.tainted = false → s.pwatch = false
  ever : s.pcancel = true → m.everTimedOut = true

/-- The invariant. -/
def Rel (s : St) (m : Mon) : Prop :=
  Idle s m ∨ (∃ cs i out c st, BusyP s m cs i out c st) ∨
  (∃ cs i out c st, BusyJ s m cs i out c st)

def G (s : St) : Prop := ∃ m, accept s.log = some m ∧ Rel s m

theorem G_init (d : Bool) : G (init d) := by
  refine ⟨Mon.init, rfl, Or.inl ?_⟩
  constructor <;> first | rfl | simp [init, Mon.init] | skip
  · constructor <;> first | rfl | simp [init, Stops]
  · constructor <;> rfl

theorem accept_cons (o : Obs) (l : List Obs) (m : Mon) (h : accept l = some m) :
    accept (o :: l) = m.next o := by simp [accept, h]


theorem NoP.of {s s' : St} (h : NoP s) (h1 : s'.pzero = s.pzero) (h2 : s'.pdelErr = s.pdelErr)
    (h3 : s'.pdelFin = s.pdelFin) (h4 : s'.pst = s.pst) (h5 : s'.toC = s.toC)
    (h6 : s'.lst = s.lst) (h7 : s'.lstop = s.lstop) (h8 : s'.toL = s.toL) : NoP s' :=
  ⟨h1 ▸ h.1, h2 ▸ h.2, h3 ▸ h.3, h4 ▸ h.4, h5 ▸ h.5, h6 ▸ h.6, h7 ▸ h.7, h8 ▸ h.8⟩

theorem NoJ.of {s s' : St} (h : NoJ s) (h1 : s'.jzero = s.jzero)
    (h2 : s'.jrunning = s.jrunning) (h3 : s'.jthread = s.jthread) : NoJ s' :=
  ⟨h1 ▸ h.1, h2 ▸ h.2, h3 ▸ h.3⟩

/-- Ending the run. -/
theorem Rel_setFinished (s : St) (m : Mon) (cs : List Cmd) (i : Nat) (out : Option Bool)
    (ha : accept s.log = some m) (hm : Mid s m cs)
    (hp : m.phase = .busy cs i out)
    (hc : m.tainted = false → s.err = m.mustFail out)
    (hl : s.err = false → i + 1 = cs.length ∧ m.canceled = false ∧ processOk cs i out = true)
    (hw : m.tainted = false → s.pwatch = false) :
    accept (setFinished s).log = some { m with
      phase := .idle, tainted := m.tainted || m.canceled || m.timedOut || m.startFailed } ∧
    Idle (setFinished s) { m with
      phase := .idle, tainted := m.tainted || m.canceled || m.timedOut || m.startFailed } := by
  refine ⟨?_, ?_⟩
  · show accept (.finished s.err :: s.log) = _
    rw [accept_cons _ _ _ ha]
    simp only [Mon.next, hp]
    rw [if_pos ⟨hl, hc⟩]
  · have ht : ∀ {P : Prop}, (m.tainted || m.canceled || m.timedOut || m.startFailed) = false →
        (m.tainted = false → m.canceled = false → m.timedOut = false → m.startFailed = false → P) →
        P := by
      intro P h1 h2
      simp only [Bool.or_eq_false_iff] at h1
      exact h2 h1.1.1.1 h1.1.1.2 h1.1.2 h1.2
    refine ⟨hm.sock, hm.noP.of rfl rfl rfl rfl rfl rfl rfl rfl, hm.noJ.of rfl rfl rfl,
      rfl, rfl, rfl, rfl, rfl, ?_, ?_, ?_, ?_, hm.ever⟩
    · intro h
      refine ht h fun h1 h2 h3 h4 => ?_
      cases hx : s.perr with
      | false => simpa [setFinished] using hx
      | true => have := hm.perr h1 hx; simp [h4] at this
    · intro h
      refine ht h fun h1 h2 h3 h4 => ?_
      cases hx : s.pcancel with
      | false => simpa [setFinished] using hx
      | true => have := hm.pcancel h1 hx; simp [h3] at this
    · intro h
      refine ht h fun h1 h2 h3 h4 => ?_
      cases hx : s.jcancelled with
      | false => simpa [setFinished] using hx
      | true => have := hm.jcancelled h1 hx; simp [h2] at this
    · intro h
      refine ht h fun h1 h2 h3 h4 => ?_
      simpa [setFinished] using hw h1

theorem Mid.of_err {s : St} {m : Mon} {cs : List Cmd} (h : Mid s m cs) (b : Bool) :
    Mid { s with err := b } m cs :=
  ⟨h.sock, h.noP.of rfl rfl rfl rfl rfl rfl rfl rfl, h.noJ.of rfl rfl rfl, h.cmds, h.perr,
    h.pcancel, h.jcancelled, h.ever⟩

theorem Rel_onCommandFailed (s : St) (m : Mon) (cs : List Cmd) (i : Nat) (out : Option Bool)
    (ha : accept s.log = some m) (hm : Mid s m cs)
    (hp : m.phase = .busy cs i out)
    (hc : m.tainted = false → m.mustFail out = true)
    (hw : m.tainted = false → s.pwatch = false) :
    accept (onCommandFailed s).log = some { m with
      phase := .idle, tainted := m.tainted || m.canceled || m.timedOut || m.startFailed } ∧
    Idle (onCommandFailed s) { m with
      phase := .idle, tainted := m.tainted || m.canceled || m.timedOut || m.startFailed } := by
  unfold onCommandFailed
  rw [if_neg (by rw [hm.cmds]; simp)]
  cases he : s.err with
  | true =>
    rw [if_pos rfl]
    exact Rel_setFinished s m cs i out ha hm hp (fun h => by rw [he, hc h])
      (fun h => by rw [he] at h; cases h) hw
  | false =>
    rw [if_neg (by simp)]
    exact Rel_setFinished { s with err := true } m cs i out ha (hm.of_err true) hp
      (fun h => (hc h).symm) (fun h => by cases h) hw

/-- Nothing is left over from earlier commands. -/
structure Clean (s : St) (m : Mon) : Prop where
  perr : m.tainted = false → s.perr = false
  pcancel : m.tainted = false → s.pcancel = false
  jcancelled : m.tainted = false → s.jcancelled = false
  pwatch : m.tainted = false → s.pwatch = false
  timedOut : m.tainted = false → m.timedOut = false

theorem mustFail_false (m : Mon) (out : Option Bool) (h : m.mustFail out = false) :
    m.canceled = false ∧ m.timedOut = false ∧ out = some true := by
  simp only [Mon.mustFail, Bool.or_eq_false_iff] at h
  refine ⟨h.1.1, h.1.2, ?_⟩
  have := h.2
  simpa using this

/-- Starting a process command: from the state in which it was just announced. -/
theorem G_startProcess (active : Bool) (c : Cmd) (s : St) (m : Mon) (cs : List Cmd) (i : Nat)
    (ha : accept s.log = some m) (hm : Mid s m cs) (hcl : Clean s m)
    (hp : m.phase = .busy cs i none) (hi : s.idx = some i) (hcur : s.cur = some .process)
    (hc : cs[i]? = some c) (hk : c.kind = .process) (he : s.err = false)
    (hcan : m.canceled = false) : G (startProcess active c s) := by
  have hP := hm.noP
  have hJ := hm.noJ
  unfold startProcess
  simp only
  rw [if_neg (by rw [hP.pst]; simp)]
  by_cases hd : (s.dry && !c.ignoreDryRun) = true
  · rw [if_pos hd]
    refine ⟨m, ha, Or.inr (Or.inl ⟨cs, i, none, c, .zero, ?_⟩)⟩
    refine ⟨hm.sock, hJ.of rfl rfl rfl, hp, hm.cmds, hi, hcur, by rw [hcan]; exact he, hc, hk,
      rfl, ?_, ?_, ?_, ?_, hm.jcancelled, (fun _ h => ⟨hcl.pwatch h, hcl.timedOut h⟩), hm.ever,
      (fun h => by cases h)⟩
    · exact ⟨by simp [hP.pzero], hP.pdelErr, hP.pdelFin, hP.pst, hP.toC, hP.lst, hP.lstop,
        hP.toL, rfl⟩
    · intro h1 h2
      have := hcl.perr h1
      rw [show s.perr = true from h2] at this
      cases this
    · exact hm.pcancel
    · intro h1 h2; rw [hcl.timedOut h1] at h2; cases h2
  · rw [if_neg hd]
    by_cases hs : c.setupError = true
    · rw [if_pos hs]
      have hacc : accept (St.say { s with pcmd := some c } .setupFailed).log
          = some { m with phase := .busy cs i (some false) } := by
        show accept (.setupFailed :: s.log) = _
        rw [accept_cons _ _ _ ha]
        simp [Mon.next, hp, hasKind, hc, hk]
      have := Rel_onCommandFailed
        { (St.say { s with pcmd := some c } .setupFailed) with pwatch := false } _ cs i
        (some false) hacc
        ⟨hm.sock, hP.of rfl rfl rfl rfl rfl rfl rfl rfl, hJ.of rfl rfl rfl, hm.cmds, hm.perr,
          hm.pcancel, hm.jcancelled, hm.ever⟩ rfl (fun _ => by simp [Mon.mustFail]) (fun _ => rfl)
      exact ⟨_, this.1, Or.inl this.2⟩
    · rw [if_neg hs]
      -- with and without the watchdog
      have key : ∀ s', (∃ m', accept s'.log = some m' ∧
          ((Idle s' m' ∧ m'.tainted = true) ∨ ∃ out st, st ≠ PStage.zero ∧
            BusyP s' m' cs i out c st)) → G (startTimeoutP c s') := by
        rintro s' ⟨m', h1, h2⟩
        unfold startTimeoutP
        by_cases hw : ((!s'.dry || c.ignoreDryRun) && c.timeout) = true
        · rw [if_pos hw]
          refine ⟨m', h1, ?_⟩
          rcases h2 with ⟨h2, h3⟩ | ⟨out, st, h3, h2⟩
          · left
            exact ⟨h2.1, h2.2.of rfl rfl rfl rfl rfl rfl rfl rfl, h2.3.of rfl rfl rfl, h2.4, h2.5,
              h2.6, h2.7, h2.8, h2.9, h2.10, h2.11, (fun h => by rw [h3] at h; cases h), h2.13⟩
          · right; left
            refine ⟨cs, i, out, c, st, ?_⟩
            refine ⟨h2.1, h2.2.of rfl rfl rfl, h2.3, h2.4, h2.5, h2.6, h2.7, h2.8, h2.9, h2.10, ?_,
              h2.12, h2.13, h2.14, h2.15, fun h => absurd h h3, h2.17, h2.18⟩
            have := h2.stage
            cases st <;> exact this
        · rw [if_neg hw]
          refine ⟨m', h1, ?_⟩
          rcases h2 with ⟨h2, h3⟩ | ⟨out, st, h3, h2⟩
          · exact Or.inl h2
          · exact Or.inr (Or.inl ⟨cs, i, out, c, st, h2⟩)
      apply key
      unfold processStart
      by_cases hse : s.sockErr = true
      · rw [if_pos hse]
        have hacc : accept (.notStarted :: s.log)
            = some { m with phase := .busy cs i (some false), startFailed := true } := by
          rw [accept_cons _ _ _ ha]
          simp [Mon.next, hp, hasKind, hc, hk]
        unfold onProcessError
        cases active with
        | true =>
          rw [if_pos rfl]
          refine ⟨_, hacc, Or.inr ⟨some false, .delErr, by simp, ?_⟩⟩
          refine ⟨hm.sock, hJ.of rfl rfl rfl, rfl, hm.cmds, hi, hcur, by rw [hcan]; exact he, hc,
            hk, rfl, ?_, fun _ _ => ⟨rfl, rfl⟩, hm.pcancel, ?_, hm.jcancelled,
            (fun h => by cases h), hm.ever, (fun h => by cases h)⟩
          · exact ⟨hP.pzero, by simp [St.say, hP.pdelErr], hP.pdelFin, hP.pst, hP.toC, hP.lst,
              hP.lstop, hP.toL, rfl⟩
          · intro h1 h2; rw [hcl.timedOut h1] at h2; cases h2
        | false =>
          rw [if_neg (by simp)]
          by_cases hpc : s.pcancel = true
          · rw [if_pos (by exact hpc)]
            refine ⟨_, hacc, Or.inr ⟨some false, .lost, by simp, ?_⟩⟩
            refine ⟨hm.sock, hJ.of rfl rfl rfl, rfl, hm.cmds, hi, hcur, by rw [hcan]; exact he, hc,
              hk, rfl, ?_, fun _ _ => ⟨rfl, rfl⟩, hm.pcancel, ?_, hm.jcancelled,
              (fun h => by cases h), hm.ever, (fun _ => hm.ever hpc)⟩
            · exact ⟨hP.pzero, hP.pdelErr, hP.pdelFin, hP.pst, hP.toC, hP.lst,
                hP.lstop, hP.toL, rfl⟩
            · intro h1 h2; rw [hcl.timedOut h1] at h2; cases h2
          · rw [if_neg (by exact hpc)]
            have := Rel_onCommandFailed
              { (St.say { s with pcmd := some c, perr := true } .notStarted) with pwatch := false }
              _ cs i (some false) hacc
              ⟨hm.sock, hP.of rfl rfl rfl rfl rfl rfl rfl rfl, hJ.of rfl rfl rfl, hm.cmds,
                fun _ _ => rfl, hm.pcancel, hm.jcancelled, hm.ever⟩ rfl (fun _ => by simp [Mon.mustFail])
              (fun _ => rfl)
            exact ⟨_, this.1, Or.inl ⟨this.2, by simp⟩⟩
      · rw [if_neg hse]
        have hperr : m.tainted = false → s.perr = true → m.startFailed = true ∧
            (none : Option Bool) = some false := by
          intro h1 h2; rw [hcl.perr h1] at h2; cases h2
        have hto : m.tainted = false → m.timedOut = true → m.canceled = false →
            s.pcancel = true := by
          intro h1 h2; rw [hcl.timedOut h1] at h2; cases h2
        by_cases hr : s.conn = .ready
        · rw [if_pos hr]
          refine ⟨m, ha, Or.inr ⟨none, .sent, by simp, ?_⟩⟩
          refine ⟨hm.sock, hJ.of rfl rfl rfl, hp, hm.cmds, hi, hcur, by rw [hcan]; exact he, hc,
              hk, rfl, ?_, hperr, hm.pcancel, hto, hm.jcancelled, (fun h => by cases h), hm.ever,
              (fun h => by cases h)⟩
          refine ⟨hP.pzero, hP.pdelErr, hP.pdelFin, rfl, hP.toC, hP.lst, hP.lstop, rfl, hr,
            s.toL, [], ?_, hP.toL, by simp [Stops]⟩
          simp [processDoStart, hr]
        · rw [if_neg hr]
          have hw : s.conn = .waiting := by
            cases hx : s.conn with
            | waiting => rfl
            | ready => exact absurd hx hr
            | lost => exact absurd (hm.sock.2 hx) hse
          refine ⟨m, ha, Or.inr ⟨none, .starting, by simp, ?_⟩⟩
          refine ⟨hm.sock, hJ.of rfl rfl rfl, hp, hm.cmds, hi, hcur, by rw [hcan]; exact he, hc,
              hk, rfl, ?_, hperr, hm.pcancel, hto, hm.jcancelled, (fun h => by cases h), hm.ever,
              (fun h => by cases h)⟩
          exact ⟨hP.pzero, hP.pdelErr, hP.pdelFin, rfl, hP.toC, hP.lst, hP.lstop, hP.toL, rfl, hw⟩

theorem G_startJs (c : Cmd) (s : St) (m : Mon) (cs : List Cmd) (i : Nat)
    (ha : accept s.log = some m) (hm : Mid s m cs) (hcl : Clean s m)
    (hp : m.phase = .busy cs i none) (hi : s.idx = some i) (hcur : s.cur = some .js)
    (hc : cs[i]? = some c) (hk : c.kind = .js) (he : s.err = false)
    (hcan : m.canceled = false) : G (startJs c s) := by
  have hP := hm.noP
  have hJ := hm.noJ
  unfold startJs
  rw [if_neg (by rw [hJ.jrunning]; simp)]
  by_cases hd : (s.dry && !c.ignoreDryRun) = true
  · rw [if_pos hd]
    refine ⟨m, ha, Or.inr (Or.inr ⟨cs, i, none, c, .zero, ?_⟩)⟩
    exact ⟨hm.sock, hP.of rfl rfl rfl rfl rfl rfl rfl rfl, hp, hm.cmds, hi, hcur,
      by rw [hcan]; exact he, hc, hk, ⟨by simp [hJ.jzero], hJ.jrunning, hJ.jthread, rfl⟩,
      hcl.perr, hcl.pcancel, hcl.timedOut, hm.jcancelled, hcl.pwatch, hm.ever⟩
  · rw [if_neg hd]
    unfold startTimeoutJ
    have hb : ∀ w, BusyJ { s with jrunning := true, jthread := .queued, jwatch := w } m cs i none c
        .queued := fun w =>
      ⟨hm.sock, hP.of rfl rfl rfl rfl rfl rfl rfl rfl, hp, hm.cmds, hi, hcur,
      by rw [hcan]; exact he, hc, hk, ⟨hJ.jzero, rfl, rfl, rfl⟩,
      hcl.perr, hcl.pcancel, hcl.timedOut, hm.jcancelled, hcl.pwatch, hm.ever⟩
    split
    · exact ⟨m, ha, Or.inr (Or.inr ⟨cs, i, none, c, .queued, hb true⟩)⟩
    · exact ⟨m, ha, Or.inr (Or.inr ⟨cs, i, none, c, .queued, hb s.jwatch⟩)⟩

theorem G_runNext (active : Bool) (s : St) (m : Mon) (cs : List Cmd)
    (ha : accept s.log = some m) (hm : Mid s m cs) (hcl : Clean s m)
    (he : s.err = false) (hcan : m.canceled = false)
    (hp : (m.phase = .fresh cs ∧ s.idx = none ∧ cs ≠ []) ∨
      ∃ i out, m.phase = .busy cs i out ∧ s.idx = some i ∧ i < cs.length ∧
        processOk cs i out = true ∧ (m.tainted = false → m.mustFail out = false)) :
    G (runNextCommand active s) := by
  -- the index of the next command
  have hn : ∃ n, nextIdx s.idx = n ∧
      ((∃ c, cs[n]? = some c ∧ m.next (.start n) = some { m with phase := .busy cs n none }) ∨
       (cs[n]? = none ∧ ∃ i out, m.phase = .busy cs i out ∧ n = i + 1 ∧ i + 1 = cs.length ∧
        processOk cs i out = true ∧ (m.tainted = false → m.mustFail out = false))) := by
    rcases hp with ⟨h1, h2, h3⟩ | ⟨i, out, h1, h2, h3, h5, h4⟩
    · refine ⟨0, by rw [h2]; rfl, Or.inl ?_⟩
      cases cs with
      | nil => exact absurd rfl h3
      | cons c cs => exact ⟨c, rfl, by simp [Mon.next, h1]⟩
    · refine ⟨i + 1, by rw [h2]; rfl, ?_⟩
      by_cases hl : i + 1 < cs.length
      · left
        refine ⟨cs[i + 1], by simp [hl], ?_⟩
        simp only [Mon.next, h1]
        rw [if_pos ⟨trivial, hl, hcan, h5, h4⟩]
      · right
        refine ⟨by simp; omega, i, out, h1, rfl, by omega, h5, h4⟩
  obtain ⟨n, hn1, hn2⟩ := hn
  unfold runNextCommand
  rw [hm.cmds]
  simp only [hn1]
  rcases hn2 with ⟨c, hc, hst⟩ | ⟨hc, i, out, hph, hni, hlen, hpo, hmf⟩
  · rw [hc]
    simp only
    cases hk : c.kind with
    | process =>
      simp only
      refine G_startProcess active c _ { m with phase := .busy cs n none } cs n ?_ ?_ ?_ rfl rfl rfl
        hc hk he hcan
      · show accept (.start n :: s.log) = _
        rw [accept_cons _ _ _ ha, hst]
      · exact ⟨hm.sock, hm.noP.of rfl rfl rfl rfl rfl rfl rfl rfl, hm.noJ.of rfl rfl rfl, rfl,
          hm.perr, hm.pcancel, hm.jcancelled, hm.ever⟩
      · exact ⟨hcl.1, hcl.2, hcl.3, hcl.4, hcl.5⟩
    | js =>
      simp only
      refine G_startJs c _ { m with phase := .busy cs n none } cs n ?_ ?_ ?_ rfl rfl rfl
        hc hk he hcan
      · show accept (.start n :: s.log) = _
        rw [accept_cons _ _ _ ha, hst]
      · exact ⟨hm.sock, hm.noP.of rfl rfl rfl rfl rfl rfl rfl rfl, hm.noJ.of rfl rfl rfl, rfl,
          hm.perr, hm.pcancel, hm.jcancelled, hm.ever⟩
      · exact ⟨hcl.1, hcl.2, hcl.3, hcl.4, hcl.5⟩
  · rw [hc]
    simp only
    have := Rel_setFinished { s with idx := some n } m cs i out ha
      ⟨hm.sock, hm.noP.of rfl rfl rfl rfl rfl rfl rfl rfl, hm.noJ.of rfl rfl rfl, hm.cmds,
          hm.perr, hm.pcancel, hm.jcancelled, hm.ever⟩ hph (fun h => by rw [hmf h]; exact he)
      (fun _ => ⟨hlen, hcan, hpo⟩) hcl.pwatch
    exact ⟨_, this.1, Or.inl this.2⟩

/-- A command ended without an error. -/
theorem G_onCommandSucceeded (active : Bool) (s : St) (m : Mon) (cs : List Cmd) (i : Nat)
    (out : Option Bool)
    (ha : accept s.log = some m) (hm : Mid s m cs)
    (hp : m.phase = .busy cs i out) (hi : s.idx = some i) (hil : i < cs.length)
    (herr : s.err = m.canceled) (hpo : m.canceled = false → processOk cs i out = true)
    (hok : m.tainted = false → m.canceled = false → out = some true ∧ m.timedOut = false ∧
      s.perr = false)
    (hw : m.tainted = false → s.pwatch = false) :
    G (onCommandSucceeded active s) := by
  unfold onCommandSucceeded
  rw [if_neg (by rw [hm.cmds]; simp)]
  cases he : s.err with
  | true =>
    rw [if_pos rfl]
    have hc : m.canceled = true := by rw [← herr, he]
    have := Rel_setFinished s m cs i out ha hm hp
      (fun h => by rw [he]; simp [Mon.mustFail, hc]) (fun h => by rw [he] at h; cases h) hw
    exact ⟨_, this.1, Or.inl this.2⟩
  | false =>
    rw [if_neg (by simp)]
    have hc : m.canceled = false := by rw [← herr, he]
    refine G_runNext active s m cs ha hm ?_ he hc (Or.inr ⟨i, out, hp, hi, hil, hpo hc, ?_⟩)
    · refine ⟨fun h => (hok h hc).2.2, ?_, ?_, hw, fun h => (hok h hc).2.1⟩
      · intro h
        cases hx : s.pcancel with
        | false => rfl
        | true => have := hm.pcancel h hx; rw [(hok h hc).2.1] at this; cases this
      · intro h
        cases hx : s.jcancelled with
        | false => rfl
        | true => have := hm.jcancelled h hx; rw [hc] at this; cases this
    · intro h
      simp [Mon.mustFail, hc, (hok h hc).1, (hok h hc).2.1]

end Verif.Job
