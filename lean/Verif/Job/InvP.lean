import Verif.Job.Inv
/-!
# Every event preserves the invariant: process commands
-/
namespace Verif.Job

/-- Changes that leave a process command where it is. -/
theorem BusyP.of {s s' : St} {m m' : Mon} {cs : List Cmd} {i : Nat} {out out' : Option Bool}
    {c : Cmd} {st st' : PStage} (h : BusyP s m cs i out c st)
    (hsock : s'.sockErr = true ↔ s'.conn = .lost)
    (h3 : s'.jzero = s.jzero) (h4 : s'.jrunning = s.jrunning) (h5 : s'.jthread = s.jthread)
    (hp : m'.phase = .busy cs i out')
    (h6 : s'.cmds = s.cmds) (h13 : s'.idx = s.idx) (h14 : s'.cur = s.cur)
    (h15 : s'.err = m'.canceled) (h16 : s'.pcmd = s.pcmd)
    (hst : st'.holds c s' out')
    (h7 : m'.tainted = m.tainted)
    (hperr : m.tainted = false → s'.perr = true → m'.startFailed = true ∧ out' = some false)
    (hpc : m.tainted = false → s'.pcancel = true → m'.timedOut = true)
    (hto : m.tainted = false → m'.timedOut = true → m'.canceled = false → s'.pcancel = true)
    (hjc : s'.jcancelled = s.jcancelled) (hcan : m.canceled = true → m'.canceled = true)
    (hz : st' = .zero → m.tainted = false → s'.pwatch = false ∧ m'.timedOut = false)
    (hev : s'.pcancel = true → m'.everTimedOut = true)
    (hlost : st' = .lost → m'.everTimedOut = true) :
    BusyP s' m' cs i out' c st' := by
  refine ⟨hsock, h.noJ.of h3 h4 h5, hp, by rw [h6]; exact h.cmds, by rw [h13]; exact h.idx,
    by rw [h14]; exact h.cur, h15, h.cmd, h.kind, by rw [h16]; exact h.pcmd, hst, ?_, ?_, ?_, ?_, ?_,
    hev, hlost⟩
  · rw [h7]; exact hperr
  · rw [h7]; exact hpc
  · rw [h7]; exact hto
  · rw [h7, hjc]; intro h1 h2; exact hcan (h.jcancelled h1 h2)
  · rw [h7]; exact hz

/-- `QbsProcess::cancel`, called by `ExecutorJob::cancel` or by the watchdog. -/
theorem G_processCancel (active : Bool) {s : St} {m : Mon} {cs : List Cmd} {i : Nat}
    {out : Option Bool} {c : Cmd} {st : PStage} (ha : accept s.log = some m)
    (h : BusyP s m cs i out c st) : G (processCancel active s) := by
  have hself : G s := ⟨m, ha, Or.inr (Or.inl ⟨cs, i, out, c, st, h⟩)⟩
  have hS := h.stage
  unfold processCancel
  cases hp : s.pst with
  | notRunning => exact hself
  | starting =>
    simp only
    have hst : st = .starting := by
      cases st with
      | starting => rfl
      | zero => rw [hS.2.2.2.1] at hp; cases hp
      | sent => rw [hS.2.2.2.1] at hp; cases hp
      | launched => rw [hS.2.2.2.1] at hp; cases hp
      | answered a => rw [hS.2.2.2.1] at hp; cases hp
      | delErr => rw [hS.2.2.2.1] at hp; cases hp
      | delFin => rw [hS.2.2.2.1] at hp; cases hp
      | lost => rw [hS.2.2.2.1] at hp; cases hp
    subst hst
    obtain ⟨g1, g2, g3, g4, g5, g6, g7, g8, g9, g10⟩ := hS
    refine G_onProcessError active (m' := { m with phase := .busy cs i (some false),
                                                   startFailed := true }) h ?_ rfl
      ⟨g1, g2, g3, rfl, g5, g6, g7, g8⟩ h.sock rfl rfl rfl rfl rfl rfl rfl rfl rfl rfl rfl rfl rfl
      rfl rfl
    show accept (.notStarted :: s.log) = _
    rw [accept_cons _ _ _ ha]
    simp [Mon.next, h.phase, hasKind, h.cmd, h.kind]
  | running =>
    simp only
    by_cases hc : s.conn = .ready
    · rw [if_pos hc]
      refine ⟨m, ha, Or.inr (Or.inl ⟨cs, i, out, c, st, h.of h.sock rfl rfl rfl h.phase rfl rfl rfl
        h.err rfl ?_ rfl h.perr h.pcancel h.timedOut rfl id h.zero h.ever h.lost⟩)⟩
      cases st with
      | starting => rw [hS.2.2.2.1] at hp; cases hp
      | zero => rw [hS.2.2.2.1] at hp; cases hp
      | delErr => rw [hS.2.2.2.1] at hp; cases hp
      | delFin => rw [hS.2.2.2.1] at hp; cases hp
      | lost => rw [hS.2.2.2.1] at hp; cases hp
      | sent =>
        obtain ⟨g1, g2, g3, g4, g5, g6, g7, g8, g9, l1, l2, g10, g11, g12⟩ := hS
        refine ⟨g1, g2, g3, rfl, g5, g6, g7, g8, g9, l1, l2 ++ [.stop], ?_, g11, stops_snoc g12⟩
        show s.toL ++ [Req.stop] = _
        rw [g10]
        simp
      | launched =>
        obtain ⟨g1, g2, g3, g4, g5, g6, g7, g8, g9⟩ := hS
        exact ⟨g1, g2, g3, rfl, g5, g6, g7, g8, stops_snoc g9⟩
      | answered a =>
        obtain ⟨g1, g2, g3, g4, g5, g6, g7, g8, g9, g10⟩ := hS
        exact ⟨g1, g2, g3, rfl, g5, g6, g7, g8, g9, stops_snoc g10⟩
    · rw [if_neg hc]; exact hself

theorem sent_split {l1 l2 : List Req} {r : Req} {l : List Req} (h : r :: l = l1 ++ .start :: l2)
    (h1 : Stops l1) :
    (r = .start ∧ l1 = [] ∧ l = l2) ∨ (r = .stop ∧ ∃ l1', l1 = r :: l1' ∧ l = l1' ++ .start :: l2) := by
  cases l1 with
  | nil => simp at h; exact Or.inl ⟨h.1, rfl, h.2⟩
  | cons x xs =>
    simp at h
    have := h1 x (by simp)
    exact Or.inr ⟨by rw [h.1, this], xs, by rw [h.1], h.2⟩

theorem step_P (s : St) (m : Mon) (cs : List Cmd) (i : Nat) (out : Option Bool) (c : Cmd)
    (st : PStage) (ha : accept s.log = some m) (h : BusyP s m cs i out c st) (e : Ev) :
    G (step s e) := by
  have hself : G s := ⟨m, ha, Or.inr (Or.inl ⟨cs, i, out, c, st, h⟩)⟩
  have hJ := h.noJ
  have hS := h.stage
  cases e with
  | run active cs' =>
    simp only [step]
    rw [if_pos (by rw [h.idx]; simp)]
    exact hself
  | cancel active =>
    simp only [step]
    rw [h.cur]
    simp only
    refine G_processCancel active (m := { m with canceled := true }) (cs := cs) (i := i) (out := out)
      (c := c) (st := st) ?_ (h.of h.sock rfl rfl rfl h.phase rfl rfl h.cur.symm rfl rfl ?_ rfl h.perr
        (fun _ hx => by cases hx) (fun _ _ hx => by cases hx) rfl (fun _ => rfl) h.zero
        (fun hx => by cases hx) h.lost)
    · show accept (.cancel :: s.log) = _
      rw [accept_cons _ _ _ ha]
      simp [Mon.next, h.phase, hasKind, h.cmd, h.kind]
    · cases st <;> exact hS
  | watchP active =>
    simp only [step]
    by_cases hw : s.pwatch = true
    · rw [if_pos hw]
      have hz : st = .zero → m.tainted = false → False := by
        intro h1 h2
        rw [(h.zero h1 h2).1] at hw; cases hw
      refine G_processCancel active (m := { m with timedOut := true, everTimedOut := true }) (cs := cs) (i := i)
        (out := out) (c := c) (st := st) ?_ (h.of h.sock rfl rfl rfl h.phase rfl rfl rfl h.err rfl
        ?_ rfl h.perr (fun _ _ => rfl) (fun _ _ _ => rfl) rfl id
        (fun h1 h2 => (hz h1 h2).elim) (fun _ => rfl) (fun _ => rfl))
      · show accept (.timeout .process :: s.log) = _
        rw [accept_cons _ _ _ ha]
        simp [Mon.next, h.phase, hasKind, h.cmd, h.kind]
      · cases st <;> exact hS
    · rw [if_neg hw]; exact hself
  | watchJ =>
    simp only [step]
    by_cases hw : s.jwatch = true
    · rw [if_pos hw]
      rw [if_neg (by simp [St.say, hJ.jrunning])]
      refine ⟨{ m with tainted := true }, ?_, Or.inr (Or.inl ⟨cs, i, out, c, st, ?_⟩)⟩
      · show accept (.timeout .js :: s.log) = _
        rw [accept_cons _ _ _ ha]
        simp [Mon.next, h.phase]
      · refine ⟨h.sock, hJ.of rfl rfl rfl, h.phase, h.cmds, h.idx, h.cur, h.err, h.cmd, h.kind,
          h.pcmd, ?_, (fun hx => by cases hx), (fun hx => by cases hx), (fun hx => by cases hx),
          (fun hx => by cases hx), (fun _ hx => by cases hx), h.ever, h.lost⟩
        cases st <;> exact hS
    · rw [if_neg hw]; exact hself
  | zeroP active =>
    simp only [step]
    by_cases hz : s.pzero = 0
    · rw [if_pos hz]; exact hself
    · rw [if_neg hz]
      cases st with
      | starting => exact absurd hS.1 hz
      | sent => exact absurd hS.1 hz
      | launched => exact absurd hS.1 hz
      | answered a => exact absurd hS.1 hz
      | delErr => exact absurd hS.1 hz
      | delFin => exact absurd hS.1 hz
      | lost => exact absurd hS.1 hz
      | zero =>
        obtain ⟨g1, g2, g3, g4, g5, g6, g7, g8, g9⟩ := hS
        have hm : Mid { s with pzero := s.pzero - 1, log := .skipped :: s.log, pwatch := false }
            { m with phase := .busy cs i (some true) } cs :=
          h.mid ⟨by simp [g1], g2, g3, g4, g5, g6, g7, g8⟩ rfl rfl rfl rfl rfl rfl rfl rfl rfl
            (fun h1 h2 => (h.perr h1 h2).1) rfl rfl rfl
        refine G_onCommandSucceeded active
          { s with pzero := s.pzero - 1, log := .skipped :: s.log, pwatch := false }
          { m with phase := .busy cs i (some true) } cs i (some true) ?_ hm rfl h.idx
          (lt_of_get h.cmd) h.err (fun _ => processOk_true h.cmd) ?_ (fun _ => rfl)
        · show accept (.skipped :: s.log) = _
          rw [accept_cons _ _ _ ha]
          simp [Mon.next, h.phase, hasKind, h.cmd, h.kind, g9]
        · intro hx hc
          refine ⟨rfl, (h.zero rfl hx).2, ?_⟩
          cases hy : s.perr with
          | false => rfl
          | true => have := (h.perr hx hy).2; rw [g9] at this; cases this
  | zeroJ active => rw [noJ_events s hJ _ (by cases active <;> simp)]; exact hself
  | delayedError active =>
    simp only [step]
    by_cases hz : s.pdelErr = 0
    · rw [if_pos hz]; exact hself
    · rw [if_neg hz]
      cases st with
      | starting => exact absurd hS.2.1 hz
      | sent => exact absurd hS.2.1 hz
      | launched => exact absurd hS.2.1 hz
      | answered a => exact absurd hS.2.1 hz
      | zero => exact absurd hS.2.1 hz
      | delFin => exact absurd hS.2.1 hz
      | lost => exact absurd hS.2.1 hz
      | delErr =>
        obtain ⟨g1, g2, g3, g4, g5, g6, g7, g8, g9⟩ := hS
        subst g9
        unfold onProcessError
        cases active with
        | true =>
          rw [if_pos rfl]
          refine ⟨m, ha, Or.inr (Or.inl ⟨cs, i, some false, c, .delErr, h.of h.sock rfl rfl rfl
            h.phase rfl rfl rfl h.err rfl ⟨g1, by simp [g2], g3, g4, g5, g6, g7, g8, rfl⟩ rfl h.perr
            h.pcancel h.timedOut rfl id h.zero h.ever h.lost⟩)⟩
        | false =>
          rw [if_neg (by simp)]
          by_cases hpc : s.pcancel = true
          · rw [if_pos (by exact hpc)]
            exact ⟨m, ha, Or.inr (Or.inl ⟨cs, i, some false, c, .lost, h.of h.sock rfl rfl rfl
              h.phase rfl rfl rfl h.err rfl ⟨g1, by simp [g2], g3, g4, g5, g6, g7, g8, rfl⟩ rfl
              h.perr h.pcancel h.timedOut rfl id (fun hx => by cases hx) h.ever
              (fun _ => h.ever hpc)⟩)⟩
          · rw [if_neg (by exact hpc)]
            exact G_pFailed h ha h.phase ⟨g1, by simp [g2], g3, g4, g5, g6, g7, g8⟩ rfl rfl rfl rfl
              rfl rfl rfl rfl rfl (fun h1 h2 => (h.perr h1 h2).1) rfl rfl rfl
              (fun _ => by simp [Mon.mustFail])
  | delayedFinished active =>
    simp only [step]
    by_cases hz : s.pdelFin = 0
    · rw [if_pos hz]; exact hself
    · rw [if_neg hz]
      cases st with
      | starting => exact absurd hS.2.2.1 hz
      | sent => exact absurd hS.2.2.1 hz
      | launched => exact absurd hS.2.2.1 hz
      | answered a => exact absurd hS.2.2.1 hz
      | zero => exact absurd hS.2.2.1 hz
      | delErr => exact absurd hS.2.2.1 hz
      | lost => exact absurd hS.2.2.1 hz
      | delFin =>
        obtain ⟨g1, g2, g3, g4, g5, g6, g7, g8, g9⟩ := hS
        unfold onProcessFinished
        cases active with
        | true =>
          rw [if_pos rfl]
          exact ⟨m, ha, Or.inr (Or.inl ⟨cs, i, out, c, .delFin, h.of h.sock rfl rfl rfl
            h.phase rfl rfl rfl h.err rfl ⟨g1, g2, by simp [g3], g4, g5, g6, g7, g8, g9⟩ rfl h.perr
            h.pcancel h.timedOut rfl id h.zero h.ever h.lost⟩)⟩
        | false =>
          rw [if_neg (by simp)]
          exact G_sendProcessOutput false h ha ⟨g1, g2, by simp [g3], g4, g5, g6, g7, g8⟩ g9 rfl rfl
            rfl rfl rfl rfl rfl rfl rfl rfl rfl rfl (by simp)
  | socketReady =>
    simp only [step]
    by_cases hc : s.conn = .waiting
    · rw [if_pos hc]
      cases st with
      | starting =>
        obtain ⟨g1, g2, g3, g4, g5, g6, g7, g8, g9, g10⟩ := hS
        rw [if_pos g4]
        refine ⟨m, ha, Or.inr (Or.inl ⟨cs, i, out, c, .sent, h.of (by simp [processDoStart])
          rfl rfl rfl h.phase rfl rfl rfl h.err rfl ⟨g1, g2, g3, rfl, g5, g6, g7, g9, rfl,
          s.toL, [], ?_, g8, by simp [Stops]⟩ rfl h.perr h.pcancel h.timedOut rfl id
          (fun hx => by cases hx) h.ever (fun hx => by cases hx)⟩)⟩
        simp [processDoStart]
      | zero =>
        rw [if_neg (by simp [hS.2.2.2.1])]
        exact ⟨m, ha, Or.inr (Or.inl ⟨cs, i, out, c, .zero, h.of (by simp) rfl rfl rfl h.phase rfl rfl
          rfl h.err rfl hS rfl h.perr h.pcancel h.timedOut rfl id h.zero h.ever h.lost⟩)⟩
      | sent => rw [hS.2.2.2.2.2.2.2.2.1] at hc; cases hc
      | launched => rw [hS.2.2.2.2.2.2.2.1] at hc; cases hc
      | answered a => rw [hS.2.2.2.2.2.2.2.2.1] at hc; cases hc
      | delErr =>
        rw [if_neg (by simp [hS.2.2.2.1])]
        exact ⟨m, ha, Or.inr (Or.inl ⟨cs, i, out, c, .delErr, h.of (by simp) rfl rfl rfl h.phase rfl rfl
          rfl h.err rfl hS rfl h.perr h.pcancel h.timedOut rfl id h.zero h.ever h.lost⟩)⟩
      | delFin =>
        rw [if_neg (by simp [hS.2.2.2.1])]
        exact ⟨m, ha, Or.inr (Or.inl ⟨cs, i, out, c, .delFin, h.of (by simp) rfl rfl rfl h.phase rfl rfl
          rfl h.err rfl hS rfl h.perr h.pcancel h.timedOut rfl id h.zero h.ever h.lost⟩)⟩
      | lost =>
        rw [if_neg (by simp [hS.2.2.2.1])]
        exact ⟨m, ha, Or.inr (Or.inl ⟨cs, i, out, c, .lost, h.of (by simp) rfl rfl rfl h.phase rfl rfl
          rfl h.err rfl hS rfl h.perr h.pcancel h.timedOut rfl id h.zero h.ever h.lost⟩)⟩
    · rw [if_neg hc]; exact hself
  | socketError active =>
    simp only [step]
    by_cases hc : s.conn = .ready
    · rw [if_pos hc]
      have hfail : s.pzero = 0 → s.pdelErr = 0 → s.pdelFin = 0 →
          G (onProcessError active (St.say { s with
            conn := .lost, sockErr := true, toL := [], toC := [], lst := .notRunning,
            lstop := .inactive, pst := .notRunning, perr := true } .notStarted)) := by
        intro g1 g2 g3
        refine G_onProcessError active (m' := { m with phase := .busy cs i (some false),
                                                       startFailed := true }) h ?_ rfl
          ⟨g1, g2, g3, rfl, rfl, rfl, rfl, by simp [Stops, St.say]⟩ (by simp [St.say]) rfl rfl rfl
          rfl rfl rfl rfl rfl rfl rfl rfl rfl rfl rfl rfl
        show accept (.notStarted :: s.log) = _
        rw [accept_cons _ _ _ ha]
        simp [Mon.next, h.phase, hasKind, h.cmd, h.kind]
      cases st with
      | starting =>
        rw [if_pos (by simp [hS.2.2.2.1])]; exact hfail hS.1 hS.2.1 hS.2.2.1
      | sent => rw [if_pos (by simp [hS.2.2.2.1])]; exact hfail hS.1 hS.2.1 hS.2.2.1
      | launched => rw [if_pos (by simp [hS.2.2.2.1])]; exact hfail hS.1 hS.2.1 hS.2.2.1
      | answered a => rw [if_pos (by simp [hS.2.2.2.1])]; exact hfail hS.1 hS.2.1 hS.2.2.1
      | zero =>
        obtain ⟨g1, g2, g3, g4, g5, g6, g7, g8, g9⟩ := hS
        rw [if_neg (by simp [g4])]
        exact ⟨m, ha, Or.inr (Or.inl ⟨cs, i, out, c, .zero, h.of (by simp) rfl rfl rfl h.phase rfl
          rfl rfl h.err rfl ⟨g1, g2, g3, g4, rfl, rfl, rfl, by simp [Stops], g9⟩ rfl h.perr
          h.pcancel h.timedOut rfl id h.zero h.ever h.lost⟩)⟩
      | delErr =>
        obtain ⟨g1, g2, g3, g4, g5, g6, g7, g8, g9⟩ := hS
        rw [if_neg (by simp [g4])]
        exact ⟨m, ha, Or.inr (Or.inl ⟨cs, i, out, c, .delErr, h.of (by simp) rfl rfl rfl h.phase rfl
          rfl rfl h.err rfl ⟨g1, g2, g3, g4, rfl, rfl, rfl, by simp [Stops], g9⟩ rfl h.perr
          h.pcancel h.timedOut rfl id h.zero h.ever h.lost⟩)⟩
      | delFin =>
        obtain ⟨g1, g2, g3, g4, g5, g6, g7, g8, g9⟩ := hS
        rw [if_neg (by simp [g4])]
        exact ⟨m, ha, Or.inr (Or.inl ⟨cs, i, out, c, .delFin, h.of (by simp) rfl rfl rfl h.phase rfl
          rfl rfl h.err rfl ⟨g1, g2, g3, g4, rfl, rfl, rfl, by simp [Stops], g9⟩ rfl h.perr
          h.pcancel h.timedOut rfl id h.zero h.ever h.lost⟩)⟩
      | lost =>
        obtain ⟨g1, g2, g3, g4, g5, g6, g7, g8, g9⟩ := hS
        rw [if_neg (by simp [g4])]
        exact ⟨m, ha, Or.inr (Or.inl ⟨cs, i, out, c, .lost, h.of (by simp) rfl rfl rfl h.phase rfl
          rfl rfl h.err rfl ⟨g1, g2, g3, g4, rfl, rfl, rfl, by simp [Stops], g9⟩ rfl h.perr
          h.pcancel h.timedOut rfl id h.zero h.ever h.lost⟩)⟩
    · rw [if_neg hc]; exact hself
  | launcherReceives =>
    simp only [step]
    cases hl : s.toL with
    | nil => exact hself
    | cons r l =>
      -- the stages in which only stop requests can be on their way to an idle launcher
      have quiet : s.lst = .notRunning → Stops s.toL → (∀ toL', Stops toL' →
          st.holds c { s with toL := toL' } out) → G (match (r :: l : List Req) with
        | [] => s
        | Req.start :: r =>
          if s.lst ≠ .notRunning then St.say { s with toL := r } .assertion
          else { s with toL := r, lst := .starting }
        | Req.stop :: r =>
          if s.lst = .notRunning then { s with toL := r }
          else launcherCancel { s with toL := r }) := by
        intro g1 g2 g3
        rw [hl] at g2
        obtain ⟨hr, hst'⟩ := stops_cons g2
        subst hr
        simp only
        rw [if_pos g1]
        exact ⟨m, ha, Or.inr (Or.inl ⟨cs, i, out, c, st, h.of h.sock rfl rfl rfl h.phase rfl
          rfl rfl h.err rfl (g3 _ hst') rfl h.perr h.pcancel h.timedOut rfl id h.zero h.ever h.lost⟩)⟩
      cases st with
      | zero =>
        obtain ⟨g1, g2, g3, g4, g5, g6, g7, g8, g9⟩ := hS
        exact quiet g6 g8 fun t ht => ⟨g1, g2, g3, g4, g5, g6, g7, ht, g9⟩
      | starting =>
        obtain ⟨g1, g2, g3, g4, g5, g6, g7, g8, g9, g10⟩ := hS
        exact quiet g6 g8 fun t ht => ⟨g1, g2, g3, g4, g5, g6, g7, ht, g9, g10⟩
      | answered a =>
        obtain ⟨g1, g2, g3, g4, g5, g6, g7, g8, g9, g10⟩ := hS
        exact quiet g6 g10 fun t ht => ⟨g1, g2, g3, g4, g5, g6, g7, g8, g9, ht⟩
      | delErr =>
        obtain ⟨g1, g2, g3, g4, g5, g6, g7, g8, g9⟩ := hS
        exact quiet g6 g8 fun t ht => ⟨g1, g2, g3, g4, g5, g6, g7, ht, g9⟩
      | delFin =>
        obtain ⟨g1, g2, g3, g4, g5, g6, g7, g8, g9⟩ := hS
        exact quiet g6 g8 fun t ht => ⟨g1, g2, g3, g4, g5, g6, g7, ht, g9⟩
      | lost =>
        obtain ⟨g1, g2, g3, g4, g5, g6, g7, g8, g9⟩ := hS
        exact quiet g6 g8 fun t ht => ⟨g1, g2, g3, g4, g5, g6, g7, ht, g9⟩
      | sent =>
        obtain ⟨g1, g2, g3, g4, g5, g6, g7, g8, g9, l1, l2, g10, g11, g12⟩ := hS
        rw [hl] at g10
        rcases sent_split g10 g11 with ⟨hr, hl1, hl2⟩ | ⟨hr, l1', hl1, hl2⟩
        · subst hr
          simp only
          rw [if_neg (by simp [g6])]
          exact ⟨m, ha, Or.inr (Or.inl ⟨cs, i, out, c, .launched, h.of h.sock rfl rfl rfl h.phase
            rfl rfl rfl h.err rfl ⟨g1, g2, g3, g4, g5, by simp, g8, g9, by rw [hl2]; exact g12⟩ rfl
            h.perr h.pcancel h.timedOut rfl id (fun hx => by cases hx) h.ever (fun hx => by cases hx)⟩)⟩
        · subst hr
          simp only
          rw [if_pos g6]
          refine ⟨m, ha, Or.inr (Or.inl ⟨cs, i, out, c, .sent, h.of h.sock rfl rfl rfl h.phase
            rfl rfl rfl h.err rfl ⟨g1, g2, g3, g4, g5, g6, g7, g8, g9, l1', l2, hl2, ?_, g12⟩ rfl
            h.perr h.pcancel h.timedOut rfl id h.zero h.ever h.lost⟩)⟩
          rw [hl1] at g11
          exact (stops_cons g11).2
      | launched =>
        obtain ⟨g1, g2, g3, g4, g5, g6, g7, g8, g9⟩ := hS
        rw [hl] at g9
        obtain ⟨hr, hst'⟩ := stops_cons g9
        subst hr
        simp only
        rw [if_neg g6]
        unfold launcherCancel
        cases hls : s.lstop with
        | inactive =>
          exact ⟨m, ha, Or.inr (Or.inl ⟨cs, i, out, c, .launched, h.of h.sock rfl rfl rfl h.phase
            rfl rfl rfl h.err rfl ⟨g1, g2, g3, g4, g5, g6, g7, g8, hst'⟩ rfl
            h.perr h.pcancel h.timedOut rfl id (fun hx => by cases hx) h.ever (fun hx => by cases hx)⟩)⟩
        | terminating =>
          exact ⟨m, ha, Or.inr (Or.inl ⟨cs, i, out, c, .launched, h.of h.sock rfl rfl rfl h.phase
            rfl rfl rfl h.err rfl ⟨g1, g2, g3, g4, g5, g6, g7, g8, hst'⟩ rfl
            h.perr h.pcancel h.timedOut rfl id (fun hx => by cases hx) h.ever (fun hx => by cases hx)⟩)⟩
        | killing =>
          refine ⟨{ m with phase := .busy cs i (some (exitOk cs i 4294967295)) }, ?_,
            Or.inr (Or.inl ⟨cs, i, some (exitOk cs i 4294967295), c,
            .answered (.finished 4294967295 true), h.of h.sock rfl rfl rfl rfl
            rfl rfl rfl h.err rfl ⟨g1, g2, g3, g4, ?_, rfl, rfl, ?_, g8, hst'⟩ rfl
            ?_ h.pcancel h.timedOut rfl id (fun hx => by cases hx) h.ever (fun hx => by cases hx)⟩)⟩
          · show accept (.exit 4294967295 true :: s.log) = _
            rw [accept_cons _ _ _ ha]
            simp [Mon.next, h.phase, hasKind, h.cmd, h.kind, g7]
          · simp [g5]
          · simp [ansOut, exitOk_eq h.cmd]
          · intro h1 h2
            have := (h.perr h1 h2).2
            rw [g7] at this; cases this
  | started =>
    simp only [step]
    by_cases hc : s.lst = .starting
    · rw [if_pos hc]
      cases st with
      | launched =>
        obtain ⟨g1, g2, g3, g4, g5, g6, g7, g8, g9⟩ := hS
        exact ⟨m, ha, Or.inr (Or.inl ⟨cs, i, out, c, .launched, h.of h.sock rfl rfl rfl h.phase
            rfl rfl rfl h.err rfl ⟨g1, g2, g3, g4, g5, by simp, g7, g8, g9⟩ rfl
            h.perr h.pcancel h.timedOut rfl id h.zero h.ever h.lost⟩)⟩
      | zero => rw [hS.2.2.2.2.2.1] at hc; cases hc
      | starting => rw [hS.2.2.2.2.2.1] at hc; cases hc
      | sent => rw [hS.2.2.2.2.2.1] at hc; cases hc
      | answered a => rw [hS.2.2.2.2.2.1] at hc; cases hc
      | delErr => rw [hS.2.2.2.2.2.1] at hc; cases hc
      | delFin => rw [hS.2.2.2.2.2.1] at hc; cases hc
      | lost => rw [hS.2.2.2.2.2.1] at hc; cases hc
    · rw [if_neg hc]; exact hself
  | failedToStart =>
    simp only [step]
    by_cases hc : s.lst = .starting
    · rw [if_pos hc]
      cases st with
      | launched =>
        obtain ⟨g1, g2, g3, g4, g5, g6, g7, g8, g9⟩ := hS
        exact ⟨m, ha, Or.inr (Or.inl ⟨cs, i, out, c, .answered .error, h.of h.sock rfl rfl rfl
            h.phase rfl rfl rfl h.err rfl ⟨g1, g2, g3, g4, by simp [g5], rfl, rfl,
            by simp [ansOut, g7], g8, g9⟩ rfl
            h.perr h.pcancel h.timedOut rfl id (fun hx => by cases hx) h.ever (fun hx => by cases hx)⟩)⟩
      | zero => rw [hS.2.2.2.2.2.1] at hc; cases hc
      | starting => rw [hS.2.2.2.2.2.1] at hc; cases hc
      | sent => rw [hS.2.2.2.2.2.1] at hc; cases hc
      | answered a => rw [hS.2.2.2.2.2.1] at hc; cases hc
      | delErr => rw [hS.2.2.2.2.2.1] at hc; cases hc
      | delFin => rw [hS.2.2.2.2.2.1] at hc; cases hc
      | lost => rw [hS.2.2.2.2.2.1] at hc; cases hc
    · rw [if_neg hc]; exact hself
  | exits code crashed =>
    simp only [step]
    by_cases hc : s.lst = .running
    · rw [if_pos hc]
      cases st with
      | launched =>
        obtain ⟨g1, g2, g3, g4, g5, g6, g7, g8, g9⟩ := hS
        refine ⟨{ m with phase := .busy cs i (some (exitOk cs i code)) }, ?_,
            Or.inr (Or.inl ⟨cs, i, some (exitOk cs i code), c,
            .answered (.finished code crashed), h.of h.sock rfl rfl rfl rfl
            rfl rfl rfl h.err rfl ⟨g1, g2, g3, g4, ?_, rfl, rfl, ?_, g8, g9⟩ rfl
            ?_ h.pcancel h.timedOut rfl id (fun hx => by cases hx) h.ever (fun hx => by cases hx)⟩)⟩
        · show accept (.exit code crashed :: s.log) = _
          rw [accept_cons _ _ _ ha]
          simp [Mon.next, h.phase, hasKind, h.cmd, h.kind, g7]
        · simp [g5]
        · simp [ansOut, exitOk_eq h.cmd]
        · intro h1 h2
          have := (h.perr h1 h2).2
          rw [g7] at this; cases this
      | zero => rw [hS.2.2.2.2.2.1] at hc; cases hc
      | starting => rw [hS.2.2.2.2.2.1] at hc; cases hc
      | sent => rw [hS.2.2.2.2.2.1] at hc; cases hc
      | answered a => rw [hS.2.2.2.2.2.1] at hc; cases hc
      | delErr => rw [hS.2.2.2.2.2.1] at hc; cases hc
      | delFin => rw [hS.2.2.2.2.2.1] at hc; cases hc
      | lost => rw [hS.2.2.2.2.2.1] at hc; cases hc
    · rw [if_neg hc]; exact hself
  | stopTimer =>
    simp only [step]
    by_cases hc : s.lst ≠ .notRunning ∧ s.lstop ≠ .inactive
    · rw [if_pos hc]
      cases st with
      | launched =>
        obtain ⟨g1, g2, g3, g4, g5, g6, g7, g8, g9⟩ := hS
        unfold launcherCancel
        cases hls : s.lstop with
        | inactive =>
          exact ⟨m, ha, Or.inr (Or.inl ⟨cs, i, out, c, .launched, h.of h.sock rfl rfl rfl h.phase
            rfl rfl rfl h.err rfl ⟨g1, g2, g3, g4, g5, g6, g7, g8, g9⟩ rfl
            h.perr h.pcancel h.timedOut rfl id (fun hx => by cases hx) h.ever (fun hx => by cases hx)⟩)⟩
        | terminating =>
          exact ⟨m, ha, Or.inr (Or.inl ⟨cs, i, out, c, .launched, h.of h.sock rfl rfl rfl h.phase
            rfl rfl rfl h.err rfl ⟨g1, g2, g3, g4, g5, g6, g7, g8, g9⟩ rfl
            h.perr h.pcancel h.timedOut rfl id (fun hx => by cases hx) h.ever (fun hx => by cases hx)⟩)⟩
        | killing =>
          refine ⟨{ m with phase := .busy cs i (some (exitOk cs i 4294967295)) }, ?_,
            Or.inr (Or.inl ⟨cs, i, some (exitOk cs i 4294967295), c,
            .answered (.finished 4294967295 true), h.of h.sock rfl rfl rfl rfl
            rfl rfl rfl h.err rfl ⟨g1, g2, g3, g4, ?_, rfl, rfl, ?_, g8, g9⟩ rfl
            ?_ h.pcancel h.timedOut rfl id (fun hx => by cases hx) h.ever (fun hx => by cases hx)⟩)⟩
          · show accept (.exit 4294967295 true :: s.log) = _
            rw [accept_cons _ _ _ ha]
            simp [Mon.next, h.phase, hasKind, h.cmd, h.kind, g7]
          · simp [g5]
          · simp [ansOut, exitOk_eq h.cmd]
          · intro h1 h2
            have := (h.perr h1 h2).2
            rw [g7] at this; cases this
      | zero => exact absurd hS.2.2.2.2.2.1 hc.1
      | starting => exact absurd hS.2.2.2.2.2.1 hc.1
      | sent => exact absurd hS.2.2.2.2.2.1 hc.1
      | answered a => exact absurd hS.2.2.2.2.2.1 hc.1
      | delErr => exact absurd hS.2.2.2.2.2.1 hc.1
      | delFin => exact absurd hS.2.2.2.2.2.1 hc.1
      | lost => exact absurd hS.2.2.2.2.2.1 hc.1
    · rw [if_neg hc]; exact hself
  | clientReceives active =>
    simp only [step]
    have nothing : s.toC = [] → G (match s.toC with
        | [] => s
        | .error :: r =>
          if s.pst = .notRunning then St.say { s with toC := r } .assertion
          else onProcessError active
            (St.say { s with toC := r, pst := .notRunning, perr := true } .notStarted)
        | .finished code _ :: r =>
          if s.pst ≠ .running then St.say { s with toC := r } .assertion
          else onProcessFinished active { s with toC := r, pst := .notRunning, pexit := code }) := by
      intro hx; rw [hx]; exact hself
    cases st with
    | zero => exact nothing hS.2.2.2.2.1
    | starting => exact nothing hS.2.2.2.2.1
    | sent => exact nothing hS.2.2.2.2.1
    | launched => exact nothing hS.2.2.2.2.1
    | delErr => exact nothing hS.2.2.2.2.1
    | delFin => exact nothing hS.2.2.2.2.1
    | lost => exact nothing hS.2.2.2.2.1
    | answered a =>
      obtain ⟨g1, g2, g3, g4, g5, g6, g7, g8, g9, g10⟩ := hS
      cases a with
      | error =>
        rw [g5]
        simp only
        rw [if_neg (by rw [g4]; simp)]
        refine G_onProcessError active (m' := { m with phase := .busy cs i (some false),
                                                       startFailed := true }) h ?_ rfl
          ⟨g1, g2, g3, rfl, rfl, g6, g7, g10⟩ h.sock rfl rfl rfl
          rfl rfl rfl rfl rfl rfl rfl rfl rfl rfl rfl rfl
        show accept (.notStarted :: s.log) = _
        rw [accept_cons _ _ _ ha]
        simp [Mon.next, h.phase, hasKind, h.cmd, h.kind]
      | finished code crashed =>
        rw [g5]
        simp only
        rw [if_neg (by rw [g4]; simp)]
        unfold onProcessFinished
        cases active with
        | true =>
          rw [if_pos rfl]
          exact ⟨m, ha, Or.inr (Or.inl ⟨cs, i, out, c, .delFin, h.of h.sock rfl rfl rfl
            h.phase rfl rfl rfl h.err rfl ⟨g1, g2, by simp [g3], rfl, rfl, g6, g7, g10, g8⟩ rfl
            h.perr h.pcancel h.timedOut rfl id (fun hx => by cases hx) h.ever (fun hx => by cases hx)⟩)⟩
        | false =>
          rw [if_neg (by simp)]
          exact G_sendProcessOutput false h ha ⟨g1, g2, g3, rfl, rfl, g6, g7, g10⟩ g8 rfl rfl
            rfl rfl rfl rfl rfl rfl rfl rfl rfl rfl (by simp)
  | jsCheck => rw [noJ_events s hJ _ (by simp)]; exact hself
  | jsReset => rw [noJ_events s hJ _ (by simp)]; exact hself
  | jsEvaluated ok => rw [noJ_events s hJ _ (by simp)]; exact hself
  | jsFinished active => rw [noJ_events s hJ _ (by cases active <;> simp)]; exact hself

theorem G_step (s : St) (hg : G s) (e : Ev) : G (step s e) := by
  obtain ⟨m, ha, h | ⟨cs, i, out, c, st, h⟩ | ⟨cs, i, out, c, st, h⟩⟩ := hg
  · exact step_idle s m ha h e
  · exact step_P s m cs i out c st ha h e
  · exact step_J s m cs i out c st ha h e

theorem G_runEvs (evs : List Ev) : ∀ s, G s → G (runEvs s evs) := by
  induction evs with
  | nil => intro s h; exact h
  | cons e evs ih => intro s h; exact ih _ (G_step s h e)

end Verif.Job
