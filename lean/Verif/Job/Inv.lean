import Verif.Job.Step
/-!
# Every event preserves the invariant: the cases
-/
namespace Verif.Job

theorem stops_cons {r : Req} {l : List Req} (h : Stops (r :: l)) : r = .stop ∧ Stops l :=
  ⟨h r (by simp), fun x hx => h x (by simp [hx])⟩

theorem stops_snoc {l : List Req} (h : Stops l) : Stops (l ++ [.stop]) := by
  intro r hr
  rcases List.mem_append.1 hr with hr | hr
  · exact h r hr
  · simpa using hr

/-- What can happen without a process command being in progress, to the parts that belong to
process commands. -/
theorem noP_events (s : St) (hn : NoP s) (e : Ev) :
    (e = .zeroP true ∨ e = .zeroP false ∨ e = .delayedError true ∨ e = .delayedError false ∨
     e = .delayedFinished true ∨ e = .delayedFinished false ∨ e = .started ∨ e = .failedToStart ∨
     (∃ a b, e = .exits a b) ∨ e = .stopTimer ∨ e = .clientReceives true ∨
     e = .clientReceives false) → step s e = s := by
  rintro (h | h | h | h | h | h | h | h | ⟨a, b, h⟩ | h | h | h) <;> subst h <;>
    simp [step, hn.1, hn.2, hn.3, hn.5, hn.6]

theorem noJ_events (s : St) (hn : NoJ s) (e : Ev) :
    (e = .zeroJ true ∨ e = .zeroJ false ∨ e = .jsCheck ∨ e = .jsReset ∨
     (∃ a, e = .jsEvaluated a) ∨ e = .jsFinished true ∨ e = .jsFinished false) → step s e = s := by
  rintro (h | h | h | h | ⟨a, h⟩ | h | h) <;> subst h <;>
    simp [step, hn.1, hn.3]

theorem step_idle (s : St) (m : Mon) (ha : accept s.log = some m) (h : Idle s m) (e : Ev) :
    G (step s e) := by
  have hself : G s := ⟨m, ha, Or.inl h⟩
  have hP := h.noP
  have hJ := h.noJ
  cases e with
  | run active cs =>
    simp only [step]
    rw [if_neg (by rw [h.idx]; simp)]
    by_cases hcs : cs = []
    · rw [if_pos hcs]
      refine ⟨{ m with phase := .idle, canceled := false, timedOut := false,
                       startFailed := false }, ?_, Or.inl ?_⟩
      · show accept (.finished s.err :: .run [] :: s.log) = _
        rw [h.err]
        simp [accept, ha, Mon.next, h.phase]
      · exact ⟨h.sock, hP.of rfl rfl rfl rfl rfl rfl rfl rfl, hJ.of rfl rfl rfl, rfl, rfl, rfl,
          rfl, rfl, h.perr, h.pcancel, h.jcancelled, h.pwatch, h.ever⟩
    · rw [if_neg hcs]
      refine G_runNext active _
        { m with phase := .fresh cs, canceled := false, timedOut := false, startFailed := false }
        cs ?_ ?_ ?_ h.err rfl (Or.inl ⟨rfl, h.idx, hcs⟩)
      · show accept (.run cs :: s.log) = _
        rw [accept_cons _ _ _ ha]
        simp [Mon.next, h.phase]
      · refine ⟨h.sock, hP.of rfl rfl rfl rfl rfl rfl rfl rfl, hJ.of rfl rfl rfl, rfl, ?_, ?_, ?_,
          h.ever⟩
        · intro h1 h2; have := h.perr h1; rw [show s.perr = true from h2] at this; cases this
        · intro h1 h2; have := h.pcancel h1; rw [show s.pcancel = true from h2] at this; cases this
        · intro h1 h2; have := h.jcancelled h1
          rw [show s.jcancelled = true from h2] at this; cases this
      · exact ⟨h.perr, h.pcancel, h.jcancelled, h.pwatch, fun _ => rfl⟩
  | cancel active => simp only [step, h.cur]; exact hself
  | watchP active =>
    simp only [step]
    by_cases hw : s.pwatch = true
    · rw [if_pos hw]
      have ht : m.tainted = true := by
        cases hx : m.tainted with
        | true => rfl
        | false => rw [h.pwatch hx] at hw; cases hw
      have hpst : (St.say { s with pwatch := false, pcancel := true } (.timeout .process)).pst
          = .notRunning := hP.pst
      unfold processCancel
      rw [hpst]
      refine ⟨{ m with everTimedOut := true }, ?_, Or.inl ?_⟩
      · show accept (.timeout .process :: s.log) = _
        rw [accept_cons _ _ _ ha]
        simp [Mon.next, h.phase, ht]
      · exact ⟨h.sock, hP.of rfl rfl rfl rfl rfl rfl rfl rfl, hJ.of rfl rfl rfl, h.phase, h.cmds,
          h.idx, h.cur, h.err, h.perr, (fun hx => by rw [ht] at hx; cases hx), h.jcancelled,
          (fun _ => rfl), fun _ => rfl⟩
    · rw [if_neg hw]; exact hself
  | watchJ =>
    simp only [step]
    by_cases hw : s.jwatch = true
    · rw [if_pos hw]
      rw [if_neg (by simp [St.say, hJ.jrunning])]
      refine ⟨{ m with tainted := true }, ?_, Or.inl ?_⟩
      · show accept (.timeout .js :: s.log) = _
        rw [accept_cons _ _ _ ha]
        simp [Mon.next, h.phase]
      · exact ⟨h.sock, hP.of rfl rfl rfl rfl rfl rfl rfl rfl, hJ.of rfl rfl rfl, h.phase, h.cmds,
          h.idx, h.cur, h.err, (fun hx => by cases hx), (fun hx => by cases hx),
          (fun hx => by cases hx), (fun hx => by cases hx), h.ever⟩
    · rw [if_neg hw]; exact hself
  | zeroP active => rw [noP_events s hP _ (by cases active <;> simp)]; exact hself
  | zeroJ active => rw [noJ_events s hJ _ (by cases active <;> simp)]; exact hself
  | delayedError active => rw [noP_events s hP _ (by cases active <;> simp)]; exact hself
  | delayedFinished active => rw [noP_events s hP _ (by cases active <;> simp)]; exact hself
  | socketReady =>
    simp only [step]
    by_cases hc : s.conn = .waiting
    · rw [if_pos hc, if_neg (by rw [hP.pst]; simp)]
      exact ⟨m, ha, Or.inl ⟨by simp, hP.of rfl rfl rfl rfl rfl rfl rfl rfl, hJ.of rfl rfl rfl,
        h.phase, h.cmds, h.idx, h.cur, h.err, h.perr, h.pcancel, h.jcancelled, h.pwatch, h.ever⟩⟩
    · rw [if_neg hc]; exact hself
  | socketError active =>
    simp only [step]
    by_cases hc : s.conn = .ready
    · rw [if_pos hc, if_neg (by simp [hP.pst])]
      exact ⟨m, ha, Or.inl ⟨by simp, ⟨hP.1, hP.2, hP.3, hP.4, rfl, rfl, rfl, by simp [Stops]⟩,
        hJ.of rfl rfl rfl,
        h.phase, h.cmds, h.idx, h.cur, h.err, h.perr, h.pcancel, h.jcancelled, h.pwatch, h.ever⟩⟩
    · rw [if_neg hc]; exact hself
  | launcherReceives =>
    have hst := hP.toL
    simp only [step]
    cases hl : s.toL with
    | nil => exact hself
    | cons r l =>
      rw [hl] at hst
      obtain ⟨hr, hst'⟩ := stops_cons hst
      subst hr
      simp only
      rw [if_pos hP.lst]
      exact ⟨m, ha, Or.inl ⟨h.sock, ⟨hP.1, hP.2, hP.3, hP.4, hP.5, hP.6, hP.7, hst'⟩,
        hJ.of rfl rfl rfl,
        h.phase, h.cmds, h.idx, h.cur, h.err, h.perr, h.pcancel, h.jcancelled, h.pwatch, h.ever⟩⟩
  | started => rw [noP_events s hP _ (by simp)]; exact hself
  | failedToStart => rw [noP_events s hP _ (by simp)]; exact hself
  | exits a b => rw [noP_events s hP _ (by simp)]; exact hself
  | stopTimer => rw [noP_events s hP _ (by simp)]; exact hself
  | clientReceives active => rw [noP_events s hP _ (by cases active <;> simp)]; exact hself
  | jsCheck => rw [noJ_events s hJ _ (by simp)]; exact hself
  | jsReset => rw [noJ_events s hJ _ (by simp)]; exact hself
  | jsEvaluated ok => rw [noJ_events s hJ _ (by simp)]; exact hself
  | jsFinished active => rw [noJ_events s hJ _ (by cases active <;> simp)]; exact hself

theorem step_J (s : St) (m : Mon) (cs : List Cmd) (i : Nat) (out : Option Bool) (c : Cmd)
    (st : JStage) (ha : accept s.log = some m) (h : BusyJ s m cs i out c st) (e : Ev) :
    G (step s e) := by
  have hself : G s := ⟨m, ha, Or.inr (Or.inr ⟨cs, i, out, c, st, h⟩)⟩
  have hP := h.noP
  have hS := h.stage
  -- the state after an event that only changes fields of the JavaScript executor
  have mk : ∀ (s' : St) (m' : Mon) (out' : Option Bool) (st' : JStage),
      accept s'.log = some m' → s'.sockErr = s.sockErr → s'.conn = s.conn → NoP s' →
      m'.phase = .busy cs i out' → s'.cmds = s.cmds → s'.idx = s.idx → s'.cur = s.cur →
      s'.err = m'.canceled → st'.holds s' m' out' → s'.perr = s.perr → s'.pcancel = s.pcancel →
      (m'.tainted = false → m.tainted = false) → m'.timedOut = m.timedOut →
      (m'.tainted = false → s'.jcancelled = true → m'.canceled = true) → s'.pwatch = s.pwatch →
      m'.everTimedOut = m.everTimedOut → G s' := by
    intro s' m' out' st' g1 g2 g3 g4 g5 g6 g7 g8 g9 g10 g11 g12 g13 g14 g15 g16 g17
    refine ⟨m', g1, Or.inr (Or.inr ⟨cs, i, out', c, st', ?_⟩)⟩
    exact ⟨by rw [g2, g3]; exact h.sock, g4, g5, by rw [g6]; exact h.cmds,
      by rw [g7]; exact h.idx, by rw [g8]; exact h.cur, g9, h.cmd, h.kind, g10,
      fun hx => by rw [g11]; exact h.perr (g13 hx), fun hx => by rw [g12]; exact h.pcancel (g13 hx),
      fun hx => by rw [g14]; exact h.timedOut (g13 hx), g15,
      fun hx => by rw [g16]; exact h.pwatch (g13 hx), by rw [g12, g17]; exact h.ever⟩
  have hP' : ∀ s' : St, s'.pzero = s.pzero → s'.pdelErr = s.pdelErr → s'.pdelFin = s.pdelFin →
      s'.pst = s.pst → s'.toC = s.toC → s'.lst = s.lst → s'.lstop = s.lstop → s'.toL = s.toL →
      NoP s' := fun s' a1 a2 a3 a4 a5 a6 a7 a8 => hP.of a1 a2 a3 a4 a5 a6 a7 a8
  -- the state when the script is over
  have mid : ∀ (s' : St) (m' : Mon), s'.sockErr = s.sockErr → s'.conn = s.conn → NoP s' → NoJ s' →
      s'.cmds = s.cmds → s'.perr = s.perr → s'.pcancel = s.pcancel → s'.jcancelled = s.jcancelled →
      m'.tainted = m.tainted → m'.canceled = m.canceled → m'.everTimedOut = m.everTimedOut →
      Mid s' m' cs := by
    intro s' m' g1 g2 g3 g4 g5 g6 g7 g8 g9 g10 g11
    refine ⟨by rw [g1, g2]; exact h.sock, g3, g4, by rw [g5]; exact h.cmds, ?_, ?_, ?_,
      by rw [g7, g11]; exact h.ever⟩
    · rw [g9, g6]; intro h1 h2; rw [h.perr h1] at h2; cases h2
    · rw [g9, g7]; intro h1 h2; rw [h.pcancel h1] at h2; cases h2
    · rw [g9, g10, g8]; exact h.jcancelled
  cases e with
  | run active cs' =>
    simp only [step]
    rw [if_pos (by rw [h.idx]; simp)]
    exact hself
  | cancel active =>
    simp only [step, h.cur]
    have hacc : accept (.cancel :: s.log) = some { m with canceled := true } := by
      rw [accept_cons _ _ _ ha]
      simp [Mon.next, h.phase]
    by_cases hr : s.jrunning = true
    · rw [if_pos (by exact hr)]
      refine mk _ { m with canceled := true } out st hacc rfl rfl
        (hP' _ rfl rfl rfl rfl rfl rfl rfl rfl) h.phase rfl rfl h.cur.symm rfl ?_ rfl rfl id rfl
        (fun _ _ => rfl) rfl rfl
      cases st with
      | zero => exact hS
      | queued => exact hS
      | checked => exact hS
      | evaluating => exact ⟨hS.1, hS.2.1, hS.2.2.1, hS.2.2.2.1, fun _ _ => rfl⟩
      | done => exact ⟨hS.1, hS.2.1, hS.2.2.1, fun _ hx => by cases hx⟩
    · rw [if_neg (by exact hr)]
      refine mk _ { m with canceled := true } out st hacc rfl rfl
        (hP' _ rfl rfl rfl rfl rfl rfl rfl rfl) h.phase rfl rfl h.cur.symm rfl ?_ rfl rfl id rfl
        (fun _ _ => rfl) rfl rfl
      cases st with
      | zero => exact hS
      | queued => exact absurd hS.2.1 hr
      | checked => exact absurd hS.2.1 hr
      | evaluating => exact absurd hS.2.1 hr
      | done => exact absurd hS.2.1 hr
  | watchP active =>
    simp only [step]
    by_cases hw : s.pwatch = true
    · rw [if_pos hw]
      have ht : m.tainted = true := by
        cases hx : m.tainted with
        | true => rfl
        | false => rw [h.pwatch hx] at hw; cases hw
      have hpst : (St.say { s with pwatch := false, pcancel := true } (.timeout .process)).pst
          = .notRunning := hP.pst
      unfold processCancel
      rw [hpst]
      refine ⟨{ m with timedOut := true, everTimedOut := true }, ?_, Or.inr (Or.inr ⟨cs, i, out, c, st, ?_⟩)⟩
      · show accept (.timeout .process :: s.log) = _
        rw [accept_cons _ _ _ ha]
        simp [Mon.next, h.phase]
      · have ht' : ∀ {P : Prop}, m.tainted = false → P := fun hx => by rw [ht] at hx; cases hx
        refine ⟨h.sock, hP' _ rfl rfl rfl rfl rfl rfl rfl rfl, h.phase, h.cmds, h.idx, h.cur,
          h.err, h.cmd, h.kind, ?_, ht', ht', ht', ht', ht', fun _ => rfl⟩
        cases st <;> exact hS
    · rw [if_neg hw]; exact hself
  | watchJ =>
    simp only [step]
    by_cases hw : s.jwatch = true
    · rw [if_pos hw]
      have hacc : accept (.timeout .js :: s.log) = some { m with tainted := true } := by
        rw [accept_cons _ _ _ ha]
        simp [Mon.next, h.phase]
      by_cases hr : s.jrunning = true
      · rw [if_pos (by exact hr)]
        refine mk _ { m with tainted := true } out st hacc rfl rfl
          (hP' _ rfl rfl rfl rfl rfl rfl rfl rfl) h.phase rfl rfl rfl h.err ?_ rfl rfl
          (fun hx => by cases hx) rfl (fun hx => by cases hx) rfl rfl
        cases st with
        | zero => exact hS
        | queued => exact hS
        | checked => exact hS
        | evaluating => exact ⟨hS.1, hS.2.1, hS.2.2.1, hS.2.2.2.1, fun hx => by cases hx⟩
        | done => exact ⟨hS.1, hS.2.1, hS.2.2.1, fun hx => by cases hx⟩
      · rw [if_neg (by exact hr)]
        refine mk _ { m with tainted := true } out st hacc rfl rfl
          (hP' _ rfl rfl rfl rfl rfl rfl rfl rfl) h.phase rfl rfl rfl h.err ?_ rfl rfl
          (fun hx => by cases hx) rfl (fun hx => by cases hx) rfl rfl
        cases st with
        | zero => exact hS
        | queued => exact hS
        | checked => exact hS
        | evaluating => exact ⟨hS.1, hS.2.1, hS.2.2.1, hS.2.2.2.1, fun hx => by cases hx⟩
        | done => exact ⟨hS.1, hS.2.1, hS.2.2.1, fun hx => by cases hx⟩
    · rw [if_neg hw]; exact hself
  | zeroP active => rw [noP_events s hP _ (by cases active <;> simp)]; exact hself
  | zeroJ active =>
    simp only [step]
    by_cases hz : s.jzero = 0
    · rw [if_pos hz]; exact hself
    · rw [if_neg hz]
      cases st with
      | queued => exact absurd hS.1 hz
      | checked => exact absurd hS.1 hz
      | evaluating => exact absurd hS.1 hz
      | done => exact absurd hS.1 hz
      | zero =>
        obtain ⟨g1, g2, g3, g4⟩ := hS
        unfold jSucceeded
        refine G_onCommandSucceeded active _ { m with phase := .busy cs i (some true) } cs i
          (some true) ?_ (mid _ _ rfl rfl (hP' _ rfl rfl rfl rfl rfl rfl rfl rfl)
          ⟨by simp [St.say, g1], g2, g3⟩ rfl rfl rfl rfl rfl rfl rfl) rfl h.idx (lt_of_get h.cmd)
          h.err (fun _ => processOk_js h.cmd h.kind _) ?_ h.pwatch
        · show accept (.skipped :: s.log) = _
          rw [accept_cons _ _ _ ha]
          simp [Mon.next, h.phase, hasKind, h.cmd, h.kind, g4]
        · intro hx hc; exact ⟨rfl, h.timedOut hx, h.perr hx⟩
  | delayedError active => rw [noP_events s hP _ (by cases active <;> simp)]; exact hself
  | delayedFinished active => rw [noP_events s hP _ (by cases active <;> simp)]; exact hself
  | socketReady =>
    simp only [step]
    by_cases hc : s.conn = .waiting
    · rw [if_pos hc, if_neg (by rw [hP.pst]; simp)]
      refine ⟨m, ha, Or.inr (Or.inr ⟨cs, i, out, c, st, ?_⟩)⟩
      refine ⟨by simp, hP' _ rfl rfl rfl rfl rfl rfl rfl rfl, h.phase, h.cmds, h.idx, h.cur,
          h.err, h.cmd, h.kind, ?_, h.perr, h.pcancel, h.timedOut, h.jcancelled, h.pwatch, h.ever⟩
      cases st <;> exact hS
    · rw [if_neg hc]; exact hself
  | socketError active =>
    simp only [step]
    by_cases hc : s.conn = .ready
    · rw [if_pos hc, if_neg (by simp [hP.pst])]
      refine ⟨m, ha, Or.inr (Or.inr ⟨cs, i, out, c, st, ?_⟩)⟩
      refine ⟨by simp, ⟨hP.1, hP.2, hP.3, hP.4, rfl, rfl, rfl, by simp [Stops]⟩, h.phase, h.cmds,
        h.idx, h.cur, h.err, h.cmd, h.kind, ?_, h.perr, h.pcancel, h.timedOut, h.jcancelled,
        h.pwatch, h.ever⟩
      cases st <;> exact hS
    · rw [if_neg hc]; exact hself
  | launcherReceives =>
    have hst := hP.toL
    simp only [step]
    cases hl : s.toL with
    | nil => exact hself
    | cons r l =>
      rw [hl] at hst
      obtain ⟨hr, hst'⟩ := stops_cons hst
      subst hr
      simp only
      rw [if_pos hP.lst]
      refine ⟨m, ha, Or.inr (Or.inr ⟨cs, i, out, c, st, ?_⟩)⟩
      refine ⟨h.sock, ⟨hP.1, hP.2, hP.3, hP.4, hP.5, hP.6, hP.7, hst'⟩, h.phase, h.cmds,
        h.idx, h.cur, h.err, h.cmd, h.kind, ?_, h.perr, h.pcancel, h.timedOut, h.jcancelled,
        h.pwatch, h.ever⟩
      cases st <;> exact hS
  | started => rw [noP_events s hP _ (by simp)]; exact hself
  | failedToStart => rw [noP_events s hP _ (by simp)]; exact hself
  | exits a b => rw [noP_events s hP _ (by simp)]; exact hself
  | stopTimer => rw [noP_events s hP _ (by simp)]; exact hself
  | clientReceives active => rw [noP_events s hP _ (by cases active <;> simp)]; exact hself
  | jsCheck =>
    simp only [step]
    cases st with
    | queued =>
      obtain ⟨g1, g2, g3, g4⟩ := hS
      rw [if_pos g3]
      cases hc : s.jcancelled with
      | true =>
        refine mk _ m out .done ha rfl rfl (hP' _ rfl rfl rfl rfl rfl rfl rfl rfl) h.phase rfl rfl
          rfl h.err ⟨g1, g2, rfl, ?_⟩ rfl rfl id rfl ?_ rfl rfl
        · intro hx he
          have h1 := h.jcancelled hx hc
          rw [← h.err] at h1
          rw [show s.err = false from he] at h1
          cases h1
        · intro hx _; exact h.jcancelled hx hc
      | false =>
        refine mk _ m out .checked ha rfl rfl (hP' _ rfl rfl rfl rfl rfl rfl rfl rfl) h.phase rfl
          rfl rfl h.err ⟨g1, g2, rfl, g4⟩ rfl rfl id rfl ?_ rfl rfl
        intro hx hy
        cases hy
    | zero => rw [if_neg (by rw [hS.2.2.1]; simp)]; exact hself
    | checked => rw [if_neg (by rw [hS.2.2.1]; simp)]; exact hself
    | evaluating => rw [if_neg (by rw [hS.2.2.1]; simp)]; exact hself
    | done => rw [if_neg (by rw [hS.2.2.1]; simp)]; exact hself
  | jsReset =>
    simp only [step]
    cases st with
    | checked =>
      obtain ⟨g1, g2, g3, g4⟩ := hS
      rw [if_pos g3]
      exact mk _ m out .evaluating ha rfl rfl (hP' _ rfl rfl rfl rfl rfl rfl rfl rfl) h.phase rfl
          rfl rfl h.err ⟨g1, g2, rfl, g4, fun _ _ => rfl⟩ rfl rfl id rfl h.jcancelled rfl rfl
    | zero => rw [if_neg (by rw [hS.2.2.1]; simp)]; exact hself
    | queued => rw [if_neg (by rw [hS.2.2.1]; simp)]; exact hself
    | evaluating => rw [if_neg (by rw [hS.2.2.1]; simp)]; exact hself
    | done => rw [if_neg (by rw [hS.2.2.1]; simp)]; exact hself
  | jsEvaluated ok =>
    simp only [step]
    cases st with
    | evaluating =>
      obtain ⟨g1, g2, g3, g4, g5⟩ := hS
      rw [if_pos g3]
      refine mk _ { m with phase := .busy cs i (some ok) } (some ok) .done ?_ rfl rfl
        (hP' _ rfl rfl rfl rfl rfl rfl rfl rfl) rfl rfl rfl rfl h.err ⟨g1, g2, rfl, ?_⟩ rfl rfl id
        rfl h.jcancelled rfl rfl
      · show accept (.evaluated ok :: s.log) = _
        rw [accept_cons _ _ _ ha]
        simp [Mon.next, h.phase, hasKind, h.cmd, h.kind, g4]
      · intro hx he
        have hx' : m.tainted = false := hx
        have hcan : s.jcancelled = false := by
          cases hy : s.jcancelled with
          | false => rfl
          | true =>
            have h1 := h.jcancelled hx' hy
            rw [← h.err, show s.err = false from he] at h1
            cases h1
        cases ok with
        | true => simp [g5 hx' hcan]
        | false => simp [hcan]
    | zero => rw [if_neg (by rw [hS.2.2.1]; simp)]; exact hself
    | queued => rw [if_neg (by rw [hS.2.2.1]; simp)]; exact hself
    | checked => rw [if_neg (by rw [hS.2.2.1]; simp)]; exact hself
    | done => rw [if_neg (by rw [hS.2.2.1]; simp)]; exact hself
  | jsFinished active =>
    simp only [step]
    cases st with
    | done =>
      obtain ⟨g1, g2, g3, g4⟩ := hS
      rw [if_pos g3]
      cases hsu : s.jsucc with
      | true =>
        rw [if_pos rfl]
        unfold jSucceeded
        refine G_onCommandSucceeded active _ m cs i out ha
          (mid _ _ rfl rfl (hP' _ rfl rfl rfl rfl rfl rfl rfl rfl)
          ⟨g1, rfl, rfl⟩ rfl rfl rfl rfl rfl rfl rfl) h.phase h.idx (lt_of_get h.cmd) h.err
          (fun _ => processOk_js h.cmd h.kind _) ?_ h.pwatch
        intro hx hc
        refine ⟨?_, h.timedOut hx, h.perr hx⟩
        rw [g4 hx (by rw [h.err, hc]), hsu]
      | false =>
        rw [if_neg (by simp)]
        unfold jFailed
        have := Rel_onCommandFailed
          { s with jthread := .idle, jrunning := false, jsucc := false, jwatch := false } m cs i out
          ha (mid _ _ rfl rfl (hP' _ rfl rfl rfl rfl rfl rfl rfl rfl)
          ⟨g1, rfl, rfl⟩ rfl rfl rfl rfl rfl rfl rfl) h.phase ?_ h.pwatch
        · exact ⟨_, this.1, Or.inl this.2⟩
        · intro hx
          cases hc : m.canceled with
          | true => simp [Mon.mustFail, hc]
          | false => simp [Mon.mustFail, g4 hx (by rw [h.err, hc]), hsu]
    | zero => rw [if_neg (by rw [hS.2.2.1]; simp)]; exact hself
    | queued => rw [if_neg (by rw [hS.2.2.1]; simp)]; exact hself
    | checked => rw [if_neg (by rw [hS.2.2.1]; simp)]; exact hself
    | evaluating => rw [if_neg (by rw [hS.2.2.1]; simp)]; exact hself

end Verif.Job
