import Verif.Proc.Spec

namespace Verif.Proc

def Req.num : Req → Nat
  | .start n => n
  | .stop n => n

/-- Numbers from 1 -/
def upTo (k : Nat) : List Nat := (List.range k).map (· + 1)

theorem upTo_succ (k : Nat) : upTo (k + 1) = upTo k ++ [k + 1] := by
  simp [upTo, List.range_succ]

def leaks (l : List Entry) : Nat := (l.filter (fun e => decide (e.outcome = .badResponse ∧ e.cmd.response ≥ 3))).length

structure Base (s : St) : Prop where
  conn1 : s.ready = true → s.dead = false
  conn2 : s.socketError = s.dead
  order : (s.toLauncher.map Req.num).Pairwise (· ≤ ·)
  upper : ∀ r ∈ s.toLauncher, r.num ≤ s.n
  startN : ∀ k, Req.start k ∈ s.toLauncher → k = s.n
  hits : ∀ p ∈ s.hits, p.1 = p.2
  outN : s.out.map Entry.n = upTo (s.n - if s.current.isSome then 1 else 0)
  pos : s.current.isSome = true → 0 < s.n
  outOk : ∀ e ∈ s.out, e.Justified
  reason : s.current.isSome = true → s.cancelReason = true → s.stale = true ∨ s.expired = true
  resp : s.responseFile = true → ∃ c, s.current = some c ∧ c.dry = false
  files : s.files = (if s.responseFile then 1 else 0) + leaks s.out

structure Empty (s : St) : Prop where
  dryTimer : s.dryTimer = false
  e1 : s.delayedError = 0
  e2 : s.delayedFinished = 0
  pstate : s.pstate = .notRunning
  proc : s.proc = .idle
  fromL : s.fromLauncher = []
  noStart : ∀ k, Req.start k ∉ s.toLauncher

theorem Empty.congr {s t : St} (h : Empty s) (h1 : t.dryTimer = s.dryTimer) (h2 : t.delayedError = s.delayedError)
    (h3 : t.delayedFinished = s.delayedFinished) (h4 : t.pstate = s.pstate) (h5 : t.proc = s.proc) (h6 : t.fromLauncher = s.fromLauncher)
    (h7 : t.toLauncher = s.toLauncher) : Empty t :=
  ⟨h1 ▸ h.dryTimer, h2 ▸ h.e1, h3 ▸ h.e2, h4 ▸ h.pstate, h5 ▸ h.proc, h6 ▸ h.fromL, h7 ▸ h.noStart⟩

/-- Why a command may have failed to start -/
def Failed (s : St) : Prop := s.real = some .failedToStart ∨ s.dead = true ∨ (s.stopped = true ∧ s.real = none)

def Ended (s : St) (code : Int) : Prop := ∃ r, s.real = some r ∧ r.code = some code

def Clean (s : St) : Prop := s.stale = true ∨ s.perror = .unknown

/-- What is going on -/
inductive Phase (s : St) : Prop
  | over : s.current = none → Empty s → Phase s
  | stuck : s.current.isSome = true → Empty s → s.stale = true ∨ s.expired = true → Phase s
  | dry (c : Cmd) : s.current = some c → c.dry = true → s.dryTimer = true → s.delayedError = 0 → s.delayedFinished = 0 →
      s.pstate = .notRunning → s.proc = .idle → s.fromLauncher = [] → (∀ k, Req.start k ∉ s.toLauncher) → Phase s
  | starting : s.current.isSome = true → s.dryTimer = false → s.delayedError = 0 → s.delayedFinished = 0 →
      s.pstate = .starting → s.proc = .idle → s.fromLauncher = [] → (∀ k, Req.start k ∉ s.toLauncher) →
      s.ready = false → s.dead = false → s.real = none → Clean s → Phase s
  | sent (l1 l2 : List Req) : s.current.isSome = true → s.dryTimer = false → s.delayedError = 0 → s.delayedFinished = 0 →
      s.pstate = .running → s.proc = .idle → s.fromLauncher = [] → s.toLauncher = l1 ++ Req.start s.n :: l2 →
      (∀ k, Req.start k ∉ l1) → (∀ k, Req.start k ∉ l2) → s.ready = true → s.real = none → Clean s → Phase s
  | runs (k : Nat) : s.current.isSome = true → s.dryTimer = false → s.delayedError = 0 → s.delayedFinished = 0 →
      s.pstate = .running → s.proc = .alive s.n k → s.fromLauncher = [] → (∀ k, Req.start k ∉ s.toLauncher) →
      (∀ r ∈ s.toLauncher, r.num = s.n) → s.ready = true → s.real = none → Clean s → Phase s
  | failed : s.current.isSome = true → s.dryTimer = false → s.delayedError = 0 → s.delayedFinished = 0 →
      s.pstate = .running → s.proc = .idle → s.fromLauncher = [.error s.n] → (∀ k, Req.start k ∉ s.toLauncher) →
      s.ready = true → s.real = some .failedToStart → Clean s → Phase s
  | done (code : Int) (cr : Bool) : s.current.isSome = true → s.dryTimer = false → s.delayedError = 0 → s.delayedFinished = 0 →
      s.pstate = .running → s.proc = .idle → s.fromLauncher = [.finished s.n code cr] → (∀ k, Req.start k ∉ s.toLauncher) →
      s.ready = true → Ended s code → Clean s → Phase s
  | delayedError : s.current.isSome = true → s.dryTimer = false → s.delayedError = 1 → s.delayedFinished = 0 →
      s.pstate = .notRunning → s.proc = .idle → s.fromLauncher = [] → (∀ k, Req.start k ∉ s.toLauncher) →
      s.perror = .failedToStart → Failed s ∨ (s.cancelReason = true ∧ s.real = none) → Phase s
  | delayedFinished : s.current.isSome = true → s.dryTimer = false → s.delayedError = 0 → s.delayedFinished = 1 →
      s.pstate = .notRunning → s.proc = .idle → s.fromLauncher = [] → (∀ k, Req.start k ∉ s.toLauncher) →
      Ended s s.exitCode → Clean s → Phase s

def Inv (s : St) : Prop := Base s ∧ Phase s

theorem base_finish {s : St} {c : Cmd} {o : Outcome} (h : Base s) (hc : s.current = some c) (hr : s.responseFile = false)
    (hj : Entry.Justified ⟨s.n, c, o, s.real, s.expired, s.stopped, s.dead, s.stale⟩) (hl : o = .badResponse → c.response < 3) :
    Base (finish o s) := by
  have hp := h.pos (by rw [hc]; rfl)
  unfold finish
  rw [hc]
  refine ⟨h.conn1, h.conn2, h.order, h.upper, h.startN, h.hits, ?_, by simp, ?_, by simp, by simp [hr], ?_⟩
  · simp only [List.map_append, List.map_cons, List.map_nil, Option.isSome_none, Bool.false_eq_true, if_false, Nat.sub_zero]
    have := h.outN
    rw [hc] at this
    simp only [Option.isSome_some, if_true] at this
    rw [this]
    have e : s.n = (s.n - 1) + 1 := by omega
    conv => rhs; rw [e, upTo_succ]
    rw [← e]
  · intro e he
    simp only [List.mem_append, List.mem_singleton] at he
    rcases he with he | rfl
    · exact h.outOk e he
    · exact hj
  · simp only
    rw [h.files, hr]
    unfold leaks
    rw [List.filter_append, List.length_append]
    have : (decide (o = .badResponse ∧ c.response ≥ 3)) = false := by
      rw [decide_eq_false_iff_not]
      rintro ⟨h1, h2⟩
      have := hl h1
      omega
    simp [List.filter, this]

theorem empty_finish {s : St} {o : Outcome} (h : Empty s) : Empty (finish o s) := by
  unfold finish
  split <;> exact h.congr rfl rfl rfl rfl rfl rfl rfl

theorem current_finish {s : St} {o : Outcome} : (finish o s).current = none := by
  unfold finish
  split
  · assumption
  · rfl

theorem base_remove {s : St} (h : Base s) : Base (removeResponseFile s) ∧ (removeResponseFile s).responseFile = false := by
  unfold removeResponseFile
  split
  · rename_i hr
    refine ⟨⟨h.conn1, h.conn2, h.order, h.upper, h.startN, h.hits, h.outN, h.pos, h.outOk, h.reason, by simp, ?_⟩, rfl⟩
    have := h.files
    rw [hr] at this
    simp only [if_true] at this
    simp only [Bool.false_eq_true, if_false]
    omega
  · rename_i hr
    exact ⟨h, by simpa using hr⟩

theorem empty_remove {s : St} (h : Empty s) : Empty (removeResponseFile s) := by
  unfold removeResponseFile
  split
  · exact h.congr rfl rfl rfl rfl rfl rfl rfl
  · exact h

theorem remove_fields (s : St) : (removeResponseFile s).current = s.current ∧ (removeResponseFile s).n = s.n ∧
    (removeResponseFile s).real = s.real ∧ (removeResponseFile s).expired = s.expired ∧ (removeResponseFile s).stopped = s.stopped ∧
    (removeResponseFile s).dead = s.dead ∧ (removeResponseFile s).stale = s.stale ∧ (removeResponseFile s).cancelReason = s.cancelReason ∧
    (removeResponseFile s).perror = s.perror ∧ (removeResponseFile s).exitCode = s.exitCode := by
  unfold removeResponseFile
  split <;> exact ⟨rfl, rfl, rfl, rfl, rfl, rfl, rfl, rfl, rfl, rfl⟩

/-- The error arrives. -/
theorem inv_error {s : St} (h : Base s) (hc : s.current.isSome = true) (he : Empty s) (hp : s.perror = .failedToStart)
    (hf : Failed s ∨ (s.cancelReason = true ∧ s.real = none)) : Inv (onProcessError s) := by
  obtain ⟨c, hc'⟩ := Option.isSome_iff_exists.1 hc
  unfold onProcessError
  by_cases ha : s.active = true
  · rw [if_pos ha]
    refine ⟨⟨h.conn1, h.conn2, h.order, h.upper, h.startN, h.hits, h.outN, h.pos, h.outOk, h.reason, h.resp, h.files⟩, ?_⟩
    exact .delayedError hc he.dryTimer (by simp [he.e1]) he.e2 he.pstate he.proc he.fromL he.noStart hp hf
  rw [if_neg ha]
  by_cases hr : s.cancelReason = true
  · rw [if_pos hr]
    exact ⟨h, .stuck hc he (h.reason hc hr)⟩
  rw [if_neg hr, if_pos hp]
  obtain ⟨f1, f2, f3, f4, f5, f6, f7, f8, f9, f10⟩ := remove_fields s
  refine ⟨base_finish (c := c) (base_remove h).1 (f1.trans hc') (base_remove h).2 ?_ (by simp), .over current_finish (empty_finish (empty_remove he))⟩
  rw [f2, f3, f4, f5, f6, f7]
  exact hf.resolve_right (fun h => hr h.1)

/-- The process has finished. -/
theorem inv_finished {s : St} (h : Base s) (hc : s.current.isSome = true) (he : Empty s) (hd : Ended s s.exitCode) (hcl : Clean s) :
    Inv (onProcessFinished s) := by
  obtain ⟨c, hc'⟩ := Option.isSome_iff_exists.1 hc
  unfold onProcessFinished
  by_cases ha : s.active = true
  · rw [if_pos ha]
    refine ⟨⟨h.conn1, h.conn2, h.order, h.upper, h.startN, h.hits, h.outN, h.pos, h.outOk, h.reason, h.resp, h.files⟩, ?_⟩
    exact .delayedFinished hc he.dryTimer he.e1 (by simp [he.e2]) he.pstate he.proc he.fromL he.noStart hd hcl
  rw [if_neg ha]
  obtain ⟨f1, f2, f3, f4, f5, f6, f7, f8, f9, f10⟩ := remove_fields s
  obtain ⟨b1, b2⟩ := base_remove h
  have e1 := empty_remove he
  obtain ⟨r, hr1, hr2⟩ := hd
  have key : ∀ o, o ≠ .badResponse → Entry.Justified ⟨s.n, c, o, s.real, s.expired, s.stopped, s.dead, s.stale⟩ →
      Inv (finish o (removeResponseFile s)) := by
    intro o ho hj
    refine ⟨base_finish (c := c) b1 (f1.trans hc') b2 ?_ (fun h => absurd h ho), .over current_finish (empty_finish e1)⟩
    rw [f2, f3, f4, f5, f6, f7]; exact hj
  unfold sendProcessOutput
  simp only [f1, hc', f8, f9, f10]
  by_cases hr : s.cancelReason = true
  · rw [if_pos hr]
    exact key .timedOut (by simp) ⟨⟨r, _, hr1, hr2⟩, (h.reason hc hr).symm⟩
  rw [if_neg hr]
  by_cases hne : (if s.perror = .unknown ∧ c.saveFails = true then PError.writeError else s.perror) ≠ .unknown
  · rw [if_pos hne]
    refine key .processError (by simp) ⟨⟨r, _, hr1, hr2⟩, ?_⟩
    by_cases hs : s.perror = .unknown ∧ c.saveFails = true
    · exact .inl hs.2
    · rw [if_neg hs] at hne
      rcases hcl with hcl | hcl
      · exact .inr hcl
      · exact absurd hcl hne
  rw [if_neg hne]
  by_cases hgt : u32 s.exitCode > u32 c.maxExitCode
  · rw [if_pos hgt]
    refine key .badExitCode (by simp) ⟨r, _, hr1, hr2, ?_⟩
    unfold Accepted
    unfold u32 at hgt
    simp only
    omega
  · rw [if_neg hgt]
    refine key .success (by simp) (Or.inr ⟨r, _, hr1, hr2, ?_⟩)
    unfold Accepted
    unfold u32 at hgt
    simp only
    omega

theorem base_send {s : St} {r : Req} (h : Base s) (hr : r.num = s.n) (p : PState) :
    Base { s with pstate := p, toLauncher := s.toLauncher ++ [r] } := by
  refine ⟨h.conn1, h.conn2, ?_, ?_, ?_, h.hits, h.outN, h.pos, h.outOk, h.reason, h.resp, h.files⟩
  · simp only [List.map_append, List.map_cons, List.map_nil, List.pairwise_append, List.pairwise_singleton, List.mem_map,
      List.mem_singleton, true_and]
    refine ⟨h.order, ?_⟩
    rintro a ⟨x, hx, rfl⟩ b rfl
    rw [hr]; exact h.upper x hx
  · intro x hx
    simp only [List.mem_append, List.mem_singleton] at hx
    rcases hx with hx | rfl
    · exact h.upper x hx
    · simp only [hr]; omega
  · intro k hk
    simp only [List.mem_append, List.mem_singleton] at hk
    rcases hk with hk | rfl
    · exact h.startN k hk
    · exact hr

/-- `QbsProcess::doStart` -/
theorem inv_doStart {s : St} (h : Base s) (hc : s.current.isSome = true) (h1 : s.dryTimer = false) (h2 : s.delayedError = 0)
    (h3 : s.delayedFinished = 0) (h5 : s.proc = .idle) (h6 : s.fromLauncher = []) (h7 : ∀ k, Req.start k ∉ s.toLauncher)
    (h8 : s.ready = true) (h9 : s.real = none) (h10 : Clean s) : Inv (processDoStart s) := by
  unfold processDoStart
  exact ⟨base_send h rfl .running, .sent s.toLauncher [] hc h1 h2 h3 rfl h5 h6 rfl h7 (by simp) h8 h9 h10⟩

theorem Base.congr {s t : St} (h : Base s) (h1 : t.ready = s.ready) (h2 : t.dead = s.dead) (h3 : t.socketError = s.socketError)
    (h4 : t.toLauncher = s.toLauncher) (h5 : t.n = s.n) (h6 : t.hits = s.hits) (h7 : t.out = s.out) (h8 : t.current = s.current)
    (h9 : s.current.isSome = true → t.cancelReason = true → t.stale = true ∨ t.expired = true) (h12 : t.responseFile = s.responseFile) (h13 : t.files = s.files) : Base t :=
  ⟨by rw [h1, h2]; exact h.conn1, by rw [h2, h3]; exact h.conn2, by rw [h4]; exact h.order, by rw [h4, h5]; exact h.upper,
   by rw [h4, h5]; exact h.startN, by rw [h6]; exact h.hits, by rw [h7, h5, h8]; exact h.outN, by rw [h5, h8]; exact h.pos,
   by rw [h7]; exact h.outOk, by rw [h8]; exact h9, by rw [h12, h8]; exact h.resp, by rw [h12, h13, h7]; exact h.files⟩

/-- `QbsProcess::start` -/
theorem inv_processStart {s : St} (h : Base s) (hc : s.current.isSome = true) (he : Empty s) (hr : s.real = none) (hcl : Clean s) :
    Inv (processStart s) := by
  unfold processStart
  split
  · rename_i hs
    refine inv_error (h.congr rfl rfl rfl rfl rfl rfl rfl rfl h.reason rfl rfl) hc (he.congr rfl rfl rfl rfl rfl rfl rfl) rfl (.inl (.inr (.inl ?_)))
    show s.dead = true
    rw [← h.conn2]; exact hs
  · rename_i hs
    simp only
    split
    · rename_i hy
      exact inv_doStart (h.congr rfl rfl rfl rfl rfl rfl rfl rfl h.reason rfl rfl) hc he.dryTimer he.e1 he.e2 he.proc he.fromL he.noStart hy hr hcl
    · rename_i hy
      refine ⟨h.congr rfl rfl rfl rfl rfl rfl rfl rfl h.reason rfl rfl, .starting hc he.dryTimer he.e1 he.e2 rfl he.proc he.fromL he.noStart (by simpa using hy) ?_ hr hcl⟩
      show s.dead = false
      rw [← h.conn2]; simpa using hs

theorem inv_watchdog {s : St} (h : Inv s) (b : Bool) : Inv { s with watchdog := b } := by
  obtain ⟨hb, hp⟩ := h
  refine ⟨hb.congr rfl rfl rfl rfl rfl rfl rfl rfl hb.reason rfl rfl, ?_⟩
  cases hp with
  | over a b => exact .over a (b.congr rfl rfl rfl rfl rfl rfl rfl)
  | stuck a b c => exact .stuck a (b.congr rfl rfl rfl rfl rfl rfl rfl) c
  | dry c a1 a2 a3 a4 a5 a6 a7 a8 a9 => exact .dry c a1 a2 a3 a4 a5 a6 a7 a8 a9
  | starting a1 a2 a3 a4 a5 a6 a7 a8 a9 a10 a11 a12 => exact .starting a1 a2 a3 a4 a5 a6 a7 a8 a9 a10 a11 a12
  | sent l1 l2 a1 a2 a3 a4 a5 a6 a7 a8 a9 a10 a11 a12 a13 => exact .sent l1 l2 a1 a2 a3 a4 a5 a6 a7 a8 a9 a10 a11 a12 a13
  | runs k a1 a2 a3 a4 a5 a6 a7 a8 a9 a10 a11 a12 => exact .runs k a1 a2 a3 a4 a5 a6 a7 a8 a9 a10 a11 a12
  | failed a1 a2 a3 a4 a5 a6 a7 a8 a9 a10 a11 => exact .failed a1 a2 a3 a4 a5 a6 a7 a8 a9 a10 a11
  | done c r a1 a2 a3 a4 a5 a6 a7 a8 a9 a10 a11 => exact .done c r a1 a2 a3 a4 a5 a6 a7 a8 a9 a10 a11
  | delayedError a1 a2 a3 a4 a5 a6 a7 a8 a9 a10 => exact .delayedError a1 a2 a3 a4 a5 a6 a7 a8 a9 a10
  | delayedFinished a1 a2 a3 a4 a5 a6 a7 a8 a9 a10 => exact .delayedFinished a1 a2 a3 a4 a5 a6 a7 a8 a9 a10

theorem inv_active {s : St} (h : Inv s) (b : Bool) : Inv { s with active := b } := by
  obtain ⟨hb, hp⟩ := h
  refine ⟨hb.congr rfl rfl rfl rfl rfl rfl rfl rfl hb.reason rfl rfl, ?_⟩
  cases hp with
  | over a b => exact .over a (b.congr rfl rfl rfl rfl rfl rfl rfl)
  | stuck a b c => exact .stuck a (b.congr rfl rfl rfl rfl rfl rfl rfl) c
  | dry c a1 a2 a3 a4 a5 a6 a7 a8 a9 => exact .dry c a1 a2 a3 a4 a5 a6 a7 a8 a9
  | starting a1 a2 a3 a4 a5 a6 a7 a8 a9 a10 a11 a12 => exact .starting a1 a2 a3 a4 a5 a6 a7 a8 a9 a10 a11 a12
  | sent l1 l2 a1 a2 a3 a4 a5 a6 a7 a8 a9 a10 a11 a12 a13 => exact .sent l1 l2 a1 a2 a3 a4 a5 a6 a7 a8 a9 a10 a11 a12 a13
  | runs k a1 a2 a3 a4 a5 a6 a7 a8 a9 a10 a11 a12 => exact .runs k a1 a2 a3 a4 a5 a6 a7 a8 a9 a10 a11 a12
  | failed a1 a2 a3 a4 a5 a6 a7 a8 a9 a10 a11 => exact .failed a1 a2 a3 a4 a5 a6 a7 a8 a9 a10 a11
  | done c r a1 a2 a3 a4 a5 a6 a7 a8 a9 a10 a11 => exact .done c r a1 a2 a3 a4 a5 a6 a7 a8 a9 a10 a11
  | delayedError a1 a2 a3 a4 a5 a6 a7 a8 a9 a10 => exact .delayedError a1 a2 a3 a4 a5 a6 a7 a8 a9 a10
  | delayedFinished a1 a2 a3 a4 a5 a6 a7 a8 a9 a10 => exact .delayedFinished a1 a2 a3 a4 a5 a6 a7 a8 a9 a10

theorem inv_start {s : St} (h : Inv s) (hn : s.current = none) (c : Cmd) : Inv (start c s) := by
  obtain ⟨hb, hp⟩ := h
  have he : Empty s := by
    cases hp with
    | over _ b => exact b
    | _ => simp_all
  have hrf : s.responseFile = false := by
    cases hr : s.responseFile with
    | false => rfl
    | true => have := hb.resp hr; simp [hn] at this
  unfold start
  generalize hs1 : ({ s with current := some c, n := s.n + 1, real := none, expired := false, stopped := false, stale := decide (s.perror ≠ .unknown) || s.cancelReason } : St) = s1
  have b1 : Base s1 := by
    subst hs1
    refine ⟨hb.conn1, hb.conn2, hb.order, ?_, ?_, hb.hits, ?_, by simp, hb.outOk, ?_, by simp [hrf], hb.files⟩
    · intro r hr; have := hb.upper r hr; simp only; omega
    · intro k hk; exact absurd hk (he.noStart k)
    · have := hb.outN
      rw [hn] at this
      simpa using this
    · intro _ hr
      simp only at hr
      simp [hr]
  have e1 : Empty s1 := by subst hs1; exact he.congr rfl rfl rfl rfl rfl rfl rfl
  have c1 : s1.current = some c := by subst hs1; rfl
  have r1 : s1.real = none := by subst hs1; rfl
  have rf1 : s1.responseFile = false := by subst hs1; exact hrf
  have cl1 : Clean s1 := by
    subst hs1
    unfold Clean
    simp only [ne_eq, Bool.or_eq_true, decide_eq_true_eq]
    by_cases hu : s.perror = .unknown
    · exact .inr hu
    · exact .inl (.inl hu)
  have hd : Inv (doStart c s1).1 := by
    unfold doStart
    rw [if_neg (by simp [e1.pstate])]
    split
    · rename_i hdry
      exact ⟨b1.congr rfl rfl rfl rfl rfl rfl rfl rfl b1.reason rfl rfl, .dry c c1 hdry rfl e1.e1 e1.e2 e1.pstate e1.proc e1.fromL e1.noStart⟩
    · rename_i hnd
      split
      · rename_i hbad
        exact ⟨base_finish (c := c) b1 c1 rf1 hbad (by simp), .over current_finish (empty_finish e1)⟩
      · split
        · exact inv_processStart b1 (by rw [c1]; rfl) e1 r1 cl1
        · split
          · refine inv_processStart ?_ (by simp [c1]) (e1.congr rfl rfl rfl rfl rfl rfl rfl) r1 cl1
            refine ⟨b1.conn1, b1.conn2, b1.order, b1.upper, b1.startN, b1.hits, b1.outN, b1.pos, b1.outOk, b1.reason, (fun _ => ⟨c, c1, by simpa using hnd⟩), ?_⟩
            have := b1.files
            rw [rf1] at this
            simp only [Bool.false_eq_true, if_false] at this
            simp only [if_true]
            omega
          · split
            · rename_i h2
              exact ⟨base_finish (c := c) b1 c1 rf1 (show c.response ≥ 2 by omega) (by omega), .over current_finish (empty_finish e1)⟩
            · rename_i h0 h1 h2
              refine ⟨?_, .over current_finish (empty_finish (e1.congr rfl rfl rfl rfl rfl rfl rfl))⟩
              have hp := b1.pos (by rw [c1]; rfl)
              unfold finish
              simp only [c1]
              refine ⟨b1.conn1, b1.conn2, b1.order, b1.upper, b1.startN, b1.hits, ?_, by simp, ?_, by simp, by simp [rf1], ?_⟩
              · simp only [List.map_append, List.map_cons, List.map_nil, Option.isSome_none, Bool.false_eq_true, if_false, Nat.sub_zero]
                have := b1.outN
                rw [c1] at this
                simp only [Option.isSome_some, if_true] at this
                rw [this]
                have e : s1.n = (s1.n - 1) + 1 := by omega
                conv => rhs; rw [e, upTo_succ]
                rw [← e]
              · intro e he
                simp only [List.mem_append, List.mem_singleton] at he
                rcases he with he | rfl
                · exact b1.outOk e he
                · show c.response ≥ 2
                  omega
              · have := b1.files
                simp only
                rw [this, rf1]
                unfold leaks
                rw [List.filter_append, List.length_append]
                have : (decide (Outcome.badResponse = .badResponse ∧ c.response ≥ 3)) = true := by
                  rw [decide_eq_true_eq]; exact ⟨rfl, by omega⟩
                simp [List.filter]
                rw [decide_eq_true (by omega)]
                simp
  show Inv (if (doStart c s1).2 = true ∧ c.timeout = true then { (doStart c s1).1 with watchdog := true } else (doStart c s1).1)
  by_cases hw : (doStart c s1).2 = true ∧ c.timeout = true
  · rw [if_pos hw]; exact inv_watchdog hd true
  · rw [if_neg hw]; exact hd

theorem processCancel_notRunning {s : St} (h : s.pstate = .notRunning) : processCancel s = s := by
  unfold processCancel; rw [h]

theorem processCancel_starting {s : St} (h : s.pstate = .starting) :
    processCancel s = onProcessError { s with perror := .failedToStart, pstate := .notRunning } := by
  unfold processCancel; rw [h]

theorem processCancel_running {s : St} (h : s.pstate = .running) :
    processCancel s = { s with toLauncher := s.toLauncher ++ [.stop s.n] } := by
  unfold processCancel; rw [h]

/-- `ProcessCommandExecutor::cancel`, for a state in which the timeout has been noted -/
theorem inv_cancel {s : St} (h : Inv s) (b : Bool) (hs : b = true → s.expired = true) (hst : b = false → s.stopped = true) : Inv (cancel b s) := by
  obtain ⟨hb, hp⟩ := h
  have hb' : Base { s with cancelReason := b } :=
    hb.congr rfl rfl rfl rfl rfl rfl rfl rfl (fun _ hr => .inr (hs hr)) rfl rfl
  unfold cancel
  cases hp with
  | over a e => rw [processCancel_notRunning (by exact e.pstate)]; exact ⟨hb', .over a (e.congr rfl rfl rfl rfl rfl rfl rfl)⟩
  | stuck a e c => rw [processCancel_notRunning (by exact e.pstate)]; exact ⟨hb', .stuck a (e.congr rfl rfl rfl rfl rfl rfl rfl) c⟩
  | dry c a1 a2 a3 a4 a5 a6 a7 a8 a9 => rw [processCancel_notRunning (by exact a6)]; exact ⟨hb', .dry c a1 a2 a3 a4 a5 a6 a7 a8 a9⟩
  | starting a1 a2 a3 a4 a5 a6 a7 a8 a9 a10 a11 a12 =>
    rw [processCancel_starting (by exact a5)]
    refine inv_error (hb'.congr rfl rfl rfl rfl rfl rfl rfl rfl hb'.reason rfl rfl) a1 ⟨a2, a3, a4, rfl, a6, a7, a8⟩ rfl ?_
    cases b with
    | true => exact .inr ⟨rfl, a11⟩
    | false => exact .inl (.inr (.inr ⟨hst rfl, a11⟩))
  | sent l1 l2 a1 a2 a3 a4 a5 a6 a7 a8 a9 a10 a11 a12 a13 =>
    rw [processCancel_running (by exact a5)]
    have := base_send hb' (r := .stop s.n) rfl s.pstate
    refine ⟨this.congr rfl rfl rfl rfl rfl rfl rfl rfl this.reason rfl rfl, .sent l1 (l2 ++ [.stop s.n]) a1 a2 a3 a4 a5 a6 a7 ?_ a9 ?_ a11 a12 a13⟩
    · simp [a8]
    · simp [a10]
  | runs k a1 a2 a3 a4 a5 a6 a7 a8 a9 a10 a11 a12 =>
    rw [processCancel_running (by exact a5)]
    have := base_send hb' (r := .stop s.n) rfl s.pstate
    refine ⟨this.congr rfl rfl rfl rfl rfl rfl rfl rfl this.reason rfl rfl, .runs k a1 a2 a3 a4 a5 a6 a7 ?_ ?_ a10 a11 a12⟩
    · simp [a8]
    · intro r hr
      simp only [List.mem_append, List.mem_singleton] at hr
      rcases hr with hr | rfl
      · exact a9 r hr
      · rfl
  | failed a1 a2 a3 a4 a5 a6 a7 a8 a9 a10 a11 =>
    rw [processCancel_running (by exact a5)]
    have := base_send hb' (r := .stop s.n) rfl s.pstate
    exact ⟨this.congr rfl rfl rfl rfl rfl rfl rfl rfl this.reason rfl rfl, .failed a1 a2 a3 a4 a5 a6 a7 (by simp [a8]) a9 a10 a11⟩
  | done c r a1 a2 a3 a4 a5 a6 a7 a8 a9 a10 a11 =>
    rw [processCancel_running (by exact a5)]
    have := base_send hb' (r := .stop s.n) rfl s.pstate
    exact ⟨this.congr rfl rfl rfl rfl rfl rfl rfl rfl this.reason rfl rfl, .done c r a1 a2 a3 a4 a5 a6 a7 (by simp [a8]) a9 a10 a11⟩
  | delayedError a1 a2 a3 a4 a5 a6 a7 a8 a9 a10 =>
    rw [processCancel_notRunning (by exact a5)]
    refine ⟨hb', .delayedError a1 a2 a3 a4 a5 a6 a7 a8 a9 ?_⟩
    rcases a10 with a10 | a10
    · exact .inl a10
    · cases b with
      | true => exact .inr ⟨rfl, a10.2⟩
      | false => exact .inl (.inr (.inr ⟨hst rfl, a10.2⟩))
  | delayedFinished a1 a2 a3 a4 a5 a6 a7 a8 a9 a10 => rw [processCancel_notRunning (by exact a5)]; exact ⟨hb', .delayedFinished a1 a2 a3 a4 a5 a6 a7 a8 a9 a10⟩

end Verif.Proc
