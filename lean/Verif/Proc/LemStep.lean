import Verif.Proc.Lem

namespace Verif.Proc

/-- Requests that are taken from the queue -/
theorem base_take {s : St} (h : Base s) {r : Req} {l : List Req} (hl : s.toLauncher = r :: l) : Base { s with toLauncher := l } := by
  have ho := h.order
  rw [hl] at ho
  simp only [List.map_cons, List.pairwise_cons] at ho
  refine ⟨h.conn1, h.conn2, ho.2, ?_, ?_, h.hits, h.outN, h.pos, h.outOk, h.reason, h.resp, h.files⟩
  · intro x hx; exact h.upper x (by rw [hl]; exact List.mem_cons_of_mem _ hx)
  · intro k hk; exact h.startN k (by rw [hl]; exact List.mem_cons_of_mem _ hk)

theorem takes_start {s : St} (n : Nat) (h : s.proc = .idle) : launcherTakes (.start n) s = { s with proc := .alive n 0 } := by
  unfold launcherTakes; rw [h]

theorem takes_stop_idle {s : St} (n : Nat) (h : s.proc = .idle) : launcherTakes (.stop n) s = s := by
  unfold launcherTakes; rw [h]

theorem takes_stop_alive {s : St} (m n k : Nat) (h : s.proc = .alive n k) :
    launcherTakes (.stop m) s = launcherCancel { s with hits := s.hits ++ [(m, n)] } := by
  unfold launcherTakes; rw [h]

/-- `Process::cancel` of the launcher -/
theorem inv_launcherCancel {s : St} (h : Base s) (k : Nat) (a1 : s.current.isSome = true) (a2 : s.dryTimer = false) (a3 : s.delayedError = 0)
    (a4 : s.delayedFinished = 0) (a5 : s.pstate = .running) (a6 : s.proc = .alive s.n k) (a7 : s.fromLauncher = [])
    (a8 : ∀ k, Req.start k ∉ s.toLauncher) (a9 : ∀ r ∈ s.toLauncher, r.num = s.n) (a10 : s.ready = true) (a11 : s.real = none)
    (a12 : Clean s) : Inv (launcherCancel s) := by
  have e : launcherCancel s = (if k < 2 then { s with proc := .alive s.n (k + 1) }
    else { s with proc := .idle, real := some .notStopped, fromLauncher := s.fromLauncher ++ [.finished s.n (-1) true] }) := by
    unfold launcherCancel; rw [a6]
  rw [e]
  split
  · exact ⟨h.congr rfl rfl rfl rfl rfl rfl rfl rfl h.reason rfl rfl, .runs (k + 1) a1 a2 a3 a4 a5 rfl a7 a8 a9 a10 a11 a12⟩
  · exact ⟨h.congr rfl rfl rfl rfl rfl rfl rfl rfl h.reason rfl rfl,
      .done (-1) true a1 a2 a3 a4 a5 rfl (by simp [a7]) a8 a10 ⟨.notStopped, rfl, rfl⟩ a12⟩

theorem inv_takes {s : St} (h : Inv s) {r : Req} {l : List Req} (hl : s.toLauncher = r :: l) :
    Inv (launcherTakes r { s with toLauncher := l }) := by
  obtain ⟨hb, hp⟩ := h
  have hb' := base_take hb hl
  have noS : (∀ k, Req.start k ∉ s.toLauncher) → (∀ k, Req.start k ∉ l) ∧ ∃ m, r = .stop m := by
    intro hn
    refine ⟨fun k hk => hn k (by rw [hl]; exact List.mem_cons_of_mem _ hk), ?_⟩
    cases r with
    | start k => exact absurd (by rw [hl]; exact List.mem_cons_self) (hn k)
    | stop m => exact ⟨m, rfl⟩
  cases hp with
  | over a e =>
    obtain ⟨n1, m, rfl⟩ := noS e.noStart
    rw [takes_stop_idle m (by exact e.proc)]
    exact ⟨hb', .over a ⟨e.dryTimer, e.e1, e.e2, e.pstate, e.proc, e.fromL, n1⟩⟩
  | stuck a e c =>
    obtain ⟨n1, m, rfl⟩ := noS e.noStart
    rw [takes_stop_idle m (by exact e.proc)]
    exact ⟨hb', .stuck a ⟨e.dryTimer, e.e1, e.e2, e.pstate, e.proc, e.fromL, n1⟩ c⟩
  | dry c a1 a2 a3 a4 a5 a6 a7 a8 a9 =>
    obtain ⟨n1, m, rfl⟩ := noS a9
    rw [takes_stop_idle m (by exact a7)]
    exact ⟨hb', .dry c a1 a2 a3 a4 a5 a6 a7 a8 n1⟩
  | starting a1 a2 a3 a4 a5 a6 a7 a8 a9 a10 a11 a12 =>
    obtain ⟨n1, m, rfl⟩ := noS a8
    rw [takes_stop_idle m (by exact a6)]
    exact ⟨hb', .starting a1 a2 a3 a4 a5 a6 a7 n1 a9 a10 a11 a12⟩
  | sent l1 l2 a1 a2 a3 a4 a5 a6 a7 a8 a9 a10 a11 a12 a13 =>
    cases l1 with
    | nil =>
      have e2 := hl.symm.trans a8
      simp only [List.nil_append, List.cons.injEq] at e2
      obtain ⟨rfl, rfl⟩ := e2
      rw [takes_start s.n (by exact a6)]
      refine ⟨hb'.congr rfl rfl rfl rfl rfl rfl rfl rfl hb'.reason rfl rfl, .runs 0 a1 a2 a3 a4 a5 rfl a7 a10 ?_ a11 a12 a13⟩
      intro r hr
      have ho := hb.order
      rw [hl] at ho
      simp only [List.map_cons, List.pairwise_cons] at ho
      have h1 : s.n ≤ r.num := ho.1 r.num (List.mem_map_of_mem hr)
      have h2 : r.num ≤ s.n := hb'.upper r hr
      show r.num = s.n
      omega
    | cons x l1 =>
      have e2 := hl.symm.trans a8
      simp only [List.cons_append, List.cons.injEq] at e2
      obtain ⟨rfl, rfl⟩ := e2
      cases r with
      | start k => exact absurd List.mem_cons_self (a9 k)
      | stop m =>
        rw [takes_stop_idle m (by exact a6)]
        exact ⟨hb', .sent l1 l2 a1 a2 a3 a4 a5 a6 a7 rfl (fun k hk => a9 k (List.mem_cons_of_mem _ hk)) a10 a11 a12 a13⟩
  | runs k a1 a2 a3 a4 a5 a6 a7 a8 a9 a10 a11 a12 =>
    obtain ⟨n1, m, rfl⟩ := noS a8
    have hm : m = s.n := a9 (.stop m) (by rw [hl]; exact List.mem_cons_self)
    rw [takes_stop_alive m s.n k (by exact a6)]
    refine inv_launcherCancel ?_ k a1 a2 a3 a4 a5 a6 a7 n1 (fun r hr => a9 r (by rw [hl]; exact List.mem_cons_of_mem _ hr)) a10 a11 a12
    refine ⟨hb'.conn1, hb'.conn2, hb'.order, hb'.upper, hb'.startN, ?_, hb'.outN, hb'.pos, hb'.outOk, hb'.reason, hb'.resp, hb'.files⟩
    intro p hp
    simp only [List.mem_append, List.mem_singleton] at hp
    rcases hp with hp | rfl
    · exact hb.hits p hp
    · exact hm
  | failed a1 a2 a3 a4 a5 a6 a7 a8 a9 a10 a11 =>
    obtain ⟨n1, m, rfl⟩ := noS a8
    rw [takes_stop_idle m (by exact a6)]
    exact ⟨hb', .failed a1 a2 a3 a4 a5 a6 a7 n1 a9 a10 a11⟩
  | done c x a1 a2 a3 a4 a5 a6 a7 a8 a9 a10 a11 =>
    obtain ⟨n1, m, rfl⟩ := noS a8
    rw [takes_stop_idle m (by exact a6)]
    exact ⟨hb', .done c x a1 a2 a3 a4 a5 a6 a7 n1 a9 a10 a11⟩
  | delayedError a1 a2 a3 a4 a5 a6 a7 a8 a9 a10 =>
    obtain ⟨n1, m, rfl⟩ := noS a8
    rw [takes_stop_idle m (by exact a6)]
    exact ⟨hb', .delayedError a1 a2 a3 a4 a5 a6 a7 n1 a9 a10⟩
  | delayedFinished a1 a2 a3 a4 a5 a6 a7 a8 a9 a10 =>
    obtain ⟨n1, m, rfl⟩ := noS a8
    rw [takes_stop_idle m (by exact a6)]
    exact ⟨hb', .delayedFinished a1 a2 a3 a4 a5 a6 a7 n1 a9 a10⟩

/-- The process of the launcher belongs to the current command. -/
theorem alive_runs {s : St} (h : Inv s) {n k : Nat} (ha : s.proc = .alive n k) :
    n = s.n ∧ s.current.isSome = true ∧ s.dryTimer = false ∧ s.delayedError = 0 ∧ s.delayedFinished = 0 ∧
      s.pstate = .running ∧ s.fromLauncher = [] ∧ (∀ k, Req.start k ∉ s.toLauncher) ∧
      (∀ r ∈ s.toLauncher, r.num = s.n) ∧ s.ready = true ∧ s.real = none ∧ Clean s := by
  obtain ⟨_, hp⟩ := h
  cases hp with
  | runs k' a1 a2 a3 a4 a5 a6 a7 a8 a9 a10 a11 a12 =>
    rw [a6] at ha
    cases ha
    exact ⟨rfl, a1, a2, a3, a4, a5, a7, a8, a9, a10, a11, a12⟩
  | over _ e => rw [e.proc] at ha; cases ha
  | stuck _ e => rw [e.proc] at ha; cases ha
  | _ => simp_all

theorem inv_deliver {s : St} (h : Inv s) {r : Resp} {l : List Resp} (hl : s.fromLauncher = r :: l) :
    Inv (handlePacket r { s with fromLauncher := l }) := by
  obtain ⟨hb, hp⟩ := h
  have hb' : ∀ l, Base { s with fromLauncher := l } := fun l => hb.congr rfl rfl rfl rfl rfl rfl rfl rfl hb.reason rfl rfl
  cases hp with
  | over _ e => rw [e.fromL] at hl; cases hl
  | stuck _ e => rw [e.fromL] at hl; cases hl
  | failed a1 a2 a3 a4 a5 a6 a7 a8 a9 a10 a11 =>
    have e2 := hl.symm.trans a7
    simp only [List.cons.injEq] at e2
    obtain ⟨rfl, rfl⟩ := e2
    unfold handlePacket
    simp only
    rw [if_neg (by simp [a5])]
    exact inv_error ((hb' []).congr rfl rfl rfl rfl rfl rfl rfl rfl (hb' []).reason rfl rfl) a1 ⟨a2, a3, a4, rfl, a6, rfl, a8⟩ rfl (.inl (.inl a10))
  | done c x a1 a2 a3 a4 a5 a6 a7 a8 a9 a10 a11 =>
    have e2 := hl.symm.trans a7
    simp only [List.cons.injEq] at e2
    obtain ⟨rfl, rfl⟩ := e2
    unfold handlePacket
    simp only
    rw [if_neg (by simp [a5])]
    exact inv_finished ((hb' []).congr rfl rfl rfl rfl rfl rfl rfl rfl (hb' []).reason rfl rfl) a1 ⟨a2, a3, a4, rfl, a6, rfl, a8⟩ a10 a11
  | _ => simp_all

theorem base_dead {s : St} (hb : Base s) :
    Base { s with socketError := true, ready := false, dead := true, toLauncher := [], fromLauncher := [], proc := .idle } :=
  ⟨by simp, rfl, by simp, by simp, by simp, hb.hits, hb.outN, hb.pos, hb.outOk, hb.reason, hb.resp, hb.files⟩

theorem inv_socketError {s : St} (h : Inv s) : Inv (handleSocketError s) := by
  obtain ⟨hb, hp⟩ := h
  have hb' := base_dead hb
  have run : s.current.isSome = true → s.dryTimer = false → s.delayedError = 0 → s.delayedFinished = 0 → s.pstate ≠ .notRunning →
      Inv (handleSocketError s) := by
    intro a1 a2 a3 a4 a5
    unfold handleSocketError
    simp only
    rw [if_pos a5]
    exact inv_error (hb'.congr rfl rfl rfl rfl rfl rfl rfl rfl hb'.reason rfl rfl) a1 ⟨a2, a3, a4, rfl, rfl, rfl, by simp⟩ rfl
      (.inl (.inr (.inl rfl)))
  have rest : s.pstate = .notRunning →
      handleSocketError s = { s with socketError := true, ready := false, dead := true, toLauncher := [], fromLauncher := [], proc := .idle } := by
    intro a5
    unfold handleSocketError
    simp only
    rw [if_neg (by simp [a5])]
  cases hp with
  | over a e => rw [rest e.pstate]; exact ⟨hb', .over a ⟨e.dryTimer, e.e1, e.e2, e.pstate, rfl, rfl, by simp⟩⟩
  | stuck a e c => rw [rest e.pstate]; exact ⟨hb', .stuck a ⟨e.dryTimer, e.e1, e.e2, e.pstate, rfl, rfl, by simp⟩ c⟩
  | dry c a1 a2 a3 a4 a5 a6 a7 a8 a9 => rw [rest a6]; exact ⟨hb', .dry c a1 a2 a3 a4 a5 a6 rfl rfl (by simp)⟩
  | starting a1 a2 a3 a4 a5 a6 a7 a8 a9 a10 a11 a12 => exact run a1 a2 a3 a4 (by simp [a5])
  | sent l1 l2 a1 a2 a3 a4 a5 a6 a7 a8 a9 a10 a11 a12 a13 => exact run a1 a2 a3 a4 (by simp [a5])
  | runs k a1 a2 a3 a4 a5 a6 a7 a8 a9 a10 a11 a12 => exact run a1 a2 a3 a4 (by simp [a5])
  | failed a1 a2 a3 a4 a5 a6 a7 a8 a9 a10 a11 => exact run a1 a2 a3 a4 (by simp [a5])
  | done c x a1 a2 a3 a4 a5 a6 a7 a8 a9 a10 a11 => exact run a1 a2 a3 a4 (by simp [a5])
  | delayedError a1 a2 a3 a4 a5 a6 a7 a8 a9 a10 =>
    rw [rest a5]; exact ⟨hb', .delayedError a1 a2 a3 a4 a5 rfl rfl (by simp) a9 (.inl (.inr (.inl rfl)))⟩
  | delayedFinished a1 a2 a3 a4 a5 a6 a7 a8 a9 a10 =>
    rw [rest a5]; exact ⟨hb', .delayedFinished a1 a2 a3 a4 a5 rfl rfl (by simp) a9 a10⟩

theorem inv_socketReady {s : St} (h : Inv s) (hr : s.ready = false) (hd : s.dead = false) : Inv (handleSocketReady s) := by
  obtain ⟨hb, hp⟩ := h
  have hb' : Base { s with socketError := false, ready := true } :=
    ⟨fun _ => hd, hd.symm, hb.order, hb.upper, hb.startN, hb.hits, hb.outN, hb.pos, hb.outOk, hb.reason, hb.resp, hb.files⟩
  have rest : s.pstate ≠ .starting → handleSocketReady s = { s with socketError := false, ready := true } := by
    intro a5
    unfold handleSocketReady
    simp only
    rw [if_neg a5]
  cases hp with
  | over a e => rw [rest (by simp [e.pstate])]; exact ⟨hb', .over a (e.congr rfl rfl rfl rfl rfl rfl rfl)⟩
  | stuck a e c => rw [rest (by simp [e.pstate])]; exact ⟨hb', .stuck a (e.congr rfl rfl rfl rfl rfl rfl rfl) c⟩
  | dry c a1 a2 a3 a4 a5 a6 a7 a8 a9 => rw [rest (by simp [a6])]; exact ⟨hb', .dry c a1 a2 a3 a4 a5 a6 a7 a8 a9⟩
  | starting a1 a2 a3 a4 a5 a6 a7 a8 a9 a10 a11 a12 =>
    unfold handleSocketReady
    simp only
    rw [if_pos a5]
    exact inv_doStart hb' a1 a2 a3 a4 a6 a7 a8 rfl a11 a12
  | sent l1 l2 a1 a2 a3 a4 a5 a6 a7 a8 a9 a10 a11 a12 a13 => simp [hr] at a11
  | runs k a1 a2 a3 a4 a5 a6 a7 a8 a9 a10 a11 a12 => simp [hr] at a10
  | failed a1 a2 a3 a4 a5 a6 a7 a8 a9 a10 a11 => simp [hr] at a9
  | done c x a1 a2 a3 a4 a5 a6 a7 a8 a9 a10 a11 => simp [hr] at a9
  | delayedError a1 a2 a3 a4 a5 a6 a7 a8 a9 a10 =>
    rw [rest (by simp [a5])]; exact ⟨hb', .delayedError a1 a2 a3 a4 a5 a6 a7 a8 a9 a10⟩
  | delayedFinished a1 a2 a3 a4 a5 a6 a7 a8 a9 a10 =>
    rw [rest (by simp [a5])]; exact ⟨hb', .delayedFinished a1 a2 a3 a4 a5 a6 a7 a8 a9 a10⟩

theorem inv_expired {s : St} (h : Inv s) : Inv { s with watchdog := false, expired := true } := by
  obtain ⟨hb, hp⟩ := h
  refine ⟨hb.congr rfl rfl rfl rfl rfl rfl rfl rfl (fun _ _ => .inr rfl) rfl rfl, ?_⟩
  cases hp with
  | over a b => exact .over a (b.congr rfl rfl rfl rfl rfl rfl rfl)
  | stuck a b c => exact .stuck a (b.congr rfl rfl rfl rfl rfl rfl rfl) (.inr rfl)
  | dry c a1 a2 a3 a4 a5 a6 a7 a8 a9 => exact .dry c a1 a2 a3 a4 a5 a6 a7 a8 a9
  | starting a1 a2 a3 a4 a5 a6 a7 a8 a9 a10 a11 a12 => exact .starting a1 a2 a3 a4 a5 a6 a7 a8 a9 a10 a11 a12
  | sent l1 l2 a1 a2 a3 a4 a5 a6 a7 a8 a9 a10 a11 a12 a13 => exact .sent l1 l2 a1 a2 a3 a4 a5 a6 a7 a8 a9 a10 a11 a12 a13
  | runs k a1 a2 a3 a4 a5 a6 a7 a8 a9 a10 a11 a12 => exact .runs k a1 a2 a3 a4 a5 a6 a7 a8 a9 a10 a11 a12
  | failed a1 a2 a3 a4 a5 a6 a7 a8 a9 a10 a11 => exact .failed a1 a2 a3 a4 a5 a6 a7 a8 a9 a10 a11
  | done c r a1 a2 a3 a4 a5 a6 a7 a8 a9 a10 a11 => exact .done c r a1 a2 a3 a4 a5 a6 a7 a8 a9 a10 a11
  | delayedError a1 a2 a3 a4 a5 a6 a7 a8 a9 a10 => exact .delayedError a1 a2 a3 a4 a5 a6 a7 a8 a9 a10
  | delayedFinished a1 a2 a3 a4 a5 a6 a7 a8 a9 a10 => exact .delayedFinished a1 a2 a3 a4 a5 a6 a7 a8 a9 a10

theorem inv_stopped {s : St} (h : Inv s) : Inv { s with stopped := true } := by
  obtain ⟨hb, hp⟩ := h
  refine ⟨hb.congr rfl rfl rfl rfl rfl rfl rfl rfl hb.reason rfl rfl, ?_⟩
  cases hp with
  | over a b => exact .over a (b.congr rfl rfl rfl rfl rfl rfl rfl)
  | stuck a b c => exact .stuck a (b.congr rfl rfl rfl rfl rfl rfl rfl) c
  | dry c a1 a2 a3 a4 a5 a6 a7 a8 a9 => exact .dry c a1 a2 a3 a4 a5 a6 a7 a8 a9
  | starting a1 a2 a3 a4 a5 a6 a7 a8 a9 a10 a11 a12 => exact .starting a1 a2 a3 a4 a5 a6 a7 a8 a9 a10 a11 a12
  | sent l1 l2 a1 a2 a3 a4 a5 a6 a7 a8 a9 a10 a11 a12 a13 => exact .sent l1 l2 a1 a2 a3 a4 a5 a6 a7 a8 a9 a10 a11 a12 a13
  | runs k a1 a2 a3 a4 a5 a6 a7 a8 a9 a10 a11 a12 => exact .runs k a1 a2 a3 a4 a5 a6 a7 a8 a9 a10 a11 a12
  | failed a1 a2 a3 a4 a5 a6 a7 a8 a9 a10 a11 => exact .failed a1 a2 a3 a4 a5 a6 a7 a8 a9 a10 a11
  | done c r a1 a2 a3 a4 a5 a6 a7 a8 a9 a10 a11 => exact .done c r a1 a2 a3 a4 a5 a6 a7 a8 a9 a10 a11
  | delayedError a1 a2 a3 a4 a5 a6 a7 a8 a9 a10 =>
    refine .delayedError a1 a2 a3 a4 a5 a6 a7 a8 a9 ?_
    rcases a10 with (a | a | a) | a
    · exact .inl (.inl a)
    · exact .inl (.inr (.inl a))
    · exact .inl (.inr (.inr ⟨rfl, a.2⟩))
    · exact .inr a
  | delayedFinished a1 a2 a3 a4 a5 a6 a7 a8 a9 a10 => exact .delayedFinished a1 a2 a3 a4 a5 a6 a7 a8 a9 a10

theorem inv_init (ready : Bool) : Inv (init ready) := by
  refine ⟨⟨by simp [init], rfl, by simp [init], by simp [init], by simp [init], by simp [init], by simp [init, upTo], by simp [init],
    by simp [init], by simp [init], by simp [init], by simp [init, leaks]⟩, .over rfl ⟨rfl, rfl, rfl, rfl, rfl, rfl, by simp [init]⟩⟩

theorem inv_step {s s' : St} {e : Ev} (h : Inv s) (hs : step s e = some s') : Inv s' := by
  cases e with
  | start c =>
    simp only [step] at hs
    by_cases hc : s.current = none
    · rw [if_pos hc] at hs; cases hs; exact inv_start h hc c
    · rw [if_neg hc] at hs; cases hs
  | dryDone =>
    simp only [step] at hs
    by_cases hc : s.dryTimer = true
    · rw [if_pos hc] at hs; cases hs
      obtain ⟨hb, hp⟩ := h
      cases hp with
      | dry c a1 a2 a3 a4 a5 a6 a7 a8 a9 =>
        have e0 : Empty { s with dryTimer := false } := ⟨rfl, a4, a5, a6, a7, a8, a9⟩
        refine ⟨base_finish (c := c) (hb.congr rfl rfl rfl rfl rfl rfl rfl rfl hb.reason rfl rfl) a1 ?_ (Or.inl a2) (by simp),
          .over current_finish (empty_finish e0)⟩
        show s.responseFile = false
        cases hr : s.responseFile with
        | false => rfl
        | true =>
          obtain ⟨c', h1, h2⟩ := hb.resp hr
          rw [a1] at h1
          cases h1
          rw [a2] at h2
          cases h2
      | over _ e => simp [e.dryTimer] at hc
      | stuck _ e => simp [e.dryTimer] at hc
      | _ => simp_all
    · rw [if_neg hc] at hs; cases hs
  | socketReady =>
    simp only [step] at hs
    by_cases hc : s.ready = false ∧ s.dead = false
    · rw [if_pos hc] at hs; cases hs; exact inv_socketReady h hc.1 hc.2
    · rw [if_neg hc] at hs; cases hs
  | socketError =>
    simp only [step] at hs
    by_cases hc : s.ready = true
    · rw [if_pos hc] at hs; cases hs; exact inv_socketError h
    · rw [if_neg hc] at hs; cases hs
  | launcherTakes =>
    simp only [step] at hs
    cases hl : s.toLauncher with
    | nil => rw [hl] at hs; cases hs
    | cons r l => rw [hl] at hs; cases hs; exact inv_takes h hl
  | procFails =>
    simp only [step] at hs
    cases hl : s.proc with
    | idle => rw [hl] at hs; cases hs
    | alive n k =>
      rw [hl] at hs; cases hs
      obtain ⟨rfl, a1, a2, a3, a4, a5, a7, a8, a9, a10, a11, a12⟩ := alive_runs h hl
      exact ⟨h.1.congr rfl rfl rfl rfl rfl rfl rfl rfl h.1.reason rfl rfl, .failed a1 a2 a3 a4 a5 rfl (by simp [a7]) a8 a10 rfl a12⟩
  | procExits code crashed =>
    simp only [step] at hs
    cases hl : s.proc with
    | idle => rw [hl] at hs; cases hs
    | alive n k =>
      rw [hl] at hs; cases hs
      obtain ⟨rfl, a1, a2, a3, a4, a5, a7, a8, a9, a10, a11, a12⟩ := alive_runs h hl
      refine ⟨h.1.congr rfl rfl rfl rfl rfl rfl rfl rfl h.1.reason rfl rfl, .done code crashed a1 a2 a3 a4 a5 rfl (by simp [a7]) a8 a10 ?_ a12⟩
      cases crashed
      · exact ⟨.exited code, rfl, rfl⟩
      · exact ⟨.crashed code, rfl, rfl⟩
  | stopTimer =>
    simp only [step] at hs
    cases hl : s.proc with
    | idle => rw [hl] at hs; cases hs
    | alive n k =>
      rw [hl] at hs; simp only at hs
      by_cases hk : k > 0
      · rw [if_pos hk] at hs; cases hs
        obtain ⟨rfl, a1, a2, a3, a4, a5, a7, a8, a9, a10, a11, a12⟩ := alive_runs h hl
        exact inv_launcherCancel h.1 k a1 a2 a3 a4 a5 hl a7 a8 a9 a10 a11 a12
      · rw [if_neg hk] at hs; cases hs
  | deliver =>
    simp only [step] at hs
    cases hl : s.fromLauncher with
    | nil => rw [hl] at hs; cases hs
    | cons r l => rw [hl] at hs; cases hs; exact inv_deliver h hl
  | timeout =>
    simp only [step] at hs
    by_cases hc : s.watchdog = true
    · rw [if_pos hc] at hs; cases hs; exact inv_cancel (inv_expired h) true (fun _ => rfl) (by simp)
    · rw [if_neg hc] at hs; cases hs
  | cancel =>
    simp only [step] at hs
    by_cases hc : s.current.isSome = true
    · rw [if_pos hc] at hs; cases hs; exact inv_cancel (inv_stopped h) false (by simp) (fun _ => rfl)
    · rw [if_neg hc] at hs; cases hs
  | setActive b =>
    simp only [step] at hs
    cases hs; exact inv_active h b
  | delayedError =>
    simp only [step] at hs
    by_cases hc : s.delayedError > 0
    · rw [if_pos hc] at hs; cases hs
      obtain ⟨hb, hp⟩ := h
      cases hp with
      | delayedError a1 a2 a3 a4 a5 a6 a7 a8 a9 a10 =>
        exact inv_error (hb.congr rfl rfl rfl rfl rfl rfl rfl rfl hb.reason rfl rfl) a1 ⟨a2, by simp [a3], a4, a5, a6, a7, a8⟩ a9 a10
      | over _ e => simp [e.e1] at hc
      | stuck _ e => simp [e.e1] at hc
      | _ => simp_all
    · rw [if_neg hc] at hs; cases hs
  | delayedFinished =>
    simp only [step] at hs
    by_cases hc : s.delayedFinished > 0
    · rw [if_pos hc] at hs; cases hs
      obtain ⟨hb, hp⟩ := h
      cases hp with
      | delayedFinished a1 a2 a3 a4 a5 a6 a7 a8 a9 a10 =>
        exact inv_finished (hb.congr rfl rfl rfl rfl rfl rfl rfl rfl hb.reason rfl rfl) a1 ⟨a2, a3, by simp [a4], a5, a6, a7, a8⟩ a9 a10
      | over _ e => simp [e.e2] at hc
      | stuck _ e => simp [e.e2] at hc
      | _ => simp_all
    · rw [if_neg hc] at hs; cases hs

theorem inv_run {s s' : St} {l : List Ev} (h : Inv s) (hr : run s l = some s') : Inv s' := by
  induction l generalizing s with
  | nil => simp only [run, Option.some.injEq] at hr; exact hr ▸ h
  | cons e l ih =>
    simp only [run] at hr
    cases hs : step s e with
    | none => rw [hs] at hr; cases hr
    | some t => rw [hs] at hr; exact ih (inv_step h hs) hr

theorem inv_reachable {s : St} (h : Reachable s) : Inv s := by
  obtain ⟨r, l, hr⟩ := h
  exact inv_run (inv_init r) hr

end Verif.Proc
