import Verif.Sched.Sem
/-!
# C52: the scheduler comes to an end
-/
namespace Verif.Sched

variable {pr : Project}

theorem sum_le {α : Type} {f g : α → Nat} (l : List α) (h : ∀ a ∈ l, f a ≤ g a) : (l.map f).sum ≤ (l.map g).sum := by
  induction l with
  | nil => simp
  | cons a l ih =>
    simp only [List.map_cons, List.sum_cons]
    have h1 := h a List.mem_cons_self
    have h2 := ih (fun b hb => h b (List.mem_cons_of_mem _ hb))
    omega

theorem sum_lt {α : Type} {f g : α → Nat} {l : List α} (h : ∀ a ∈ l, f a ≤ g a) {a : α} (ha : a ∈ l) (hlt : f a < g a) :
    (l.map f).sum < (l.map g).sum := by
  induction l with
  | nil => cases ha
  | cons b l ih =>
    simp only [List.map_cons, List.sum_cons]
    have h1 := h b List.mem_cons_self
    have h2 := sum_le l (fun c hc => h c (List.mem_cons_of_mem _ hc))
    rcases List.mem_cons.mp ha with rfl | ha
    · omega
    · have := ih (fun c hc => h c (List.mem_cons_of_mem _ hc)) ha
      omega

theorem sum_erase {α : Type} [BEq α] [LawfulBEq α] {l : List α} {a : α} (f : α → Nat) (h : a ∈ l) :
    (l.map f).sum = f a + ((l.erase a).map f).sum := by
  have := ((List.perm_cons_erase h).map f).sum_nat
  rw [this, List.map_cons, List.sum_cons]

/-- How many dependencies by type are there? -/
def bulks (items : List Item) : Nat := items.countP (fun i => match i with | .bulk _ => true | _ => false)

/-- The dependency that has been waited for is there. -/
def freed (s : State) (p : P) : Bool :=
  !s.failed p && (match s.todo p with
    | .single q _ :: _ => !s.toHandle.contains q
    | _ => false)

def rankRun (s : State) (t : Thread) : Nat :=
  match t.phase with
  | .resolving => if t.allowed then 6 else 0
  | .stage2 => if freed s t.p then 10 else 5
  | .done => if freed s t.p then 9 else 4

def rankQueue (s : State) (e : P × Option L × Option Nat) : Nat := if mayDefer s e.2.2 then 8 else 2

def rankState (e : L × P × Bool) : Nat := if e.2.2 then 7 else 1

def rank (s : State) : Nat :=
  (s.queue.map (rankQueue s)).sum + 3 * s.waitBulk.length + (s.waitState.map rankState).sum +
    (s.running.map (rankRun s)).sum

def sumBulks (s : State) : Nat := (s.toHandle.map (fun p => bulks (s.todo p))).sum

def sumTodo (s : State) : Nat := (s.toHandle.map (fun p => (s.todo p).length)).sum

/-- What gets smaller. -/
def size (s : State) : Nat × Nat × Nat × Nat × Nat := (s.toHandle.length, sumBulks s, sumTodo s, s.maxJobs, rank s)

def Smaller : Nat × Nat × Nat × Nat × Nat → Nat × Nat × Nat × Nat × Nat → Prop :=
  Prod.Lex (· < ·) (Prod.Lex (· < ·) (Prod.Lex (· < ·) (Prod.Lex (· < ·) (· < ·))))

theorem smaller_wf : WellFounded Smaller :=
  (Prod.lex Nat.lt_wfRel (Prod.lex Nat.lt_wfRel (Prod.lex Nat.lt_wfRel (Prod.lex Nat.lt_wfRel Nat.lt_wfRel)))).wf

theorem smaller_iff {a b : Nat × Nat × Nat × Nat × Nat} : Smaller a b ↔
    a.1 < b.1 ∨ (a.1 = b.1 ∧ (a.2.1 < b.2.1 ∨ (a.2.1 = b.2.1 ∧ (a.2.2.1 < b.2.2.1 ∨ (a.2.2.1 = b.2.2.1 ∧
      (a.2.2.2.1 < b.2.2.2.1 ∨ (a.2.2.2.1 = b.2.2.2.1 ∧ a.2.2.2.2 < b.2.2.2.2))))))) := by
  unfold Smaller
  rw [Prod.lex_def, Prod.lex_def, Prod.lex_def, Prod.lex_def]

/-- A step that leaves the dependencies as they are. -/
theorem smaller_rank {s s' : State} (h1 : s'.toHandle = s.toHandle) (h2 : s'.todo = s.todo)
    (h3 : s'.maxJobs < s.maxJobs ∨ (s'.maxJobs = s.maxJobs ∧ rank s' < rank s)) : Smaller (size s') (size s) := by
  rw [smaller_iff]
  unfold size sumBulks sumTodo
  simp only [h1, h2]
  exact Or.inr ⟨trivial, Or.inr ⟨trivial, Or.inr ⟨trivial, h3⟩⟩⟩

theorem smaller_bulks {s s' : State} {p : P} {rest : List Item} (h1 : s'.toHandle = s.toHandle)
    (h2 : s'.todo = upd s.todo p rest) (hp : p ∈ s.toHandle) (h3 : bulks rest < bulks (s.todo p)) :
    Smaller (size s') (size s) := by
  rw [smaller_iff]
  refine Or.inr ⟨by show s'.toHandle.length = s.toHandle.length; rw [h1], Or.inl ?_⟩
  show sumBulks s' < sumBulks s
  unfold sumBulks
  rw [h1, h2]
  apply sum_lt _ hp
  · rw [upd_self]; exact h3
  · intro q _
    by_cases hq : q = p
    · subst hq; rw [upd_self]; omega
    · rw [upd_ne hq]; exact Nat.le_refl _

theorem smaller_todo {s s' : State} {p : P} {i : Item} {rest : List Item} (h1 : s'.toHandle = s.toHandle)
    (h2 : s'.todo = upd s.todo p rest) (hp : p ∈ s.toHandle) (h3 : s.todo p = i :: rest) :
    Smaller (size s') (size s) := by
  have hle : bulks rest ≤ bulks (s.todo p) := by
    rw [h3]
    unfold bulks
    rw [List.countP_cons]
    omega
  rw [smaller_iff]
  refine Or.inr ⟨by show s'.toHandle.length = s.toHandle.length; rw [h1], ?_⟩
  show sumBulks s' < sumBulks s ∨ sumBulks s' = sumBulks s ∧ (sumTodo s' < sumTodo s ∨ _)
  have ha : sumBulks s' ≤ sumBulks s := by
    unfold sumBulks
    rw [h1, h2]
    apply sum_le
    intro q _
    by_cases hq : q = p
    · subst hq; rw [upd_self]; exact hle
    · rw [upd_ne hq]; exact Nat.le_refl _
  have hb : sumTodo s' < sumTodo s := by
    unfold sumTodo
    rw [h1, h2]
    apply sum_lt _ hp
    · rw [upd_self, h3]; simp
    · intro q _
      by_cases hq : q = p
      · subst hq; rw [upd_self, h3]; simp
      · rw [upd_ne hq]; exact Nat.le_refl _
  rcases Nat.lt_or_eq_of_le ha with h | h
  · exact Or.inl h
  · exact Or.inr ⟨h, Or.inl hb⟩

theorem rank_setThread {s : State} {t : Thread} (ht : t ∈ s.running) (hu : ∀ u ∈ s.running, u.p = t.p → u = t)
    {phase : Phase} {s' : State} (hq : s'.queue = s.queue) (hwb : s'.waitBulk = s.waitBulk)
    (hws : s'.waitState = s.waitState) (hr : s'.running = (setThread s t.p t.allowed phase).running)
    (hth : s'.toHandle = s.toHandle) (htd : s'.todo = s.todo) (hf : s'.failed = s.failed)
    (hlt : rankRun s { t with phase := phase } < rankRun s t) : rank s' < rank s := by
  have h1 : rankQueue s' = rankQueue s := by
    funext e; unfold rankQueue mayDefer; rw [hth]
  have h2 : ∀ u, rankRun s' u = rankRun s u := by
    intro u; unfold rankRun freed; rw [hth, htd, hf]
  unfold rank
  rw [hq, hwb, hws, hr, h1]
  have : ((setThread s t.p t.allowed phase).running.map (rankRun s')).sum < (s.running.map (rankRun s)).sum := by
    unfold setThread
    rw [List.map_map]
    apply sum_lt _ ht
    · show rankRun s' (if t.p = t.p then _ else _) < _
      rw [if_pos rfl, h2]
      exact hlt
    · intro u hum
      show rankRun s' (if u.p = t.p then _ else _) ≤ _
      by_cases hup : u.p = t.p
      · rw [if_pos hup, h2, hu u hum hup]
        omega
      · rw [if_neg hup, h2]
        exact Nat.le_refl _
  omega

theorem freed_eq {s : State} {p : P} (h : s.todo p = [] ∨ s.failed p = true ∨ (∃ ts rest, s.todo p = .bulk ts :: rest) ∨
    ∃ q r rest, s.todo p = .single q r :: rest ∧ q ∈ s.toHandle) : freed s p = false := by
  unfold freed
  rcases h with h | h | ⟨ts, rest, h⟩ | ⟨q, r, rest, h, hq⟩
  · rw [h]; simp
  · rw [h]; simp
  · rw [h]; simp
  · rw [h]
    simp only [List.contains_iff_mem.mpr hq]
    simp

theorem smaller_work {s : State} (hpr : pr.Ok) (hi : Inv pr s [] []) {t : Thread} (ht : t ∈ s.running)
    (hph : t.phase = .resolving) : Smaller (size (work pr s t)) (size s) := by
  obtain ⟨hth, hu, -⟩ := hi.unique hpr ht
  obtain ⟨allowed, phase, rest, b, dis, ty, dp, he, hw⟩ := work_effect hpr hi ht hph
  rw [hw]
  have hall : s.todo t.p = [] ∨ (∃ q r rest, s.todo t.p = .single q r :: rest) → t.allowed = true := by
    intro hx
    apply Classical.byContradiction
    intro hn
    have := (hi.runForced t ht ((Bool.not_eq_true _).mp hn)).2.head
    rcases hx with hx | ⟨q, r, rest, hx⟩ <;> rw [hx] at this <;> exact this
  have hrank : ∀ phase, (phase = .stage2 ∨ phase = .done) → t.allowed = true → freed s t.p = false →
      rankRun s { t with phase := phase } < rankRun s t := by
    intro phase hp ha hf
    have h1 : rankRun s t = 6 := by
      unfold rankRun
      rw [hph, ha]
      rfl
    rw [h1]
    unfold rankRun
    rcases hp with rfl | rfl
    · simp only [hf]; simp
    · simp only [hf]; simp
  have hfs : (if s.failed t.p then Phase.stage2 else .done) = .stage2 ∨
      (if s.failed t.p then Phase.stage2 else .done) = .done := by
    split
    · exact Or.inl rfl
    · exact Or.inr rfl
  have go : ∀ (phase : Phase) (s' : State), (phase = .stage2 ∨ phase = .done) → s'.queue = s.queue →
      s'.waitBulk = s.waitBulk → s'.waitState = s.waitState →
      s'.running = (setThread s t.p t.allowed phase).running → s'.toHandle = s.toHandle → s'.todo = s.todo →
      s'.failed = s.failed → s'.maxJobs = s.maxJobs → t.allowed = true → freed s t.p = false →
      Smaller (size s') (size s) := by
    intro phase s' hp h1 h2 h3 h4 h5 h6 h7 h8 h9 h10
    exact smaller_rank h5 h6 (Or.inr ⟨h8, rank_setThread ht hu h1 h2 h3 h4 h5 h6 h7 (hrank phase hp h9 h10)⟩)
  cases he with
  | disabled htd hc =>
    refine go .stage2 _ (Or.inl rfl) rfl rfl rfl rfl rfl ?_ (upd_same _ _) rfl (hall (Or.inl htd)) (freed_eq (Or.inl htd))
    show upd s.todo t.p [] = s.todo
    rw [← htd]; exact upd_same _ _
  | good htd hf he =>
    refine go .stage2 _ (Or.inl rfl) rfl rfl rfl rfl rfl ?_ (upd_same _ _) rfl (hall (Or.inl htd)) (freed_eq (Or.inl htd))
    show upd s.todo t.p [] = s.todo
    rw [← htd]; exact upd_same _ _
  | self htd => exact smaller_todo rfl rfl hth htd
  | pending htd hq hqh ha =>
    exact go _ _ hfs rfl rfl rfl rfl rfl (upd_same _ _) (upd_same _ _) rfl ha
      (freed_eq (Or.inr (Or.inr (Or.inr ⟨_, _, _, htd, hqh⟩))))
  | required htd hq hqh hqd => exact smaller_todo rfl rfl hth htd
  | optional htd hq hqh hqd => exact smaller_todo rfl rfl hth htd
  | ok htd hq hqh hqd => exact smaller_todo rfl rfl hth htd
  | bulk htd ha =>
    exact go _ _ hfs rfl rfl rfl rfl rfl (upd_same _ _) (upd_same _ _) rfl ha
      (freed_eq (Or.inr (Or.inr (Or.inl ⟨_, _, htd⟩))))
  | @expand types rest htd ha =>
    refine smaller_bulks (s := s) rfl rfl hth ?_
    rw [htd]
    unfold bulks
    rw [List.countP_append, List.countP_cons]
    have : ((matching pr s t.p types).map (fun q => Item.single q true)).countP
        (fun i => match i with | .bulk _ => true | _ => false) = 0 := by
      rw [List.countP_eq_zero]
      intro i hm
      obtain ⟨q, _, rfl⟩ := List.mem_map.mp hm
      simp
    rw [this]
    simp

theorem smaller_stage2 {s : State} (hpr : pr.Ok) (hi : Inv pr s [] []) {t : Thread} (ht : t ∈ s.running)
    (hph : t.phase = .stage2) : Smaller (size (setThread s t.p t.allowed .done)) (size s) := by
  obtain ⟨hth, hu, -⟩ := hi.unique hpr ht
  refine smaller_rank rfl rfl (Or.inr ⟨rfl, rank_setThread ht hu rfl rfl rfl rfl rfl rfl rfl ?_⟩)
  unfold rankRun
  rw [hph]
  simp only []
  split <;> omega

theorem rank_start {s : State} {ok : Bool} {p : P} {l : L} {allowed : Bool}
    (hf : allowed = false → s.failed p = false) : (ok = true → (start s ok p l allowed).maxJobs = s.maxJobs ∧
      rank (start s ok p l allowed) + (if allowed then 1 else 0) ≤ rank s + (if allowed then 7 else 0)) ∧
    (ok = false → (start s ok p l allowed).maxJobs = if 2 ≤ s.maxJobs then s.maxJobs / 2 else s.maxJobs) := by
  unfold start
  constructor
  · intro hok
    rw [if_pos hok]
    refine ⟨rfl, ?_⟩
    have hr : ∀ u : Thread, rank { s with running := s.running ++ [u] } = rank s + rankRun s u := by
      intro u
      have : rank { s with running := s.running ++ [u] } = (s.queue.map (rankQueue s)).sum + 3 * s.waitBulk.length +
        (s.waitState.map rankState).sum + ((s.running ++ [u]).map (rankRun s)).sum := rfl
      rw [this]
      simp only [List.map_append, List.sum_append, List.map_cons, List.map_nil, List.sum_cons, List.sum_nil]
      unfold rank
      omega
    rw [hr]
    have : rankRun s ⟨p, l, allowed, if s.failed p then .stage2 else .resolving⟩ ≤ if allowed then 6 else 0 := by
      unfold rankRun
      by_cases hfp : s.failed p = true
      · rw [if_pos hfp]
        simp only []
        have ha : allowed = true := by
          cases allowed with
          | true => rfl
          | false => rw [hf rfl] at hfp; cases hfp
        rw [ha, freed_eq (Or.inr (Or.inl hfp))]
        simp
      · rw [if_neg hfp]
        simp only []
        exact Nat.le_refl _
    by_cases ha : allowed = true
    · rw [if_pos ha] at this
      rw [if_pos ha, if_pos ha]
      omega
    · rw [if_neg ha] at this
      rw [if_neg ha, if_neg ha]
      omega
  · intro hok
    rw [if_neg (by rw [hok]; simp)]

theorem smaller_schedule {s : State} (hi : Inv pr s [] []) (hj : s.running.length < s.maxJobs) {ok : Bool}
    {e : P × Option L × Option Nat} {rest : List (P × Option L × Option Nat)} (hq : s.queue = e :: rest)
    (hok : ok = true ∨ 2 ≤ s.maxJobs) : Smaller (size (schedule s ok e rest)) (size s) := by
  have he : e ∈ s.queue := by rw [hq]; exact List.mem_cons_self
  have hforced : mayDefer s e.2.2 = false → s.failed e.1 = false := by
    intro hf
    refine (hi.queueForced e he ?_).ok
    intro hn
    rw [hn] at hf
    cases hf
  have hlen : s.avail ≠ [] := by
    intro hav
    have hperm : (s.running.map (·.l)).Perm pr.states := by
      rw [List.perm_iff_count]
      intro l
      have := hi.states l
      rw [hav] at this
      simpa using this
    have := hperm.length_eq
    rw [List.length_map] at this
    have := hi.jobs
    omega
  have hrank : ∀ av : List L, rank { s with queue := rest, avail := av } + (if mayDefer s e.2.2 then 8 else 2) =
      rank s := by
    intro av
    have h1 : rank { s with queue := rest, avail := av } = (rest.map (rankQueue s)).sum + 3 * s.waitBulk.length +
        (s.waitState.map rankState).sum + (s.running.map (rankRun s)).sum := rfl
    rw [h1]
    unfold rank
    rw [hq]
    simp only [List.map_cons, List.sum_cons]
    have : rankQueue s e = if mayDefer s e.2.2 then 8 else 2 := rfl
    omega
  have go : ∀ (av : List L) (l : L),
      Smaller (size (start { s with queue := rest, avail := av } ok e.1 l (mayDefer s e.2.2))) (size s) := by
    intro av l
    obtain ⟨h1, -, -, h4, -⟩ := start_fields { s with queue := rest, avail := av } ok e.1 l (mayDefer s e.2.2)
    refine smaller_rank (s := s) h4 h1 ?_
    obtain ⟨hs1, hs2⟩ := rank_start (s := { s with queue := rest, avail := av }) (ok := ok) (p := e.1) (l := l)
      (allowed := mayDefer s e.2.2) hforced
    cases ok with
    | true =>
      obtain ⟨hm, hle⟩ := hs1 rfl
      have hr := hrank av
      refine Or.inr ⟨hm, ?_⟩
      cases hmd : mayDefer s e.2.2 with
      | true => rw [hmd] at hle hr; simp only [if_true] at hle hr; omega
      | false => rw [hmd] at hle hr; simp only [Bool.false_eq_true, if_false] at hle hr; omega
    | false =>
      have h2 : 2 ≤ s.maxJobs := hok.resolve_left (by simp)
      have := hs2 rfl
      rw [this]
      refine Or.inl ?_
      show (if 2 ≤ s.maxJobs then s.maxJobs / 2 else s.maxJobs) < s.maxJobs
      rw [if_pos h2]
      omega
  unfold schedule
  simp only []
  cases hlast : s.avail.getLast? with
  | none => exact absurd (List.getLast?_eq_none_iff.mp hlast) hlen
  | some last =>
    simp only []
    cases hl : e.2.1 with
    | none => exact go _ _
    | some l =>
      simp only []
      by_cases hc : s.avail.contains l = true
      · rw [if_pos hc]
        exact go _ _
      · rw [if_neg hc]
        refine smaller_rank (s := s) rfl rfl ?_
        refine Or.inr ⟨rfl, ?_⟩
        have hr := hrank s.avail
        have h1 : rank { s with queue := rest, avail := s.avail } = (rest.map (rankQueue s)).sum +
          3 * s.waitBulk.length + (s.waitState.map rankState).sum + (s.running.map (rankRun s)).sum := rfl
        have h2 : ∀ w, rank { s with queue := rest, waitState := w } = (rest.map (rankQueue s)).sum +
          3 * s.waitBulk.length + (w.map rankState).sum + (s.running.map (rankRun s)).sum := fun _ => rfl
        rw [h1] at hr
        rw [h2]
        simp only [List.map_append, List.sum_append, List.map_cons, List.map_nil, List.sum_cons, List.sum_nil]
        have h3 : rankState (l, e.1, mayDefer s e.2.2) = if mayDefer s e.2.2 then 7 else 1 := rfl
        rw [h3]
        cases hmd : mayDefer s e.2.2 with
        | true => rw [hmd] at hr; simp only [if_true] at hr ⊢; omega
        | false => rw [hmd] at hr; simp only [Bool.false_eq_true, if_false] at hr ⊢; omega

theorem smaller_bulk {s : State} (hr : s.running = []) (hq : s.queue = []) (hne : s.waitBulk ≠ []) :
    Smaller (size (scheduleBulk s)) (size s) := by
  refine smaller_rank (s := s) rfl rfl ?_
  refine Or.inr ⟨rfl, ?_⟩
  have h1 : rank (scheduleBulk s) =
      ((s.waitBulk.map (fun e => (e.1, some e.2, some s.toHandle.length))).map (rankQueue s)).sum + 3 * 0 +
      (s.waitState.map rankState).sum + (s.running.map (rankRun s)).sum := rfl
  have h2 : ∀ l : List (P × L),
      ((l.map (fun e => (e.1, some e.2, some s.toHandle.length))).map (rankQueue s)).sum = 2 * l.length := by
    intro l
    induction l with
    | nil => rfl
    | cons a l ih =>
      rw [List.map_cons, List.map_cons, List.sum_cons, ih, List.length_cons]
      have : rankQueue s (a.1, some a.2, some s.toHandle.length) = 2 := by
        unfold rankQueue mayDefer
        simp
      omega
  rw [h1, h2]
  unfold rank
  rw [hq, hr]
  simp only [List.map_nil, List.sum_nil]
  have h2 : 0 < s.waitBulk.length := List.length_pos_iff.mpr hne
  omega

theorem release_rank {s : State} {ok : Bool} {l : L} (hw : ∀ e ∈ s.waitState, e.2.2 = false → s.failed e.2.1 = false)
    (hok : ok = true ∨ 2 ≤ s.maxJobs) : (release s ok l).maxJobs < s.maxJobs ∨
      ((release s ok l).maxJobs = s.maxJobs ∧ rank (release s ok l) ≤ rank s) := by
  unfold release
  cases hf : s.waitState.find? (fun e => e.1 == l) with
  | none => exact Or.inr ⟨rfl, Nat.le_refl _⟩
  | some e =>
    simp only []
    have he := List.mem_of_find?_eq_some hf
    obtain ⟨hs1, hs2⟩ := rank_start (s := { s with waitState := s.waitState.erase e }) (ok := ok) (p := e.2.1) (l := l)
      (allowed := e.2.2) (hw e he)
    cases ok with
    | true =>
      obtain ⟨hm, hle⟩ := hs1 rfl
      refine Or.inr ⟨hm, ?_⟩
      have hr : rank s = rank { s with waitState := s.waitState.erase e } + rankState e := by
        have h3 := sum_erase rankState he
        have h1 : ∀ w, rank { s with waitState := w } = (s.queue.map (rankQueue s)).sum +
          3 * s.waitBulk.length + (w.map rankState).sum + (s.running.map (rankRun s)).sum := fun _ => rfl
        rw [h1 (s.waitState.erase e)]
        unfold rank
        omega
      rw [hr]
      have h4 : rankState e = if e.2.2 then 7 else 1 := rfl
      rw [h4]
      cases hmd : e.2.2 with
      | true => rw [hmd] at hle; simp only [if_true] at hle ⊢; omega
      | false => rw [hmd] at hle; simp only [Bool.false_eq_true, if_false] at hle ⊢; omega
    | false =>
      have h2 : 2 ≤ s.maxJobs := hok.resolve_left (by simp)
      have := hs2 rfl
      rw [this]
      refine Or.inl ?_
      show (if 2 ≤ s.maxJobs then s.maxJobs / 2 else s.maxJobs) < s.maxJobs
      rw [if_pos h2]
      omega

theorem smaller_handle {s : State} (hpr : pr.Ok) (hi : Inv pr s [] []) {t : Thread} (ht : t ∈ s.running)
    (hph : t.phase = .done) {ok : Bool} (hok : ok = true ∨ 2 ≤ s.maxJobs) :
    Smaller (size (handle pr s ok t)) (size s) := by
  have hth := (hi.unique hpr ht).1
  have hf := release_fields { s with running := s.running.erase t } ok t.l
  have hrel := release_rank (s := { s with running := s.running.erase t }) (ok := ok) (l := t.l)
    (fun e he ha => (hi.stateForced e he ha).ok) hok
  have hrank : rank s = rank { s with running := s.running.erase t } + rankRun s t := by
    have h3 := sum_erase (rankRun s) ht
    have h1 : ∀ w, rank { s with running := w } = (s.queue.map (rankQueue s)).sum +
      3 * s.waitBulk.length + (s.waitState.map rankState).sum + (w.map (rankRun s)).sum := fun _ => rfl
    rw [h1 (s.running.erase t)]
    unfold rank
    omega
  unfold handle
  simp only []
  generalize hrs : release { s with running := s.running.erase t } ok t.l = s1 at *
  by_cases hc : (decide (s1.todo t.p = []) || s1.failed t.p || s1.finished.contains t.p) = true
  · rw [if_pos hc, smaller_iff]
    refine Or.inl ?_
    show (s1.toHandle.erase t.p).length < s.toHandle.length
    rw [hf.2.2.2.1]
    show (s.toHandle.erase t.p).length < s.toHandle.length
    rw [List.length_erase_of_mem hth]
    have := List.length_pos_of_mem hth
    omega
  · rw [if_neg hc]
    simp only [Bool.or_eq_true, decide_eq_true_eq, not_or, Bool.not_eq_true] at hc
    obtain ⟨g1, g2, g3, g4, g5, g6, g7, g8, g9⟩ := wait_fields s1 t.p t.l (s1.todo t.p)
    refine smaller_rank (s := s) (g4.trans hf.2.2.2.1) (g1.trans hf.1) ?_
    have hmax : (wait s1 t.p t.l (s1.todo t.p)).maxJobs = s1.maxJobs := by
      unfold wait
      split
      · split <;> rfl
      · rfl
      · rfl
    rw [hmax]
    rcases hrel with hrel | ⟨h1, h2⟩
    · exact Or.inl hrel
    · refine Or.inr ⟨h1, ?_⟩
      have hsf : s.failed t.p = false := by
        have : s1.failed = s.failed := hf.2.1
        rw [← this]; exact hc.1.2
      have hst : s1.todo t.p = s.todo t.p := by rw [hf.1]
      have hsh : s1.toHandle = s.toHandle := hf.2.2.2.1
      cases htd : s1.todo t.p with
      | nil => exact absurd htd hc.1.1
      | cons i rest =>
        cases i with
        | bulk ts =>
          have hf0 : freed s t.p = false := freed_eq (Or.inr (Or.inr (Or.inl ⟨ts, rest, by rw [← hst, htd]⟩)))
          have hrt : rankRun s t = 4 := by
            unfold rankRun; rw [hph, hf0]; rfl
          have : rank (wait s1 t.p t.l (.bulk ts :: rest)) = rank s1 + 3 := by
            have e1 : rank (wait s1 t.p t.l (.bulk ts :: rest)) = (s1.queue.map (rankQueue s1)).sum +
              3 * (s1.waitBulk ++ [(t.p, t.l)]).length + (s1.waitState.map rankState).sum +
              (s1.running.map (rankRun s1)).sum := rfl
            rw [e1, List.length_append, List.length_singleton]
            unfold rank
            omega
          rw [this]
          omega
        | single q r =>
          unfold wait
          simp only []
          by_cases hqh : s1.toHandle.contains q = true
          · rw [if_pos hqh]
            have hf0 : freed s t.p = false := freed_eq (Or.inr (Or.inr (Or.inr ⟨q, r, rest, by rw [← hst, htd], by
              rw [← hsh]; exact List.contains_iff_mem.mp hqh⟩)))
            have hrt : rankRun s t = 4 := by
              unfold rankRun; rw [hph, hf0]; rfl
            have : rank { s1 with waitSingle := s1.waitSingle ++ [(q, t.p, t.l)] } = rank s1 := rfl
            rw [this]
            omega
          · rw [if_neg hqh]
            have hf1 : freed s t.p = true := by
              unfold freed
              rw [hsf, ← hst, htd, ← hsh]
              simp only []
              rw [(Bool.not_eq_true _).mp hqh]
              rfl
            have hrt : rankRun s t = 9 := by
              unfold rankRun; rw [hph, hf1]; rfl
            have : rank { s1 with queue := s1.queue ++ [(t.p, some t.l, none)] } = rank s1 + 8 := by
              have e1 : ∀ w, rank { s1 with queue := w } = (w.map (rankQueue s1)).sum +
                3 * s1.waitBulk.length + (s1.waitState.map rankState).sum + (s1.running.map (rankRun s1)).sum :=
                fun _ => rfl
              rw [e1]
              unfold rank
              simp only [List.map_append, List.sum_append, List.map_cons, List.map_nil, List.sum_cons, List.sum_nil]
              have : rankQueue s1 (t.p, some t.l, none) = 8 := rfl
              omega
            rw [this]
            omega

theorem smaller_step {s s' : State} (hpr : pr.Ok) (hac : Acyclic pr) (hi : Inv pr s [] []) {ok : Bool}
    (hs : Step pr ok s s') (hok : ok = true ∨ 2 ≤ s.maxJobs) : Smaller (size s') (size s) := by
  cases hs with
  | work t ht hph => exact smaller_work hpr hi ht hph
  | stage2 t ht hph => exact smaller_stage2 hpr hi ht hph
  | handle t _ ht hph => exact smaller_handle hpr hi ht hph hok
  | schedule _ e rest hj hq => exact smaller_schedule hi hj hq hok
  | bulk hr hq hne => exact smaller_bulk hr hq hne
  | single order hr hq hb hne _ => exact absurd (hi.no_single hpr hac hr hq hb).1 hne

end Verif.Sched
