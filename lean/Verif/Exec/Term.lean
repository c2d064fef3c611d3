import Verif.Exec.Progress

/-
The liveness invariant holds initially; every execution is finite; no state before the end is stuck.
-/

namespace Verif.Exec

/-! ### Initial state -/

theorem initial_live (cfg : Cfg) (g : Graph) (roots : List Node) (hw : WF g) (ha : Acyclic g)
    (hr : ∀ n ∈ roots, n ∈ g.nodes) :
    LInv (fun n => n ∈ roots ∨ n ∉ g.nodes) none (initial cfg g roots) := by
  have hbs0 : ∀ m, roots.foldl (prepare g (g.nodes.length + 1)) (fun _ => .untouched) m = .untouched ∨
      roots.foldl (prepare g (g.nodes.length + 1)) (fun _ => .untouched) m = .buildable := by
    have : ∀ (l : List Node) (b : Node → BState), (∀ m, b m = .untouched ∨ b m = .buildable) →
        ∀ m, l.foldl (prepare g (g.nodes.length + 1)) b m = .untouched ∨
          l.foldl (prepare g (g.nodes.length + 1)) b m = .buildable := by
      intro l
      induction l with
      | nil => exact fun b hb => hb
      | cons c l ih => exact fun b hb => ih _ (prepare_ok g _ b c hb)
    exact this roots _ (fun _ => .inl rfl)
  have prep : ∀ (S : Node → Prop), (∀ n, S n → ∀ c ∈ g.children n, S c) → ∀ (l : List Node)
      (b : Node → BState), (∀ n ∈ l, n ∈ g.nodes ∧ S n) →
      PrepOk g S b (l.foldl (prepare g (g.nodes.length + 1)) b) ∧
      ∀ n ∈ l, l.foldl (prepare g (g.nodes.length + 1)) b n ≠ .untouched := by
    intro S hS l
    induction l with
    | nil =>
      exact fun b _ => ⟨⟨fun _ => .inl rfl, fun m hm hm' => absurd hm hm'⟩,
        fun n hn => by simp at hn⟩
    | cons c l ih =>
      intro b hl
      rw [List.foldl_cons]
      have hu : untouchedCount g b ≤ g.nodes.length + 1 := by
        have : untouchedCount g b ≤ g.nodes.length := List.length_filter_le _ _
        omega
      obtain ⟨p1, p2⟩ := prepare_closed g hw.closed S hS _ b c (hl c (by simp)).1 (hl c (by simp)).2 hu
      obtain ⟨i1, i2⟩ := ih (prepare g (g.nodes.length + 1) b c) (fun d hd => hl d (by simp [hd]))
      refine ⟨p1.trans i1, fun d hd => ?_⟩
      rcases List.mem_cons.mp hd with rfl | hd
      · exact i1.touch p2
      · exact i2 d hd
  unfold initial
  dsimp only
  generalize hbs : roots.foldl (prepare g (g.nodes.length + 1)) (fun _ => .untouched) = bs at *
  obtain ⟨seen, v, w⟩ := updateLeaves_closed
    { g, bs, leaves := [], delayed := [], avail := List.range cfg.maxJobs, proc := []
      live := fun _ => false, count := fun _ => 0, st := .running, explicitly := false
      cancelRequested := false, fromFinishJob := false, phase := .scheduling, log := [] }
    roots hw.closed hr
  have hnb : ∀ n, bs n ≠ .built := fun n => by rcases hbs0 n with e | e <;> simp [e]
  generalize hs : updateLeaves
    { g, bs, leaves := [], delayed := [], avail := List.range cfg.maxJobs, proc := []
      live := fun _ => false, count := fun _ => 0, st := .running, explicitly := false
      cancelRequested := false, fromFinishJob := false, phase := .scheduling, log := [] }
    roots = s at v
  have f : s.g = g ∧ s.delayed = [] ∧ s.proc = [] ∧ s.log = [] ∧ s.phase = .scheduling := by
    rw [← hs]; exact ⟨rfl, rfl, rfl, rfl, rfl⟩
  obtain ⟨f1, f2, f3, f4, f5⟩ := f
  dsimp only at v w
  have hsc : ∀ n ∈ seen, ∀ c ∈ g.children n, c ∈ seen := fun n hn c hc => by
    rcases v.children n hn (by simp) c hc with hb | hb
    · exact absurd ((v.built c).mp hb) (hnb c)
    · exact hb
  obtain ⟨q1, q2⟩ := prep (· ∈ seen) hsc roots (fun _ => .untouched) (fun n hn => ⟨hr n hn, w n hn⟩)
  rw [hbs] at q1 q2
  have touchedSeen : ∀ n, s.bs n ≠ .untouched → n ∈ seen := fun n hn => by
    rcases v.bs n with e | ⟨_, _, e⟩
    · dsimp only at e
      rw [e] at hn
      rcases q1.bs n with e' | ⟨_, _, e'⟩
      · exact absurd e' hn
      · exact e'
    · exact e
  refine
    { acyclic := f1 ▸ ha
      fwd := fun _ n hn _ hb => ?_
      closed := fun _ n hn hb c hc => ?_
      building := fun _ n hn hb => ?_
      roots := fun _ n hnr hng => v.touched n (w n (hnr.resolve_right fun h => h (f1 ▸ hng))) (by simp)
      quiet := fun _ hp => by rw [f5] at hp; simp at hp
      delayed := fun _ _ => f2 }
  · have hns := touchedSeen n (by rw [hb]; simp)
    rw [f1]
    by_cases hall : ∀ c ∈ g.children n, s.bs c = .built
    · exact .inl (v.queued n hns (by simp) hall)
    · right; right
      refine Classical.byContradiction fun hne => hall fun c hc => ?_
      exact Classical.byContradiction fun hcb => hne ⟨c, hc, hcb⟩
  · rw [f1] at hc
    exact v.touched c (hsc n (touchedSeen n hb) c hc) (by simp)
  · exfalso
    rcases v.bs n with e | ⟨_, e, _⟩
    · dsimp only at e
      rw [e] at hb
      rcases hbs0 n with e' | e' <;> simp [e'] at hb
    · dsimp only at e
      rw [e] at hb; simp at hb

theorem reach_live {cfg : Cfg} {C : St → Node → Effect → Prop}
    (hC : ∀ s r e, C s r e → LiveEffect s r e) {g : Graph} {roots : List Node} (hw : WF g)
    (ha : Acyclic g) (hr : ∀ n ∈ roots, n ∈ g.nodes) {s : St} (h : Reach cfg C g roots s) :
    LInv (fun n => n ∈ roots ∨ n ∉ g.nodes) none s := by
  induction h with
  | init => exact initial_live cfg g roots hw ha hr
  | step s s' hreach hstep ih =>
    obtain ⟨i1, i2⟩ := reach_inv (fun s r e h => (hC s r e h).toSafeEffect) hw hr hreach
    exact step_live hC i1 i2 ih hstep

/-! ### The end of a build -/

/-- When a build ends undisturbed, whatever is part of the build is done or needs something whose
    commands failed. -/
theorem final_complete {roots : Node → Prop} {s : St} (hi : Inv none s) (h : LInv roots none s)
    (hcl : Clean s.log) (hph : s.phase = .done) : ∀ n ∈ s.g.nodes, s.bs n ≠ .untouched →
      s.bs n = .built ∨ ∃ m ∈ s.g.nodes, DependsOn s.g n m ∧ s.g.kind m = .gen ∧
        Ev.failed (s.g.tr m) ∈ s.log := by
  obtain ⟨rank, hrank⟩ := h.acyclic
  have hproc := hi.pending (.inr hph)
  have hlv := h.quiet hcl (.inr hph)
  have hdl := h.delayed hcl (by simp [hph])
  have key : ∀ k n, rank n < k → n ∈ s.g.nodes → s.bs n ≠ .untouched → s.bs n = .built ∨
      ∃ m ∈ s.g.nodes, DependsOn s.g n m ∧ s.g.kind m = .gen ∧ Ev.failed (s.g.tr m) ∈ s.log := by
    intro k
    induction k with
    | zero => intro n hlt; omega
    | succ k ih =>
      intro n hlt hn hb
      cases hbn : s.bs n with
      | untouched => exact absurd hbn hb
      | built => exact .inl rfl
      | building =>
        obtain ⟨k1, k2⟩ := h.building hcl n hn hbn
        rcases k2 with ⟨j, hj⟩ | hf
        · rw [hproc] at hj; simp at hj
        · exact .inr ⟨n, hn, .refl, k1, hf⟩
      | buildable =>
        rcases h.fwd hcl n hn (by simp) hbn with hl | hd | ⟨c, hc, hcb⟩
        · rw [hlv] at hl; simp at hl
        · rw [hdl] at hd; simp at hd
        · have hcn := hi.wf.closed n hn c hc
          have hr := hrank n hn c hc
          rcases ih c (by omega) hcn (h.closed hcl n hn hb c hc) with hbc | ⟨m, m1, m2, m3⟩
          · exact absurd hbc hcb
          · right
            refine ⟨m, m1, ?_, m3⟩
            clear m3 m1
            induction m2 with
            | refl => exact .step n c .refl hc
            | step p q _ hq ihp => exact .step p q ihp hq
  intro n hn hb
  exact key (rank n + 1) n (by omega) hn hb

/-- Everything a touched node depends on is touched. -/
theorem touched_deps {roots : Node → Prop} {s : St} (hi : Inv none s) (h : LInv roots none s)
    (hcl : Clean s.log) {n m : Node} (hn : n ∈ s.g.nodes) (hb : s.bs n ≠ .untouched)
    (hd : DependsOn s.g n m) : m ∈ s.g.nodes ∧ s.bs m ≠ .untouched := by
  induction hd with
  | refl => exact ⟨hn, hb⟩
  | step p q _ hq ih => exact ⟨hi.wf.closed p ih.1 q hq, h.closed hcl p ih.1 ih.2 q hq⟩

/-! ### No state before the end is stuck -/

theorem afterJob_frame (cfg : Cfg) (ok : Bool) (s : St) :
    (afterJob cfg ok s).cancelRequested = s.cancelRequested ∧ (afterJob cfg ok s).g = s.g ∧
    (afterJob cfg ok s).bs = s.bs ∧ (afterJob cfg ok s).proc = s.proc ∧
    (afterJob cfg ok s).live = s.live ∧ ((afterJob cfg ok s).st = .running → s.st = .running) := by
  have hc : ∀ s : St, (cancelJobs s).cancelRequested = s.cancelRequested ∧ (cancelJobs s).g = s.g ∧
      (cancelJobs s).bs = s.bs ∧ (cancelJobs s).proc = s.proc ∧ (cancelJobs s).live = s.live ∧
      ((cancelJobs s).st = .running → s.st = .running) := by
    intro s
    refine ⟨?_, ?_, ?_, ?_, ?_, fun h => ?_⟩
    all_goals try (unfold cancelJobs; split <;> rfl)
    rw [cancelJobs_st] at h; simp at h
  have h1 : ∀ (b : Bool) (s : St),
      (if b then cancelJobs s else s).cancelRequested = s.cancelRequested ∧
      (if b then cancelJobs s else s).g = s.g ∧
      (if b then cancelJobs s else s).bs = s.bs ∧ (if b then cancelJobs s else s).proc = s.proc ∧
      (if b then cancelJobs s else s).live = s.live ∧
      ((if b then cancelJobs s else s).st = .running → s.st = .running) := by
    intro b s
    cases b
    · exact ⟨rfl, rfl, rfl, rfl, rfl, id⟩
    · exact hc s
  unfold afterJob
  dsimp only
  replace h1 := h1 (!ok && !cfg.keepGoing) s
  generalize (if (!ok && !cfg.keepGoing) = true then cancelJobs s else s) = s1 at *
  have h2 : (if s1.st = .running ∧ s1.cancelRequested = true
        then cancelJobs { s1 with explicitly := true } else s1).cancelRequested = s1.cancelRequested ∧
      (if s1.st = .running ∧ s1.cancelRequested = true
        then cancelJobs { s1 with explicitly := true } else s1).g = s1.g ∧
      (if s1.st = .running ∧ s1.cancelRequested = true
        then cancelJobs { s1 with explicitly := true } else s1).bs = s1.bs ∧
      (if s1.st = .running ∧ s1.cancelRequested = true
        then cancelJobs { s1 with explicitly := true } else s1).proc = s1.proc ∧
      (if s1.st = .running ∧ s1.cancelRequested = true
        then cancelJobs { s1 with explicitly := true } else s1).live = s1.live ∧
      ((if s1.st = .running ∧ s1.cancelRequested = true
        then cancelJobs { s1 with explicitly := true } else s1).st = .running → s1.st = .running) := by
    split
    · exact hc { s1 with explicitly := true }
    · exact ⟨rfl, rfl, rfl, rfl, rfl, id⟩
  generalize (if s1.st = .running ∧ s1.cancelRequested = true
        then cancelJobs { s1 with explicitly := true } else s1) = s2 at *
  obtain ⟨a1, a2, a3, a4, a5, a6⟩ := h1
  obtain ⟨b1, b2, b3, b4, b5, b6⟩ := h2
  split
  · split
    · exact ⟨b1.trans a1, b2.trans a2, b3.trans a3, b4.trans a4, b5.trans a5, fun h => by
        simp [finish] at h⟩
    · exact ⟨b1.trans a1, b2.trans a2, b3.trans a3, b4.trans a4, b5.trans a5, fun h => a6 (b6 h)⟩
  · exact ⟨b1.trans a1, b2.trans a2, b3.trans a3, b4.trans a4, b5.trans a5, fun h => a6 (b6 h)⟩

theorem not_stuck {cfg : Cfg} {C : St → Node → Effect → Prop} {s : St} (hi : Inv none s)
    (hj : JobInv cfg s) (happ : ∀ l, ∀ r ∈ s.g.nodes, s.g.kind r = .rule → ∃ e, C { s with leaves := l } r e)
    (hph : s.phase ≠ .done) :
    ∃ s', Step cfg C s s' ∧ s'.cancelRequested = s.cancelRequested := by
  cases hp : s.phase with
  | done => exact absurd hp hph
  | finishPending => exact ⟨_, .finishLater s hp, rfl⟩
  | waiting =>
    have hne := hj.waiting hp
    cases hproc : s.proc with
    | nil => exact absurd hproc hne
    | cons jt rest =>
      have hm : (jt.1, jt.2) ∈ s.proc := by rw [hproc]; simp
      cases hl : s.live jt.1 with
      | true => exact ⟨_, .jobEnds s jt.1 jt.2 hph hm hl, rfl⟩
      | false =>
        refine ⟨_, .jobFail s jt.1 jt.2 hp hm hl, ?_⟩
        exact (afterJob_frame _ _ _).1
  | scheduling =>
    by_cases hend : s.leaves = [] ∨ s.avail = []
    · refine ⟨_, .endLoop s hp hend, ?_⟩
      dsimp only
      split
      · split <;> rfl
      · rfl
    · cases hl : s.leaves with
      | nil => exact absurd (.inl hl) hend
      | cons n rest =>
        have hav : s.avail ≠ [] := fun h => hend (.inr h)
        have hl' : s.leaves = [] ++ n :: rest := hl
        by_cases hb : s.bs n = .buildable
        · cases hbl : blocked cfg s n with
          | true => exact ⟨_, .popDelay s [] rest n hp hl' hav hb hbl, rfl⟩
          | false =>
            cases hk : s.g.kind n with
            | source => exact ⟨_, .popSource s [] rest n hp hl' hav hb hbl hk, rfl⟩
            | gen =>
              cases hpo : productOk cfg s n with
              | false =>
                exact ⟨_, .popIgnore s [] rest n hp hl' hav hb hbl (by simp [hk]) hpo, rfl⟩
              | true =>
                refine ⟨_, .popSkipTransformer s [] rest n hp hl' hav hb hbl hk hpo, ?_⟩
                exact (finishLoop_frame _ _ _).2.2.2.2.2.2.2.2.2
            | rule =>
              cases hpo : productOk cfg s n with
              | false =>
                exact ⟨_, .popIgnore s [] rest n hp hl' hav hb hbl (by simp [hk]) hpo, rfl⟩
              | true =>
                have hn := (hi.leaves n (.inl (by rw [hl]; simp))).1
                obtain ⟨e, he⟩ := happ ([] ++ rest) n hn hk
                exact ⟨_, .popRule s [] rest n e hp hl' hav hb hbl hk hpo he, rfl⟩
        · exact ⟨_, .popSkip s [] rest n hp hl' hav hb, rfl⟩

/-! ### Every execution is finite -/

def cancelRank (s : St) : Nat := if s.cancelRequested then 0 else 1
def runRank (s : St) : Nat := if s.st = .running then 1 else 0
def rulesLeft (s : St) : Nat :=
  (s.g.nodes.filter fun n => decide (s.g.kind n = .rule) && decide (s.bs n ≠ .built)).length
def artifactsLeft (s : St) : Nat :=
  (s.g.nodes.filter fun n => decide (s.g.kind n ≠ .rule) &&
    (decide (s.bs n = .untouched) || decide (s.bs n = .buildable))).length
def liveJobs (s : St) : Nat := (s.proc.filter fun jt => s.live jt.1).length
def phaseRank (s : St) : Nat :=
  match s.phase with
  | .scheduling => 2
  | .waiting => 1
  | .finishPending => 1
  | .done => 0


/-- The lexicographic measure. -/
def ranks (s : St) : Nat × Nat × Nat × Nat × Nat × Nat × Nat × Nat :=
  (cancelRank s, runRank s, rulesLeft s, artifactsLeft s, s.proc.length, liveJobs s, phaseRank s,
   s.leaves.length)

abbrev LexLt : Nat × Nat × Nat × Nat × Nat × Nat × Nat × Nat →
    Nat × Nat × Nat × Nat × Nat × Nat × Nat × Nat → Prop :=
  Prod.Lex (· < ·) (Prod.Lex (· < ·) (Prod.Lex (· < ·) (Prod.Lex (· < ·) (Prod.Lex (· < ·)
    (Prod.Lex (· < ·) (Prod.Lex (· < ·) (· < ·)))))))

theorem lexLt_wf : WellFounded LexLt :=
  (Prod.lex ⟨_, Nat.lt_wfRel.wf⟩ (Prod.lex ⟨_, Nat.lt_wfRel.wf⟩ (Prod.lex ⟨_, Nat.lt_wfRel.wf⟩
    (Prod.lex ⟨_, Nat.lt_wfRel.wf⟩ (Prod.lex ⟨_, Nat.lt_wfRel.wf⟩ (Prod.lex ⟨_, Nat.lt_wfRel.wf⟩
      (Prod.lex ⟨_, Nat.lt_wfRel.wf⟩ ⟨_, Nat.lt_wfRel.wf⟩))))))).wf

theorem lex_or {β : Type} {r : β → β → Prop} {a' a : Nat} {b' b : β} (h : a' ≤ a)
    (h' : a' < a ∨ r b' b) : Prod.Lex (· < ·) r (a', b') (a, b) := by
  rcases Nat.lt_or_ge a' a with hlt | hge
  · exact .left _ _ hlt
  · have : a' = a := Nat.le_antisymm h hge
    subst this
    rcases h' with h' | h'
    · exact absurd h' (Nat.lt_irrefl _)
    · exact .right _ h'

/-- A build state only moves forward. -/
def Forward (b b' : BState) : Prop :=
  (b = .built → b' = .built) ∧ (b' = .untouched ∨ b' = .buildable → b = .untouched ∨ b = .buildable)

theorem rules_mono {s s' : St} (hg : s'.g = s.g) (h : ∀ n, Forward (s.bs n) (s'.bs n)) :
    rulesLeft s' ≤ rulesLeft s := by
  unfold rulesLeft
  rw [hg]
  refine filter_length_mono (fun a ha => ?_) _
  simp only [Bool.and_eq_true, decide_eq_true_eq] at ha ⊢
  exact ⟨ha.1, fun hb => ha.2 ((h a).1 hb)⟩

theorem rules_lt {s s' : St} (hg : s'.g = s.g) (h : ∀ n, Forward (s.bs n) (s'.bs n)) {n : Node}
    (hn : n ∈ s.g.nodes) (hk : s.g.kind n = .rule) (hb : s.bs n ≠ .built) (hb' : s'.bs n = .built) :
    rulesLeft s' < rulesLeft s := by
  unfold rulesLeft
  rw [hg]
  refine filter_length_lt (x := n) (fun a ha => ?_) (by simp [hk, hb]) (by simp [hb']) _ hn
  simp only [Bool.and_eq_true, decide_eq_true_eq] at ha ⊢
  exact ⟨ha.1, fun hb => ha.2 ((h a).1 hb)⟩

theorem artifacts_mono {s s' : St} (hg : s'.g = s.g) (h : ∀ n, Forward (s.bs n) (s'.bs n)) :
    artifactsLeft s' ≤ artifactsLeft s := by
  unfold artifactsLeft
  rw [hg]
  refine filter_length_mono (fun a ha => ?_) _
  simp only [Bool.and_eq_true, Bool.or_eq_true, decide_eq_true_eq] at ha ⊢
  exact ⟨ha.1, (h a).2 ha.2⟩

theorem artifacts_lt {s s' : St} (hg : s'.g = s.g) (h : ∀ n, Forward (s.bs n) (s'.bs n)) {n : Node}
    (hn : n ∈ s.g.nodes) (hk : s.g.kind n ≠ .rule) (hb : s.bs n = .buildable)
    (hb' : s'.bs n = .built ∨ s'.bs n = .building) : artifactsLeft s' < artifactsLeft s := by
  unfold artifactsLeft
  rw [hg]
  refine filter_length_lt (x := n) (fun a ha => ?_) (by simp [hk, hb])
    (by rcases hb' with e | e <;> simp [e]) _ hn
  simp only [Bool.and_eq_true, Bool.or_eq_true, decide_eq_true_eq] at ha ⊢
  exact ⟨ha.1, (h a).2 ha.2⟩

theorem nodup_length_le {α : Type} [BEq α] [LawfulBEq α] : ∀ {l1 l2 : List α}, l1.Nodup →
    (∀ a ∈ l1, a ∈ l2) → l1.length ≤ l2.length
  | [], _, _, _ => by simp
  | a :: l1, l2, hn, hs => by
      obtain ⟨h1, h2⟩ := List.nodup_cons.mp hn
      have ha := hs a (by simp)
      have := nodup_length_le (l1 := l1) (l2 := l2.erase a) h2 (fun b hb =>
        (List.mem_erase_of_ne (fun e : b = a => h1 (e ▸ hb))).mpr (hs b (by simp [hb])))
      have hl := List.length_erase_of_mem ha
      have hpos := List.length_pos_of_mem ha
      simp only [List.length_cons]
      omega

theorem forward_finishLoop (why : Why) (l : List Node) (s : St) (n : Node) :
    Forward (s.bs n) ((l.foldl (finishNode why) s).bs n) := by
  rw [finishLoop_bs]
  split
  · exact ⟨fun _ => rfl, fun h => by simp at h⟩
  · exact ⟨id, id⟩

theorem forward_finishNode (why : Why) (s : St) (m n : Node) :
    Forward (s.bs n) ((finishNode why s m).bs n) :=
  forward_finishLoop why [m] s n

theorem handleError_ranks {s : St} (hst : s.st = .running) :
    cancelRank (handleError s) = cancelRank s ∧ runRank (handleError s) < runRank s := by
  constructor
  · unfold handleError abort cancelJobs finish cancelRank
    split <;> (try split) <;> simp_all
  · have := handleError_st s
    simp [runRank, hst, this]

/-- Every step decreases the measure. -/
theorem step_ranks {cfg : Cfg} {C : St → Node → Effect → Prop}
    (hC : ∀ s r e, C s r e → SafeEffect s r e) {s s' : St} (hi : Inv none s) (hs : Sib cfg s)
    (hstep : Step cfg C s s') : LexLt (ranks s') (ranks s) := by
  have leaf : ∀ {l1 l2 : List Node} {n : Node}, s.phase = .scheduling → s.leaves = l1 ++ n :: l2 →
      n ∈ s.g.nodes ∧ s.st = .running ∧ (l1 ++ l2).length < s.leaves.length := by
    intro l1 l2 n hph hl
    have hn := hi.leaves n (.inl (by simp [hl]))
    refine ⟨hn.1, hi.scheduling hph, ?_⟩
    rw [hl]; simp
  -- artifacts or rules were completed, everything else that counts is unchanged
  have done : ∀ {t : St} {n : Node}, t.cancelRequested = s.cancelRequested → t.st = s.st →
      t.g = s.g → (∀ m, Forward (s.bs m) (t.bs m)) → n ∈ s.g.nodes → s.bs n = .buildable →
      (t.bs n = .built ∨ (t.bs n = .building ∧ s.g.kind n ≠ .rule)) → LexLt (ranks t) (ranks s) := by
    intro t n h1 h2 h3 h4 hn hb h5
    refine lex_or (by simp [cancelRank, h1]) (.inr ?_)
    refine lex_or (by simp [runRank, h2]) (.inr ?_)
    refine lex_or (rules_mono h3 h4) ?_
    by_cases hk : s.g.kind n = .rule
    · left
      refine rules_lt h3 h4 hn hk (by rw [hb]; simp) ?_
      rcases h5 with h5 | h5
      · exact h5
      · exact absurd hk h5.2
    · right
      exact lex_or (artifacts_mono h3 h4) (.inl (artifacts_lt h3 h4 hn hk hb (h5.imp id (·.1))))
  have thrown : ∀ {t : St}, t.st = s.st → t.cancelRequested = s.cancelRequested →
      s.st = .running → LexLt (ranks (handleError t)) (ranks s) := by
    intro t h1 h2 hst
    obtain ⟨q1, q2⟩ := handleError_ranks (s := t) (h1.trans hst)
    refine lex_or (by rw [q1]; simp [cancelRank, h2]) (.inr ?_)
    refine lex_or (Nat.le_of_lt ?_) (.inl ?_) <;>
    · rw [show runRank s = runRank t by simp [runRank, h1]]; exact q2
  cases hstep with
  | popSkip l1 l2 n hph hl hav hb =>
    refine .right _ (.right _ (.right _ (.right _ (.right _ (.right _ (.right _ ?_))))))
    exact (leaf hph hl).2.2
  | popDelay l1 l2 n hph hl hav hb hbl =>
    refine .right _ (.right _ (.right _ (.right _ (.right _ (.right _ (.right _ ?_))))))
    exact (leaf hph hl).2.2
  | popIgnore l1 l2 n hph hl hav hb hbl hk hp =>
    exact done (n := n) rfl rfl rfl (forward_finishNode _ { s with leaves := l1 ++ l2 } n)
      (leaf hph hl).1 hb (.inl (by simp [finishNode, upd]))
  | popSource l1 l2 n hph hl hav hb hbl hk =>
    exact done (n := n) rfl rfl rfl (forward_finishNode _ { s with leaves := l1 ++ l2 } n)
      (leaf hph hl).1 hb (.inl (by simp [finishNode, upd]))
  | popSkipTransformer l1 l2 n hph hl hav hb hbl hk hp =>
    unfold finishTransformer
    dsimp only
    rw [List.take_length]
    have hfr := finishLoop_frame (.skipped (s.g.tr n)) (s.g.outputs (s.g.tr n))
      { s with leaves := l1 ++ l2 }
    refine done (n := n) hfr.2.2.2.2.2.2.2.2.2 hfr.2.2.2.1 hfr.1
      (forward_finishLoop _ _ { s with leaves := l1 ++ l2 }) (leaf hph hl).1 hb (.inl ?_)
    rw [finishLoop_bs, if_pos (mem_outputs.mpr ⟨(leaf hph hl).1, hk, rfl⟩)]
  | popRun _ l1 l2 n hph hl hav hb hbl hk hp hro hrun =>
    have hn := (leaf hph hl).1
    have hst := (leaf hph hl).2.1
    unfold runTransformer at hrun
    split at hrun
    · simp at hrun
    simp only [Option.some.injEq] at hrun
    subst hrun
    have hno : n ∈ s.g.outputs (s.g.tr n) := mem_outputs.mpr ⟨hn, hk, rfl⟩
    refine done (n := n) rfl rfl rfl (fun m => ?_) hn hb (.inr ⟨by simp [hno], by simp [hk]⟩)
    dsimp only
    split
    · rename_i hmo
      refine ⟨fun hmb => ?_, fun h => by simp at h⟩
      obtain ⟨o1, o2, o3⟩ := mem_outputs.mp hmo
      have hpo : productOk cfg s m = true := by
        simpa [productOk, hi.wf.siblingProduct m o1 n hn o2 hk o3] using hp
      have := hs hst m o1 n hn o2 hk o3 hpo hmb
      rw [hb] at this; simp at this
    · exact ⟨id, id⟩
  | popRule l1 l2 n e hph hl hav hb hbl hk hp hcon =>
    obtain ⟨hn, hst, _⟩ := leaf hph hl
    have he := hC _ _ _ hcon
    have key : rulesLeft (executeRule { s with leaves := l1 ++ l2 } n e) < rulesLeft s := by
      have hold : n ∈ s.g.nodes.filter fun n =>
          decide (s.g.kind n = .rule) && decide (s.bs n ≠ .built) := by
        simp [hn, hk, hb]
      have hsub : ∀ m ∈ e.g.nodes.filter (fun m => decide (e.g.kind m = .rule) &&
            decide ((executeRule { s with leaves := l1 ++ l2 } n e).bs m ≠ .built)),
          m ∈ (s.g.nodes.filter fun n =>
            decide (s.g.kind n = .rule) && decide (s.bs n ≠ .built)).erase n := by
        intro m hm
        simp only [List.mem_filter, Bool.and_eq_true, decide_eq_true_eq] at hm
        obtain ⟨m1, m2, m3⟩ := hm
        have hmn : m ≠ n := fun e0 => m3 (by subst e0; simp [executeRule, finishNode, upd])
        have hms : m ∈ s.g.nodes := Classical.byContradiction fun hne => by
          rw [(he.new m m1 hne).1] at m2; simp at m2
        refine (List.mem_erase_of_ne hmn).mpr ?_
        simp only [List.mem_filter, Bool.and_eq_true, decide_eq_true_eq]
        refine ⟨hms, (he.kinds m m1 hms).1 ▸ m2, fun hmb => m3 ?_⟩
        have ul_b : ∀ (s0 : St) (ns : List Node), WF s0.g → (∀ m ∈ ns, m ∈ s0.g.nodes) →
            s0.bs m = .built → (updateLeaves s0 ns).bs m = .built := by
          intro s0 ns hw hns hbu
          rcases (updateLeaves_ok s0 ns hw hns).1 m with e1 | ⟨e1, _⟩
          · rw [e1]; exact hbu
          · rw [e1] at hbu; simp at hbu
        unfold executeRule
        dsimp only
        simp only [finishNode, upd, hmn, if_false]
        refine ul_b _ _ he.wf (fun m hm => he.nodes m (by simp [hm]))
          (ul_b _ _ he.wf (fun m hm => he.nodes m (by simp [hm])) ?_)
        simp [applyEffect, hms, hmb]
      have hnd : (e.g.nodes.filter (fun m => decide (e.g.kind m = .rule) &&
          decide ((executeRule { s with leaves := l1 ++ l2 } n e).bs m ≠ .built))).Nodup :=
        he.wf.nodup.sublist List.filter_sublist
      have hle := nodup_length_le hnd hsub
      have hlen := List.length_erase_of_mem hold
      have hpos := List.length_pos_of_mem hold
      have heq : rulesLeft (executeRule { s with leaves := l1 ++ l2 } n e) =
          (e.g.nodes.filter (fun m => decide (e.g.kind m = .rule) &&
            decide ((executeRule { s with leaves := l1 ++ l2 } n e).bs m ≠ .built))).length := rfl
      have heq' : rulesLeft s = (s.g.nodes.filter fun n =>
          decide (s.g.kind n = .rule) && decide (s.bs n ≠ .built)).length := rfl
      omega
    exact .right _ (.right _ (.left _ _ key))
  | popThrow l1 l2 n k hph hl hav hb hbl hk =>
    have hfr := finishLoop_frame (.skipped (s.g.tr n)) ((s.g.outputs (s.g.tr n)).take k)
      { s with leaves := l1 ++ l2 }
    exact thrown hfr.2.2.2.1 hfr.2.2.2.2.2.2.2.2.2 (leaf hph hl).2.1
  | popRuleThrow l1 l2 n e hph hl hav hb hbl hk hp hcon =>
    exact thrown rfl rfl (leaf hph hl).2.1
  | endLoop hph hor =>
    have hst := hi.scheduling hph
    dsimp only
    split
    · split
      · refine .right _ (.left _ _ ?_)
        simp [runRank, finish, hst]
      · refine .right _ (.right _ (.right _ (.right _ (.right _ (.right _ (.left _ _ ?_))))))
        simp [phaseRank, hph]
    · refine .right _ (.right _ (.right _ (.right _ (.right _ (.right _ (.left _ _ ?_))))))
      simp [phaseRank, hph]
  | finishLater hph =>
    refine lex_or (Nat.le_refl _) (.inr ?_)
    refine lex_or (by simp [runRank, finish]) (.inr ?_)
    refine .right _ (.right _ (.right _ (.right _ (.left _ _ ?_))))
    simp [phaseRank, hph, finish]
  | jobEnds j t hph hjt hlv =>
    refine .right _ (.right _ (.right _ (.right _ (.right _ (.left _ _ ?_)))))
    unfold liveJobs
    dsimp only
    refine filter_length_lt (x := (j, t)) (fun a ha => ?_) hlv (by simp [upd]) _ hjt
    simp only [upd] at ha
    split at ha
    · simp at ha
    · exact ha
  | jobOk j t hph hjt hlv =>
    obtain ⟨a1, a2, a3, a4, a5, a6⟩ := afterJob_frame cfg true
      (finishTransformer (.ran t) { endJob cfg s j t with log := .succeeded t :: s.log } t
        (s.g.outputs t).length)
    have hfr := finishLoop_frame (.ran t)
      ((({ endJob cfg s j t with log := .succeeded t :: s.log } : St).g.outputs t).take
        (s.g.outputs t).length) { endJob cfg s j t with log := .succeeded t :: s.log }
    have hfw := forward_finishLoop (.ran t)
      ((({ endJob cfg s j t with log := .succeeded t :: s.log } : St).g.outputs t).take
        (s.g.outputs t).length) { endJob cfg s j t with log := .succeeded t :: s.log }
    unfold finishTransformer at a1 a2 a3 a4 a5 a6 ⊢
    generalize (List.foldl (finishNode (.ran t)) _ _ : St) = u at *
    have hlen := List.length_erase_of_mem hjt
    have hpos := List.length_pos_of_mem hjt
    refine lex_or ?_ (.inr (lex_or ?_ (.inr (lex_or ?_ (.inr (lex_or ?_ (.inr (.left _ _ ?_))))))))
    · rw [show cancelRank (afterJob cfg true u) = cancelRank s by
        simp only [cancelRank, a1, hfr.2.2.2.2.2.2.2.2.2]; rfl]
      exact Nat.le_refl _
    · by_cases hr : (afterJob cfg true u).st = .running
      · have : s.st = .running := by have := a6 hr; rw [hfr.2.2.2.1] at this; exact this
        simp [runRank, hr, this]
      · simp [runRank, hr]
    · exact rules_mono (a2.trans hfr.1) (fun m => by rw [a3]; exact hfw m)
    · exact artifacts_mono (a2.trans hfr.1) (fun m => by rw [a3]; exact hfw m)
    · rw [a4, hfr.2.1]
      simp only [endJob, hlen]
      omega
  | jobFail j t hph hjt hlv =>
    generalize hu : ({ endJob cfg s j t with log := .failed t :: s.log } : St) = u
    obtain ⟨a1, a2, a3, a4, a5, a6⟩ := afterJob_frame cfg false u
    have f : u.cancelRequested = s.cancelRequested ∧ u.st = s.st ∧ u.g = s.g ∧ u.bs = s.bs ∧
        u.proc = s.proc.erase (j, t) := by subst hu; exact ⟨rfl, rfl, rfl, rfl, rfl⟩
    obtain ⟨f1, f2, f3, f4, f5⟩ := f
    have hlen := List.length_erase_of_mem hjt
    have hpos := List.length_pos_of_mem hjt
    refine lex_or ?_ (.inr (lex_or ?_ (.inr (lex_or ?_ (.inr (lex_or ?_ (.inr (.left _ _ ?_))))))))
    · simp [cancelRank, a1, f1]
    · by_cases hr : (afterJob cfg false u).st = .running
      · have : s.st = .running := f2 ▸ a6 hr
        simp [runRank, hr, this]
      · simp [runRank, hr]
    · exact rules_mono (a2.trans f3) (fun m => by rw [a3, f4]; exact ⟨id, id⟩)
    · exact artifacts_mono (a2.trans f3) (fun m => by rw [a3, f4]; exact ⟨id, id⟩)
    · rw [a4, f5, hlen]
      omega
  | jobOkThrow j t k hph hjt hlv =>
    have hfr := finishLoop_frame (.ran t) ((s.g.outputs t).take k)
      { endJob cfg s j t with log := .succeeded t :: s.log }
    have hfw := forward_finishLoop (.ran t) ((s.g.outputs t).take k)
      { endJob cfg s j t with log := .succeeded t :: s.log }
    have heq : finishTransformer (.ran t) { endJob cfg s j t with log := .succeeded t :: s.log } t k
      = ((s.g.outputs t).take k).foldl (finishNode (.ran t))
        { endJob cfg s j t with log := .succeeded t :: s.log } := rfl
    rw [heq]
    generalize (List.foldl (finishNode (.ran t)) _ _ : St) = u at *
    have hcan : cancelRank (handleError u) = cancelRank s := by
      have : (handleError u).cancelRequested = s.cancelRequested := by
        unfold handleError abort cancelJobs finish
        have := hfr.2.2.2.2.2.2.2.2.2
        split
        · exact this
        · split <;> exact this
      simp [cancelRank, this]
    have hun : (handleError u).g = u.g ∧ (handleError u).bs = u.bs ∧ (handleError u).proc = u.proc := by
      unfold handleError abort cancelJobs finish
      split
      · exact ⟨rfl, rfl, rfl⟩
      · split <;> exact ⟨rfl, rfl, rfl⟩
    have hlen := List.length_erase_of_mem hjt
    have hpos := List.length_pos_of_mem hjt
    refine lex_or (Nat.le_of_eq hcan) (.inr (lex_or ?_ (.inr (lex_or ?_ (.inr (lex_or ?_
      (.inr (.left _ _ ?_))))))))
    · simp [runRank, handleError_st]
    · exact rules_mono (hun.1.trans hfr.1) (fun m => by rw [hun.2.1]; exact hfw m)
    · exact artifacts_mono (hun.1.trans hfr.1) (fun m => by rw [hun.2.1]; exact hfw m)
    · rw [hun.2.2, hfr.2.1]
      simp only [endJob, hlen]
      omega
  | requestCancel hcr =>
    refine .left _ _ ?_
    simp [cancelRank, hcr]
  | timer hph hst hcr =>
    refine lex_or ?_ (.inr (.left _ _ ?_))
    · unfold cancelJobs cancelRank; split <;> simp
    · simp [runRank, cancelJobs_st, hst]

/-- There is no infinite execution. -/
theorem no_infinite_run {cfg : Cfg} {C : St → Node → Effect → Prop}
    (hC : ∀ s r e, C s r e → SafeEffect s r e) {g : Graph} {roots : List Node} (hw : WF g)
    (hr : ∀ n ∈ roots, n ∈ g.nodes) (run : Nat → St) (h0 : Reach cfg C g roots (run 0)) :
    ¬ ∀ i, Step cfg C (run i) (run (i + 1)) := by
  intro hrun
  have hreach : ∀ i, Reach cfg C g roots (run i) := by
    intro i
    induction i with
    | zero => exact h0
    | succ i ih => exact .step _ _ ih (hrun i)
  have key : ∀ r, _root_.Acc LexLt r → ∀ i, ranks (run i) = r → False := by
    intro r hacc
    induction hacc with
    | intro r _ ih =>
      intro i hi
      obtain ⟨i1, i2⟩ := reach_inv hC hw hr (hreach i)
      have := step_ranks hC i1 i2 (hrun i)
      rw [hi] at this
      exact ih _ this (i + 1) rfl
  exact key _ (lexLt_wf.apply _) 0 rfl

end Verif.Exec
