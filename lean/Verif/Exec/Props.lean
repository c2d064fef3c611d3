import Verif.Exec.Extra

/-
C14–C19: properties of a build as seen from its event history (`St.log`, newest event first).

`hC` is the contract for rule applications (Verif/Exec/Spec.lean); everything else is arbitrary:
the graph, the options, the order in which leaves are taken, when jobs end and how, where
exceptions are thrown and when the user asks for cancellation.
-/

namespace Verif.Exec

/-! ### Vocabulary of the statements -/

/-- Event `e` happened when the history was `pre`. -/
def HappenedAfter (log : List Ev) (e : Ev) (pre : List Ev) : Prop := ∃ post, log = post ++ e :: pre

/-- The commands of `t` are running: launched, and their job has not come to an end. -/
def Running (s : St) (t : Tr) : Prop := ∃ j, (j, t) ∈ s.proc ∧ s.live j = true

/-- What makes `Executor::error()` non-empty after `finished()`: an exception (executor.cpp:799),
    a failed job without keep-going (925-930), a root node of a primary product that is not built
    (938-973, `primary` are those root nodes) or an explicit cancellation (996-1000). -/
def ReportsError (cfg : Cfg) (primary : List Node) (s : St) : Prop :=
  Ev.error ∈ s.log ∨ (cfg.keepGoing = false ∧ ∃ t, Ev.failed t ∈ s.log) ∨
  (cfg.executeRulesOnly = false ∧ ∃ n ∈ primary, s.bs n ≠ .built) ∨ s.explicitly = true

theorem trace_at {log : List Ev} (h : TraceOk log) {e : Ev} {pre : List Ev}
    (hl : HappenedAfter log e pre) : okAfter e pre := by
  obtain ⟨post, rfl⟩ := hl
  induction post with
  | nil => exact h.2
  | cons e' post ih => exact ih h.1

/-! ### C14: dependencies come first -/

section
variable {cfg : Cfg} {C : St → Node → Effect → Prop} {g : Graph} {roots : List Node} {s : St}

/-- C14 (graphs in which the outputs of one transformer have the same dependencies; this is what
    is missing from the full property, see `C14_unequal_siblings_violation`): when the commands of
    a transformer are launched, everything its outputs depend on at that moment has been
    completed. -/
theorem C14_start_after_dependencies_partial (hC : ∀ s r e, C s r e → SafeEffect s r e) (hw : WF g)
    (hr : ∀ n ∈ roots, n ∈ g.nodes) (h : Reach cfg C g roots s) (t : Tr) (deps : List Node)
    (pre : List Ev) (hs : HappenedAfter s.log (.start t deps) pre) :
    ∀ c ∈ deps, Completed pre c :=
  (trace_at (reach_inv hC hw hr h).1.trace hs).1

/-- What the new events of a step can be. -/
theorem step_work {s' : St} (h : Step cfg C s s') (evs : List Ev)
    (hev : s'.log = evs ++ s.log) : ∀ e ∈ evs, NewWork e → WorkIn cfg s e := by
  intro e he hn
  rcases step_log h with ⟨evs', h1, h2⟩ | ⟨e', hw, _, evs', h1, h2⟩ | ⟨j, t, _, ⟨evs', h1, h2⟩, _⟩
  · rw [hev] at h1
    rw [List.append_cancel_right h1] at he
    exact absurd hn (h2 e he).1
  · rw [hev, List.append_cons] at h1
    rw [List.append_cancel_right h1] at he
    rcases List.mem_append.mp he with he | he
    · exact absurd hn (h2 e he).1
    · rw [List.mem_singleton] at he; subst he; exact hw
  · rw [hev, List.append_cons] at h1
    rw [List.append_cancel_right h1] at he
    rcases List.mem_append.mp he with he | he
    · exact absurd hn (h2 e he).1
    · rw [List.mem_singleton] at he; subst he; simp [NewWork] at hn

/-- `deps` above is the full list of dependencies: whenever a step launches commands, the event
    lists the children of all outputs of the transformer; likewise for rule applications. -/
theorem C14_events_list_all_dependencies {s' : St} (h : Step cfg C s s') (evs : List Ev)
    (hev : s'.log = evs ++ s.log) :
    (∀ t deps, .start t deps ∈ evs → ∀ c, c ∈ deps ↔
      ∃ o ∈ s.g.nodes, s.g.kind o = .gen ∧ s.g.tr o = t ∧ c ∈ s.g.children o) ∧
    (∀ r deps, .apply r deps ∈ evs → deps = s.g.children r) := by
  have key := step_work h evs hev
  refine ⟨fun t deps he c => ?_, fun r deps he => ?_⟩
  · rcases key _ he (.inl ⟨_, _, rfl⟩) with ⟨t', h', _⟩ | ⟨r, h', _⟩
    · simp only [Ev.start.injEq] at h'
      obtain ⟨rfl, rfl⟩ := h'
      simp only [Graph.deps, List.mem_flatMap, mem_outputs]
      constructor
      · rintro ⟨o, ⟨h1, h2, h3⟩, h4⟩; exact ⟨o, h1, h2, h3, h4⟩
      · rintro ⟨o, h1, h2, h3, h4⟩; exact ⟨o, ⟨h1, h2, h3⟩, h4⟩
    · simp at h'
  · rcases key _ he (.inr ⟨_, _, rfl⟩) with ⟨t', h', _⟩ | ⟨r', h', _⟩
    · simp at h'
    · simp only [Ev.apply.injEq] at h'
      obtain ⟨rfl, rfl⟩ := h'
      rfl

/-- C14: when a rule is applied, everything its rule node depends on has been completed. -/
theorem C14_apply_after_dependencies (hC : ∀ s r e, C s r e → SafeEffect s r e) (hw : WF g)
    (hr : ∀ n ∈ roots, n ∈ g.nodes) (h : Reach cfg C g roots s) (r : Node) (deps : List Node)
    (pre : List Ev) (hs : HappenedAfter s.log (.apply r deps) pre) :
    ∀ c ∈ deps, Completed pre c :=
  (trace_at (reach_inv hC hw hr h).1.trace hs).1

/-- C14: an output counts as completed by its commands only after these have succeeded. -/
theorem C14_completed_after_success (hC : ∀ s r e, C s r e → SafeEffect s r e) (hw : WF g)
    (hr : ∀ n ∈ roots, n ∈ g.nodes) (h : Reach cfg C g roots s) (n : Node) (t : Tr)
    (pre : List Ev) (hs : HappenedAfter s.log (.completed n (.ran t)) pre) :
    Ev.succeeded t ∈ pre :=
  (trace_at (reach_inv hC hw hr h).1.trace hs).2.1 t rfl

/-! ### C15: job limits -/

/-- `Running` is what the history says: launched and not yet reported as ended. -/
theorem C15_running_is_started (hC : ∀ s r e, C s r e → SafeEffect s r e) (hw : WF g)
    (hr : ∀ n ∈ roots, n ∈ g.nodes) (h : Reach cfg C g roots s) (t : Tr) (ht : Running s t) :
    Started s.log t ∧ ¬ Ended s.log t := by
  obtain ⟨j, hj, _⟩ := ht
  exact ⟨((reach_inv hC hw hr h).1.proc j t hj).1, ((reach_inv hC hw hr h).1.proc j t hj).2.1⟩

/-- C15: at any time at most `maxJobs` transformers have been launched without having ended. -/
theorem C15_max_jobs (hC : ∀ s r e, C s r e → SafeEffect s r e) (hw : WF g)
    (hr : ∀ n ∈ roots, n ∈ g.nodes) (hpools : ∀ t, (cfg.pools t).Nodup) (hmax : 0 < cfg.maxJobs)
    (h : Reach cfg C g roots s) (ts : List Tr) (hn : ts.Nodup)
    (hts : ∀ t ∈ ts, Started s.log t ∧ ¬ Ended s.log t) : ts.length ≤ cfg.maxJobs := by
  have hi := (reach_inv hC hw hr h).1
  have hj := reach_jobInv hpools hmax h
  have : ts.length ≤ (s.proc.map (·.2)).length := by
    refine nodup_length_le hn fun t ht => ?_
    obtain ⟨h1, h2⟩ := hts t ht
    rcases hi.unfinished t h1 with h3 | ⟨j, h3⟩
    · exact absurd h3 h2
    · exact List.mem_map.2 ⟨_, h3, rfl⟩
  rw [List.length_map] at this
  have := hj.len
  omega

/-- C15: while a transformer that uses pool `p` is running, and its product limits that pool to
    `f p`, no more than `f p` transformers using the pool are running, whatever products they
    belong to. -/
theorem C15_pool_limit (hpools : ∀ t, (cfg.pools t).Nodup) (hmax : 0 < cfg.maxJobs)
    (h : Reach cfg C g roots s) (p : Pool) (ts : List Tr) (hn : ts.Nodup)
    (hts : ∀ t ∈ ts, Running s t ∧ p ∈ cfg.pools t) (t : Tr) (ht : t ∈ ts) (f : Pool → Int)
    (hf : cfg.limit (cfg.trProduct t) = some f) (hpos : f p > 0) : (ts.length : Int) ≤ f p := by
  have hj := reach_jobInv hpools hmax h
  obtain ⟨⟨j, hp, hl⟩, hpt⟩ := hts t ht
  have h1 := hj.limit j t hp hl p hpt f hf hpos
  have h2 := hj.count p
  have h3 : ts.length ≤
      ((s.proc.filter fun jt => decide (p ∈ cfg.pools jt.2)).map (·.2)).length := by
    refine nodup_length_le hn fun t' ht' => ?_
    obtain ⟨⟨j', hp', _⟩, hpt'⟩ := hts t' ht'
    exact List.mem_map.2 ⟨(j', t'), List.mem_filter.2 ⟨hp', by simpa using hpt'⟩, rfl⟩
  rw [List.length_map] at h3
  omega

/-! ### C16: nothing is done twice -/

/-- Launches of `t`. -/
def isStart (t : Tr) : Ev → Bool
  | .start t' _ => t' == t
  | _ => false

/-- Reported ends of `t`. -/
def isEnd (t : Tr) : Ev → Bool
  | .succeeded t' => t' == t
  | .failed t' => t' == t
  | _ => false

/-- Applications of rule node `r`. -/
def isApply (r : Node) : Ev → Bool
  | .apply r' _ => r' == r
  | _ => false

/-- Completions of node `n`. -/
def isCompleted (n : Node) : Ev → Bool
  | .completed n' _ => n' == n
  | _ => false

def isFinished : Ev → Bool
  | .finished _ => true
  | _ => false

/-- If an event of a class never follows another one of the class, there is at most one. -/
theorem count_le_one {log : List Ev} (h : TraceOk log) (p : Ev → Bool)
    (hp : ∀ e pre, p e = true → okAfter e pre → ∀ e' ∈ pre, p e' = false) : log.countP p ≤ 1 := by
  induction log with
  | nil => simp
  | cons e pre ih =>
    rw [List.countP_cons]
    split
    · rename_i he
      have : pre.countP p = 0 := List.countP_eq_zero.2 fun e' he' => by
        simp [hp e pre he h.2 e' he']
      omega
    · exact ih h.1

/-- C16: the commands of a transformer are launched at most once per build, end at most once, a
    rule is applied at most once, a node is completed at most once, and the build finishes at most
    once. -/
theorem C16_at_most_once (hC : ∀ s r e, C s r e → SafeEffect s r e) (hw : WF g)
    (hr : ∀ n ∈ roots, n ∈ g.nodes) (h : Reach cfg C g roots s) (n : Nat) :
    s.log.countP (isStart n) ≤ 1 ∧ s.log.countP (isEnd n) ≤ 1 ∧ s.log.countP (isApply n) ≤ 1 ∧
    s.log.countP (isCompleted n) ≤ 1 ∧ s.log.countP isFinished ≤ 1 := by
  have ht := (reach_inv hC hw hr h).1.trace
  refine ⟨count_le_one ht _ ?_, count_le_one ht _ ?_, count_le_one ht _ ?_, count_le_one ht _ ?_,
    count_le_one ht _ ?_⟩
  · intro e pre he hok e' he'
    cases e <;> simp [isStart] at he
    subst he
    cases e' <;> simp only [isStart]
    rename_i t' d'
    refine beq_eq_false_iff_ne.2 fun hne => hok.2.1 ?_
    subst hne
    exact ⟨_, he'⟩
  · intro e pre he hok e' he'
    cases e <;> simp [isEnd] at he
    all_goals
      subst he
      cases e' <;> simp only [isEnd]
      all_goals
        refine beq_eq_false_iff_ne.2 fun hne => hok.2.1 ?_
        subst hne
        first | exact .inl he' | exact .inr he'
  · intro e pre he hok e' he'
    cases e <;> simp [isApply] at he
    subst he
    cases e' <;> simp only [isApply]
    rename_i t' d'
    refine beq_eq_false_iff_ne.2 fun hne => hok.2.1 d' ?_
    subst hne
    exact he'
  · intro e pre he hok e' he'
    cases e <;> simp [isCompleted] at he
    subst he
    cases e' <;> simp only [isCompleted]
    rename_i t' d'
    refine beq_eq_false_iff_ne.2 fun hne => hok.1 ?_
    subst hne
    exact ⟨_, he'⟩
  · intro e pre he hok e' he'
    cases e <;> simp [isFinished] at he
    cases e' <;> simp only [isFinished]
    exact absurd ⟨_, he'⟩ hok.1

/-- C16: a transformer that is launched is not also treated as up to date, and the other way
    round: its outputs are completed only by the commands. -/
theorem C16_started_completes_by_running (hC : ∀ s r e, C s r e → SafeEffect s r e) (hw : WF g)
    (hr : ∀ n ∈ roots, n ∈ g.nodes) (h : Reach cfg C g roots s) (t : Tr) (hs : Started s.log t)
    (n : Node) (hn : n ∈ s.g.nodes) (hk : s.g.kind n = .gen) (ht : s.g.tr n = t)
    (hc : Completed s.log n) : Ev.failed t ∉ s.log ∧ Ended s.log t := by
  have hi := (reach_inv hC hw hr h).1
  have hb := (hi.completed n hc).2
  constructor
  · intro hf
    have := (hi.failed t hf).2 n hn hk ht
    rw [hb] at this; simp at this
  · rcases hi.unfinished t hs with h1 | ⟨j, h1⟩
    · exact h1
    · have := (hi.proc j t h1).2.2 n hn hk ht
      rw [hb] at this; simp at this

/-! ### C17: every build ends, and ends complete -/

/-- C17: no build goes on forever. -/
theorem C17_terminates (hC : ∀ s r e, C s r e → SafeEffect s r e) (hw : WF g)
    (hr : ∀ n ∈ roots, n ∈ g.nodes) (run : Nat → St) (h0 : run 0 = initial cfg g roots) :
    ¬ ∀ i, Step cfg C (run i) (run (i + 1)) :=
  no_infinite_run hC hw hr run (h0 ▸ .init)

/-- Leaving the graph alone is a possible outcome of applying a rule. -/
theorem idEffect (hi : Inv none s) (ha : Acyclic s.g) (l : List Node) (r : Node)
    (hr : r ∈ s.g.nodes) (hk : s.g.kind r = .rule) :
    LiveEffect { s with leaves := l } r ⟨s.g, [], []⟩ where
  wf := hi.wf
  rule_stays := ⟨hr, hk⟩
  rule := fun c hc => hc
  new := fun n hn hn' => absurd hn hn'
  kinds := fun n hn hn' => ⟨rfl, rfl⟩
  dependents := fun n _ _ _ h => h
  others := fun n _ _ _ _ => ⟨rfl, fun c hc => hc⟩
  removed := fun n hn hn' => absurd hn hn'
  transformer := fun n hn hkn hc m hm hkm htr => hi.wf.siblings n hn m hm hkn hkm htr.symm r hc
  nodes := by simp
  acyclic := ha
  created := fun n hn hn' => absurd hn hn'
  gains := fun n _ _ _ c hc hc' => absurd hc hc'
  waiters := fun n _ _ _ _ _ hx => hx

/-- C17: no build gets stuck before it has finished. As long as `finished()` was not emitted the
    build can go on without any help from the user, provided that applying a rule has some outcome;
    when it waits, it waits for a job that was launched and has not been dealt with. -/
theorem C17_not_stuck (hC : ∀ s r e, C s r e → SafeEffect s r e) (hw : WF g)
    (hr : ∀ n ∈ roots, n ∈ g.nodes) (hpools : ∀ t, (cfg.pools t).Nodup) (hmax : 0 < cfg.maxJobs)
    (h : Reach cfg C g roots s) (hfin : ¬ Finished s.log)
    (happ : ∀ l, ∀ r ∈ s.g.nodes, s.g.kind r = .rule → ∃ e, C { s with leaves := l } r e) :
    (∃ s', Step cfg C s s' ∧ s'.cancelRequested = s.cancelRequested) ∧
    (s.phase = .waiting → ∃ t, Started s.log t ∧ ¬ Ended s.log t) := by
  have hi := (reach_inv hC hw hr h).1
  have hj := reach_jobInv hpools hmax h
  have hph : s.phase ≠ .done := fun hd => hfin (done_finished h hd)
  refine ⟨not_stuck hi hj happ hph, fun hwt => ?_⟩
  cases hp : s.proc with
  | nil => exact absurd hp (hj.waiting hwt)
  | cons jt rest =>
    have := hi.proc jt.1 jt.2 (by rw [hp]; simp)
    exact ⟨jt.2, this.1, this.2.1⟩

/-- C17 (rule applications that do not take the last unfinished dependency away from a waiting
    node, see `C17_lost_dependency_hangs`): when a build finishes and was neither canceled nor hit
    by an exception nor by a failing command, then everything the requested nodes depend on has
    been completed, and so has every artifact the rules created meanwhile with all of its
    dependencies. -/
theorem C17_complete_partial (hC : ∀ s r e, C s r e → LiveEffect s r e) (hw : WF g)
    (ha : Acyclic g) (hr : ∀ n ∈ roots, n ∈ g.nodes) (h : Reach cfg C g roots s)
    (hfin : Finished s.log) (hcl : Clean s.log) (hf : ∀ t, Ev.failed t ∉ s.log) (n : Node)
    (hn : n ∈ s.g.nodes) (hwanted : n ∈ roots ∨ n ∉ g.nodes) (m : Node)
    (hd : DependsOn s.g n m) : Completed s.log m := by
  have hi := (reach_inv (fun s r e h => (hC s r e h).toSafeEffect) hw hr h).1
  have hl := reach_live hC hw ha hr h
  have ht := touched_deps hi hl hcl hn (hl.roots hcl n hwanted hn) hd
  rcases final_complete hi hl hcl (hi.finished hfin) m ht.1 ht.2 with hb | ⟨m', _, _, _, hm'⟩
  · exact hi.built m ht.1 hb
  · exact absurd hm' (hf _)

/-- C17: if a build that finished reports no error, then every root node of the primary products
    and everything these depend on has been completed. This needs no assumption on how rule
    applications treat waiting nodes, and it holds for canceled builds, too. -/
theorem C17_success_means_complete (hC : ∀ s r e, C s r e → SafeEffect s r e) (hw : WF g)
    (hr : ∀ n ∈ roots, n ∈ g.nodes) (h : Reach cfg C g roots s) (primary : List Node)
    (hp : ∀ n ∈ primary, n ∈ s.g.nodes) (hx : cfg.executeRulesOnly = false)
    (hok : ¬ ReportsError cfg primary s) (n m : Node) (hn : n ∈ primary)
    (hd : DependsOn s.g n m) : Completed s.log m := by
  have hi := (reach_inv hC hw hr h).1
  have hnb : s.bs n = .built := Classical.byContradiction fun hne =>
    hok (.inr (.inr (.inl ⟨hx, n, hn, hne⟩)))
  have : m ∈ s.g.nodes ∧ s.bs m = .built := by
    induction hd with
    | refl => exact ⟨hp n hn, hnb⟩
    | step p q _ hq ih => exact ⟨hi.wf.closed p ih.1 q hq, hi.gen p ih.1 (.inr ih.2) q hq⟩
  exact hi.built m this.1 this.2

/-! ### C18: failures stay contained -/

theorem not_built_of_failed (hi : Inv none s) {t : Tr} (hf : Ev.failed t ∈ s.log) {n m : Node}
    (hn : n ∈ s.g.nodes) (hk : s.g.kind m = .gen) (ht : s.g.tr m = t)
    (hd : DependsOn s.g n m) : s.bs n ≠ .built ∧ (n ≠ m → s.bs n ≠ .building) := by
  have key : ∀ m, DependsOn s.g n m → s.bs n = .built ∨ s.bs n = .building →
      m ∈ s.g.nodes ∧ (s.bs m = .built ∨ (m = n ∧ s.bs m = .building)) := by
    intro m hd hb
    induction hd with
    | refl => exact ⟨hn, hb.imp id fun h => ⟨rfl, h⟩⟩
    | step p q _ hq ih =>
      refine ⟨hi.wf.closed p ih.1 q hq, .inl (hi.gen p ih.1 ?_ q hq)⟩
      rcases ih.2 with h | ⟨_, h⟩
      · exact .inr h
      · exact .inl h
  constructor
  · intro hb
    obtain ⟨k1, k2⟩ := key m hd (.inl hb)
    have hbm := (hi.failed t hf).2 m k1 hk ht
    rcases k2 with h | ⟨rfl, h⟩
    · rw [hbm] at h; simp at h
    · rw [hb] at hbm; simp at hbm
  · intro hne hb
    obtain ⟨k1, k2⟩ := key m hd (.inr hb)
    have hbm := (hi.failed t hf).2 m k1 hk ht
    rcases k2 with h | ⟨h, _⟩
    · rw [hbm] at h; simp at h
    · exact hne h.symm

/-- C18: nothing that depends on an output of a failed transformer is completed, and the commands
    of no other transformer with such an output are launched (with or without keep-going). -/
theorem C18_failure_contained (hC : ∀ s r e, C s r e → SafeEffect s r e) (hw : WF g)
    (hr : ∀ n ∈ roots, n ∈ g.nodes) (h : Reach cfg C g roots s) (t : Tr)
    (hf : Ev.failed t ∈ s.log) (n m : Node) (hn : n ∈ s.g.nodes) (hk : s.g.kind m = .gen)
    (ht : s.g.tr m = t) (hd : DependsOn s.g n m) :
    ¬ Completed s.log n ∧ (s.g.kind n = .gen → s.g.tr n ≠ t → ¬ Started s.log (s.g.tr n)) := by
  have hi := (reach_inv hC hw hr h).1
  obtain ⟨h1, h2⟩ := not_built_of_failed hi hf hn hk ht hd
  refine ⟨fun hc => h1 (hi.completed n hc).2, fun hkn htn hs => ?_⟩
  have hne : n ≠ m := fun e => htn (e ▸ ht)
  rcases (hi.started _ hs).2 n hn hkn rfl with hb | hb
  · exact h2 hne hb
  · exact h1 hb

/-- C18: a root node of a primary product that depends on an output of a failed transformer makes
    the build report an error. -/
theorem C18_failure_reported (hC : ∀ s r e, C s r e → SafeEffect s r e) (hw : WF g)
    (hr : ∀ n ∈ roots, n ∈ g.nodes) (h : Reach cfg C g roots s) (primary : List Node)
    (hx : cfg.executeRulesOnly = false) (t : Tr)
    (hf : Ev.failed t ∈ s.log) (n m : Node) (hp : n ∈ primary) (hn : n ∈ s.g.nodes)
    (hk : s.g.kind m = .gen) (ht : s.g.tr m = t) (hd : DependsOn s.g n m) :
    ReportsError cfg primary s :=
  .inr (.inr (.inl ⟨hx, n, hp,
    (not_built_of_failed (reach_inv hC hw hr h).1 hf hn hk ht hd).1⟩))

/-- C18: without keep-going no commands are launched and no rule is applied after a failure, and
    the build reports an error. -/
theorem C18_stop_on_failure (hC : ∀ s r e, C s r e → SafeEffect s r e) (hw : WF g)
    (hr : ∀ n ∈ roots, n ∈ g.nodes) (hk : cfg.keepGoing = false) (h : Reach cfg C g roots s)
    (t : Tr) :
    (∀ t' deps pre, HappenedAfter s.log (.start t' deps) pre → Ev.failed t ∉ pre) ∧
    (∀ r deps pre, HappenedAfter s.log (.apply r deps) pre → Ev.failed t ∉ pre) ∧
    (Ev.failed t ∈ s.log → ∀ primary, ReportsError cfg primary s) := by
  have hq := (reach_noWork hC hw hr hk h).1
  have key : ∀ e pre, HappenedAfter s.log e pre → NewWork e → Ev.failed t ∉ pre := by
    intro e pre ⟨post, hl⟩ hn
    rw [hl] at hq
    clear hl h
    induction post with
    | nil => exact hq.2 hn t
    | cons e' post ih => exact ih hq.1
  exact ⟨fun t' deps pre hl => key _ _ hl (.inl ⟨_, _, rfl⟩),
    fun r deps pre hl => key _ _ hl (.inr ⟨_, _, rfl⟩),
    fun hf primary => .inr (.inl ⟨hk, t, hf⟩)⟩

/-- C18 (contract on waiting nodes as for `C17_complete_partial`): with keep-going everything that
    was requested and does not depend on an output of a failed transformer is completed. -/
theorem C18_keep_going_builds_the_rest_partial (hC : ∀ s r e, C s r e → LiveEffect s r e)
    (hw : WF g) (ha : Acyclic g) (hr : ∀ n ∈ roots, n ∈ g.nodes) (h : Reach cfg C g roots s)
    (hfin : Finished s.log) (hcl : Clean s.log) (n : Node)
    (hn : n ∈ s.g.nodes) (hwanted : n ∈ roots ∨ n ∉ g.nodes) (m : Node) (hd : DependsOn s.g n m)
    (hindep : ∀ k, DependsOn s.g m k → s.g.kind k = .gen → Ev.failed (s.g.tr k) ∉ s.log) :
    Completed s.log m := by
  have hi := (reach_inv (fun s r e h => (hC s r e h).toSafeEffect) hw hr h).1
  have hl := reach_live hC hw ha hr h
  have ht := touched_deps hi hl hcl hn (hl.roots hcl n hwanted hn) hd
  rcases final_complete hi hl hcl (hi.finished hfin) m ht.1 ht.2 with hb | ⟨k, _, k1, k2, k3⟩
  · exact hi.built m ht.1 hb
  · exact absurd k3 (hindep k k1 k2)

/-! ### C19: cancellation -/

/-- C19: once the executor has begun to cancel, no commands are launched and no rule is applied. -/
theorem C19_no_work_after_cancel (hC : ∀ s r e, C s r e → SafeEffect s r e) (hw : WF g)
    (hr : ∀ n ∈ roots, n ∈ g.nodes) (h : Reach cfg C g roots s) :
    (∀ t deps pre, HappenedAfter s.log (.start t deps) pre → ¬ Canceled pre) ∧
    (∀ r deps pre, HappenedAfter s.log (.apply r deps) pre → ¬ Canceled pre) := by
  have ht := (reach_inv hC hw hr h).1.trace
  exact ⟨fun t deps pre hl => (trace_at ht hl).2.2.1, fun r deps pre hl => (trace_at ht hl).2.2.1⟩

/-- C19: when the executor begins to cancel, every job that is still at work is told to stop. -/
theorem C19_cancel_reaches_all_jobs (hC : ∀ s r e, C s r e → SafeEffect s r e) (hw : WF g)
    (hr : ∀ n ∈ roots, n ∈ g.nodes) (h : Reach cfg C g roots s) (ts : List Tr) (pre : List Ev)
    (hl : HappenedAfter s.log (.cancelJobs ts) pre) (t : Tr) (h1 : Started pre t)
    (h2 : ¬ Ended pre t) : t ∈ ts :=
  ((trace_at (reach_inv hC hw hr h).1.trace hl).2.2 t h1).resolve_left h2

/-- C19: the end of the build is announced only when every launched transformer has ended, and
    nothing happens afterwards. -/
theorem C19_finished_last (hC : ∀ s r e, C s r e → SafeEffect s r e) (hw : WF g)
    (hr : ∀ n ∈ roots, n ∈ g.nodes) (h : Reach cfg C g roots s) (b : Bool) (pre : List Ev)
    (hl : HappenedAfter s.log (.finished b) pre) :
    s.log = .finished b :: pre ∧ ∀ t, Started pre t → Ended pre t := by
  have ht := (reach_inv hC hw hr h).1.trace
  refine ⟨?_, (trace_at ht hl).2⟩
  obtain ⟨post, hl⟩ := hl
  cases post with
  | nil => exact hl
  | cons e post =>
    exfalso
    have hok : okAfter e (post ++ .finished b :: pre) := trace_at ht ⟨[], hl⟩
    have hfin : Finished (post ++ .finished b :: pre) := ⟨b, by simp⟩
    cases e with
    | start t d => exact hok.2.2.2 hfin
    | succeeded t => exact hok.2.2 hfin
    | failed t => exact hok.2.2 hfin
    | apply r d => exact hok.2.2.2 hfin
    | completed n w => exact hok.2.2 hfin
    | error => exact hok hfin
    | cancelJobs ts => exact hok.2.1 hfin
    | finished b => exact hok.1 hfin

/-- C19: if a cancellation request is in while the executor waits for jobs, then whatever happens
    from then on, no commands are launched and no rule is applied. -/
theorem C19_request_stops_new_work (hC : ∀ s r e, C s r e → SafeEffect s r e) (hw : WF g)
    (hr : ∀ n ∈ roots, n ∈ g.nodes) (h : Reach cfg C g roots s) (hc : s.cancelRequested = true)
    (hph : s.phase ≠ .scheduling) (s' : St) (hs : Steps cfg C s s') :
    ∃ evs, s'.log = evs ++ s.log ∧ ∀ e ∈ evs, ¬ NewWork e := by
  have key : Reach cfg C g roots s' ∧ s'.cancelRequested = true ∧ s'.phase ≠ .scheduling ∧
      ∃ evs, s'.log = evs ++ s.log ∧ ∀ e ∈ evs, ¬ NewWork e := by
    induction hs with
    | refl => exact ⟨h, hc, hph, [], rfl, by simp⟩
    | tail t u _ hstep ih =>
      obtain ⟨i1, i2, i3, evs, i4, i5⟩ := ih
      obtain ⟨j1, j2, evs', j4, j5⟩ := step_requested (reach_inv hC hw hr i1).1 hstep i2 i3
      refine ⟨.step _ _ i1 hstep, j1, j2, evs' ++ evs, by rw [j4, i4, List.append_assoc], ?_⟩
      intro e he
      rcases List.mem_append.mp he with he | he
      · exact j5 e he
      · exact i5 e he
  exact key.2.2.2

/-! ### C49, C50: what is left alone -/

theorem reach_events (hC : ∀ s r e, C s r e → SafeEffect s r e) (hw : WF g)
    (hr : ∀ n ∈ roots, n ∈ g.nodes) (h : Reach cfg C g roots s) (e : Ev) (he : e ∈ s.log)
    (hn : NewWork e) : ∃ s', Reach cfg C g roots s' ∧ e ∉ s'.log ∧ WorkIn cfg s' e ∧
      ∀ n ∈ s'.leaves, n ∈ s'.g.nodes := by
  induction h with
  | init => simp [initial, updateLeaves] at he
  | step s s' hreach hstep ih =>
    by_cases hes : e ∈ s.log
    · exact ih hes
    · have hlog : ∃ evs, s'.log = evs ++ s.log := by
        rcases step_log hstep with ⟨evs, h1, _⟩ | ⟨e', _, _, evs, h1, _⟩ | ⟨j, t, _, ⟨evs, h1, _⟩, _⟩
        · exact ⟨evs, h1⟩
        · exact ⟨evs ++ [e'], by rw [h1]; simp⟩
        · exact ⟨evs ++ [.failed t], by rw [h1]; simp⟩
      obtain ⟨evs, hev⟩ := hlog
      rw [hev] at he
      have := step_work hstep evs hev e ((List.mem_append.mp he).resolve_right hes) hn
      exact ⟨s, hreach, hes, this, fun n hn => ((reach_inv hC hw hr hreach).1.leaves n (.inl hn)).1⟩

/-- C49: a build that is only to execute rules never launches commands. -/
theorem C49_rules_only_launches_nothing (hC : ∀ s r e, C s r e → SafeEffect s r e) (hw : WF g)
    (hr : ∀ n ∈ roots, n ∈ g.nodes) (hx : cfg.executeRulesOnly = true)
    (h : Reach cfg C g roots s) (t : Tr) : ¬ Started s.log t := by
  rintro ⟨d, hd⟩
  obtain ⟨s', _, _, hw', _⟩ := reach_events hC hw hr h _ hd (.inl ⟨_, _, rfl⟩)
  rcases hw' with ⟨n, _, _, _, _, h5⟩ | ⟨r, h1, _⟩
  · rw [hx] at h5; simp at h5
  · simp at h1

/-- C50: in a build of selected products, commands are launched and rules are applied only for
    nodes of products that are to be built (the graph meant is the one at the time of the
    event). -/
theorem C50_only_selected_products (hC : ∀ s r e, C s r e → SafeEffect s r e) (hw : WF g)
    (hr : ∀ n ∈ roots, n ∈ g.nodes) (hx : cfg.partialBuild = true)
    (h : Reach cfg C g roots s) :
    (∀ t d, Ev.start t d ∈ s.log → ∃ s', Reach cfg C g roots s' ∧ Ev.start t d ∉ s'.log ∧
      ∃ n ∈ s'.g.nodes, s'.g.kind n = .gen ∧ s'.g.tr n = t ∧
        cfg.buildable (s'.g.product n) = true) ∧
    (∀ r d, Ev.apply r d ∈ s.log → ∃ s', Reach cfg C g roots s' ∧ Ev.apply r d ∉ s'.log ∧
      r ∈ s'.g.nodes ∧ s'.g.kind r = .rule ∧ cfg.buildable (s'.g.product r) = true) := by
  constructor
  · intro t d hd
    obtain ⟨s', h1, h2, hw', hl⟩ := reach_events hC hw hr h _ hd (.inl ⟨_, _, rfl⟩)
    rcases hw' with ⟨n, k1, k2, k3, k4, _⟩ | ⟨r, k1, _⟩
    · simp only [Ev.start.injEq] at k1
      exact ⟨s', h1, h2, n, hl n k2, k3, k1.1.symm, by simpa [productOk, hx] using k4⟩
    · simp at k1
  · intro r d hd
    obtain ⟨s', h1, h2, hw', hl⟩ := reach_events hC hw hr h _ hd (.inr ⟨_, _, rfl⟩)
    rcases hw' with ⟨n, k1, _⟩ | ⟨r', k1, k2, k3, k4⟩
    · simp at k1
    · simp only [Ev.apply.injEq] at k1
      obtain ⟨rfl, _⟩ := k1
      exact ⟨s', h1, h2, hl r k2, k3, by simpa [productOk, hx] using k4⟩

end
end Verif.Exec
