import Verif.Sched.Term
import Verif.Sched.Locks
/-!
# C52: properties
-/
namespace Verif.Sched

variable {pr : Project}

/-- **C52.** If no product depends on itself by name, not even indirectly, no error about a cycle comes up while
    dependencies are resolved, and no internal check fails. -/
theorem C52_no_false_cycle {s : State} (hpr : pr.Ok) (hac : Acyclic pr) (h : Reachable pr s) :
    s.cycles = [] ∧ s.asserted = false :=
  ⟨(inv_reachable hpr hac h).cycles, (inv_reachable hpr hac h).asserted⟩

/-- **C52.** No product is resolved twice; when the scheduler is done each one has been resolved, and the checks at the
    end succeed. -/
theorem C52_once {s : State} (hpr : pr.Ok) (hac : Acyclic pr) (h : Reachable pr s) :
    s.finished.Nodup ∧ (∀ p ∈ s.finished, p ∈ pr.products) ∧
    (Ended s → s.finished.Perm pr.products ∧ ChecksOk s) := by
  have hi := inv_reachable hpr hac h
  refine ⟨?_, fun p hp => (hi.disjoint hpr hp).2, ?_⟩
  · rw [List.nodup_iff_count]
    intro p
    have := hi.all p
    have := nodup_count hpr.distinct p
    omega
  · rintro ⟨h1, h2, h3, h4⟩
    obtain ⟨_, h5⟩ := hi.no_single hpr hac h1 h2 h3
    refine ⟨?_, h2, h5, h1, h4, h3⟩
    rw [List.perm_iff_count]
    intro p
    have := hi.all p
    rw [h5] at this
    simpa using this

/-- **C52.** As long as the scheduler is not done, something can happen. -/
theorem C52_progress {s : State} (hpr : pr.Ok) (hac : Acyclic pr) (h : Reachable pr s) (he : ¬Ended s) :
    ∃ s', Step pr true s s' := by
  have hi := inv_reachable hpr hac h
  cases hr : s.running with
  | cons t rest =>
    have ht : t ∈ s.running := by rw [hr]; exact List.mem_cons_self
    cases hp : t.phase with
    | resolving => exact ⟨_, .work t ht hp⟩
    | stage2 => exact ⟨_, .stage2 t ht hp⟩
    | done => exact ⟨_, .handle t true ht hp⟩
  | nil =>
    cases hq : s.queue with
    | cons e rest =>
      refine ⟨_, .schedule true e rest ?_ hq⟩
      rw [hr]
      exact hi.jobs.1
    | nil =>
      by_cases hb : s.waitBulk = []
      · exact absurd ⟨hr, hq, hb, (hi.no_single hpr hac hr hq hb).1⟩ he
      · exact ⟨_, .bulk hr hq hb⟩

/-- **C52.** The scheduler comes to an end whatever the order of events is, provided the attempts to create a thread do
    not fail even when there is to be a single one. -/
theorem C52_terminates (hpr : pr.Ok) (hac : Acyclic pr) : WellFounded (fun s' s => Reachable pr s ∧
    ∃ ok, Step pr ok s s' ∧ (ok = true ∨ 2 ≤ s.maxJobs)) := by
  refine Subrelation.wf ?_ (InvImage.wf size smaller_wf)
  rintro s' s ⟨hr, ok, hs, hok⟩
  exact smaller_step hpr hac (inv_reachable hpr hac hr) hs hok

/-- **C52.** No two threads work on the same product, or use the same loader state. -/
theorem C52_exclusive {s : State} (hpr : pr.Ok) (hac : Acyclic pr) (h : Reachable pr s) :
    (s.running.map (·.p)).Nodup ∧ (s.running.map (·.l)).Nodup := by
  have hi := inv_reachable hpr hac h
  constructor
  · rw [List.nodup_iff_count]
    intro p
    have := hi.le_one hpr p
    rw [count_places] at this
    omega
  · rw [List.nodup_iff_count]
    intro l
    have := hi.states l
    have := nodup_count hpr.states l
    omega

theorem running_setThread (s : State) (p : P) (a : Bool) (ph : Phase) :
    (setThread s p a ph).running.length = s.running.length ∧ (setThread s p a ph).maxJobs = s.maxJobs := by
  unfold setThread
  exact ⟨by rw [List.length_map], rfl⟩

theorem limit_start {s : State} {ok : Bool} {p : P} {l : L} {a : Bool} {n : Nat} (h1 : s.running.length < n)
    (h2 : s.maxJobs ≤ n) : (start s ok p l a).running.length ≤ n ∧ (start s ok p l a).maxJobs ≤ n := by
  unfold start
  cases ok with
  | true =>
    rw [if_pos rfl]
    refine ⟨?_, h2⟩
    show (s.running ++ [_]).length ≤ n
    rw [List.length_append, List.length_singleton]
    omega
  | false =>
    rw [if_neg (by simp)]
    refine ⟨?_, ?_⟩
    · show s.running.length ≤ n
      omega
    · show (if 2 ≤ s.maxJobs then s.maxJobs / 2 else s.maxJobs) ≤ n
      split <;> omega

/-- **C52.** There are never more threads than the user has asked for, with any project. -/
theorem C52_job_limit {s : State} (h : Reachable pr s) : s.running.length ≤ pr.maxJobs ∧ s.maxJobs ≤ pr.maxJobs := by
  induction h with
  | init => exact ⟨Nat.zero_le _, Nat.le_refl _⟩
  | @step _ s s' hr hs ih =>
    cases hs with
    | work t ht hph =>
      have key : (work pr s t).running.length = s.running.length ∧ (work pr s t).maxJobs = s.maxJobs := by
        unfold work
        split
        · split
          · exact running_setThread _ _ _ _
          · exact running_setThread _ _ _ _
        · split
          · exact ⟨rfl, rfl⟩
          · split
            · split
              · exact running_setThread _ _ _ _
              · exact ⟨rfl, rfl⟩
            · split
              · split
                · exact ⟨rfl, rfl⟩
                · exact ⟨rfl, rfl⟩
              · exact running_setThread _ _ _ _
        · split
          · exact running_setThread _ _ _ _
          · exact running_setThread _ _ _ _
      rw [key.1, key.2]
      exact ih
    | stage2 t ht hph =>
      rw [(running_setThread _ _ _ _).1, (running_setThread _ _ _ _).2]
      exact ih
    | handle t ok ht hph =>
      have hlen : (s.running.erase t).length < pr.maxJobs := by
        rw [List.length_erase_of_mem ht]
        have := List.length_pos_of_mem ht
        omega
      have hrel : ∀ ok, (release { s with running := s.running.erase t } ok t.l).running.length ≤ pr.maxJobs ∧
          (release { s with running := s.running.erase t } ok t.l).maxJobs ≤ pr.maxJobs := by
        intro ok
        unfold release
        cases ({ s with running := s.running.erase t } : State).waitState.find? (fun e => e.1 == t.l) with
        | none => exact ⟨by show (s.running.erase t).length ≤ _; omega, ih.2⟩
        | some e => exact limit_start hlen ih.2
      unfold handle
      simp only []
      split
      · exact hrel _
      · unfold wait
        split
        · split <;> exact hrel _
        · exact hrel _
        · exact hrel _
    | schedule ok e rest hj hq =>
      unfold schedule
      simp only []
      cases s.avail.getLast? with
      | none => exact ih
      | some last =>
        simp only []
        cases e.2.1 with
        | none => exact limit_start (Nat.lt_of_lt_of_le hj ih.2) ih.2
        | some l =>
          simp only []
          split
          · exact limit_start (Nat.lt_of_lt_of_le hj ih.2) ih.2
          · exact ih
    | bulk => exact ih
    | single => exact ih

/-- **C52.** A product is disabled if and only if there is a reason: it was broken before, its condition is false, it
    depends on itself, or it requires a product that is disabled. -/
theorem C52_disabled {s : State} (hpr : pr.Ok) (hac : Acyclic pr) (h : Reachable pr s) {p : P} (hp : p ∈ s.finished) :
    p ∈ s.disabled ↔ Bad pr p := by
  have hs := sem_reachable hpr hac h
  constructor
  · exact hs.dis p
  · intro hb
    rcases hs.fin p hp with h1 | h1
    · exact absurd hb (hs.not_bad h1)
    · exact h1

/-- **C52.** When a product is finished that is not disabled, all its dependencies by name that it requires have been
    finished before, without errors, and so have all the ones by type. -/
theorem C52_order {s : State} (hpr : pr.Ok) (hac : Acyclic pr) (h : Reachable pr s) {pre post : List P} {p : P}
    (hf : s.finished = pre ++ p :: post) : (∀ q ∈ s.deps p, q ∈ pre ∧ ¬Bad pr q) ∧
    (¬Bad pr p → ∀ q, Item.single q true ∈ pr.items p → q ∈ s.deps p) := by
  have hs := sem_reachable hpr hac h
  have hi := inv_reachable hpr hac h
  have hpf : p ∈ s.finished := by rw [hf]; simp
  refine ⟨?_, ?_⟩
  · intro q hq
    have hd := hs.deps p q hq
    exact ⟨hs.order pre p post hf q hq, fun hb => hd.2.1 ((C52_disabled hpr hac h hd.1).mpr hb)⟩
  · intro hb q hm
    have hty := (hs.fin p hpf).resolve_right (fun hx => hb (hs.dis p hx))
    rcases ((hs.typed p hty).2.2.2.1 q true hm).2.2 with ⟨_, hx⟩ | ⟨_, hx⟩
    · cases hx
    · exact hx

/-- **C52.** The dependencies of a product that has been finished and is not disabled: what it names and what it wants by
    type, as far as it is not disabled. Products that depend on others by type themselves, maybe indirectly, need not be
    found by type. -/
theorem C52_dependencies_partial {s : State} (hpr : pr.Ok) (hac : Acyclic pr) (h : Reachable pr s) {p : P}
    (hp : p ∈ s.finished) (hb : ¬Bad pr p) (q : P) :
    (q ∈ s.deps p → q ∈ pr.products ∧ q ≠ p ∧ ¬Bad pr q ∧ (Needs pr p q ∨ Wants pr p q)) ∧
    (q ∈ pr.products ∧ ¬Bad pr q ∧ (Needs pr p q ∨ (Wants pr p q ∧ ¬Above pr q)) → q ∈ s.deps p) := by
  have hs := sem_reachable hpr hac h
  have hi := inv_reachable hpr hac h
  have hty := (hs.fin p hp).resolve_right (fun hx => hb (hs.dis p hx))
  refine ⟨?_, ?_⟩
  · intro hq
    have hd := hs.deps p q hq
    exact ⟨(hi.disjoint hpr hd.1).2, hd.2.2.1, fun hx => hd.2.1 ((C52_disabled hpr hac h hd.1).mpr hx), hd.2.2.2⟩
  · rintro ⟨h1, h2, h3 | ⟨⟨h3, ts, h4, h5⟩, h6⟩⟩
    · obtain ⟨r, h3⟩ := h3
      rcases ((hs.typed p hty).2.2.2.1 q r h3).2.2 with ⟨hx, _⟩ | ⟨_, hx⟩
      · exact absurd (hs.dis q hx) h2
      · exact hx
    · exact (hs.typed p hty).2.2.2.2 ts h4 q ⟨h1, h3, h5, h6, h2⟩

/-- **C52.** An error about a dependency by type that came too late is about a product that depends on others by type
    indirectly. -/
theorem C52_missed {s : State} (hpr : pr.Ok) (hac : Acyclic pr) (h : Reachable pr s) {p a : P}
    (hm : (p, a) ∈ s.missed) : Wants pr a p ∧ Above pr p :=
  ⟨((sem_reachable hpr hac h).missed _ hm).2.2.2, ((sem_reachable hpr hac h).missed _ hm).2.2.1⟩

/-- **C52.** If no product is looked for by type that depends on others by type itself, the result depends neither on the
    number of threads nor on the order in which things happen: the same products are disabled, the others have the same
    dependencies, and there are no errors about cycles. -/
theorem C52_deterministic {pr₁ pr₂ : Project} {s₁ s₂ : State} (hpr₁ : pr₁.Ok) (hpr₂ : pr₂.Ok) (hac : Acyclic pr₁)
    (hsame : ∃ states jobs products, products.Perm pr₁.products ∧
      pr₂ = { pr₁ with states := states, maxJobs := jobs, products := products })
    (hab : ∀ p q, Wants pr₁ p q → ¬Above pr₁ q) (h₁ : Reachable pr₁ s₁) (he₁ : Ended s₁) (h₂ : Reachable pr₂ s₂)
    (he₂ : Ended s₂) : (∀ p, p ∈ s₁.disabled ↔ p ∈ s₂.disabled) ∧
    (∀ p ∈ pr₁.products, p ∉ s₁.disabled → ∀ q, q ∈ s₁.deps p ↔ q ∈ s₂.deps p) ∧
    s₁.missed = [] ∧ s₂.missed = [] ∧ s₁.cycles = [] ∧ s₂.cycles = [] := by
  obtain ⟨states, jobs, products, hperm, rfl⟩ := hsame
  have hb : ∀ p, Bad { pr₁ with states := states, maxJobs := jobs, products := products } p ↔ Bad pr₁ p := by
    intro p
    constructor
    · intro h
      induction h with
      | broken h => exact .broken h
      | condition h => exact .condition h
      | self h => exact .self h
      | dependency h _ ih => exact .dependency h ih
    · intro h
      induction h with
      | broken h => exact .broken h
      | condition h => exact .condition h
      | self h => exact .self h
      | dependency h _ ih => exact .dependency h ih
  have ha : ∀ p, Above { pr₁ with states := states, maxJobs := jobs, products := products } p → Above pr₁ p := by
    intro p h
    induction h with
    | bulk h => exact .bulk h
    | needs h _ ih => exact .needs h ih
  have hac' : Acyclic { pr₁ with states := states, maxJobs := jobs, products := products } := hac
  have f₁ := ((C52_once hpr₁ hac h₁).2.2 he₁).1
  have f₂ := ((C52_once hpr₂ hac' h₂).2.2 he₂).1
  have g₂ : s₂.finished.Perm pr₁.products := f₂.trans hperm
  have key : ∀ p, p ∈ s₁.disabled ↔ p ∈ s₂.disabled := by
    intro p
    have d₁ := sem_reachable hpr₁ hac h₁
    have d₂ := sem_reachable hpr₂ hac' h₂
    constructor
    · intro hp
      exact (C52_disabled hpr₂ hac' h₂ (g₂.mem_iff.mpr (d₁.disProd p hp))).mpr ((hb p).mpr (d₁.dis p hp))
    · intro hp
      have hpp : p ∈ pr₁.products := hperm.mem_iff.mp (d₂.disProd p hp)
      exact (C52_disabled hpr₁ hac h₁ (f₁.mem_iff.mpr hpp)).mpr ((hb p).mp (d₂.dis p hp))
  refine ⟨key, ?_, ?_, ?_, (C52_no_false_cycle hpr₁ hac h₁).1, (C52_no_false_cycle hpr₂ hac' h₂).1⟩
  · intro p hp hnd q
    have hp₁ := f₁.mem_iff.mpr hp
    have hp₂ := g₂.mem_iff.mpr hp
    have hbad : ¬Bad pr₁ p := fun hx => hnd ((C52_disabled hpr₁ hac h₁ hp₁).mpr hx)
    have r₁ := C52_dependencies_partial hpr₁ hac h₁ hp₁ hbad q
    have r₂ := C52_dependencies_partial hpr₂ hac' h₂ hp₂ (fun hx => hbad ((hb p).mp hx)) q
    constructor
    · intro hq
      obtain ⟨h1, -, h2, h3⟩ := r₁.1 hq
      refine r₂.2 ⟨hperm.mem_iff.mpr h1, fun hx => h2 ((hb q).mp hx), ?_⟩
      rcases h3 with h3 | h3
      · exact Or.inl h3
      · exact Or.inr ⟨h3, fun hx => hab p q h3 (ha q hx)⟩
    · intro hq
      obtain ⟨h1, -, h2, h3⟩ := r₂.1 hq
      refine r₁.2 ⟨hperm.mem_iff.mp h1, fun hx => h2 ((hb q).mpr hx), ?_⟩
      rcases h3 with h3 | h3
      · exact Or.inl h3
      · exact Or.inr ⟨h3, hab p q h3⟩
  · rw [List.eq_nil_iff_forall_not_mem]
    rintro ⟨p, a⟩ hx
    obtain ⟨h1, h2⟩ := C52_missed hpr₁ hac h₁ hx
    exact hab a p h1 h2
  · rw [List.eq_nil_iff_forall_not_mem]
    rintro ⟨p, a⟩ hx
    obtain ⟨h1, h2⟩ := C52_missed hpr₂ hac' h₂ hx
    exact hab a p h1 (ha p h2)

end Verif.Sched
