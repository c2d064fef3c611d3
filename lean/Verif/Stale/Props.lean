import Verif.Stale.Run
/-!
# C53, C54: properties
-/
namespace Verif.Stale

theorem resolve_spec {ld : Loader} {force : Bool} {old : List Probe} {config env : Nat} {W : Nat → World} {st : Stored}
    (h : resolve ld force old config env W = some st) : ∃ n,
    run ld.configure force old W (ld.prog config env) 0 Rec.empty = some (st.result, n, st.record) ∧
    st.start = (W 0).now ∧ st.end_ = (W n).now ∧ st.config = config ∧ st.env = env ∧ Covered W n st.record := by
  unfold resolve at h
  cases hr : run ld.configure force old W (ld.prog config env) 0 Rec.empty with
  | none => rw [hr] at h; cases h
  | some x =>
    obtain ⟨v, n, r⟩ := x
    rw [hr] at h
    simp only [Option.some.injEq] at h
    subst h
    exact ⟨n, rfl, rfl, rfl, rfl, rfl, (run_spec _ _ _ hr).2.2.2 (covered_empty W)⟩

theorem scratch_of_agrees {ld : Loader} {force : Bool} {old : List Probe} {config env : Nat} {W : Nat → World}
    {st : Stored} {w : World} (h : resolve ld force old config env W = some st) (hre : st.record.reused = false)
    (ha : Agrees w st.record) : scratch ld config env w = some st.result := by
  obtain ⟨n, hr, _⟩ := resolve_spec h
  obtain ⟨m', s', h'⟩ := replay _ _ _ hr ha hre 0 Rec.empty true rfl
  unfold scratch resolve
  rw [h']
  rfl

theorem answer_of_content {w w' : World} {p : Path} (h : w.content p = w'.content p) :
    answer w (.read p) = answer w' (.read p) := by
  simp only [answer, h]

/-- Everything that was asked has the same answer as before, if nothing that was checked has changed. -/
theorem agrees_of_unchanged {ld : Loader} {ps : Params} {W : Nat → World} {n : Nat} {st : Stored} {w : World}
    (hc : Covered W n st.record) (hst : st.start = (W 0).now) (hend : st.end_ = (W n).now)
    (hcons : Consistent st.record) (htr : ∀ q a, (q, a) ∈ st.record.asked → q.Tracked)
    (hhon : Honest W st.end_ w) (hset : Settled ld st w) (hsrc : SourcesKept st w)
    (hn : necessary ld ps w st = false) : Agrees w st.record := by
  simp only [necessary, Bool.or_eq_false_iff] at hn
  obtain ⟨⟨⟨⟨⟨⟨_, hp⟩, _⟩, hb⟩, _⟩, hres⟩, _⟩ := hn
  simp only [resultChanged, Bool.or_eq_false_iff, List.any_eq_false] at hres
  obtain ⟨⟨hex, hen⟩, hmo⟩ := hres
  simp only [productFileChanged, List.any_eq_false, Bool.or_eq_true, not_or] at hp
  simp only [buildSystemFileChanged, List.any_eq_false, List.mem_filter, Bool.not_eq_true', and_imp] at hb
  intro q a hm
  cases q with
  | read p =>
    obtain ⟨hf, hne⟩ := hc.read p a hm
    obtain ⟨i, hi, hai⟩ := hc.time _ _ hm
    have hclock := hhon.clock 0 i (by omega)
    have hclock' := hhon.clock i n (by omega)
    apply Classical.byContradiction
    intro hd
    have hcd : (W i).content p ≠ w.content p := by
      intro he
      exact hd (by rw [hai]; exact (answer_of_content he).symm)
    have hlt := hhon.later i p (by omega) hcd
    by_cases hpr : p ∈ st.record.products
    · have := (hp p hpr).1.1
      simp only [fileChanged, Bool.or_eq_true, decide_eq_true_eq, not_or] at this
      omega
    · have := hb p hf (by simpa using hpr)
      by_cases hg : generated ld st p = true
      · have hs := hset p a hm hg hd
        rw [if_pos hg] at this
        simp only [fileChanged, Bool.or_eq_true, decide_eq_true_eq, not_or] at this
        omega
      · rw [if_neg hg] at this
        simp only [fileChanged, Bool.or_eq_true, decide_eq_true_eq, not_or] at this
        omega
  | «exists» p =>
    obtain ⟨b, hb'⟩ := hc.existing p a hm
    have h1 := hcons _ _ _ (by trivial) hm (hc.existing' p b hb')
    have h2 := hex _ hb'
    simp only [bne_iff_ne, ne_eq, Classical.not_not] at h2
    rw [h1, ← h2]
    rfl
  | modified p =>
    obtain ⟨b, hb'⟩ := hc.modified p a hm
    have h1 := hcons _ _ _ (by trivial) hm (hc.modified' p b hb')
    have h2 := hmo _ hb'
    simp only [bne_iff_ne, ne_eq, Classical.not_not] at h2
    rw [h1, ← h2]
    rfl
  | entries p f =>
    obtain ⟨b, hb'⟩ := hc.entries p f a hm
    have h1 := hcons _ _ _ (by trivial) hm (hc.entries' p f b hb')
    have h2 := hen _ hb'
    simp only [bne_iff_ne, ne_eq, Classical.not_not] at h2
    rw [h1, ← h2]
    rfl
  | source pr p =>
    obtain ⟨hpr, hmiss⟩ := hc.source pr p a hm
    obtain ⟨i, _, hai⟩ := hc.time _ _ hm
    have hab : a = .bool ((W i).has p) := hai
    show Answer.bool (w.has p) = a
    cases hx : (W i).has p with
    | true =>
      rw [hx] at hab
      subst hab
      rw [hsrc pr p hm]
    | false =>
      rw [hx] at hab
      have h1 := (hp pr hpr).1.2
      simp only [List.any_eq_true, not_exists, not_and, Bool.and_eq_true, decide_eq_true_eq] at h1
      have h2 := h1 (pr, p) (hmiss hab) rfl
      rw [hab]
      simpa using h2
  | wild pr x =>
    obtain ⟨hpr, stamps, l, hal, hw⟩ := hc.wild pr x a hm
    have h1 := (hp pr hpr).2
    simp only [List.any_eq_true, not_exists, not_and, Bool.and_eq_true, decide_eq_true_eq] at h1
    have h2 := h1 _ hw rfl
    simp only [wildChanged, Bool.or_eq_true, not_or, bne_iff_ne, ne_eq, Classical.not_not] at h2
    rw [hal, ← h2.2]
    rfl
  | canonical p => exact (htr _ _ hm).elim
  | lookup p => exact (htr _ _ hm).elim
  | text p => exact (htr _ _ hm).elim

theorem run_forced {cf : Configure} {old : List Probe} {W : Nat → World} : ∀ (prog : Prog) (n : Nat) (r : Rec)
    {v n' : Nat} {r' : Rec}, run cf true old W prog n r = some (v, n', r') → r.reused = false → r'.reused = false := by
  intro prog
  induction prog with
  | ret u =>
    intro n r v n' r' h hr
    simp only [run, Option.some.injEq, Prod.mk.injEq] at h
    rw [← h.2.2]
    exact hr
  | ask q k ih =>
    intro n r v n' r' h hr
    unfold run at h
    by_cases hu : unreadable (W n) q = true
    · rw [if_pos hu] at h; cases h
    · rw [if_neg hu] at h
      exact ih _ _ _ h (by rw [(noted_fields _ _ _).2.1]; exact hr)
  | probe key k ih =>
    intro n r v n' r' h hr
    unfold run at h
    have hfo : findOld (W n) true old key = none := rfl
    rw [hfo] at h
    simp only [] at h
    cases hfc : findCurrent r key with
    | some p =>
      rw [hfc] at h
      exact ih _ _ _ h hr
    | none =>
      rw [hfc] at h
      simp only [] at h
      cases hs : runScript W (cf key.props key.code) n r [] with
      | none => rw [hs] at h; cases h
      | some x =>
        obtain ⟨v1, n1, r1, im⟩ := x
        rw [hs] at h
        refine ih _ _ _ h ?_
        exact (runScript_spec _ _ _ _ hs).2.2.2.1.trans hr

/-- **C53.** If it is decided that a project need not be resolved again, resolving it from scratch would give the same
    result, with the configuration and environment that count. This is for projects that were resolved without results
    of earlier probes, and ask only for things that are remembered, none of which changed while the project was being
    resolved; for source files that have not vanished; and if modified files are newer. Without these conditions it is
    false, see the findings. -/
theorem C53_sound_partial {ld : Loader} {force : Bool} {old : List Probe} {config env : Nat} {W : Nat → World}
    {st : Stored} {w : World} {ps : Params} (h : resolve ld force old config env W = some st)
    (hre : st.record.reused = false) (hcons : Consistent st.record)
    (htr : ∀ q a, (q, a) ∈ st.record.asked → q.Tracked) (hhon : Honest W st.end_ w) (hset : Settled ld st w)
    (hsrc : SourcesKept st w) (hn : necessary ld ps w st = false) :
    scratch ld (ps.effective st).1 (ps.effective st).2 w = some st.result := by
  obtain ⟨n, hr, hst, hend, hcfg, henv, hc⟩ := resolve_spec h
  have ha := agrees_of_unchanged hc hst hend hcons htr hhon hset hsrc hn
  have := scratch_of_agrees h hre ha
  unfold Params.effective
  by_cases ho : ps.override = true
  · rw [if_pos ho]
    simp only [necessary, Bool.or_eq_false_iff, configChanged, environmentChanged, ho, Bool.true_and, bne_eq_false_iff_eq]
      at hn
    simp only [hn.1.1.1.1.1.1, hn.1.1.2, hcfg, henv]
    exact this
  · rw [if_neg ho, hcfg, henv]
    exact this

/-- **C53.** After a project has been loaded in a world that does not change meanwhile, without using results of earlier
    probes, it is as if it had been resolved from scratch. -/
theorem C53_load_partial {ld : Loader} {force : Bool} {old : List Probe} {config env : Nat} {W : Nat → World}
    {st st' : Stored} {w : World} {ps : Params} (h : resolve ld force old config env W = some st)
    (hcons : Consistent st.record) (htr : ∀ q a, (q, a) ∈ st.record.asked → q.Tracked) (hhon : Honest W st.end_ w)
    (hset : Settled ld st w) (hsrc : SourcesKept st w) (hl : load ld ps (fun _ => w) st = some st')
    (hre : st'.record.reused = false) :
    scratch ld (ps.effective st).1 (ps.effective st).2 w = some st'.result := by
  unfold load at hl
  by_cases hn : necessary ld ps w st = true
  · rw [if_pos hn] at hl
    obtain ⟨n, hr, _, _, _, _, hc⟩ := resolve_spec hl
    have ha : Agrees w st'.record := by
      intro q a hm
      obtain ⟨i, _, hi⟩ := hc.time q a hm
      exact hi.symm
    have := scratch_of_agrees hl hre ha
    unfold Params.effective
    cases ho : ps.override <;> simpa [ho] using this
  · rw [if_neg hn] at hl
    simp only [Option.some.injEq] at hl
    subst hl
    exact C53_sound_partial h hre hcons htr hhon hset hsrc (by simpa using hn)

/-- **C54.** A project is not resolved again without need: not if everything that was asked has the same answer,
    no file that was read and no directory that was searched is newer than remembered, and nothing else is wanted. -/
theorem C54_quiet {ld : Loader} {force : Bool} {old : List Probe} {config env : Nat} {W : Nat → World} {st : Stored}
    {w : World} {ps : Params} (h : resolve ld force old config env W = some st)
    (hle : st.start ≤ st.end_) (hsame : ∀ q a, (q, a) ∈ st.record.asked → answer w q = a)
    (hread : ∀ pr ∈ st.record.products, pr ∈ st.record.files)
    (hold : ∀ p ∈ st.record.files, w.mtime p ≤ st.start)
    (hdirs : ∀ pr x stamps l, (pr, x, stamps, l) ∈ st.record.wilds → ∀ e ∈ stamps, w.mtime e.1 ≤ e.2)
    (hps : ps.override = true → ps.config = config ∧ ps.env = env) (hf : ps.forceProbes = false)
    (hfr : ps.forceResolve = false) : necessary ld ps w st = false := by
  obtain ⟨n, hr, hst, hend, hcfg, henv, hc⟩ := resolve_spec h
  have hhas : ∀ p ∈ st.record.files, w.has p = true := by
    intro p hp
    obtain ⟨a, hm⟩ := hc.files' p hp
    have h1 := (hc.read p a hm).2
    have h2 := hsame _ _ hm
    simp only [answer] at h2
    unfold World.has
    cases hcon : w.content p with
    | none => rw [hcon] at h2; exact absurd h2.symm h1
    | some s => rfl
  have hfc : ∀ p ∈ st.record.files, fileChanged w st.start p = false := by
    intro p hp
    unfold fileChanged
    rw [hhas p hp]
    have := hold p hp
    simpa using this
  simp only [necessary, Bool.or_eq_false_iff]
  refine ⟨⟨⟨⟨⟨⟨?_, ?_⟩, ?_⟩, ?_⟩, ?_⟩, ?_⟩, hfr⟩
  · unfold configChanged
    by_cases ho : ps.override = true
    · simp [(hps ho).1, hcfg]
    · simp [ho]
  · simp only [productFileChanged, List.any_eq_false, Bool.or_eq_true, not_or]
    intro pr hpr
    refine ⟨⟨?_, ?_⟩, ?_⟩
    · rw [hfc pr (hread pr hpr)]
      simp
    · simp only [List.any_eq_true, not_exists, not_and, Bool.and_eq_true, decide_eq_true_eq]
      rintro ⟨pr', p⟩ hm _
      have := hsame _ _ (hc.missing' pr' p hm)
      simp only [answer, Answer.bool.injEq] at this
      simp [this]
    · simp only [List.any_eq_true, not_exists, not_and, Bool.and_eq_true, decide_eq_true_eq]
      rintro ⟨pr', x, stamps, l⟩ hm _
      have h1 := hsame _ _ (hc.wild' pr' x stamps l hm).1
      simp only [answer, Answer.paths.injEq] at h1
      simp only [wildChanged, Bool.or_eq_true, not_or, bne_iff_ne, ne_eq, Classical.not_not, List.any_eq_true,
        not_exists, not_and, decide_eq_true_eq]
      refine ⟨?_, h1⟩
      intro e he
      have := hdirs _ _ _ _ hm e he
      omega
  · simp [probesForced, hf]
  · simp only [buildSystemFileChanged, List.any_eq_false, List.mem_filter, and_imp]
    intro p hp _
    by_cases hg : generated ld st p = true
    · rw [if_pos hg]
      have h1 := hold p hp
      have h2 := hhas p hp
      unfold fileChanged
      rw [h2]
      have h3 := Nat.le_trans h1 hle
      simpa using h3
    · rw [if_neg hg, hfc p hp]
      simp
  · unfold environmentChanged
    by_cases ho : ps.override = true
    · simp [(hps ho).2, henv]
    · simp [ho]
  · simp only [resultChanged, Bool.or_eq_false_iff, List.any_eq_false, bne_iff_ne, ne_eq, Classical.not_not]
    refine ⟨⟨?_, ?_⟩, ?_⟩
    · rintro ⟨p, b⟩ hm
      have := hsame _ _ (hc.existing' p b hm)
      simpa [answer] using this
    · rintro ⟨⟨p, f⟩, b⟩ hm
      have := hsame _ _ (hc.entries' p f b hm)
      simpa [answer] using this
    · rintro ⟨p, b⟩ hm
      have := hsame _ _ (hc.modified' p b hm)
      simpa [answer] using this

/-- **C54.** With probes forced to be run, and resolving forced, a project is always as if it had been resolved from
    scratch, whatever has been stored. -/
theorem C54_forced {ld : Loader} {st st' : Stored} {w : World} {ps : Params}
    (hl : load ld ps (fun _ => w) st = some st') (hf : ps.forceProbes = true) (hr : ps.forceResolve = true) :
    scratch ld (ps.effective st).1 (ps.effective st).2 w = some st'.result := by
  have hn : necessary ld ps w st = true := by simp [necessary, hr]
  unfold load at hl
  rw [if_pos hn, hf] at hl
  obtain ⟨n, hr, _, _, _, _, hc⟩ := resolve_spec hl
  have ha : Agrees w st'.record := by
    intro q a hm
    obtain ⟨i, _, hi⟩ := hc.time q a hm
    exact hi.symm
  have := scratch_of_agrees hl (run_forced _ _ _ hr rfl) ha
  unfold Params.effective
  cases ho : ps.override <;> simpa [ho] using this

end Verif.Stale
