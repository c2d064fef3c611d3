import Verif.Exec.Inv

/-
Every reachable state of a build satisfies the invariant.
-/

namespace Verif.Exec

/-- While the build is running, artifacts of one transformer become built together (unless their
    product is not part of the build). -/
def Sib (cfg : Cfg) (s : St) : Prop :=
  s.st = .running → ∀ m ∈ s.g.nodes, ∀ n ∈ s.g.nodes, s.g.kind m = .gen → s.g.kind n = .gen →
    s.g.tr m = s.g.tr n → productOk cfg s m = true → s.bs m = .built → s.bs n = .built

theorem Sib.of_not_running {cfg : Cfg} {s : St} (h : s.st ≠ .running) : Sib cfg s :=
  fun hs => absurd hs h

theorem finishLoop_bs (why : Why) : ∀ (l : List Node) (s : St) (m : Node),
    (l.foldl (finishNode why) s).bs m = if m ∈ l then .built else s.bs m
  | [], s, m => by simp
  | n :: l, s, m => by
      rw [List.foldl_cons, finishLoop_bs why l]
      simp only [finishNode, upd, List.mem_cons]
      by_cases h1 : m ∈ l <;> by_cases h2 : m = n <;> simp [h1, h2]

theorem handleError_st (s : St) : (handleError s).st ≠ .running := by
  unfold handleError abort
  split
  · simp [finish]
  · simp [cancelJobs_st]

theorem Sib.afterJob {cfg : Cfg} {ok : Bool} {s : St} (h : Sib cfg s) :
    Sib cfg (Verif.Exec.afterJob cfg ok s) := by
  have hc : ∀ s : St, Sib cfg (cancelJobs s) := fun s => .of_not_running (by simp [cancelJobs_st])
  unfold Verif.Exec.afterJob
  dsimp only
  have h1 : Sib cfg (if (!ok && !cfg.keepGoing) = true then cancelJobs s else s) := by
    split
    · exact hc _
    · exact h
  generalize (if (!ok && !cfg.keepGoing) = true then cancelJobs s else s) = s1 at *
  have h2 : Sib cfg (if s1.st = .running ∧ s1.cancelRequested = true
        then cancelJobs { s1 with explicitly := true } else s1) := by
    split
    · exact hc _
    · exact h1
  generalize (if s1.st = .running ∧ s1.cancelRequested = true
        then cancelJobs { s1 with explicitly := true } else s1) = s2 at *
  split
  · split
    · exact .of_not_running (by simp [finish])
    · exact h2
  · exact h2

theorem Sib.updateLeaves {cfg : Cfg} {s : St} (h : Sib cfg s) (hw : WF s.g) (ns : List Node)
    (hns : ∀ n ∈ ns, n ∈ s.g.nodes) : Sib cfg (updateLeaves s ns) := by
  obtain ⟨hb, _⟩ := updateLeaves_ok s ns hw hns
  have built_iff : ∀ n, (Verif.Exec.updateLeaves s ns).bs n = .built ↔ s.bs n = .built := by
    intro n
    rcases hb n with e | ⟨e1, e2⟩
    · rw [e]
    · rw [e1, e2]; simp
  intro hst m hm n hn hkm hkn htr hp hbm
  rw [built_iff] at hbm ⊢
  exact h hst m hm n hn hkm hkn htr hp hbm

theorem Sib.finishNode_nongen {cfg : Cfg} {s : St} (h : Sib cfg s) (why : Why) (r : Node)
    (hk : s.g.kind r ≠ .gen ∨ productOk cfg s r = false) (hw : WF s.g) (hr : r ∈ s.g.nodes) :
    Sib cfg (finishNode why s r) := by
  intro hst m hm n hn hkm hkn htr hp hbm
  simp only [finishNode, upd] at hbm ⊢
  split
  · rfl
  · by_cases hmr : m = r
    · subst hmr
      rcases hk with hk | hk
      · exact absurd hkm hk
      · have : productOk cfg s m = true := hp
        rw [hk] at this; simp at this
    · rw [if_neg hmr] at hbm
      exact h hst m hm n hn hkm hkn htr hp hbm

theorem Sib.applyEffect {cfg : Cfg} {x : Option Node} {s : St} {r : Node} {e : Effect}
    (hi : Inv x s) (h : Sib cfg s) (hr : s.bs r = .buildable) (hk : s.g.kind r = .rule)
    (he : SafeEffect s r e) : Sib cfg (applyEffect s e) := by
  intro hst m hm n hn hkm hkn htr hp hbm
  have hrb : s.bs r ≠ .built := by rw [hr]; simp
  have hms : m ∈ s.g.nodes := Classical.byContradiction fun hne => by
    simp [Verif.Exec.applyEffect, hne] at hbm
  have hbm' : s.bs m = .built := by simpa [Verif.Exec.applyEffect, hms] using hbm
  have hkm' : s.g.kind m = .gen := (he.kinds m hm hms).1 ▸ hkm
  have hrm : r ∉ s.g.children m := fun hc => hrb (hi.gen m hms (.inr hbm') r hc)
  have hmr : m ≠ r := fun heq => by rw [heq, hk] at hkm'; simp at hkm'
  have htm : e.g.tr m = s.g.tr m := (he.others m hm hms hmr hrm).1
  have hrn : r ∉ e.g.children n := fun hc =>
    hrm (he.transformer n hn hkn hc m hms hkm' (htm.symm.trans htr))
  have hns : n ∈ s.g.nodes := Classical.byContradiction fun hne => hrn (he.new n hn hne).2
  have hnr : n ≠ r := fun heq => by
    have := he.rule_stays.2
    have hkn' : e.g.kind n = .gen := hkn
    rw [← heq, hkn'] at this; simp at this
  have hrn' : r ∉ s.g.children n := fun hc => hrn (he.dependents n hn hns hnr hc)
  have htn : e.g.tr n = s.g.tr n := (he.others n hn hns hnr hrn').1
  have hkn' : s.g.kind n = .gen := (he.kinds n hn hns).1 ▸ hkn
  have hpm : productOk cfg s m = true := by
    have : productOk cfg (Verif.Exec.applyEffect s e) m = true := hp
    simpa [productOk, Verif.Exec.applyEffect, (he.kinds m hm hms).2] using this
  have := h hst m hms n hns hkm' hkn' (htm.symm.trans (htr.trans htn)) hpm hbm'
  simpa [Verif.Exec.applyEffect, hns] using this

theorem mem_mid {l1 l2 : List Node} {n m : Node} (h : m ∈ l1 ++ l2) : m ∈ l1 ++ n :: l2 := by
  simp only [List.mem_append, List.mem_cons] at h ⊢
  rcases h with h | h
  · exact .inl h
  · exact .inr (.inr h)

theorem outputs_nodup {g : Graph} (hw : WF g) (t : Tr) : (g.outputs t).Nodup :=
  hw.nodup.sublist List.filter_sublist

/-- Logging that the rule of rule node `n` is applied now. -/
theorem Inv.logApply {s : St} {n : Node} (h : Inv none s) (p2 : s.st = .running)
    (p1 : n ∈ s.g.nodes) (hb : s.bs n = .buildable) (p6 : ∀ c ∈ s.g.children n, s.bs c = .built)
    (hph : s.phase = .scheduling) :
    Inv (some n) { s with log := .apply n (s.g.children n) :: s.log } := by
  have hnc : ¬ Completed s.log n := fun hc => by
    have := (h.completed n hc).2
    rw [hb] at this; simp at this
  have p3 : s.phase ≠ .done := by simp [hph]
  refine
    { h with
      leaves := fun m hm => ⟨(h.leaves m hm).1, fun hst _ => (h.leaves m hm).2 hst (by simp)⟩
      started := fun t ht => h.started t (by simpa [started_cons] using ht)
      proc := fun j t hjt => by
        obtain ⟨q1, q2, q3⟩ := h.proc j t hjt
        exact ⟨by simpa [started_cons] using q1, by simpa [ended_cons] using q2, q3⟩
      failed := fun t ht => by
        obtain ⟨q1, q3⟩ := h.failed t (by simpa using ht)
        exact ⟨by simpa [started_cons] using q1, q3⟩
      ended := fun t ht => by
        have := h.ended t (by simpa [ended_cons] using ht)
        simpa [started_cons] using this
      unfinished := fun t ht => by
        have := h.unfinished t (by simpa [started_cons] using ht)
        simpa [ended_cons] using this
      built := fun m hm hbm => by simpa [completed_cons] using h.built m hm hbm
      completed := fun m hm => h.completed m (by simpa [completed_cons] using hm)
      trace := ?_
      finished := fun hf => h.finished (by simpa [finished_cons] using hf)
      applied := fun hst r d hr => ?_
      canceled := fun hc => h.canceled (by simpa [canceled_cons] using hc)
      notCanceled := fun hst => by simpa [canceled_cons] using h.notCanceled hst }
  · refine ⟨h.trace, fun c hc => h.built c (h.wf.closed n p1 c hc) (p6 c hc), fun d hd => ?_,
      fun hc => h.canceled hc p2, fun hf => p3 (h.finished hf)⟩
    rcases h.applied p2 n d hd with hx | hx
    · simp at hx
    · exact hnc hx
  · rcases List.mem_cons.mp hr with hr | hr
    · simp only [Ev.apply.injEq] at hr
      exact .inl (by rw [hr.1])
    · rcases h.applied p2 r d hr with hx | hx
      · simp at hx
      · right; simpa [completed_cons] using hx

/-- All steps preserve the invariant. -/
theorem step_inv {cfg : Cfg} {C : St → Node → Effect → Prop}
    (hC : ∀ s r e, C s r e → SafeEffect s r e) {s s' : St}
    (h : Inv none s) (hs : Sib cfg s) (hstep : Step cfg C s s') : Inv none s' ∧ Sib cfg s' := by
  have pop : ∀ {l1 l2 : List Node} {n : Node}, s.phase = .scheduling → s.leaves = l1 ++ n :: l2 →
      n ∈ s.g.nodes ∧ s.st = .running ∧ s.phase ≠ .done ∧ Inv none { s with leaves := l1 ++ l2 } ∧
      Sib cfg { s with leaves := l1 ++ l2 } ∧
      (s.bs n = .buildable → ∀ c ∈ s.g.children n, s.bs c = .built) := by
    intro l1 l2 n hph hl
    have hn := h.leaves n (.inl (by simp [hl]))
    have hst := h.scheduling hph
    exact ⟨hn.1, hst, by simp [hph],
      h.dropLeaves _ _ (fun m hm => hm.imp (fun hm => by rw [hl]; exact mem_mid hm) id), hs,
      fun hb => hn.2 hst (by simp) (.inl hb)⟩
  have noproc : ∀ {n : Node}, n ∈ s.g.nodes → s.g.kind n = .gen → s.bs n = .buildable →
      (∀ j, (j, s.g.tr n) ∉ s.proc) ∧ Ev.failed (s.g.tr n) ∉ s.log := by
    intro n hn hk hb
    refine ⟨fun j hj => ?_, fun hf => ?_⟩
    · have := (h.proc j _ hj).2.2 n hn hk rfl
      rw [hb] at this; simp at this
    · have := (h.failed _ hf).2 n hn hk rfl
      rw [hb] at this; simp at this
  have sibOut : ∀ {n : Node}, n ∈ s.g.nodes → s.g.kind n = .gen → s.bs n = .buildable →
      s.st = .running → productOk cfg s n = true →
      (∀ c ∈ s.g.children n, s.bs c = .built) →
      ∀ o ∈ s.g.outputs (s.g.tr n), o ∈ s.g.nodes ∧ s.g.kind o = .gen ∧ s.g.tr o = s.g.tr n ∧
        s.bs o ≠ .built ∧ ∀ c ∈ s.g.children o, s.bs c = .built := by
    intro n hn hk hb hst hp hc o ho
    obtain ⟨o1, o2, o3⟩ := mem_outputs.mp ho
    refine ⟨o1, o2, o3, fun hob => ?_, fun c hcc => hc c (h.wf.siblings o o1 n hn o2 hk o3 c hcc)⟩
    have hpo : productOk cfg s o = true := by
      simpa [productOk, h.wf.siblingProduct o o1 n hn o2 hk o3] using hp
    have := hs hst o o1 n hn o2 hk o3 hpo hob
    rw [hb] at this; simp at this
  cases hstep with
  | popSkip l1 l2 n hph hl hav hb =>
    obtain ⟨_, _, _, p4, p5, _⟩ := pop hph hl
    exact ⟨p4, p5⟩
  | popDelay l1 l2 n hph hl hav hb hbl =>
    refine ⟨h.dropLeaves _ _ fun m hm => ?_, hs⟩
    rcases hm with hm | hm
    · left; rw [hl]; exact mem_mid hm
    · rcases List.mem_cons.mp hm with hm | hm
      · left; rw [hl, hm]; simp
      · exact .inr hm
  | popIgnore l1 l2 n hph hl hav hb hbl hk hp =>
    obtain ⟨p1, p2, p3, p4, p5, p6⟩ := pop hph hl
    have hg := fun hkg => noproc p1 hkg hb
    have := p4.finishNode .ignored n p1 (by show s.bs n ≠ _; rw [hb]; simp) p3 (p6 hb)
      (fun hkg => (hg hkg).1) (fun hkg => (hg hkg).2) (by simp)
    exact ⟨by simpa using this, p5.finishNode_nongen _ _ (.inr hp) h.wf p1⟩
  | popSource l1 l2 n hph hl hav hb hbl hk =>
    obtain ⟨p1, p2, p3, p4, p5, p6⟩ := pop hph hl
    have hng : s.g.kind n ≠ .gen := by rw [hk]; simp
    have := p4.finishNode .source n p1 (by show s.bs n ≠ _; rw [hb]; simp) p3
      (p6 hb) (fun hkg => absurd hkg hng) (fun hkg => absurd hkg hng) (by simp)
    exact ⟨by simpa using this, p5.finishNode_nongen _ _ (.inl hng) h.wf p1⟩
  | popSkipTransformer l1 l2 n hph hl hav hb hbl hk hp =>
    obtain ⟨p1, p2, p3, p4, p5, p6⟩ := pop hph hl
    have hg := noproc p1 hk hb
    unfold finishTransformer
    dsimp only
    rw [List.take_length]
    refine ⟨p4.finishLoop _ (s.g.tr n) _ p3 (outputs_nodup h.wf _)
      (sibOut p1 hk hb p2 hp (p6 hb)) hg.1 hg.2 (by simp) (fun _ => .inl (by simp)), ?_⟩
    intro hst m hm m' hm' hkm hkm' htr hpm hbm
    have hfr := finishLoop_frame (.skipped (s.g.tr n)) (s.g.outputs (s.g.tr n))
      { s with leaves := l1 ++ l2 }
    have hgr := hfr.1
    rw [hgr] at hm hm' hkm hkm' htr
    rw [finishLoop_bs] at hbm ⊢
    split
    · rfl
    · rename_i hno
      have hmo : m ∉ s.g.outputs (s.g.tr n) := by
        intro hmo
        obtain ⟨_, _, e3⟩ := mem_outputs.mp hmo
        exact hno (mem_outputs.mpr ⟨hm', hkm', htr.symm.trans e3⟩)
      rw [if_neg hmo] at hbm
      refine hs (hfr.2.2.2.1 ▸ hst) m hm m' hm' hkm hkm' htr ?_ hbm
      simpa [productOk, hgr] using hpm
  | popRun _ l1 l2 n hph hl hav hb hbl hk hp hro hrun =>
    obtain ⟨p1, p2, p3, p4, p5, p6⟩ := pop hph hl
    have hso := sibOut p1 hk hb p2 hp (p6 hb)
    have hnb : ∀ o ∈ s.g.outputs (s.g.tr n), s.bs o ≠ .built := fun o ho => (hso o ho).2.2.2.1
    refine ⟨p4.runTransformer p2 hph p1 hk hb (p6 hb) hnb hrun, ?_⟩
    unfold runTransformer at hrun
    split at hrun
    · simp at hrun
    simp only [Option.some.injEq] at hrun
    subst hrun
    intro hst m hm m' hm' hkm hkm' htr hpm hbm
    dsimp only at hm hm' hkm hkm' htr hbm ⊢
    split at hbm
    · simp at hbm
    rename_i hmo
    split
    · rename_i hmo'
      obtain ⟨_, _, e3⟩ := mem_outputs.mp hmo'
      exact absurd (mem_outputs.mpr ⟨hm, hkm, htr.trans e3⟩) hmo
    · exact hs p2 m hm m' hm' hkm hkm' htr hpm hbm
  | popRule l1 l2 n e hph hl hav hb hbl hk hp hcon =>
    obtain ⟨p1, p2, p3, p4, p5, p6⟩ := pop hph hl
    have he := hC _ _ _ hcon
    have q := p4.logApply p2 p1 hb (p6 hb) hph
    have he' : SafeEffect
        { s with leaves := l1 ++ l2, log := .apply n (s.g.children n) :: s.log } n e :=
      { he with }
    have q1 := q.applyEffect p2 p1 hk hb he'
    have q2 := q1.updateLeaves e.created (fun m hm => he.nodes m (by simp [hm]))
    have q3 := q2.updateLeaves e.invalidated (fun m hm => he.nodes m (by simp [hm]))
    have hk' : e.g.kind n = .rule := he.rule_stays.2
    have hng : e.g.kind n ≠ .gen := by rw [hk']; simp
    -- the rule node is still buildable
    have hbn : (Verif.Exec.applyEffect
        { s with leaves := l1 ++ l2, log := .apply n (s.g.children n) :: s.log } e).bs n
        = .buildable := by simp [Verif.Exec.applyEffect, p1, hb]
    have ul_b : ∀ (s0 : St) (ns : List Node), WF s0.g → (∀ m ∈ ns, m ∈ s0.g.nodes) →
        s0.bs n = .buildable → (updateLeaves s0 ns).bs n = .buildable := by
      intro s0 ns hw hns hbu
      rcases (updateLeaves_ok s0 ns hw hns).1 n with e1 | ⟨e1, e2⟩
      · rw [e1]; exact hbu
      · exact e2
    have hb2 := ul_b _ e.created q1.wf (fun m hm => he.nodes m (by simp [hm])) hbn
    have hb3 := ul_b _ e.invalidated q2.wf (fun m hm => he.nodes m (by simp [hm])) hb2
    have ul_c : ∀ (s0 : St) (ns : List Node) (c : Node), WF s0.g → (∀ m ∈ ns, m ∈ s0.g.nodes) →
        s0.bs c = .built → (updateLeaves s0 ns).bs c = .built := by
      intro s0 ns c hw hns hbu
      rcases (updateLeaves_ok s0 ns hw hns).1 c with e1 | ⟨e1, e2⟩
      · rw [e1]; exact hbu
      · rw [hbu] at e1; simp at e1
    have q4 := q3.finishNode .applied n he.rule_stays.1 (by rw [hb3]; simp) p3
      (fun c hcc => by
        have hcs := he.rule c hcc
        refine ul_c _ e.invalidated c q2.wf (fun m hm => he.nodes m (by simp [hm])) ?_
        refine ul_c _ e.created c q1.wf (fun m hm => he.nodes m (by simp [hm])) ?_
        have : c ∈ s.g.nodes := h.wf.closed n p1 c hcs
        simpa [Verif.Exec.applyEffect, this] using p6 hb c hcs) (fun hkg => absurd hkg hng) (fun hkg => absurd hkg hng) (by simp)
    rw [if_pos rfl] at q4
    refine ⟨q4, ?_⟩
    have r1 := Sib.applyEffect (cfg := cfg) q hs hb hk he'
    have r2 := r1.updateLeaves q1.wf e.created (fun m hm => he.nodes m (by simp [hm]))
    have r3 := r2.updateLeaves q2.wf e.invalidated (fun m hm => he.nodes m (by simp [hm]))
    exact r3.finishNode_nongen _ _ (.inl hng) q3.wf he.rule_stays.1
  | popThrow l1 l2 n k hph hl hav hb hbl hk =>
    obtain ⟨p1, p2, p3, p4, p5, p6⟩ := pop hph hl
    refine ⟨?_, .of_not_running (handleError_st _)⟩
    unfold finishTransformer
    rcases hk with hk | ⟨hk, hp⟩
    · subst hk
      exact p4.handleError p3
    · have hg := noproc p1 hk hb
      have hso := sibOut p1 hk hb p2 hp (p6 hb)
      refine (p4.finishLoop _ (s.g.tr n) _ p3
        ((outputs_nodup h.wf _).sublist (List.take_sublist _ _))
        (fun o ho => hso o (List.mem_of_mem_take ho)) hg.1 hg.2 (by simp)
        (fun _ => .inl (by simp))).handleError ?_
      rw [(finishLoop_frame _ _ _).2.2.1]
      exact p3
  | popRuleThrow l1 l2 n e hph hl hav hb hbl hk hp hcon =>
    obtain ⟨p1, p2, p3, p4, p5, p6⟩ := pop hph hl
    refine ⟨?_, .of_not_running (handleError_st _)⟩
    have he := hC _ _ _ hcon
    have q := p4.logApply p2 p1 hb (p6 hb) hph
    have he' : SafeEffect
        { s with leaves := l1 ++ l2, log := .apply n (s.g.children n) :: s.log } n e :=
      { he with }
    exact (q.applyEffect p2 p1 hk hb he').handleError p3
  | endLoop hph hor =>
    have hd : Inv none { s with leaves := s.leaves ++ s.delayed, delayed := [] } :=
      h.dropLeaves _ _ fun m hm => by
        rcases hm with hm | hm
        · simpa using hm
        · simp at hm
    have hst := h.scheduling hph
    dsimp only
    split
    · rename_i hemp
      split
      · exact ⟨hd.finish (by simp [hph]) hemp.2, .of_not_running (by simp [finish])⟩
      · exact
          ⟨{ hd with
              finished := fun hf => by have := h.finished hf; rw [hph] at this; simp at this
              scheduling := fun hs => by simp at hs
              active := fun _ => by simp [hst]
              pending := fun _ => hemp.2 }, hs⟩
    · exact ⟨hd.setPhase (by simp [hph]), hs⟩
  | finishLater hph =>
    exact ⟨h.finish (by simp [hph]) (h.pending (.inl hph)), .of_not_running (by simp [finish])⟩
  | jobEnds j t hph hjt hlv => exact ⟨{ h with }, hs⟩
  | jobOk j t hph hjt hlv =>
    obtain ⟨q, hnp⟩ := h.endJob (cfg := cfg) hph hjt (.inl rfl)
    obtain ⟨j1, j2, j3⟩ := h.proc j t hjt
    have hout : ∀ o ∈ s.g.outputs t, o ∈ s.g.nodes ∧ s.g.kind o = .gen ∧ s.g.tr o = t ∧
        s.bs o ≠ .built ∧ ∀ c ∈ s.g.children o, s.bs c = .built := by
      intro o ho
      obtain ⟨o1, o2, o3⟩ := mem_outputs.mp ho
      have hbo := j3 o o1 o2 o3
      exact ⟨o1, o2, o3, by rw [hbo]; simp, h.gen o o1 (.inl hbo)⟩
    have hnfail : Ev.failed t ∉ s.log := fun hf => j2 (.inr hf)
    have q1 := q.finishLoop (.ran t) t (s.g.outputs t) (by simp [Verif.Exec.endJob, hph])
      (outputs_nodup h.wf _) hout hnp (by simpa using hnfail) (by intro t' ht'; simp_all)
      (fun _ => .inl (by simp))
    have hs1 : Sib cfg ((s.g.outputs t).foldl (finishNode (.ran t))
        { endJob cfg s j t with log := .succeeded t :: s.log }) := by
      intro hst m hm m' hm' hkm hkm' htr hpm hbm
      have hfr := finishLoop_frame (.ran t) (s.g.outputs t)
        { endJob cfg s j t with log := .succeeded t :: s.log }
      have hgr := hfr.1
      rw [hgr] at hm hm' hkm hkm' htr
      rw [finishLoop_bs] at hbm ⊢
      split
      · rfl
      · rename_i hno
        have hmo : m ∉ s.g.outputs t := by
          intro hmo
          obtain ⟨_, _, e3⟩ := mem_outputs.mp hmo
          exact hno (mem_outputs.mpr ⟨hm', hkm', htr.symm.trans e3⟩)
        rw [if_neg hmo] at hbm
        refine hs (hfr.2.2.2.1 ▸ hst) m hm m' hm' hkm hkm' htr ?_ hbm
        have : productOk cfg s m = true := by
          unfold productOk at hpm ⊢
          rw [hgr] at hpm
          exact hpm
        exact this
    unfold finishTransformer
    rw [List.take_of_length_le (by simp [Verif.Exec.endJob])]
    refine ⟨q1.afterJob ?_, hs1.afterJob⟩
    rw [(finishLoop_frame _ _ _).2.2.1]
    exact hph
  | jobFail j t hph hjt hlv =>
    obtain ⟨q, hnp⟩ := h.endJob (cfg := cfg) hph hjt (.inr rfl)
    exact ⟨q.afterJob (by simpa [Verif.Exec.endJob] using hph), Sib.afterJob hs⟩
  | jobOkThrow j t k hph hjt hlv =>
    obtain ⟨q, hnp⟩ := h.endJob (cfg := cfg) hph hjt (.inl rfl)
    obtain ⟨j1, j2, j3⟩ := h.proc j t hjt
    have hout : ∀ o ∈ s.g.outputs t, o ∈ s.g.nodes ∧ s.g.kind o = .gen ∧ s.g.tr o = t ∧
        s.bs o ≠ .built ∧ ∀ c ∈ s.g.children o, s.bs c = .built := by
      intro o ho
      obtain ⟨o1, o2, o3⟩ := mem_outputs.mp ho
      have hbo := j3 o o1 o2 o3
      exact ⟨o1, o2, o3, by rw [hbo]; simp, h.gen o o1 (.inl hbo)⟩
    have hnfail : Ev.failed t ∉ s.log := fun hf => j2 (.inr hf)
    refine ⟨?_, .of_not_running (handleError_st _)⟩
    have q1 := q.finishLoop (.ran t) t ((s.g.outputs t).take k)
      (by simp [Verif.Exec.endJob, hph]) ((outputs_nodup h.wf _).sublist (List.take_sublist _ _))
      (fun o ho => hout o (List.mem_of_mem_take ho)) hnp (by simpa using hnfail)
      (by intro t' ht'; simp_all) (fun _ => .inl (by simp))
    refine q1.handleError ?_
    rw [(finishLoop_frame _ _ _).2.2.1]
    simp [Verif.Exec.endJob, hph]
  | requestCancel hcr => exact ⟨{ h with }, hs⟩
  | timer hph hst hcr =>
    refine ⟨h.cancelJobs ?_ ?_, .of_not_running (by simp [cancelJobs_st])⟩
    · rcases hph with hp | hp <;> simp [hp]
    · rcases hph with hp | hp <;> simp [hp]

/-! ### The initial state -/

theorem prepare_ok (g : Graph) : ∀ (fuel : Nat) (bs : Node → BState) (n : Node),
    (∀ m, bs m = .untouched ∨ bs m = .buildable) →
    ∀ m, prepare g fuel bs n m = .untouched ∨ prepare g fuel bs n m = .buildable
  | 0, bs, n, h => h
  | fuel + 1, bs, n, h => by
      unfold prepare
      split
      · exact h
      · have : ∀ (l : List Node) (b : Node → BState), (∀ m, b m = .untouched ∨ b m = .buildable) →
            ∀ m, l.foldl (prepare g fuel) b m = .untouched ∨
              l.foldl (prepare g fuel) b m = .buildable := by
          intro l
          induction l with
          | nil => exact fun b hb => hb
          | cons c l ih => exact fun b hb => ih _ (prepare_ok g fuel b c hb)
        apply this
        intro m
        unfold upd
        split
        · exact .inr rfl
        · exact h m

theorem initial_inv (cfg : Cfg) (g : Graph) (roots : List Node) (hw : WF g)
    (hr : ∀ n ∈ roots, n ∈ g.nodes) : Inv none (initial cfg g roots) ∧ Sib cfg (initial cfg g roots) := by
  have hbs : ∀ m, roots.foldl (prepare g (g.nodes.length + 1)) (fun _ => .untouched) m = .untouched ∨
      roots.foldl (prepare g (g.nodes.length + 1)) (fun _ => .untouched) m = .buildable := by
    have : ∀ (l : List Node) (b : Node → BState), (∀ m, b m = .untouched ∨ b m = .buildable) →
        ∀ m, l.foldl (prepare g (g.nodes.length + 1)) b m = .untouched ∨
          l.foldl (prepare g (g.nodes.length + 1)) b m = .buildable := by
      intro l
      induction l with
      | nil => exact fun b hb => hb
      | cons c l ih => exact fun b hb => ih _ (prepare_ok g _ b c hb)
    exact this roots _ (fun _ => .inl rfl)
  have key : ∀ bs : Node → BState, (∀ m, bs m = .untouched ∨ bs m = .buildable) → ∀ av,
      Inv none
        { g, bs, leaves := [], delayed := [], avail := av, proc := []
          live := fun _ => false, count := fun _ => 0, st := .running, explicitly := false
          cancelRequested := false, fromFinishJob := false, phase := .scheduling, log := [] } ∧
      Sib cfg
        { g, bs, leaves := [], delayed := [], avail := av, proc := []
          live := fun _ => false, count := fun _ => 0, st := .running, explicitly := false
          cancelRequested := false, fromFinishJob := false, phase := .scheduling, log := [] } := by
    intro bs hb av
    constructor
    · exact
        { wf := hw
          leaves := fun n hn => by simp at hn
          gen := fun n hn hbn => by rcases hb n with e | e <;> simp_all
          started := fun t ht => by simp [Started] at ht
          proc := fun j t hjt => by simp at hjt
          procNodup := by simp
          failed := fun t ht => by simp at ht
          ended := fun t ht => by simp [Ended] at ht
          unfinished := fun t ht => by simp [Started] at ht
          built := fun n hn hbn => by rcases hb n with e | e <;> simp_all
          completed := fun n hn => by simp [Completed] at hn
          trace := trivial
          finished := fun hf => by simp [Finished] at hf
          applied := fun _ r d hr => by simp at hr
          canceled := fun hc => by simp [Canceled] at hc
          notCanceled := fun hs => by simp at hs
          scheduling := fun _ => rfl
          active := fun _ => by simp
          pending := fun hs => by simp at hs }
    · intro _ m hm n hn _ _ _ _ hbm
      dsimp only at hbm
      rcases hb m with e | e <;> simp [e] at hbm
  obtain ⟨k1, k2⟩ := key _ hbs (List.range cfg.maxJobs)
  exact ⟨k1.updateLeaves roots hr, k2.updateLeaves hw roots hr⟩

theorem reach_inv {cfg : Cfg} {C : St → Node → Effect → Prop}
    (hC : ∀ s r e, C s r e → SafeEffect s r e) {g : Graph} {roots : List Node} (hw : WF g)
    (hr : ∀ n ∈ roots, n ∈ g.nodes) {s : St} (h : Reach cfg C g roots s) :
    Inv none s ∧ Sib cfg s := by
  induction h with
  | init => exact initial_inv cfg g roots hw hr
  | step s s' _ hstep ih => exact step_inv hC ih.1 ih.2 hstep

end Verif.Exec
