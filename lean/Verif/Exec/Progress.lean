import Verif.Exec.Live

/-
All steps preserve the liveness invariant; every execution is finite; no state before the end is
stuck; what is built when the build ends.
-/

namespace Verif.Exec

theorem not_clean_of {e : Ev} {log : List Ev} (h : ¬ Clean log) : ¬ Clean (e :: log) :=
  fun hc => h (clean_cons hc)

theorem step_live {cfg : Cfg} {roots : Node → Prop} {C : St → Node → Effect → Prop}
    (hC : ∀ s r e, C s r e → LiveEffect s r e) {s s' : St} (hi : Inv none s) (hs : Sib cfg s)
    (h : LInv roots none s) (hstep : Step cfg C s s') : LInv roots none s' := by
  have pop : ∀ {l1 l2 : List Node} {n : Node}, s.phase = .scheduling → s.leaves = l1 ++ n :: l2 →
      n ∈ s.g.nodes ∧ s.st = .running ∧ (s.phase ≠ .finishPending ∧ s.phase ≠ .done) ∧
      LInv roots (some n) { s with leaves := l1 ++ l2 } ∧
      (s.bs n = .buildable → ∀ c ∈ s.g.children n, s.bs c = .built) := by
    intro l1 l2 n hph hl
    have hn := hi.leaves n (.inl (by simp [hl]))
    have hst := hi.scheduling hph
    refine ⟨hn.1, hst, by simp [hph],
      { h with
        fwd := fun hc m hm hx hb => ?_
        quiet := fun _ hp => by rw [hph] at hp; simp at hp }, fun hb => hn.2 hst (by simp) (.inl hb)⟩
    have hmn : m ≠ n := fun e => hx (by rw [e])
    rcases h.fwd hc m hm (by simp) hb with hml | hmd | hmc
    · left
      rw [hl] at hml
      simp only [List.mem_append, List.mem_cons] at hml ⊢
      rcases hml with hml | hml | hml
      · exact .inl hml
      · exact absurd hml hmn
      · exact .inr hml
    · exact .inr (.inl hmd)
    · exact .inr (.inr hmc)
  have outs : ∀ {n : Node}, n ∈ s.g.nodes → s.g.kind n = .gen →
      (∀ c ∈ s.g.children n, s.bs c = .built) →
      ∀ o ∈ s.g.outputs (s.g.tr n), ∀ c ∈ s.g.children o, s.bs c = .built := by
    intro n hn hk hc o ho c hcc
    obtain ⟨o1, o2, o3⟩ := mem_outputs.mp ho
    exact hc c (hi.wf.siblings o o1 n hn o2 hk o3 c hcc)
  cases hstep with
  | popSkip l1 l2 n hph hl hav hb =>
    obtain ⟨_, _, _, p4, _⟩ := pop hph hl
    exact p4.done hb
  | popDelay l1 l2 n hph hl hav hb hbl =>
    obtain ⟨_, _, _, p4, _⟩ := pop hph hl
    refine
      { acyclic := p4.acyclic
        fwd := fun hc m hm _ hbm => ?_
        closed := p4.closed, building := p4.building, roots := p4.roots, quiet := p4.quiet
        delayed := fun _ hp => absurd hph hp }
    by_cases hmn : m = n
    · exact .inr (.inl (by simp [hmn]))
    · rcases p4.fwd hc m hm (by simpa using fun e => hmn e.symm) hbm with q | q | q
      · exact .inl q
      · exact .inr (.inl (by simp [show m ∈ s.delayed from q]))
      · exact .inr (.inr q)
  | popIgnore l1 l2 n hph hl hav hb hbl hk hp =>
    obtain ⟨p1, _, p3, p4, p6⟩ := pop hph hl
    refine LInv.done (n := n) (p4.finishNode p3 .ignored n (p6 hb)) ?_
    simp [finishNode, upd]
  | popSource l1 l2 n hph hl hav hb hbl hk =>
    obtain ⟨p1, _, p3, p4, p6⟩ := pop hph hl
    refine LInv.done (n := n) (p4.finishNode p3 .source n (p6 hb)) ?_
    simp [finishNode, upd]
  | popSkipTransformer l1 l2 n hph hl hav hb hbl hk hp =>
    obtain ⟨p1, _, p3, p4, p6⟩ := pop hph hl
    unfold finishTransformer
    dsimp only
    rw [List.take_length]
    refine LInv.done (n := n) (LInv.finishLoop _ _ _ p4 p3 (outs p1 hk (p6 hb))) ?_
    rw [finishLoop_bs, if_pos (mem_outputs.mpr ⟨p1, hk, rfl⟩)]
    simp
  | popRun _ l1 l2 n hph hl hav hb hbl hk hp hro hrun =>
    obtain ⟨p1, _, p3, p4, p6⟩ := pop hph hl
    unfold runTransformer at hrun
    split at hrun
    · simp at hrun
    rename_i j rest hav'
    simp only [Option.some.injEq] at hrun
    subst hrun
    have ho := outs p1 hk (p6 hb)
    have hno : n ∈ s.g.outputs (s.g.tr n) := mem_outputs.mpr ⟨p1, hk, rfl⟩
    have hnb : ∀ m ∈ s.g.outputs (s.g.tr n), s.bs m ≠ .built := by
      intro m hm hmb
      obtain ⟨o1, o2, o3⟩ := mem_outputs.mp hm
      have hst := hi.scheduling hph
      have hpo : productOk cfg s m = true := by
        simpa [productOk, hi.wf.siblingProduct m o1 n p1 o2 hk o3] using hp
      have := hs hst m o1 n p1 o2 hk o3 hpo hmb
      rw [hb] at this; simp at this
    refine
      { acyclic := p4.acyclic
        fwd := fun hc m hm _ hbm => ?_
        closed := fun hc m hm hbm c hcc => ?_
        building := fun hc m hm hbm => ?_
        roots := fun hc m hmr hm => ?_
        quiet := fun _ hp => by rw [hph] at hp; simp at hp
        delayed := fun _ hp => absurd hph hp }
    · dsimp only at hm hbm ⊢
      split at hbm
      · simp at hbm
      rename_i hmo
      have hmn : m ≠ n := fun e => hmo (e ▸ hno)
      rcases p4.fwd (clean_cons hc) m hm (by simpa using fun e => hmn e.symm) hbm with q | q | ⟨c, q1, q2⟩
      · exact .inl q
      · exact .inr (.inl q)
      · refine .inr (.inr ⟨c, q1, ?_⟩)
        split
        · simp
        · exact q2
    · dsimp only at hm hbm hcc ⊢
      split
      · simp
      rename_i hco
      by_cases hmo : m ∈ s.g.outputs (s.g.tr n)
      · rw [ho m hmo c hcc]; simp
      · rw [if_neg hmo] at hbm
        exact p4.closed (clean_cons hc) m hm hbm c hcc
    · dsimp only at hm hbm ⊢
      split at hbm
      · rename_i hmo
        obtain ⟨_, o2, o3⟩ := mem_outputs.mp hmo
        exact ⟨o2, .inl ⟨j, by simp [o3]⟩⟩
      · obtain ⟨q1, q2⟩ := p4.building (clean_cons hc) m hm hbm
        refine ⟨q1, ?_⟩
        rcases q2 with ⟨j', q2⟩ | q2
        · exact .inl ⟨j', List.mem_cons_of_mem _ q2⟩
        · exact .inr (List.mem_cons_of_mem _ q2)
    · dsimp only at hm ⊢
      split
      · simp
      · exact p4.roots (clean_cons hc) m hmr hm
  | popRule l1 l2 n e hph hl hav hb hbl hk hp hcon =>
    obtain ⟨p1, p2, p3, p4, p6⟩ := pop hph hl
    have he := hC _ _ _ hcon
    have hi' := hi.dropLeaves (l1 ++ l2) s.delayed
      (fun m hm => hm.imp (fun hm => by rw [hl]; exact mem_mid hm) id)
    -- the invariant with `n` exempt
    have hnc : ¬ Completed s.log n := fun hc => by
      have := (hi.completed n hc).2
      rw [hb] at this; simp at this
    have q := hi'.logApply p2 p1 hb (p6 hb) hph
    have q4 : LInv roots (some n)
        { s with leaves := l1 ++ l2, log := .apply n (s.g.children n) :: s.log } :=
      { acyclic := p4.acyclic
        fwd := fun hc => p4.fwd (clean_cons hc)
        closed := fun hc => p4.closed (clean_cons hc)
        building := fun hc m hm hbm => by
          obtain ⟨k1, k2⟩ := p4.building (clean_cons hc) m hm hbm
          exact ⟨k1, k2.imp id fun hf => List.mem_cons_of_mem _ hf⟩
        roots := fun hc => p4.roots (clean_cons hc)
        quiet := fun hc => p4.quiet (clean_cons hc)
        delayed := fun hc => p4.delayed (clean_cons hc) }
    have he' : LiveEffect
        { s with leaves := l1 ++ l2, log := .apply n (s.g.children n) :: s.log } n e :=
      { he with }
    have q5 := LInv.applyRule q q4 hph p1 hk hb he'
    unfold executeRule
    refine LInv.done (n := n) (q5.finishNode p3 .applied n ?_) ?_
    · intro c hc
      have hco : c ∈ s.g.children n := he.rule c hc
      have hcs := hi.wf.closed n p1 c hco
      have hcb := p6 hb c hco
      have hb1 : (applyEffect
          { s with leaves := l1 ++ l2, log := .apply n (s.g.children n) :: s.log } e).bs c = .built := by
        simp [applyEffect, hcs, hcb]
      have ul_b : ∀ (s0 : St) (ns : List Node), WF s0.g → (∀ m ∈ ns, m ∈ s0.g.nodes) →
          s0.bs c = .built → (updateLeaves s0 ns).bs c = .built := by
        intro s0 ns hw hns hbu
        rcases (updateLeaves_ok s0 ns hw hns).1 c with e1 | ⟨e1, _⟩
        · rw [e1]; exact hbu
        · rw [e1] at hbu; simp at hbu
      exact ul_b _ _ he.wf (fun m hm => he.nodes m (by simp [hm]))
        (ul_b _ _ he.wf (fun m hm => he.nodes m (by simp [hm])) hb1)
    · simp [finishNode, upd]
  | popThrow l1 l2 n k hph hl hav hb hbl hk =>
    refine LInv.handleError ?_
    unfold finishTransformer
    rw [(finishLoop_frame _ _ _).1]
    exact h.acyclic
  | popRuleThrow l1 l2 n e hph hl hav hb hbl hk hp hcon =>
    exact LInv.handleError (hC _ _ _ hcon).acyclic
  | endLoop hph hor =>
    have hst := hi.scheduling hph
    dsimp only
    have fwd' : Clean s.log → ∀ n ∈ s.g.nodes, s.bs n = .buildable →
        n ∈ s.leaves ++ s.delayed ∨ ∃ c ∈ s.g.children n, s.bs c ≠ .built := by
      intro hc n hn hb
      rcases h.fwd hc n hn (by simp) hb with q | q | q
      · exact .inl (by simp [q])
      · exact .inl (by simp [q])
      · exact .inr q
    split
    · rename_i hemp
      split
      · exact
          { acyclic := h.acyclic
            fwd := fun hc n hn _ hb => by
              rcases fwd' (clean_cons hc) n hn hb with q | q
              · exact .inl q
              · exact .inr (.inr q)
            closed := fun hc => h.closed (clean_cons hc)
            building := fun hc m hm hbm => by
              obtain ⟨k1, k2⟩ := h.building (clean_cons hc) m hm hbm
              exact ⟨k1, k2.imp id fun hf => List.mem_cons_of_mem _ hf⟩
            roots := fun hc => h.roots (clean_cons hc)
            quiet := fun _ _ => hemp.1
            delayed := fun _ _ => rfl }
      · exact
          { acyclic := h.acyclic
            fwd := fun hc n hn _ hb => by
              rcases fwd' hc n hn hb with q | q
              · exact .inl q
              · exact .inr (.inr q)
            closed := h.closed, building := h.building, roots := h.roots
            quiet := fun _ _ => hemp.1
            delayed := fun _ _ => rfl }
    · exact
        { acyclic := h.acyclic
          fwd := fun hc n hn _ hb => by
            rcases fwd' hc n hn hb with q | q
            · exact .inl q
            · exact .inr (.inr q)
          closed := h.closed, building := h.building, roots := h.roots
          quiet := fun _ hp => by simp at hp
          delayed := fun _ _ => rfl }
  | finishLater hph =>
    exact
      { acyclic := h.acyclic
        fwd := fun hc => h.fwd (clean_cons hc)
        closed := fun hc => h.closed (clean_cons hc)
        building := fun hc m hm hbm => by
          obtain ⟨k1, k2⟩ := h.building (clean_cons hc) m hm hbm
          exact ⟨k1, k2.imp id fun hf => List.mem_cons_of_mem _ hf⟩
        roots := fun hc => h.roots (clean_cons hc)
        quiet := fun hc _ => h.quiet (clean_cons hc) (.inl hph)
        delayed := fun hc _ => h.delayed (clean_cons hc) (by simp [hph]) }
  | jobEnds j t hph hjt hlv => exact { h with }
  | jobOk j t hph hjt hlv =>
    obtain ⟨q, hnp⟩ := hi.endJob (cfg := cfg) hph hjt (.inl rfl)
    obtain ⟨j1, j2, j3⟩ := hi.proc j t hjt
    have hout : ∀ o ∈ s.g.outputs t, o ∈ s.g.nodes ∧ s.g.kind o = .gen ∧ s.g.tr o = t ∧
        s.bs o ≠ .built ∧ ∀ c ∈ s.g.children o, s.bs c = .built := by
      intro o ho
      obtain ⟨o1, o2, o3⟩ := mem_outputs.mp ho
      have hbo := j3 o o1 o2 o3
      exact ⟨o1, o2, o3, by rw [hbo]; simp, hi.gen o o1 (.inl hbo)⟩
    have hnfail : Ev.failed t ∉ s.log := fun hf => j2 (.inr hf)
    have q1 := q.finishLoop (.ran t) t (s.g.outputs t) (by simp [Verif.Exec.endJob, hph])
      (outputs_nodup hi.wf _) hout hnp (by simpa using hnfail) (by intro t' ht'; simp_all)
      (fun _ => .inl (by simp))
    have heq : finishTransformer (.ran t) { endJob cfg s j t with log := .succeeded t :: s.log } t
        (s.g.outputs t).length = (s.g.outputs t).foldl (finishNode (.ran t))
          { endJob cfg s j t with log := .succeeded t :: s.log } := by
      unfold finishTransformer
      rw [List.take_of_length_le (by simp [Verif.Exec.endJob])]
      rfl
    rw [heq]
    have hfr := finishLoop_frame (.ran t) (s.g.outputs t)
      { endJob cfg s j t with log := .succeeded t :: s.log }
    refine LInv.afterJob q1 (hfr.2.2.1.trans hph) ?_
    -- everything but `building` is preserved by taking the job out of the books
    have hout' : ∀ n ∈ s.g.outputs t, ∀ c ∈ s.g.children n, s.bs c = .built :=
      fun n hn => (hout n hn).2.2.2.2
    have half : LInv roots none
        { s with log := .succeeded t :: s.log } :=
      { acyclic := h.acyclic
        fwd := fun hc => h.fwd (clean_cons hc)
        closed := fun hc => h.closed (clean_cons hc)
        building := fun hc m hm hbm => by
          obtain ⟨k1, k2⟩ := h.building (clean_cons hc) m hm hbm
          exact ⟨k1, k2.imp id fun hf => List.mem_cons_of_mem _ hf⟩
        roots := fun hc => h.roots (clean_cons hc)
        quiet := fun hc hp => by
          have hp : s.phase = .finishPending ∨ s.phase = .done := hp
          rw [hph] at hp; simp at hp
        delayed := fun hc => h.delayed (clean_cons hc) }
    have full := LInv.finishLoop (.ran t) (s.g.outputs t) _ half (by simp [hph]) hout'
    -- the two loops differ only in the job bookkeeping
    have sim : ∀ (l : List Node) (a b : St), a.g = b.g → a.bs = b.bs → a.leaves = b.leaves →
        a.delayed = b.delayed → a.log = b.log → a.phase = b.phase →
        (l.foldl (finishNode (.ran t)) a).g = (l.foldl (finishNode (.ran t)) b).g ∧
        (l.foldl (finishNode (.ran t)) a).bs = (l.foldl (finishNode (.ran t)) b).bs ∧
        (l.foldl (finishNode (.ran t)) a).leaves = (l.foldl (finishNode (.ran t)) b).leaves ∧
        (l.foldl (finishNode (.ran t)) a).delayed = (l.foldl (finishNode (.ran t)) b).delayed ∧
        (l.foldl (finishNode (.ran t)) a).log = (l.foldl (finishNode (.ran t)) b).log ∧
        (l.foldl (finishNode (.ran t)) a).phase = (l.foldl (finishNode (.ran t)) b).phase := by
      intro l
      induction l with
      | nil => intro a b h1 h2 h3 h4 h5 h6; exact ⟨h1, h2, h3, h4, h5, h6⟩
      | cons n l ih =>
        intro a b h1 h2 h3 h4 h5 h6
        exact ih _ _ h1 (by simp [finishNode, h2]) (by simp [finishNode, h1, h2, h3]) h4
          (by simp [finishNode, h5]) h6
    obtain ⟨m1, m2, m3, m4, m5, m6⟩ := sim (s.g.outputs t)
      { endJob cfg s j t with log := .succeeded t :: s.log } { s with log := .succeeded t :: s.log }
      rfl rfl rfl rfl rfl rfl
    have hproc : ((s.g.outputs t).foldl (finishNode (.ran t))
        { endJob cfg s j t with log := .succeeded t :: s.log }).proc = s.proc.erase (j, t) := hfr.2.1
    have hprocB : ((s.g.outputs t).foldl (finishNode (.ran t))
        { s with log := .succeeded t :: s.log }).proc = s.proc :=
      (finishLoop_frame (.ran t) (s.g.outputs t) { s with log := .succeeded t :: s.log }).2.1
    have hgB : ((s.g.outputs t).foldl (finishNode (.ran t))
        { s with log := .succeeded t :: s.log }).g = s.g :=
      (finishLoop_frame (.ran t) (s.g.outputs t) { s with log := .succeeded t :: s.log }).1
    have hbsB := finishLoop_bs (.ran t) (s.g.outputs t) { s with log := .succeeded t :: s.log }
    generalize (s.g.outputs t).foldl (finishNode (.ran t))
        { endJob cfg s j t with log := .succeeded t :: s.log } = A at *
    generalize (s.g.outputs t).foldl (finishNode (.ran t))
        { s with log := .succeeded t :: s.log } = B at *
    exact
      { acyclic := m1 ▸ full.acyclic
        fwd := by rw [m1, m2, m3, m4, m5]; exact full.fwd
        closed := by rw [m1, m2, m5]; exact full.closed
        building := by
          rw [m1, m2, m5, hproc]
          intro hc m hm hbm
          obtain ⟨k1, k2⟩ := full.building hc m hm hbm
          refine ⟨k1, k2.imp ?_ id⟩
          rintro ⟨j', hj'⟩
          rw [hprocB] at hj'
          refine ⟨j', ?_⟩
          by_cases htr : B.g.tr m = t
          · exfalso
            rw [hbsB, if_pos] at hbm
            · simp at hbm
            · rw [hgB] at hm k1 htr
              exact mem_outputs.mpr ⟨hm, k1, htr⟩
          · exact (List.mem_erase_of_ne (fun e => htr (by simpa using congrArg Prod.snd e))).mpr hj'
        roots := by rw [m1, m2, m5]; exact full.roots
        quiet := by rw [m3, m5, m6]; exact full.quiet
        delayed := by rw [m4, m5, m6]; exact full.delayed }
  | jobFail j t hph hjt hlv =>
    obtain ⟨q, hnp⟩ := hi.endJob (cfg := cfg) hph hjt (.inr rfl)
    refine LInv.afterJob q hph ?_
    exact
      { acyclic := h.acyclic
        fwd := fun hc => h.fwd (clean_cons hc)
        closed := fun hc => h.closed (clean_cons hc)
        building := fun hc m hm hbm => by
          obtain ⟨k1, k2⟩ := h.building (clean_cons hc) m hm hbm
          refine ⟨k1, ?_⟩
          show (∃ j', (j', s.g.tr m) ∈ s.proc.erase (j, t)) ∨ Ev.failed (s.g.tr m) ∈ _ :: s.log
          by_cases htr : s.g.tr m = t
          · right; rw [htr]; simp
          · rcases k2 with ⟨j', hj'⟩ | hf
            · left
              exact ⟨j', (List.mem_erase_of_ne
                (fun e => htr (by simpa using congrArg Prod.snd e))).mpr hj'⟩
            · exact .inr (List.mem_cons_of_mem _ hf)
        roots := fun hc => h.roots (clean_cons hc)
        quiet := fun hc hp => by
          have hp : s.phase = .finishPending ∨ s.phase = .done := hp
          rw [hph] at hp; simp at hp
        delayed := fun hc => h.delayed (clean_cons hc) }
  | jobOkThrow j t k hph hjt hlv =>
    refine LInv.handleError ?_
    unfold finishTransformer
    rw [(finishLoop_frame _ _ _).1]
    exact h.acyclic
  | requestCancel hcr => exact { h with }
  | timer hph hst hcr => exact h.cancelJobs

end Verif.Exec
