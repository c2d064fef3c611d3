import Verif.Exec.Safety

/-
Job slots, pool counters and the wake-up guarantee.
-/

namespace Verif.Exec

/-- Job bookkeeping. -/
structure JobInv (cfg : Cfg) (s : St) : Prop where
  len : s.avail.length + s.proc.length = cfg.maxJobs
  nodup : (s.avail ++ s.proc.map (·.1)).Nodup
  count : ∀ p, s.count p = ((s.proc.filter fun jt => decide (p ∈ cfg.pools jt.2)).length : Int)
  limit : ∀ j t, (j, t) ∈ s.proc → s.live j = true → ∀ p ∈ cfg.pools t, ∀ f,
    cfg.limit (cfg.trProduct t) = some f → f p > 0 → s.count p ≤ f p
  delayed : s.phase = .scheduling → s.delayed ≠ [] → s.proc ≠ []
  waiting : s.phase = .waiting → s.proc ≠ []

theorem updateJobCounts_apply (cfg : Cfg) (hp : ∀ t, (cfg.pools t).Nodup) (c : Pool → Int) (t : Tr)
    (d : Int) (p : Pool) :
    updateJobCounts cfg c t d p = c p + if p ∈ cfg.pools t then d else 0 := by
  unfold updateJobCounts
  have : ∀ (l : List Pool) (c : Pool → Int), l.Nodup →
      l.foldl (fun c p => upd c p (c p + d)) c p = c p + if p ∈ l then d else 0 := by
    intro l
    induction l with
    | nil => intro c _; simp
    | cons q l ih =>
      intro c hn
      obtain ⟨h1, h2⟩ := List.nodup_cons.mp hn
      rw [List.foldl_cons, ih _ h2]
      by_cases hpq : p = q
      · subst hpq
        simp [upd, h1]
      · simp [upd, hpq]
  exact this _ _ (hp t)

/-- Everything the job bookkeeping looks at is the same. -/
structure SameJobs (s s' : St) : Prop where
  avail : s'.avail = s.avail
  proc : s'.proc = s.proc
  live : s'.live = s.live
  count : s'.count = s.count

theorem SameJobs.refl (s : St) : SameJobs s s := ⟨rfl, rfl, rfl, rfl⟩

theorem SameJobs.trans {s1 s2 s3 : St} (h : SameJobs s1 s2) (k : SameJobs s2 s3) : SameJobs s1 s3 :=
  ⟨k.avail.trans h.avail, k.proc.trans h.proc, k.live.trans h.live, k.count.trans h.count⟩

theorem SameJobs.after {s1 s2 s3 : St} (k : SameJobs s2 s3) (h : SameJobs s1 s2) : SameJobs s1 s3 :=
  h.trans k

theorem JobInv.same {cfg : Cfg} {s s' : St} (h : JobInv cfg s) (hs : SameJobs s s')
    (hd : s'.phase = .scheduling → s'.delayed ≠ [] → s'.proc ≠ [])
    (hw : s'.phase = .waiting → s'.proc ≠ []) : JobInv cfg s' where
  len := by rw [hs.avail, hs.proc]; exact h.len
  nodup := by rw [hs.avail, hs.proc]; exact h.nodup
  count := fun p => by rw [hs.count, hs.proc]; exact h.count p
  limit := fun j t hj hl => by
    rw [hs.proc] at hj; rw [hs.live] at hl; rw [hs.count]; exact h.limit j t hj hl
  delayed := hd
  waiting := hw

theorem sameJobs_finishLoop (why : Why) : ∀ (l : List Node) (s : St),
    SameJobs s (l.foldl (finishNode why) s) ∧
    (l.foldl (finishNode why) s).delayed = s.delayed ∧ (l.foldl (finishNode why) s).phase = s.phase
  | [], s => ⟨.refl s, rfl, rfl⟩
  | n :: l, s => by
      rw [List.foldl_cons]
      obtain ⟨h1, h2, h3⟩ := sameJobs_finishLoop why l (finishNode why s n)
      exact ⟨h1.after ⟨rfl, rfl, rfl, rfl⟩, h2, h3⟩

/-- Steps that end in `handleError`. -/
theorem JobInv.handleError {cfg : Cfg} {s : St} (h : JobInv cfg s) : JobInv cfg (handleError s) := by
  have hx : SameJobs s { s with log := .error :: s.log } := ⟨rfl, rfl, rfl, rfl⟩
  unfold Verif.Exec.handleError abort
  split
  · exact h.same ⟨rfl, rfl, rfl, rfl⟩ (by simp [finish]) (by simp [finish])
  · rename_i hp
    refine h.same ?_ (by simp) ?_
    · unfold cancelJobs; split <;> exact ⟨rfl, rfl, rfl, rfl⟩
    · intro _
      unfold cancelJobs; split <;> exact hp

theorem JobInv.cancelJobs {cfg : Cfg} {s : St} (h : JobInv cfg s) : JobInv cfg (cancelJobs s) := by
  unfold Verif.Exec.cancelJobs
  split
  · exact h
  · exact h.same ⟨rfl, rfl, rfl, rfl⟩ h.delayed h.waiting

theorem cancelJobs_same (s : St) : SameJobs s (cancelJobs s) := by
  unfold cancelJobs
  split
  · exact .refl _
  · exact ⟨rfl, rfl, rfl, rfl⟩

/-- The state right after a job was taken out of the books, phase apart. -/
structure JobInv' (cfg : Cfg) (s : St) : Prop where
  len : s.avail.length + s.proc.length = cfg.maxJobs
  nodup : (s.avail ++ s.proc.map (·.1)).Nodup
  count : ∀ p, s.count p = ((s.proc.filter fun jt => decide (p ∈ cfg.pools jt.2)).length : Int)
  limit : ∀ j t, (j, t) ∈ s.proc → s.live j = true → ∀ p ∈ cfg.pools t, ∀ f,
    cfg.limit (cfg.trProduct t) = some f → f p > 0 → s.count p ≤ f p

theorem JobInv'.same {cfg : Cfg} {s s' : St} (h : JobInv' cfg s) (hs : SameJobs s s')
    (hd : s'.phase = .scheduling → s'.delayed ≠ [] → s'.proc ≠ [])
    (hw : s'.phase = .waiting → s'.proc ≠ []) : JobInv cfg s' where
  len := by rw [hs.avail, hs.proc]; exact h.len
  nodup := by rw [hs.avail, hs.proc]; exact h.nodup
  count := fun p => by rw [hs.count, hs.proc]; exact h.count p
  limit := fun j t hj hl => by
    rw [hs.proc] at hj; rw [hs.live] at hl; rw [hs.count]; exact h.limit j t hj hl
  delayed := hd
  waiting := hw

theorem JobInv'.keep {cfg : Cfg} {s s' : St} (h : JobInv' cfg s) (hs : SameJobs s s') :
    JobInv' cfg s' where
  len := by rw [hs.avail, hs.proc]; exact h.len
  nodup := by rw [hs.avail, hs.proc]; exact h.nodup
  count := fun p => by rw [hs.count, hs.proc]; exact h.count p
  limit := fun j t hj hl => by
    rw [hs.proc] at hj; rw [hs.live] at hl; rw [hs.count]; exact h.limit j t hj hl

theorem filter_erase_length {α : Type} [BEq α] [LawfulBEq α] (p : α → Bool) :
    ∀ (l : List α) (a : α), a ∈ l →
      (((l.erase a).filter p).length : Int) = (l.filter p).length - if p a then 1 else 0
  | [], a, h => by simp at h
  | b :: l, a, h => by
      by_cases hab : b = a
      · subst hab
        rw [List.erase_cons_head, List.filter_cons]
        split <;> simp
      · rw [List.erase_cons_tail (by simpa using hab)]
        have ih := filter_erase_length p l a
          ((List.mem_cons.mp h).resolve_left (fun e => hab e.symm))
        rw [List.filter_cons, List.filter_cons]
        split
        · simp only [List.length_cons]; push_cast; rw [ih]; split <;> omega
        · exact ih

theorem JobInv.endJob {cfg : Cfg} (hpools : ∀ t, (cfg.pools t).Nodup) {s : St} (h : JobInv cfg s)
    {j : Job} {t : Tr} (hjt : (j, t) ∈ s.proc) : JobInv' cfg (endJob cfg s j t) where
  len := by
    have := h.len
    have hl := List.length_erase_of_mem hjt
    have hpos : 0 < s.proc.length := List.length_pos_of_mem hjt
    simp only [Verif.Exec.endJob, List.length_append, List.length_singleton, hl]
    omega
  nodup := by
    have hn := h.nodup
    simp only [Verif.Exec.endJob]
    have hperm : (s.avail ++ s.proc.map (·.1)).Perm
        (s.avail ++ [j] ++ (s.proc.erase (j, t)).map (·.1)) := by
      rw [List.append_assoc]
      refine List.Perm.append_left _ ?_
      have := (List.perm_cons_erase hjt).map (·.1)
      simpa using this
    exact hperm.nodup_iff.mp hn
  count := fun p => by
    simp only [Verif.Exec.endJob]
    rw [updateJobCounts_apply cfg hpools, h.count, filter_erase_length _ _ _ hjt]
    by_cases hp : p ∈ cfg.pools t <;> simp [hp] <;> omega
  limit := fun j' t' hj' hl p hp f hf hpos => by
    simp only [Verif.Exec.endJob] at hj' hl ⊢
    have := h.limit j' t' (List.mem_of_mem_erase hj') hl p hp f hf hpos
    rw [updateJobCounts_apply cfg hpools]
    split <;> omega

theorem JobInv'.afterJob {cfg : Cfg} {ok : Bool} {s : St} (h : JobInv' cfg s) :
    JobInv cfg (afterJob cfg ok s) := by
  unfold Verif.Exec.afterJob
  dsimp only
  have h1 : SameJobs s (if (!ok && !cfg.keepGoing) = true then Verif.Exec.cancelJobs s else s) := by
    split
    · exact cancelJobs_same _
    · exact .refl _
  generalize (if (!ok && !cfg.keepGoing) = true then Verif.Exec.cancelJobs s else s) = s1 at *
  have h2 : SameJobs s (if s1.st = .running ∧ s1.cancelRequested = true
        then Verif.Exec.cancelJobs { s1 with explicitly := true } else s1) := by
    split
    · refine h1.trans (SameJobs.trans ?_ (cancelJobs_same { s1 with explicitly := true }))
      exact ⟨rfl, rfl, rfl, rfl⟩
    · exact h1
  generalize (if s1.st = .running ∧ s1.cancelRequested = true
        then Verif.Exec.cancelJobs { s1 with explicitly := true } else s1) = s2 at *
  split
  · split
    · exact h.same (h2.trans ⟨rfl, rfl, rfl, rfl⟩) (by simp [finish]) (by simp [finish])
    · rename_i hne
      exact h.same h2 (fun _ _ => hne) (fun _ => hne)
  · exact h.same (h2.trans ⟨rfl, rfl, rfl, rfl⟩) (by simp) (by simp)

/-- All steps preserve the job bookkeeping. -/
theorem step_jobInv {cfg : Cfg} {C : St → Node → Effect → Prop}
    (hpools : ∀ t, (cfg.pools t).Nodup) (hmax : 0 < cfg.maxJobs) {s s' : St}
    (h : JobInv cfg s) (hstep : Step cfg C s s') : JobInv cfg s' := by
  cases hstep with
  | popSkip l1 l2 n hph hl hav hb =>
    exact h.same ⟨rfl, rfl, rfl, rfl⟩ h.delayed h.waiting
  | popDelay l1 l2 n hph hl hav hb hbl =>
    refine h.same ⟨rfl, rfl, rfl, rfl⟩ (fun _ _ => ?_) h.waiting
    intro hp
    dsimp only at hp
    unfold blocked at hbl
    split at hbl
    · obtain ⟨p, _, hpp⟩ := List.any_eq_true.mp hbl
      have hc := h.count p
      rw [hp] at hc
      simp [hc] at hpp
    · simp at hbl
  | popIgnore l1 l2 n hph hl hav hb hbl hk hp =>
    exact h.same ⟨rfl, rfl, rfl, rfl⟩ h.delayed h.waiting
  | popSource l1 l2 n hph hl hav hb hbl hk =>
    exact h.same ⟨rfl, rfl, rfl, rfl⟩ h.delayed h.waiting
  | popSkipTransformer l1 l2 n hph hl hav hb hbl hk hp =>
    unfold finishTransformer
    obtain ⟨e1, e2, e3⟩ := sameJobs_finishLoop (.skipped (s.g.tr n))
      ((s.g.outputs (s.g.tr n)).take (s.g.outputs (s.g.tr n)).length) { s with leaves := l1 ++ l2 }
    dsimp only at e1 ⊢
    refine h.same (e1.after ⟨rfl, rfl, rfl, rfl⟩) ?_ ?_
    · rw [e2, e3, e1.proc]; exact h.delayed
    · rw [e3, e1.proc]; exact h.waiting
  | popRun _ l1 l2 n hph hl hav hb hbl hk hp hro hrun =>
    unfold runTransformer at hrun
    split at hrun
    · simp at hrun
    rename_i j rest hav'
    simp only at hav'
    simp only [Option.some.injEq] at hrun
    subst hrun
    have hjn : j ∉ s.proc.map (·.1) := by
      have := h.nodup
      rw [hav', List.cons_append] at this
      exact fun hj => (List.nodup_cons.mp this).1 (by simp only [List.mem_append]; exact .inr hj)
    refine { len := ?_, nodup := ?_, count := ?_, limit := ?_, delayed := ?_, waiting := ?_ }
    · have := h.len
      rw [hav'] at this
      simp only [List.length_cons] at this ⊢
      omega
    · have := h.nodup
      rw [hav'] at this
      have hperm : (j :: rest ++ s.proc.map (·.1)).Perm (rest ++ (j, s.g.tr n).1 :: s.proc.map (·.1)) := by
        simpa using (List.perm_middle (a := j) (l₁ := rest) (l₂ := s.proc.map (·.1))).symm
      exact hperm.nodup_iff.mp this
    · intro p
      dsimp only
      rw [updateJobCounts_apply cfg hpools, h.count, List.filter_cons]
      by_cases hx : p ∈ cfg.pools (s.g.tr n) <;> simp [hx]
    · intro j' t' hj' hl' p hp' f hf hpos
      dsimp only at hj' hl' ⊢
      rw [updateJobCounts_apply cfg hpools]
      -- facts from the node not being blocked
      have hnb : p ∈ cfg.pools (s.g.tr n) → s.count p = 0 ∨
          (limitExceeded cfg (s.count p) p (s.g.tr n) = false ∧
           ∀ jt ∈ s.proc, s.live jt.1 = true → p ∈ cfg.pools jt.2 →
            cfg.trProduct jt.2 ≠ cfg.trProduct (s.g.tr n) →
            limitExceeded cfg (s.count p) p jt.2 = false) := by
        intro hpn
        unfold blocked at hbl
        rw [if_pos hk] at hbl
        have := List.any_eq_false.mp hbl p hpn
        by_cases hc0 : s.count p = 0
        · exact .inl hc0
        · right
          rw [if_neg hc0] at this
          simp only [Bool.or_eq_true, not_or, Bool.not_eq_true] at this
          refine ⟨this.1, fun jt hjt hlv hpp hne => ?_⟩
          have h2 := List.any_eq_false.mp this.2 jt hjt
          simpa [hlv, hpp, hne] using h2
      have exceeded : ∀ t : Tr, cfg.limit (cfg.trProduct t) = some f →
          limitExceeded cfg (s.count p) p t = false → s.count p < f p := by
        intro t ht hle
        simp only [limitExceeded, ht, Bool.and_eq_false_iff, decide_eq_false_iff_not] at hle
        omega
      rcases List.mem_cons.mp hj' with heq | hj'
      · simp only [Prod.mk.injEq] at heq
        obtain ⟨rfl, rfl⟩ := heq
        rw [if_pos hp']
        rcases hnb hp' with h0 | ⟨h1, _⟩
        · omega
        · have := exceeded _ hf h1; omega
      · have hjj : j' ≠ j := fun e => hjn (List.mem_map.mpr ⟨_, hj', e⟩)
        have hl2 : s.live j' = true := by simpa [upd, hjj] using hl'
        have hold := h.limit j' t' hj' hl2 p hp' f hf hpos
        split
        · rename_i hpn
          rcases hnb hpn with h0 | ⟨h1, h2⟩
          · omega
          · by_cases hsame : cfg.trProduct t' = cfg.trProduct (s.g.tr n)
            · have := exceeded (s.g.tr n) (by rw [← hsame]; exact hf) h1; omega
            · have := exceeded t' hf (h2 _ hj' hl2 hp' hsame); omega
        · omega
    · intro _ _; simp
    · intro _; simp
  | popRule l1 l2 n e hph hl hav hb hbl hk hp hcon =>
    exact h.same ⟨rfl, rfl, rfl, rfl⟩ h.delayed h.waiting
  | popThrow l1 l2 n k hph hl hav hb hbl hk =>
    refine JobInv.handleError ?_
    unfold finishTransformer
    obtain ⟨e1, e2, e3⟩ := sameJobs_finishLoop (.skipped (s.g.tr n))
      ((s.g.outputs (s.g.tr n)).take k) { s with leaves := l1 ++ l2 }
    dsimp only at e1 ⊢
    refine h.same (e1.after ⟨rfl, rfl, rfl, rfl⟩) ?_ ?_
    · rw [e2, e3, e1.proc]; exact h.delayed
    · rw [e3, e1.proc]; exact h.waiting
  | popRuleThrow l1 l2 n e hph hl hav hb hbl hk hp hcon =>
    exact JobInv.handleError (h.same ⟨rfl, rfl, rfl, rfl⟩ h.delayed h.waiting)
  | endLoop hph hor =>
    have key : s.proc = [] → s.delayed = [] ∧ s.leaves = [] := by
      intro hp
      refine ⟨Classical.byContradiction fun hd => h.delayed hph hd hp, ?_⟩
      rcases hor with hl | ha
      · exact hl
      · have := h.len
        rw [ha, hp] at this
        simp at this
        omega
    dsimp only
    split
    · split
      · exact h.same ⟨rfl, rfl, rfl, rfl⟩ (by simp [finish]) (by simp [finish])
      · exact h.same ⟨rfl, rfl, rfl, rfl⟩ (by simp) (by simp)
    · rename_i hne
      refine h.same ⟨rfl, rfl, rfl, rfl⟩ (by simp) ?_
      intro _ hp
      have := key hp
      exact hne ⟨by simp [this.1, this.2], hp⟩
  | finishLater hph => exact h.same ⟨rfl, rfl, rfl, rfl⟩ (by simp [finish]) (by simp [finish])
  | jobEnds j t hph hjt hlv =>
    exact
      { h with
        limit := fun j' t' hj' hl' => h.limit j' t' hj' (by
          simp only [upd] at hl'
          split at hl'
          · simp at hl'
          · exact hl') }
  | jobOk j t hph hjt hlv =>
    have h1 := h.endJob hpools hjt
    unfold finishTransformer
    obtain ⟨e1, e2, e3⟩ := sameJobs_finishLoop (.ran t) ((s.g.outputs t).take (s.g.outputs t).length)
      { endJob cfg s j t with log := .succeeded t :: s.log }
    exact JobInv'.afterJob (h1.keep (e1.after ⟨rfl, rfl, rfl, rfl⟩))
  | jobFail j t hph hjt hlv =>
    have h1 := h.endJob hpools hjt
    exact JobInv'.afterJob { h1 with }
  | jobOkThrow j t k hph hjt hlv =>
    have h1 := h.endJob hpools hjt
    unfold finishTransformer
    obtain ⟨e1, e2, e3⟩ := sameJobs_finishLoop (.ran t) ((s.g.outputs t).take k)
      { endJob cfg s j t with log := .succeeded t :: s.log }
    have e1' := e1.after (s1 := endJob cfg s j t) ⟨rfl, rfl, rfl, rfl⟩
    generalize hs2 : ((s.g.outputs t).take k).foldl (finishNode (.ran t))
      { endJob cfg s j t with log := .succeeded t :: s.log } = s2 at e1'
    have : ((endJob cfg s j t).g.outputs t).take k = (s.g.outputs t).take k := rfl
    rw [this, hs2]
    unfold handleError abort
    split
    · exact h1.same (e1'.trans ⟨rfl, rfl, rfl, rfl⟩) (by simp [finish]) (by simp [finish])
    · rename_i hne
      refine h1.same (e1'.trans (SameJobs.trans (s2 := { s2 with log := .error :: s2.log })
        ⟨rfl, rfl, rfl, rfl⟩ ((cancelJobs_same _).trans ⟨rfl, rfl, rfl, rfl⟩))) (by simp) ?_
      intro _
      rw [show ({ cancelJobs { s2 with log := .error :: s2.log } with phase := .waiting } : St).proc
        = s2.proc from (cancelJobs_same _).proc]
      exact hne
  | requestCancel hcr => exact h.same ⟨rfl, rfl, rfl, rfl⟩ h.delayed h.waiting
  | timer hph hst hcr => exact h.cancelJobs

theorem initial_jobInv (cfg : Cfg) (g : Graph) (roots : List Node) :
    JobInv cfg (initial cfg g roots) where
  len := by simp [initial, updateLeaves]
  nodup := by simpa [initial, updateLeaves] using List.nodup_range
  count := fun p => by simp [initial, updateLeaves]
  limit := fun j t hj => by simp [initial, updateLeaves] at hj
  delayed := fun _ => by simp [initial, updateLeaves]
  waiting := fun hp => by simp [initial, updateLeaves] at hp

theorem reach_jobInv {cfg : Cfg} {C : St → Node → Effect → Prop}
    (hpools : ∀ t, (cfg.pools t).Nodup) (hmax : 0 < cfg.maxJobs) {g : Graph} {roots : List Node}
    {s : St} (h : Reach cfg C g roots s) : JobInv cfg s := by
  induction h with
  | init => exact initial_jobInv cfg g roots
  | step s s' _ hstep ih => exact step_jobInv hpools hmax ih hstep

end Verif.Exec
