import Verif.Exec.Spec

/-
The invariant behind the safety properties of the scheduler, and its preservation.
-/

namespace Verif.Exec

/-- What may be observed after the history `pre`. -/
def okAfter : Ev → List Ev → Prop
  | .start t deps, pre =>
      (∀ c ∈ deps, Completed pre c) ∧ ¬ Started pre t ∧ ¬ Canceled pre ∧ ¬ Finished pre
  | .succeeded t, pre => Started pre t ∧ ¬ Ended pre t ∧ ¬ Finished pre
  | .failed t, pre => Started pre t ∧ ¬ Ended pre t ∧ ¬ Finished pre
  | .apply r deps, pre =>
      (∀ c ∈ deps, Completed pre c) ∧ (∀ d, Ev.apply r d ∉ pre) ∧ ¬ Canceled pre ∧ ¬ Finished pre
  | .completed n why, pre =>
      ¬ Completed pre n ∧ (∀ t, why = .ran t → Ev.succeeded t ∈ pre) ∧ ¬ Finished pre
  | .error, pre => ¬ Finished pre
  | .cancelJobs ts, pre =>
      ¬ Canceled pre ∧ ¬ Finished pre ∧ ∀ t, Started pre t → Ended pre t ∨ t ∈ ts
  | .finished _, pre => ¬ Finished pre ∧ ∀ t, Started pre t → Ended pre t

/-- Every event of a history was allowed when it happened. -/
def TraceOk : List Ev → Prop
  | [] => True
  | e :: pre => TraceOk pre ∧ okAfter e pre

/-- The invariant. `x` is a rule node whose application is under way. -/
structure Inv (x : Option Node) (s : St) : Prop where
  wf : WF s.g
  leaves : ∀ n, n ∈ s.leaves ∨ n ∈ s.delayed → n ∈ s.g.nodes ∧
    (s.st = .running → x ≠ some n → s.bs n = .buildable ∨ s.bs n = .untouched →
      ∀ c ∈ s.g.children n, s.bs c = .built)
  gen : ∀ n ∈ s.g.nodes, s.bs n = .building ∨ s.bs n = .built →
    ∀ c ∈ s.g.children n, s.bs c = .built
  started : ∀ t, Started s.log t → (∃ o ∈ s.g.nodes, s.g.kind o = .gen ∧ s.g.tr o = t) ∧
    ∀ o ∈ s.g.nodes, s.g.kind o = .gen → s.g.tr o = t → s.bs o = .building ∨ s.bs o = .built
  proc : ∀ j t, (j, t) ∈ s.proc → Started s.log t ∧ ¬ Ended s.log t ∧
    ∀ o ∈ s.g.nodes, s.g.kind o = .gen → s.g.tr o = t → s.bs o = .building
  procNodup : (s.proc.map (·.2)).Nodup
  failed : ∀ t, Ev.failed t ∈ s.log → Started s.log t ∧
    ∀ o ∈ s.g.nodes, s.g.kind o = .gen → s.g.tr o = t → s.bs o = .building
  ended : ∀ t, Ended s.log t → Started s.log t
  unfinished : ∀ t, Started s.log t → Ended s.log t ∨ ∃ j, (j, t) ∈ s.proc
  built : ∀ n ∈ s.g.nodes, s.bs n = .built → Completed s.log n
  completed : ∀ n, Completed s.log n → n ∈ s.g.nodes ∧ s.bs n = .built
  trace : TraceOk s.log
  finished : Finished s.log → s.phase = .done
  applied : s.st = .running → ∀ r d, Ev.apply r d ∈ s.log → x = some r ∨ Completed s.log r
  canceled : Canceled s.log → s.st ≠ .running
  notCanceled : s.st = .canceling → Canceled s.log
  scheduling : s.phase = .scheduling → s.st = .running
  active : s.phase ≠ .done → s.st ≠ .idle
  pending : s.phase = .finishPending ∨ s.phase = .done → s.proc = []

theorem mem_outputs {g : Graph} {t : Tr} {n : Node} :
    n ∈ g.outputs t ↔ n ∈ g.nodes ∧ g.kind n = .gen ∧ g.tr n = t := by
  simp [Graph.outputs]

theorem mem_parents {g : Graph} {n p : Node} :
    p ∈ g.parents n ↔ p ∈ g.nodes ∧ n ∈ g.children p := by
  simp [Graph.parents]

theorem allBuilt_iff {g : Graph} {bs : Node → BState} {n : Node} :
    allBuilt g bs n = true ↔ ∀ c ∈ g.children n, bs c = .built := by
  simp [allBuilt]

theorem upd_built_mono {bs : Node → BState} {n c : Node} (h : bs c = .built) :
    upd bs n .built c = .built := by
  unfold upd; split <;> simp_all

section LogLemmas
variable {e : Ev} {log : List Ev} {t : Tr} {n : Node}

theorem started_cons : Started (e :: log) t ↔ (∃ d, e = .start t d) ∨ Started log t := by
  unfold Started
  constructor
  · rintro ⟨d, h⟩
    rcases List.mem_cons.mp h with h | h
    · exact .inl ⟨d, h.symm⟩
    · exact .inr ⟨d, h⟩
  · rintro (⟨d, h⟩ | ⟨d, h⟩)
    · exact ⟨d, by simp [h]⟩
    · exact ⟨d, by simp [h]⟩

theorem ended_cons : Ended (e :: log) t ↔ e = .succeeded t ∨ e = .failed t ∨ Ended log t := by
  unfold Ended; simp only [List.mem_cons]
  constructor
  · rintro ((h | h) | (h | h)) <;> simp [h]
  · rintro (h | h | h | h) <;> simp [h]

theorem completed_cons : Completed (e :: log) n ↔ (∃ w, e = .completed n w) ∨ Completed log n := by
  unfold Completed
  constructor
  · rintro ⟨d, h⟩
    rcases List.mem_cons.mp h with h | h
    · exact .inl ⟨d, h.symm⟩
    · exact .inr ⟨d, h⟩
  · rintro (⟨d, h⟩ | ⟨d, h⟩)
    · exact ⟨d, by simp [h]⟩
    · exact ⟨d, by simp [h]⟩

theorem canceled_cons : Canceled (e :: log) ↔ (∃ js, e = .cancelJobs js) ∨ Canceled log := by
  unfold Canceled
  constructor
  · rintro ⟨d, h⟩
    rcases List.mem_cons.mp h with h | h
    · exact .inl ⟨d, h.symm⟩
    · exact .inr ⟨d, h⟩
  · rintro (⟨d, h⟩ | ⟨d, h⟩)
    · exact ⟨d, by simp [h]⟩
    · exact ⟨d, by simp [h]⟩

theorem finished_cons : Finished (e :: log) ↔ (∃ b, e = .finished b) ∨ Finished log := by
  unfold Finished
  constructor
  · rintro ⟨d, h⟩
    rcases List.mem_cons.mp h with h | h
    · exact .inl ⟨d, h.symm⟩
    · exact .inr ⟨d, h⟩
  · rintro (⟨d, h⟩ | ⟨d, h⟩)
    · exact ⟨d, by simp [h]⟩
    · exact ⟨d, by simp [h]⟩

end LogLemmas

attribute [local simp] started_cons ended_cons completed_cons canceled_cons finished_cons

/-- A graph- and log-neutral change of the leaves bag that only drops or moves leaves. -/
theorem Inv.dropLeaves {x : Option Node} {s : St} (h : Inv x s) (l d : List Node)
    (hl : ∀ n, n ∈ l ∨ n ∈ d → n ∈ s.leaves ∨ n ∈ s.delayed) :
    Inv x { s with leaves := l, delayed := d } :=
  { h with leaves := fun n hn => h.leaves n (hl n hn) }

/-- finishNode preserves the invariant. -/
theorem Inv.finishNode {x : Option Node} {s : St} (h : Inv x s) (why : Why) (n : Node)
    (hn : n ∈ s.g.nodes) (hb : s.bs n ≠ .built) (hph : s.phase ≠ .done)
    (hc : ∀ c ∈ s.g.children n, s.bs c = .built)
    (hproc : s.g.kind n = .gen → ∀ j, (j, s.g.tr n) ∉ s.proc)
    (hfail : s.g.kind n = .gen → Ev.failed (s.g.tr n) ∉ s.log)
    (hran : ∀ t, why = .ran t → Ev.succeeded t ∈ s.log) :
    Inv (if x = some n then none else x) (finishNode why s n) := by
  have hfin : ¬ Finished s.log := fun hf => hph (h.finished hf)
  have hbs : ∀ m, (Verif.Exec.finishNode why s n).bs m = if m = n then .built else s.bs m :=
    fun m => rfl
  have mono : ∀ m, s.bs m = .built → (Verif.Exec.finishNode why s n).bs m = .built := by
    intro m hm; rw [hbs]; split <;> simp_all
  refine
    { wf := h.wf
      leaves := ?_, gen := ?_, started := ?_, proc := ?_, procNodup := h.procNodup
      failed := ?_, ended := ?_, unfinished := ?_, built := ?_, completed := ?_, trace := ?_
      finished := ?_, applied := ?_, canceled := ?_, notCanceled := ?_
      scheduling := h.scheduling, active := h.active, pending := h.pending }
  · intro m hm
    have key : m ∈ s.leaves ∨ m ∈ s.delayed ∨ (m ∈ s.g.parents n ∧
        allBuilt s.g (Verif.Exec.finishNode why s n).bs m = true) := by
      rcases hm with hm | hm
      · simp only [Verif.Exec.finishNode, List.mem_append, List.mem_filter, Bool.and_eq_true] at hm
        rcases hm with hm | ⟨hm, _, hm2⟩
        · exact .inl hm
        · exact .inr (.inr ⟨hm, hm2⟩)
      · exact .inr (.inl hm)
    rcases key with hm | hm | ⟨hm, ha⟩
    · refine ⟨(h.leaves m (.inl hm)).1, fun hst hxm hbm c hcm => ?_⟩
      rw [hbs] at hbm
      split at hbm
      · simp at hbm
      · exact mono c ((h.leaves m (.inl hm)).2 hst (by grind) hbm c hcm)
    · refine ⟨(h.leaves m (.inr hm)).1, fun hst hxm hbm c hcm => ?_⟩
      rw [hbs] at hbm
      split at hbm
      · simp at hbm
      · exact mono c ((h.leaves m (.inr hm)).2 hst (by grind) hbm c hcm)
    · exact ⟨(mem_parents.mp hm).1, fun _ _ _ => allBuilt_iff.mp ha⟩
  · intro m hm hbm c hcm
    rw [hbs] at hbm
    split at hbm
    · rename_i hmn
      subst hmn
      exact mono c (hc c hcm)
    · exact mono c (h.gen m hm hbm c hcm)
  · intro t ht
    have ht' : Started s.log t := by simpa [Verif.Exec.finishNode] using ht
    refine ⟨(h.started t ht').1, fun o ho hk htr => ?_⟩
    rw [hbs]
    split
    · exact .inr rfl
    · exact (h.started t ht').2 o ho hk htr
  · intro j t hjt
    obtain ⟨h1, h2, h3⟩ := h.proc j t hjt
    refine ⟨by simpa [Verif.Exec.finishNode] using h1,
      by simpa [Verif.Exec.finishNode] using h2, fun o ho hk htr => ?_⟩
    rw [hbs]
    split
    · rename_i hon
      subst hon
      subst htr
      exact absurd hjt (hproc hk j)
    · exact h3 o ho hk htr
  · intro t ht
    have ht' : Ev.failed t ∈ s.log := by simpa [Verif.Exec.finishNode] using ht
    obtain ⟨h1, h3⟩ := h.failed t ht'
    refine ⟨by simpa [Verif.Exec.finishNode] using h1, fun o ho hk htr => ?_⟩
    rw [hbs]
    split
    · rename_i hon
      subst hon
      subst htr
      exact absurd ht' (hfail hk)
    · exact h3 o ho hk htr
  · intro t ht
    have := h.ended t (by simpa [Verif.Exec.finishNode] using ht)
    simpa [Verif.Exec.finishNode] using this
  · intro t ht
    have := h.unfinished t (by simpa [Verif.Exec.finishNode] using ht)
    simpa [Verif.Exec.finishNode] using this
  · intro m hm hbm
    rw [hbs] at hbm
    simp only [Verif.Exec.finishNode, completed_cons]
    split at hbm
    · rename_i hmn
      exact .inl ⟨why, by rw [hmn]⟩
    · exact .inr (h.built m hm hbm)
  · intro m hm
    simp only [Verif.Exec.finishNode, completed_cons] at hm
    rcases hm with ⟨w, hm⟩ | hm
    · simp only [Ev.completed.injEq] at hm
      refine ⟨hm.1 ▸ hn, ?_⟩
      rw [hbs, hm.1]; simp
    · exact ⟨(h.completed m hm).1, mono m (h.completed m hm).2⟩
  · refine ⟨h.trace, fun hcn => hb (h.completed n hcn).2, hran, hfin⟩
  · intro hf
    exact absurd (by simpa [Verif.Exec.finishNode] using hf) hfin
  · intro hst r d hr
    have := h.applied hst r d (by simpa [Verif.Exec.finishNode] using hr)
    by_cases hrn : r = n
    · right; simp [Verif.Exec.finishNode, hrn]
    · rcases this with hx | hx
      · left
        rw [if_neg]
        · exact hx
        · rw [hx]; simpa using hrn
      · right; simp [Verif.Exec.finishNode, hx]
  · intro hcan
    exact h.canceled (by simpa [Verif.Exec.finishNode] using hcan)
  · intro hst
    have := h.notCanceled hst
    simpa [Verif.Exec.finishNode] using this

theorem finishNode_frame (why : Why) (s : St) (n : Node) :
    (finishNode why s n).g = s.g ∧ (finishNode why s n).proc = s.proc ∧
    (finishNode why s n).phase = s.phase ∧ (finishNode why s n).st = s.st ∧
    (finishNode why s n).avail = s.avail ∧ (finishNode why s n).live = s.live ∧
    (finishNode why s n).count = s.count ∧ (finishNode why s n).delayed = s.delayed ∧
    (finishNode why s n).explicitly = s.explicitly ∧
    (finishNode why s n).cancelRequested = s.cancelRequested :=
  ⟨rfl, rfl, rfl, rfl, rfl, rfl, rfl, rfl, rfl, rfl⟩

/-- The loop of finishTransformer preserves the invariant. `l` are distinct artifacts of one
    transformer that is neither running nor failed and whose dependencies are built. -/
theorem Inv.finishLoop {x : Option Node} (why : Why) (t : Tr) :
    ∀ (l : List Node) {s : St}, Inv x s → s.phase ≠ .done → l.Nodup →
      (∀ n ∈ l, n ∈ s.g.nodes ∧ s.g.kind n = .gen ∧ s.g.tr n = t ∧ s.bs n ≠ .built ∧
        ∀ c ∈ s.g.children n, s.bs c = .built) →
      (∀ j, (j, t) ∉ s.proc) → Ev.failed t ∉ s.log →
      (∀ t', why = .ran t' → Ev.succeeded t' ∈ s.log) →
      (∀ n, x ≠ some n ∨ s.g.kind n = .rule) →
      Inv x (l.foldl (Verif.Exec.finishNode why) s)
  | [], _, h, _, _, _, _, _, _, _ => h
  | n :: l, s, h, hph, hnd, hl, hp, hf, hr, hx => by
      obtain ⟨hn, hk, ht, hb, hc⟩ := hl n (by simp)
      have h1 := h.finishNode why n hn hb hph hc (fun _ => ht ▸ hp) (fun _ => ht ▸ hf) hr
      have hxn : x ≠ some n := by
        rcases hx n with h | h
        · exact h
        · rw [hk] at h; simp at h
      rw [if_neg hxn] at h1
      simp only [List.foldl_cons]
      have hnd' := List.nodup_cons.mp hnd
      refine Inv.finishLoop why t l h1 hph hnd'.2 ?_ hp ?_ ?_ hx
      · intro m hm
        obtain ⟨a1, a2, a3, a4, a5⟩ := hl m (by simp [hm])
        refine ⟨a1, a2, a3, ?_, fun c hcm => upd_built_mono (a5 c hcm)⟩
        have : m ≠ n := fun h => hnd'.1 (h ▸ hm)
        simpa [Verif.Exec.finishNode, upd, this] using a4
      · simpa [Verif.Exec.finishNode] using hf
      · intro t' ht'
        have := hr t' ht'
        simp [Verif.Exec.finishNode, this]

theorem finishLoop_frame (why : Why) : ∀ (l : List Node) (s : St),
    let s' := l.foldl (finishNode why) s
    s'.g = s.g ∧ s'.proc = s.proc ∧ s'.phase = s.phase ∧ s'.st = s.st ∧ s'.avail = s.avail ∧
    s'.live = s.live ∧ s'.count = s.count ∧ s'.delayed = s.delayed ∧
    s'.explicitly = s.explicitly ∧ s'.cancelRequested = s.cancelRequested
  | [], _ => ⟨rfl, rfl, rfl, rfl, rfl, rfl, rfl, rfl, rfl, rfl⟩
  | n :: l, s => finishLoop_frame why l (finishNode why s n)

/-- What updateLeaves does to states and leaves. -/
structure VisitOk (g : Graph) (a b : Acc) : Prop where
  bs : ∀ n, b.bs n = a.bs n ∨ (a.bs n = .untouched ∧ b.bs n = .buildable)
  leaves : ∀ n ∈ b.leaves, n ∈ a.leaves ∨ (n ∈ g.nodes ∧ ∀ c ∈ g.children n, b.bs c = .built)

theorem VisitOk.refl (g : Graph) (a : Acc) : VisitOk g a a := ⟨fun _ => .inl rfl, fun _ h => .inl h⟩

theorem VisitOk.built_iff {g : Graph} {a b : Acc} (h : VisitOk g a b) (n : Node) :
    b.bs n = .built ↔ a.bs n = .built := by
  rcases h.bs n with h | ⟨h1, h2⟩
  · rw [h]
  · rw [h1, h2]; simp

theorem VisitOk.trans {g : Graph} {a b c : Acc} (h : VisitOk g a b) (h' : VisitOk g b c) :
    VisitOk g a c where
  bs n := by
    rcases h.bs n with e | ⟨e1, e2⟩ <;> rcases h'.bs n with f | ⟨f1, f2⟩
    · left; rw [f, e]
    · right; exact ⟨by rw [← e, f1], f2⟩
    · right; exact ⟨e1, by rw [f, e2]⟩
    · rw [e2] at f1; simp at f1
  leaves n hn := by
    rcases h'.leaves n hn with e | e
    · rcases h.leaves n e with f | ⟨f1, f2⟩
      · exact .inl f
      · exact .inr ⟨f1, fun c hc => (h'.built_iff c).mpr (f2 c hc)⟩
    · exact .inr e

theorem visitOk_foldl {g : Graph} (f : Acc → Node → Acc) (l : List Node)
    (hf : ∀ a, ∀ n ∈ l, VisitOk g a (f a n)) : ∀ a, VisitOk g a (l.foldl f a) := by
  induction l with
  | nil => exact fun a => .refl g a
  | cons n l ih =>
    intro a
    exact (hf a n (by simp)).trans (ih (fun a m hm => hf a m (by simp [hm])) _)

theorem visitOk_visit {g : Graph} (hg : ∀ n ∈ g.nodes, ∀ c ∈ g.children n, c ∈ g.nodes) :
    ∀ (fuel : Nat) (a : Acc) (n : Node), n ∈ g.nodes → VisitOk g a (visit g fuel a n)
  | 0, a, n, _ => .refl g a
  | fuel + 1, a, n, hn => by
      unfold visit
      split
      · exact .refl g a
      · have h1 : VisitOk g a
            { bs := touch a.bs n, seen := n :: a.seen, leaves := a.leaves } := by
          refine ⟨fun m => ?_, fun m hm => .inl hm⟩
          dsimp only [touch]
          split
          · unfold upd
            split
            · rename_i h0 hmn
              subst hmn
              exact .inr ⟨h0, rfl⟩
            · exact .inl rfl
          · exact .inl rfl
        have h2 := h1.trans (visitOk_foldl
          (fun b c => if b.bs c = .built then b else visit g fuel b c) (g.children n)
          (fun b c hc => by
            split
            · exact .refl g b
            · exact visitOk_visit hg fuel b c (hg n hn c hc)) _)
        dsimp only
        split
        · rename_i hall
          refine h2.trans ⟨fun m => .inl rfl, fun m hm => ?_⟩
          rcases List.mem_cons.mp hm with hm | hm
          · subst hm
            exact .inr ⟨hn, allBuilt_iff.mp hall⟩
          · exact .inl hm
        · exact h2

theorem updateLeaves_ok (s : St) (ns : List Node) (hw : WF s.g) (hns : ∀ n ∈ ns, n ∈ s.g.nodes) :
    (∀ n, (updateLeaves s ns).bs n = s.bs n ∨
      (s.bs n = .untouched ∧ (updateLeaves s ns).bs n = .buildable)) ∧
    (∀ n ∈ (updateLeaves s ns).leaves, n ∈ s.leaves ∨
      (n ∈ s.g.nodes ∧ ∀ c ∈ s.g.children n, (updateLeaves s ns).bs c = .built)) := by
  have := visitOk_foldl (g := s.g) (visit s.g (s.g.nodes.length + 1)) ns
    (fun a n hn => visitOk_visit hw.closed _ a n (hns n hn)) ⟨s.bs, [], s.leaves⟩
  exact ⟨this.bs, this.leaves⟩

theorem Inv.updateLeaves {x : Option Node} {s : St} (h : Inv x s) (ns : List Node)
    (hns : ∀ n ∈ ns, n ∈ s.g.nodes) : Inv x (updateLeaves s ns) := by
  obtain ⟨hb, hl⟩ := updateLeaves_ok s ns h.wf hns
  have built_iff : ∀ n, (Verif.Exec.updateLeaves s ns).bs n = .built ↔ s.bs n = .built := by
    intro n
    rcases hb n with e | ⟨e1, e2⟩
    · rw [e]
    · rw [e1, e2]; simp
  have building_iff : ∀ n, (Verif.Exec.updateLeaves s ns).bs n = .building ↔ s.bs n = .building := by
    intro n
    rcases hb n with e | ⟨e1, e2⟩
    · rw [e]
    · rw [e1, e2]; simp
  refine
    { wf := h.wf
      leaves := ?_, gen := ?_, started := ?_, proc := ?_, procNodup := h.procNodup
      failed := ?_, ended := h.ended, unfinished := h.unfinished, built := ?_, completed := ?_
      trace := h.trace, finished := h.finished, applied := ?_, canceled := h.canceled
      notCanceled := h.notCanceled, scheduling := h.scheduling, active := h.active, pending := h.pending }
  · intro n hn
    have old : (n ∈ s.leaves ∨ n ∈ s.delayed) → n ∈ s.g.nodes ∧
        (s.st = .running → x ≠ some n → (Verif.Exec.updateLeaves s ns).bs n = .buildable ∨
          (Verif.Exec.updateLeaves s ns).bs n = .untouched →
          ∀ c ∈ s.g.children n, (Verif.Exec.updateLeaves s ns).bs c = .built) := by
      intro hm
      refine ⟨(h.leaves n hm).1, fun hst hxn hbn c hc => ?_⟩
      rw [built_iff]
      rcases hb n with e | ⟨e1, e2⟩
      · exact (h.leaves n hm).2 hst hxn (e ▸ hbn) c hc
      · exact (h.leaves n hm).2 hst hxn (.inr e1) c hc
    rcases hn with hn | hn
    · rcases hl n hn with hm | ⟨h1, h2⟩
      · exact old (.inl hm)
      · exact ⟨h1, fun _ _ _ => h2⟩
    · exact old (.inr hn)
  · intro n hn hbn c hc
    rw [built_iff, building_iff] at hbn
    rw [built_iff]
    exact h.gen n hn hbn c hc
  · intro t ht
    refine ⟨(h.started t ht).1, fun o ho hk htr => ?_⟩
    rw [built_iff, building_iff]
    exact (h.started t ht).2 o ho hk htr
  · intro j t hjt
    obtain ⟨h1, h2, h3⟩ := h.proc j t hjt
    exact ⟨h1, h2, fun o ho hk htr => (building_iff o).mpr (h3 o ho hk htr)⟩
  · intro t ht
    obtain ⟨h1, h3⟩ := h.failed t ht
    exact ⟨h1, fun o ho hk htr => (building_iff o).mpr (h3 o ho hk htr)⟩
  · intro n hn hbn
    exact h.built n hn ((built_iff n).mp hbn)
  · intro n hn
    exact ⟨(h.completed n hn).1, (built_iff n).mpr (h.completed n hn).2⟩
  · exact h.applied

/-! ### Rule application -/

theorem Removable.gen {g : Graph} {r n : Node} (h : Removable g r n) :
    n ∈ g.nodes ∧ g.kind n = .gen := by
  cases h with
  | output _ h1 h2 _ => exact ⟨h1, h2⟩
  | dependent _ _ h1 h2 _ _ => exact ⟨h1, h2⟩

theorem Inv.removable {x : Option Node} {s : St} (h : Inv x s) {r : Node} (hr : s.bs r ≠ .built)
    {n : Node} (hn : Removable s.g r n) : ¬ (s.bs n = .building ∨ s.bs n = .built) := by
  induction hn with
  | output n h1 h2 h3 => exact fun hb => hr (h.gen n h1 hb r h3)
  | dependent n c h1 h2 h3 _ ih => exact fun hb => ih (.inr (h.gen n h1 hb c h3))

theorem Inv.applyEffect {s : St} {r : Node} {e : Effect} (h : Inv (some r) s)
    (hst : s.st = .running) (hr : r ∈ s.g.nodes) (hk : s.g.kind r = .rule)
    (hb : s.bs r = .buildable) (he : SafeEffect s r e) : Inv (some r) (applyEffect s e) := by
  have hrb : s.bs r ≠ .built := by rw [hb]; simp
  have hbs : ∀ n, n ∈ s.g.nodes → (Verif.Exec.applyEffect s e).bs n = s.bs n := by
    intro n hn; simp [Verif.Exec.applyEffect, hn]
  have hnew : ∀ n, n ∉ s.g.nodes → (Verif.Exec.applyEffect s e).bs n = .untouched := by
    intro n hn; simp [Verif.Exec.applyEffect, hn]
  -- a node that is being built or built is untouched by the application
  have keep : ∀ n ∈ s.g.nodes, (s.bs n = .building ∨ s.bs n = .built) →
      n ∈ e.g.nodes ∧ r ∉ s.g.children n ∧ n ≠ r := by
    intro n hn hbn
    refine ⟨?_, fun hc => hrb (h.gen n hn hbn r hc), fun hnr => ?_⟩
    · exact Classical.byContradiction fun hne => h.removable hrb (he.removed n hn hne) hbn
    · rw [hnr, hb] at hbn; simp at hbn
  have pull : ∀ t, Started s.log t → ∀ o ∈ e.g.nodes, e.g.kind o = .gen → e.g.tr o = t →
      o ∈ s.g.nodes ∧ s.g.kind o = .gen ∧ s.g.tr o = t := by
    intro t ht o ho hko hto
    obtain ⟨⟨m, hm, hkm, htm⟩, hall⟩ := h.started t ht
    have hrm := (keep m hm (hall m hm hkm htm)).2.1
    have hro : r ∉ e.g.children o := fun hro =>
      hrm (he.transformer o ho hko hro m hm hkm (htm.trans hto.symm))
    have hos : o ∈ s.g.nodes := Classical.byContradiction fun hne => hro (he.new o ho hne).2
    have hor : o ≠ r := fun heq => by
      have := he.rule_stays.2
      rw [← heq, hko] at this; simp at this
    have hro' : r ∉ s.g.children o := fun hc => hro (he.dependents o ho hos hor hc)
    refine ⟨hos, (he.kinds o ho hos).1 ▸ hko, ?_⟩
    rw [← (he.others o ho hos hor hro').1]; exact hto
  refine
    { wf := he.wf
      leaves := ?_, gen := ?_, started := ?_, proc := ?_, procNodup := h.procNodup
      failed := ?_, ended := h.ended, unfinished := h.unfinished, built := ?_, completed := ?_
      trace := h.trace, finished := h.finished, applied := ?_, canceled := h.canceled
      notCanceled := h.notCanceled, scheduling := h.scheduling, active := h.active, pending := h.pending }
  · intro n hn
    obtain ⟨h1, h2⟩ := h.leaves n hn
    by_cases hnr : n = r
    · subst hnr
      exact ⟨he.rule_stays.1, fun _ hx => absurd rfl hx⟩
    have hx : some r ≠ some n := by simpa using fun h => hnr h.symm
    have hnode : n ∈ e.g.nodes := by
      refine Classical.byContradiction fun hne => ?_
      have hrem := he.removed n h1 hne
      have hnb := h.removable hrb hrem
      have hbn : s.bs n = .buildable ∨ s.bs n = .untouched := by
        cases hbn : s.bs n <;> simp_all
      have hc := h2 hst hx hbn
      cases hrem with
      | output _ _ _ h3 => exact hrb (hc r h3)
      | dependent _ c _ _ h3 h4 => exact h.removable hrb h4 (.inr (hc c h3))
    refine ⟨hnode, fun _ _ hbn c hc => ?_⟩
    rw [hbs n h1] at hbn
    have hold := h2 hst hx hbn
    have hro : r ∉ s.g.children n := fun hc => hrb (hold r hc)
    have hcs := (he.others n hnode h1 hnr hro).2 c hc
    rw [hbs c (h.wf.closed n h1 c hcs)]
    exact hold c hcs
  · intro n hn hbn c hc
    have hns : n ∈ s.g.nodes := Classical.byContradiction fun hne => by
      rw [hnew n hne] at hbn; simp at hbn
    rw [hbs n hns] at hbn
    obtain ⟨_, k2, k3⟩ := keep n hns hbn
    have hcs := (he.others n hn hns k3 k2).2 c hc
    rw [hbs c (h.wf.closed n hns c hcs)]
    exact h.gen n hns hbn c hcs
  · intro t ht
    obtain ⟨⟨m, hm, hkm, htm⟩, hall⟩ := h.started t ht
    obtain ⟨k1, k2, k3⟩ := keep m hm (hall m hm hkm htm)
    refine ⟨⟨m, k1, (he.kinds m k1 hm).1 ▸ hkm, ?_⟩, fun o ho hko hto => ?_⟩
    · exact (he.others m k1 hm k3 k2).1.trans htm
    · obtain ⟨p1, p2, p3⟩ := pull t ht o ho hko hto
      rw [hbs o p1]
      exact hall o p1 p2 p3
  · intro j t hjt
    obtain ⟨h1, h2, h3⟩ := h.proc j t hjt
    refine ⟨h1, h2, fun o ho hko hto => ?_⟩
    obtain ⟨p1, p2, p3⟩ := pull t h1 o ho hko hto
    rw [hbs o p1]
    exact h3 o p1 p2 p3
  · intro t ht
    obtain ⟨h1, h3⟩ := h.failed t ht
    refine ⟨h1, fun o ho hko hto => ?_⟩
    obtain ⟨p1, p2, p3⟩ := pull t h1 o ho hko hto
    rw [hbs o p1]
    exact h3 o p1 p2 p3
  · intro n hn hbn
    have hns : n ∈ s.g.nodes := Classical.byContradiction fun hne => by
      rw [hnew n hne] at hbn; simp at hbn
    exact h.built n hns (hbs n hns ▸ hbn)
  · intro n hn
    obtain ⟨h1, h2⟩ := h.completed n hn
    refine ⟨?_, by rw [hbs n h1]; exact h2⟩
    exact Classical.byContradiction fun hne => h.removable hrb (he.removed n h1 hne) (.inr h2)
  · exact h.applied

/-! ### Starting and ending jobs, cancellation -/

theorem Inv.runTransformer {cfg : Cfg} {s s' : St} (h : Inv none s) {n : Node}
    (hst : s.st = .running) (hph : s.phase = .scheduling)
    (hn : n ∈ s.g.nodes) (hk : s.g.kind n = .gen) (hb : s.bs n = .buildable)
    (hc : ∀ c ∈ s.g.children n, s.bs c = .built)
    (hnb : ∀ o ∈ s.g.outputs (s.g.tr n), s.bs o ≠ .built)
    (hrun : runTransformer cfg s (s.g.tr n) = some s') : Inv none s' := by
  have hns : ¬ Started s.log (s.g.tr n) := by
    intro hs
    have := (h.started _ hs).2 n hn hk rfl
    rw [hb] at this; simp at this
  have hne : ¬ Ended s.log (s.g.tr n) := fun he => hns (h.ended _ he)
  have hnc : ¬ Canceled s.log := fun hcn => h.canceled hcn hst
  have hnf : ¬ Finished s.log := fun hf => by have := h.finished hf; rw [hph] at this; simp at this
  have hdep : ∀ o ∈ s.g.outputs (s.g.tr n), ∀ c ∈ s.g.children o, s.bs c = .built := by
    intro o ho c hcc
    obtain ⟨o1, o2, o3⟩ := mem_outputs.mp ho
    exact hc c (h.wf.siblings o o1 n hn o2 hk o3 c hcc)
  unfold Verif.Exec.runTransformer at hrun
  split at hrun
  · simp at hrun
  rename_i j rest hav
  simp only [Option.some.injEq] at hrun
  subst hrun
  have hbuilt : ∀ m, s.bs m = .built →
      (if m ∈ s.g.outputs (s.g.tr n) then BState.building else s.bs m) = .built := by
    intro m hm
    rw [if_neg]
    · exact hm
    · exact fun ho => hnb m ho hm
  refine
    { wf := h.wf
      leaves := ?_, gen := ?_, started := ?_, proc := ?_, procNodup := ?_
      failed := ?_, ended := ?_, unfinished := ?_, built := ?_, completed := ?_, trace := ?_
      finished := ?_, applied := ?_, canceled := ?_, notCanceled := ?_
      scheduling := h.scheduling, active := h.active, pending := ?_ }
  · intro m hm
    refine ⟨(h.leaves m hm).1, fun _ hx hbm c hcm => ?_⟩
    refine hbuilt c ((h.leaves m hm).2 hst hx ?_ c hcm)
    dsimp only at hbm
    split at hbm
    · simp at hbm
    · exact hbm
  · intro m hm hbm c hcm
    refine hbuilt c ?_
    dsimp only at hbm
    split at hbm
    · rename_i ho
      exact hdep m ho c hcm
    · exact h.gen m hm hbm c hcm
  · intro t ht
    dsimp only at ht ⊢
    rw [started_cons] at ht
    rcases ht with ⟨d, ht⟩ | ht
    · simp only [Ev.start.injEq] at ht
      obtain ⟨ht, _⟩ := ht
      subst ht
      refine ⟨⟨n, hn, hk, rfl⟩, fun o ho hko hto => ?_⟩
      rw [if_pos (mem_outputs.mpr ⟨ho, hko, hto⟩)]
      exact .inl rfl
    · refine ⟨(h.started t ht).1, fun o ho hko hto => ?_⟩
      split
      · exact .inl rfl
      · exact (h.started t ht).2 o ho hko hto
  · intro j' t hjt
    dsimp only at hjt ⊢
    rcases List.mem_cons.mp hjt with hjt | hjt
    · simp only [Prod.mk.injEq] at hjt
      obtain ⟨_, ht⟩ := hjt
      subst ht
      refine ⟨by simp, by simpa using hne, fun o ho hko hto => ?_⟩
      rw [if_pos (mem_outputs.mpr ⟨ho, hko, hto⟩)]
    · obtain ⟨h1, h2, h3⟩ := h.proc j' t hjt
      refine ⟨by simp [h1], by simpa using h2, fun o ho hko hto => ?_⟩
      split
      · rfl
      · exact h3 o ho hko hto
  · simp only [List.map_cons, List.nodup_cons]
    refine ⟨fun hmem => ?_, h.procNodup⟩
    obtain ⟨⟨j', t'⟩, hm, ht⟩ := List.mem_map.mp hmem
    dsimp only at ht
    subst ht
    exact hns (h.proc j' _ hm).1
  · intro t ht
    dsimp only at ht ⊢
    have ht' : Ev.failed t ∈ s.log := by simpa using ht
    obtain ⟨h1, h3⟩ := h.failed t ht'
    refine ⟨by simp [h1], fun o ho hko hto => ?_⟩
    split
    · rfl
    · exact h3 o ho hko hto
  · intro t ht
    have ht' : Ended s.log t := by simpa using ht
    simp [h.ended t ht']
  · intro t ht
    dsimp only at ht ⊢
    rw [started_cons] at ht
    rcases ht with ⟨d, ht⟩ | ht
    · simp only [Ev.start.injEq] at ht
      exact .inr ⟨j, by simp [ht.1]⟩
    · rcases h.unfinished t ht with hu | ⟨j', hu⟩
      · left; simpa using hu
      · right; exact ⟨j', by simp [hu]⟩
  · intro m hm hbm
    dsimp only at hbm
    split at hbm
    · simp at hbm
    · simpa using h.built m hm hbm
  · intro m hm
    have hm' : Completed s.log m := by simpa using hm
    exact ⟨(h.completed m hm').1, hbuilt m (h.completed m hm').2⟩
  · refine ⟨h.trace, fun c hcd => ?_, hns, hnc, hnf⟩
    obtain ⟨o, ho, hco⟩ := List.mem_flatMap.mp hcd
    exact h.built c (h.wf.closed o (mem_outputs.mp ho).1 c hco) (hdep o ho c hco)
  · intro hf
    exact absurd (by simpa using hf) hnf
  · intro _ r d hr
    have := h.applied hst r d (by simpa using hr)
    simpa using this
  · intro hcn
    exact absurd (by simpa using hcn) hnc
  · intro hst'
    dsimp only at hst'
    rw [hst] at hst'; simp at hst'
  · intro hp
    dsimp only at hp
    rw [hph] at hp; simp at hp

/-- Bookkeeping of finishJob together with the report of the job's result. -/
theorem Inv.endJob {cfg : Cfg} {s : St} (h : Inv none s) {j : Job} {t : Tr} {ev : Ev}
    (hph : s.phase = .waiting) (hjt : (j, t) ∈ s.proc)
    (hev : ev = .succeeded t ∨ ev = .failed t) :
    Inv none { endJob cfg s j t with log := ev :: s.log } ∧
    (∀ j', (j', t) ∉ (endJob cfg s j t).proc) := by
  obtain ⟨p1, p2, p3⟩ := h.proc j t hjt
  have hnf : ¬ Finished s.log := fun hf => by have := h.finished hf; rw [hph] at this; simp at this
  have hother : ∀ j' t', (j', t') ∈ s.proc.erase (j, t) → (j', t') ∈ s.proc ∧ t' ≠ t := by
    intro j' t' hm
    have hm' := List.mem_of_mem_erase hm
    refine ⟨hm', fun htt => ?_⟩
    subst htt
    have hnd := h.procNodup
    have hperm : (s.proc).Perm ((j, t') :: s.proc.erase (j, t')) := List.perm_cons_erase hjt
    have := (hperm.map (·.2)).nodup_iff.mp hnd
    simp only [List.map_cons, List.nodup_cons] at this
    exact this.1 (List.mem_map.mpr ⟨(j', t'), hm, rfl⟩)
  have s_cons : ∀ t', Started (ev :: s.log) t' ↔ Started s.log t' := by
    intro t'; rcases hev with e | e <;> simp [e]
  have e_cons : ∀ t', Ended (ev :: s.log) t' ↔ t' = t ∨ Ended s.log t' := by
    intro t'; rcases hev with e | e <;> simp [e, eq_comm]
  have c_cons : ∀ n, Completed (ev :: s.log) n ↔ Completed s.log n := by
    intro t'; rcases hev with e | e <;> simp [e]
  have can_cons : Canceled (ev :: s.log) ↔ Canceled s.log := by
    rcases hev with e | e <;> simp [e]
  refine ⟨?_, fun j' hm => (hother j' t hm).2 rfl⟩
  refine
    { wf := h.wf
      leaves := h.leaves, gen := h.gen, started := ?_, proc := ?_, procNodup := ?_
      failed := ?_, ended := ?_, unfinished := ?_, built := ?_, completed := ?_, trace := ?_
      finished := ?_, applied := ?_, canceled := ?_, notCanceled := ?_
      scheduling := h.scheduling, active := h.active, pending := ?_ }
  · intro t' ht'
    exact h.started t' ((s_cons t').mp ht')
  · intro j' t' hm
    obtain ⟨hm1, hne⟩ := hother j' t' hm
    obtain ⟨q1, q2, q3⟩ := h.proc j' t' hm1
    refine ⟨(s_cons t').mpr q1, fun he => ?_, q3⟩
    rcases (e_cons t').mp he with he | he
    · exact hne he
    · exact q2 he
  · exact h.procNodup.sublist ((List.erase_sublist).map _)
  · intro t' ht'
    dsimp only at ht' ⊢
    rw [s_cons]
    rcases List.mem_cons.mp ht' with ht' | ht'
    · rcases hev with e | e
      · rw [e] at ht'; simp at ht'
      · rw [e] at ht'
        simp only [Ev.failed.injEq] at ht'
        subst ht'
        exact ⟨p1, p3⟩
    · exact h.failed t' ht'
  · intro t' ht'
    dsimp only at ht' ⊢
    rw [s_cons]
    rcases (e_cons t').mp ht' with he | he
    · exact he ▸ p1
    · exact h.ended t' he
  · intro t' ht'
    dsimp only at ht' ⊢
    rw [e_cons]
    rcases h.unfinished t' ((s_cons t').mp ht') with hu | ⟨j', hu⟩
    · exact .inl (.inr hu)
    · by_cases htt : t' = t
      · exact .inl (.inl htt)
      · right
        refine ⟨j', ?_⟩
        show (j', t') ∈ s.proc.erase (j, t)
        refine (List.mem_erase_of_ne ?_).mpr hu
        intro hh; exact htt (by simpa using (Prod.mk.inj hh).2)
  · intro n hn hb
    exact (c_cons n).mpr (h.built n hn hb)
  · intro n hn
    exact h.completed n ((c_cons n).mp hn)
  · refine ⟨h.trace, ?_⟩
    rcases hev with e | e <;> subst e <;> exact ⟨p1, p2, hnf⟩
  · intro hf
    rcases hev with e | e <;> simp [e, hnf] at hf
  · intro hst r d hr
    dsimp only at hr ⊢
    rw [c_cons]
    exact h.applied hst r d (by rcases hev with e | e <;> simpa [e] using hr)
  · intro hcn
    exact h.canceled (can_cons.mp hcn)
  · intro hst
    exact can_cons.mpr (h.notCanceled hst)
  · intro hp
    rcases hp with hp | hp <;> · simp only [Verif.Exec.endJob, hph] at hp; simp at hp

theorem Inv.cancelJobs {x : Option Node} {s : St} (h : Inv x s) (hph : s.phase ≠ .done)
    (hsch : s.phase ≠ .scheduling) : Inv x (cancelJobs s) := by
  unfold Verif.Exec.cancelJobs
  split
  · exact h
  rename_i hst
  have hrun : s.st = .running := by
    have := h.active hph
    cases hs : s.st <;> simp_all
  have hnf : ¬ Finished s.log := fun hf => hph (h.finished hf)
  have hnc : ¬ Canceled s.log := fun hcn => h.canceled hcn hrun
  refine
    { wf := h.wf
      leaves := ?_, gen := h.gen, started := ?_, proc := ?_, procNodup := h.procNodup
      failed := ?_, ended := ?_, unfinished := ?_, built := ?_, completed := ?_, trace := ?_
      finished := ?_, applied := ?_, canceled := ?_, notCanceled := ?_
      scheduling := fun hp => absurd hp hsch, active := ?_, pending := h.pending }
  · intro n hn
    exact ⟨(h.leaves n hn).1, fun hs => by simp at hs⟩
  · intro t ht
    exact h.started t (by simpa using ht)
  · intro j t hjt
    obtain ⟨q1, q2, q3⟩ := h.proc j t hjt
    exact ⟨by simpa using q1, by simpa using q2, q3⟩
  · intro t ht
    obtain ⟨q1, q3⟩ := h.failed t (by simpa using ht)
    exact ⟨by simpa using q1, q3⟩
  · intro t ht
    have := h.ended t (by simpa using ht)
    simpa using this
  · intro t ht
    have := h.unfinished t (by simpa using ht)
    simpa using this
  · intro n hn hb
    simpa using h.built n hn hb
  · intro n hn
    exact h.completed n (by simpa using hn)
  · refine ⟨h.trace, hnc, hnf, fun t ht => ?_⟩
    rcases h.unfinished t ht with hu | ⟨j, hu⟩
    · exact .inl hu
    · exact .inr (List.mem_map.2 ⟨_, hu, rfl⟩)
  · intro hf
    exact absurd (by simpa using hf) hnf
  · intro hs; simp at hs
  · intro _; simp
  · intro _; simp
  · intro _; simp

theorem Inv.finish {x : Option Node} {s : St} (h : Inv x s) (hph : s.phase ≠ .done)
    (hp : s.proc = []) : Inv none (finish s) := by
  have hnf : ¬ Finished s.log := fun hf => hph (h.finished hf)
  unfold Verif.Exec.finish
  refine
    { wf := h.wf
      leaves := ?_, gen := h.gen, started := ?_, proc := ?_, procNodup := h.procNodup
      failed := ?_, ended := ?_, unfinished := ?_, built := ?_, completed := ?_, trace := ?_
      finished := ?_, applied := ?_, canceled := ?_, notCanceled := ?_
      scheduling := ?_, active := ?_, pending := fun _ => hp }
  · intro n hn
    exact ⟨(h.leaves n hn).1, fun hs => by simp at hs⟩
  · intro t ht
    exact h.started t (by simpa using ht)
  · intro j t hjt
    dsimp only at hjt
    rw [hp] at hjt; simp at hjt
  · intro t ht
    obtain ⟨q1, q3⟩ := h.failed t (by simpa using ht)
    exact ⟨by simpa using q1, q3⟩
  · intro t ht
    have := h.ended t (by simpa using ht)
    simpa using this
  · intro t ht
    have := h.unfinished t (by simpa using ht)
    simpa using this
  · intro n hn hb
    simpa using h.built n hn hb
  · intro n hn
    exact h.completed n (by simpa using hn)
  · refine ⟨h.trace, hnf, fun t ht => ?_⟩
    rcases h.unfinished t ht with hu | ⟨j, hu⟩
    · exact hu
    · rw [hp] at hu; simp at hu
  · intro _; rfl
  · intro hs; simp at hs
  · intro _; simp
  · intro hs; simp at hs
  · intro hs; simp at hs
  · intro hs; simp at hs

theorem Inv.setPhase {x : Option Node} {s : St} (h : Inv x s) (hph : s.phase ≠ .done) :
    Inv x { s with phase := .waiting } :=
  { h with
    finished := fun hf => absurd (h.finished hf) hph
    scheduling := fun hs => by simp at hs
    active := fun _ => h.active hph
    pending := fun hs => by simp at hs }

theorem Inv.forget {x : Option Node} {s : St} (h : Inv x s) (hst : s.st ≠ .running) : Inv none s :=
  { h with
    leaves := fun n hn => ⟨(h.leaves n hn).1, fun hs => absurd hs hst⟩
    applied := fun hs => absurd hs hst }

theorem cancelJobs_st (s : St) : (cancelJobs s).st = .canceling := by
  unfold cancelJobs; split <;> simp_all

theorem cancelJobs_frame (s : St) :
    (cancelJobs s).phase = s.phase ∧ (cancelJobs s).proc = s.proc ∧ (cancelJobs s).g = s.g ∧
    (cancelJobs s).bs = s.bs ∧ (cancelJobs s).avail = s.avail ∧ (cancelJobs s).live = s.live ∧
    (cancelJobs s).count = s.count := by
  unfold cancelJobs; split <;> simp

theorem Inv.logError {x : Option Node} {s : St} (h : Inv x s) (hph : s.phase ≠ .done) :
    Inv x { s with log := .error :: s.log } := by
  have hnf : ¬ Finished s.log := fun hf => hph (h.finished hf)
  refine
    { h with
      started := ?_, proc := ?_
      failed := ?_, ended := ?_, unfinished := ?_, built := ?_, completed := ?_, trace := ?_
      finished := ?_, applied := ?_, canceled := ?_, notCanceled := ?_ }
  · intro t ht
    exact h.started t (by simpa using ht)
  · intro j t hjt
    obtain ⟨q1, q2, q3⟩ := h.proc j t hjt
    exact ⟨by simpa using q1, by simpa using q2, q3⟩
  · intro t ht
    obtain ⟨q1, q3⟩ := h.failed t (by simpa using ht)
    exact ⟨by simpa using q1, q3⟩
  · intro t ht
    have := h.ended t (by simpa using ht)
    simpa using this
  · intro t ht
    have := h.unfinished t (by simpa using ht)
    simpa using this
  · intro n hn hb
    simpa using h.built n hn hb
  · intro n hn
    exact h.completed n (by simpa using hn)
  · exact ⟨h.trace, hnf⟩
  · intro hf
    exact absurd (by simpa using hf) hnf
  · intro hs r d hr
    simpa using h.applied hs r d (by simpa using hr)
  · intro hc
    exact h.canceled (by simpa using hc)
  · intro hs
    simpa using h.notCanceled hs

theorem Inv.abort {x : Option Node} {s : St} (h : Inv x s) (hph : s.phase ≠ .done) :
    Inv none (abort s) := by
  unfold Verif.Exec.abort
  split
  · rename_i hp
    exact h.finish hph hp
  · have h1 := (h.setPhase hph).cancelJobs (by simp) (by simp)
    have heq : ({ Verif.Exec.cancelJobs s with phase := .waiting } : St) =
        Verif.Exec.cancelJobs { s with phase := .waiting } := by
      unfold Verif.Exec.cancelJobs
      dsimp only
      split <;> rfl
    rw [heq]
    exact h1.forget (by rw [cancelJobs_st]; simp)

theorem Inv.handleError {x : Option Node} {s : St} (h : Inv x s) (hph : s.phase ≠ .done) :
    Inv none (handleError s) :=
  (h.logError hph).abort hph

theorem Inv.afterJob {cfg : Cfg} {ok : Bool} {s : St} (h : Inv none s)
    (hph : s.phase = .waiting) : Inv none (afterJob cfg ok s) := by
  have step1 : ∀ b : Bool, Inv none (if b then Verif.Exec.cancelJobs s else s) ∧
      (if b then Verif.Exec.cancelJobs s else s).phase = .waiting := by
    intro b
    cases b
    · exact ⟨h, hph⟩
    · exact ⟨h.cancelJobs (by simp [hph]) (by simp [hph]), (cancelJobs_frame s).1.trans hph⟩
  unfold Verif.Exec.afterJob
  dsimp only
  obtain ⟨h1, hp1⟩ := step1 (!ok && !cfg.keepGoing)
  generalize (if (!ok && !cfg.keepGoing) = true then Verif.Exec.cancelJobs s else s) = s1 at *
  have h2 : Inv none (if s1.st = .running ∧ s1.cancelRequested = true
        then Verif.Exec.cancelJobs { s1 with explicitly := true } else s1) ∧
      (if s1.st = .running ∧ s1.cancelRequested = true
        then Verif.Exec.cancelJobs { s1 with explicitly := true } else s1).phase = .waiting := by
    split
    · have hx : Inv none { s1 with explicitly := true } := { h1 with }
      exact ⟨hx.cancelJobs (by simp [hp1]) (by simp [hp1]), (cancelJobs_frame _).1.trans hp1⟩
    · exact ⟨h1, hp1⟩
  generalize (if s1.st = .running ∧ s1.cancelRequested = true
        then Verif.Exec.cancelJobs { s1 with explicitly := true } else s1) = s2 at *
  obtain ⟨h2, hp2⟩ := h2
  split
  · split
    · rename_i hp
      exact h2.finish (by simp [hp2]) hp
    · exact h2
  · rename_i hnc
    exact
      { h2 with
        leaves := fun n hn => by
          rcases hn with hn | hn
          · exact h2.leaves n (.inl hn)
          · simp at hn
        finished := fun hf => by have := h2.finished hf; rw [hp2] at this; simp at this
        scheduling := fun _ => by
          have := h2.active (by simp [hp2])
          dsimp only
          cases hs : s2.st <;> simp_all
        active := fun _ => h2.active (by simp [hp2])
        pending := fun hs => by simp at hs }

end Verif.Exec
