/-!
# C37: progress reports

Model of src/lib/corelib/tools/progressobserver.cpp 72-102, api/internaljobs.cpp 86-118
(`JobObserver`), buildgraph/executor.cpp 569-597 (`executeRuleNode`, the part that counts), 771-782
(`setupProgressObserver`), 879-896 (`finishTransformer`), 1002-1003 (`finish`), and of the loops in
buildgraph/artifactcleaner.cpp 170-201, productinstaller.cpp 111-117, projectbuilddata.cpp 282-289.

Simplifications: values are integers without overflow; the time logger of `JobObserver` is left
out. In the build, a rule application brings the list of the transformers whose outputs hang on
the rule node then (`RuleNode::transformerCount` is its length); rules and transformers are
numbers.
-/
namespace Verif.Progress

/-- What the client of a job sees (`newTaskStarted`, `totalEffortChanged`, `taskProgress`). -/
inductive Signal where
  | started (maximum : Int)
  | effort (maximum : Int)
  | progress (value : Int)
deriving DecidableEq, Repr

/-- `JobObserver`; signals latest first. -/
structure Observer where
  value : Int := 0
  maximum : Int := 0
  signals : List Signal := []
deriving DecidableEq, Repr

/-- internaljobs.cpp 86-94. -/
def Observer.initialize (o : Observer) (maximum : Int) : Observer :=
  { value := 0, maximum := maximum, signals := .started maximum :: o.signals }

/-- internaljobs.cpp 95-99. -/
def Observer.setMaximum (o : Observer) (maximum : Int) : Observer :=
  { o with maximum := maximum, signals := .effort maximum :: o.signals }

/-- internaljobs.cpp 101-111. -/
def Observer.setProgressValue (o : Observer) (value : Int) : Observer :=
  { o with value := value, signals := .progress value :: o.signals }

/-- progressobserver.cpp 72-75; the increment is 1 everywhere. -/
def Observer.increment (o : Observer) : Observer := o.setProgressValue (o.value + 1)

/-- progressobserver.cpp 99-102. -/
def Observer.setFinished (o : Observer) : Observer := o.setProgressValue o.maximum

/-! ## Specification -/

/-- A well-behaved report, latest signal first: since the task was started with effort `n` the
values never decrease and stay between 0 and `n`; `v` is the last one. -/
inductive Report (n : Int) : Int → List Signal → Prop where
  | start (l : List Signal) : 0 ≤ n → Report n 0 (.started n :: l)
  | step (v w : Int) (l : List Signal) : Report n v l → v ≤ w → w ≤ n →
      Report n w (.progress w :: l)

/-! ## The build -/

/-- `Executor`: the observer and `m_pendingTransformersPerRule`. -/
structure Build where
  obs : Observer
  pending : List (Nat × Nat) := []
  /-- `QBS_CHECK(it != m_pendingTransformersPerRule.cend())` failed -/
  checkFailed : Bool := false
deriving DecidableEq, Repr

inductive Ev where
  /-- a rule node was applied; the transformers of its outputs -/
  | applied (rule : Nat) (transformers : List Nat)
  /-- a transformer was finished; `rule` is its rule -/
  | finished (rule : Nat) (transformer : Nat)
deriving DecidableEq, Repr

def find (r : Nat) : List (Nat × Nat) → Option Nat
  | [] => none
  | (k, n) :: l => if k = r then some n else find r l

def erase (r : Nat) : List (Nat × Nat) → List (Nat × Nat)
  | [] => []
  | (k, n) :: l => if k = r then erase r l else (k, n) :: erase r l

/-- executor.cpp 771-782; `rules` are the rule nodes of the products to build. -/
def setup (rules : List Nat) : Build := { obs := ({} : Observer).initialize (1 + rules.length) }

/-- executor.cpp 585-593 and 886-895. `std::unordered_map::insert` keeps an existing entry. -/
def Build.step (b : Build) : Ev → Build
  | .applied r ts =>
    if ts.length = 0 then { b with obs := b.obs.increment }
    else match find r b.pending with
      | some _ => b
      | none => { b with pending := (r, ts.length) :: b.pending }
  | .finished r _ =>
    match find r b.pending with
    | none => { b with checkFailed := true }
    | some n =>
      if n - 1 = 0 then
        { b with obs := b.obs.increment, pending := erase r b.pending }
      else { b with pending := (r, n - 1) :: erase r b.pending }

def Build.run (b : Build) (evs : List Ev) : Build := evs.foldl Build.step b

/-- What a build does: every rule node of the list is applied at most once, its transformers are
distinct, and each of them is finished at most once, after the rule was applied. -/
def Orderly (rules : List Nat) : List Ev → Prop
  | [] => True
  | .applied r ts :: past => r ∈ rules ∧ (∀ us, Ev.applied r us ∉ past) ∧ ts.Nodup ∧
      Orderly rules past
  | .finished r t :: past => (∃ ts, Ev.applied r ts ∈ past ∧ t ∈ ts) ∧ Ev.finished r t ∉ past ∧
      Orderly rules past

/-! ## Proofs -/

theorem find_erase_self (r : Nat) (l : List (Nat × Nat)) : find r (erase r l) = none := by
  induction l with
  | nil => rfl
  | cons p l ih =>
    obtain ⟨k, n⟩ := p
    unfold erase
    by_cases h : k = r
    · rw [if_pos h]; exact ih
    · rw [if_neg h]; simp [find, h, ih]

theorem find_erase_ne {q r : Nat} (h : q ≠ r) (l : List (Nat × Nat)) :
    find q (erase r l) = find q l := by
  induction l with
  | nil => rfl
  | cons p l ih =>
    obtain ⟨k, n⟩ := p
    unfold erase
    by_cases hk : k = r
    · rw [if_pos hk, ih]; subst hk; simp [find, Ne.symm h]
    · rw [if_neg hk]; simp only [find, ih]

/-- The transformers of `r` not finished yet. -/
def remaining (r : Nat) (past : List Ev) (ts : List Nat) : List Nat :=
  ts.filter (fun t => decide (Ev.finished r t ∉ past))

/-- Rules that are through. -/
def through (r : Nat) (past : List Ev) : Prop :=
  ∃ ts, Ev.applied r ts ∈ past ∧ remaining r past ts = []

theorem remaining_finish (r t : Nat) (past : List Ev) (ts : List Nat) (hn : ts.Nodup) (ht : t ∈ ts)
    (hf : Ev.finished r t ∉ past) :
    (remaining r (.finished r t :: past) ts).length + 1 = (remaining r past ts).length := by
  induction ts with
  | nil => cases ht
  | cons u ts ih =>
    simp only [List.nodup_cons] at hn
    rcases List.mem_cons.mp ht with rfl | ht
    · have hsame : remaining r (.finished r t :: past) ts = remaining r past ts := by
        unfold remaining
        apply List.filter_congr
        intro x hx
        have hne : x ≠ t := fun h => hn.1 (h ▸ hx)
        simp [hne]
      have h1 : remaining r (.finished r t :: past) (t :: ts) = remaining r past ts := by
        rw [← hsame]; unfold remaining; simp
      have h2 : remaining r past (t :: ts) = t :: remaining r past ts := by
        unfold remaining; simp [hf]
      rw [h1, h2]; rfl
    · have hne : u ≠ t := fun h => hn.1 (h ▸ ht)
      have := ih hn.2 ht
      unfold remaining at *
      simp only [List.filter_cons]
      by_cases hu : Ev.finished r u ∉ past
      · have : Ev.finished r u ∉ Ev.finished r t :: past := by simp [hne, hu]
        simp only [hu, this, not_false_eq_true, decide_true, if_true, List.length_cons]
        omega
      · have h' : ¬ Ev.finished r u ∉ Ev.finished r t :: past := by
          simp only [List.mem_cons, not_or, not_and, Decidable.not_not] at hu ⊢
          intro _; exact hu
        simp only [hu, h', decide_false, Bool.false_eq_true, if_false]
        omega

theorem remaining_other (r : Nat) (e : Ev) (past : List Ev) (ts : List Nat)
    (h : ∀ t, e ≠ .finished r t) : remaining r (e :: past) ts = remaining r past ts := by
  unfold remaining
  apply List.filter_congr
  intro x _
  have : Ev.finished r x ≠ e := fun he => h x he.symm
  simp [this]

theorem applied_unique {rules : List Nat} : ∀ {past : List Ev}, Orderly rules past →
    ∀ {r : Nat} {ts us : List Nat}, Ev.applied r ts ∈ past → Ev.applied r us ∈ past → ts = us
  | e :: past, h, r, ts, us, h1, h2 => by
    cases e with
    | applied q vs =>
      obtain ⟨hq, hno, hnd, ho⟩ := h
      rcases List.mem_cons.mp h1 with g1 | g1 <;> rcases List.mem_cons.mp h2 with g2 | g2
      · cases g1; cases g2; rfl
      · cases g1; exact absurd g2 (hno us)
      · cases g2; exact absurd g1 (hno ts)
      · exact applied_unique ho g1 g2
    | finished q t =>
      obtain ⟨_, _, ho⟩ := h
      simp only [List.mem_cons, reduceCtorEq, false_or] at h1 h2
      exact applied_unique ho h1 h2

theorem applied_nodup {rules : List Nat} : ∀ {past : List Ev}, Orderly rules past →
    ∀ {r : Nat} {ts : List Nat}, Ev.applied r ts ∈ past → ts.Nodup ∧ r ∈ rules
  | e :: past, h, r, ts, h1 => by
    cases e with
    | applied q vs =>
      obtain ⟨hq, hno, hnd, ho⟩ := h
      rcases List.mem_cons.mp h1 with h1 | h1
      · cases h1; exact ⟨hnd, hq⟩
      · exact applied_nodup ho h1
    | finished q t =>
      obtain ⟨_, _, ho⟩ := h
      simp only [List.mem_cons, reduceCtorEq, false_or] at h1
      exact applied_nodup ho h1

/-- The invariant: the pending numbers are those of the transformers left; the value is the number
of rules that are through. -/
structure Inv (rules : List Nat) (past : List Ev) (b : Build) : Prop where
  check : b.checkFailed = false
  pend : ∀ r n, find r b.pending = some n ↔
    n ≠ 0 ∧ ∃ ts, Ev.applied r ts ∈ past ∧ (remaining r past ts).length = n
  max : b.obs.maximum = 1 + rules.length
  report : Report (1 + rules.length) b.obs.value b.obs.signals
  done : ∃ l : List Nat, l.Nodup ∧ (∀ r ∈ l, through r past ∧ r ∈ rules) ∧ b.obs.value = l.length

theorem nodup_len {l rules : List Nat} (hn : l.Nodup) (h : ∀ r ∈ l, r ∈ rules) :
    l.length ≤ rules.length := by
  induction l generalizing rules with
  | nil => simp
  | cons x l ih =>
    simp only [List.nodup_cons] at hn
    have hx := h x List.mem_cons_self
    have := ih (rules := rules.erase x) hn.2 (by
      intro r hr
      have hne : r ≠ x := fun he => hn.1 (he ▸ hr)
      exact (List.mem_erase_of_ne hne).mpr (h r (List.mem_cons_of_mem _ hr)))
    rw [List.length_erase_of_mem hx] at this
    have := List.length_pos_of_mem hx
    simp only [List.length_cons]; omega

/-- One more rule is through. -/
theorem Inv.more {rules : List Nat} {past past' : List Ev} {b : Build} (h : Inv rules past b)
    (r : Nat) (hr : r ∈ rules) (hnot : ¬ through r past) (hnow : through r past')
    (hmono : ∀ q, through q past → through q past') :
    Report (1 + rules.length) b.obs.increment.value b.obs.increment.signals ∧
    ∃ l : List Nat, l.Nodup ∧ (∀ q ∈ l, through q past' ∧ q ∈ rules) ∧
      b.obs.increment.value = l.length := by
  obtain ⟨l, hl, hthru, hv⟩ := h.done
  have hn : (r :: l).Nodup := by
    simp only [List.nodup_cons]
    exact ⟨fun hm => hnot (hthru r hm).1, hl⟩
  have hlen : (r :: l).length ≤ rules.length := by
    refine nodup_len hn ?_
    intro q hq
    rcases List.mem_cons.mp hq with rfl | hq
    · exact hr
    · exact (hthru q hq).2
  refine ⟨?_, r :: l, hn, ?_, ?_⟩
  · have hinc : b.obs.increment.value = b.obs.value + 1 := rfl
    simp only [List.length_cons] at hlen
    exact Report.step b.obs.value _ _ h.report (by omega) (by omega)
  · intro q hq
    rcases List.mem_cons.mp hq with rfl | hq
    · exact ⟨hnow, hr⟩
    · exact ⟨hmono q (hthru q hq).1, (hthru q hq).2⟩
  · simp [Observer.increment, Observer.setProgressValue, hv]

theorem through_mono {rules : List Nat} {e : Ev} {past : List Ev} (h : Orderly rules (e :: past))
    (q : Nat) (hq : through q past) : through q (e :: past) := by
  obtain ⟨ts, h1, h2⟩ := hq
  refine ⟨ts, List.mem_cons_of_mem _ h1, ?_⟩
  unfold remaining at *
  simp only [List.filter_eq_nil_iff, decide_eq_true_eq, Decidable.not_not] at *
  intro t ht
  exact List.mem_cons_of_mem _ (h2 t ht)

theorem Inv.step {rules : List Nat} {past : List Ev} {b : Build} {e : Ev}
    (ho : Orderly rules (e :: past)) (h : Inv rules past b) :
    Inv rules (e :: past) (b.step e) := by
  have hmono := through_mono ho
  cases e with
  | applied r ts =>
    obtain ⟨hr, hno, hnd, ho'⟩ := ho
    have hnot : ¬ through r past := fun ⟨us, h1, _⟩ => hno us h1
    have hold : ∀ q us, remaining q (.applied r ts :: past) us = remaining q past us := by
      intro q us; exact remaining_other q _ past us (by simp)
    have hall : remaining r past ts = ts := by
      unfold remaining
      rw [List.filter_eq_self]
      intro t _
      simp only [decide_eq_true_eq]
      intro hf
      have : ∀ past : List Ev, Orderly rules past → Ev.finished r t ∈ past →
          ∃ us, Ev.applied r us ∈ past := by
        intro past
        induction past with
        | nil => intro _ h; cases h
        | cons e past ih =>
          intro ho hm
          cases e with
          | applied q vs =>
            simp only [List.mem_cons, reduceCtorEq, false_or] at hm
            obtain ⟨us, hu⟩ := ih ho.2.2.2 hm
            exact ⟨us, List.mem_cons_of_mem _ hu⟩
          | finished q t' =>
            rcases List.mem_cons.mp hm with hm | hm
            · cases hm
              obtain ⟨us, hu, _⟩ := ho.1
              exact ⟨us, List.mem_cons_of_mem _ hu⟩
            · obtain ⟨us, hu⟩ := ih ho.2.2 hm
              exact ⟨us, List.mem_cons_of_mem _ hu⟩
      obtain ⟨us, hu⟩ := this past ho' hf
      exact hno us hu
    simp only [Build.step]
    by_cases h0 : ts.length = 0
    · rw [if_pos h0]
      have hts : ts = [] := List.length_eq_zero_iff.mp h0
      have hm := h.more (past' := .applied r ts :: past) r hr hnot
        ⟨ts, List.mem_cons_self, by rw [hts]; rfl⟩ hmono
      refine ⟨h.check, ?_, h.max, hm.1, hm.2⟩
      intro q n
      rw [show ({ b with obs := b.obs.increment } : Build).pending = b.pending from rfl, h.pend]
      constructor
      · rintro ⟨hn, us, h1, h2⟩
        exact ⟨hn, us, List.mem_cons_of_mem _ h1, by rw [hold]; exact h2⟩
      · rintro ⟨hn, us, h1, h2⟩
        rw [hold] at h2
        rcases List.mem_cons.mp h1 with h1 | h1
        · cases h1
          rw [hts] at h2
          exact absurd h2.symm hn
        · exact ⟨hn, us, h1, h2⟩
    · rw [if_neg h0]
      have hnone : find r b.pending = none := by
        cases hf : find r b.pending with
        | none => rfl
        | some n =>
          obtain ⟨_, us, h1, _⟩ := (h.pend r n).mp hf
          exact absurd h1 (hno us)
      rw [hnone]
      simp only
      obtain ⟨l, hl, hthru, hv⟩ := h.done
      refine ⟨h.check, ?_, h.max, h.report, l, hl,
        fun q hq => ⟨hmono q (hthru q hq).1, (hthru q hq).2⟩, hv⟩
      intro q n
      show find q ((r, ts.length) :: b.pending) = some n ↔ _
      unfold find
      by_cases hq : r = q
      · subst hq
        rw [if_pos rfl]
        constructor
        · intro he
          cases he
          exact ⟨h0, ts, List.mem_cons_self, by rw [hold, hall]⟩
        · rintro ⟨_, us, h1, h2⟩
          rcases List.mem_cons.mp h1 with h1 | h1
          · cases h1; rw [hold, hall] at h2; rw [h2]
          · exact absurd h1 (hno us)
      · rw [if_neg hq, h.pend]
        constructor
        · rintro ⟨hn, us, h1, h2⟩
          exact ⟨hn, us, List.mem_cons_of_mem _ h1, by rw [hold]; exact h2⟩
        · rintro ⟨hn, us, h1, h2⟩
          rw [hold] at h2
          rcases List.mem_cons.mp h1 with h1 | h1
          · cases h1; exact absurd rfl hq
          · exact ⟨hn, us, h1, h2⟩
  | finished r t =>
    obtain ⟨⟨ts, hap, ht⟩, hnf, ho'⟩ := ho
    have hnd := applied_nodup ho' hap
    have hrem := remaining_finish r t past ts hnd.1 ht hnf
    have hne : (remaining r past ts).length ≠ 0 := by omega
    have hfind : find r b.pending = some (remaining r past ts).length :=
      (h.pend r _).mpr ⟨hne, ts, hap, rfl⟩
    have hother : ∀ q us, q ≠ r →
        remaining q (.finished r t :: past) us = remaining q past us := by
      intro q us hq
      exact remaining_other q _ past us (by intro t' he; cases he; exact hq rfl)
    have hiff : ∀ q n, q ≠ r →
        ((n ≠ 0 ∧ ∃ us, Ev.applied q us ∈ past ∧ (remaining q past us).length = n) ↔
          (n ≠ 0 ∧ ∃ us, Ev.applied q us ∈ Ev.finished r t :: past ∧
            (remaining q (.finished r t :: past) us).length = n)) := by
      intro q n hq
      constructor
      · rintro ⟨hn, us, h1, h2⟩
        exact ⟨hn, us, List.mem_cons_of_mem _ h1, by rw [hother q us hq]; exact h2⟩
      · rintro ⟨hn, us, h1, h2⟩
        rw [hother q us hq] at h2
        simp only [List.mem_cons, reduceCtorEq, false_or] at h1
        exact ⟨hn, us, h1, h2⟩
    simp only [Build.step, hfind]
    by_cases h1 : (remaining r past ts).length - 1 = 0
    · rw [if_pos h1]
      have hnot : ¬ through r past := by
        rintro ⟨us, hu, hz⟩
        have := applied_unique ho' hap hu
        subst this
        rw [hz] at hne; exact hne rfl
      have hm := h.more (past' := .finished r t :: past) r hnd.2 hnot
        ⟨ts, List.mem_cons_of_mem _ hap, List.length_eq_zero_iff.mp (by omega)⟩ hmono
      refine ⟨h.check, ?_, h.max, hm.1, hm.2⟩
      intro q n
      show find q (erase r b.pending) = some n ↔ _
      by_cases hq : q = r
      · subst hq
        rw [find_erase_self]
        constructor
        · intro he; cases he
        · rintro ⟨hn, us, hu, hz⟩
          simp only [List.mem_cons, reduceCtorEq, false_or] at hu
          have := applied_unique ho' hap hu
          subst this
          omega
      · rw [find_erase_ne hq, h.pend]; exact hiff q n hq
    · rw [if_neg h1]
      obtain ⟨l, hl, hthru, hv⟩ := h.done
      refine ⟨h.check, ?_, h.max, h.report, l, hl,
        fun q hq => ⟨hmono q (hthru q hq).1, (hthru q hq).2⟩, hv⟩
      intro q n
      show find q ((r, (remaining r past ts).length - 1) :: erase r b.pending) = some n ↔ _
      unfold find
      by_cases hq : r = q
      · subst hq
        rw [if_pos rfl]
        constructor
        · intro he
          cases he
          exact ⟨h1, ts, List.mem_cons_of_mem _ hap, by omega⟩
        · rintro ⟨_, us, hu, hz⟩
          simp only [List.mem_cons, reduceCtorEq, false_or] at hu
          have := applied_unique ho' hap hu
          subst this
          congr 1; omega
      · rw [if_neg hq, find_erase_ne (Ne.symm hq), h.pend]; exact hiff q n (Ne.symm hq)

theorem Inv.run {rules : List Nat} : ∀ (past : List Ev), Orderly rules past →
    Inv rules past ((setup rules).run past.reverse)
  | [], _ => by
    refine ⟨rfl, ?_, rfl, Report.start _ (by omega), [], by simp, by simp, rfl⟩
    intro r n
    constructor
    · intro h; cases h
    · rintro ⟨_, ts, h, _⟩; cases h
  | e :: past, ho => by
    have ho' : Orderly rules past := by cases e <;> simp only [Orderly] at ho <;> grind
    have := (Inv.run past ho').step ho
    simpa [Build.run, List.foldl_append] using this

/-- **C37**, building: in every orderly course of a build (`past`, latest event first) the counter
assertion does not fail, the reported values never decrease, stay between 0 and the announced
effort and below it until the end; `setFinished` then reports exactly the effort. -/
theorem C37_build (rules : List Nat) (past : List Ev) (ho : Orderly rules past) :
    let b := (setup rules).run past.reverse
    b.checkFailed = false ∧
    Report (1 + rules.length) b.obs.value b.obs.signals ∧ b.obs.value < 1 + rules.length ∧
    Report (1 + rules.length) (1 + rules.length) b.obs.setFinished.signals := by
  have h := Inv.run past ho
  obtain ⟨l, hl, hthru, hv⟩ := h.done
  have hlen := nodup_len hl (fun r hr => (hthru r hr).2)
  have hlt : ((setup rules).run past.reverse).obs.value < 1 + (rules.length : Int) := by
    rw [hv]; omega
  refine ⟨h.check, h.report, hlt, ?_⟩
  have := Report.step _ (1 + (rules.length : Int)) _ h.report (by omega) (Int.le_refl _)
  simpa [Observer.setFinished, Observer.setProgressValue, h.max] using this

/-- When all rules are through, one unit is left, the one added for the end of the build. -/
theorem C37_build_all_but_one (rules : List Nat) (past : List Ev) (ho : Orderly rules past)
    (hn : rules.Nodup) (happ : ∀ r ∈ rules, ∃ ts, Ev.applied r ts ∈ past ∧
      ∀ t ∈ ts, Ev.finished r t ∈ past) :
    ((setup rules).run past.reverse).obs.value = rules.length := by
  -- the value is the number of rules that are through: count them all
  have key : ∀ past : List Ev, Orderly rules past → ∃ l : List Nat, l.Nodup ∧
      (∀ r, r ∈ l ↔ through r past) ∧
      ((setup rules).run past.reverse).obs.value = l.length := by
    intro past
    induction past with
    | nil =>
      intro _
      refine ⟨[], by simp, ?_, rfl⟩
      intro r
      constructor
      · intro h; cases h
      · rintro ⟨_, h, _⟩; cases h
    | cons e past ih =>
      intro ho
      have ho' : Orderly rules past := by cases e <;> simp only [Orderly] at ho <;> grind
      obtain ⟨l, h1, h2, h3⟩ := ih ho'
      have hi := Inv.run past ho'
      have hmono := through_mono ho
      rw [List.reverse_cons, Build.run, List.foldl_append]
      change ∃ l : List Nat, l.Nodup ∧ _ ∧
        (((setup rules).run past.reverse).step e).obs.value = l.length
      generalize hb : (setup rules).run past.reverse = b at *
      have more : ∀ r, ¬ through r past → (∀ q, through q (e :: past) ↔ q = r ∨ through q past) →
          (b.step e).obs = b.obs.increment → ∃ l : List Nat, l.Nodup ∧
          (∀ q, q ∈ l ↔ through q (e :: past)) ∧ (b.step e).obs.value = l.length := by
        intro r hnot hiff hobs
        refine ⟨r :: l, ?_, ?_, ?_⟩
        · simp only [List.nodup_cons]
          exact ⟨fun h => hnot ((h2 r).mp h), h1⟩
        · intro q; rw [hiff, ← h2]; simp
        · rw [hobs]; simp [Observer.increment, Observer.setProgressValue, h3]
      have same : (∀ q, through q (e :: past) ↔ through q past) → (b.step e).obs = b.obs →
          ∃ l : List Nat, l.Nodup ∧ (∀ q, q ∈ l ↔ through q (e :: past)) ∧
            (b.step e).obs.value = l.length := by
        intro hiff hobs
        exact ⟨l, h1, fun q => by rw [hiff, h2], by rw [hobs]; exact h3⟩
      cases e with
      | applied r ts =>
        obtain ⟨hr, hno, hnd, _⟩ := ho
        have hold : ∀ q us, remaining q (.applied r ts :: past) us = remaining q past us := by
          intro q us; exact remaining_other q _ past us (by simp)
        by_cases h0 : ts.length = 0
        · refine more r (fun ⟨us, h1, _⟩ => hno us h1) ?_ (by simp [Build.step, h0])
          intro q
          constructor
          · rintro ⟨us, hu, hz⟩
            rcases List.mem_cons.mp hu with hu | hu
            · cases hu; exact Or.inl rfl
            · rw [hold] at hz; exact Or.inr ⟨us, hu, hz⟩
          · rintro (rfl | hq)
            · exact ⟨ts, List.mem_cons_self, by rw [List.length_eq_zero_iff.mp h0]; rfl⟩
            · exact hmono q hq
        · have hnone : find r b.pending = none := by
            cases hf : find r b.pending with
            | none => rfl
            | some n =>
              obtain ⟨_, us, h1, _⟩ := (hi.pend r n).mp hf
              exact absurd h1 (hno us)
          refine same ?_ (by simp only [Build.step, if_neg h0, hnone])
          intro q
          constructor
          · rintro ⟨us, hu, hz⟩
            rcases List.mem_cons.mp hu with hu | hu
            · exfalso
              have hi' := hi.step (e := .applied r ts) ⟨hr, hno, hnd, ho'⟩
              have hfind : find r (b.step (.applied r ts)).pending = some ts.length := by
                simp only [Build.step, if_neg h0, hnone]
                simp [find]
              obtain ⟨hn0, us', hu', hz'⟩ := (hi'.pend r ts.length).mp hfind
              have := applied_unique (rules := rules) (past := .applied r ts :: past)
                ⟨hr, hno, hnd, ho'⟩ List.mem_cons_self hu'
              subst this
              simp only [Ev.applied.injEq] at hu
              obtain ⟨rfl, rfl⟩ := hu
              rw [hz] at hz'
              exact hn0 hz'.symm
            · rw [hold] at hz; exact ⟨us, hu, hz⟩
          · exact hmono q
      | finished r t =>
        obtain ⟨⟨ts, hap, ht⟩, hnf, _⟩ := ho
        have hnd := applied_nodup ho' hap
        have hrem := remaining_finish r t past ts hnd.1 ht hnf
        have hne : (remaining r past ts).length ≠ 0 := by omega
        have hfind : find r b.pending = some (remaining r past ts).length :=
          (hi.pend r _).mpr ⟨hne, ts, hap, rfl⟩
        have hother : ∀ q, q ≠ r → through q (.finished r t :: past) → through q past := by
          rintro q hq ⟨us, hu, hz⟩
          simp only [List.mem_cons, reduceCtorEq, false_or] at hu
          rw [remaining_other q _ past us (by intro t' he; cases he; exact hq rfl)] at hz
          exact ⟨us, hu, hz⟩
        have hnot : ¬ through r past := by
          rintro ⟨us, hu, hz⟩
          have := applied_unique ho' hap hu
          subst this
          rw [hz] at hne; exact hne rfl
        by_cases hl : (remaining r past ts).length - 1 = 0
        · refine more r hnot ?_ (by simp only [Build.step, hfind, if_pos hl])
          intro q
          constructor
          · intro hq
            by_cases hqr : q = r
            · exact Or.inl hqr
            · exact Or.inr (hother q hqr hq)
          · rintro (rfl | hq)
            · exact ⟨ts, List.mem_cons_of_mem _ hap, List.length_eq_zero_iff.mp (by omega)⟩
            · exact hmono q hq
        · refine same ?_ (by simp only [Build.step, hfind, if_neg hl])
          intro q
          constructor
          · intro hq
            by_cases hqr : q = r
            · subst hqr
              exfalso
              obtain ⟨us, hu, hz⟩ := hq
              simp only [List.mem_cons, reduceCtorEq, false_or] at hu
              have := applied_unique ho' hap hu
              subst this
              rw [hz] at hrem
              simp at hrem
              omega
            · exact hother q hqr hq
          · exact hmono q
  obtain ⟨l, h1, h2, h3⟩ := key past ho
  have hle : l.length ≤ rules.length := by
    refine nodup_len h1 ?_
    intro r hr
    obtain ⟨ts, hap, _⟩ := (h2 r).mp hr
    exact (applied_nodup ho hap).2
  have hge : rules.length ≤ l.length := by
    refine nodup_len hn ?_
    intro r hr
    obtain ⟨ts, hap, hall⟩ := happ r hr
    refine (h2 r).mpr ⟨ts, hap, ?_⟩
    unfold remaining
    rw [List.filter_eq_nil_iff]
    intro t ht
    simp [hall t ht]
  rw [h3]; congr 1; omega

/-! ## The other long-running tasks -/

/-- artifactcleaner.cpp 170-201 with `n` products, productinstaller.cpp 111-117 with `n` files,
projectbuilddata.cpp 282-289 with `n` products: announce `total`, then one step per element and
`extra` steps; the loop may be left early by an exception after `k` steps. -/
def loop (total k : Nat) : Observer :=
  Nat.rec (({} : Observer).initialize total) (fun _ o => o.increment) k

theorem loop_report (total : Nat) : ∀ k, k ≤ total →
    Report total (loop total k).value (loop total k).signals ∧ (loop total k).value = k ∧
      (loop total k).maximum = total
  | 0, _ => ⟨Report.start _ (by omega), rfl, rfl⟩
  | k + 1, h => by
    obtain ⟨h1, h2, h3⟩ := loop_report total k (by omega)
    have hv : (loop total (k + 1)).value = (loop total k).value + 1 := rfl
    refine ⟨?_, by rw [hv, h2]; omega, h3⟩
    exact Report.step _ _ _ h1 (by omega) (by omega)

/-- **C37**, cleaning (`n` products and one step for directories), setting up the build graph
(likewise) and installing (`n` files): well-behaved at every point, and the last step reports the
announced effort; so does a `setFinished` at any point. -/
theorem C37_loops (n k : Nat) (hk : k ≤ n) :
    Report n (loop n k).value (loop n k).signals ∧ (loop n n).value = n ∧
    Report n n (loop n k).setFinished.signals := by
  obtain ⟨h1, h2, h3⟩ := loop_report n k hk
  refine ⟨h1, (loop_report n n (Nat.le_refl _)).2.1, ?_⟩
  have := Report.step _ (n : Int) _ h1 (by rw [h2]; omega) (Int.le_refl _)
  simpa [Observer.setFinished, Observer.setProgressValue, h3] using this

/-! ## Examples -/

/-- Two rules, one of them with two transformers, in an orderly course. -/
def demo : List Ev := [.finished 7 2, .applied 8 [], .finished 7 1, .applied 7 [1, 2]]

example : Orderly [7, 8] demo := by
  refine ⟨⟨[1, 2], by simp, by simp⟩, by simp, by simp, by simp, by simp,
    ⟨[1, 2], by simp, by simp⟩, by simp, by simp, by simp, by decide, trivial⟩

example : ((setup [7, 8]).run demo.reverse).obs.setFinished.signals.reverse =
    [.started 3, .progress 1, .progress 2, .progress 3] := by decide +kernel

/-- A transformer that finishes twice would make the assertion fail. -/
example : ((setup [7]).run [.applied 7 [1], .finished 7 1, .finished 7 1]).checkFailed = true := by
  decide +kernel

/-- A report that goes back or beyond its maximum is not well-behaved. -/
example : ¬ Report 3 1 [.progress 1, .progress 2, .started 3] := by
  intro h; cases h with | step v w l h h1 h2 => cases h; omega
example : ¬ Report 3 4 [.progress 4, .started 3] := by
  intro h; cases h with | step v w l h h1 h2 => omega

end Verif.Progress
