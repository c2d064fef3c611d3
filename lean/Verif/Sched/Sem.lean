import Verif.Sched.Inv
/-!
# C52: what is established
-/
namespace Verif.Sched

variable {pr : Project}

/-- A dependency by name has been dealt with. -/
def Done (s : State) (p q : P) (required : Bool) : Prop :=
  q ≠ p ∧ q ∉ s.toHandle ∧ ((q ∈ s.disabled ∧ required = false) ∨ (q ∉ s.disabled ∧ q ∈ s.deps p))

/-- A product has to be found by its type. -/
def Found (pr : Project) (p : P) (types : List Tag) (q : P) : Prop :=
  q ∈ pr.products ∧ pr.name q ≠ pr.name p ∧ (∃ t ∈ types, t ∈ pr.types q) ∧ ¬Above pr q ∧ ¬Bad pr q

structure Sem (pr : Project) (s : State) : Prop where
  dis : ∀ p ∈ s.disabled, Bad pr p
  fail : ∀ p ∈ s.toHandle, s.failed p = true → p ∈ s.disabled
  broken : ∀ p ∈ s.toHandle, s.failed p = false → pr.broken p = false
  pend : ∀ p ∈ s.toHandle, s.failed p = false → ∀ q r, Item.single q r ∈ pr.items p →
    Item.single q r ∈ s.todo p ∨ Done s p q r
  pendBulk : ∀ p ∈ s.toHandle, s.failed p = false → ∀ types, Item.bulk types ∈ pr.items p →
    Item.bulk types ∈ s.todo p ∨ ∀ q, Found pr p types q → Item.single q true ∈ s.todo p ∨ q ∈ s.deps p
  typed : ∀ p ∈ s.typed, p ∉ s.disabled ∧ pr.enabled p = true ∧ pr.broken p = false ∧
    (∀ q r, Item.single q r ∈ pr.items p → Done s p q r) ∧
    (∀ types, Item.bulk types ∈ pr.items p → ∀ q, Found pr p types q → q ∈ s.deps p)
  fin : ∀ p ∈ s.finished, p ∈ s.typed ∨ p ∈ s.disabled
  run : ∀ t ∈ s.running, t.phase ≠ .resolving → s.todo t.p = [] → t.p ∈ s.typed ∨ t.p ∈ s.disabled
  deps : ∀ p, ∀ q ∈ s.deps p, q ∈ s.finished ∧ q ∉ s.disabled ∧ q ≠ p ∧ (Needs pr p q ∨ Wants pr p q)
  order : ∀ pre p post, s.finished = pre ++ p :: post → ∀ q ∈ s.deps p, q ∈ pre
  missed : ∀ x ∈ s.missed, x.1 ∈ s.finished ∧ x.2 ∈ s.finished ∧ Above pr x.1 ∧ Wants pr x.2 x.1
  disProd : ∀ p ∈ s.disabled, p ∈ pr.products

theorem sem_initial : Sem pr (initial pr) where
  dis p hp := Bad.broken (List.mem_filter.mp hp).2
  fail p hp hf := List.mem_filter.mpr ⟨hp, hf⟩
  broken p hp hf := hf
  pend p _ _ q r h := Or.inl h
  pendBulk p _ _ ts h := Or.inl h
  typed p hp := by cases hp
  fin p hp := by cases hp
  run t ht := by cases ht
  deps p q hq := by cases hq
  order pre p post h := by
    have := congrArg List.length h
    simp [initial] at this
  missed x hx := by cases hx
  disProd p hp := (List.mem_filter.mp hp).1

theorem mem_finished {s : State} {hp : List P} {hl : List L} (h : Inv pr s hp hl) {p : P} (hpp : p ∈ pr.products)
    (hnh : p ∉ s.toHandle) : p ∈ s.finished := by
  have h1 := h.all p
  have h2 := List.count_pos_iff.mpr hpp
  have h3 : s.toHandle.count p = 0 := List.count_eq_zero.mpr hnh
  rw [← List.count_pos_iff]
  omega

theorem Inv.disjoint {s : State} {hp : List P} {hl : List L} (hpr : pr.Ok) (h : Inv pr s hp hl) {p : P}
    (hf : p ∈ s.finished) : p ∉ s.toHandle ∧ p ∈ pr.products := by
  refine ⟨?_, ?_⟩
  · intro hx
    have := h.not_finished hpr hx
    rw [← Bool.not_eq_true, List.contains_iff_mem] at this
    exact this hf
  · have h1 := h.all p
    have h2 := List.count_pos_iff.mpr hf
    rw [← List.count_pos_iff]
    omega

theorem Inv.in_products {s : State} {hp : List P} {hl : List L} (h : Inv pr s hp hl) {p : P}
    (hf : p ∈ s.toHandle) : p ∈ pr.products := by
  have h1 := h.all p
  have h2 := List.count_pos_iff.mpr hf
  rw [← List.count_pos_iff]
  omega

theorem Sem.not_bad {s : State} (h : Sem pr s) {p : P} (hp : p ∈ s.typed) : ¬Bad pr p := by
  intro hb
  induction hb with
  | broken hx => have := (h.typed _ hp).2.2.1; rw [hx] at this; cases this
  | condition hx => have := (h.typed _ hp).2.1; rw [hx] at this; cases this
  | self hx =>
    obtain ⟨r, hx⟩ := hx
    exact ((h.typed _ hp).2.2.2.1 _ r hx).1 rfl
  | dependency hx _ ih =>
    rcases ((h.typed _ hp).2.2.2.1 _ true hx).2.2 with ⟨_, h2⟩ | ⟨h1, h2⟩
    · cases h2
    · exact ih ((h.fin _ (h.deps _ _ h2).1).resolve_right h1)

/-- Fields that matter. -/
theorem Sem.congr {s s' : State} (h : Sem pr s) (h1 : s'.todo = s.todo) (h2 : s'.failed = s.failed)
    (h3 : s'.finished = s.finished) (h4 : s'.toHandle = s.toHandle) (h5 : s'.disabled = s.disabled)
    (h6 : s'.typed = s.typed) (h7 : s'.deps = s.deps) (h8 : s'.missed = s.missed)
    (hr : ∀ t ∈ s'.running, t.phase ≠ .resolving → s.todo t.p = [] → t.p ∈ s.typed ∨ t.p ∈ s.disabled) : Sem pr s' := by
  refine ⟨?_, ?_, ?_, ?_, ?_, ?_, ?_, ?_, ?_, ?_, ?_, ?_⟩
  · rw [h5]; exact h.dis
  · rw [h5, h4, h2]; exact h.fail
  · rw [h4, h2]; exact h.broken
  · unfold Done; rw [h4, h2, h1, h5, h7]; exact h.pend
  · rw [h4, h2, h1, h7]; exact h.pendBulk
  · unfold Done; rw [h6, h5, h7, h4]; exact h.typed
  · rw [h3, h6, h5]; exact h.fin
  · rw [h1, h6, h5]; exact hr
  · rw [h7, h3, h5]; exact h.deps
  · rw [h3, h7]; exact h.order
  · rw [h8, h3]; exact h.missed
  · rw [h5]; exact h.disProd

theorem sem_start {s : State} (h : Sem pr s) {ok : Bool} {p : P} {l : L} {allowed : Bool} (hp : p ∈ s.toHandle) :
    Sem pr (start s ok p l allowed) := by
  obtain ⟨h1, h2, h3, h4, h5, h6, h7, h8⟩ := start_fields s ok p l allowed
  refine h.congr h1 h2 h3 h4 h5 h6 h7 h8 ?_
  intro t ht hph htd
  unfold start at ht
  cases ok with
  | true =>
    rw [if_pos rfl] at ht
    rcases List.mem_append.mp ht with ht | ht
    · exact h.run t ht hph htd
    · rw [List.mem_singleton] at ht
      subst ht
      by_cases hf : s.failed p = true
      · exact Or.inr (h.fail p hp hf)
      · exact absurd (if_neg hf) hph
  | false =>
    rw [if_neg (by simp)] at ht
    exact h.run t ht hph htd

theorem sem_release {s : State} (h : Sem pr s) {ok : Bool} {l : L} (hw : ∀ e ∈ s.waitState, e.2.1 ∈ s.toHandle) :
    Sem pr (release s ok l) := by
  unfold release
  cases hf : s.waitState.find? (fun e => e.1 == l) with
  | none => exact h.congr rfl rfl rfl rfl rfl rfl rfl rfl h.run
  | some e =>
    apply sem_start
    · exact h.congr rfl rfl rfl rfl rfl rfl rfl rfl h.run
    · exact hw e (List.mem_of_find?_eq_some hf)

theorem sem_schedule {s : State} (hpr : pr.Ok) (hi : Inv pr s [] []) (h : Sem pr s) (ok : Bool)
    {e : P × Option L × Option Nat} {rest : List (P × Option L × Option Nat)} (hq : s.queue = e :: rest) :
    Sem pr (schedule s ok e rest) := by
  have hth := (hi.not_typed hpr (p := e.1) (by rw [hq]; simp only [List.map_cons, List.count_cons_self]; omega)).2
  unfold schedule
  simp only []
  cases s.avail.getLast? with
  | none => exact h.congr rfl rfl rfl rfl rfl rfl rfl rfl h.run
  | some last =>
    simp only []
    cases e.2.1 with
    | none =>
      apply sem_start
      · exact h.congr rfl rfl rfl rfl rfl rfl rfl rfl h.run
      · exact hth
    | some l =>
      simp only []
      split
      · apply sem_start
        · exact h.congr rfl rfl rfl rfl rfl rfl rfl rfl h.run
        · exact hth
      · exact h.congr rfl rfl rfl rfl rfl rfl rfl rfl h.run

/-- Something happens in a thread. -/
theorem sem_thread {s : State} (hpr : pr.Ok) (hi : Inv pr s [] []) (h : Sem pr s) {t : Thread} (ht : t ∈ s.running)
    {allowed : Bool} {phase : Phase} {rest : List Item} {b : Bool} {ty dis : List P} {dp : P → List P}
    (hdis : dis = s.disabled ∨ (dis = t.p :: s.disabled ∧ Bad pr t.p ∧ t.p ∉ s.typed ∧ ty = s.typed))
    (hdp : dp = s.deps ∨ ∃ q, dp = upd s.deps t.p (q :: s.deps t.p) ∧ q ∈ s.finished ∧ q ∉ dis ∧ q ≠ t.p ∧
      (Needs pr t.p q ∨ Wants pr t.p q))
    (hfail : b = true → t.p ∈ dis)
    (hb : b = false → s.failed t.p = false)
    (hpend : b = false → ∀ q r, Item.single q r ∈ s.todo t.p → Item.single q r ∈ rest ∨
      (q ≠ t.p ∧ q ∉ s.toHandle ∧ ((q ∈ dis ∧ r = false) ∨ (q ∉ dis ∧ q ∈ dp t.p))))
    (hbulk : b = false → ∀ types, Item.bulk types ∈ s.todo t.p → Item.bulk types ∈ rest ∨
      ∀ q, Found pr t.p types q → Item.single q true ∈ rest ∨ q ∈ dp t.p)
    (hty : ty = s.typed ∨ (ty = t.p :: s.typed ∧ s.todo t.p = [] ∧ rest = [] ∧ b = false ∧ pr.enabled t.p = true ∧
      dis = s.disabled ∧ t.p ∉ s.disabled))
    (hrun : phase ≠ .resolving → rest = [] → t.p ∈ ty ∨ t.p ∈ dis) :
    Sem pr { setThread s t.p allowed phase with
      todo := upd s.todo t.p rest, failed := upd s.failed t.p b, disabled := dis, typed := ty, deps := dp,
      missed := s.missed } := by
  obtain ⟨hth, hu, -⟩ := hi.unique hpr ht
  have hdsub : ∀ q ∈ s.disabled, q ∈ dis := by
    rcases hdis with rfl | ⟨rfl, -⟩
    · exact fun q hq => hq
    · exact fun q hq => List.mem_cons_of_mem _ hq
  have hdne : ∀ q, q ≠ t.p → q ∉ s.disabled → q ∉ dis := by
    rcases hdis with rfl | ⟨rfl, -⟩
    · exact fun q _ hq => hq
    · intro q hne hq hx
      rcases List.mem_cons.mp hx with hx | hx
      · exact hne hx
      · exact hq hx
  have hpsub : ∀ p, ∀ q ∈ s.deps p, q ∈ dp p := by
    intro p q hq
    rcases hdp with rfl | ⟨x, rfl, -⟩
    · exact hq
    · by_cases hpt : p = t.p
      · subst hpt
        rw [upd_self]
        exact List.mem_cons_of_mem _ hq
      · rw [upd_ne hpt]; exact hq
  have hdone : ∀ p q r, Done s p q r →
      q ≠ p ∧ q ∉ s.toHandle ∧ ((q ∈ dis ∧ r = false) ∨ (q ∉ dis ∧ q ∈ dp p)) := by
    rintro p q r ⟨h1, h2, h3⟩
    refine ⟨h1, h2, ?_⟩
    rcases h3 with ⟨h3, h4⟩ | ⟨h3, h4⟩
    · exact Or.inl ⟨hdsub q h3, h4⟩
    · exact Or.inr ⟨hdne q (fun hx => h2 (hx ▸ hth)) h3, hpsub p q h4⟩
  refine ⟨?_, ?_, ?_, ?_, ?_, ?_, ?_, ?_, ?_, ?_, h.missed, ?_⟩
  · intro p hp
    rcases hdis with rfl | ⟨rfl, hbad, -⟩
    · exact h.dis p hp
    · rcases List.mem_cons.mp hp with rfl | hp
      · exact hbad
      · exact h.dis p hp
  · intro p hp hf
    have hf : upd s.failed t.p b p = true := hf
    by_cases hpt : p = t.p
    · subst hpt
      rw [upd_self] at hf
      exact hfail hf
    · rw [upd_ne hpt] at hf
      exact hdsub p (h.fail p hp hf)
  · intro p hp hf
    have hf : upd s.failed t.p b p = false := hf
    by_cases hpt : p = t.p
    · subst hpt
      rw [upd_self] at hf
      exact h.broken t.p hth (hb hf)
    · rw [upd_ne hpt] at hf
      exact h.broken p hp hf
  · intro p hp hf q r hm
    have hf : upd s.failed t.p b p = false := hf
    show Item.single q r ∈ upd s.todo t.p rest p ∨
      (q ≠ p ∧ q ∉ s.toHandle ∧ ((q ∈ dis ∧ r = false) ∨ (q ∉ dis ∧ q ∈ dp p)))
    by_cases hpt : p = t.p
    · subst hpt
      rw [upd_self] at hf ⊢
      rcases h.pend t.p hth (hb hf) q r hm with h1 | h1
      · exact hpend hf q r h1
      · exact Or.inr (hdone _ _ _ h1)
    · rw [upd_ne hpt] at hf ⊢
      rcases h.pend p hp hf q r hm with h1 | h1
      · exact Or.inl h1
      · exact Or.inr (hdone _ _ _ h1)
  · intro p hp hf ts hm
    have hf : upd s.failed t.p b p = false := hf
    show Item.bulk ts ∈ upd s.todo t.p rest p ∨ ∀ q, Found pr p ts q → Item.single q true ∈ upd s.todo t.p rest p ∨
      q ∈ dp p
    by_cases hpt : p = t.p
    · subst hpt
      rw [upd_self] at hf ⊢
      rcases h.pendBulk t.p hth (hb hf) ts hm with h1 | h1
      · exact hbulk hf ts h1
      · refine Or.inr ?_
        intro q hq
        rcases h1 q hq with h2 | h2
        · rcases hpend hf q true h2 with h3 | ⟨_, _, h3⟩
          · exact Or.inl h3
          · rcases h3 with ⟨_, h3⟩ | ⟨_, h3⟩
            · cases h3
            · exact Or.inr h3
        · exact Or.inr (hpsub _ _ h2)
    · rw [upd_ne hpt] at hf ⊢
      rcases h.pendBulk p hp hf ts hm with h1 | h1
      · exact Or.inl h1
      · refine Or.inr ?_
        intro q hq
        rcases h1 q hq with h2 | h2
        · exact Or.inl h2
        · exact Or.inr (hpsub _ _ h2)
  · have old : ∀ p ∈ s.typed, p ∉ dis ∧ pr.enabled p = true ∧ pr.broken p = false ∧
        (∀ q r, Item.single q r ∈ pr.items p →
          q ≠ p ∧ q ∉ s.toHandle ∧ ((q ∈ dis ∧ r = false) ∨ (q ∉ dis ∧ q ∈ dp p))) ∧
        (∀ types, Item.bulk types ∈ pr.items p → ∀ q, Found pr p types q → q ∈ dp p) := by
      intro p hp
      obtain ⟨h1, h2, h3, h4, h5⟩ := h.typed p hp
      refine ⟨?_, h2, h3, fun q r hm => hdone _ _ _ (h4 q r hm), fun ts hm q hq => hpsub _ _ (h5 ts hm q hq)⟩
      rcases hdis with rfl | ⟨rfl, _, hnt, _⟩
      · exact h1
      · intro hx
        rcases List.mem_cons.mp hx with rfl | hx
        · exact hnt hp
        · exact h1 hx
    intro p hp
    rcases hty with rfl | ⟨rfl, htd, hr, hbf, hen, hde, hnd⟩
    · exact old p hp
    · rcases List.mem_cons.mp hp with rfl | hp
      · refine ⟨by rw [hde]; exact hnd, hen, h.broken t.p hth (hb hbf), ?_, ?_⟩
        · intro q r hm
          rcases h.pend t.p hth (hb hbf) q r hm with h1 | h1
          · rw [htd] at h1; cases h1
          · exact hdone _ _ _ h1
        · intro ts hm q hq
          rcases h.pendBulk t.p hth (hb hbf) ts hm with h1 | h1
          · rw [htd] at h1; cases h1
          · rcases h1 q hq with h2 | h2
            · rw [htd] at h2; cases h2
            · exact hpsub _ _ h2
      · exact old p hp
  · intro p hp
    rcases h.fin p hp with h1 | h1
    · refine Or.inl ?_
      rcases hty with rfl | ⟨rfl, -⟩
      · exact h1
      · exact List.mem_cons_of_mem _ h1
    · exact Or.inr (hdsub p h1)
  · intro v hv hph htd
    obtain ⟨u, hum, rfl⟩ := List.mem_map.mp hv
    by_cases hup : u.p = t.p
    · rw [if_pos hup] at hph htd ⊢
      have htd : upd s.todo t.p rest u.p = [] := htd
      rw [hup, upd_self] at htd
      show u.p ∈ ty ∨ u.p ∈ dis
      rw [hup]
      exact hrun hph htd
    · rw [if_neg hup] at hph htd ⊢
      have htd : upd s.todo t.p rest u.p = [] := htd
      rw [upd_ne hup] at htd
      rcases h.run u hum hph htd with h1 | h1
      · refine Or.inl ?_
        rcases hty with rfl | ⟨rfl, -⟩
        · exact h1
        · exact List.mem_cons_of_mem _ h1
      · exact Or.inr (hdsub _ h1)
  · intro p q hq
    have key : ∀ p, ∀ q ∈ s.deps p, q ∈ s.finished ∧ q ∉ dis ∧ q ≠ p ∧ (Needs pr p q ∨ Wants pr p q) := by
      intro p q hq
      obtain ⟨h1, h2, h3⟩ := h.deps p q hq
      exact ⟨h1, hdne q (fun hx => (hi.disjoint hpr h1).1 (hx ▸ hth)) h2, h3⟩
    rcases hdp with rfl | ⟨x, rfl, h1⟩
    · exact key p q hq
    · have hq : q ∈ upd s.deps t.p (x :: s.deps t.p) p := hq
      by_cases hpt : p = t.p
      · subst hpt
        rw [upd_self] at hq
        rcases List.mem_cons.mp hq with rfl | hq
        · exact h1
        · exact key _ q hq
      · rw [upd_ne hpt] at hq
        exact key p q hq
  · intro pre p post hf q hq
    have hpf : p ∈ s.finished := by rw [show s.finished = _ from hf]; simp
    have hpt : p ≠ t.p := fun hx => (hi.disjoint hpr hpf).1 (hx ▸ hth)
    apply h.order pre p post hf q
    rcases hdp with rfl | ⟨x, rfl, h1⟩
    · exact hq
    · have hq : q ∈ upd s.deps t.p (x :: s.deps t.p) p := hq
      rw [upd_ne hpt] at hq
      exact hq
  · intro p hp
    rcases hdis with rfl | ⟨rfl, -⟩
    · exact h.disProd p hp
    · rcases List.mem_cons.mp hp with rfl | hp
      · exact hi.in_products hth
      · exact h.disProd p hp

theorem sem_work {s : State} (hpr : pr.Ok) (hi : Inv pr s [] []) (h : Sem pr s) {t : Thread} (ht : t ∈ s.running)
    (hph : t.phase = .resolving) : Sem pr (work pr s t) := by
  obtain ⟨hth, hu, -⟩ := hi.unique hpr ht
  have hnt := hi.resolving_not_typed hpr ht hph
  obtain ⟨allowed, phase, rest, b, dis, ty, dp, he, hw⟩ := work_effect hpr hi ht hph
  rw [hw]
  have hno : phase ≠ phase → rest = [] → t.p ∈ ty ∨ t.p ∈ dis := fun hx => absurd rfl hx
  have hprod := hi.in_products hth
  have horig := fun q r (hm : Item.single q r ∈ s.todo t.p) => hi.origin t.p hth q r hm
  cases he with
  | disabled htd hc =>
    refine sem_thread hpr hi h ht (Or.inr ⟨rfl, ?_, hnt, rfl⟩) (Or.inl rfl) (fun _ => List.mem_cons_self)
      (fun hx => hx) ?_ ?_ (Or.inl rfl) (fun _ _ => Or.inr List.mem_cons_self)
    · rcases hc with hc | hc
      · exact h.dis _ (h.fail t.p hth hc)
      · exact Bad.condition hc
    · intro _ q r hm; rw [htd] at hm; cases hm
    · intro _ ts hm; rw [htd] at hm; cases hm
  | good htd hf he =>
    refine sem_thread hpr hi h ht (Or.inl rfl) (Or.inl rfl) (fun hx => by rw [hf] at hx; cases hx)
      (fun hx => hx) ?_ ?_ (Or.inr ⟨rfl, htd, rfl, hf, he, rfl, ?_⟩) (fun _ _ => Or.inl List.mem_cons_self)
    · intro _ q r hm; rw [htd] at hm; cases hm
    · intro _ ts hm; rw [htd] at hm; cases hm
    · intro hx
      have hbad := h.dis _ hx
      have hfl : s.failed t.p = false := hf
      clear hx
      cases hbad with
      | broken hx => have := h.broken t.p hth hf; rw [hx] at this; cases this
      | condition hx => rw [he] at hx; cases hx
      | self hx =>
        obtain ⟨r, hx⟩ := hx
        rcases h.pend t.p hth hf _ r hx with h1 | h1
        · rw [htd] at h1; cases h1
        · exact h1.1 rfl
      | dependency hx hq =>
        rcases h.pend t.p hth hf _ true hx with h1 | h1
        · rw [htd] at h1; cases h1
        · rcases h1.2.2 with ⟨_, h2⟩ | ⟨h2, h3⟩
          · cases h2
          · exact h.not_bad ((h.fin _ (h.deps _ _ h3).1).resolve_right h2) hq
  | @self required rest htd =>
    refine sem_thread hpr hi h ht (Or.inr ⟨rfl, ?_, hnt, rfl⟩) (Or.inl rfl) (fun _ => List.mem_cons_self)
      (fun hx => by cases hx) (fun hx => by cases hx) (fun hx => by cases hx) (Or.inl rfl) (fun hx => absurd rfl hx)
    rcases horig t.p required (by rw [htd]; exact List.mem_cons_self) with h1 | ⟨h1, _⟩
    · exact Bad.self ⟨required, h1⟩
    · exact absurd h1 hnt
  | @pending q required rest htd hq hqh ha =>
    refine sem_thread hpr hi h ht (Or.inl rfl) (Or.inl rfl) (fun hx => h.fail t.p hth hx)
      (fun hx => hx) (fun _ q r hm => Or.inl hm) (fun _ ts hm => Or.inl hm) (Or.inl rfl) ?_
    intro _ hx
    rw [htd] at hx; cases hx
  | @required q rest htd hq hqh hqd =>
    refine sem_thread hpr hi h ht (Or.inr ⟨rfl, ?_, hnt, rfl⟩) (Or.inl rfl) (fun _ => List.mem_cons_self)
      (fun hx => by cases hx) (fun hx => by cases hx) (fun hx => by cases hx) (Or.inl rfl) (fun hx => absurd rfl hx)
    rcases horig q true (by rw [htd]; exact List.mem_cons_self) with h1 | ⟨h1, _⟩
    · exact Bad.dependency h1 (h.dis q hqd)
    · exact absurd hqd (h.typed q h1).1
  | @optional q rest htd hq hqh hqd =>
    refine sem_thread hpr hi h ht (Or.inl rfl) (Or.inl rfl) (fun hx => h.fail t.p hth hx)
      (fun hx => hx) ?_ ?_ (Or.inl rfl) (fun hx => absurd rfl hx)
    · intro _ x r hm
      rw [htd] at hm
      rcases List.mem_cons.mp hm with hm | hm
      · injection hm with h1 h2
        subst h1
        exact Or.inr ⟨hq, hqh, Or.inl ⟨hqd, h2⟩⟩
      · exact Or.inl hm
    · intro _ ts hm
      rw [htd] at hm
      rcases List.mem_cons.mp hm with hm | hm
      · cases hm
      · exact Or.inl hm
  | @ok q required rest htd hq hqh hqd =>
    have hfin : q ∈ s.finished ∧ (Needs pr t.p q ∨ Wants pr t.p q) := by
      rcases horig q required (by rw [htd]; exact List.mem_cons_self) with h1 | ⟨h1, _, h2⟩
      · exact ⟨mem_finished hi (hpr.closed _ hprod _ ⟨required, h1⟩) hqh, Or.inl ⟨required, h1⟩⟩
      · exact ⟨mem_finished hi (hi.typed q h1).1 hqh, Or.inr h2⟩
    refine sem_thread hpr hi h ht (Or.inl rfl) (Or.inr ⟨q, rfl, hfin.1, hqd, hq, hfin.2⟩)
      (fun hx => h.fail t.p hth hx) (fun hx => hx) ?_ ?_ (Or.inl rfl) (fun hx => absurd rfl hx)
    · intro _ x r hm
      rw [htd] at hm
      rcases List.mem_cons.mp hm with hm | hm
      · injection hm with h1 h2
        subst h1
        refine Or.inr ⟨hq, hqh, Or.inr ⟨hqd, ?_⟩⟩
        rw [upd_self]
        exact List.mem_cons_self
      · exact Or.inl hm
    · intro _ ts hm
      rw [htd] at hm
      rcases List.mem_cons.mp hm with hm | hm
      · cases hm
      · exact Or.inl hm
  | @bulk types rest htd ha =>
    refine sem_thread hpr hi h ht (Or.inl rfl) (Or.inl rfl) (fun hx => h.fail t.p hth hx)
      (fun hx => hx) (fun _ q r hm => Or.inl hm) (fun _ ts hm => Or.inl hm) (Or.inl rfl) ?_
    intro _ hx
    rw [htd] at hx; cases hx
  | @expand types rest htd ha =>
    refine sem_thread hpr hi h ht (Or.inl rfl) (Or.inl rfl) (fun hx => h.fail t.p hth hx)
      (fun hx => hx) ?_ ?_ (Or.inl rfl) (fun hx => absurd rfl hx)
    · intro _ x r hm
      rw [htd] at hm
      rcases List.mem_cons.mp hm with hm | hm
      · cases hm
      · exact Or.inl (List.mem_append_right _ hm)
    · intro _ ts hm
      rw [htd] at hm
      rcases List.mem_cons.mp hm with hm | hm
      · injection hm with hm
        subst hm
        refine Or.inr ?_
        rintro q ⟨h1, h2, h3, h4, h5⟩
        have hab := (hi.runForced t ht ha).2.above
        have hfin := mem_finished hi h1 (fun hx => h4 (hab q hx))
        have hty : q ∈ s.typed := (h.fin q hfin).resolve_right (fun hx => h5 (h.dis q hx))
        exact Or.inl (List.mem_append_left _ (List.mem_map.mpr ⟨q, mem_matching.mpr ⟨hty, h2, h3⟩, rfl⟩))
      · exact Or.inl (List.mem_append_right _ hm)

theorem mem_bulkTypes {a : P} {x : Tag} : x ∈ bulkTypes pr a ↔ ∃ types, Item.bulk types ∈ pr.items a ∧ x ∈ types := by
  unfold bulkTypes
  rw [List.mem_flatMap]
  constructor
  · rintro ⟨i, hi, hx⟩
    cases i with
    | single q r => cases hx
    | bulk ts => exact ⟨ts, hi, hx⟩
  · rintro ⟨ts, h1, h2⟩
    exact ⟨_, h1, h2⟩

theorem mem_missedBy {s : State} {p a : P} : a ∈ missedBy pr s p ↔
    p ∉ s.disabled ∧ hasBulk pr p = false ∧ a ∈ s.finished ∧ a ∉ s.disabled ∧ Wants pr a p := by
  unfold missedBy
  by_cases hc : (s.disabled.contains p || hasBulk pr p) = true
  · rw [if_pos hc]
    rw [Bool.or_eq_true, List.contains_iff_mem] at hc
    constructor
    · intro hx; cases hx
    · rintro ⟨h1, h2, _⟩
      rcases hc with hc | hc
      · exact absurd hc h1
      · rw [h2] at hc; cases hc
  · rw [if_neg hc]
    simp only [Bool.or_eq_true, not_or, Bool.not_eq_true, List.contains_iff_mem] at hc
    simp only [List.mem_filter, Bool.and_eq_true, Bool.not_eq_true', bne_iff_ne, List.any_eq_true,
      List.contains_iff_mem]
    constructor
    · rintro ⟨h1, ⟨h2, h3⟩, x, h4, h5⟩
      obtain ⟨ts, h6, h7⟩ := mem_bulkTypes.mp h5
      refine ⟨hc.1, hc.2, h1, ?_, fun hx => h3 hx.symm, ts, h6, x, h7, h4⟩
      rw [← List.contains_iff_mem, h2]
      simp
    · rintro ⟨_, _, h1, h2, h3, ts, h4, x, h5, h6⟩
      refine ⟨h1, ⟨?_, fun hx => h3 hx.symm⟩, x, h6, mem_bulkTypes.mpr ⟨ts, h4, h5⟩⟩
      rw [← Bool.not_eq_true, List.contains_iff_mem]
      exact h2

theorem sem_finish {s : State} (hpr : pr.Ok) {p : P} (hi : Inv pr s [p] []) (h : Sem pr s)
    (hfin : p ∈ s.typed ∨ p ∈ s.disabled) : Sem pr (finish pr s p) := by
  obtain ⟨hth, hrun, hq, hws, hwb, hst⟩ := hi.hole hpr
  have hi' := inv_finish hpr hi
  have hsub : ∀ x ∈ s.toHandle.erase p, x ∈ s.toHandle := fun x hx => List.mem_of_mem_erase hx
  have hne : ∀ x ∈ s.toHandle.erase p, x ≠ p := by
    intro x hx he
    have hx' : x ∈ (finish pr s p).toHandle := hx
    have := hi'.not_finished hpr hx'
    rw [← Bool.not_eq_true, List.contains_iff_mem] at this
    exact this (by subst he; show x ∈ s.finished ++ [x]; simp)
  have hdone : ∀ x q r, Done s x q r → Done (finish pr s p) x q r := by
    rintro x q r ⟨h1, h2, h3⟩
    exact ⟨h1, fun hx => h2 (hsub q hx), h3⟩
  refine ⟨h.dis, ?_, ?_, ?_, ?_, ?_, ?_, ?_, ?_, ?_, ?_, h.disProd⟩
  · intro x hx hf
    have hf : upd s.failed p false x = true := hf
    rw [upd_ne (hne x hx)] at hf
    exact h.fail x (hsub x hx) hf
  · intro x hx hf
    have hf : upd s.failed p false x = false := hf
    rw [upd_ne (hne x hx)] at hf
    exact h.broken x (hsub x hx) hf
  · intro x hx hf q r hm
    have hf : upd s.failed p false x = false := hf
    rw [upd_ne (hne x hx)] at hf
    show Item.single q r ∈ upd s.todo p _ x ∨ _
    rw [upd_ne (hne x hx)]
    rcases h.pend x (hsub x hx) hf q r hm with h1 | h1
    · exact Or.inl h1
    · exact Or.inr (hdone _ _ _ h1)
  · intro x hx hf ts hm
    have hf : upd s.failed p false x = false := hf
    rw [upd_ne (hne x hx)] at hf
    show Item.bulk ts ∈ upd s.todo p _ x ∨ ∀ q, _ → Item.single q true ∈ upd s.todo p _ x ∨ _
    rw [upd_ne (hne x hx)]
    exact h.pendBulk x (hsub x hx) hf ts hm
  · intro x hx
    obtain ⟨h1, h2, h3, h4, h5⟩ := h.typed x hx
    exact ⟨h1, h2, h3, fun q r hm => hdone _ _ _ (h4 q r hm), h5⟩
  · intro x hx
    rcases List.mem_append.mp hx with hx | hx
    · exact h.fin x hx
    · rw [List.mem_singleton] at hx
      subst hx
      exact hfin
  · intro t ht hph htd
    have htd : upd s.todo p _ t.p = [] := htd
    rw [upd_ne (hrun t ht)] at htd
    exact h.run t ht hph htd
  · intro x q hx
    obtain ⟨h1, h2⟩ := h.deps x q hx
    exact ⟨List.mem_append_left _ h1, h2⟩
  · intro pre x post hf q hx
    have hf : s.finished ++ [p] = pre ++ x :: post := hf
    rcases List.append_eq_append_iff.mp hf with ⟨a, ha, hb⟩ | ⟨c, hc, hd⟩
    · have hx' : x = p ∧ a = [] := by
        cases a with
        | nil => simp at hb; exact ⟨hb.1.symm, rfl⟩
        | cons y ys =>
          have := congrArg List.length hb
          simp at this
          
      obtain ⟨rfl, rfl⟩ := hx'
      rw [List.append_nil] at ha
      rw [ha]
      exact (h.deps x q hx).1
    · cases c with
      | nil =>
        simp at hd
        obtain ⟨rfl, _⟩ := hd
        rw [List.append_nil] at hc
        rw [← hc]
        exact (h.deps x q hx).1
      | cons y ys =>
        rw [List.cons_append] at hd
        injection hd with hd1 hd2
        subst hd1
        exact h.order pre x ys hc q hx
  · intro x hx
    rcases List.mem_append.mp hx with hx | hx
    · obtain ⟨a, ha, rfl⟩ := List.mem_map.mp hx
      obtain ⟨h1, h2, h3, h4, h5⟩ := mem_missedBy.mp ha
      refine ⟨List.mem_append_right _ (List.mem_singleton.mpr rfl), List.mem_append_left _ h3, ?_, h5⟩
      apply Classical.byContradiction
      intro hab
      have hty := (h.fin a h3).resolve_right h4
      obtain ⟨h6, ts, h7, h8⟩ := h5
      have hb := h.not_bad (hfin.resolve_right h1)
      have := (h.typed a hty).2.2.2.2 ts h7 p ⟨hi.in_products hth, h6, h8, hab, hb⟩
      exact (hi.disjoint hpr (h.deps a p this).1).1 hth
    · obtain ⟨h1, h2, h3⟩ := h.missed x hx
      exact ⟨List.mem_append_left _ h1, List.mem_append_left _ h2, h3⟩

theorem wait_fields (s : State) (p : P) (l : L) (items : List Item) :
    (wait s p l items).todo = s.todo ∧ (wait s p l items).failed = s.failed ∧
    (wait s p l items).finished = s.finished ∧ (wait s p l items).toHandle = s.toHandle ∧
    (wait s p l items).disabled = s.disabled ∧ (wait s p l items).typed = s.typed ∧
    (wait s p l items).deps = s.deps ∧ (wait s p l items).missed = s.missed ∧
    (wait s p l items).running = s.running := by
  unfold wait
  split
  · split <;> exact ⟨rfl, rfl, rfl, rfl, rfl, rfl, rfl, rfl, rfl⟩
  · exact ⟨rfl, rfl, rfl, rfl, rfl, rfl, rfl, rfl, rfl⟩
  · exact ⟨rfl, rfl, rfl, rfl, rfl, rfl, rfl, rfl, rfl⟩

theorem sem_handle {s : State} (hpr : pr.Ok) (hi : Inv pr s [] []) (h : Sem pr s) {t : Thread} (ht : t ∈ s.running)
    (hph : t.phase = .done) (ok : Bool) : Sem pr (handle pr s ok t) := by
  have hth := (hi.unique hpr ht).1
  have hnf := hi.not_finished hpr hth
  have hi1 := inv_release hpr (inv_remove hi ht) ok
  have hf := release_fields { s with running := s.running.erase t } ok t.l
  have h1 : Sem pr (release { s with running := s.running.erase t } ok t.l) := by
    apply sem_release
    · exact h.congr rfl rfl rfl rfl rfl rfl rfl rfl (fun u hu => h.run u (List.mem_of_mem_erase hu))
    · intro e he
      have he : e ∈ s.waitState := he
      exact (hi.not_typed hpr (p := e.2.1) (by have := mem_count (f := (·.2.1)) he; omega)).2
  unfold handle
  simp only []
  by_cases hc : (decide ((release { s with running := s.running.erase t } ok t.l).todo t.p = []) ||
      (release { s with running := s.running.erase t } ok t.l).failed t.p ||
      (release { s with running := s.running.erase t } ok t.l).finished.contains t.p) = true
  · rw [if_pos hc]
    apply sem_finish hpr hi1 h1
    rw [hf.1, hf.2.1, hf.2.2.1] at hc
    rw [hf.2.2.2.2.1, hf.2.2.2.2.2.1]
    simp only [Bool.or_eq_true, decide_eq_true_eq] at hc
    rcases hc with (hc | hc) | hc
    · exact h.run t ht (by rw [hph]; simp) hc
    · exact Or.inr (h.fail t.p hth hc)
    · have hc : s.finished.contains t.p = true := hc
      rw [hnf] at hc; cases hc
  · rw [if_neg hc]
    obtain ⟨g1, g2, g3, g4, g5, g6, g7, g8, g9⟩ := wait_fields
      (release { s with running := s.running.erase t } ok t.l) t.p t.l
      ((release { s with running := s.running.erase t } ok t.l).todo t.p)
    exact h1.congr g1 g2 g3 g4 g5 g6 g7 g8 (by rw [g9]; exact h1.run)

theorem sem_stage2 {s : State} (hpr : pr.Ok) (hi : Inv pr s [] []) (h : Sem pr s) {t : Thread} (ht : t ∈ s.running)
    (hph : t.phase = .stage2) : Sem pr (setThread s t.p t.allowed .done) := by
  obtain ⟨hth, hu, -⟩ := hi.unique hpr ht
  refine h.congr rfl rfl rfl rfl rfl rfl rfl rfl ?_
  intro v hv hvp htd
  obtain ⟨u, hum, rfl⟩ := List.mem_map.mp hv
  by_cases hup : u.p = t.p
  · rw [if_pos hup] at htd ⊢
    have := hu u hum hup
    subst this
    exact h.run u hum (by rw [hph]; simp) htd
  · rw [if_neg hup] at htd hvp ⊢
    exact h.run u hum hvp htd

theorem sem_reachable {s : State} (hpr : pr.Ok) (hac : Acyclic pr) (h : Reachable pr s) : Sem pr s := by
  induction h with
  | init => exact sem_initial
  | step hre hs ih =>
    have hi := inv_reachable hpr hac hre
    cases hs with
    | work t ht hph => exact sem_work hpr hi ih ht hph
    | stage2 t ht hph => exact sem_stage2 hpr hi ih ht hph
    | handle t ok ht hph => exact sem_handle hpr hi ih ht hph _
    | schedule ok e rest hj hq => exact sem_schedule hpr hi ih _ hq
    | bulk hr hq _ => exact ih.congr rfl rfl rfl rfl rfl rfl rfl rfl ih.run
    | single order hr hq hb hne _ => exact absurd (hi.no_single hpr hac hr hq hb).1 hne

end Verif.Sched
