import Verif.Exec.Jobs

/-
Nothing is forgotten: every node that still has to be built is queued or waits for something.
-/

namespace Verif.Exec

/-! ### The depth-first searches reach everything they should -/

def unseen (g : Graph) (seen : List Node) : Nat :=
  (g.nodes.filter fun n => decide (n ∉ seen)).length

theorem filter_length_mono {α : Type} {p q : α → Bool} (h : ∀ a, p a = true → q a = true) :
    ∀ l : List α, (l.filter p).length ≤ (l.filter q).length
  | [] => by simp
  | a :: l => by
      have ih := filter_length_mono h l
      rw [List.filter_cons, List.filter_cons]
      by_cases hp : p a = true
      · simp [hp, h a hp, ih]
      · by_cases hq : q a = true
        · simp [hp, hq]; omega
        · simp [hp, hq, ih]

theorem filter_length_lt {α : Type} {p q : α → Bool} (h : ∀ a, p a = true → q a = true) {x : α}
    (hq : q x = true) (hp : p x = false) :
    ∀ l : List α, x ∈ l → (l.filter p).length < (l.filter q).length
  | [], hx => by simp at hx
  | a :: l, hx => by
      rw [List.filter_cons, List.filter_cons]
      rcases List.mem_cons.mp hx with rfl | hx
      · have := filter_length_mono h l
        simp [hq, hp]; omega
      · have ih := filter_length_lt h hq hp l hx
        by_cases hpa : p a = true
        · simp [hpa, h a hpa, ih]
        · by_cases hqa : q a = true
          · simp [hpa, hqa]; omega
          · simp [hpa, hqa, ih]

theorem unseen_mono {g : Graph} {s s' : List Node} (h : ∀ n ∈ s, n ∈ s') :
    unseen g s' ≤ unseen g s :=
  filter_length_mono (fun a ha => by
    simp only [decide_eq_true_eq] at ha ⊢
    exact fun hs => ha (h a hs)) _

theorem unseen_cons {g : Graph} {s : List Node} {n : Node} (hn : n ∈ g.nodes) (hs : n ∉ s) :
    unseen g (n :: s) < unseen g s := by
  refine filter_length_lt (x := n) (fun a ha => ?_) (by simpa using hs) (by simp) _ hn
  simp only [decide_eq_true_eq, List.mem_cons, not_or] at ha ⊢
  exact ha.2

/-- What a (partial) search from `a` to `b` has achieved. -/
structure VisitCl (g : Graph) (a b : Acc) : Prop where
  seen : ∀ n ∈ a.seen, n ∈ b.seen
  bs : ∀ n, b.bs n = a.bs n ∨ (a.bs n = .untouched ∧ b.bs n = .buildable ∧ n ∈ b.seen)
  leaves : ∀ n ∈ a.leaves, n ∈ b.leaves
  touched : ∀ m ∈ b.seen, m ∉ a.seen → b.bs m ≠ .untouched
  children : ∀ m ∈ b.seen, m ∉ a.seen → ∀ c ∈ g.children m, b.bs c = .built ∨ c ∈ b.seen
  queued : ∀ m ∈ b.seen, m ∉ a.seen → (∀ c ∈ g.children m, b.bs c = .built) → m ∈ b.leaves

theorem VisitCl.built {g : Graph} {a b : Acc} (h : VisitCl g a b) (n : Node) :
    b.bs n = .built ↔ a.bs n = .built := by
  rcases h.bs n with e | ⟨e1, e2, _⟩
  · rw [e]
  · simp [e1, e2]

theorem VisitCl.stay {g : Graph} {a b : Acc} (h : VisitCl g a b) {n : Node}
    (hn : a.bs n ≠ .untouched) : b.bs n = a.bs n := by
  rcases h.bs n with e | ⟨e1, _, _⟩
  · exact e
  · exact absurd e1 hn

theorem VisitCl.touch {g : Graph} {a b : Acc} (h : VisitCl g a b) {n : Node}
    (hn : a.bs n ≠ .untouched) : b.bs n ≠ .untouched := by rw [h.stay hn]; exact hn

theorem VisitCl.refl (g : Graph) (a : Acc) : VisitCl g a a :=
  ⟨fun _ h => h, fun _ => .inl rfl, fun _ h => h, fun _ h h' => absurd h h',
   fun _ h h' => absurd h h', fun _ h h' => absurd h h'⟩

theorem VisitCl.trans {g : Graph} {a b c : Acc} (h : VisitCl g a b) (k : VisitCl g b c) :
    VisitCl g a c where
  seen := fun n hn => k.seen n (h.seen n hn)
  bs := fun n => by
    rcases h.bs n with e | ⟨e1, e2, e3⟩
    · rcases k.bs n with f | ⟨f1, f2, f3⟩
      · exact .inl (f.trans e)
      · exact .inr ⟨e ▸ f1, f2, f3⟩
    · exact .inr ⟨e1, (k.stay (by rw [e2]; simp)).trans e2, k.seen n e3⟩
  leaves := fun n hn => k.leaves n (h.leaves n hn)
  touched := fun m hm hma => by
    by_cases hmb : m ∈ b.seen
    · exact k.touch (h.touched m hmb hma)
    · exact k.touched m hm hmb
  children := fun m hm hma x hx => by
    by_cases hmb : m ∈ b.seen
    · rcases h.children m hmb hma x hx with hb | hs
      · exact .inl ((k.built x).mpr hb)
      · exact .inr (k.seen x hs)
    · exact k.children m hm hmb x hx
  queued := fun m hm hma hall => by
    by_cases hmb : m ∈ b.seen
    · exact k.leaves m (h.queued m hmb hma fun x hx => (k.built x).mp (hall x hx))
    · exact k.queued m hm hmb hall

theorem touch_touched (bs : Node → BState) (n : Node) : touch bs n n ≠ .untouched := by
  unfold Verif.Exec.touch
  split
  · simp [upd]
  · assumption

theorem visit_closed (g : Graph) (hc : ∀ n ∈ g.nodes, ∀ c ∈ g.children n, c ∈ g.nodes) :
    ∀ (fuel : Nat) (a : Acc) (n : Node), n ∈ g.nodes → unseen g a.seen ≤ fuel →
      VisitCl g a (visit g fuel a n) ∧ n ∈ (visit g fuel a n).seen
  | 0, a, n, hn, hf => by
      refine ⟨.refl g a, Classical.byContradiction fun hs => ?_⟩
      have hs' : n ∉ a.seen := hs
      have := unseen_cons hn hs'
      omega
  | fuel + 1, a, n, hn, hf => by
      unfold visit
      split
      · rename_i hs
        exact ⟨.refl g a, hs⟩
      rename_i hs
      dsimp only
      have hlt := unseen_cons hn hs
      -- the loop over the children
      have loop : ∀ (l : List Node) (a0 : Acc), (∀ c ∈ l, c ∈ g.nodes) → unseen g a0.seen ≤ fuel →
          VisitCl g a0 (l.foldl (fun b c => if b.bs c = .built then b else visit g fuel b c) a0) ∧
          ∀ c ∈ l,
            (l.foldl (fun b c => if b.bs c = .built then b else visit g fuel b c) a0).bs c = .built ∨
            c ∈ (l.foldl (fun b c => if b.bs c = .built then b else visit g fuel b c) a0).seen := by
        intro l
        induction l with
        | nil => exact fun a0 _ _ => ⟨.refl g a0, fun c hcc => by simp at hcc⟩
        | cons c l ih =>
          intro a0 hl hu
          rw [List.foldl_cons]
          have step : VisitCl g a0 (if a0.bs c = .built then a0 else visit g fuel a0 c) ∧
              ((if a0.bs c = .built then a0 else visit g fuel a0 c).bs c = .built ∨
               c ∈ (if a0.bs c = .built then a0 else visit g fuel a0 c).seen) := by
            split
            · rename_i hb
              exact ⟨.refl g a0, .inl hb⟩
            · obtain ⟨v1, v2⟩ := visit_closed g hc fuel a0 c (hl c (by simp)) hu
              exact ⟨v1, .inr v2⟩
          generalize (if a0.bs c = .built then a0 else visit g fuel a0 c) = a1 at step ⊢
          obtain ⟨t1, t2⟩ := step
          obtain ⟨i1, i2⟩ := ih a1 (fun c hcc => hl c (by simp [hcc]))
            (Nat.le_trans (unseen_mono t1.seen) hu)
          refine ⟨t1.trans i1, fun d hd => ?_⟩
          rcases List.mem_cons.mp hd with rfl | hd
          · rcases t2 with t2 | t2
            · exact .inl ((i1.built d).mpr t2)
            · exact .inr (i1.seen d t2)
          · exact i2 d hd
      obtain ⟨l1, l2⟩ := loop (g.children n)
        { bs := Verif.Exec.touch a.bs n, seen := n :: a.seen, leaves := a.leaves } (hc n hn)
        (by show unseen g (n :: a.seen) ≤ fuel; omega)
      generalize (g.children n).foldl (fun b c => if b.bs c = .built then b else visit g fuel b c)
        { bs := Verif.Exec.touch a.bs n, seen := n :: a.seen, leaves := a.leaves } = a2 at l1 l2 ⊢
      have hns : n ∈ a2.seen := l1.seen n (by simp)
      have hbs : ∀ m, a2.bs m = a.bs m ∨ (a.bs m = .untouched ∧ a2.bs m = .buildable ∧ m ∈ a2.seen) := by
        intro m
        have h1 : Verif.Exec.touch a.bs n m = a.bs m ∨
            (a.bs m = .untouched ∧ Verif.Exec.touch a.bs n m = .buildable ∧ m = n) := by
          unfold Verif.Exec.touch
          split
          · rename_i hu
            unfold upd
            split
            · rename_i hmn
              exact .inr ⟨hmn ▸ hu, rfl, hmn⟩
            · exact .inl rfl
          · exact .inl rfl
        rcases l1.bs m with e | ⟨e1, e2, e3⟩
        · dsimp only at e
          rcases h1 with h1 | ⟨h1, h2, h3⟩
          · exact .inl (e.trans h1)
          · exact .inr ⟨h1, e.trans h2, h3 ▸ hns⟩
        · dsimp only at e1
          rcases h1 with h1 | ⟨h1, h2, h3⟩
          · exact .inr ⟨h1 ▸ e1, e2, e3⟩
          · rw [h2] at e1; simp at e1
      have main : ∀ b : Acc, b.bs = a2.bs → b.seen = a2.seen → (∀ m ∈ a2.leaves, m ∈ b.leaves) →
          ((∀ c ∈ g.children n, a2.bs c = .built) → n ∈ b.leaves) → VisitCl g a b ∧ n ∈ b.seen := by
        intro b hbb hbsn hbl hq
        have split_m : ∀ m ∈ a2.seen, m ∉ a.seen → m = n ∨ m ∉ (n :: a.seen) := by
          intro m _ hma
          by_cases hmn : m = n
          · exact .inl hmn
          · exact .inr (by simp [hmn, hma])
        refine ⟨⟨?_, ?_, ?_, ?_, ?_, ?_⟩, hbsn ▸ hns⟩
        · intro m hm; rw [hbsn]; exact l1.seen m (by simp [hm])
        · rw [hbb, hbsn]; exact hbs
        · intro m hm; exact hbl m (l1.leaves m hm)
        · intro m hm hma
          rw [hbsn] at hm
          rw [hbb]
          rcases split_m m hm hma with rfl | hmn
          · exact l1.touch (touch_touched a.bs m)
          · exact l1.touched m hm hmn
        · intro m hm hma c hcc
          rw [hbsn] at hm ⊢
          rw [hbb]
          rcases split_m m hm hma with rfl | hmn
          · exact l2 c hcc
          · exact l1.children m hm hmn c hcc
        · intro m hm hma hall
          rw [hbsn] at hm
          rw [hbb] at hall
          rcases split_m m hm hma with rfl | hmn
          · exact hq hall
          · exact hbl m (l1.queued m hm hmn hall)
      split
      · exact main _ rfl rfl (fun m hm => by simp [hm]) (fun _ => by simp)
      · rename_i hab
        exact main _ rfl rfl (fun m hm => hm) (fun hall => absurd (allBuilt_iff.mpr hall) hab)

/-- The result of `updateLeaves`, with the set of nodes it looked at. -/
theorem updateLeaves_closed (s : St) (ns : List Node)
    (hc : ∀ n ∈ s.g.nodes, ∀ c ∈ s.g.children n, c ∈ s.g.nodes) (hns : ∀ n ∈ ns, n ∈ s.g.nodes) :
    ∃ seen : List Node, VisitCl s.g ⟨s.bs, [], s.leaves⟩
        ⟨(updateLeaves s ns).bs, seen, (updateLeaves s ns).leaves⟩ ∧ ∀ n ∈ ns, n ∈ seen := by
  have loop : ∀ (l : List Node) (a : Acc), (∀ c ∈ l, c ∈ s.g.nodes) →
      VisitCl s.g a (l.foldl (visit s.g (s.g.nodes.length + 1)) a) ∧
      ∀ n ∈ l, n ∈ (l.foldl (visit s.g (s.g.nodes.length + 1)) a).seen := by
    intro l
    induction l with
    | nil => exact fun a _ => ⟨.refl _ a, fun n hn => by simp at hn⟩
    | cons c l ih =>
      intro a hl
      rw [List.foldl_cons]
      have hu : unseen s.g a.seen ≤ s.g.nodes.length + 1 := by
        have : unseen s.g a.seen ≤ s.g.nodes.length := List.length_filter_le _ _
        omega
      obtain ⟨v1, v2⟩ := visit_closed s.g hc _ a c (hl c (by simp)) hu
      obtain ⟨i1, i2⟩ := ih (visit s.g (s.g.nodes.length + 1) a c) (fun d hd => hl d (by simp [hd]))
      refine ⟨v1.trans i1, fun d hd => ?_⟩
      rcases List.mem_cons.mp hd with rfl | hd
      · exact i1.seen d v2
      · exact i2 d hd
  obtain ⟨l1, l2⟩ := loop ns ⟨s.bs, [], s.leaves⟩ hns
  exact ⟨_, l1, l2⟩

/-- What prepareReachableNodes achieves. -/
structure PrepOk (g : Graph) (S : Node → Prop) (bs0 bs' : Node → BState) : Prop where
  bs : ∀ n, bs' n = bs0 n ∨ (bs0 n = .untouched ∧ bs' n = .buildable ∧ S n)
  closed : ∀ n, bs0 n = .untouched → bs' n ≠ .untouched → ∀ c ∈ g.children n, bs' c ≠ .untouched

theorem PrepOk.touch {g : Graph} {S : Node → Prop} {bs bs' : Node → BState} (h : PrepOk g S bs bs')
    {n : Node} (hn : bs n ≠ .untouched) : bs' n ≠ .untouched := by
  rcases h.bs n with e | ⟨e, _, _⟩
  · rw [e]; exact hn
  · exact absurd e hn

theorem PrepOk.trans {g : Graph} {S : Node → Prop} {a b c : Node → BState} (h : PrepOk g S a b)
    (k : PrepOk g S b c) : PrepOk g S a c where
  bs := fun n => by
    rcases h.bs n with e | ⟨e1, e2, e3⟩
    · rcases k.bs n with f | ⟨f1, f2, f3⟩
      · exact .inl (f.trans e)
      · exact .inr ⟨e ▸ f1, f2, f3⟩
    · rcases k.bs n with f | ⟨f1, f2, f3⟩
      · exact .inr ⟨e1, f.trans e2, e3⟩
      · exact .inr ⟨e1, f2, f3⟩
  closed := fun n hn hcn x hx => by
    by_cases hb : b n = .untouched
    · exact k.closed n hb hcn x hx
    · exact k.touch (h.closed n hn hb x hx)

def untouchedCount (g : Graph) (bs : Node → BState) : Nat :=
  (g.nodes.filter fun n => decide (bs n = .untouched)).length

theorem prepare_closed (g : Graph) (hc : ∀ n ∈ g.nodes, ∀ c ∈ g.children n, c ∈ g.nodes)
    (S : Node → Prop) (hS : ∀ n, S n → ∀ c ∈ g.children n, S c) :
    ∀ (fuel : Nat) (bs : Node → BState) (n : Node), n ∈ g.nodes → S n → untouchedCount g bs ≤ fuel →
      PrepOk g S bs (prepare g fuel bs n) ∧ prepare g fuel bs n n ≠ .untouched
  | 0, bs, n, hn, hSn, hf => by
      refine ⟨⟨fun _ => .inl rfl, fun m hm hm' => absurd hm hm'⟩, fun hu => ?_⟩
      have hu' : bs n = .untouched := hu
      have : n ∈ g.nodes.filter fun n => decide (bs n = .untouched) := by simp [hn, hu']
      have := List.length_pos_of_mem this
      unfold untouchedCount at hf
      omega
  | fuel + 1, bs, n, hn, hSn, hf => by
      unfold prepare
      split
      · rename_i hu
        exact ⟨⟨fun _ => .inl rfl, fun m hm hm' => absurd hm hm'⟩, hu⟩
      rename_i hu
      have hu := Classical.not_not.mp hu
      have hlt : untouchedCount g (upd bs n .buildable) < untouchedCount g bs := by
        refine filter_length_lt (x := n) (fun a ha => ?_) (by simpa using hu) (by simp [upd]) _ hn
        simp only [decide_eq_true_eq] at ha ⊢
        unfold upd at ha
        split at ha
        · simp at ha
        · exact ha
      have mono : ∀ {b b' : Node → BState}, PrepOk g S b b' →
          untouchedCount g b' ≤ untouchedCount g b := by
        intro b b' hbb
        refine filter_length_mono (fun a ha => ?_) _
        simp only [decide_eq_true_eq] at ha ⊢
        exact Classical.byContradiction fun hne => hbb.touch hne ha
      have loop : ∀ (l : List Node) (b : Node → BState), (∀ c ∈ l, c ∈ g.nodes ∧ S c) →
          untouchedCount g b ≤ fuel →
          PrepOk g S b (l.foldl (prepare g fuel) b) ∧
            ∀ c ∈ l, l.foldl (prepare g fuel) b c ≠ .untouched := by
        intro l
        induction l with
        | nil =>
          exact fun b _ _ => ⟨⟨fun _ => .inl rfl, fun m hm hm' => absurd hm hm'⟩,
            fun c hcc => by simp at hcc⟩
        | cons c l ih =>
          intro b hl hub
          rw [List.foldl_cons]
          obtain ⟨p1, p2⟩ := prepare_closed g hc S hS fuel b c (hl c (by simp)).1 (hl c (by simp)).2 hub
          obtain ⟨i1, i2⟩ := ih (prepare g fuel b c) (fun d hd => hl d (by simp [hd]))
            (Nat.le_trans (mono p1) hub)
          refine ⟨p1.trans i1, fun d hd => ?_⟩
          rcases List.mem_cons.mp hd with rfl | hd
          · exact i1.touch p2
          · exact i2 d hd
      obtain ⟨l1, l2⟩ := loop (g.children n) (upd bs n .buildable)
        (fun c hcc => ⟨hc n hn c hcc, hS n hSn c hcc⟩) (by omega)
      generalize (g.children n).foldl (prepare g fuel) (upd bs n .buildable) = b' at l1 l2 ⊢
      have hn' : b' n ≠ .untouched := l1.touch (by simp [upd])
      refine ⟨⟨fun m => ?_, fun m hm hm' c hcc => ?_⟩, hn'⟩
      · by_cases hmn : m = n
        · subst hmn
          rcases l1.bs m with e | ⟨e, _, _⟩
          · exact .inr ⟨hu, by rw [e]; simp [upd], hSn⟩
          · simp [upd] at e
        · rcases l1.bs m with e | ⟨e1, e2, e3⟩
          · exact .inl (by rw [e]; simp [upd, hmn])
          · exact .inr ⟨by simpa [upd, hmn] using e1, e2, e3⟩
      · by_cases hmn : m = n
        · subst hmn; exact l2 c hcc
        · exact l1.closed m (by simpa [upd, hmn] using hm) hm' c hcc

/-! ### The invariant -/

/-- While nothing has gone wrong, nothing is forgotten. `x` is a leaf that has been taken from the
    queue and is being dealt with. -/
structure LInv (roots : Node → Prop) (x : Option Node) (s : St) : Prop where
  acyclic : Acyclic s.g
  fwd : Clean s.log → ∀ n ∈ s.g.nodes, x ≠ some n → s.bs n = .buildable →
    n ∈ s.leaves ∨ n ∈ s.delayed ∨ ∃ c ∈ s.g.children n, s.bs c ≠ .built
  closed : Clean s.log → ∀ n ∈ s.g.nodes, s.bs n ≠ .untouched →
    ∀ c ∈ s.g.children n, s.bs c ≠ .untouched
  building : Clean s.log → ∀ n ∈ s.g.nodes, s.bs n = .building →
    s.g.kind n = .gen ∧ ((∃ j, (j, s.g.tr n) ∈ s.proc) ∨ Ev.failed (s.g.tr n) ∈ s.log)
  roots : Clean s.log → ∀ n, roots n → n ∈ s.g.nodes → s.bs n ≠ .untouched
  quiet : Clean s.log → s.phase = .finishPending ∨ s.phase = .done → s.leaves = []
  delayed : Clean s.log → s.phase ≠ .scheduling → s.delayed = []

theorem clean_cons {e : Ev} {log : List Ev} :
    Clean (e :: log) → Clean log := by
  intro h
  refine ⟨fun hc => h.1 (canceled_cons.mpr (.inr hc)), fun he => h.2 (by simp [he])⟩

/-- States in which something has gone wrong have nothing to prove. -/
theorem LInv.unclean {roots : Node → Prop} {s : St} (ha : Acyclic s.g) (h : ¬ Clean s.log) : LInv roots none s where
  acyclic := ha
  fwd := fun hc => absurd hc h
  closed := fun hc => absurd hc h
  building := fun hc => absurd hc h
  roots := fun hc => absurd hc h
  quiet := fun hc => absurd hc h
  delayed := fun hc => absurd hc h

theorem LInv.done {roots : Node → Prop} {s : St} {n : Node} (h : LInv roots (some n) s)
    (hb : s.bs n ≠ .buildable) : LInv roots none s :=
  { h with
    fwd := fun hc m hm _ hbm => h.fwd hc m hm (fun e => by
      simp only [Option.some.injEq] at e; subst e; exact hb hbm) hbm }

theorem LInv.finishNode {roots : Node → Prop} {x : Option Node} {s : St} (h : LInv roots x s)
    (hs : s.phase ≠ .finishPending ∧ s.phase ≠ .done) (why : Why) (n : Node)
    (hc : ∀ c ∈ s.g.children n, s.bs c = .built) : LInv roots x (finishNode why s n) where
  acyclic := h.acyclic
  fwd := fun hcl m hm hx hb => by
    have hcl := clean_cons hcl
    simp only [Verif.Exec.finishNode] at hm hb ⊢
    have hmn : m ≠ n := fun e => by subst e; simp [upd] at hb
    have hbm : s.bs m = .buildable := by simpa [upd, hmn] using hb
    rcases h.fwd hcl m hm hx hbm with hl | hd | ⟨c, hcc, hcb⟩
    · exact .inl (by simp [hl])
    · exact .inr (.inl hd)
    · by_cases hall : allBuilt s.g (upd s.bs n .built) m = true
      · left
        have hbc := allBuilt_iff.mp hall c hcc
        have hcn : c = n := Classical.byContradiction fun hne => by
          simp [upd, hne] at hbc; exact hcb hbc
        simp only [List.mem_append, List.mem_filter, mem_parents, Bool.and_eq_true,
          decide_eq_true_eq]
        exact .inr ⟨⟨hm, hcn ▸ hcc⟩, hb, hall⟩
      · right; right
        refine Classical.byContradiction fun hne => hall (allBuilt_iff.mpr fun d hd => ?_)
        exact Classical.byContradiction fun hdb => hne ⟨d, hd, hdb⟩
  closed := fun hcl m hm hb c hcc => by
    have hcl := clean_cons hcl
    simp only [Verif.Exec.finishNode] at hm hb hcc ⊢
    by_cases hmn : m = n
    · subst hmn
      simp only [upd]
      split
      · simp
      · rw [hc c hcc]; simp
    · have := h.closed hcl m hm (by simpa [upd, hmn] using hb) c hcc
      simp only [upd]
      split
      · simp
      · exact this
  building := fun hcl m hm hb => by
    have hcl := clean_cons hcl
    simp only [Verif.Exec.finishNode] at hm hb ⊢
    have hmn : m ≠ n := fun e => by subst e; simp [upd] at hb
    obtain ⟨h1, h2⟩ := h.building hcl m hm (by simpa [upd, hmn] using hb)
    exact ⟨h1, h2.imp id (fun hf => by simp [hf])⟩
  roots := fun hcl m hm hmn => by
    have := h.roots (clean_cons hcl) m hm hmn
    simp only [Verif.Exec.finishNode, upd]
    split
    · simp
    · exact this
  quiet := fun _ hp => by
    rcases hp with hp | hp
    · exact absurd hp hs.1
    · exact absurd hp hs.2
  delayed := fun hcl => h.delayed (clean_cons hcl)

theorem LInv.finishLoop {roots : Node → Prop} {x : Option Node} (why : Why) :
    ∀ (l : List Node) (s : St), LInv roots x s → s.phase ≠ .finishPending ∧ s.phase ≠ .done →
    (∀ n ∈ l, ∀ c ∈ s.g.children n, s.bs c = .built) →
    LInv roots x (l.foldl (Verif.Exec.finishNode why) s)
  | [], s, h, _, _ => h
  | n :: l, s, h, hp, hc => by
      rw [List.foldl_cons]
      refine LInv.finishLoop why l _ (h.finishNode hp why n (hc n (by simp))) hp ?_
      intro m hm c hcc
      simp only [Verif.Exec.finishNode, upd]
      split
      · rfl
      · exact hc m (by simp [hm]) c hcc

theorem LInv.cancelJobs {roots : Node → Prop} {s : St} (h : LInv roots none s) :
    LInv roots none (cancelJobs s) := by
  unfold Verif.Exec.cancelJobs
  split
  · exact h
  · refine .unclean h.acyclic ?_
    intro hc
    exact hc.1 (canceled_cons.mpr (.inl ⟨_, rfl⟩))

theorem unclean_cancelJobs {s : St} (h : s.st = .canceling → Canceled s.log) :
    ¬ Clean (cancelJobs s).log := by
  unfold cancelJobs
  split
  · rename_i hst
    exact fun hc => hc.1 (h hst)
  · exact fun hc => hc.1 (canceled_cons.mpr (.inl ⟨_, rfl⟩))

theorem finishLoop_log (why : Why) : ∀ (l : List Node) (s : St) (e : Ev),
    (∀ n w, e ≠ .completed n w) → (e ∈ (l.foldl (finishNode why) s).log ↔ e ∈ s.log)
  | [], _, _, _ => Iff.rfl
  | n :: l, s, e, he => by
      rw [List.foldl_cons, finishLoop_log why l _ e he]
      simp [finishNode, he]

theorem LInv.handleError {roots : Node → Prop} {s : St} (ha : Acyclic s.g) :
    LInv roots none (handleError s) := by
  have hne : Ev.error ∈ (Verif.Exec.handleError s).log ∧ (Verif.Exec.handleError s).g = s.g := by
    unfold Verif.Exec.handleError abort
    split
    · simp [finish]
    · unfold Verif.Exec.cancelJobs
      split <;> simp
  exact .unclean (hne.2 ▸ ha) fun hc => hc.2 hne.1

theorem LInv.afterJob {cfg : Cfg} {ok : Bool} {roots : Node → Prop} {s : St} (hi : Inv none s)
    (hph : s.phase = .waiting) (h : LInv roots none s) : LInv roots none (afterJob cfg ok s) := by
  have hcan : ∀ s : St, Inv none s → s.st = .canceling → ¬ Clean s.log :=
    fun s hi hst hc => hc.1 (hi.notCanceled hst)
  unfold Verif.Exec.afterJob
  dsimp only
  have h1 : ∀ b : Bool, LInv roots none (if b then Verif.Exec.cancelJobs s else s) ∧
      Inv none (if b then Verif.Exec.cancelJobs s else s) ∧
      (if b then Verif.Exec.cancelJobs s else s).phase = .waiting := by
    intro b
    cases b
    · exact ⟨h, hi, hph⟩
    · exact ⟨h.cancelJobs, hi.cancelJobs (by simp [hph]) (by simp [hph]),
        (cancelJobs_frame s).1.trans hph⟩
  replace h1 := h1 (!ok && !cfg.keepGoing)
  generalize (if (!ok && !cfg.keepGoing) = true then Verif.Exec.cancelJobs s else s) = s1 at *
  obtain ⟨g1, g2, g3⟩ := h1
  have h2 : LInv roots none (if s1.st = .running ∧ s1.cancelRequested = true
        then Verif.Exec.cancelJobs { s1 with explicitly := true } else s1) ∧
      Inv none (if s1.st = .running ∧ s1.cancelRequested = true
        then Verif.Exec.cancelJobs { s1 with explicitly := true } else s1) ∧
      (if s1.st = .running ∧ s1.cancelRequested = true
        then Verif.Exec.cancelJobs { s1 with explicitly := true } else s1).phase = .waiting := by
    split
    · have hx : Inv none { s1 with explicitly := true } := { g2 with }
      have hy : LInv roots none { s1 with explicitly := true } := { g1 with }
      exact ⟨hy.cancelJobs, hx.cancelJobs (by simp [g3]) (by simp [g3]),
        (cancelJobs_frame _).1.trans g3⟩
    · exact ⟨g1, g2, g3⟩
  generalize (if s1.st = .running ∧ s1.cancelRequested = true
        then Verif.Exec.cancelJobs { s1 with explicitly := true } else s1) = s2 at *
  obtain ⟨g1, g2, g3⟩ := h2
  split
  · rename_i hst
    have hnc := hcan s2 g2 hst
    split
    · exact .unclean g1.acyclic fun hc => hnc (clean_cons hc)
    · exact g1
  · exact
      { acyclic := g1.acyclic
        fwd := fun hc n hn hx hb => by
          have := g1.fwd hc n hn hx hb
          rwa [g1.delayed hc (by simp [g3])] at this
        closed := g1.closed
        building := g1.building
        roots := g1.roots
        quiet := fun _ hp => by simp at hp
        delayed := fun _ hp => by simp at hp }

/-- Applying a rule. -/
theorem LInv.applyRule {roots : Node → Prop} {s : St} {r : Node} {e : Effect} (hi : Inv (some r) s)
    (h : LInv roots (some r) s) (hph : s.phase = .scheduling) (hr : r ∈ s.g.nodes)
    (hk : s.g.kind r = .rule) (hb : s.bs r = .buildable) (he : LiveEffect s r e) :
    LInv roots (some r)
      (updateLeaves (updateLeaves (applyEffect s e) e.created) e.invalidated) := by
  obtain ⟨S1, v1, w1⟩ := updateLeaves_closed (applyEffect s e) e.created he.wf.closed
    (fun n hn => he.nodes n (by simp [hn]))
  obtain ⟨S2, v2, w2⟩ := updateLeaves_closed (updateLeaves (applyEffect s e) e.created) e.invalidated
    he.wf.closed (fun n hn => he.nodes n (by simp [hn]))
  have hb1 : ∀ n ∈ s.g.nodes, (applyEffect s e).bs n = s.bs n := fun n hn => by
    simp [applyEffect, hn]
  have hb1' : ∀ n, n ∉ s.g.nodes → (applyEffect s e).bs n = .untouched := fun n hn => by
    simp [applyEffect, hn]
  generalize hs1 : applyEffect s e = s1 at *
  have hg1 : s1.g = e.g := by rw [← hs1]; rfl
  have hlog : s1.log = s.log := by rw [← hs1]; rfl
  have hl1 : s1.leaves = s.leaves := by rw [← hs1]; rfl
  have hd1 : s1.delayed = s.delayed := by rw [← hs1]; rfl
  have hp1 : s1.proc = s.proc := by rw [← hs1]; rfl
  have hph1 : s1.phase = s.phase := by rw [← hs1]; rfl
  have fr : ∀ (s : St) (ns : List Node), (updateLeaves s ns).g = s.g ∧
      (updateLeaves s ns).log = s.log ∧ (updateLeaves s ns).delayed = s.delayed ∧
      (updateLeaves s ns).proc = s.proc ∧ (updateLeaves s ns).phase = s.phase :=
    fun _ _ => ⟨rfl, rfl, rfl, rfl, rfl⟩
  generalize hs2 : updateLeaves s1 e.created = s2 at *
  have f2 := fr s1 e.created
  rw [hs2] at f2
  generalize hs3 : updateLeaves s2 e.invalidated = s3 at *
  have f3 := fr s2 e.invalidated
  rw [hs3] at f3
  obtain ⟨a1, a2, a3, a4, a5⟩ := f2
  obtain ⟨c1, c2, c3, c4, c5⟩ := f3
  rw [a1] at c1; rw [hg1] at c1 a1
  rw [a2, hlog] at c2; rw [a3, hd1] at c3; rw [a4, hp1] at c4; rw [a5, hph1] at c5
  rw [hg1] at v1
  rw [a1] at v2
  -- combined facts
  have built3 : ∀ n, s3.bs n = .built ↔ s1.bs n = .built := fun n => by
    rw [show s3.bs n = .built ↔ s2.bs n = .built from v2.built n]; exact v1.built n
  have touch3 : ∀ n, s1.bs n ≠ .untouched → s3.bs n = s1.bs n := fun n hn => by
    have e1 : s2.bs n = s1.bs n := v1.stay hn
    have e2 : s3.bs n = s2.bs n := v2.stay (by show s2.bs n ≠ _; rw [e1]; exact hn)
    rw [e2, e1]
  have seen1 : ∀ n ∈ S1, s3.bs n ≠ .untouched ∧ (∀ c ∈ e.g.children n, s3.bs c ≠ .untouched) ∧
      ((∀ c ∈ e.g.children n, s3.bs c = .built) → n ∈ s3.leaves) := by
    intro n hn
    have t1 : ∀ m ∈ S1, s3.bs m ≠ .untouched := fun m hm =>
      v2.touch (v1.touched m hm (by simp))
    refine ⟨t1 n hn, fun c hc => ?_, fun hall => ?_⟩
    · rcases v1.children n hn (by simp) c hc with hb | hs
      · have : s3.bs c = .built := (v2.built c).mpr hb
        rw [this]; simp
      · exact t1 c hs
    · exact v2.leaves n (v1.queued n hn (by simp) fun c hc => (v2.built c).mp (hall c hc))
  have seen2 : ∀ n ∈ S2, s3.bs n ≠ .untouched ∧ (∀ c ∈ e.g.children n, s3.bs c ≠ .untouched) ∧
      ((∀ c ∈ e.g.children n, s3.bs c = .built) → n ∈ s3.leaves) := by
    intro n hn
    refine ⟨v2.touched n hn (by simp), fun c hc => ?_, v2.queued n hn (by simp)⟩
    rcases v2.children n hn (by simp) c hc with hb | hs
    · show s3.bs c ≠ _
      rw [show s3.bs c = .built from hb]; simp
    · exact v2.touched c hs (by simp)
  have seen : ∀ n, n ∈ S1 ∨ n ∈ S2 → s3.bs n ≠ .untouched ∧
      (∀ c ∈ e.g.children n, s3.bs c ≠ .untouched) ∧
      ((∀ c ∈ e.g.children n, s3.bs c = .built) → n ∈ s3.leaves) :=
    fun n hn => hn.elim (seen1 n) (seen2 n)
  have reported : ∀ n ∈ e.created ++ e.invalidated, n ∈ S1 ∨ n ∈ S2 := fun n hn => by
    rcases List.mem_append.mp hn with hn | hn
    · exact .inl (w1 n hn)
    · exact .inr (w2 n hn)
  have unseen3 : ∀ n, ¬ (n ∈ S1 ∨ n ∈ S2) → s3.bs n = s1.bs n := fun n hn => by
    have e1 : s2.bs n = s1.bs n := by
      rcases v1.bs n with h | ⟨_, _, h⟩
      · exact h
      · exact absurd (.inl h) hn
    have e2 : s3.bs n = s2.bs n := by
      rcases v2.bs n with h | ⟨_, _, h⟩
      · exact h
      · exact absurd (.inr h) hn
    rw [e2, e1]
  have old : ∀ n ∈ e.g.nodes, ¬ (n ∈ S1 ∨ n ∈ S2) → n ∈ s.g.nodes := fun n hn hs =>
    Classical.byContradiction fun hne => hs (.inl (w1 n (he.created n hn hne)))
  refine
    { acyclic := c1 ▸ he.acyclic
      fwd := ?_, closed := ?_, building := ?_, roots := ?_, quiet := ?_, delayed := ?_ }
  · intro hcl n hn hx hbn
    rw [c2] at hcl
    rw [c1] at hn ⊢
    by_cases hs : n ∈ S1 ∨ n ∈ S2
    · by_cases hall : ∀ c ∈ e.g.children n, s3.bs c = .built
      · exact .inl ((seen n hs).2.2 hall)
      · right; right
        refine Classical.byContradiction fun hne => hall fun c hc => ?_
        exact Classical.byContradiction fun hcb => hne ⟨c, hc, hcb⟩
    · have hns := old n hn hs
      rw [unseen3 n hs, hb1 n hns] at hbn
      have hnr : n ≠ r := fun e => hx (by rw [e])
      rcases h.fwd hcl n hns hx hbn with hl | hd | hw
      · exact .inl (v2.leaves n (v1.leaves n (by simpa [hl1] using hl)))
      · right; left; rw [c3]; exact hd
      · right; right
        have nb : ∀ c, s.bs c ≠ .built → s3.bs c ≠ .built := fun c hc hb3 => by
          rw [built3] at hb3
          by_cases hcs : c ∈ s.g.nodes
          · rw [hb1 c hcs] at hb3; exact hc hb3
          · rw [hb1' c hcs] at hb3; simp at hb3
        by_cases hrc : r ∈ s.g.children n
        · exact ⟨r, he.dependents n hn hns hnr hrc, nb r (by rw [hb]; simp)⟩
        · obtain ⟨c, hc, hcb⟩ := he.waiters n hn hns hnr hrc hbn hw
          exact ⟨c, hc, nb c hcb⟩
  · intro hcl n hn hbn c hc
    rw [c2] at hcl
    rw [c1] at hn hc
    by_cases hs : n ∈ S1 ∨ n ∈ S2
    · exact (seen n hs).2.1 c hc
    · have hns := old n hn hs
      rw [unseen3 n hs, hb1 n hns] at hbn
      have keep : c ∈ s.g.nodes → s.bs c ≠ .untouched → s3.bs c ≠ .untouched := fun hcs hcb => by
        have : s1.bs c ≠ .untouched := by rw [hb1 c hcs]; exact hcb
        rw [touch3 c this]; exact this
      have oldChild : c ∈ s.g.children n → s3.bs c ≠ .untouched := fun hco =>
        keep (hi.wf.closed n hns c hco) (h.closed hcl n hns hbn c hco)
      by_cases hnr : n = r
      · subst hnr
        exact oldChild (he.rule c hc)
      · by_cases hco : c ∈ s.g.children n
        · exact oldChild hco
        · rcases he.gains n hn hns hnr c hc hco with hg | hg | ⟨hg1, hg2⟩
          · exact absurd (reported n hg) hs
          · exact (seen c (reported c hg)).1
          · exact keep hg1 hg2
  · intro hcl n hn hbn
    rw [c2] at hcl ⊢
    rw [c1] at hn ⊢
    rw [c4]
    have hb1n : s1.bs n = .building := by
      have hne : s1.bs n ≠ .untouched := fun hu => by
        rcases v1.bs n with e1 | ⟨_, e1, _⟩ <;> rcases v2.bs n with e2 | ⟨_, e2, _⟩
        · have : s3.bs n = s1.bs n := by rw [show s3.bs n = s2.bs n from e2]; exact e1
          rw [this, hu] at hbn; simp at hbn
        · rw [show s3.bs n = _ from e2] at hbn; simp at hbn
        · have : s3.bs n = .buildable := by rw [show s3.bs n = s2.bs n from e2]; exact e1
          rw [this] at hbn; simp at hbn
        · rw [show s3.bs n = _ from e2] at hbn; simp at hbn
      rw [← touch3 n hne]; exact hbn
    have hns : n ∈ s.g.nodes := Classical.byContradiction fun hne => by
      rw [hb1' n hne] at hb1n; simp at hb1n
    rw [hb1 n hns] at hb1n
    obtain ⟨k1, k2⟩ := h.building hcl n hns hb1n
    have hnr : n ≠ r := fun e => by rw [e, hb] at hb1n; simp at hb1n
    have hrc : r ∉ s.g.children n := fun hc => by
      have := hi.gen n hns (.inl hb1n) r hc
      rw [hb] at this; simp at this
    rw [(he.others n hn hns hnr hrc).1, (he.kinds n hn hns).1]
    exact ⟨k1, k2⟩
  · intro hcl n hnr hn
    rw [c2] at hcl
    rw [c1] at hn
    by_cases hs : n ∈ S1 ∨ n ∈ S2
    · exact (seen n hs).1
    · have hns := old n hn hs
      rw [unseen3 n hs, hb1 n hns]
      exact h.roots hcl n hnr hns
  · intro _ hp
    rw [c5, hph] at hp
    simp at hp
  · intro _ hp
    rw [c5, hph] at hp
    exact absurd rfl hp

end Verif.Exec
