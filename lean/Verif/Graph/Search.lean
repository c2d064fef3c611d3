import Verif.Graph.Spec

/-! # Path search and cycle detection: proofs for arbitrary graphs -/

namespace Verif.Graph

theorem mem_ins {x y : Nat} {l : List Nat} : y ∈ ins x l ↔ y = x ∨ y ∈ l := by
  induction l with
  | nil => simp [ins]
  | cons z zs ih =>
    unfold ins
    split
    · simp
    · split
      · rename_i h; subst h; simp
      · simp only [List.mem_cons, ih]
        constructor
        · rintro (h | h | h) <;> simp [h]
        · rintro (h | h | h) <;> simp [h]

theorem mem_del {x y : Nat} {l : List Nat} : y ∈ del x l ↔ y ∈ l ∧ y ≠ x := by
  simp [del]

theorem Reach.trans {ch : Nat → List Nat} {u v w : Nat} (h : Reach ch u v) (h' : Reach ch v w) :
    Reach ch u w := by
  induction h with
  | refl => exact h'
  | step hm _ ih => exact .step hm (ih h')

/-- A set closed under children contains everything reachable. -/
theorem closed_reach {ch : Nat → List Nat} {S : Nat → Prop} (hcl : ∀ x, S x → ∀ w ∈ ch x, S w)
    {u v : Nat} (h : Reach ch u v) (hu : S u) : S v := by
  induction h with
  | refl => exact hu
  | step hm _ ih => exact ih (hcl _ hu _ hm)

/-! ## existsPath -/

/-- What one call contributes. -/
structure EPost (ch : Nat → List Nat) (v : Nat) (us : Nat → Prop) (seen : List Nat) (b : Bool)
    (seen' : List Nat) : Prop where
  mono : ∀ x ∈ seen, x ∈ seen'
  found : b = true → ∃ u, us u ∧ Reach ch u v
  closed : b = false → (∀ u, us u → u ∈ seen') ∧
    (∀ x ∈ seen', x ∉ seen → x ≠ v ∧ ∀ w ∈ ch x, w ∈ seen')

theorem anyOf_post {ch : Nat → List Nat} {v : Nat}
    {g : Nat → List Nat → Option (Bool × List Nat)}
    (hg : ∀ u seen b seen', v ∉ seen → g u seen = some (b, seen') →
      EPost ch v (· = u) seen b seen')
    (cs : List Nat) (seen : List Nat) (b : Bool) (seen' : List Nat) (hv : v ∉ seen)
    (h : anyOf g cs seen = some (b, seen')) : EPost ch v (· ∈ cs) seen b seen' := by
  induction cs generalizing seen with
  | nil =>
    simp only [anyOf, Option.some.injEq, Prod.mk.injEq] at h
    obtain ⟨rfl, rfl⟩ := h
    exact ⟨fun _ hx => hx, by simp, fun _ => ⟨by simp, fun x hx hx' => absurd hx hx'⟩⟩
  | cons c cs ih =>
    simp only [anyOf] at h
    split at h
    · cases h
    · rename_i s1 hs1
      simp only [Option.some.injEq, Prod.mk.injEq] at h
      obtain ⟨rfl, rfl⟩ := h
      have hp := hg c seen true s1 hv hs1
      refine ⟨hp.mono, fun _ => ?_, by simp⟩
      obtain ⟨u, rfl, hr⟩ := hp.found rfl
      exact ⟨u, by simp, hr⟩
    · rename_i s1 hs1
      have hp := hg c seen false s1 hv hs1
      obtain ⟨hc1, hc2⟩ := hp.closed rfl
      have hv1 : v ∉ s1 := fun hm => (hc2 v hm hv).1 rfl
      have hq := ih s1 hv1 h
      refine ⟨fun x hx => hq.mono x (hp.mono x hx), fun hb => ?_, fun hb => ?_⟩
      · obtain ⟨u, hu, hr⟩ := hq.found hb
        exact ⟨u, by simp [hu], hr⟩
      · obtain ⟨hd1, hd2⟩ := hq.closed hb
        refine ⟨?_, ?_⟩
        · intro u hu
          rcases List.mem_cons.1 hu with rfl | hu
          · exact hq.mono _ (hc1 _ rfl)
          · exact hd1 u hu
        · intro x hx hxs
          by_cases hx1 : x ∈ s1
          · obtain ⟨h1, h2⟩ := hc2 x hx1 hxs
            exact ⟨h1, fun w hw => hq.mono w (h2 w hw)⟩
          · exact hd2 x hx hx1

theorem existsPathImpl_post {ch : Nat → List Nat} {v : Nat} (f : Nat) :
    ∀ u seen b seen', v ∉ seen → existsPathImpl ch v f u seen = some (b, seen') →
      EPost ch v (· = u) seen b seen' := by
  induction f with
  | zero => intro u seen b seen' _ h; simp [existsPathImpl] at h
  | succ f ih =>
    intro u seen b seen' hv h
    simp only [existsPathImpl] at h
    split at h
    · rename_i huv
      simp only [Option.some.injEq, Prod.mk.injEq] at h
      obtain ⟨rfl, rfl⟩ := h
      exact ⟨fun _ hx => hx, fun _ => ⟨u, rfl, huv ▸ .refl u⟩, by simp⟩
    · rename_i huv
      split at h
      · rename_i hus
        simp only [Option.some.injEq, Prod.mk.injEq] at h
        obtain ⟨rfl, rfl⟩ := h
        exact ⟨fun _ hx => hx, by simp,
          fun _ => ⟨fun _ h => h ▸ hus, fun x hx hx' => absurd hx hx'⟩⟩
      · rename_i hus
        have hv' : v ∉ ins u seen := by
          rw [mem_ins]; rintro (rfl | h)
          · exact huv rfl
          · exact hv h
        have hp := anyOf_post ih (ch u) (ins u seen) b seen' hv' h
        have hmono : ∀ x ∈ seen, x ∈ seen' := fun x hx => hp.mono x (mem_ins.2 (.inr hx))
        refine ⟨hmono, fun hb => ?_, fun hb => ?_⟩
        · obtain ⟨w, hw, hr⟩ := hp.found hb
          exact ⟨u, rfl, .step hw hr⟩
        · obtain ⟨hc1, hc2⟩ := hp.closed hb
          have hu : u ∈ seen' := hp.mono u (mem_ins.2 (.inl rfl))
          refine ⟨fun _ h => h ▸ hu, fun x hx hxs => ?_⟩
          by_cases hxu : x = u
          · subst hxu
            exact ⟨huv, hc1⟩
          · exact hc2 x hx (fun hm => (mem_ins.1 hm).elim hxu hxs)

/-- The answer of `existsPath` is right. -/
theorem existsPath_correct {ch : Nat → List Nat} {f u v : Nat} {b : Bool}
    (h : existsPath ch f u v = some b) : b = true ↔ Reach ch u v := by
  simp only [existsPath, Option.map_eq_some_iff] at h
  obtain ⟨⟨b', seen'⟩, h, rfl⟩ := h
  have hp := existsPathImpl_post f u [] b' seen' (by simp) h
  constructor
  · intro hb
    obtain ⟨_, rfl, hr⟩ := hp.found hb
    exact hr
  · intro hr
    cases b' with
    | true => rfl
    | false =>
      obtain ⟨h1, h2⟩ := hp.closed rfl
      have : v ∈ seen' := closed_reach (S := (· ∈ seen'))
        (fun x hx w hw => (h2 x hx (by simp)).2 w hw) hr (h1 u rfl)
      exact absurd rfl (h2 v this (by simp)).1

/-- How many of the nodes `0 .. N-1` are not in the list. -/
def unseen (N : Nat) (seen : List Nat) : Nat :=
  ((List.range N).filter (fun x => decide (x ∉ seen))).length

theorem filter_length_le {l : List Nat} {p q : Nat → Bool} (h : ∀ x ∈ l, p x → q x) :
    (l.filter p).length ≤ (l.filter q).length := by
  induction l with
  | nil => simp
  | cons a l ih =>
    have ih := ih (fun x hx => h x (by simp [hx]))
    have ha := h a (by simp)
    simp only [List.filter_cons]
    cases hp : p a <;> cases hq : q a <;> simp_all <;> omega

theorem filter_length_lt {l : List Nat} {p q : Nat → Bool} (h : ∀ x ∈ l, p x → q x)
    {a : Nat} (ha : a ∈ l) (hp : p a = false) (hq : q a = true) :
    (l.filter p).length < (l.filter q).length := by
  induction l with
  | nil => simp at ha
  | cons b l ih =>
    have hle := filter_length_le (fun x hx => h x (List.mem_cons_of_mem b hx))
    have hb := h b (by simp)
    simp only [List.filter_cons]
    rcases List.mem_cons.1 ha with rfl | ha
    · simp [hp, hq]; omega
    · have ih := ih (fun x hx => h x (by simp [hx])) ha
      cases hp' : p b <;> cases hq' : q b <;> simp_all <;> omega

theorem unseen_mono {N : Nat} {s s' : List Nat} (h : ∀ x ∈ s, x ∈ s') :
    unseen N s' ≤ unseen N s := by
  apply filter_length_le
  intro x _ hx
  simp only [decide_eq_true_eq] at hx ⊢
  exact fun hm => hx (h x hm)

theorem unseen_ins {N u : Nat} {s : List Nat} (hu : u < N) (hs : u ∉ s) :
    unseen N (ins u s) < unseen N s := by
  apply filter_length_lt (a := u)
  · intro x _ hx
    simp only [decide_eq_true_eq, mem_ins, not_or] at hx ⊢
    exact hx.2
  · exact List.mem_range.2 hu
  · simp [mem_ins]
  · simpa using hs

theorem unseen_le (N : Nat) (s : List Nat) : unseen N s ≤ N := by
  have := List.length_filter_le (fun x => decide (x ∉ s)) (List.range N)
  simpa [unseen] using this

theorem anyOf_some {g : Nat → List Nat → Option (Bool × List Nat)} {N k : Nat}
    (hg : ∀ u seen, u < N → unseen N seen < k → ∃ b seen', g u seen = some (b, seen') ∧
      ∀ x ∈ seen, x ∈ seen')
    (cs : List Nat) (hcs : ∀ c ∈ cs, c < N) (seen : List Nat) (hk : unseen N seen < k) :
    ∃ b seen', anyOf g cs seen = some (b, seen') ∧ ∀ x ∈ seen, x ∈ seen' := by
  induction cs generalizing seen with
  | nil => exact ⟨false, seen, rfl, fun _ h => h⟩
  | cons c cs ih =>
    obtain ⟨b, s1, h1, hm⟩ := hg c seen (hcs c (by simp)) hk
    cases b with
    | true => exact ⟨true, s1, by simp [anyOf, h1], hm⟩
    | false =>
      obtain ⟨b', s2, h2, hm2⟩ := ih (fun x hx => hcs x (by simp [hx])) s1
        (Nat.lt_of_le_of_lt (unseen_mono hm) hk)
      exact ⟨b', s2, by simp [anyOf, h1, h2], fun x hx => hm2 x (hm x hx)⟩

theorem existsPathImpl_some {ch : Nat → List Nat} {N v : Nat} (hN : FiniteBy ch N) (f : Nat) :
    ∀ u seen, u < N → unseen N seen < f →
      ∃ b seen', existsPathImpl ch v f u seen = some (b, seen') ∧ ∀ x ∈ seen, x ∈ seen' := by
  induction f with
  | zero => intro u seen _ h; omega
  | succ f ih =>
    intro u seen hu hk
    by_cases huv : u = v
    · exact ⟨true, seen, by simp [existsPathImpl, huv], fun _ h => h⟩
    · by_cases hus : u ∈ seen
      · exact ⟨false, seen, by simp [existsPathImpl, huv, hus], fun _ h => h⟩
      · have hlt := unseen_ins hu hus
        obtain ⟨b, s', h, hm⟩ := anyOf_some ih (ch u) (hN u).1 (ins u seen) (by omega)
        exact ⟨b, s', by simp [existsPathImpl, huv, hus, h],
          fun x hx => hm x (mem_ins.2 (.inr hx))⟩

/-- `existsPath` terminates on finite graphs, even cyclic ones. -/
theorem existsPath_some {ch : Nat → List Nat} {N u v f : Nat} (hN : FiniteBy ch N)
    (hf : N < f) : ∃ b, existsPath ch f u v = some b := by
  by_cases hu : u < N
  · have := unseen_le N []
    obtain ⟨b, s, h, _⟩ := existsPathImpl_some (v := v) hN f u [] hu (by omega)
    exact ⟨b, by simp [existsPath, h]⟩
  · have hc : ch u = [] := by
      by_cases h : ch u = []
      · exact h
      · exact absurd ((hN u).2 h) hu
    cases f with
    | zero => omega
    | succ f =>
      by_cases huv : u = v
      · exact ⟨true, by simp [existsPath, existsPathImpl, huv]⟩
      · exact ⟨false, by simp [existsPath, existsPathImpl, huv, hc, anyOf]⟩

/-! ## findPath -/

theorem firstPath_mono {g g' : Nat → Option (Option (List Nat))}
    (hg : ∀ c r, g c = some r → g' c = some r) :
    ∀ (cs : List Nat) (r : Option (List Nat)), firstPath g cs = some r → firstPath g' cs = some r
  | [], _, h => by simpa [firstPath] using h
  | c :: cs, r, h => by
    simp only [firstPath] at h
    split at h
    · cases h
    · rename_i p hp
      simp [firstPath, hg c _ hp, ← h]
    · rename_i hp
      simp [firstPath, hg c _ hp, firstPath_mono hg cs r h]

theorem findPath_mono {ch : Nat → List Nat} {v f : Nat} :
    ∀ {u : Nat} {r : Option (List Nat)}, findPath ch v f u = some r →
      findPath ch v (f + 1) u = some r := by
  induction f with
  | zero => intro u r h; simp [findPath] at h
  | succ f ih =>
    intro u r h
    rw [findPath] at h ⊢
    split
    · rename_i huv; simpa [huv] using h
    · rename_i huv
      rw [if_neg huv] at h
      split at h
      · cases h
      · rename_i hp
        rw [firstPath_mono (g' := findPath ch v (f + 1)) (fun c r hc => ih hc) _ _ hp]
        exact h
      · rename_i p hp
        rw [firstPath_mono (g' := findPath ch v (f + 1)) (fun c r hc => ih hc) _ _ hp]
        exact h

theorem findPath_mono_le {ch : Nat → List Nat} {v f f' u : Nat} {r : Option (List Nat)}
    (hle : f ≤ f') (h : findPath ch v f u = some r) : findPath ch v f' u = some r := by
  induction hle with
  | refl => exact h
  | step _ ih => exact findPath_mono ih

/-- `findPath` returns, and returns the given result. -/
def Ret (ch : Nat → List Nat) (u v : Nat) (r : Option (List Nat)) : Prop :=
  ∃ f, findPath ch v f u = some r

theorem firstPath_spec {g : Nat → Option (Option (List Nat))} :
    ∀ (cs : List Nat) (r : Option (List Nat)), firstPath g cs = some r →
      (∀ p, r = some p → ∃ c ∈ cs, g c = some (some p)) ∧
      (r = none → ∀ c ∈ cs, g c = some none)
  | [], r, h => by simp [firstPath] at h; subst h; simp
  | c :: cs, r, h => by
    simp only [firstPath] at h
    split at h
    · cases h
    · rename_i p hp
      simp only [Option.some.injEq] at h
      subst h
      refine ⟨fun q hq => ⟨c, by simp, ?_⟩, by simp⟩
      rw [hp, hq]
    · rename_i hp
      obtain ⟨h1, h2⟩ := firstPath_spec cs r h
      refine ⟨fun q hq => ?_, fun hr x hx => ?_⟩
      · obtain ⟨d, hd, hg⟩ := h1 q hq
        exact ⟨d, by simp [hd], hg⟩
      · rcases List.mem_cons.1 hx with rfl | hx
        · exact hp
        · exact h2 hr x hx

/-- What `findPath` returns: a walk from `u` to `v`. -/
theorem findPath_walk {ch : Nat → List Nat} {v : Nat} (f : Nat) :
    ∀ {u : Nat} {p : List Nat}, findPath ch v f u = some (some p) →
      ∃ q, p = u :: q ∧ IsWalk ch p ∧ p.getLast? = some v := by
  induction f with
  | zero => intro u p h; simp [findPath] at h
  | succ f ih =>
    intro u p h
    rw [findPath] at h
    split at h
    · rename_i huv
      simp only [Option.some.injEq] at h
      subst h; subst huv
      exact ⟨[], rfl, trivial, rfl⟩
    · split at h
      · cases h
      · cases h
      · rename_i p' hp
        simp only [Option.some.injEq] at h
        subst h
        obtain ⟨c, hc, hg⟩ := (firstPath_spec _ _ hp).1 p' rfl
        obtain ⟨q, rfl, hw, hl⟩ := ih hg
        exact ⟨c :: q, rfl, ⟨hc, hw⟩, by simpa [List.getLast?_cons_cons] using hl⟩

/-- If `findPath` returns false, there is no path. -/
theorem findPath_none {ch : Nat → List Nat} {v : Nat} (f : Nat) :
    ∀ {u : Nat}, findPath ch v f u = some none → ¬ Reach ch u v := by
  induction f with
  | zero => intro u h; simp [findPath] at h
  | succ f ih =>
    intro u h hr
    rw [findPath] at h
    split at h
    · cases h
    · rename_i huv
      split at h
      · cases h
      · rename_i hp
        cases hr with
        | refl => exact huv rfl
        | step hm hr => exact ih ((firstPath_spec _ _ hp).2 rfl _ hm) hr
      · cases h

/-- Children are "smaller". -/
def Child (ch : Nat → List Nat) (w u : Nat) : Prop := w ∈ ch u

/-- Combining the results for a list of children that all return. -/
theorem firstPath_total {ch : Nat → List Nat} {v : Nat} :
    ∀ (cs : List Nat), (∀ c ∈ cs, ∃ r, Ret ch c v r) →
      ∃ f r, firstPath (findPath ch v f) cs = some r
  | [], _ => ⟨0, none, rfl⟩
  | c :: cs, h => by
    obtain ⟨r, f1, h1⟩ := h c (by simp)
    obtain ⟨f2, r2, h2⟩ := firstPath_total cs (fun x hx => h x (by simp [hx]))
    refine ⟨max f1 f2, ?_⟩
    have h1' := findPath_mono_le (Nat.le_max_left f1 f2) h1
    have h2' := firstPath_mono (g' := findPath ch v (max f1 f2))
      (fun c r hc => findPath_mono_le (Nat.le_max_right f1 f2) hc) _ _ h2
    cases r with
    | some p => exact ⟨some p, by simp [firstPath, h1']⟩
    | none => exact ⟨r2, by simp [firstPath, h1', h2']⟩

theorem ret_of_children {ch : Nat → List Nat} {u v : Nat}
    (h : u ≠ v → ∃ f r, firstPath (findPath ch v f) (ch u) = some r) : ∃ r, Ret ch u v r := by
  by_cases huv : u = v
  · exact ⟨some [v], 1, by simp [findPath, huv]⟩
  · obtain ⟨f, r, h⟩ := h huv
    cases r with
    | none => exact ⟨none, f + 1, by simp [findPath, huv, h]⟩
    | some p => exact ⟨some (u :: p), f + 1, by simp [findPath, huv, h]⟩

/-- `findPath` returns when started at a node from which no cycle is reachable. -/
theorem ret_of_acc {ch : Nat → List Nat} {u v : Nat} (h : Acc (Child ch) u) :
    ∃ r, Ret ch u v r := by
  induction h with
  | intro u _ ih => exact ret_of_children fun _ => firstPath_total _ fun c hc => ih c hc

/-- `findPath` returns true. -/
def Found (ch : Nat → List Nat) (u v : Nat) : Prop := ∃ p, Ret ch u v (some p)

theorem found_of_acc {ch : Nat → List Nat} {u v : Nat} (h : Acc (Child ch) u)
    (hr : Reach ch u v) : Found ch u v := by
  obtain ⟨r, f, hf⟩ := ret_of_acc (v := v) h
  cases r with
  | some p => exact ⟨p, f, hf⟩
  | none => exact absurd hr (findPath_none f hf)

theorem firstPath_append {ch : Nat → List Nat} {v f : Nat} {pre post : List Nat} {c : Nat}
    {r : Option (List Nat)} {p : List Nat}
    (h1 : firstPath (findPath ch v f) pre = some r) (h2 : findPath ch v f c = some (some p)) :
    ∃ p', firstPath (findPath ch v f) (pre ++ c :: post) = some (some p') := by
  induction pre with
  | nil => exact ⟨p, by simp [firstPath, h2]⟩
  | cons d pre ih =>
    simp only [firstPath] at h1
    split at h1
    · cases h1
    · rename_i p' hp'
      exact ⟨p', by simp [firstPath, hp']⟩
    · rename_i hp'
      obtain ⟨p', h⟩ := ih h1
      exact ⟨p', by simp [firstPath, hp', h]⟩

/-- If the children before `c` return and `findPath` succeeds from `c`, it succeeds from the
parent. -/
theorem found_parent {ch : Nat → List Nat} {u v c : Nat} {pre post : List Nat}
    (hch : ch u = pre ++ c :: post) (hpre : ∀ d ∈ pre, Acc (Child ch) d) (h : Found ch c v) :
    Found ch u v := by
  by_cases huv : u = v
  · exact ⟨[v], 1, by simp [findPath, huv]⟩
  · obtain ⟨f1, r1, h1⟩ := firstPath_total (v := v) pre (fun d hd => ret_of_acc (hpre d hd))
    obtain ⟨p, f2, h2⟩ := h
    have h1' := firstPath_mono (g' := findPath ch v (max f1 f2))
      (fun c r hc => findPath_mono_le (Nat.le_max_left f1 f2) hc) _ _ h1
    have h2' := findPath_mono_le (Nat.le_max_right f1 f2) h2
    obtain ⟨p', h'⟩ := firstPath_append (post := post) h1' h2'
    exact ⟨u :: p', max f1 f2 + 1, by simp [findPath, huv, hch, h']⟩

/-! ## CycleDetector -/

/-- State of the detector between visits. -/
structure CDInv (ch : Nat → List Nat) (d : CD) : Prop where
  /-- finished nodes have finished children -/
  allClosed : ∀ x ∈ d.all, ∀ w ∈ ch x, w ∈ d.all
  /-- no cycle is reachable from finished nodes -/
  allAcc : ∀ x ∈ d.all, Acc (Child ch) x
  /-- finished nodes are not on the current path -/
  disj : ∀ x ∈ d.all, x ∉ d.cur

/-- Conditions on the path when a node `u` is about to be visited. -/
structure CDCtx (ch : Nat → List Nat) (d : CD) (u : Nat) : Prop where
  reach : ∀ x ∈ d.cur, Reach ch x u
  strict : ∀ x ∈ d.cur, x = u → OnCycle ch x
  foundPar : ∀ x ∈ d.cur, Found ch x d.par
  ext : ∀ x ∈ d.cur, ∀ v, Found ch u v → Found ch x v

/-- Result of visiting a node or a list of nodes. -/
def CDPost (ch : Nat → List Nat) (d : CD) (us : Nat → Prop) : CDRes → Prop
  | .fuel => True
  | .thrown n par => OnCycle ch n ∧ Found ch n par ∧ ∃ u, us u ∧ Reach ch u n
  | .done d' => CDInv ch d' ∧ (∀ x, x ∈ d'.cur ↔ x ∈ d.cur) ∧ (∀ x ∈ d.all, x ∈ d'.all) ∧
      (∀ u, us u → u ∈ d'.all) ∧ (d'.par = d.par ∨ ∃ u, us u ∧ Reach ch u d'.par)

theorem visitAll_post {ch : Nat → List Nat} {g : Nat → CD → CDRes}
    (hg : ∀ u d, CDInv ch d → CDCtx ch d u → CDPost ch d (· = u) (g u d))
    (cs : List Nat) (d : CD) (hinv : CDInv ch d)
    (hctx : ∀ d', CDInv ch d' → (∀ x, x ∈ d'.cur ↔ x ∈ d.cur) → (∀ x ∈ d.all, x ∈ d'.all) →
      ∀ pre c post, cs = pre ++ c :: post → (∀ x ∈ pre, x ∈ d'.all) →
      (d'.par = d.par ∨ ∃ x ∈ pre, Reach ch x d'.par) → CDCtx ch d' c) :
    CDPost ch d (· ∈ cs) (visitAll g cs d) := by
  -- generalize over an already visited prefix
  suffices H : ∀ (rest pre : List Nat) (d' : CD), cs = pre ++ rest → CDInv ch d' →
      (∀ x, x ∈ d'.cur ↔ x ∈ d.cur) → (∀ x ∈ d.all, x ∈ d'.all) → (∀ x ∈ pre, x ∈ d'.all) →
      (d'.par = d.par ∨ ∃ x ∈ pre, Reach ch x d'.par) →
      CDPost ch d (· ∈ cs) (visitAll g rest d') by
    exact H cs [] d rfl hinv (fun _ => Iff.rfl) (fun _ h => h) (by simp) (.inl rfl)
  intro rest
  induction rest with
  | nil =>
    intro pre d' hcs hinv' hcur hall hpre hpar
    simp only [List.append_nil] at hcs
    subst hcs
    exact ⟨hinv', hcur, hall, hpre, hpar⟩
  | cons c post ih =>
    intro pre d' hcs hinv' hcur hall hpre hpar
    have hp := hg c d' hinv' (hctx d' hinv' hcur hall pre c post hcs hpre hpar)
    simp only [visitAll]
    cases hr : g c d' with
    | fuel => trivial
    | thrown n par =>
      rw [hr] at hp
      obtain ⟨h1, h2, u, rfl, h3⟩ := hp
      exact ⟨h1, h2, u, by simp [hcs], h3⟩
    | done d2 =>
      rw [hr] at hp
      obtain ⟨h1, h2, h3, h4, h5⟩ := hp
      refine ih (pre ++ [c]) d2 (by simp [hcs]) h1 (fun x => (h2 x).trans (hcur x))
        (fun x hx => h3 x (hall x hx)) ?_ ?_
      · intro x hx
        rcases List.mem_append.1 hx with hx | hx
        · exact h3 x (hpre x hx)
        · rw [List.mem_singleton.1 hx]; exact h4 c rfl
      · rcases h5 with h5 | ⟨u, rfl, h5⟩
        · rw [h5]
          rcases hpar with h | ⟨x, hx, h⟩
          · exact .inl h
          · exact .inr ⟨x, by simp [hx], h⟩
        · exact .inr ⟨u, by simp, h5⟩

theorem visitNode_post {ch : Nat → List Nat} (f : Nat) :
    ∀ u d, CDInv ch d → CDCtx ch d u → CDPost ch d (· = u) (visitNode ch f u d) := by
  induction f with
  | zero => intro u d _ _; trivial
  | succ f ih =>
    intro u d hinv hctx
    rw [visitNode]
    split
    · rename_i hcur
      exact ⟨hctx.strict u hcur rfl, hctx.foundPar u hcur, u, rfl, .refl u⟩
    · rename_i hcur
      split
      · rename_i hall
        exact ⟨hinv, fun _ => Iff.rfl, fun _ h => h, fun _ h => h ▸ hall, .inl rfl⟩
      · rename_i hall
        have hinv1 : CDInv ch { d with cur := ins u d.cur, par := u } := by
          refine ⟨hinv.allClosed, hinv.allAcc, fun x hx => ?_⟩
          simp only [mem_ins]
          rintro (rfl | h)
          · exact hall hx
          · exact hinv.disj x hx h
        have hp := visitAll_post ih (ch u) _ hinv1 (by
          intro d' hinv' hcur' hall' pre c post hcs hpre hpar
          have hcur'' : ∀ x, x ∈ d'.cur ↔ x = u ∨ x ∈ d.cur := fun x => by
            rw [hcur' x, mem_ins]
          have hc : c ∈ ch u := by simp [hcs]
          have hext : ∀ x ∈ d'.cur, ∀ v, Found ch c v → Found ch x v := by
            intro x hx v hv
            have hu : Found ch u v :=
              found_parent hcs (fun y hy => hinv'.allAcc y (hpre y hy)) hv
            rcases (hcur'' x).1 hx with rfl | hx
            · exact hu
            · exact hctx.ext x hx v hu
          refine ⟨?_, ?_, ?_, hext⟩
          · intro x hx
            rcases (hcur'' x).1 hx with rfl | hx
            · exact .step hc (.refl c)
            · exact (hctx.reach x hx).trans (.step hc (.refl c))
          · intro x hx hxc
            subst hxc
            refine ?_
            rcases (hcur'' x).1 hx with rfl | hx
            · exact ⟨x, hc, .refl x⟩
            · have := hctx.reach x hx
              cases this with
              | refl => exact ⟨_, hc, .refl _⟩
              | step hm hr => exact ⟨_, hm, hr.trans (.step hc (.refl x))⟩
          · -- the recorded parent is found from every node on the path
            intro x hx
            have hu : Found ch u d'.par := by
              rcases hpar with h | ⟨y, hy, hr⟩
              · simp only at h
                rw [h]
                exact ⟨[u], 1, by simp [findPath]⟩
              · obtain ⟨pre1, pre2, rfl⟩ := List.append_of_mem hy
                refine found_parent (pre := pre1) (c := y) (post := pre2 ++ c :: post)
                  (by simp [hcs]) (fun z hz => hinv'.allAcc z (hpre z (by simp [hz]))) ?_
                exact found_of_acc (hinv'.allAcc y (hpre y hy)) hr
            rcases (hcur'' x).1 hx with rfl | hx
            · exact hu
            · exact hctx.ext x hx _ hu)
        cases hr : visitAll (visitNode ch f) (ch u) { d with cur := ins u d.cur, par := u } with
        | fuel => trivial
        | thrown n par =>
          rw [hr] at hp
          obtain ⟨h1, h2, w, hw, h3⟩ := hp
          exact ⟨h1, h2, u, rfl, .step hw h3⟩
        | done d' =>
          rw [hr] at hp
          obtain ⟨h1, h2, h3, h4, h5⟩ := hp
          have hu' : u ∉ d'.all := by
            intro hm
            exact h1.disj u hm ((h2 u).2 (mem_ins.2 (.inl rfl)))
          refine ⟨⟨?_, ?_, ?_⟩, ?_, ?_, ?_, ?_⟩
          · intro x hx w hw
            simp only [mem_ins] at hx ⊢
            rcases hx with rfl | hx
            · exact .inr (h4 w hw)
            · exact .inr (h1.allClosed x hx w hw)
          · intro x hx
            simp only [mem_ins] at hx
            rcases hx with rfl | hx
            · exact .intro _ fun w hw => h1.allAcc w (h4 w hw)
            · exact h1.allAcc x hx
          · intro x hx
            simp only [mem_ins, mem_del] at hx ⊢
            rcases hx with rfl | hx
            · exact fun h => h.2 rfl
            · exact fun h => h1.disj x hx h.1
          · intro x
            simp only [mem_del, h2 x, mem_ins]
            constructor
            · rintro ⟨h | h, hne⟩
              · exact absurd h hne
              · exact h
            · intro h
              exact ⟨.inr h, fun he => hcur (he ▸ h)⟩
          · intro x hx
            simp only [mem_ins]
            exact .inr (h3 x hx)
          · rintro x rfl
            simp [mem_ins]
          · rcases h5 with h5 | ⟨w, hw, h5⟩
            · exact .inr ⟨u, rfl, by rw [h5]; exact .refl u⟩
            · exact .inr ⟨u, rfl, .step hw h5⟩

theorem detect_post (ch : Nat → List Nat) (f : Nat) (roots : List Nat) :
    CDPost ch { all := [], cur := [], par := 0 } (· ∈ roots) (detect ch f roots) := by
  apply visitAll_post (visitNode_post f)
  · exact ⟨by simp, by simp, by simp⟩
  · intro d' _ hcur _ pre c post _ _ _
    have : ∀ x, x ∉ d'.cur := fun x hx => by simpa using (hcur x).1 hx
    exact ⟨fun x hx => absurd hx (this x), fun x hx => absurd hx (this x),
      fun x hx => absurd hx (this x), fun x hx => absurd hx (this x)⟩

/-! Termination of the detector. -/

theorem visitAll_ne_fuel {g : Nat → CD → CDRes} {N k : Nat}
    (hg : ∀ u d, u < N → unseen N d.cur < k →
      g u d ≠ .fuel ∧ ∀ d', g u d = .done d' → ∀ x, x ∈ d'.cur ↔ x ∈ d.cur)
    (cs : List Nat) (hcs : ∀ c ∈ cs, c < N) (d : CD) (hk : unseen N d.cur < k) :
    visitAll g cs d ≠ .fuel ∧ ∀ d', visitAll g cs d = .done d' → ∀ x, x ∈ d'.cur ↔ x ∈ d.cur := by
  induction cs generalizing d with
  | nil =>
    refine ⟨by simp [visitAll], fun d' h => ?_⟩
    simp only [visitAll, CDRes.done.injEq] at h
    subst h
    exact fun _ => Iff.rfl
  | cons c cs ih =>
    obtain ⟨h1, h2⟩ := hg c d (hcs c (by simp)) hk
    simp only [visitAll]
    cases hr : g c d with
    | fuel => exact absurd hr h1
    | thrown n p => simp
    | done d1 =>
      have hc := h2 d1 hr
      obtain ⟨h3, h4⟩ := ih (fun x hx => hcs x (by simp [hx])) d1
        (Nat.lt_of_le_of_lt (unseen_mono fun x hx => (hc x).2 hx) hk)
      exact ⟨h3, fun d' hd x => (h4 d' hd x).trans (hc x)⟩

theorem visitNode_ne_fuel {ch : Nat → List Nat} {N : Nat} (hN : FiniteBy ch N) (f : Nat) :
    ∀ u d, u < N → unseen N d.cur < f →
      visitNode ch f u d ≠ .fuel ∧
        ∀ d', visitNode ch f u d = .done d' → ∀ x, x ∈ d'.cur ↔ x ∈ d.cur := by
  induction f with
  | zero => intro u d _ h; omega
  | succ f ih =>
    intro u d hu hk
    rw [visitNode]
    split
    · simp
    · rename_i hcur
      split
      · refine ⟨by simp, fun d' h => ?_⟩
        simp only [CDRes.done.injEq] at h
        subst h
        exact fun _ => Iff.rfl
      · have hlt := unseen_ins hu hcur
        obtain ⟨h1, h2⟩ := visitAll_ne_fuel ih (ch u) (hN u).1
          { d with cur := ins u d.cur, par := u } (by simp only; omega)
        cases hr : visitAll (visitNode ch f) (ch u) { d with cur := ins u d.cur, par := u } with
        | fuel => exact absurd hr h1
        | thrown n p => simp
        | done d1 =>
          have hc := h2 d1 hr
          refine ⟨by simp, fun d' h x => ?_⟩
          simp only [CDRes.done.injEq] at h
          subst h
          simp only [mem_del, hc x, mem_ins]
          constructor
          · rintro ⟨h | h, hne⟩
            · exact absurd h hne
            · exact h
          · intro h
            exact ⟨.inr h, fun he => hcur (he ▸ h)⟩

theorem detect_ne_fuel {ch : Nat → List Nat} {N f : Nat} (hN : FiniteBy ch N) (hf : N < f)
    (roots : List Nat) (hr : ∀ r ∈ roots, r < N) : detect ch f roots ≠ .fuel := by
  have := unseen_le N []
  exact (visitAll_ne_fuel (visitNode_ne_fuel hN f) roots hr _ (by simp only; omega)).1

/-- A node on a cycle is not accessible. -/
theorem not_acc_of_onCycle {ch : Nat → List Nat} {u : Nat} (h : Acc (Child ch) u) :
    ∀ v, Reach ch u v → ¬ OnCycle ch v := by
  induction h with
  | intro u _ ih =>
    have hself : ¬ OnCycle ch u := by
      rintro ⟨w, hw, hr⟩
      exact ih w hw u hr ⟨w, hw, hr⟩
    intro v hr
    cases hr with
    | refl => exact hself
    | step hm hr => exact ih _ hm v hr

end Verif.Graph
