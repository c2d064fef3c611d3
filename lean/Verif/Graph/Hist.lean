import Verif.Graph.Remove
import Verif.Graph.Steps

/-! # Invariants of the build graph over all histories -/

namespace Verif.Graph

/-- Invariant about links. -/
structure LInv (s : State) : Prop where
  sym : Symmetric s
  dang : NoDangling s
  bnd : ∀ n, s.live n → n < s.bound ∧ n ≠ 0

theorem LInv.fin {s : State} (h : LInv s) : FiniteBy s.ch s.bound := by
  intro u
  refine ⟨fun w hw => (h.bnd w (h.dang u w hw).2).1, fun hne => ?_⟩
  obtain ⟨c, cs, hc⟩ := List.exists_cons_of_ne_nil hne
  exact (h.bnd u (h.dang u c (by simp [hc])).1).1

/-- Links can only get fewer, everything else about nodes stays. -/
theorem LInv.of_shrink {s s' : State} (h : LInv s) (hsym : Symmetric s')
    (hch : ∀ p c, c ∈ s'.ch p → c ∈ s.ch p) (hlive : s'.live = s.live) (hb : s'.bound = s.bound) :
    LInv s' := by
  refine ⟨hsym, fun p c hc => ?_, ?_⟩
  · rw [hlive]; exact h.dang p c (hch p c hc)
  · rw [hlive, hb]; exact h.bnd

/-- Links and existence unaffected. -/
theorem LInv.of_same {s s' : State} (h : LInv s) (hch : s'.ch = s.ch) (hpa : s'.pa = s.pa)
    (hlive : s'.live = s.live) (hb : s'.bound = s.bound) : LInv s' :=
  h.of_shrink (fun p c => by rw [hch, hpa]; exact h.sym p c) (fun p c hc => by rwa [hch] at hc)
    hlive hb

theorem LInv.create {s : State} (h : LInv s) {n : Nat} {art dep gen : Bool} {path : Nat}
    {tags : List Nat} (hn : s.live n = false) (h0 : n ≠ 0) :
    LInv (create s n art dep gen path tags) := by
  have hno : ∀ p, n ∉ s.ch p := fun p hm => by
    have := (h.dang p n hm).2; simp [hn] at this
  have hno' : ∀ c, c ∉ s.ch n := fun c hm => by
    have := (h.dang n c hm).1; simp [hn] at this
  refine ⟨fun p c => ?_, fun p c hc => ?_, fun x hx => ?_⟩
  · simp only [Graph.create, mem_upd_nil]
    have := h.sym p c
    constructor
    · rintro ⟨h1, h2⟩
      exact ⟨fun hc => hno p (hc ▸ h2), this.1 h2⟩
    · rintro ⟨h1, h2⟩
      exact ⟨fun hp => hno' c (hp ▸ this.2 h2), this.2 h2⟩
  · simp only [Graph.create, mem_upd_nil] at hc
    have := h.dang p c hc.2
    simp only [Graph.create, upd]
    constructor
    · split
      · rfl
      · exact this.1
    · split
      · rfl
      · exact this.2
  · simp only [Graph.create, upd] at hx ⊢
    split at hx
    · rename_i hxn; subst hxn; exact ⟨by omega, h0⟩
    · have := h.bnd x hx; exact ⟨by omega, this.2⟩

theorem link_ch {s : State} {p c q d : Nat} :
    d ∈ (link s p c).ch q ↔ d ∈ s.ch q ∨ (q = p ∧ d = c) := by
  simp only [link, mem_modi, mem_ins]
  by_cases h1 : q = p <;> by_cases h2 : d = c <;> simp [h1, h2]

theorem link_pa {s : State} {p c q d : Nat} :
    q ∈ (link s p c).pa d ↔ q ∈ s.pa d ∨ (q = p ∧ d = c) := by
  simp only [link, mem_modi, mem_ins]
  by_cases h1 : q = p <;> by_cases h2 : d = c <;> simp [h1, h2]

/-- The possible outcomes of `connect`. -/
theorem connect_cases (s : State) (p c : Nat) :
    (connect s p c).state = s ∨ (p ≠ c ∧ (connect s p c).state = link s p c) := by
  unfold connect
  split
  · exact .inl rfl
  · rename_i hpc
    split
    · split
      · exact .inl rfl
      · exact .inl rfl
      · exact .inr ⟨hpc, rfl⟩
    · exact .inr ⟨hpc, rfl⟩

theorem safeConnect_cases {s : State} {f u v : Nat} {r : Res Bool}
    (h : safeConnect s f u v = some r) :
    r.state = s ∨ (existsPath s.ch f v u = some false ∧ u ≠ v ∧ r.state = link s u v) := by
  unfold safeConnect at h
  split at h
  · simp only [Option.some.injEq] at h; subst h; exact .inl rfl
  · rename_i huv
    split at h
    · cases h
    · split at h
      · cases h
      · simp only [Option.some.injEq] at h; subst h; exact .inl rfl
    · rename_i hex
      have hc := connect_cases s u v
      split at h
      · rename_i s' _ hs'
        simp only [Option.some.injEq] at h; subst h
        rw [hs'] at hc
        rcases hc with hc | hc
        · exact .inl hc
        · exact .inr ⟨hex, hc⟩
      · rename_i s' hs'
        simp only [Option.some.injEq] at h; subst h
        rw [hs'] at hc
        rcases hc with hc | hc
        · exact .inl hc
        · exact .inr ⟨hex, hc⟩

theorem connect_child {s s' : State} {p c : Nat} {r : Unit} (h : connect s p c = .ok s' r) :
    c ∈ s'.ch p := by
  have hscan : ∀ ks, connectScan s c ks = some true → c ∈ ks := by
    intro ks
    induction ks with
    | nil => simp [connectScan]
    | cons k ks ih =>
      intro hk
      simp only [connectScan] at hk
      split at hk
      · exact List.mem_cons_of_mem _ (ih hk)
      · split at hk
        · rename_i hkc; simp [hkc]
        · split at hk
          · cases hk
          · exact List.mem_cons_of_mem _ (ih hk)
  unfold connect at h
  split at h
  · cases h
  · split at h
    · split at h
      · rename_i hc
        cases h
        exact hscan _ hc
      · cases h
      · cases h; exact link_ch.2 (.inr ⟨rfl, rfl⟩)
    · cases h; exact link_ch.2 (.inr ⟨rfl, rfl⟩)

theorem safeConnect_child {s s' : State} {f u v : Nat}
    (h : safeConnect s f u v = some (.ok s' true)) : v ∈ s'.ch u := by
  unfold safeConnect at h
  split at h
  · simp at h
  · split at h
    · cases h
    · split at h
      · cases h
      · simp at h
    · split at h
      · rename_i s2 _ hs2
        simp only [Option.some.injEq, Res.ok.injEq, and_true] at h
        subst h; exact connect_child hs2
      · simp at h

theorem LInv.link {s : State} (h : LInv s) {p c : Nat} (hp : s.live p) (hc : s.live c) :
    LInv (link s p c) := by
  refine ⟨fun q d => ?_, fun q d hd => ?_, h.bnd⟩
  · rw [link_ch, link_pa, h.sym q d]
  · rcases link_ch.1 hd with hd | ⟨rfl, rfl⟩
    · exact h.dang q d hd
    · exact ⟨hp, hc⟩

theorem LInv.disconnect {s : State} (h : LInv s) (u v : Nat) : LInv (disconnect s u v) :=
  h.of_shrink (fun p c => by rw [disconnect_ch, disconnect_pa, h.sym p c])
    (fun _ _ hc => (disconnect_ch.1 hc).1) rfl rfl

theorem LInv.destroy {s : State} (h : LInv s) (n : Nat) : LInv (destroy s n) := by
  have hch : ∀ p c, c ∈ (Graph.destroy s n).ch p ↔ c ∈ s.ch p ∧ p ≠ n ∧ c ≠ n := by
    intro p c
    simp only [Graph.destroy]
    by_cases hp : p = n
    · simp [hp]
    · rw [if_neg hp]
      by_cases hm : p ∈ s.pa n
      · rw [if_pos hm]; simp [mem_del, hp]
      · rw [if_neg hm]
        constructor
        · intro hc; exact ⟨hc, hp, fun hcn => hm ((h.sym p n).1 (hcn ▸ hc))⟩
        · exact fun hc => hc.1
  have hpa : ∀ p c, p ∈ (Graph.destroy s n).pa c ↔ p ∈ s.pa c ∧ p ≠ n ∧ c ≠ n := by
    intro p c
    simp only [Graph.destroy]
    by_cases hc : c = n
    · simp [hc]
    · rw [if_neg hc]
      by_cases hm : c ∈ s.ch n
      · rw [if_pos hm]; simp [mem_del, hc]
      · rw [if_neg hm]
        constructor
        · intro hp; exact ⟨hp, fun hpn => hm ((h.sym n c).2 (hpn ▸ hp)), hc⟩
        · exact fun hp => hp.1
  refine ⟨fun p c => by rw [hch, hpa, h.sym p c], fun p c hc => ?_, fun x hx => ?_⟩
  · obtain ⟨h1, h2, h3⟩ := (hch p c).1 hc
    have := h.dang p c h1
    simp only [Graph.destroy, upd, h2, h3, if_false]
    exact this
  · simp only [Graph.destroy, upd] at hx ⊢
    split at hx
    · cases hx
    · exact h.bnd x hx

theorem insertLookup_only (s : State) (x : Nat) :
    ∃ l, (insertLookup s x).state = { s with lookup := l } := by
  unfold insertLookup
  split
  · exact ⟨s.lookup, rfl⟩
  · split
    · exact ⟨s.lookup, rfl⟩
    · exact ⟨_, rfl⟩

theorem addArtifact_only (s : State) (p a : Nat) :
    ∃ n b j, (addArtifact s p a).state = { s with nodes := n, byTag := b, jsOk := j } := by
  unfold addArtifact
  split
  · exact ⟨s.nodes, s.byTag, s.jsOk, rfl⟩
  · obtain ⟨b, j, h⟩ :=
      (addToTags_only { s with nodes := modi s.nodes p (ins a) } p a (s.tags a)).eq
    exact ⟨_, b, j, by simp only [Res.state]; rw [h]⟩

theorem insertArtifact_only (s : State) (p a : Nat) :
    ∃ pr l n b j, (insertArtifact s p a).state =
      { s with prod := pr, lookup := l, nodes := n, byTag := b, jsOk := j } := by
  unfold insertArtifact
  split
  · exact ⟨s.prod, s.lookup, s.nodes, s.byTag, s.jsOk, rfl⟩
  · obtain ⟨l, hl⟩ := insertLookup_only { s with prod := upd s.prod a (some p) } a
    split
    · rename_i s' _ hs'
      rw [hs'] at hl
      simp only [Res.state] at hl
      obtain ⟨n, b, j, h⟩ := addArtifact_only s' p a
      refine ⟨upd s.prod a (some p), l, n, b, j, ?_⟩
      rw [h, hl]
    · rename_i s' hs'
      rw [hs'] at hl
      simp only [Res.state] at hl
      exact ⟨upd s.prod a (some p), l, s.nodes, s.byTag, s.jsOk, hl⟩

/-- The file tag operations touch nothing but these. -/
theorem addFileTag_only (s : State) (a t : Nat) :
    ∃ tg r b j, addFileTag s a t = { s with tags := tg, roots := r, byTag := b, jsOk := j } := by
  unfold addFileTag
  simp only
  split
  · exact ⟨_, s.roots, s.byTag, s.jsOk, rfl⟩
  · split
    · exact ⟨_, _, _, _, rfl⟩
    · exact ⟨_, s.roots, _, _, rfl⟩

theorem removeFileTag_only (s : State) (a t : Nat) :
    ∃ tg r b j, removeFileTag s a t = { s with tags := tg, roots := r, byTag := b, jsOk := j } := by
  unfold removeFileTag
  simp only
  split
  · exact ⟨_, s.roots, s.byTag, s.jsOk, rfl⟩
  · rename_i p _
    obtain ⟨b, j, h⟩ := (removeFromTag_only { s with tags := modi s.tags a (del t) } p a t).eq
    rw [h]
    split
    · exact ⟨_, _, b, j, rfl⟩
    · exact ⟨_, s.roots, b, j, rfl⟩

theorem addFileTags_only (s : State) (a : Nat) (ts : List Nat) :
    ∃ tg r b j, addFileTags s a ts = { s with tags := tg, roots := r, byTag := b, jsOk := j } := by
  induction ts generalizing s with
  | nil => exact ⟨s.tags, s.roots, s.byTag, s.jsOk, rfl⟩
  | cons t ts ih =>
    obtain ⟨tg, r, b, j, h⟩ := addFileTag_only s a t
    obtain ⟨tg', r', b', j', h'⟩ := ih (addFileTag s a t)
    exact ⟨tg', r', b', j', by rw [addFileTags, h', h]⟩

theorem removeFileTags_only (s : State) (a : Nat) (ts : List Nat) :
    ∃ tg r b j, removeFileTags s a ts =
      { s with tags := tg, roots := r, byTag := b, jsOk := j } := by
  induction ts generalizing s with
  | nil => exact ⟨s.tags, s.roots, s.byTag, s.jsOk, rfl⟩
  | cons t ts ih =>
    obtain ⟨tg, r, b, j, h⟩ := removeFileTag_only s a t
    obtain ⟨tg', r', b', j', h'⟩ := ih (removeFileTag s a t)
    exact ⟨tg', r', b', j', by rw [removeFileTags, h', h]⟩

theorem setFileTags_only (s : State) (a : Nat) (new : List Nat) :
    ∃ tg r b j, setFileTags s a new = { s with tags := tg, roots := r, byTag := b, jsOk := j } := by
  unfold setFileTags
  split
  · exact ⟨_, s.roots, s.byTag, s.jsOk, rfl⟩
  · split
    · exact ⟨s.tags, s.roots, s.byTag, s.jsOk, rfl⟩
    · simp only
      generalize List.filter _ new = l1
      obtain ⟨tg, r, b, j, h⟩ := addFileTags_only s a l1
      generalize hs1 : addFileTags s a l1 = s1 at *
      obtain ⟨tg', r', b', j', h'⟩ := removeFileTags_only s1 a ((s1.tags a).filter (fun t => t ∉ new))
      exact ⟨tg', r', b', j', by rw [h', h]⟩

/-- Induction principle for the recursive removal. -/
theorem parentLoop_ind {P : State → Prop} {a : Nat} {g : State → Nat → Option State}
    (h2 : ∀ s p a, P s → P (examine s p a).1)
    (h3 : ∀ s p, P s → P { s with tsOk := upd s.tsOk p false })
    (hg : ∀ s b s', P s → g s b = some s' → P s') (ps : List Nat) (s s' : State) (hs : P s)
    (h : parentLoop g a ps s = some s') : P s' := by
  induction ps generalizing s with
  | nil => simp only [parentLoop, Option.some.injEq] at h; subst h; exact hs
  | cons p ps ih =>
    simp only [parentLoop] at h
    have h1 := h2 s p a hs
    split at h
    · split at h
      · cases h
      · rename_i s2 hs2
        exact ih s2 (hg _ _ _ h1 hs2) h
    · exact ih _ (h3 _ p h1) h

theorem removeExcl_ind {P : State → Prop} {fp : Bool}
    (h1 : ∀ s a, P s → P { s with removed := ins a s.removed })
    (h2 : ∀ s p a, P s → P (examine s p a).1)
    (h3 : ∀ s p, P s → P { s with tsOk := upd s.tsOk p false })
    (h4 : ∀ s a d s', P s → removeArtifact s a d fp = some s' → P s') (f : Nat) :
    ∀ s a s', P s → removeExcl fp f s a = some s' → P s' := by
  induction f with
  | zero => intro s a s' _ h; simp [removeExcl] at h
  | succ f ih =>
    intro s a s' hs h
    simp only [removeExcl] at h
    split at h
    · cases h
    · rename_i s2 hs2
      exact h4 _ _ _ _ (parentLoop_ind h2 h3 ih _ _ _ (h1 s a hs) hs2) h

theorem examine_only (s : State) (p a : Nat) :
    ∃ i, (examine s p a).1 = { disconnect s p a with inp := i } := by
  unfold examine
  simp only
  split
  · exact ⟨(disconnect s p a).inp, rfl⟩
  · split
    · exact ⟨(disconnect s p a).inp, rfl⟩
    · exact ⟨_, rfl⟩

theorem LInv.removeArtifact {s s' : State} (h : LInv s) {a : Nat} {d fp : Bool}
    (he : removeArtifact s a d fp = some s') : LInv s' := by
  have he := removeArtifact_eff h.sym he
  exact h.of_shrink (fun p c => by rw [he.ch, he.pa, h.sym p c])
    (fun p c hc => ((he.ch p c).1 hc).1) he.base.live he.base.bound

theorem LInv.examine {s : State} (h : LInv s) (p a : Nat) : LInv (examine s p a).1 := by
  obtain ⟨i, hi⟩ := examine_only s p a
  rw [hi]
  exact (h.disconnect p a).of_same rfl rfl rfl rfl

theorem LInv.step {strict guarded : Bool} {s s' : State} (h : LInv s)
    (hs : Step strict guarded s s') : LInv s' := by
  cases hs with
  | newArtifact n gen path tags hn h0 => exact h.create hn h0
  | newFileDep n path hn h0 => exact h.create hn h0
  | newRule n p hn h0 =>
    exact (h.create (art := false) (dep := false) (gen := false) (path := 0) (tags := [])
      hn h0).of_same rfl rfl rfl rfl
  | insertArtifact p a _ _ =>
    obtain ⟨pr, l, n, b, j, he⟩ := insertArtifact_only s p a
    rw [he]; exact h.of_same rfl rfl rfl rfl
  | insertFileDep x _ _ _ =>
    obtain ⟨l, he⟩ := insertLookup_only { s with fileDeps := ins x s.fileDeps } x
    unfold insertFileDep
    rw [he]; exact h.of_same rfl rfl rfl rfl
  | removeFileDep x _ => exact h.of_same rfl rfl rfl rfl
  | dropFileDep x _ => exact h.of_same rfl rfl rfl rfl
  | connect p c hp hc _ =>
    rcases connect_cases s p c with he | ⟨_, he⟩
    · rw [he]; exact h
    · rw [he]; exact h.link hp hc
  | safeConnect f u v r hu hv _ _ hr =>
    rcases safeConnect_cases hr with he | ⟨_, _, he⟩
    · rw [he]; exact h
    · rw [he]; exact h.link hu hv
  | scanConnect s1 f u v hu hv _ _ hr =>
    refine LInv.of_same (s := s1) ?_ rfl rfl rfl rfl
    rcases safeConnect_cases hr with he | ⟨_, _, he⟩
    · rw [Res.state] at he; rw [he]; exact h
    · rw [Res.state] at he; rw [he]; exact h.link hu hv
  | disconnect u v => exact h.disconnect u v
  | addFileTag a t _ _ _ =>
    obtain ⟨_, _, _, _, he⟩ := addFileTag_only s a t
    rw [he]; exact h.of_same rfl rfl rfl rfl
  | removeFileTag a t _ _ _ =>
    obtain ⟨_, _, _, _, he⟩ := removeFileTag_only s a t
    rw [he]; exact h.of_same rfl rfl rfl rfl
  | setFileTags a ts _ _ _ =>
    obtain ⟨_, _, _, _, he⟩ := setFileTags_only s a ts
    rw [he]; exact h.of_same rfl rfl rfl rfl
  | removeArtifact _ a d he => exact h.removeArtifact he
  | removeExcl _ f a he =>
    exact removeExcl_ind (P := LInv) (fun s a h => h.of_same rfl rfl rfl rfl)
      (fun s p a h => h.examine p a) (fun s p h => h.of_same rfl rfl rfl rfl)
      (fun s a d s' h he => h.removeArtifact he) f s a s' h he
  | newRemovedSet => exact h.of_same rfl rfl rfl rfl
  | destroy n _ _ => exact h.destroy n

theorem LInv.init (pt : Nat → List Nat) : LInv (State.init pt) :=
  ⟨fun p c => by simp [State.init], fun p c hc => by simp [State.init] at hc,
   fun n hn => by simp [State.init] at hn⟩

theorem Hist.linv {strict guarded : Bool} {s : State} (h : Hist strict guarded s) : LInv s := by
  induction h with
  | init pt => exact LInv.init pt
  | step _ hs ih => exact ih.step hs

/-! ## Acyclicity -/

theorem reach_mono {ch ch' : Nat → List Nat} (h : ∀ p c, c ∈ ch' p → c ∈ ch p) {u v : Nat}
    (hr : Reach ch' u v) : Reach ch u v := by
  induction hr with
  | refl => exact .refl _
  | step hm _ ih => exact .step (h _ _ hm) ih

theorem Acyclic.mono {ch ch' : Nat → List Nat} (h : Acyclic ch)
    (hs : ∀ p c, c ∈ ch' p → c ∈ ch p) : Acyclic ch' := fun u ⟨w, hw, hr⟩ =>
  h u ⟨w, hs u w hw, reach_mono hs hr⟩

/-- A path in the graph with one more edge either does not use it, or reaches its source. -/
theorem reach_link {s : State} {p c u v : Nat} (h : Reach (link s p c).ch u v) :
    Reach s.ch u v ∨ (Reach s.ch u p ∧ Reach s.ch c v) := by
  induction h with
  | refl => exact .inl (.refl _)
  | step hm _ ih =>
    rcases link_ch.1 hm with hm | ⟨rfl, rfl⟩
    · rcases ih with h | ⟨h1, h2⟩
      · exact .inl (.step hm h)
      · exact .inr ⟨.step hm h1, h2⟩
    · rcases ih with h | ⟨h1, h2⟩
      · exact .inr ⟨.refl _, h⟩
      · exact .inr ⟨.refl _, h2⟩

theorem Acyclic.link {s : State} (h : Acyclic s.ch) {p c : Nat} (hn : ¬ Reach s.ch c p) :
    Acyclic (link s p c).ch := by
  rintro u ⟨w, hw, hr⟩
  rcases link_ch.1 hw with hw | ⟨rfl, rfl⟩
  · rcases reach_link hr with h1 | ⟨h1, h2⟩
    · exact h u ⟨w, hw, h1⟩
    · exact hn (h2.trans (.step hw h1))
  · rcases reach_link hr with h1 | ⟨h1, h2⟩
    · exact hn h1
    · exact hn h2

theorem Acyclic.step {strict : Bool} {s s' : State} (hl : LInv s) (h : Acyclic s.ch)
    (hs : Step strict true s s') : Acyclic s'.ch := by
  cases hs with
  | newArtifact n gen path tags hn h0 =>
    exact h.mono fun p c hc => (mem_upd_nil.1 hc).2
  | newFileDep n path hn h0 => exact h.mono fun p c hc => (mem_upd_nil.1 hc).2
  | newRule n p hn h0 => exact h.mono fun p c hc => (mem_upd_nil.1 hc).2
  | insertArtifact p a _ _ =>
    obtain ⟨pr, l, n, b, j, he⟩ := insertArtifact_only s p a
    rw [he]; exact h
  | insertFileDep x _ _ _ =>
    obtain ⟨l, he⟩ := insertLookup_only { s with fileDeps := ins x s.fileDeps } x
    unfold insertFileDep
    rw [he]; exact h
  | removeFileDep x _ => exact h
  | dropFileDep x _ => exact h
  | connect p c hp hc hg =>
    rcases connect_cases s p c with he | ⟨_, he⟩
    · rw [he]; exact h
    · rw [he]
      exact h.link (hg rfl)
  | safeConnect f u v r hu hv _ _ hr =>
    rcases safeConnect_cases hr with he | ⟨hex, _, he⟩
    · rw [he]; exact h
    · rw [he]
      exact h.link fun hr => by
        have := (existsPath_correct hex).2 hr
        cases this
  | scanConnect s1 f u v hu hv _ _ hr =>
    show Acyclic s1.ch
    rcases safeConnect_cases hr with he | ⟨hex, _, he⟩
    · rw [Res.state] at he; rw [he]; exact h
    · rw [Res.state] at he; rw [he]
      exact h.link fun hr => by
        have := (existsPath_correct hex).2 hr
        cases this
  | disconnect u v => exact h.mono fun p c hc => (disconnect_ch.1 hc).1
  | addFileTag a t _ _ _ =>
    obtain ⟨_, _, _, _, he⟩ := addFileTag_only s a t
    rw [he]; exact h
  | removeFileTag a t _ _ _ =>
    obtain ⟨_, _, _, _, he⟩ := removeFileTag_only s a t
    rw [he]; exact h
  | setFileTags a ts _ _ _ =>
    obtain ⟨_, _, _, _, he⟩ := setFileTags_only s a ts
    rw [he]; exact h
  | removeArtifact _ a d he =>
    exact h.mono fun p c hc => (((removeArtifact_eff hl.sym he).ch p c).1 hc).1
  | removeExcl _ f a he =>
    have := removeExcl_ind (P := fun s => LInv s ∧ Acyclic s.ch)
      (fun s a h => ⟨h.1.of_same rfl rfl rfl rfl, h.2⟩)
      (fun s p a h => ⟨h.1.examine p a, h.2.mono fun q c hc => (((examine_eff s p a).ch q c).1 hc).1⟩)
      (fun s p h => ⟨h.1.of_same rfl rfl rfl rfl, h.2⟩)
      (fun s a d s' h he => ⟨h.1.removeArtifact he,
        h.2.mono fun p c hc => (((removeArtifact_eff h.1.sym he).ch p c).1 hc).1⟩)
      f s a s' ⟨hl, h⟩ he
    exact this.2
  | newRemovedSet => exact h
  | destroy n _ _ =>
    refine h.mono fun p c hc => ?_
    simp only [Graph.destroy] at hc
    split at hc
    · simp at hc
    · split at hc
      · exact (mem_del.1 hc).1
      · exact hc

theorem Hist.acyclic {strict : Bool} {s : State} (h : Hist strict true s) : Acyclic s.ch := by
  induction h with
  | init pt => rintro u ⟨w, hw, _⟩; simp [State.init] at hw
  | step hh hs ih => exact Acyclic.step hh.linv ih hs

/-- In a finite acyclic graph every node is accessible. -/
theorem acc_of_acyclic {ch : Nat → List Nat} {N : Nat} (hN : FiniteBy ch N) (h : Acyclic ch)
    (u : Nat) : Acc (Child ch) u := by
  -- induct on the number of nodes that are not ancestors
  suffices H : ∀ k seen u, unseen N seen < k → (∀ x ∈ seen, ∃ w ∈ ch x, Reach ch w u) →
      u ∉ seen → Acc (Child ch) u by
    exact H (unseen N [] + 1) [] u (by omega) (by simp) (by simp)
  intro k
  induction k with
  | zero => intro seen u hk; omega
  | succ k ih =>
    intro seen u hk hseen hu
    refine .intro u fun w hw => ?_
    have huN : u < N := (hN u).2 (List.ne_nil_of_mem hw)
    have hlt := unseen_ins huN hu
    refine ih (ins u seen) w (by omega) ?_ ?_
    · intro x hx
      rcases mem_ins.1 hx with rfl | hx
      · exact ⟨w, hw, .refl w⟩
      · obtain ⟨y, hy, hr⟩ := hseen x hx
        exact ⟨y, hy, hr.trans (.step hw (.refl w))⟩
    · intro hx
      rcases mem_ins.1 hx with rfl | hx
      · exact h w ⟨w, hw, .refl w⟩
      · obtain ⟨y, hy, hr⟩ := hseen w hx
        exact h w ⟨y, hy, hr.trans (.step hw (.refl w))⟩

/-! ## Lookup table and tag index -/

/-- Invariant about lookup table, product nodes, tag index. -/
structure GInv (s : State) : Prop where
  nodeLive : ∀ p x, x ∈ s.nodes p → s.live x ∧ s.prod x = some p ∧ s.isDep x = false
  depLive : ∀ x ∈ s.fileDeps, s.live x ∧ s.isDep x ∧ s.isArt x = false
  kind : ∀ x, s.isArt x → s.isDep x = false
  look : ∀ x k, s.isArt x → (x ∈ s.lookup k ↔ s.path x = k ∧ ∃ p, x ∈ s.nodes p)
  lookDep : ∀ x k, x ∈ s.lookup k → s.path x = k ∧ (s.isArt x ∨ x ∈ s.fileDeps)
  lookNodup : ∀ k, (s.lookup k).Nodup
  gen1 : ∀ x y k, x ∈ s.lookup k → y ∈ s.lookup k → s.isArt x → s.isArt y → s.gen x → s.gen y →
    x = y
  tag : ∀ p t x, x ∈ s.byTag p t ↔ x ∈ s.nodes p ∧ s.isArt x ∧ t ∈ s.tags x
  roots : ∀ p x, x ∈ s.roots p → x ∈ s.nodes p
  scan : ∀ p c, c ∈ s.scan p → c ∈ s.ch p ∧ s.isArt p ∧ s.isArt c

/-- Unaffected by changes of links which keep scanned children. -/
theorem GInv.of_links {s s' : State} (h : GInv s)
    (he : ∃ c pa sc i ts rm, s' =
      { s with ch := c, pa := pa, scan := sc, inp := i, tsOk := ts, removed := rm })
    (hscan : ∀ p c, c ∈ s'.scan p → c ∈ s'.ch p ∧ s.isArt p ∧ s.isArt c) : GInv s' := by
  obtain ⟨c, pa, sc, i, ts, rm, rfl⟩ := he
  exact ⟨h.nodeLive, h.depLive, h.kind, h.look, h.lookDep, h.lookNodup, h.gen1, h.tag, h.roots,
    hscan⟩

/-- A dead object is referenced nowhere. -/
theorem GInv.dead {s : State} (h : GInv s) (hl : LInv s) {n : Nat} (hn : s.live n = false) :
    (∀ p, n ∉ s.nodes p) ∧ n ∉ s.fileDeps ∧ (∀ k, n ∉ s.lookup k) ∧ (∀ p t, n ∉ s.byTag p t) ∧
    (∀ p, n ∉ s.roots p) ∧ (∀ p, n ∉ s.scan p) ∧ s.scan n = [] := by
  have h1 : ∀ p, n ∉ s.nodes p := fun p hm => by
    have := (h.nodeLive p n hm).1; simp [hn] at this
  have h2 : n ∉ s.fileDeps := fun hm => by
    have := (h.depLive n hm).1; simp [hn] at this
  refine ⟨h1, h2, fun k hm => ?_, fun p t hm => h1 p ((h.tag p t n).1 hm).1,
    fun p hm => h1 p (h.roots p n hm), fun p hm => ?_, ?_⟩
  · rcases (h.lookDep n k hm).2 with ha | hd
    · obtain ⟨p, hp⟩ := ((h.look n k ha).1 hm).2
      exact h1 p hp
    · exact h2 hd
  · have := (hl.dang p n (h.scan p n hm).1).2
    simp [hn] at this
  · cases hc : s.scan n with
    | nil => rfl
    | cons c cs =>
      have := (hl.dang n c (h.scan n c (by simp [hc])).1).1
      simp [hn] at this

theorem GInv.create {s : State} (h : GInv s) (hl : LInv s) {n : Nat} {art dep gen : Bool}
    {path : Nat} {tags : List Nat} (hn : s.live n = false) (had : art = true → dep = false) :
    GInv (create s n art dep gen path tags) := by
  obtain ⟨d1, d2, d3, d4, d5, d6, d7⟩ := h.dead hl hn
  have ne_of {x : Nat} {l : List Nat} (hnl : n ∉ l) (hx : x ∈ l) : x ≠ n := fun he => hnl (he ▸ hx)
  refine ⟨?_, ?_, ?_, ?_, ?_, h.lookNodup, ?_, ?_, h.roots, ?_⟩
  · intro p x hx
    have hxn := ne_of (d1 p) hx
    have := h.nodeLive p x hx
    simp only [Graph.create, upd, hxn, if_false]
    exact this
  · intro x hx
    have hxn := ne_of d2 hx
    have := h.depLive x hx
    simp only [Graph.create, upd, hxn, if_false]
    exact this
  · intro x hx
    simp only [Graph.create, upd] at hx ⊢
    split at hx
    · rename_i hxn; rw [if_pos hxn]; exact had hx
    · rename_i hxn; rw [if_neg hxn]; exact h.kind x hx
  · intro x k hx
    by_cases hxn : x = n
    · subst hxn
      constructor
      · exact fun hm => absurd hm (d3 k)
      · rintro ⟨_, p, hp⟩; exact absurd hp (d1 p)
    · simp only [Graph.create, upd, hxn, if_false] at hx ⊢
      exact h.look x k hx
  · intro x k hx
    have hxn := ne_of (d3 k) hx
    simp only [Graph.create, upd, hxn, if_false]
    exact h.lookDep x k hx
  · intro x y k hx hy
    have hxn := ne_of (d3 k) hx
    have hyn := ne_of (d3 k) hy
    simp only [Graph.create, upd, hxn, hyn, if_false]
    exact h.gen1 x y k hx hy
  · intro p t x
    by_cases hxn : x = n
    · subst hxn
      constructor
      · exact fun hm => absurd hm (d4 p t)
      · exact fun hm => absurd hm.1 (d1 p)
    · simp only [Graph.create, upd, hxn, if_false]
      exact h.tag p t x
  · intro p c hc
    simp only [Graph.create, mem_upd_nil] at hc ⊢
    have hcn : c ≠ n := fun he => d6 p (he ▸ hc.2)
    have := h.scan p c hc.2
    simp only [upd, hc.1, hcn, if_false]
    exact ⟨⟨fun hh => hc.1 hh, this.1⟩, this.2⟩

theorem GInv.createRule {s : State} (h : GInv s) (hl : LInv s) {n p : Nat}
    (hn : s.live n = false) : GInv (createRule s n p) := by
  have hc : GInv (Graph.create s n false false false 0 []) := h.create hl hn (by simp)
  obtain ⟨d1, d2, d3, d4, d5, d6, d7⟩ := h.dead hl hn
  refine ⟨?_, hc.depLive, hc.kind, ?_, hc.lookDep, hc.lookNodup, hc.gen1, ?_, ?_, hc.scan⟩
  · intro q x hx
    simp only [Graph.createRule, mem_modi, mem_ins] at hx
    by_cases hxn : x = n
    · subst hxn
      rcases hx with ⟨rfl, _⟩ | ⟨_, hx⟩
      · simp [Graph.createRule, Graph.create, upd]
      · exact absurd hx (d1 q)
    · have hx' : x ∈ s.nodes q := by
        rcases hx with ⟨rfl, h1 | h1⟩ | ⟨_, h1⟩
        · exact absurd h1 hxn
        · exact h1
        · exact h1
      have := hc.nodeLive q x hx'
      simp only [Graph.createRule, upd, hxn, if_false]
      exact this
  · intro x k hx
    have hxn : x ≠ n := fun he => by simp [Graph.createRule, Graph.create, upd, he] at hx
    have h1 := hc.look x k hx
    simp only [Graph.createRule, mem_modi, mem_ins, hxn, false_or]
    rw [show (∃ q, (q = p ∧ x ∈ (Graph.create s n false false false 0 []).nodes q ∨
        q ≠ p ∧ x ∈ (Graph.create s n false false false 0 []).nodes q)) ↔
        ∃ q, x ∈ (Graph.create s n false false false 0 []).nodes q from ?_]
    · exact h1
    · constructor
      · rintro ⟨q, h | h⟩ <;> exact ⟨q, h.2⟩
      · rintro ⟨q, h⟩
        by_cases hq : q = p
        · exact ⟨q, .inl ⟨hq, h⟩⟩
        · exact ⟨q, .inr ⟨hq, h⟩⟩
  · intro q t x
    have h1 := hc.tag q t x
    by_cases hxn : x = n
    · subst hxn
      simp only [Graph.createRule]
      rw [h1]
      simp [Graph.create, upd]
    · simp only [Graph.createRule, mem_modi, mem_ins, hxn, false_or]
      rw [h1]
      by_cases hq : q = p <;> simp [hq]
  · intro q x hx
    have := hc.roots q x hx
    simp only [Graph.createRule, mem_modi, mem_ins]
    by_cases hq : q = p
    · exact .inl ⟨hq, .inr this⟩
    · exact .inr ⟨hq, this⟩

theorem GInv.removeArtifact {s s' : State} (h : GInv s) (hsym : Symmetric s) {a : Nat} {d : Bool}
    (he : RemEff s a d true s') : GInv s' := by
  have hb := he.base
  have hnodes : ∀ p x, x ∈ s'.nodes p ↔ x ∈ s.nodes p ∧ x ≠ a := by
    intro p x
    rw [he.nodes]
    constructor
    · rintro ⟨h1, h2⟩
      exact ⟨h1, fun hx => h2 ⟨rfl, hx, hx ▸ (h.nodeLive p x h1).2.1⟩⟩
    · rintro ⟨h1, h2⟩
      exact ⟨h1, fun hx => h2 hx.2.1⟩
  have hlook : ∀ k x, x ∈ s'.lookup k ↔ x ∈ s.lookup k ∧ (x ≠ a) := by
    intro k x
    rw [he.lookup]
    split
    · rw [(h.lookNodup k).mem_erase_iff]; exact ⟨fun h => ⟨h.2, h.1⟩, fun h => ⟨h.2, h.1⟩⟩
    · rename_i hk
      constructor
      · intro hx
        exact ⟨hx, fun hxa => hk (by rw [← (h.lookDep x k hx).1, hxa])⟩
      · exact fun hx => hx.1
  refine ⟨?_, ?_, ?_, ?_, ?_, ?_, ?_, ?_, ?_, ?_⟩
  · intro p x hx
    rw [hb.live, hb.prod, hb.isDep]
    exact h.nodeLive p x ((hnodes p x).1 hx).1
  · rw [hb.fileDeps, hb.live, hb.isDep, hb.isArt]; exact h.depLive
  · rw [hb.isArt, hb.isDep]; exact h.kind
  · intro x k hx
    rw [hb.isArt] at hx
    rw [hb.path, hlook, h.look x k hx]
    constructor
    · rintro ⟨⟨h1, p, h2⟩, h3⟩
      exact ⟨h1, p, (hnodes p x).2 ⟨h2, h3⟩⟩
    · rintro ⟨h1, p, h2⟩
      obtain ⟨h3, h4⟩ := (hnodes p x).1 h2
      exact ⟨⟨h1, p, h3⟩, h4⟩
  · intro x k hx
    rw [hb.isArt, hb.path, hb.fileDeps]
    exact h.lookDep x k ((hlook k x).1 hx).1
  · intro k
    rw [he.lookup]
    split
    · exact (h.lookNodup k).erase a
    · exact h.lookNodup k
  · intro x y k hx hy
    rw [hb.isArt, hb.gen]
    exact h.gen1 x y k ((hlook k x).1 hx).1 ((hlook k y).1 hy).1
  · intro p t x
    rw [hb.isArt, hb.tags, hnodes, he.byTag, h.tag]
    constructor
    · rintro ⟨⟨h1, h2, h3⟩, h4⟩
      exact ⟨⟨h1, fun hx => h4 ⟨rfl, hx, hx ▸ (h.nodeLive p x h1).2.1, hx ▸ h3⟩⟩, h2, h3⟩
    · rintro ⟨⟨h1, h2⟩, h3, h4⟩
      exact ⟨⟨h1, h3, h4⟩, fun hx => h2 hx.2.1⟩
  · intro p x hx
    obtain ⟨h1, h2⟩ := (he.roots p x).1 hx
    have h3 := h.roots p x h1
    exact (hnodes p x).2 ⟨h3, fun hxa => h2 ⟨rfl, hxa, hxa ▸ (h.nodeLive p x h3).2.1⟩⟩
  · intro p c hc
    obtain ⟨h1, h2, h3⟩ := (he.scan p c).1 hc
    obtain ⟨h4, h5, h6⟩ := h.scan p c h1
    rw [hb.isArt]
    exact ⟨(he.ch p c).2 ⟨h4, h2, fun hca => h3 ⟨hca, hca ▸ (hsym p c).1 h4, h5⟩⟩, h5, h6⟩

theorem GInv.insertLookupArt {s : State} (h : GInv s) {p a : Nat} (hl : s.live a) (ha : s.isArt a)
    (hp : s.prod a = none) : GInv (insertArtifact s p a).state := by
  have hno : ∀ q, a ∉ s.nodes q := fun q hm => by
    have := (h.nodeLive q a hm).2.1; simp [hp] at this
  have hnl : ∀ k, a ∉ s.lookup k := fun k hm => by
    obtain ⟨q, hq⟩ := ((h.look a k ha).1 hm).2
    exact hno q hq
  have h1 : GInv { s with prod := upd s.prod a (some p) } := by
    refine ⟨?_, h.depLive, h.kind, h.look, h.lookDep, h.lookNodup, h.gen1, h.tag, h.roots, h.scan⟩
    intro q x hx
    have hxa : x ≠ a := fun he => hno q (he ▸ hx)
    simp only [upd, hxa, if_false]
    exact h.nodeLive q x hx
  unfold insertArtifact insertLookup
  simp only
  rw [if_neg (by simp [hp])]
  by_cases hg : s.isArt a ∧ s.gen a ∧ (s.lookup (s.path a)).any s.isArt
  · rw [if_pos hg]; exact h1
  · rw [if_neg hg, if_neg (hnl _)]
    simp only
    unfold addArtifact
    simp only
    rw [if_neg (hno p)]
    simp only [Res.state]
    obtain ⟨b, j, hb⟩ := (addToTags_only
      { s with
        prod := upd s.prod a (some p)
        lookup := modi s.lookup (s.path a) (· ++ [a])
        nodes := modi s.nodes p (ins a) } p a (s.tags a)).eq
    have hbt : ∀ p' t' x, x ∈ b p' t' ↔
        x ∈ s.byTag p' t' ∨ (p' = p ∧ x = a ∧ t' ∈ s.tags a) := by
      intro p' t' x
      have := @mem_addToTags { s with
        prod := upd s.prod a (some p)
        lookup := modi s.lookup (s.path a) (· ++ [a])
        nodes := modi s.nodes p (ins a) } p a (s.tags a) p' t' x
      rw [hb] at this
      simp only at this
      rw [this]
      exact ⟨fun h => h.imp id fun ⟨h1, h2, h3⟩ => ⟨h1, h3, h2⟩,
        fun h => h.imp id fun ⟨h1, h2, h3⟩ => ⟨h1, h3, h2⟩⟩
    rw [hb]
    have hnodes : ∀ q x, x ∈ modi s.nodes p (ins a) q ↔ x ∈ s.nodes q ∨ (q = p ∧ x = a) := by
      intro q x
      rw [mem_modi, mem_ins]
      by_cases h1 : q = p <;> by_cases h2 : x = a <;> simp [h1, h2]
    have hlook : ∀ k x, x ∈ modi s.lookup (s.path a) (· ++ [a]) k ↔
        x ∈ s.lookup k ∨ (k = s.path a ∧ x = a) := by
      intro k x
      rw [mem_modi]
      by_cases h1 : k = s.path a <;> by_cases h2 : x = a <;> simp [h1, h2]
    refine ⟨?_, h.depLive, h.kind, ?_, ?_, ?_, ?_, ?_, ?_, h.scan⟩
    · intro q x hx
      rcases (hnodes q x).1 hx with hx | ⟨rfl, rfl⟩
      · exact h1.nodeLive q x hx
      · simp [upd, hl, h.kind x ha]
    · intro x k hx
      show x ∈ modi s.lookup (s.path a) (· ++ [a]) k ↔ s.path x = k ∧ ∃ q, x ∈ modi s.nodes p (ins a) q
      rw [hlook]
      constructor
      · rintro (hm | ⟨rfl, rfl⟩)
        · obtain ⟨e, q, hq⟩ := (h.look x k hx).1 hm
          exact ⟨e, q, (hnodes q x).2 (.inl hq)⟩
        · exact ⟨rfl, p, (hnodes p x).2 (.inr ⟨rfl, rfl⟩)⟩
      · rintro ⟨e, q, hq⟩
        rcases (hnodes q x).1 hq with hq | ⟨rfl, rfl⟩
        · exact .inl ((h.look x k hx).2 ⟨e, q, hq⟩)
        · exact .inr ⟨e.symm, rfl⟩
    · intro x k hx
      rcases (hlook k x).1 hx with hx | ⟨rfl, rfl⟩
      · exact h.lookDep x k hx
      · exact ⟨rfl, .inl ha⟩
    · intro k
      show (modi s.lookup (s.path a) (· ++ [a]) k).Nodup
      unfold modi
      split
      · exact List.nodup_append.2 ⟨h.lookNodup k, by simp, fun x hx y hy => by
          simp only [List.mem_singleton] at hy
          subst hy; exact fun he => hnl k (he ▸ hx)⟩
      · exact h.lookNodup k
    · intro x y k hx hy hxa hya hxg hyg
      have other : ∀ z, z ∈ s.lookup (s.path a) → s.isArt z → s.gen a → False := by
        intro z hz hza hga
        exact hg ⟨ha, hga, List.any_eq_true.2 ⟨z, hz, hza⟩⟩
      rcases (hlook k x).1 hx with hx | ⟨hk, hxe⟩ <;> rcases (hlook k y).1 hy with hy | ⟨hk', hye⟩
      · exact h.gen1 x y k hx hy hxa hya hxg hyg
      · subst hk' hye; exact (other x hx hxa hyg).elim
      · subst hk hxe; exact (other y hy hya hxg).elim
      · rw [hxe, hye]
    · intro q t x
      show x ∈ b q t ↔ x ∈ modi s.nodes p (ins a) q ∧ s.isArt x ∧ t ∈ s.tags x
      rw [hbt, hnodes, h.tag]
      constructor
      · rintro (⟨h1, h2⟩ | ⟨rfl, rfl, h3⟩)
        · exact ⟨.inl h1, h2⟩
        · exact ⟨.inr ⟨rfl, rfl⟩, ha, h3⟩
      · rintro ⟨h1 | ⟨rfl, rfl⟩, h2, h3⟩
        · exact .inl ⟨h1, h2, h3⟩
        · exact .inr ⟨rfl, rfl, h3⟩
    · intro q x hx
      exact (hnodes q x).2 (.inl (h.roots q x hx))

theorem GInv.insertArtifact {s : State} (h : GInv s) {p a : Nat} (hl : s.live a)
    (ha : s.isArt a) : GInv (insertArtifact s p a).state := by
  by_cases hp : s.prod a = none
  · exact h.insertLookupArt hl ha hp
  · unfold Graph.insertArtifact
    rw [if_pos hp]; exact h

theorem GInv.insertFileDep {s : State} (h : GInv s) {x : Nat} (hl : s.live x) (hd : s.isDep x)
    (hx : x ∉ s.fileDeps) : GInv (insertFileDep s x).state := by
  have hna : s.isArt x = false := by
    cases hc : s.isArt x with
    | false => rfl
    | true => have := h.kind x hc; rw [hd] at this; cases this
  have hnl : ∀ k, x ∉ s.lookup k := fun k hm => by
    rcases (h.lookDep x k hm).2 with ha | hd'
    · simp [hna] at ha
    · exact hx hd'
  unfold Graph.insertFileDep insertLookup
  simp only
  rw [if_neg (by simp [hna]), if_neg (hnl _)]
  simp only [Res.state]
  have hlook : ∀ k y, y ∈ modi s.lookup (s.path x) (· ++ [x]) k ↔
      y ∈ s.lookup k ∨ (k = s.path x ∧ y = x) := by
    intro k y
    rw [mem_modi]
    by_cases h1 : k = s.path x <;> by_cases h2 : y = x <;> simp [h1, h2]
  refine ⟨h.nodeLive, ?_, h.kind, ?_, ?_, ?_, ?_, h.tag, h.roots, h.scan⟩
  · intro y hy
    rcases mem_ins.1 hy with rfl | hy
    · exact ⟨hl, hd, hna⟩
    · exact h.depLive y hy
  · intro y k hy
    show y ∈ modi s.lookup (s.path x) (· ++ [x]) k ↔ _
    rw [hlook]
    have hyx : y ≠ x := fun he => by rw [he] at hy; simp [hna] at hy
    rw [← h.look y k hy]
    simp [hyx]
  · intro y k hy
    rcases (hlook k y).1 hy with hy | ⟨rfl, rfl⟩
    · obtain ⟨h1, h2⟩ := h.lookDep y k hy
      exact ⟨h1, h2.imp id fun h => mem_ins.2 (.inr h)⟩
    · exact ⟨rfl, .inr (mem_ins.2 (.inl rfl))⟩
  · intro k
    show (modi s.lookup (s.path x) (· ++ [x]) k).Nodup
    unfold modi
    split
    · exact List.nodup_append.2 ⟨h.lookNodup k, by simp, fun y hy z hz => by
        simp only [List.mem_singleton] at hz
        subst hz; exact fun he => hnl k (he ▸ hy)⟩
    · exact h.lookNodup k
  · intro y z k hy hz hya hza
    have hyx : y ≠ x := fun he => by rw [he] at hya; simp [hna] at hya
    have hzx : z ≠ x := fun he => by rw [he] at hza; simp [hna] at hza
    have hy' := ((hlook k y).1 hy).resolve_right fun h => hyx h.2
    have hz' := ((hlook k z).1 hz).resolve_right fun h => hzx h.2
    exact h.gen1 y z k hy' hz' hya hza

theorem GInv.dropFileDep {s : State} (h : GInv s) {x : Nat} (hx : x ∈ s.fileDeps) :
    GInv (removeLookup s x) ∧ ∀ k, x ∉ (removeLookup s x).lookup k := by
  have hna := (h.depLive x hx).2.2
  have hlook : ∀ k y, y ∈ (removeLookup s x).lookup k ↔ y ∈ s.lookup k ∧ y ≠ x := by
    intro k y
    simp only [removeLookup, mem_modi]
    by_cases hk : k = s.path x
    · simp only [hk, true_and, ne_eq, not_true_eq_false, false_and, or_false]
      rw [(h.lookNodup _).mem_erase_iff]
      exact ⟨fun h => ⟨h.2, h.1⟩, fun h => ⟨h.2, h.1⟩⟩
    · simp only [hk, false_and, ne_eq, not_false_eq_true, true_and, false_or]
      exact ⟨fun hy => ⟨hy, fun he => hk (by rw [← (h.lookDep y k hy).1, he])⟩, fun hy => hy.1⟩
  refine ⟨⟨h.nodeLive, h.depLive, h.kind, ?_, ?_, ?_, ?_, h.tag, h.roots, h.scan⟩, ?_⟩
  · intro y k hy
    have hyx : y ≠ x := fun he => by rw [he] at hy; simp [removeLookup, hna] at hy
    rw [hlook]
    have := h.look y k hy
    constructor
    · exact fun hm => this.1 hm.1
    · exact fun hm => ⟨this.2 hm, hyx⟩
  · exact fun y k hy => h.lookDep y k ((hlook k y).1 hy).1
  · intro k
    simp only [removeLookup, modi]
    split
    · exact (h.lookNodup k).erase x
    · exact h.lookNodup k
  · exact fun y z k hy hz => h.gen1 y z k ((hlook k y).1 hy).1 ((hlook k z).1 hz).1
  · intro k hm
    exact ((hlook k x).1 hm).2 rfl

theorem GInv.removeFileDep {s : State} (h : GInv s) {x : Nat} (hx : x ∈ s.fileDeps) :
    GInv (removeFileDep s x) := by
  obtain ⟨h1, h2⟩ := h.dropFileDep hx
  refine ⟨h1.nodeLive, ?_, h1.kind, h1.look, ?_, h1.lookNodup, h1.gen1, h1.tag, h1.roots, h1.scan⟩
  · intro y hy
    exact h.depLive y (mem_del.1 hy).1
  · intro y k hy
    obtain ⟨h3, h4⟩ := h1.lookDep y k hy
    exact ⟨h3, h4.imp id fun h => mem_del.2 ⟨h, fun he => h2 k (he ▸ hy)⟩⟩

theorem GInv.link {s : State} (h : GInv s) (p c : Nat) : GInv (link s p c) :=
  h.of_links ⟨_, _, s.scan, s.inp, s.tsOk, s.removed, rfl⟩ fun q d hd =>
    ⟨link_ch.2 (.inl (h.scan q d hd).1), (h.scan q d hd).2⟩

theorem GInv.disconnect {s : State} (h : GInv s) (u v : Nat) : GInv (disconnect s u v) := by
  refine h.of_links ⟨_, _, _, s.inp, s.tsOk, s.removed, rfl⟩ fun p c hc => ?_
  rw [disconnect_ch]
  rw [disconnect_scan] at hc
  obtain ⟨h1, h2⟩ := hc
  obtain ⟨h3, h4, h5⟩ := h.scan p c h1
  exact ⟨⟨h3, fun ⟨e1, e2⟩ => h2 ⟨e1 ▸ h4, e2 ▸ h5, e1, e2⟩⟩, h4, h5⟩

theorem GInv.examine {s : State} (h : GInv s) (p a : Nat) : GInv (examine s p a).1 := by
  obtain ⟨i, hi⟩ := examine_only s p a
  rw [hi]
  have hd := h.disconnect p a
  exact hd.of_links ⟨_, _, _, i, _, _, rfl⟩ hd.scan

/-- What the file tag operations have to establish. -/
theorem GInv.retag {s s' : State} (h : GInv s) {a : Nat} (ha : s.isArt a)
    (hin : ∀ p, s.prod a = some p → a ∈ s.nodes p)
    (he : ∃ tg r b j, s' = { s with tags := tg, roots := r, byTag := b, jsOk := j })
    (hother : ∀ x, x ≠ a → s'.tags x = s.tags x)
    (htag : ∀ p t x, x ∈ s'.byTag p t ↔
      (x ≠ a ∧ x ∈ s.byTag p t) ∨ (x = a ∧ s.prod a = some p ∧ t ∈ s'.tags a))
    (hroots : ∀ p x, x ∈ s'.roots p → x ∈ s.roots p ∨ (x = a ∧ s.prod a = some p)) :
    GInv s' := by
  have hnp : ∀ p, a ∈ s.nodes p ↔ s.prod a = some p :=
    fun p => ⟨fun hm => (h.nodeLive p a hm).2.1, hin p⟩
  obtain ⟨tg, r, b, j, rfl⟩ := he
  refine ⟨h.nodeLive, h.depLive, h.kind, h.look, h.lookDep, h.lookNodup, h.gen1, ?_, ?_, h.scan⟩
  · intro p t x
    rw [htag]
    by_cases hx : x = a
    · subst hx
      simp only [ne_eq, not_true_eq_false, false_and, true_and, false_or]
      rw [← hnp p]
      exact ⟨fun ⟨h1, h2⟩ => ⟨h1, ha, h2⟩, fun ⟨h1, _, h2⟩ => ⟨h1, h2⟩⟩
    · simp only [ne_eq, hx, not_false_eq_true, true_and, false_and, or_false]
      rw [h.tag]
      have := hother x hx
      simp only at this
      rw [this]
  · intro p x hx
    rcases hroots p x hx with h1 | ⟨rfl, h2⟩
    · exact h.roots p x h1
    · exact hin p h2

theorem GInv.addFileTag {s : State} (h : GInv s) {a t : Nat} (ha : s.isArt a)
    (hin : ∀ p, s.prod a = some p → a ∈ s.nodes p) : GInv (addFileTag s a t) := by
  have hnp : ∀ p, a ∈ s.nodes p ↔ s.prod a = some p :=
    fun p => ⟨fun hm => (h.nodeLive p a hm).2.1, hin p⟩
  have hbt : ∀ p t, a ∈ s.byTag p t ↔ s.prod a = some p ∧ t ∈ s.tags a := by
    intro p t; rw [h.tag, hnp]; exact ⟨fun h => ⟨h.1, h.2.2⟩, fun h => ⟨h.1, ha, h.2⟩⟩
  have htags : (Graph.addFileTag s a t).tags = modi s.tags a (ins t) := by
    unfold Graph.addFileTag
    simp only
    split
    · rfl
    · split <;> rfl
  refine h.retag ha hin (addFileTag_only s a t) ?_ ?_ ?_
  · intro x hx; rw [htags]; exact modi_ne _ _ hx
  · intro p t' x
    rw [htags, modi_same, mem_ins]
    have hb : x ∈ (Graph.addFileTag s a t).byTag p t' ↔
        x ∈ s.byTag p t' ∨ (s.prod a = some p ∧ x = a ∧ t' = t) := by
      unfold Graph.addFileTag
      simp only
      split
      · rename_i hp; simp [hp]
      · rename_i q hp
        have hm : x ∈ (addToTag { s with tags := modi s.tags a (ins t) } q a t).byTag p t' ↔
            x ∈ s.byTag p t' ∨ (s.prod a = some p ∧ x = a ∧ t' = t) := by
          have hp' : s.prod a = some q := hp
          simp only [addToTag, mem_modTag, mem_ins, hp', Option.some.injEq]
          by_cases h1 : p = q <;> by_cases h2 : t' = t <;> by_cases h3 : x = a <;>
            simp [h1, h2, h3, eq_comm] <;> grind
        split
        · exact hm
        · exact hm
    rw [hb]
    by_cases hx : x = a
    · subst hx
      rw [hbt]
      simp only [ne_eq, not_true_eq_false, false_and, true_and, false_or]
      grind
    · simp [hx]
  · intro p x hx
    unfold Graph.addFileTag at hx
    simp only at hx
    split at hx
    · exact .inl hx
    · rename_i q hp
      split at hx
      · rcases mem_modi.1 hx with ⟨rfl, hx⟩ | ⟨_, hx⟩
        · rcases mem_ins.1 hx with rfl | hx
          · exact .inr ⟨rfl, hp⟩
          · exact .inl hx
        · exact .inl hx
      · exact .inl hx

theorem GInv.removeFileTag {s : State} (h : GInv s) {a t : Nat} (ha : s.isArt a)
    (hin : ∀ p, s.prod a = some p → a ∈ s.nodes p) : GInv (removeFileTag s a t) := by
  have hnp : ∀ p, a ∈ s.nodes p ↔ s.prod a = some p :=
    fun p => ⟨fun hm => (h.nodeLive p a hm).2.1, hin p⟩
  have hbt : ∀ p t, a ∈ s.byTag p t ↔ s.prod a = some p ∧ t ∈ s.tags a := by
    intro p t; rw [h.tag, hnp]; exact ⟨fun h => ⟨h.1, h.2.2⟩, fun h => ⟨h.1, ha, h.2⟩⟩
  have htags : (Graph.removeFileTag s a t).tags = modi s.tags a (del t) := by
    unfold Graph.removeFileTag
    simp only
    split
    · rfl
    · rename_i q hp
      obtain ⟨b, j, hb⟩ := (removeFromTag_only { s with tags := modi s.tags a (del t) } q a t).eq
      rw [hb]
      split <;> rfl
  refine h.retag ha hin (removeFileTag_only s a t) ?_ ?_ ?_
  · intro x hx; rw [htags]; exact modi_ne _ _ hx
  · intro p t' x
    rw [htags, modi_same, mem_del]
    have hb : x ∈ (Graph.removeFileTag s a t).byTag p t' ↔
        x ∈ s.byTag p t' ∧ ¬ (s.prod a = some p ∧ x = a ∧ t' = t) := by
      unfold Graph.removeFileTag
      simp only
      split
      · rename_i hp; simp [hp]
      · rename_i q hp
        have hp' : s.prod a = some q := hp
        have hm : x ∈ (removeFromTag { s with tags := modi s.tags a (del t) } q a t).byTag p t' ↔
            x ∈ s.byTag p t' ∧ ¬ (s.prod a = some p ∧ x = a ∧ t' = t) := by
          rw [mem_removeFromTag]
          simp only [hp', Option.some.injEq]
          grind
        split
        · exact hm
        · exact hm
    rw [hb]
    by_cases hx : x = a
    · subst hx
      rw [hbt]
      grind
    · simp [hx]
  · intro p x hx
    unfold Graph.removeFileTag at hx
    simp only at hx
    split at hx
    · exact .inl hx
    · rename_i q hp
      obtain ⟨b, j, hb⟩ := (removeFromTag_only { s with tags := modi s.tags a (del t) } q a t).eq
      rw [hb] at hx
      split at hx
      · have hx : x ∈ modi s.roots q (del a) p := hx
        rcases mem_modi.1 hx with ⟨rfl, hy⟩ | ⟨_, hy⟩
        · exact .inl (mem_del.1 hy).1
        · exact .inl hy
      · exact .inl hx

theorem GInv.addFileTags {s : State} (h : GInv s) {a : Nat} (ts : List Nat) (ha : s.isArt a)
    (hin : ∀ p, s.prod a = some p → a ∈ s.nodes p) : GInv (addFileTags s a ts) := by
  induction ts generalizing s with
  | nil => exact h
  | cons t ts ih =>
    obtain ⟨_, _, _, _, he⟩ := addFileTag_only s a t
    have h1 := h.addFileTag (t := t) ha hin
    refine ih h1 ?_ ?_
    · rw [he]; exact ha
    · rw [he]; exact hin

theorem GInv.removeFileTags {s : State} (h : GInv s) {a : Nat} (ts : List Nat) (ha : s.isArt a)
    (hin : ∀ p, s.prod a = some p → a ∈ s.nodes p) : GInv (removeFileTags s a ts) := by
  induction ts generalizing s with
  | nil => exact h
  | cons t ts ih =>
    obtain ⟨_, _, _, _, he⟩ := removeFileTag_only s a t
    have h1 := h.removeFileTag (t := t) ha hin
    refine ih h1 ?_ ?_
    · rw [he]; exact ha
    · rw [he]; exact hin

theorem GInv.setFileTags {s : State} (h : GInv s) {a : Nat} (new : List Nat) (ha : s.isArt a)
    (hin : ∀ p, s.prod a = some p → a ∈ s.nodes p) : GInv (setFileTags s a new) := by
  unfold Graph.setFileTags
  split
  · rename_i hp
    have hno : ∀ p, a ∉ s.nodes p := fun p hm => by
      have := (h.nodeLive p a hm).2.1; simp [hp] at this
    refine h.retag ha hin ⟨_, s.roots, s.byTag, s.jsOk, rfl⟩ ?_ ?_ ?_
    · intro x hx; simp [upd, hx]
    · intro p t x
      simp only [hp]
      constructor
      · intro hx
        exact .inl ⟨fun he => hno p (he ▸ ((h.tag p t x).1 hx).1), hx⟩
      · rintro (⟨_, hx⟩ | ⟨_, hx, _⟩)
        · exact hx
        · cases hx
    · exact fun p x hx => .inl hx
  · split
    · exact h
    · simp only
      generalize List.filter _ new = l1
      obtain ⟨_, _, _, _, he⟩ := addFileTags_only s a l1
      have h1 := h.addFileTags l1 ha hin
      refine h1.removeFileTags _ ?_ ?_
      · rw [he]; exact ha
      · rw [he]; exact hin

theorem GInv.destroy {s : State} (h : GInv s) {n : Nat} (hn : ∀ p, n ∉ s.nodes p)
    (hd : n ∉ s.fileDeps) (hsc : ∀ p, n ∉ s.scan p) (hsn : s.scan n = []) :
    GInv (destroy s n) := by
  refine ⟨?_, ?_, h.kind, h.look, h.lookDep, h.lookNodup, h.gen1, h.tag, h.roots, ?_⟩
  · intro p x hx
    have hxn : x ≠ n := fun he => hn p (he ▸ hx)
    simp only [Graph.destroy, upd, hxn, if_false]
    exact h.nodeLive p x hx
  · intro x hx
    have hxn : x ≠ n := fun he => hd (he ▸ hx)
    simp only [Graph.destroy, upd, hxn, if_false]
    exact h.depLive x hx
  · intro p c hc
    obtain ⟨h1, h2⟩ := h.scan p c hc
    have hcn : c ≠ n := fun he => hsc p (he ▸ hc)
    have hpn : p ≠ n := fun he => by
      have hc' : c ∈ s.scan p := hc
      rw [he, hsn] at hc'; cases hc'
    refine ⟨?_, h2⟩
    simp only [Graph.destroy, hpn, if_false]
    split
    · exact mem_del.2 ⟨h1, hcn⟩
    · exact h1

theorem GInv.step {guarded : Bool} {s s' : State} (hl : LInv s) (h : GInv s)
    (hs : Step true guarded s s') : GInv s' := by
  cases hs with
  | newArtifact n gen path tags hn h0 => exact h.create hl hn (by simp)
  | newFileDep n path hn h0 => exact h.create hl hn (by simp)
  | newRule n p hn h0 => exact h.createRule hl hn
  | insertArtifact p a hl ha => exact h.insertArtifact hl ha
  | insertFileDep x h1 h2 h3 => exact h.insertFileDep h1 h2 h3
  | removeFileDep x hx => exact h.removeFileDep hx
  | dropFileDep x hx => exact (h.dropFileDep hx).1
  | connect p c hp hc _ =>
    rcases connect_cases s p c with he | ⟨_, he⟩
    · rw [he]; exact h
    · rw [he]; exact h.link p c
  | safeConnect f u v r hu hv _ _ hr =>
    rcases safeConnect_cases hr with he | ⟨_, _, he⟩
    · rw [he]; exact h
    · rw [he]; exact h.link u v
  | scanConnect s1 f u v hu hv hua hva hr =>
    have hc := safeConnect_child hr
    have h1 : GInv s1 ∧ s1.isArt = s.isArt := by
      rcases safeConnect_cases hr with he | ⟨_, _, he⟩
      · rw [Res.state] at he; rw [he]; exact ⟨h, rfl⟩
      · rw [Res.state] at he; rw [he]; exact ⟨h.link u v, rfl⟩
    refine h1.1.of_links ⟨_, _, _, _, _, _, rfl⟩ fun p c hpc => ?_
    have hpc : c ∈ modi s1.scan u (ins v) p := hpc
    rcases mem_modi.1 hpc with ⟨rfl, hy⟩ | ⟨_, hpc⟩
    · rcases mem_ins.1 hy with rfl | hpc
      · exact ⟨hc, by rw [h1.2]; exact hua, by rw [h1.2]; exact hva⟩
      · exact h1.1.scan _ c hpc
    · exact h1.1.scan p c hpc
  | disconnect u v => exact h.disconnect u v
  | addFileTag a t _ ha hin => exact h.addFileTag ha hin
  | removeFileTag a t _ ha hin => exact h.removeFileTag ha hin
  | setFileTags a ts _ ha hin => exact h.setFileTags ts ha hin
  | removeArtifact _ a d he => exact h.removeArtifact hl.sym (removeArtifact_eff hl.sym he)
  | removeExcl _ f a he =>
    have := removeExcl_ind (P := fun s => LInv s ∧ GInv s)
      (fun s a h => ⟨h.1.of_same rfl rfl rfl rfl,
        h.2.of_links ⟨_, _, _, _, _, _, rfl⟩ h.2.scan⟩)
      (fun s p a h => ⟨h.1.examine p a, h.2.examine p a⟩)
      (fun s p h => ⟨h.1.of_same rfl rfl rfl rfl,
        h.2.of_links ⟨_, _, _, _, _, _, rfl⟩ h.2.scan⟩)
      (fun s a d s' h he => ⟨h.1.removeArtifact he,
        h.2.removeArtifact h.1.sym (removeArtifact_eff h.1.sym he)⟩)
      f s a s' ⟨hl, h⟩ he
    exact this.2
  | newRemovedSet => exact h.of_links ⟨_, _, _, _, _, _, rfl⟩ h.scan
  | destroy n _ hst =>
    obtain ⟨h1, h2, h3, h4⟩ := hst rfl
    exact h.destroy h1 h2 h3 h4

theorem GInv.init (pt : Nat → List Nat) : GInv (State.init pt) := by
  constructor <;> simp [State.init]

theorem Hist.ginv {guarded : Bool} {s : State} (h : Hist true guarded s) : GInv s := by
  induction h with
  | init pt => exact GInv.init pt
  | step hh hs ih => exact ih.step hh.linv hs

end Verif.Graph
