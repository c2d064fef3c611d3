import Verif.Graph.Hist

/-! # Theorems about the build graph (C21 - C26) -/

namespace Verif.Graph

/-! ## C21 -/

/-- **C21** After any sequence of graph operations - creation, insertion, connecting, disconnecting,
removal, and destruction of any node at any time - `p` is recorded as a parent of `c` iff `c` is
recorded as a child of `p`, and every node mentioned in a link exists. -/
theorem C21_links_symmetric {guarded : Bool} {s : State} (h : Hist false guarded s) :
    (∀ p c, c ∈ s.ch p ↔ p ∈ s.pa c) ∧
    (∀ p c, c ∈ s.ch p → s.live p ∧ s.live c) ∧ (∀ p c, p ∈ s.pa c → s.live p ∧ s.live c) :=
  ⟨h.linv.sym, h.linv.dang, fun p c hp => h.linv.dang p c ((h.linv.sym p c).2 hp)⟩

/-- **C21** A destroyed node is not mentioned in any link. -/
theorem C21_destroyed_unreferenced {guarded : Bool} {s : State} (h : Hist false guarded s) (n : Nat)
    (hn : s.live n = false) : s.ch n = [] ∧ s.pa n = [] ∧ ∀ x, n ∉ s.ch x ∧ n ∉ s.pa x := by
  obtain ⟨_, h2, h3⟩ := C21_links_symmetric h
  refine ⟨?_, ?_, fun x => ⟨fun hm => ?_, fun hm => ?_⟩⟩
  · cases hc : s.ch n with
    | nil => rfl
    | cons c cs => have := (h2 n c (by simp [hc])).1; simp [hn] at this
  · cases hc : s.pa n with
    | nil => rfl
    | cons c cs => have := (h3 c n (by simp [hc])).2; simp [hn] at this
  · have := (h2 x n hm).2; simp [hn] at this
  · have := (h3 n x hm).1; simp [hn] at this

/-- **C21** `disconnect` takes away exactly the given link. -/
theorem C21_disconnect_exact (s : State) (u v p c : Nat) :
    (c ∈ (disconnect s u v).ch p ↔ c ∈ s.ch p ∧ ¬ (p = u ∧ c = v)) ∧
    (p ∈ (disconnect s u v).pa c ↔ p ∈ s.pa c ∧ ¬ (p = u ∧ c = v)) :=
  ⟨disconnect_ch, disconnect_pa⟩

/-- **C21** `connect` adds exactly the given link, or throws and leaves everything as it was. -/
theorem C21_connect_exact (s : State) (u v : Nat) :
    (∃ s', connect s u v = .ok s' () ∧
      (∀ p c, c ∈ s'.ch p ↔ c ∈ s.ch p ∨ (p = u ∧ c = v))) ∨
    (connect s u v = .err s ∧ (u = v ∨ ∃ k ∈ s.ch u, k ≠ v ∧ s.path k = s.path v)) := by
  have hscan : ∀ ks, (connectScan s v ks = some true → v ∈ ks) ∧
      (connectScan s v ks = some false → ∃ k ∈ ks, k ≠ v ∧ s.path k = s.path v) := by
    intro ks
    induction ks with
    | nil => simp [connectScan]
    | cons k ks ih =>
      simp only [connectScan]
      split
      · exact ⟨fun h => List.mem_cons_of_mem _ (ih.1 h), fun h => by
          obtain ⟨x, hx, h'⟩ := ih.2 h
          exact ⟨x, List.mem_cons_of_mem _ hx, h'⟩⟩
      · split
        · rename_i hk; exact ⟨fun _ => by simp [hk], fun h => by simp at h⟩
        · rename_i hk
          split
          · rename_i hc
            exact ⟨fun h => by simp at h, fun _ => ⟨k, by simp, hk, hc.2⟩⟩
          · exact ⟨fun h => List.mem_cons_of_mem _ (ih.1 h), fun h => by
              obtain ⟨x, hx, h'⟩ := ih.2 h
              exact ⟨x, List.mem_cons_of_mem _ hx, h'⟩⟩
  unfold connect
  by_cases huv : u = v
  · rw [if_pos huv]; exact .inr ⟨rfl, .inl huv⟩
  · rw [if_neg huv]
    by_cases ha : s.isArt v
    · rw [if_pos ha]
      have := hscan (s.ch u)
      split
      · rename_i hc
        refine .inl ⟨s, rfl, fun p c => ⟨.inl, ?_⟩⟩
        rintro (h | ⟨rfl, rfl⟩)
        · exact h
        · exact this.1 hc
      · rename_i hc
        exact .inr ⟨rfl, .inr (this.2 hc)⟩
      · exact .inl ⟨_, rfl, fun p c => link_ch⟩
    · rw [if_neg ha]; exact .inl ⟨_, rfl, fun p c => link_ch⟩

/-! ## C22 -/

/-- **C22** `safeConnect` decides and terminates: in every graph that guarded connections can build,
with enough stack it returns; if there is a path back from `v` to `u`, it returns false and changes
nothing; if there is none, it returns true having added exactly the edge `u -> v`, or throws without
changing anything because `u` has another child with the file path of `v`. -/
theorem C22_safeConnect_decides {strict : Bool} {s : State} (h : Hist strict true s) (u v : Nat)
    (huv : u ≠ v) : ∃ F, ∀ f, F ≤ f → ∃ r, safeConnect s f u v = some r ∧
      (Reach s.ch v u → r = .ok s false) ∧
      (¬ Reach s.ch v u →
        (∃ s', r = .ok s' true ∧ ∀ p c, c ∈ s'.ch p ↔ c ∈ s.ch p ∨ (p = u ∧ c = v)) ∨
        (r = .err s ∧ ∃ k ∈ s.ch u, k ≠ v ∧ s.path k = s.path v)) := by
  have hfin := h.linv.fin
  obtain ⟨r0, f0, hf0⟩ := ret_of_acc (v := u) (acc_of_acyclic hfin h.acyclic v)
  refine ⟨max f0 (s.bound + 1), fun f hf => ?_⟩
  obtain ⟨b, hb⟩ := existsPath_some (u := v) (v := u) hfin (show s.bound < f by omega)
  have hfp := findPath_mono_le (show f0 ≤ f by omega) hf0
  have hcor := existsPath_correct hb
  unfold safeConnect
  rw [if_neg huv, hb]
  cases b with
  | true =>
    refine ⟨.ok s false, by simp [hfp], fun _ => rfl, fun hn => absurd (hcor.1 rfl) hn⟩
  | false =>
    have hn : ¬ Reach s.ch v u := fun hr => by cases hcor.2 hr
    rcases C21_connect_exact s u v with ⟨s', hc, he⟩ | ⟨hc, he⟩
    · exact ⟨.ok s' true, by simp [hc], fun hr => absurd hr hn, fun _ => .inl ⟨s', rfl, he⟩⟩
    · exact ⟨.err s, by simp [hc], fun hr => absurd hr hn,
        fun _ => .inr ⟨rfl, he.resolve_left huv⟩⟩

/-- **C22** Whatever graph operations happen in between, guarded connections keep the build graph
acyclic. -/
theorem C22_stays_acyclic {strict : Bool} {s : State} (h : Hist strict true s) : Acyclic s.ch :=
  h.acyclic

/-- **C22** `existsPath`, on which the guard rests, is right in any finite graph, with or without
cycles. -/
theorem C22_existsPath_exact {ch : Nat → List Nat} {N : Nat} (hN : FiniteBy ch N) (u v f : Nat)
    (hf : N < f) : existsPath ch f u v = some true ∧ Reach ch u v ∨
      existsPath ch f u v = some false ∧ ¬ Reach ch u v := by
  obtain ⟨b, hb⟩ := existsPath_some (u := u) (v := v) hN hf
  have := existsPath_correct hb
  cases b with
  | true => exact .inl ⟨hb, this.1 rfl⟩
  | false => exact .inr ⟨hb, fun hr => by cases this.2 hr⟩

/-- **C22** The unguarded `connect` does create cycles. -/
theorem C22_plain_connect_makes_cycle : ∃ s, Hist true false s ∧ ¬ Acyclic s.ch := by
  let s0 := State.init (fun _ => [])
  let s1 := create s0 1 true false true 10 []
  let s2 := create s1 2 true false true 20 []
  have h2 : Hist true false s2 :=
    ((Hist.init _).step (.newArtifact _ 1 true 10 [] rfl (by decide))).step
      (.newArtifact _ 2 true 20 [] rfl (by decide))
  have h3 : Hist true false (connect s2 1 2).state := h2.step (.connect _ 1 2 rfl rfl (by simp))
  have h4 : Hist true false (connect (connect s2 1 2).state 2 1).state :=
    h3.step (.connect _ 2 1 rfl rfl (by simp))
  refine ⟨_, h4, fun hac => hac 1 ⟨2, ?_, .step (w := 1) ?_ (.refl 1)⟩⟩
  · decide
  · decide

/-! ## C23 -/

/-- **C23** The cycle detector returns on every finite graph, and reports a cycle iff one is
reachable from the nodes it starts at. -/
theorem C23_detects_exactly_cycles {ch : Nat → List Nat} {N f : Nat} (hN : FiniteBy ch N)
    (hf : N < f) (roots : List Nat) (hr : ∀ r ∈ roots, r < N) :
    (∃ n par, detect ch f roots = .thrown n par ∧
      ∃ r ∈ roots, Reach ch r n ∧ OnCycle ch n) ∨
    ((∃ d, detect ch f roots = .done d) ∧
      ∀ r ∈ roots, ∀ v, Reach ch r v → ¬ OnCycle ch v) := by
  have hp := detect_post ch f roots
  have hnf := detect_ne_fuel hN hf roots hr
  cases hd : detect ch f roots with
  | fuel => exact absurd hd hnf
  | thrown n par =>
    rw [hd] at hp
    obtain ⟨h1, _, r, h3, h4⟩ := hp
    exact .inl ⟨n, par, rfl, r, h3, h4, h1⟩
  | done d =>
    rw [hd] at hp
    obtain ⟨h1, _, _, h4, _⟩ := hp
    exact .inr ⟨⟨d, rfl⟩, fun r hr v hv => not_acc_of_onCycle (h1.allAcc r (h4 r hr)) v hv⟩

/-- **C23** (partial) The reported list: it can be computed, starts and ends with a node that lies
on a cycle, and is a walk of the graph up to the last step.  Missing: the last step need not be an
edge, see `C23_reported_list_not_a_cycle`. -/
theorem C23_report_partial {ch : Nat → List Nat} {f n par : Nat} {roots : List Nat}
    (h : detect ch f roots = .thrown n par) :
    ∃ f' q, cycleList ch f' n par = some (n :: q ++ [n]) ∧ OnCycle ch n ∧ IsWalk ch (n :: q) := by
  have hp := detect_post ch f roots
  rw [h] at hp
  obtain ⟨h1, ⟨p, f', hf⟩, _⟩ := hp
  obtain ⟨q, rfl, hw, _⟩ := findPath_walk f' hf
  exact ⟨f', q, by simp [cycleList, hf], h1, hw⟩

/-- The graph 1 -> 3, 3 -> 0, 3 -> 1. -/
def exampleGraph : Nat → List Nat
  | 1 => [3]
  | 3 => [0, 1]
  | _ => []

/-- **C23** Finding: the reported list need not be a cycle of the graph.  Here 1 -> 3 -> 1 is the
only cycle, 0 is a leaf; the detector reports the list 1, 3, 0, 1, although 0 has no children: the
node recorded as the parent is not restored after visiting a child. -/
theorem C23_reported_list_not_a_cycle :
    detect exampleGraph 10 [1] = .thrown 1 0 ∧
    cycleList exampleGraph 10 1 0 = some [1, 3, 0, 1] ∧ ¬ IsWalk exampleGraph [1, 3, 0, 1] := by
  refine ⟨rfl, by decide, ?_⟩
  simp [IsWalk, exampleGraph]

example : FiniteBy exampleGraph 4 := by
  intro u
  match u with
  | 0 => simp [exampleGraph]
  | 1 => simp [exampleGraph]
  | 2 => simp [exampleGraph]
  | 3 => simp [exampleGraph]
  | n + 4 => simp [exampleGraph]

/-! ## C24 -/

/-- **C24** Looking up a path yields exactly the artifacts of this path which are in some product's
node set. -/
theorem C24_lookup_artifacts_exact {guarded : Bool} {s : State} (h : Hist true guarded s)
    (x path : Nat) (ha : s.isArt x) :
    x ∈ s.lookup path ↔ s.path x = path ∧ ∃ p, x ∈ s.nodes p :=
  h.ginv.look x path ha

/-- **C24** (partial) Everything found under a path exists, has this path, and is an artifact or one
of the project's file dependencies; nothing is listed twice.  Missing for exactness: a file
dependency can be in the graph and not be found, see `C24_vanished_dependency_not_found`. -/
theorem C24_lookup_sound_partial {guarded : Bool} {s : State} (h : Hist true guarded s)
    (x path : Nat) (hx : x ∈ s.lookup path) :
    s.live x ∧ s.path x = path ∧ ((∃ p, x ∈ s.nodes p) ∨ x ∈ s.fileDeps) ∧
      (s.lookup path).Nodup := by
  obtain ⟨h1, h2⟩ := h.ginv.lookDep x path hx
  rcases h2 with h2 | h2
  · obtain ⟨_, p, h3⟩ := (h.ginv.look x path h2).1 hx
    exact ⟨(h.ginv.nodeLive p x h3).1, h1, .inl ⟨p, h3⟩, h.ginv.lookNodup path⟩
  · exact ⟨(h.ginv.depLive x h2).1, h1, .inr h2, h.ginv.lookNodup path⟩

/-- **C24** No two generated artifacts in the graph have the same path. -/
theorem C24_generated_unique {guarded : Bool} {s : State} (h : Hist true guarded s)
    (x y p q : Nat) (hx : x ∈ s.nodes p) (hy : y ∈ s.nodes q) (hxa : s.isArt x) (hya : s.isArt y)
    (hxg : s.gen x) (hyg : s.gen y) (hp : s.path x = s.path y) : x = y :=
  h.ginv.gen1 x y (s.path x) ((h.ginv.look x _ hxa).2 ⟨rfl, p, hx⟩)
    ((h.ginv.look y _ hya).2 ⟨hp.symm, q, hy⟩) hxa hya hxg hyg

/-- **C24** Inserting a generated artifact whose path is already taken by an artifact of the graph
throws, and the artifact does not become part of the graph; otherwise the insertion of a new artifact
succeeds and it is found under its path. -/
theorem C24_second_insertion_rejected {guarded : Bool} {s : State} (h : Hist true guarded s)
    (a p : Nat) (ha : s.isArt a) (hp : s.prod a = none) :
    let taken := s.gen a ∧ ∃ x q, x ∈ s.nodes q ∧ s.isArt x ∧ s.path x = s.path a
    (taken → ∃ s', insertArtifact s p a = .err s' ∧ s'.lookup = s.lookup ∧ s'.nodes = s.nodes ∧
      s'.byTag = s.byTag) ∧
    (¬ taken → ∃ s', insertArtifact s p a = .ok s' () ∧ a ∈ s'.lookup (s.path a) ∧
      a ∈ s'.nodes p) := by
  intro taken
  have hno : ∀ q, a ∉ s.nodes q := fun q hm => by
    have := (h.ginv.nodeLive q a hm).2.1; simp [hp] at this
  have hnl : ∀ k, a ∉ s.lookup k := fun k hm => by
    obtain ⟨q, hq⟩ := ((h.ginv.look a k ha).1 hm).2
    exact hno q hq
  have hiff : taken ↔ (s.isArt a ∧ s.gen a ∧ (s.lookup (s.path a)).any s.isArt) := by
    constructor
    · rintro ⟨h1, x, q, h2, h3, h4⟩
      exact ⟨ha, h1, List.any_eq_true.2 ⟨x, (h.ginv.look x _ h3).2 ⟨h4, q, h2⟩, h3⟩⟩
    · rintro ⟨_, h1, h2⟩
      obtain ⟨x, hx, hxa⟩ := List.any_eq_true.1 h2
      obtain ⟨h3, q, h4⟩ := (h.ginv.look x _ hxa).1 hx
      exact ⟨h1, x, q, h4, hxa, h3⟩
  unfold insertArtifact insertLookup
  simp only
  rw [if_neg (by simp [hp])]
  constructor
  · intro ht
    rw [if_pos (hiff.1 ht)]
    exact ⟨_, rfl, rfl, rfl, rfl⟩
  · intro ht
    rw [if_neg (fun hc => ht (hiff.2 hc)), if_neg (hnl _)]
    simp only
    unfold addArtifact
    simp only
    rw [if_neg (hno p)]
    obtain ⟨b, j, hb⟩ := (addToTags_only
      { s with
        prod := upd s.prod a (some p)
        lookup := modi s.lookup (s.path a) (· ++ [a])
        nodes := modi s.nodes p (ins a) } p a (s.tags a)).eq
    rw [hb]
    refine ⟨_, rfl, ?_, ?_⟩
    · simp [modi]
    · simp [modi, mem_ins]

/-- **C24** Finding: a file dependency whose file has vanished stays part of the graph, but is not
found under its path any more. -/
theorem C24_vanished_dependency_not_found :
    ∃ s, Hist true true s ∧ ∃ x, x ∈ s.fileDeps ∧ s.live x ∧ x ∉ s.lookup (s.path x) := by
  let s1 := create (State.init (fun _ => [])) 1 false true false 10 []
  have h1 : Hist true true s1 := (Hist.init _).step (.newFileDep _ 1 10 rfl (by decide))
  have h2 : Hist true true (insertFileDep s1 1).state :=
    h1.step (.insertFileDep _ 1 rfl rfl (by decide))
  have h3 := h2.step (.dropFileDep _ 1 (by decide))
  exact ⟨_, h3, 1, by decide, by decide, by decide⟩

/-! ## C25 -/

/-- **C25** The per-tag index of a product contains a node under a tag iff the node is an artifact of
the product carrying this tag. -/
theorem C25_tag_index_exact {guarded : Bool} {s : State} (h : Hist true guarded s) (p t x : Nat) :
    x ∈ s.byTag p t ↔ x ∈ s.nodes p ∧ s.isArt x ∧ t ∈ s.tags x :=
  h.ginv.tag p t x

/-- **C25** Nodes know their product: a node in a product's node set exists and has this product,
so it is in at most one node set. -/
theorem C25_nodes_have_product {guarded : Bool} {s : State} (h : Hist true guarded s) (p q x : Nat)
    (hp : x ∈ s.nodes p) : s.live x ∧ s.prod x = some p ∧ (x ∈ s.nodes q → p = q) := by
  refine ⟨(h.ginv.nodeLive p x hp).1, (h.ginv.nodeLive p x hp).2.1, fun hq => ?_⟩
  have := (h.ginv.nodeLive q x hq).2.1
  rw [(h.ginv.nodeLive p x hp).2.1] at this
  exact Option.some.inj this

/-- **C25** Root nodes of a product are nodes of this product. -/
theorem C25_roots_are_nodes {guarded : Bool} {s : State} (h : Hist true guarded s) (p x : Nat)
    (hp : x ∈ s.roots p) : x ∈ s.nodes p := h.ginv.roots p x hp

/-- A history with two products' artifacts, links and tags, showing that the hypotheses of
C21 - C25 are met by a non-trivial graph. -/
theorem history_example : ∃ s, Hist true true s ∧ s.ch 1 = [2] ∧ s.pa 2 = [1] ∧ 1 ∈ s.byTag 7 5 ∧
    s.lookup 10 = [1] ∧ s.gen 1 ∧ 3 ∈ s.fileDeps := by
  let s0 := State.init (fun _ => [5])
  let s1 := create s0 1 true false true 10 [5]
  let s2 := create s1 2 true false false 20 []
  have h2 : Hist true true s2 :=
    ((Hist.init _).step (.newArtifact _ 1 true 10 [5] rfl (by decide))).step
      (.newArtifact _ 2 false 20 [] rfl (by decide))
  have h3 := h2.step (.insertArtifact s2 7 1 rfl rfl)
  have h4 := h3.step (.insertArtifact _ 7 2 (by decide) (by decide))
  have h5 := h4.step (.addFileTag _ 2 6 (by decide) (by decide) (by
    intro p hp
    have : p = 7 := by
      have h : (some 7 : Option Nat) = some p := hp
      simpa using h.symm
    subst this; decide))
  have h6 := h5.step (.safeConnect _ 10 1 2 (.ok (link _ 1 2) true) (by decide) (by decide)
    (by decide) (by decide) rfl)
  have h7 := h6.step (.newFileDep _ 3 30 (by decide) (by decide))
  have h8 := h7.step (.insertFileDep _ 3 (by decide) (by decide) (by decide))
  exact ⟨_, h8, by decide, by decide, by decide, by decide, by decide, by decide⟩

/-! ## C26 -/

/-- All removals of the list done, starting from a graph that is in order. -/
theorem removeList_post {s0 : State} {A : List Nat} (hok : RemovalOk s0)
    (hprod : ∀ x, s0.isArt x → (x ∈ A ∨ s0.ch x ≠ []) → s0.prod x ≠ none)
    (hA : ∀ a ∈ A, s0.isArt a) {f : Nat} (hf : links s0.pa s0.bound < f) :
    ∀ (as : List Nat), (∀ a ∈ as, a ∈ A) → ∀ s, RInv s0 A s → Shrink s0 s →
      (∀ x ∈ s.removed, Done s0 true s x) →
      ∃ s', removeList f as s = some s' ∧ RInv s0 A s' ∧ Shrink s s' ∧
        (∀ x ∈ s'.removed, Done s0 true s' x) ∧ (∀ a ∈ as, a ∈ s'.removed) := by
  have hscan : ∀ p c, c ∈ s0.scan p → s0.isArt p := fun p c h => (hok.scanCh p c h).2.1
  intro as
  induction as with
  | nil => intro _ s hi _ hd; exact ⟨s, rfl, hi, Shrink.refl s, hd, by simp⟩
  | cons a as ih =>
    intro has s hi hsh hd
    have ha : a ∈ A := has a (by simp)
    have hi1 : RInv s0 A { s with removed := ins a s.removed } :=
      hi.addRemoved (.self ha) (hA a ha)
    have hl : links s.pa s0.bound < f := Nat.lt_of_le_of_lt (links_le hsh.pa _) hf
    obtain ⟨s1, hs1⟩ := removeExcl_some true hok (fun x h1 h2 _ => hprod x h1 h2) f s a hi1 hl
    obtain ⟨hc, hda⟩ := removeExcl_post true hok.sym hscan f s a s1 hi1 hs1
    have hsh1 : Shrink s s1 := (Shrink.addRemoved s a).trans hc.shrink
    have hd1 : ∀ x ∈ s1.removed, Done s0 true s1 x := by
      intro x hx
      rcases hc.done x hx with h | h
      · rcases mem_ins.1 h with rfl | h
        · exact hda
        · exact (hd x h).mono hsh1
      · exact h
    obtain ⟨s2, h2, h3, h4, h5, h6⟩ := ih (fun b hb => has b (by simp [hb])) s1 hc.inv
      (hsh.trans hsh1) hd1
    refine ⟨s2, by simp [removeList, hs1, h2], h3, hsh1.trans h4, h5, fun b hb => ?_⟩
    rcases List.mem_cons.1 hb with rfl | hb
    · exact h4.removed _ (hc.shrink.removed _ (mem_ins.2 (.inl rfl)))
    · exact h6 b hb

/-- What C26 says about the graph `s'` after removing the artifacts `A` from `s`. -/
structure RemovedExactly (s : State) (A : List Nat) (s' : State) : Prop where
  /-- Exactly these artifacts are reported as removed. -/
  removed : ∀ x, x ∈ s'.removed ↔ Gone s A x
  /-- Exactly the links between remaining nodes remain. -/
  children : ∀ p c, c ∈ s'.ch p ↔ c ∈ s.ch p ∧ ¬ Gone s A p ∧ ¬ Gone s A c
  parents : ∀ p c, p ∈ s'.pa c ↔ p ∈ s.pa c ∧ ¬ Gone s A p ∧ ¬ Gone s A c
  scanned : ∀ p c, ¬ Gone s A p → (c ∈ s'.scan p ↔ c ∈ s.scan p ∧ ¬ Gone s A c)
  /-- Remaining transformers have exactly their remaining inputs and outputs. -/
  inputs : ∀ p t i, s.isArt p → ¬ Gone s A p → s.trafo p = some t →
    (i ∈ s'.inp t ↔ i ∈ s.inp t ∧ ¬ Gone s A i)
  outputs : ∀ x t, s.trafo x = some t → (x ∈ s'.out t ↔ x ∈ s.out t ∧ ¬ Gone s A x)
  /-- Remaining artifacts which lost a child are out of date; the others keep their timestamp. -/
  outdated : ∀ p, s.isArt p → ¬ Gone s A p →
    (s'.tsOk p ↔ s.tsOk p ∧ ∀ c ∈ s.ch p, ¬ Gone s A c)
  /-- Removed artifacts are not found any more, the others are. -/
  lookup : ∀ x, x ∈ s'.lookup (s.path x) ↔ x ∈ s.lookup (s.path x) ∧ ¬ Gone s A x
  nodes : ∀ x p, s.prod x = some p →
    (x ∈ s'.nodes p ↔ x ∈ s.nodes p ∧ ¬ Gone s A x) ∧
    (x ∈ s'.roots p ↔ x ∈ s.roots p ∧ ¬ Gone s A x) ∧
    (∀ t ∈ s.tags x, x ∈ s'.byTag p t ↔ x ∈ s.byTag p t ∧ ¬ Gone s A x)
  /-- Exactly the files of removed generated artifacts are deleted. -/
  files : ∀ k, s'.disk k ↔ s.disk k ∧ ¬ ∃ x, Gone s A x ∧ s.gen x ∧ s.path x = k
  /-- Rule nodes do not remember removed artifacts. -/
  ruleInputs : ∀ r x, s.isArt r = false → x ≠ 0 → Gone s A x → x ∉ s'.old r ∧ x ∉ s'.oldEx r

/-- **C26** Removing artifacts from a graph that is in order: it terminates, no internal check
fails, and exactly the artifacts themselves and their exclusive dependents go, with all their links,
index entries and files; the rest keeps everything else. -/
theorem C26_removes_exactly {s : State} {A : List Nat} (hok : RemovalOk s)
    (hprod : ∀ x, s.isArt x → (x ∈ A ∨ s.ch x ≠ []) → s.prod x ≠ none)
    (hA : ∀ a ∈ A, s.isArt a) (hr : s.removed = []) :
    ∃ F, ∀ f, F ≤ f → ∃ s', removeList f A s = some s' ∧ RemovedExactly s A s' := by
  refine ⟨links s.pa s.bound + 1, fun f hf => ?_⟩
  obtain ⟨s', h1, hi, hsh, hd, hall⟩ := removeList_post hok hprod hA (show _ < f by omega) A
    (fun _ h => h) s (RInv.init hok hr) (Shrink.refl s) (by simp [hr])
  refine ⟨s', h1, ?_⟩
  have hnoch : ∀ p c, c ∈ s'.removed → c ∉ s'.ch p := fun p c hc hm => by
    have := (hi.sym p c).1 hm
    rw [(hd c hc).pa] at this; cases this
  have hgone : ∀ x, Gone s A x → x ∈ s'.removed := by
    intro x hx
    induction hx with
    | self h => exact hall _ h
    | @noChild p c ha hc _ _ ih1 ih2 =>
      apply Classical.byContradiction
      intro hp
      rcases hi.pend p c ha hp hc (hnoch p c ih1) with ⟨k, hk, hk'⟩ | ⟨h, _⟩
      · exact hnoch p k hk hk'
      · obtain ⟨k, ks, hk⟩ := List.exists_cons_of_ne_nil h
        have hk' : k ∈ s'.ch p := by simp [hk]
        exact hnoch p k (ih2 k (hi.chSub p k hk')) hk'
    | @noInput p c t ha hc _ ht _ ih1 ih2 =>
      apply Classical.byContradiction
      intro hp
      rcases hi.pend p c ha hp hc (hnoch p c ih1) with ⟨k, hk, hk'⟩ | ⟨_, h⟩
      · exact hnoch p k hk hk'
      · obtain ⟨i, is, hi'⟩ := List.exists_cons_of_ne_nil (h t ht)
        have hi'' : i ∈ s'.inp t := by simp [hi']
        exact hnoch p i (ih2 i (hi.inpSub t i hi'')) (hi.inpCh p t i ha hp ht hi'')
  have hrem : ∀ x, x ∈ s'.removed ↔ Gone s A x := fun x => ⟨fun h => (hi.sound x h).1, hgone x⟩
  have hch : ∀ p c, c ∈ s'.ch p ↔ c ∈ s.ch p ∧ ¬ Gone s A p ∧ ¬ Gone s A c := by
    intro p c
    constructor
    · intro h
      refine ⟨hi.chSub p c h, fun hg => ?_, fun hg => hnoch p c (hgone c hg) h⟩
      rw [(hd p (hgone p hg)).ch] at h; cases h
    · rintro ⟨h1, h2, h3⟩
      apply Classical.byContradiction
      intro hn
      rcases hi.cut p c h1 hn with h | h
      · exact h3 ((hrem c).1 h)
      · exact h2 ((hrem p).1 h)
  refine ⟨hrem, hch, ?_, ?_, ?_, ?_, ?_, ?_, ?_, ?_, ?_⟩
  · intro p c
    rw [← hi.sym p c, hch, hok.sym p c]
  · intro p c hp
    constructor
    · intro h
      obtain ⟨h1, h2⟩ := hi.scanSub p c h
      exact ⟨h1, ((hch p c).1 h2).2.2⟩
    · rintro ⟨h1, h2⟩
      apply Classical.byContradiction
      intro hn
      rcases hi.scanCut p c h1 hn with h | h
      · exact h2 ((hrem c).1 h)
      · exact hp ((hrem p).1 h)
  · intro p t i ha hp ht
    constructor
    · intro h
      refine ⟨hi.inpSub t i h, ?_⟩
      have := hi.inpCh p t i ha (fun hm => hp ((hrem p).1 hm)) ht h
      exact ((hch p i).1 this).2.2
    · rintro ⟨h1, h2⟩
      apply Classical.byContradiction
      intro hn
      exact h2 ((hrem i).1 (hi.inpCut t i h1 hn))
  · intro x t ht
    constructor
    · intro h
      exact ⟨hsh.out t x h, fun hg => (hd x (hgone x hg)).out t ht h⟩
    · rintro ⟨h1, h2⟩
      apply Classical.byContradiction
      intro hn
      exact h2 ((hrem x).1 (hi.outKeep t x h1 hn))
  · intro p ha hp
    have hpr : p ∉ s'.removed := fun hm => hp ((hrem p).1 hm)
    constructor
    · intro h
      have hk : ∀ c ∈ s.ch p, c ∈ s'.ch p := fun c hc => Classical.byContradiction fun hn => by
        rw [hi.tsCut p c ha hpr hc hn] at h; cases h
      rw [hi.tsKeep p hpr hk] at h
      exact ⟨h, fun c hc => ((hch p c).1 (hk c hc)).2.2⟩
    · rintro ⟨h, hk⟩
      rw [hi.tsKeep p hpr fun c hc => (hch p c).2 ⟨hc, hp, hk c hc⟩]
      exact h
  · intro x
    constructor
    · intro h
      exact ⟨hsh.look _ x h, fun hg => ((hd x (hgone x hg)).look (s.path x)).elim (· h) (· rfl)⟩
    · rintro ⟨h1, h2⟩
      apply Classical.byContradiction
      intro hn
      exact h2 ((hrem x).1 (hi.lookKeep _ x h1 hn))
  · intro x p hp
    refine ⟨⟨fun h => ⟨hsh.nodes p x h, fun hg => ?_⟩, fun ⟨h1, h2⟩ => ?_⟩,
      ⟨fun h => ⟨hsh.roots p x h, fun hg => ?_⟩, fun ⟨h1, h2⟩ => ?_⟩,
      fun t ht => ⟨fun h => ⟨hsh.byTag p t x h, fun hg => ?_⟩, fun ⟨h1, h2⟩ => ?_⟩⟩
    · exact ((hd x (hgone x hg)).nodes rfl p hp).1 h
    · exact Classical.byContradiction fun hn => h2 ((hrem x).1 (hi.nodesKeep p x h1 hn))
    · exact ((hd x (hgone x hg)).nodes rfl p hp).2.1 h
    · exact Classical.byContradiction fun hn => h2 ((hrem x).1 (hi.rootsKeep p x h1 hn))
    · exact ((hd x (hgone x hg)).nodes rfl p hp).2.2 t ht h
    · exact Classical.byContradiction fun hn => h2 ((hrem x).1 (hi.tagKeep p t x h1 hn))
  · intro k
    constructor
    · intro h
      refine ⟨?_, ?_⟩
      · cases hs : s.disk k with
        | true => rfl
        | false => rw [hsh.disk k hs] at h; cases h
      · rintro ⟨x, hg, hge, rfl⟩
        rw [(hd x (hgone x hg)).disk hge] at h; cases h
    · rintro ⟨hs, hn⟩
      cases hs' : s'.disk k with
      | true => rfl
      | false =>
        obtain ⟨x, hx, h1, h2⟩ := hi.diskKeep k hs hs'
        exact absurd ⟨x, (hrem x).1 hx, h1, h2⟩ hn
  · intro r x hr hx hg
    have hpa := (hd x (hgone x hg)).pa
    constructor
    · intro h
      have := hi.oldPa r x hr h hx
      rw [hpa] at this; cases this
    · intro h
      have := hi.oldExPa r x hr h hx
      rw [hpa] at this; cases this

/-- Artifacts 1 (source), 2 (from 1), 3 (from 2, with 1 as a further dependency), 4 (from 3),
5 (from 1, explicitly depending on 2), 6 (from no inputs, explicitly depending on 1 and 2). -/
def demo : State :=
  { State.init (fun _ => []) with
    live := fun n => 1 ≤ n ∧ n ≤ 6
    isArt := fun n => 1 ≤ n ∧ n ≤ 6
    gen := fun n => 2 ≤ n ∧ n ≤ 6
    path := id
    prod := fun n => if 1 ≤ n ∧ n ≤ 6 then some 7 else none
    trafo := fun n => if 2 ≤ n ∧ n ≤ 6 then some (n * 10) else none
    ch := fun n => if n = 2 then [1] else if n = 3 then [1, 2] else if n = 4 then [3]
      else if n = 5 then [1, 2] else if n = 6 then [1, 2] else []
    pa := fun n => if n = 1 then [2, 3, 5, 6] else if n = 2 then [3, 5, 6] else if n = 3 then [4]
      else []
    inp := fun t => if t = 20 then [1] else if t = 30 then [2] else if t = 40 then [3]
      else if t = 50 then [1] else []
    expl := fun t => if t = 50 then [2] else if t = 60 then [1, 2] else []
    out := fun t => if t = 20 then [2] else if t = 30 then [3] else if t = 40 then [4]
      else if t = 50 then [5] else if t = 60 then [6] else []
    tsOk := fun n => 1 ≤ n ∧ n ≤ 6
    lookup := fun k => if 1 ≤ k ∧ k ≤ 6 then [k] else []
    nodes := fun p => if p = 7 then [1, 2, 3, 4, 5, 6] else []
    disk := fun n => 1 ≤ n ∧ n ≤ 6
    bound := 7 }

theorem demo_ok : RemovalOk demo := by
  constructor
  · intro p c
    simp only [demo]
    grind
  · intro p t i
    simp only [demo]
    grind
  · simp [demo, State.init]
  · intro c
    simp only [demo]
    grind
  · intro k
    simp only [demo]
    split <;> simp
  · simp [demo, State.init]
  · simp [demo, State.init]

/-- The hypotheses of `C26_removes_exactly` are met by `demo` and the removal of 2. -/
theorem demo_removed : ∃ F, ∀ f, F ≤ f → ∃ s', removeList f [2] demo = some s' ∧
    RemovedExactly demo [2] s' :=
  C26_removes_exactly demo_ok (by
    intro x hx _
    simp only [demo, decide_eq_true_eq] at hx
    simp [demo, hx]) (by simp [demo]) rfl

/-- What happens to `demo` when 2 is removed: 3, 4 and 6 go as well, 1 and 5 stay. -/
theorem demo_result : (removeList 20 [2] demo).map (·.removed) = some [2, 3, 4, 6] := by decide

/-- **C26** Finding: a dangling reference remains.  5 stays, and its transformer still lists the
removed 2 among its explicit dependencies. -/
theorem C26_explicit_dependency_dangles : ∃ s', removeList 20 [2] demo = some s' ∧
    2 ∈ s'.removed ∧ 5 ∉ s'.removed ∧ demo.trafo 5 = some 50 ∧ 2 ∈ (destroyList s'.removed s').expl 50 ∧
    (destroyList s'.removed s').live 2 = false := by
  cases h : removeList 20 [2] demo with
  | none => exact absurd h (by decide)
  | some s' =>
    have key : ∀ o : Option State, o = removeList 20 [2] demo → ∀ s', o = some s' →
        2 ∈ s'.removed ∧ 5 ∉ s'.removed ∧ 2 ∈ (destroyList s'.removed s').expl 50 ∧
        (destroyList s'.removed s').live 2 = false := by
      intro o ho s' hs'
      have : ∀ x, (removeList 20 [2] demo).map (fun s' => (decide (2 ∈ s'.removed ∧ 5 ∉ s'.removed ∧
          2 ∈ (destroyList s'.removed s').expl 50 ∧
          (destroyList s'.removed s').live 2 = false))) = some x → x = true := by
        decide +kernel
      have h2 := this (decide (2 ∈ s'.removed ∧ 5 ∉ s'.removed ∧
          2 ∈ (destroyList s'.removed s').expl 50 ∧
          (destroyList s'.removed s').live 2 = false)) (by rw [← ho, hs']; rfl)
      exact of_decide_eq_true h2
    obtain ⟨h1, h2, h3, h4⟩ := key _ rfl s' h
    exact ⟨s', rfl, h1, h2, by decide, h3, h4⟩

/-- **C26** Finding: 6 is removed although one of its two children remains and its rule takes no
inputs: an artifact whose transformer has no inputs goes with the first of its dependencies. -/
theorem C26_no_inputs_removed : Gone demo [2] 6 ∧ demo.ch 6 = [1, 2] ∧ demo.inp 60 = [] ∧
    ¬ Gone demo [2] 1 := by
  refine ⟨.noInput (c := 2) (t := 60) rfl (by decide) (.self (by simp)) (by decide) (by simp [demo]),
    by decide, by decide, fun h => ?_⟩
  cases h with
  | self h => simp at h
  | noChild _ hc => simp [demo] at hc
  | noInput _ hc => simp [demo] at hc

end Verif.Graph
