import Verif.Graph.Hist
/-! # The root artifacts of a product -/
namespace Verif.Graph

/-- Roots carry a tag of the product's type. -/
def RootInv (s : State) : Prop := ∀ p x, x ∈ s.roots p → ∃ t ∈ s.ptags p, t ∈ s.tags x

theorem RootInv.same {s s' : State} (h : RootInv s) (hr : ∀ p x, x ∈ s'.roots p → x ∈ s.roots p)
    (hp : s'.ptags = s.ptags) (ht : s'.tags = s.tags) : RootInv s' := by
  intro p x hx
  rw [hp, ht]
  exact h p x (hr p x hx)

theorem addFileTag_tags (s : State) (a t : Nat) :
    (addFileTag s a t).tags = modi s.tags a (ins t) := by
  unfold addFileTag
  simp only
  split
  · rfl
  · split <;> rfl

theorem removeFileTag_tags (s : State) (a t : Nat) :
    (removeFileTag s a t).tags = modi s.tags a (del t) := by
  unfold removeFileTag
  simp only
  split
  · rfl
  · rename_i q hp
    obtain ⟨b, j, hb⟩ := (removeFromTag_only { s with tags := modi s.tags a (del t) } q a t).eq
    rw [hb]
    split <;> rfl

theorem RootInv.addFileTag {s : State} (h : RootInv s) (a t : Nat) : RootInv (addFileTag s a t) := by
  have htags := addFileTag_tags s a t
  obtain ⟨_, _, _, _, he⟩ := addFileTag_only s a t
  have hpt : (Graph.addFileTag s a t).ptags = s.ptags := by rw [he]
  intro p x hx
  rw [hpt, htags]
  have old : x ∈ s.roots p → ∃ t' ∈ s.ptags p, t' ∈ modi s.tags a (ins t) x := by
    intro hx
    obtain ⟨t', h1, h2⟩ := h p x hx
    refine ⟨t', h1, ?_⟩
    by_cases hxa : x = a
    · rw [hxa] at h2 ⊢; rw [modi_same]; exact mem_ins.2 (.inr h2)
    · rw [modi_ne _ _ hxa]; exact h2
  unfold Graph.addFileTag at hx
  simp only at hx
  split at hx
  · exact old hx
  · rename_i q hp
    split at hx
    · rename_i ht
      rcases mem_modi.1 hx with ⟨rfl, hx⟩ | ⟨_, hx⟩
      · rcases mem_ins.1 hx with rfl | hx
        · exact ⟨t, ht, by rw [modi_same]; exact mem_ins.2 (.inl rfl)⟩
        · exact old hx
      · exact old hx
    · exact old hx

theorem RootInv.removeFileTag {s : State} (h : RootInv s) (hg : GInv s) (a t : Nat) :
    RootInv (removeFileTag s a t) := by
  have htags := removeFileTag_tags s a t
  obtain ⟨_, _, _, _, he⟩ := removeFileTag_only s a t
  have hpt : (Graph.removeFileTag s a t).ptags = s.ptags := by rw [he]
  intro p x hx
  rw [hpt, htags]
  have other : x ∈ s.roots p → x ≠ a → ∃ t' ∈ s.ptags p, t' ∈ modi s.tags a (del t) x := by
    intro hx hxa
    rw [modi_ne _ _ hxa]
    exact h p x hx
  unfold Graph.removeFileTag at hx
  simp only at hx
  split at hx
  · rename_i hp
    by_cases hxa : x = a
    · have := (hg.nodeLive p x (hg.roots p x hx)).2.1
      rw [hxa] at this
      have hp : s.prod a = none := hp
      rw [hp] at this
      cases this
    · exact other hx hxa
  · rename_i q hp
    have hp : s.prod a = some q := hp
    obtain ⟨b, j, hb⟩ := (removeFromTag_only { s with tags := modi s.tags a (del t) } q a t).eq
    rw [hb] at hx
    split at hx
    · have hx : x ∈ modi s.roots q (del a) p := hx
      rcases mem_modi.1 hx with ⟨rfl, hy⟩ | ⟨hne, hy⟩
      · exact other (mem_del.1 hy).1 (mem_del.1 hy).2
      · refine other hy ?_
        rintro rfl
        have := (hg.nodeLive p x (hg.roots p x hy)).2.1
        rw [hp] at this
        exact hne (Option.some.inj this).symm
    · rename_i hcond
      have hx : x ∈ s.roots p := hx
      by_cases hxa : x = a
      · have hq : p = q := by
          have := (hg.nodeLive p x (hg.roots p x hx)).2.1
          rw [hxa, hp] at this
          exact (Option.some.inj this).symm
        obtain ⟨t', h1, h2⟩ := h p x hx
        rw [hxa] at h2 ⊢
        rw [modi_same]
        by_cases htt : t' = t
        · subst htt
          rw [hq] at h1 ⊢
          have hany : (s.ptags q).any (fun x => decide (x ∈ modi s.tags a (del t') a)) = true := by
            by_cases hh : (s.ptags q).any (fun x => decide (x ∈ modi s.tags a (del t') a)) = true
            · exact hh
            · exact absurd ⟨h1, hh⟩ hcond
          obtain ⟨y, hy1, hy2⟩ := List.any_eq_true.1 hany
          refine ⟨y, hy1, ?_⟩
          have := of_decide_eq_true hy2
          rw [modi_same] at this
          exact this
        · exact ⟨t', h1, mem_del.2 ⟨h2, htt⟩⟩
      · exact other hx hxa

theorem RootInv.addFileTags {s : State} (h : RootInv s) (a : Nat) (ts : List Nat) :
    RootInv (addFileTags s a ts) := by
  induction ts generalizing s with
  | nil => exact h
  | cons t ts ih => exact ih (h.addFileTag a t)

theorem RootInv.removeFileTags {s : State} (h : RootInv s) (hg : GInv s) {a : Nat} (ts : List Nat)
    (ha : s.isArt a) (hin : ∀ p, s.prod a = some p → a ∈ s.nodes p) :
    RootInv (removeFileTags s a ts) := by
  induction ts generalizing s with
  | nil => exact h
  | cons t ts ih =>
    obtain ⟨_, _, _, _, he⟩ := removeFileTag_only s a t
    refine ih (h.removeFileTag hg a t) (hg.removeFileTag ha hin) ?_ ?_
    · rw [he]; exact ha
    · rw [he]; exact hin

theorem RootInv.setFileTags {s : State} (h : RootInv s) (hg : GInv s) {a : Nat} (new : List Nat)
    (ha : s.isArt a) (hin : ∀ p, s.prod a = some p → a ∈ s.nodes p) :
    RootInv (setFileTags s a new) := by
  unfold Graph.setFileTags
  split
  · rename_i hp
    intro p x hx
    have hx : x ∈ s.roots p := hx
    have hxa : x ≠ a := by
      rintro rfl
      have := (hg.nodeLive p x (hg.roots p x hx)).2.1
      rw [hp] at this
      cases this
    show ∃ t ∈ s.ptags p, t ∈ upd s.tags a new x
    rw [show upd s.tags a new x = s.tags x by simp [upd, hxa]]
    exact h p x hx
  · split
    · exact h
    · simp only
      generalize List.filter _ new = l1
      obtain ⟨_, _, _, _, he⟩ := addFileTags_only s a l1
      refine (h.addFileTags a l1).removeFileTags (hg.addFileTags l1 ha hin) _ ?_ ?_
      · rw [he]; exact ha
      · rw [he]; exact hin

theorem RootInv.create {s : State} (h : RootInv s) (hl : LInv s) (hg : GInv s) {n : Nat}
    (hn : s.live n = false) (art dep gen : Bool) (path : Nat) (tags : List Nat) :
    RootInv (create s n art dep gen path tags) := by
  intro p x hx
  have hx : x ∈ s.roots p := hx
  have hxn : x ≠ n := by
    rintro rfl
    have := (hg.nodeLive p x (hg.roots p x hx)).1
    rw [hn] at this
    cases this
  show ∃ t ∈ s.ptags p, t ∈ upd s.tags n tags x
  rw [show upd s.tags n tags x = s.tags x by simp [upd, hxn]]
  exact h p x hx

theorem RootInv.step {guarded : Bool} {s s' : State} (hl : LInv s) (hg : GInv s) (h : RootInv s)
    (hs : Step true guarded s s') : RootInv s' := by
  have rem : ∀ (s : State) a d s', LInv s → RootInv s → Graph.removeArtifact s a d true = some s' →
      RootInv s' := fun s a d s' hl h he =>
    have hr := removeArtifact_eff hl.sym he
    h.same (fun p x hx => ((hr.roots p x).1 hx).1) hr.base.ptags hr.base.tags
  cases hs with
  | newArtifact n gen path tags hn h0 => exact h.create hl hg hn _ _ _ _ _
  | newFileDep n path hn h0 => exact h.create hl hg hn _ _ _ _ _
  | newRule n p hn h0 =>
    exact (h.create hl hg hn false false false 0 []).same (fun _ _ hx => hx) rfl rfl
  | insertArtifact p a _ ha =>
    obtain ⟨_, _, _, _, _, he⟩ := insertArtifact_only s p a
    rw [he]; exact h
  | insertFileDep x h1 h2 h3 =>
    unfold Graph.insertFileDep
    obtain ⟨_, he⟩ := insertLookup_only { s with fileDeps := ins x s.fileDeps } x
    rw [he]; exact h
  | removeFileDep x hx => exact h
  | dropFileDep x hx => exact h
  | connect p c hp hc _ =>
    rcases connect_cases s p c with he | ⟨_, he⟩
    · rw [he]; exact h
    · rw [he]; exact h
  | safeConnect f u v r hu hv _ _ hr =>
    rcases safeConnect_cases hr with he | ⟨_, _, he⟩
    · rw [he]; exact h
    · rw [he]; exact h
  | scanConnect s1 f u v hu hv hua hva hr =>
    rcases safeConnect_cases hr with he | ⟨_, _, he⟩
    · rw [Res.state] at he; rw [he]; exact h
    · rw [Res.state] at he; rw [he]; exact h
  | disconnect u v => exact h
  | addFileTag a t _ ha hin => exact h.addFileTag a t
  | removeFileTag a t _ ha hin => exact h.removeFileTag hg a t
  | setFileTags a ts _ ha hin => exact h.setFileTags hg ts ha hin
  | removeArtifact _ a d he => exact rem s a d _ hl h he
  | removeExcl _ f a he =>
    have := removeExcl_ind (P := fun s => LInv s ∧ RootInv s)
      (fun s a h => ⟨h.1.of_same rfl rfl rfl rfl, h.2⟩)
      (fun s p a h => ⟨h.1.examine p a, by
        obtain ⟨i, hi⟩ := examine_only s p a
        rw [hi]; exact h.2⟩)
      (fun s p h => ⟨h.1.of_same rfl rfl rfl rfl, h.2⟩)
      (fun s a d s' h he => ⟨h.1.removeArtifact he, rem s a d s' h.1 h.2 he⟩)
      f s a s' ⟨hl, h⟩ he
    exact this.2
  | newRemovedSet => exact h
  | destroy n _ hst => exact h

theorem Hist.rootInv {guarded : Bool} {s : State} (h : Hist true guarded s) : RootInv s := by
  induction h with
  | init pt => intro p x hx; simp [State.init] at hx
  | step hh hs ih => exact ih.step hh.linv hh.ginv hs

/-- **C25** The artifacts among the roots of a product carry a file tag of the product's type. -/
theorem C25_roots_have_type {guarded : Bool} {s : State} (h : Hist true guarded s) (p x : Nat)
    (hp : x ∈ s.roots p) : ∃ t ∈ s.ptags p, t ∈ s.tags x := h.rootInv p x hp

/-- **C25** An artifact of a product that gets a file tag of the product's type becomes one of its
roots. -/
theorem C25_tagged_becomes_root (s : State) (p a t : Nat) (hp : s.prod a = some p)
    (ht : t ∈ s.ptags p) : a ∈ (addFileTag s a t).roots p := by
  unfold addFileTag
  simp only
  split
  · rename_i h
    have h : s.prod a = none := h
    rw [hp] at h; cases h
  · rename_i q hq
    have hq : s.prod a = some q := hq
    rw [hp] at hq
    cases hq
    split
    case isFalse h => exact absurd ht h
    exact mem_modi.2 (.inl ⟨rfl, mem_ins.2 (.inl rfl)⟩)

/-- **C25** An artifact stops being a root only when it has lost its last file tag of the product's
type, or is removed: file tags that are taken away one by one leave it a root as long as there is
another. -/
theorem C25_stays_root (s : State) (p a t t' : Nat) (hr : a ∈ s.roots p) (hp : s.prod a = some p)
    (ht : t' ∈ s.ptags p) (hc : t' ∈ s.tags a) (hne : t' ≠ t) :
    a ∈ (removeFileTag s a t).roots p := by
  unfold removeFileTag
  simp only
  split
  · exact hr
  · rename_i q hq
    have hq : s.prod a = some q := hq
    rw [hp] at hq
    cases hq
    obtain ⟨b, j, hb⟩ := (removeFromTag_only { s with tags := modi s.tags a (del t) } p a t).eq
    rw [hb, if_neg]
    · exact hr
    · rintro ⟨_, hn⟩
      apply hn
      refine List.any_eq_true.2 ⟨t', ht, ?_⟩
      show decide (t' ∈ modi s.tags a (del t) a) = true
      rw [modi_same]
      exact decide_eq_true (mem_del.2 ⟨hc, hne⟩)

/-- A product 7 of type 5 with a generated artifact 1 that gets the tags 4 and 5. -/
example : ∃ s, Hist true true s ∧ 1 ∈ s.roots 7 ∧ 5 ∈ s.tags 1 ∧ s.ptags 7 = [5] := by
  have h0 : Hist true true (State.init (fun _ => [5])) := .init _
  have h1 := h0.step (.newArtifact _ 1 true 10 [] rfl (by decide))
  have h2 := h1.step (.insertArtifact _ 7 1 rfl rfl)
  have hin : ∀ p, (insertArtifact (create (State.init fun _ => [5]) 1 true false true 10 []) 7 1).state.prod 1
      = some p →
      1 ∈ (insertArtifact (create (State.init fun _ => [5]) 1 true false true 10 []) 7 1).state.nodes p := by
    intro p hp
    have : some 7 = some p := hp
    cases this
    decide
  have h3 := h2.step (.setFileTags _ 1 [4, 5] rfl rfl hin)
  exact ⟨_, h3, by decide, by decide, rfl⟩

/-- **C25 finding.** Whether a source file that has a tag of the product's type is among the roots
depends on the history: not if it had the tag when it was added (`createArtifact` sets the tags before
it sets the product, buildgraph.cpp:682-690), but if it got the tag by a later change of the project
(`updateArtifactFromSourceArtifact`, buildgraph.cpp:700-712), although tags and products are the
same. -/
theorem C25_source_roots_depend_on_history : ∃ s s', Hist true true s ∧ Hist true true s' ∧
    s.tags 1 = [5] ∧ s'.tags 1 = [5] ∧ s.prod 1 = some 7 ∧ s'.prod 1 = some 7 ∧
    s.ptags 7 = [5] ∧ s'.ptags 7 = [5] ∧ s.gen 1 = false ∧ s'.gen 1 = false ∧
    1 ∉ s.roots 7 ∧ 1 ∈ s'.roots 7 := by
  have h0 : Hist true true (State.init (fun _ => [5])) := .init _
  have g1 := h0.step (.newArtifact _ 1 false 10 [5] rfl (by decide))
  have g2 := g1.step (.insertArtifact _ 7 1 rfl rfl)
  have h1 := h0.step (.newArtifact _ 1 false 10 [] rfl (by decide))
  have h2 := h1.step (.insertArtifact _ 7 1 rfl rfl)
  have hin : ∀ p, (insertArtifact (create (State.init fun _ => [5]) 1 true false false 10 []) 7 1).state.prod 1
      = some p →
      1 ∈ (insertArtifact (create (State.init fun _ => [5]) 1 true false false 10 []) 7 1).state.nodes p := by
    intro p hp
    have : some 7 = some p := hp
    cases this
    decide
  have h3 := h2.step (.setFileTags _ 1 [5] rfl rfl hin)
  exact ⟨_, _, g2, h3, by decide, by decide, rfl, rfl, rfl, rfl, rfl, rfl, by decide, by decide⟩

/-! ## Conflicting children -/

/-- **C21** `connect` refuses an artifact with the path of another child that is an artifact and
generated, or of the same product, or generated where the new one is not or the other way round;
if the artifact is a child already, nothing happens. -/
theorem C21_connect_refuses (s : State) (u v : Nat) (ha : s.isArt v) (hv : v ∉ s.ch u) (k : Nat)
    (hk : k ∈ s.ch u) (hka : s.isArt k) (hp : s.path k = s.path v)
    (hc : s.gen k ∨ s.prod k = s.prod v ∨ s.gen k ≠ s.gen v) : connect s u v = .err s := by
  have scan : ∀ ks : List Nat, v ∉ ks → k ∈ ks → connectScan s v ks = some false := by
    intro ks
    induction ks with
    | nil => intro _ h; cases h
    | cons x ks ih =>
      intro hn hm
      have hxv : x ≠ v := fun h => hn (h ▸ List.mem_cons_self)
      have hn' : v ∉ ks := fun h => hn (List.mem_cons_of_mem _ h)
      unfold connectScan
      rcases List.mem_cons.1 hm with rfl | hm
      · rw [if_neg (by rw [hka]; simp), if_neg hxv, if_pos ⟨hc, hp⟩]
      · by_cases hx : s.isArt x = false
        · rw [if_pos hx]; exact ih hn' hm
        · rw [if_neg hx, if_neg hxv]
          split
          · rfl
          · exact ih hn' hm
  unfold connect
  by_cases huv : u = v
  · rw [if_pos huv]
  · rw [if_neg huv, if_pos ha, scan _ hv hk]

/-- The hypotheses are met. -/
example : ∃ s : State, s.isArt 2 ∧ 2 ∉ s.ch 1 ∧ 3 ∈ s.ch 1 ∧ s.isArt 3 ∧ s.path 3 = s.path 2 ∧
    s.gen 3 :=
  ⟨link (create (create (create (State.init fun _ => []) 1 true false true 10 []) 2 true false false 20 [])
    3 true false true 20 []) 1 3, by decide, by decide, by decide, by decide, by decide, by decide⟩

end Verif.Graph
