import Verif.Clean.Lem
/-!
# The loops of the cleaner
-/
namespace Verif.Clean

theorem removeArtifact_spec (e : Env) (o : Options) (s : St) (id : Option Nat) (p : Path) :
    let r := removeArtifact e o s id p
    Shrink (fun i => p <:+ i.1) s.fs r.1.fs ∧ (∀ i ∈ r.1.stamped, i ∈ s.stamped) ∧
    r.1.rescuable = s.rescuable ∧ r.1.dirs = s.dirs ∧ r.1.hasError = s.hasError ∧ r.1.thrown = s.thrown ∧
    (o.dryRun = false → r.2 = true → ∀ k, (p, k) ∉ r.1.fs.items) ∧
    (o.dryRun = false → ∀ i, id = some i → i ∉ r.1.stamped) ∧
    (o.dryRun = true → r = (s, true)) := by
  have hst : ∀ i ∈ clearTimestamp s.stamped id, i ∈ s.stamped := by
    cases id with
    | none => intro i hi; exact hi
    | some j => intro i hi; exact (List.mem_filter.mp hi).1
  have hst' : ∀ i, id = some i →
      i ∉ clearTimestamp s.stamped id := by
    intro i hi
    subst hi
    simp [clearTimestamp]
  intro r
  have hr : r = removeArtifact e o s id p := rfl
  unfold removeArtifact at hr
  simp only at hr
  by_cases hx : s.fs.exists p = true
  · rw [if_neg (by simp [hx])] at hr
    by_cases hd : o.dryRun = true
    · rw [if_pos hd] at hr
      rw [hr]
      exact ⟨Shrink.refl _ _, fun _ h => h, rfl, rfl, rfl, rfl, by simp [hd], by simp [hd], fun _ => rfl⟩
    · rw [if_neg hd] at hr
      rw [hr]
      refine ⟨removeRec_shrink _ _ _ _, hst, rfl, rfl, rfl, rfl, fun _ h => ?_, fun _ => hst', fun h => absurd h hd⟩
      exact removeRec_true _ _ _ _ h
  · rw [if_pos (by simpa using hx)] at hr
    by_cases hd : o.dryRun = true
    · rw [if_pos hd] at hr
      rw [hr]
      exact ⟨Shrink.refl _ _, fun _ h => h, rfl, rfl, rfl, rfl, by simp [hd], by simp [hd], fun _ => rfl⟩
    · rw [if_neg hd] at hr
      rw [hr]
      exact ⟨Shrink.refl _ _, hst, rfl, rfl, rfl, rfl,
        fun _ _ => FS.exists_false.mp (by simpa using hx), fun _ => hst', fun h => absurd h hd⟩

/-- What the loops over artifacts do; `A` are the paths removed, `T` the artifacts. -/
structure VRel (o : Options) (A : Path → Prop) (T : Artifact → Prop) (s s' : St) : Prop where
  shrink : Shrink (fun i => ∃ x, A x ∧ x <:+ i.1) s.fs s'.fs
  stamped : ∀ i ∈ s'.stamped, i ∈ s.stamped
  rescuable : ∀ y ∈ s'.rescuable, y ∈ s.rescuable
  dirs : ∀ d ∈ s.dirs, d ∈ s'.dirs
  dirsFrom : ∀ d ∈ s'.dirs, d ∈ s.dirs ∨ ∃ a, T a ∧ d = a.path.tail
  error : s.hasError = true → s'.hasError = true
  thrown : s.thrown = true → s'.thrown = true
  gone : o.dryRun = false → s'.thrown = false → ∀ y ∈ s.rescuable, y ∉ s'.rescuable →
    ∀ k, (y.2, k) ∉ s'.fs.items
  dry : o.dryRun = true → s'.fs = s.fs ∧ s'.stamped = s.stamped

theorem VRel.refl (o : Options) (A : Path → Prop) (T : Artifact → Prop) (s : St) : VRel o A T s s :=
  ⟨Shrink.refl _ _, fun _ h => h, fun _ h => h, fun _ h => h, fun _ h => Or.inl h, fun h => h, fun h => h,
    fun _ _ _ h1 h2 => absurd h1 h2, fun _ => ⟨rfl, rfl⟩⟩

theorem VRel.trans {o : Options} {A : Path → Prop} {T : Artifact → Prop} {a b c : St} (h1 : VRel o A T a b)
    (h2 : VRel o A T b c) : VRel o A T a c where
  shrink := h1.shrink.trans h2.shrink
  stamped := fun i h => h1.stamped i (h2.stamped i h)
  rescuable := fun i h => h1.rescuable i (h2.rescuable i h)
  dirs := fun i h => h2.dirs i (h1.dirs i h)
  dirsFrom := fun d h => by
    rcases h2.dirsFrom d h with h | h
    · exact h1.dirsFrom d h
    · exact Or.inr h
  error := fun h => h2.error (h1.error h)
  thrown := fun h => h2.thrown (h1.thrown h)
  gone := fun hd ht y hy hn k => by
    have htb : b.thrown = false := by
      cases h : b.thrown with
      | false => rfl
      | true => rw [h2.thrown h] at ht; cases ht
    by_cases hb : y ∈ b.rescuable
    · exact h2.gone hd ht y hb hn k
    · exact fun hk => h1.gone hd htb y hy hb k (h2.shrink.sub _ hk)
  dry := fun h => ⟨(h2.dry h).1.trans (h1.dry h).1, (h2.dry h).2.trans (h1.dry h).2⟩

theorem VRel.mono {o : Options} {A A' : Path → Prop} {T T' : Artifact → Prop} {a b : St}
    (h : VRel o A T a b) (hA : ∀ x, A x → A' x) (hT : ∀ x, T x → T' x) : VRel o A' T' a b :=
  { h with
    shrink := h.shrink.mono (fun _ ⟨x, hx, hs⟩ => ⟨x, hA x hx, hs⟩)
    dirsFrom := fun d hd => (h.dirsFrom d hd).imp_right (fun ⟨a, ha, he⟩ => ⟨a, hT a ha, he⟩) }

/-- The artifact is visited for the product. -/
def Wanted (product : Nat) (a : Artifact) : Prop := a.generated = true ∧ a.product = product

theorem visitArtifact_spec (e : Env) (o : Options) (product : Nat) (s : St) (a : Artifact) :
    let s' := visitArtifact e o product s a
    VRel o (fun x => Wanted product a ∧ x = a.path) (fun b => Wanted product a ∧ b = a) s s' ∧
    s'.rescuable = s.rescuable ∧
    (Wanted product a → s'.thrown = false → a.path.tail ∈ s'.dirs ∧
      (s'.hasError = false → o.dryRun = false →
        (∀ k, (a.path, k) ∉ s'.fs.items) ∧ a.id ∉ s'.stamped)) := by
  intro s'
  have hs : s' = visitArtifact e o product s a := rfl
  unfold visitArtifact at hs
  by_cases h1 : s.thrown = true
  · rw [if_pos h1] at hs
    rw [hs]
    exact ⟨VRel.refl _ _ _ _, rfl, fun _ h => by rw [h1] at h; cases h⟩
  rw [if_neg h1] at hs
  by_cases h2 : a.generated = true
  case neg =>
    rw [if_pos (by simpa using h2)] at hs
    rw [hs]
    exact ⟨VRel.refl _ _ _ _, rfl, fun h => absurd h.1 h2⟩
  rw [if_neg (by simp [h2])] at hs
  by_cases h3 : e.canceled a.id = true
  · rw [if_pos h3] at hs
    rw [hs]
    refine ⟨⟨Shrink.refl _ _, fun _ h => h, fun _ h => h, fun _ h => h, fun _ h => Or.inl h, fun h => h,
      fun _ => rfl, fun _ h => (by cases h), fun _ => ⟨rfl, rfl⟩⟩, rfl, fun _ h => (by cases h)⟩
  rw [if_neg h3] at hs
  by_cases h4 : a.product = product
  case neg =>
    rw [if_pos h4] at hs
    rw [hs]
    exact ⟨VRel.refl _ _ _ _, rfl, fun h => absurd h.2 h4⟩
  rw [if_neg (by simp [h4])] at hs
  have hw : Wanted product a := ⟨h2, h4⟩
  obtain ⟨r1, r2, r3, r4, r5, r6, r7, r8, r9⟩ := removeArtifact_spec e o s (some a.id) a.path
  simp only at hs
  generalize removeArtifact e o s (some a.id) a.path = r at hs r1 r2 r3 r4 r5 r6 r7 r8 r9
  have hsh : Shrink (fun i => ∃ x, (Wanted product a ∧ x = a.path) ∧ x <:+ i.1) s.fs r.1.fs :=
    r1.mono (fun i hi => ⟨a.path, ⟨hw, rfl⟩, hi⟩)
  have hdry : o.dryRun = true → r.1.fs = s.fs ∧ r.1.stamped = s.stamped := by
    intro h
    rw [r9 h]
    exact ⟨rfl, rfl⟩
  by_cases h5 : (!r.2 && !o.keepGoing) = true
  · rw [if_pos h5] at hs
    rw [hs]
    refine ⟨⟨hsh, r2, ?_, ?_, ?_, ?_, fun _ => rfl, fun _ h => (by cases h), hdry⟩, r3, fun _ h => (by cases h)⟩
    · intro y hy; simp only at hy; rwa [r3] at hy
    · intro d hd; simp only; rwa [r4]
    · intro d hd; simp only at hd; rw [r4] at hd; exact Or.inl hd
    · intro h; simp only; rwa [r5]
  · rw [if_neg h5] at hs
    rw [hs]
    refine ⟨⟨hsh, r2, ?_, ?_, ?_, ?_, ?_, ?_, hdry⟩, r3, ?_⟩
    · intro y hy; simp only at hy; rwa [r3] at hy
    · intro d hd; simp only [r4]; exact List.mem_cons_of_mem _ hd
    · intro d hd
      simp only [r4] at hd
      rcases List.mem_cons.mp hd with hd | hd
      · exact Or.inr ⟨a, ⟨hw, rfl⟩, hd⟩
      · exact Or.inl hd
    · intro h; simp only [r5, h, Bool.true_or]
    · intro h; simp only [r6, h]
    · intro _ _ y hy hn
      simp only [r3] at hn
      exact absurd hy hn
    · intro _ _
      refine ⟨List.mem_cons_self, fun he hd => ?_⟩
      simp only [Bool.or_eq_false_iff, Bool.not_eq_false'] at he
      exact ⟨r7 hd he.2, r8 hd _ rfl⟩

theorem visitRescuable_spec (e : Env) (o : Options) (product : Nat) (s : St) (p : Path) :
    let s' := visitRescuable e o product s p
    VRel o (fun x => x = p) (fun _ => False) s s' ∧ s'.dirs = s.dirs ∧
    (s'.thrown = false → (product, p) ∉ s'.rescuable) ∧
    (∀ y ∈ s.rescuable, y ≠ (product, p) → y ∈ s'.rescuable) := by
  intro s'
  have hs : s' = visitRescuable e o product s p := rfl
  unfold visitRescuable at hs
  by_cases h1 : s.thrown = true
  · rw [if_pos h1] at hs
    rw [hs]
    exact ⟨VRel.refl _ _ _ _, rfl, fun h => (by rw [h1] at h; cases h), fun _ h _ => h⟩
  rw [if_neg h1] at hs
  obtain ⟨r1, r2, r3, r4, r5, r6, r7, r8, r9⟩ := removeArtifact_spec e o s none p
  simp only at hs
  generalize removeArtifact e o s none p = r at hs r1 r2 r3 r4 r5 r6 r7 r8 r9
  have hsh : Shrink (fun i => ∃ x, x = p ∧ x <:+ i.1) s.fs r.1.fs :=
    r1.mono (fun i hi => ⟨p, rfl, hi⟩)
  have hdry : o.dryRun = true → r.1.fs = s.fs ∧ r.1.stamped = s.stamped := by
    intro h
    rw [r9 h]
    exact ⟨rfl, rfl⟩
  by_cases h5 : (!r.2) = true
  · rw [if_pos h5] at hs
    rw [hs]
    refine ⟨⟨hsh, r2, ?_, ?_, ?_, ?_, fun _ => rfl, fun _ h => (by cases h), hdry⟩, r4, fun h => (by cases h), ?_⟩
    · intro y hy; simp only at hy; rwa [r3] at hy
    · intro d hd; simp only; rwa [r4]
    · intro d hd; simp only at hd; rw [r4] at hd; exact Or.inl hd
    · intro h; simp only; rwa [r5]
    · intro y hy _; simp only; rwa [r3]
  · rw [if_neg h5] at hs
    rw [hs]
    refine ⟨⟨hsh, r2, ?_, ?_, ?_, ?_, ?_, ?_, hdry⟩, r4, ?_, ?_⟩
    · intro y hy
      simp only [r3] at hy
      exact (List.mem_filter.mp hy).1
    · intro d hd; simp only; rwa [r4]
    · intro d hd; simp only at hd; rw [r4] at hd; exact Or.inl hd
    · intro h; simp only [r5, h]
    · intro h; simp only [r6, h]
    · intro hd _ y hy hn
      simp only [r3, List.mem_filter, not_and] at hn
      have hyp : y = (product, p) := by simpa using hn hy
      rw [hyp]
      exact r7 hd (by simpa using h5)
    · intro _
      simp only [r3, List.mem_filter]
      simp
    · intro y hy hne
      simp only [r3]
      exact List.mem_filter.mpr ⟨hy, by simpa using hne⟩

theorem foldl_rel {α : Type} {R : St → St → Prop} (hr : ∀ s, R s s) (ht : ∀ a b c, R a b → R b c → R a c)
    (f : St → α → St) : ∀ (l : List α) (s : St), (∀ a ∈ l, ∀ s, R s (f s a)) → R s (l.foldl f s)
  | [], s, _ => hr s
  | a :: l, s, h => ht _ _ _ (h a List.mem_cons_self s)
      (foldl_rel hr ht f l (f s a) (fun b hb => h b (List.mem_cons_of_mem _ hb)))

/-- The artifacts to be removed. -/
def Selected (ps : List Product) (a : Artifact) : Prop :=
  ∃ p ∈ ps, a ∈ p.nodes ∧ a.generated = true ∧ a.product = p.id

/-- The paths with rescuable data of the products. -/
def Rescuable (s : St) (ps : List Product) (x : Path) : Prop := ∃ p ∈ ps, (p.id, x) ∈ s.rescuable

theorem nodes_rel (e : Env) (o : Options) (id : Nat) (l : List Artifact) (s : St) :
    VRel o (fun x => ∃ a ∈ l, Wanted id a ∧ x = a.path) (fun a => a ∈ l ∧ Wanted id a) s
      (l.foldl (visitArtifact e o id) s) := by
  refine foldl_rel (VRel.refl _ _ _) (fun _ _ _ => VRel.trans) _ _ _ ?_
  intro a ha s
  exact (visitArtifact_spec e o id s a).1.mono (fun x hx => ⟨a, ha, hx⟩)
    (fun b hb => by rw [hb.2]; exact ⟨ha, hb.1⟩)

theorem rescuable_rel (e : Env) (o : Options) (id : Nat) (l : List Path) (s : St) :
    VRel o (fun x => x ∈ l) (fun _ => False) s (l.foldl (visitRescuable e o id) s) := by
  refine foldl_rel (VRel.refl _ _ _) (fun _ _ _ => VRel.trans) _ _ _ ?_
  intro a ha s
  exact (visitRescuable_spec e o id s a).1.mono (fun x hx => by rw [hx]; exact ha) (fun _ h => h)

theorem product_rel (e : Env) (o : Options) (p : Product) (s : St) :
    VRel o (fun x => (∃ a ∈ p.nodes, Wanted p.id a ∧ x = a.path) ∨ (p.id, x) ∈ s.rescuable)
      (fun a => a ∈ p.nodes ∧ Wanted p.id a) s (visitProduct e o s p) := by
  have h1 := nodes_rel e o p.id p.nodes s
  unfold visitProduct
  refine (h1.mono (fun x hx => Or.inl hx) (fun _ h => h)).trans ?_
  refine (rescuable_rel e o p.id _ _).mono ?_ (fun _ h => h.elim)
  intro x hx
  obtain ⟨⟨i, y⟩, hy, rfl⟩ := List.mem_map.mp hx
  obtain ⟨h2, h3⟩ := List.mem_filter.mp hy
  right
  have := h1.rescuable _ h2
  rw [← (beq_iff_eq.mp h3 : i = p.id)]
  exact this

theorem products_rel (e : Env) (o : Options) : ∀ (ps : List Product) (s : St),
    VRel o (fun x => (∃ a, Selected ps a ∧ x = a.path) ∨ Rescuable s ps x) (Selected ps) s
      (visitProducts e o s ps)
  | [], s => VRel.refl _ _ _ _
  | p :: ps, s => by
    have h1 : VRel o (fun x => (∃ a, Selected (p :: ps) a ∧ x = a.path) ∨ Rescuable s (p :: ps) x)
        (Selected (p :: ps)) s (if s.thrown then s else visitProduct e o s p) := by
      split
      · exact VRel.refl _ _ _ _
      · refine (product_rel e o p s).mono ?_ ?_
        · rintro x (⟨a, ha, hw, hx⟩ | hx)
          · exact Or.inl ⟨a, ⟨p, List.mem_cons_self, ha, hw.1, hw.2⟩, hx⟩
          · exact Or.inr ⟨p, List.mem_cons_self, hx⟩
        · rintro a ⟨ha, hw⟩
          exact ⟨p, List.mem_cons_self, ha, hw.1, hw.2⟩
    unfold visitProducts
    rw [List.foldl_cons]
    refine h1.trans ((products_rel e o ps _).mono ?_ ?_)
    · rintro x (⟨a, ⟨q, hq, ha⟩, hx⟩ | ⟨q, hq, hx⟩)
      · exact Or.inl ⟨a, ⟨q, List.mem_cons_of_mem _ hq, ha⟩, hx⟩
      · exact Or.inr ⟨q, List.mem_cons_of_mem _ hq, h1.rescuable _ hx⟩
    · rintro a ⟨q, hq, ha⟩
      exact ⟨q, List.mem_cons_of_mem _ hq, ha⟩

/-- State after the artifact was visited; nothing is undone later. -/
theorem at_artifact (e : Env) (o : Options) (ps : List Product) (s : St) (a : Artifact)
    (h : Selected ps a) : ∃ (s1 s2 : St) (id : Nat), Wanted id a ∧ s2 = visitArtifact e o id s1 a ∧
    (∃ A T, VRel o A T s s1) ∧ ((visitProducts e o s ps).thrown = false →
      ∃ A T, VRel o A T s2 (visitProducts e o s ps)) := by
  obtain ⟨p, hp, ha, hg, hid⟩ := h
  obtain ⟨ps1, ps2, rfl⟩ := List.append_of_mem hp
  obtain ⟨l1, l2, hl⟩ := List.append_of_mem ha
  have hsplit : visitProducts e o s (ps1 ++ p :: ps2) = visitProducts e o
      (if (visitProducts e o s ps1).thrown then visitProducts e o s ps1
        else visitProduct e o (visitProducts e o s ps1) p) ps2 := by
    unfold visitProducts
    rw [List.foldl_append, List.foldl_cons]
  refine ⟨l1.foldl (visitArtifact e o p.id) (visitProducts e o s ps1), _, p.id, ⟨hg, hid⟩, rfl, ?_, ?_⟩
  · refine ⟨fun _ => True, fun _ => True, ?_⟩
    exact ((products_rel e o ps1 s).mono (fun _ _ => trivial) (fun _ _ => trivial)).trans
      ((nodes_rel e o p.id l1 _).mono (fun _ _ => trivial) (fun _ _ => trivial))
  · intro ht
    refine ⟨fun _ => True, fun _ => True, ?_⟩
    rw [hsplit] at ht ⊢
    have hb : (visitProducts e o s ps1).thrown = false := by
      cases hb : (visitProducts e o s ps1).thrown with
      | false => rfl
      | true =>
        rw [hb, if_pos rfl] at ht
        rw [(products_rel e o ps2 _).thrown hb] at ht
        cases ht
    rw [hb, if_neg (by simp)]
    have hv : visitProduct e o (visitProducts e o s ps1) p =
        (((((l1 ++ a :: l2).foldl (visitArtifact e o p.id) (visitProducts e o s ps1)).rescuable.filter
          (·.1 == p.id)).map (·.2)).foldl (visitRescuable e o p.id)
          ((l1 ++ a :: l2).foldl (visitArtifact e o p.id) (visitProducts e o s ps1))) := by
      unfold visitProduct
      rw [hl]
    rw [hv]
    refine VRel.trans ?_ ((products_rel e o ps2 _).mono (fun _ _ => trivial) (fun _ _ => trivial))
    refine VRel.trans ?_ ((rescuable_rel e o p.id _ _).mono (fun _ _ => trivial) (fun _ _ => trivial))
    rw [List.foldl_append, List.foldl_cons]
    exact (nodes_rel e o p.id l2 _).mono (fun _ _ => trivial) (fun _ _ => trivial)

/-- No rescuable data are left for the products. -/
theorem rescuable_done (e : Env) (o : Options) (ps : List Product) (s : St)
    (ht : (visitProducts e o s ps).thrown = false) (p : Product) (hp : p ∈ ps) (x : Path) :
    (p.id, x) ∉ (visitProducts e o s ps).rescuable := by
  obtain ⟨ps1, ps2, rfl⟩ := List.append_of_mem hp
  have hsplit : visitProducts e o s (ps1 ++ p :: ps2) = visitProducts e o
      (if (visitProducts e o s ps1).thrown then visitProducts e o s ps1
        else visitProduct e o (visitProducts e o s ps1) p) ps2 := by
    unfold visitProducts
    rw [List.foldl_append, List.foldl_cons]
  rw [hsplit] at ht ⊢
  have hb : (visitProducts e o s ps1).thrown = false := by
    cases hb : (visitProducts e o s ps1).thrown with
    | false => rfl
    | true =>
      rw [hb, if_pos rfl] at ht
      rw [(products_rel e o ps2 _).thrown hb] at ht
      cases ht
  rw [hb, if_neg (by simp)] at ht ⊢
  intro hx
  have hx1 := (products_rel e o ps2 _).rescuable _ hx
  have ht1 : (visitProduct e o (visitProducts e o s ps1) p).thrown = false := by
    cases h : (visitProduct e o (visitProducts e o s ps1) p).thrown with
    | false => rfl
    | true => rw [(products_rel e o ps2 _).thrown h] at ht; cases ht
  unfold visitProduct at hx1 ht1
  simp only at hx1 ht1
  generalize p.nodes.foldl (visitArtifact e o p.id) (visitProducts e o s ps1) = t at hx1 ht1
  -- in the loop
  have hin : x ∈ (t.rescuable.filter (·.1 == p.id)).map (·.2) := by
    have := (rescuable_rel e o p.id ((t.rescuable.filter (·.1 == p.id)).map (·.2)) t).rescuable _ hx1
    exact List.mem_map.mpr ⟨(p.id, x), List.mem_filter.mpr ⟨this, by simp⟩, rfl⟩
  generalize (t.rescuable.filter (·.1 == p.id)).map (·.2) = l at hin hx1 ht1
  obtain ⟨l1, l2, rfl⟩ := List.append_of_mem hin
  rw [List.foldl_append, List.foldl_cons] at hx1 ht1
  have hrel := rescuable_rel e o p.id l2 (visitRescuable e o p.id (l1.foldl (visitRescuable e o p.id) t) x)
  have ht2 : (visitRescuable e o p.id (l1.foldl (visitRescuable e o p.id) t) x).thrown = false := by
    cases h : (visitRescuable e o p.id (l1.foldl (visitRescuable e o p.id) t) x).thrown with
    | false => rfl
    | true => rw [hrel.thrown h] at ht1; cases ht1
  exact (visitRescuable_spec e o p.id (l1.foldl (visitRescuable e o p.id) t) x).2.2.1 ht2
    (hrel.rescuable _ hx1)

/-! ## The loop over directories -/

theorem str_suffix {b d : Path} (h : b <:+ d) : (str b).isPrefixOf (str d) = true := by
  obtain ⟨t, rfl⟩ := h
  rw [List.isPrefixOf_iff_prefix]
  induction t with
  | nil => exact List.prefix_refl _
  | cons n t ih => exact ih.trans ⟨'/' :: n.toList, rfl⟩

theorem tail_below {b d : Path} (h : b <:+ d) (hne : d ≠ b) : b <:+ d.tail := by
  cases d with
  | nil => rw [List.suffix_nil.mp h] at hne; exact absurd rfl hne
  | cons n r =>
    rcases List.suffix_cons_iff.mp h with h | h
    · exact absurd h.symm hne
    · exact h

theorem measure_append : ∀ (a b : List Path), measure (a ++ b) = measure a + measure b
  | [], b => by simp [measure]
  | d :: a, b => by
    simp only [List.cons_append, measure, measure_append a b]
    omega

/-- The body of the loop. -/
def dirStep (e : Env) (o : Options) (s : St) (d : Path) : St :=
  if s.fs.exists d then (removeEmpty e o s.fs.height s d).1 else s

theorem dirStep_spec (e : Env) (o : Options) (s : St) (d : Path) :
    Frame s (dirStep e o s d) ∧ Shrink (EmptyBelow d) s.fs (dirStep e o s d).fs := by
  unfold dirStep
  split
  · exact removeEmpty_spec e o _ s d
  · exact ⟨Frame.refl _, Shrink.refl _ _⟩

theorem dirStep_tidy (e : Env) (o : Options) (s : St) (d : Path) (hw : s.fs.WF)
    (ht : (dirStep e o s d).thrown = false) (he : (dirStep e o s d).hasError = false) :
    Tidy (dirStep e o s d).fs d := by
  unfold dirStep at ht he ⊢
  split
  · rename_i hx
    rw [if_pos hx] at ht he
    refine (removeEmpty_tidy e o _ s d hw (fun i hi => ?_) ht he).1
    have := height_lt i hi
    omega
  · rename_i hx
    intro x hd hxd
    exact absurd hxd (nothing_below hw (FS.exists_false.mp (by simpa using hx)) x _ hd)

theorem dirLoop_cons (e : Env) (o : Options) (build : Path) (n : Nat) (s : St) (done : List Path) (d : Path)
    (todo : List Path) : dirLoop e o build (n + 1) s done (d :: todo) =
    if s.thrown then s
    else if !(str build).isPrefixOf (str d) then dirLoop e o build n s (done ++ [d]) todo
    else if d ≠ build ∧ d.tail ≠ build ∧ ¬ (done ++ d :: todo).contains d.tail then
        dirLoop e o build n (dirStep e o s d) (done ++ [d]) (todo ++ [d.tail])
      else dirLoop e o build n (dirStep e o s d) (done ++ [d]) todo := by
  conv => lhs; unfold dirLoop
  rfl

theorem dirLoop_nil (e : Env) (o : Options) (build : Path) (n : Nat) (s : St) (done : List Path) :
    dirLoop e o build n s done [] = s := by
  cases n <;> rfl

theorem dirLoop_spec (e : Env) (o : Options) (build : Path) : ∀ (n : Nat) (s : St) (done todo : List Path),
    (∀ d ∈ todo, build <:+ d) → Frame s (dirLoop e o build n s done todo) ∧
    Shrink (EmptyBelow build) s.fs (dirLoop e o build n s done todo).fs
  | 0, s, done, todo, _ => by
    unfold dirLoop
    exact ⟨Frame.refl _, Shrink.refl _ _⟩
  | n + 1, s, done, [], _ => ⟨Frame.refl _, Shrink.refl _ _⟩
  | n + 1, s, done, d :: todo, h => by
    rw [dirLoop_cons]
    have hd := h d List.mem_cons_self
    have htodo : ∀ x ∈ todo, build <:+ x := fun x hx => h x (List.mem_cons_of_mem _ hx)
    split
    · exact ⟨Frame.refl _, Shrink.refl _ _⟩
    · split
      · exact dirLoop_spec e o build n s _ todo htodo
      · obtain ⟨a, b⟩ := dirStep_spec e o s d
        have b := b.mono (Q := EmptyBelow build) (fun i hi => ⟨hi.1, hd.trans hi.2⟩)
        split
        · rename_i hc
          obtain ⟨c, f⟩ := dirLoop_spec e o build n (dirStep e o s d) (done ++ [d]) (todo ++ [d.tail]) (by
            intro x hx
            rcases List.mem_append.mp hx with hx | hx
            · exact htodo x hx
            · rw [List.mem_singleton.mp hx]
              exact tail_below hd hc.1)
          exact ⟨a.trans c, b.trans f⟩
        · obtain ⟨c, f⟩ := dirLoop_spec e o build n (dirStep e o s d) (done ++ [d]) todo htodo
          exact ⟨a.trans c, b.trans f⟩

theorem Tidy.keep {fs fs' : FS} {d c : Path} (h : Tidy fs d) (hw : fs.WF)
    (hs : Shrink (EmptyBelow c) fs fs') : Tidy fs' d :=
  fun x hx hxd => (h x hx (hs.sub _ hxd)).keep hw hs

/-- All directories in question and those above them are tidy in the end. -/
theorem dirLoop_tidy (e : Env) (o : Options) (build : Path) : ∀ (n : Nat) (s : St) (done todo : List Path),
    s.fs.WF → measure todo ≤ n → (∀ d ∈ done ++ todo, build <:+ d) → (∀ d ∈ done, Tidy s.fs d) →
    (∀ d ∈ done, d = build ∨ d.tail = build ∨ d.tail ∈ done ++ todo) →
    (dirLoop e o build n s done todo).thrown = false → (dirLoop e o build n s done todo).hasError = false →
    ∃ (done' : List Path), (∀ d ∈ done ++ todo, d ∈ done') ∧ (∀ d ∈ done', Tidy (dirLoop e o build n s done todo).fs d) ∧
    (∀ d ∈ done', d = build ∨ d.tail = build ∨ d.tail ∈ done')
  | n, s, done, [], _, _, _, h3, h4, _, _ => by
    rw [dirLoop_nil]
    refine ⟨done, by simp, h3, ?_⟩
    simpa using h4
  | 0, s, done, d :: todo, _, h1, _, _, _, _, _ => by
    simp only [measure] at h1
    omega
  | n + 1, s, done, d :: todo, hw, h1, h2, h3, h4, ht, he => by
    have hd : build <:+ d := h2 d (by simp)
    have htodo : ∀ x ∈ todo, build <:+ x := fun x hx => h2 x (by simp [hx])
    rw [dirLoop_cons] at ht he ⊢
    by_cases hts : s.thrown = true
    · rw [if_pos hts] at ht
      rw [hts] at ht
      cases ht
    rw [if_neg hts, if_neg (by simp [str_suffix hd])] at ht he ⊢
    obtain ⟨a, b⟩ := dirStep_spec e o s d
    have hw' := b.wf hw
    simp only [measure] at h1
    by_cases hc : d ≠ build ∧ d.tail ≠ build ∧ ¬ (done ++ d :: todo).contains d.tail = true
    · rw [if_pos hc] at ht he ⊢
      have hin : ∀ x ∈ todo ++ [d.tail], build <:+ x := by
        intro x hx
        rcases List.mem_append.mp hx with hx | hx
        · exact htodo x hx
        · rw [List.mem_singleton.mp hx]
          exact tail_below hd hc.1
      have hrest := dirLoop_spec e o build n (dirStep e o s d) (done ++ [d]) (todo ++ [d.tail]) hin
      have htd := dirStep_tidy e o s d hw (by
        cases h : (dirStep e o s d).thrown with
        | false => rfl
        | true => rw [hrest.1.thrown h] at ht; cases ht) (by
        cases h : (dirStep e o s d).hasError with
        | false => rfl
        | true => rw [hrest.1.error h] at he; cases he)
      obtain ⟨done', i1, i2, i3⟩ := dirLoop_tidy e o build n (dirStep e o s d) (done ++ [d]) (todo ++ [d.tail])
        hw' (by
          rw [measure_append]
          simp only [measure, List.length_tail]
          have : d.length ≠ 0 := by
            intro h
            rw [List.length_eq_zero_iff.mp h] at hd hc
            exact hc.1 (List.suffix_nil.mp hd).symm
          omega) (by
          intro x hx
          rcases List.mem_append.mp hx with hx | hx
          · exact h2 x (by
              rcases List.mem_append.mp hx with hx | hx
              · simp [hx]
              · simp [List.mem_singleton.mp hx])
          · exact hin x hx) (by
          intro x hx
          rcases List.mem_append.mp hx with hx | hx
          · exact (h3 x hx).keep hw b
          · rw [List.mem_singleton.mp hx]; exact htd) (by
          intro x hx
          rcases List.mem_append.mp hx with hx | hx
          · rcases h4 x hx with h | h | h
            · exact Or.inl h
            · exact Or.inr (Or.inl h)
            · refine Or.inr (Or.inr ?_)
              simp only [List.mem_append, List.mem_cons, List.mem_singleton] at h ⊢
              rcases h with h | h | h
              · exact Or.inl (Or.inl h)
              · exact Or.inl (Or.inr (Or.inl h))
              · exact Or.inr (Or.inl h)
          · rw [List.mem_singleton.mp hx]
            exact Or.inr (Or.inr (by simp))) ht he
      refine ⟨done', fun x hx => i1 x ?_, i2, i3⟩
      simp only [List.mem_append, List.mem_cons, List.mem_singleton] at hx ⊢
      rcases hx with h | h | h
      · exact Or.inl (Or.inl h)
      · exact Or.inl (Or.inr (Or.inl h))
      · exact Or.inr (Or.inl h)
    · rw [if_neg hc] at ht he ⊢
      have hrest := dirLoop_spec e o build n (dirStep e o s d) (done ++ [d]) todo htodo
      have htd := dirStep_tidy e o s d hw (by
        cases h : (dirStep e o s d).thrown with
        | false => rfl
        | true => rw [hrest.1.thrown h] at ht; cases ht) (by
        cases h : (dirStep e o s d).hasError with
        | false => rfl
        | true => rw [hrest.1.error h] at he; cases he)
      have hmem : ∀ x, x ∈ (done ++ [d]) ++ todo ↔ x ∈ done ++ d :: todo := by
        intro x
        simp
      obtain ⟨done', i1, i2, i3⟩ := dirLoop_tidy e o build n (dirStep e o s d) (done ++ [d]) todo
        hw' (by omega) (fun x hx => h2 x ((hmem x).mp hx)) (by
          intro x hx
          rcases List.mem_append.mp hx with hx | hx
          · exact (h3 x hx).keep hw b
          · rw [List.mem_singleton.mp hx]; exact htd) (by
          intro x hx
          rcases List.mem_append.mp hx with hx | hx
          · rcases h4 x hx with h | h | h
            · exact Or.inl h
            · exact Or.inr (Or.inl h)
            · exact Or.inr (Or.inr ((hmem _).mpr h))
          · rw [List.mem_singleton.mp hx]
            refine Classical.byContradiction (fun hn => hc ?_)
            simp only [not_or] at hn
            refine ⟨hn.1, hn.2.1, fun hcon => hn.2.2 ((hmem _).mpr ?_)⟩
            exact List.contains_iff_mem.mp hcon) ht he
      exact ⟨done', fun x hx => i1 x ((hmem x).mpr hx), i2, i3⟩

end Verif.Clean
