import Verif.Clean.Model
/-!
# Lemmas for C29
-/
namespace Verif.Clean

/-- Every entry is in a directory, and of one kind. -/
structure FS.WF (fs : FS) : Prop where
  parent : ∀ n p k, (n :: p, k) ∈ fs.items → (p, Kind.dir) ∈ fs.items
  kind : ∀ p k k', (p, k) ∈ fs.items → (p, k') ∈ fs.items → k = k'
  nodup : (fs.items.map (·.1)).Nodup

/-- Only items with the property are removed, and none is added. -/
structure Shrink (P : Path × Kind → Prop) (fs fs' : FS) : Prop where
  sub : ∀ i ∈ fs'.items, i ∈ fs.items
  keep : fs.WF → ∀ i ∈ fs.items, ¬ P i → i ∈ fs'.items
  wf : fs.WF → fs'.WF

theorem Shrink.refl (P : Path × Kind → Prop) (fs : FS) : Shrink P fs fs :=
  ⟨fun _ h => h, fun _ _ h _ => h, fun h => h⟩

theorem Shrink.trans {P : Path × Kind → Prop} {a b c : FS} (h1 : Shrink P a b) (h2 : Shrink P b c) :
    Shrink P a c :=
  ⟨fun i h => h1.sub i (h2.sub i h), fun hw i h hp => h2.keep (h1.wf hw) i (h1.keep hw i h hp) hp, fun h => h2.wf (h1.wf h)⟩

theorem Shrink.mono {P Q : Path × Kind → Prop} {a b : FS} (h : Shrink P a b) (hpq : ∀ i, P i → Q i) :
    Shrink Q a b :=
  ⟨h.sub, fun hw i hi hq => h.keep hw i hi (fun hp => hq (hpq i hp)), h.wf⟩

theorem FS.exists_iff {fs : FS} {p : Path} : fs.exists p = true ↔ ∃ k, (p, k) ∈ fs.items := by
  unfold FS.exists
  rw [List.any_eq_true]
  constructor
  · rintro ⟨⟨q, k⟩, h1, h2⟩
    exact ⟨k, by rw [← (beq_iff_eq.mp h2 : q = p)]; exact h1⟩
  · rintro ⟨k, hk⟩
    exact ⟨(p, k), hk, by simp⟩

theorem FS.exists_false {fs : FS} {p : Path} : fs.exists p = false ↔ ∀ k, (p, k) ∉ fs.items := by
  constructor
  · intro h k hk
    rw [FS.exists_iff.mpr ⟨k, hk⟩] at h
    cases h
  · intro h
    cases hx : fs.exists p with
    | false => rfl
    | true =>
      obtain ⟨k, hk⟩ := FS.exists_iff.mp hx
      exact absurd hk (h k)

theorem FS.isDir_iff {fs : FS} {p : Path} : fs.isDir p = true ↔ (p, Kind.dir) ∈ fs.items := by
  unfold FS.isDir
  rw [List.contains_iff_mem]

theorem FS.mem_children {fs : FS} {d : Path} {i : Path × Kind} :
    i ∈ fs.children d ↔ i ∈ fs.items ∧ ∃ n, i.1 = n :: d := by
  unfold FS.children
  rw [List.mem_filter]
  obtain ⟨p, k⟩ := i
  cases p with
  | nil => simp [isChild]
  | cons n r => simp [isChild]

theorem FS.mem_erase {fs : FS} {p : Path} {i : Path × Kind} :
    i ∈ (fs.erase p).items ↔ i ∈ fs.items ∧ i.1 ≠ p := by
  unfold FS.erase
  rw [List.mem_filter]
  simp

theorem erase_shrink {fs : FS} {p : Path} (h : fs.WF → ∀ n k, (n :: p, k) ∉ fs.items) :
    Shrink (fun i => i.1 = p) fs (fs.erase p) := by
  refine ⟨fun i hi => (FS.mem_erase.mp hi).1, fun _ i hi hp => FS.mem_erase.mpr ⟨hi, hp⟩, fun hw => ⟨?_, ?_, ?_⟩⟩
  · intro n q k hq
    rw [FS.mem_erase] at hq ⊢
    refine ⟨hw.parent n q k hq.1, ?_⟩
    rintro rfl
    exact h hw n k hq.1
  · intro q k k' h1 h2
    exact hw.kind q k k' (FS.mem_erase.mp h1).1 (FS.mem_erase.mp h2).1
  · exact hw.nodup.sublist (List.filter_sublist.map _)

theorem rmdir_some {fs fs' : FS} {denied : Path → Bool} {d : Path} (h : fs.rmdir denied d = some fs') :
    (d, Kind.dir) ∈ fs.items ∧ (∀ n k, (n :: d, k) ∉ fs.items) ∧ denied d = false ∧ fs' = fs.erase d := by
  unfold FS.rmdir at h
  split at h
  · rename_i hc
    simp only [Bool.and_eq_true, Bool.not_eq_true', List.isEmpty_iff] at hc
    refine ⟨FS.isDir_iff.mp hc.1.1, ?_, hc.2, (Option.some.inj h).symm⟩
    intro n k hk
    have : (n :: d, k) ∈ fs.children d := FS.mem_children.mpr ⟨hk, n, rfl⟩
    rw [hc.1.2] at this
    cases this
  · cases h

theorem rmdir_none {fs : FS} {denied : Path → Bool} {d : Path} (h : fs.rmdir denied d = none) :
    (d, Kind.dir) ∉ fs.items ∨ (∃ n k, (n :: d, k) ∈ fs.items) ∨ denied d = true := by
  refine Classical.byContradiction (fun hc => ?_)
  simp only [not_or, Classical.not_not, not_exists, Bool.not_eq_true] at hc
  unfold FS.rmdir at h
  rw [if_pos] at h
  · cases h
  · simp only [Bool.and_eq_true, Bool.not_eq_true', List.isEmpty_iff]
    refine ⟨⟨FS.isDir_iff.mpr hc.1, ?_⟩, hc.2.2⟩
    rw [List.eq_nil_iff_forall_not_mem]
    rintro ⟨q, k⟩ hi
    obtain ⟨h1, n, h2⟩ := FS.mem_children.mp hi
    simp only at h2
    subst h2
    exact hc.2.1 n k h1

theorem unlink_some {fs fs' : FS} {denied : Path → Bool} {p : Path} (h : fs.unlink denied p = some fs') :
    fs.exists p = true ∧ (p, Kind.dir) ∉ fs.items ∧ denied p = false ∧ fs' = fs.erase p := by
  unfold FS.unlink at h
  split at h
  · rename_i hc
    simp only [Bool.and_eq_true, Bool.not_eq_true'] at hc
    refine ⟨hc.1.1, ?_, hc.2, (Option.some.inj h).symm⟩
    intro hd
    rw [FS.isDir_iff.mpr hd] at hc
    cases hc.1.2
  · cases h

theorem foldl_shrink {α : Type} {P : Path × Kind → Prop} (f : FS → α → FS) (h : ∀ fs a, Shrink P fs (f fs a)) :
    ∀ (l : List α) (fs : FS), Shrink P fs (l.foldl f fs)
  | [], fs => Shrink.refl P fs
  | a :: l, fs => (h fs a).trans (foldl_shrink f h l (f fs a))

theorem foldl_shrink_mem {α : Type} {P : Path × Kind → Prop} (f : FS → α → FS) :
    ∀ (l : List α) (fs : FS), (∀ fs, ∀ a ∈ l, Shrink P fs (f fs a)) → Shrink P fs (l.foldl f fs)
  | [], fs, _ => Shrink.refl P fs
  | a :: l, fs, h => (h fs a List.mem_cons_self).trans
      (foldl_shrink_mem f l (f fs a) (fun fs b hb => h fs b (List.mem_cons_of_mem _ hb)))

theorem child_suffix {d : Path} {fs : FS} {c : Path × Kind} (h : c ∈ fs.children d) : d <:+ c.1 := by
  obtain ⟨_, n, hn⟩ := FS.mem_children.mp h
  rw [hn]
  exact List.suffix_cons n d

/-- Removal with contents takes away only what is below the path. -/
theorem removeRec_shrink (denied : Path → Bool) : ∀ (n : Nat) (fs : FS) (p : Path),
    Shrink (fun i => p <:+ i.1) fs (removeRec denied n fs p).1
  | 0, fs, p => Shrink.refl _ fs
  | n + 1, fs, p => by
    unfold removeRec
    split
    · exact Shrink.refl _ fs
    · split
      · have h1 : Shrink (fun i => p <:+ i.1) fs
            ((fs.children p).foldl (fun fs c => (removeRec denied n fs c.1).1) fs) :=
          foldl_shrink_mem _ _ _ (fun fs' c hc => (removeRec_shrink denied n fs' c.1).mono
            (fun i hi => (child_suffix hc).trans hi))
        cases hr : FS.rmdir ((fs.children p).foldl (fun fs c => (removeRec denied n fs c.1).1) fs) denied p with
        | none => simp only [hr]; exact h1
        | some fs' =>
          simp only [hr]
          obtain ⟨a, b, c, d⟩ := rmdir_some hr
          rw [d]
          exact h1.trans ((erase_shrink (fun _ => b)).mono (fun i hi => by rw [hi]; exact List.suffix_refl p))
      · cases hr : FS.unlink fs denied p with
        | none => exact Shrink.refl _ fs
        | some fs' =>
          obtain ⟨a, b, c, d⟩ := unlink_some hr
          simp only
          rw [d]
          refine (erase_shrink (fun hw n k hk => ?_)).mono (fun i hi => by rw [hi]; exact List.suffix_refl p)
          exact b (hw.parent n p k hk)

theorem removeRec_true (denied : Path → Bool) (n : Nat) (fs : FS) (p : Path)
    (h : (removeRec denied n fs p).2 = true) : ∀ k, (p, k) ∉ (removeRec denied n fs p).1.items := by
  cases n with
  | zero => cases h
  | succ n =>
    unfold removeRec at h ⊢
    split at h
    · rename_i hx
      rw [if_pos hx]
      exact FS.exists_false.mp (by simpa using hx)
    · rename_i hx
      rw [if_neg hx]
      split at h
      · rename_i hd
        rw [if_pos hd]
        cases hr : FS.rmdir ((fs.children p).foldl (fun fs c => (removeRec denied n fs c.1).1) fs) denied p with
        | none => simp only [hr] at h; cases h
        | some fs' =>
          simp only [hr]
          obtain ⟨a, b, c, d⟩ := rmdir_some hr
          intro k hk
          rw [d] at hk
          exact (FS.mem_erase.mp hk).2 rfl
      · rename_i hd
        rw [if_neg hd]
        cases hr : FS.unlink fs denied p with
        | none => simp only [hr] at h; cases h
        | some fs' =>
          simp only
          obtain ⟨a, b, c, d⟩ := unlink_some hr
          intro k hk
          rw [d] at hk
          exact (FS.mem_erase.mp hk).2 rfl

/-- If nothing stops it, everything is removed. -/
theorem removeRec_complete (denied : Path → Bool) : ∀ (n : Nat) (fs : FS) (p : Path), fs.WF →
    (∀ x, p <:+ x → denied x = false) → (∀ i ∈ fs.items, i.1.length < p.length + n) →
    ((removeRec denied n fs p).2 = true ∨ n = 0) ∧ ∀ k, (p, k) ∉ (removeRec denied n fs p).1.items
  | 0, fs, p, _, _, h => by
    refine ⟨Or.inr rfl, ?_⟩
    intro k hk
    have := h _ hk
    simp at this
  | n + 1, fs, p, hw, hd, h => by
    suffices hs : (removeRec denied (n + 1) fs p).2 = true from
      ⟨Or.inl hs, removeRec_true denied _ fs p hs⟩
    unfold removeRec
    split
    · rfl
    · rename_i hx
      split
      · rename_i hdir
        -- after the loop there are no children
        have key : ∀ (l : List (Path × Kind)) (g : FS), (∀ c ∈ l, ∃ m, c.1 = m :: p) →
            (∀ i ∈ g.items, i ∈ fs.items) → g.WF →
            let g' := l.foldl (fun fs c => (removeRec denied n fs c.1).1) g
            (∀ i ∈ g'.items, i ∈ g.items) ∧ (∀ c ∈ l, ∀ k, (c.1, k) ∉ g'.items) ∧
            (∀ i ∈ g.items, (¬ ∃ m, (m :: p) <:+ i.1) → i ∈ g'.items) := by
          intro l
          induction l with
          | nil => intro g _ _ _; exact ⟨fun _ h => h, by simp, fun _ h _ => h⟩
          | cons c l ih =>
            intro g hl hg hgw
            simp only [List.foldl_cons]
            have sh := removeRec_shrink denied n g c.1
            obtain ⟨m, hm⟩ := hl c List.mem_cons_self
            obtain ⟨i1, i2, i3⟩ := ih (removeRec denied n g c.1).1
              (fun x hx => hl x (List.mem_cons_of_mem _ hx)) (fun i hi => hg i (sh.sub i hi)) (sh.wf hgw)
            refine ⟨fun i hi => sh.sub i (i1 i hi), ?_, ?_⟩
            · intro x hx k hk
              rcases List.mem_cons.mp hx with rfl | hx
              · have := (removeRec_complete denied n g x.1 hgw (fun y hy => hd y (List.IsSuffix.trans (by
                  rw [hm]; exact List.suffix_cons m p) hy)) (fun i hi => by
                    have := h i (hg i hi)
                    rw [hm, List.length_cons]
                    omega)).2
                exact this k (i1 _ hk)
              · exact i2 x hx k hk
            · intro i hi hnot
              refine i3 i (sh.keep hgw i hi (fun hs => hnot ⟨m, by rw [← hm]; exact hs⟩)) hnot
        obtain ⟨k1, k2, k3⟩ := key (fs.children p) fs (fun c hc => (FS.mem_children.mp hc).2) (fun _ h => h) hw
        cases hr : FS.rmdir ((fs.children p).foldl (fun fs c => (removeRec denied n fs c.1).1) fs) denied p with
        | some fs' => simp only [hr]
        | none =>
          exfalso
          rcases rmdir_none hr with hr | ⟨m, k, hr⟩ | hr
          · refine hr (k3 _ (FS.isDir_iff.mp hdir) ?_)
            rintro ⟨m, hm⟩
            have := hm.length_le
            simp only [List.length_cons] at this
            omega
          · exact k2 (m :: p, k) (FS.mem_children.mpr ⟨k1 _ hr, m, rfl⟩) k hr
          · rw [hd p (List.suffix_refl p)] at hr
            cases hr
      · rename_i hdir
        have : fs.unlink denied p = some (fs.erase p) := by
          unfold FS.unlink
          rw [if_pos]
          simp only [Bool.and_eq_true, Bool.not_eq_true']
          exact ⟨⟨by simpa using hx, by simpa using hdir⟩, hd p (List.suffix_refl p)⟩
        rw [this]

theorem height_lt {fs : FS} : ∀ i ∈ fs.items, i.1.length < fs.height := by
  unfold FS.height
  induction fs.items with
  | nil => intro i hi; cases hi
  | cons j l ih =>
    intro i hi
    rw [List.foldr_cons]
    rcases List.mem_cons.mp hi with rfl | hi
    · exact Nat.lt_of_lt_of_le (Nat.lt_succ_self _) (Nat.le_max_left _ _)
    · exact Nat.lt_of_lt_of_le (ih i hi) (Nat.le_max_right _ _)

theorem height_pos {fs : FS} : 0 < fs.height := by
  unfold FS.height
  cases fs.items with
  | nil => exact Nat.one_pos
  | cons j l =>
    rw [List.foldr_cons]
    exact Nat.lt_of_lt_of_le (Nat.succ_pos _) (Nat.le_max_left _ _)

/-- Nothing is below what does not exist. -/
theorem nothing_below {fs : FS} (hw : fs.WF) {p : Path} (hp : ∀ k, (p, k) ∉ fs.items) :
    ∀ (x : Path) (k : Kind), p <:+ x → (x, k) ∉ fs.items
  | [], k, h => by
    rw [List.suffix_nil.mp h] at hp
    exact hp k
  | n :: r, k, h => by
    intro hk
    rcases List.suffix_cons_iff.mp h with h | h
    · rw [h] at hp
      exact hp k hk
    · exact nothing_below hw hp r .dir h (hw.parent n r k hk)

/-! ## Directories -/

/-- What removing empty directories leaves alone. -/
structure Frame (s s' : St) : Prop where
  stamped : s'.stamped = s.stamped
  rescuable : s'.rescuable = s.rescuable
  dirs : s'.dirs = s.dirs
  error : s.hasError = true → s'.hasError = true
  thrown : s.thrown = true → s'.thrown = true

theorem Frame.refl (s : St) : Frame s s := ⟨rfl, rfl, rfl, fun h => h, fun h => h⟩

theorem Frame.trans {a b c : St} (h1 : Frame a b) (h2 : Frame b c) : Frame a c :=
  ⟨h2.stamped.trans h1.stamped, h2.rescuable.trans h1.rescuable, h2.dirs.trans h1.dirs,
    fun h => h2.error (h1.error h), fun h => h2.thrown (h1.thrown h)⟩

/-- The step of the loop over the entries of a directory. -/
def entryStep (e : Env) (o : Options) (n : Nat) (r : St × Bool) (c : Path × Kind) : St × Bool :=
  if c.2 = .dir then
    let r' := removeEmpty e o n r.1 c.1
    (r'.1, r.2 && r'.2)
  else (r.1, false)

def listed (s : St) (d : Path) : List (Path × Kind) := (s.fs.children d).filter (·.2 ≠ .special)

/-- What happens after the loop. -/
def finishDir (e : Env) (o : Options) (d : Path) (r : St × Bool) : St × Bool :=
  if r.1.thrown then (r.1, false)
  else if r.2 then
    match r.1.fs.rmdir e.denied d with
    | some fs => ({ r.1 with fs := fs }, true)
    | none =>
      if o.keepGoing then ({ r.1 with hasError := true }, false)
      else ({ r.1 with thrown := true }, false)
  else r

theorem removeEmpty_succ (e : Env) (o : Options) (n : Nat) (s : St) (d : Path) :
    removeEmpty e o (n + 1) s d = if s.thrown then (s, false)
      else finishDir e o d ((listed s d).foldl (entryStep e o n) (s, true)) := by
  conv => lhs; unfold removeEmpty
  rfl

abbrev EmptyBelow (d : Path) : Path × Kind → Prop := fun i => i.2 = .dir ∧ d <:+ i.1

theorem finishDir_spec (e : Env) (o : Options) (d : Path) (r : St × Bool) :
    Frame r.1 (finishDir e o d r).1 ∧ Shrink (EmptyBelow d) r.1.fs (finishDir e o d r).1.fs := by
  unfold finishDir
  split
  · exact ⟨Frame.refl _, Shrink.refl _ _⟩
  · split
    · cases hr : r.1.fs.rmdir e.denied d with
      | none =>
        simp only
        split
        · exact ⟨⟨rfl, rfl, rfl, fun _ => rfl, fun h => h⟩, Shrink.refl _ _⟩
        · exact ⟨⟨rfl, rfl, rfl, fun h => h, fun _ => rfl⟩, Shrink.refl _ _⟩
      | some fs' =>
        simp only
        obtain ⟨a, b, c, d'⟩ := rmdir_some hr
        refine ⟨⟨rfl, rfl, rfl, fun h => h, fun h => h⟩, ?_⟩
        rw [d']
        have sh := erase_shrink (fun (_ : r.1.fs.WF) => b)
        refine ⟨sh.sub, ?_, sh.wf⟩
        intro hw i hi hnot
        by_cases hp : i.1 = d
        · refine absurd ⟨?_, by rw [hp]; exact List.suffix_refl d⟩ hnot
          obtain ⟨q, k⟩ := i
          simp only at hp ⊢
          subst hp
          exact hw.kind _ _ _ hi a
        · exact sh.keep hw i hi hp
    · exact ⟨Frame.refl _, Shrink.refl _ _⟩

theorem fold_spec (e : Env) (o : Options) (n : Nat) (d : Path)
    (ih : ∀ s c, Frame s (removeEmpty e o n s c).1 ∧ Shrink (EmptyBelow c) s.fs (removeEmpty e o n s c).1.fs) :
    ∀ (l : List (Path × Kind)) (r : St × Bool), (∀ c ∈ l, d <:+ c.1) →
    Frame r.1 (l.foldl (entryStep e o n) r).1 ∧
    Shrink (EmptyBelow d) r.1.fs (l.foldl (entryStep e o n) r).1.fs
  | [], r, _ => ⟨Frame.refl _, Shrink.refl _ _⟩
  | c :: l, r, h => by
    have h1 : Frame r.1 (entryStep e o n r c).1 ∧ Shrink (EmptyBelow d) r.1.fs (entryStep e o n r c).1.fs := by
      unfold entryStep
      split
      · obtain ⟨a, b⟩ := ih r.1 c.1
        exact ⟨a, b.mono (fun i hi => ⟨hi.1, (h c List.mem_cons_self).trans hi.2⟩)⟩
      · exact ⟨Frame.refl _, Shrink.refl _ _⟩
    obtain ⟨a, b⟩ := fold_spec e o n d ih l (entryStep e o n r c) (fun x hx => h x (List.mem_cons_of_mem _ hx))
    rw [List.foldl_cons]
    exact ⟨h1.1.trans a, h1.2.trans b⟩

theorem listed_suffix {s : St} {d : Path} : ∀ c ∈ listed s d, d <:+ c.1 :=
  fun c hc => child_suffix (List.mem_filter.mp hc).1

/-- Only directories below are removed. -/
theorem removeEmpty_spec (e : Env) (o : Options) : ∀ (n : Nat) (s : St) (d : Path),
    Frame s (removeEmpty e o n s d).1 ∧ Shrink (EmptyBelow d) s.fs (removeEmpty e o n s d).1.fs
  | 0, s, d => ⟨Frame.refl _, Shrink.refl _ _⟩
  | n + 1, s, d => by
    rw [removeEmpty_succ]
    split
    · exact ⟨Frame.refl _, Shrink.refl _ _⟩
    · obtain ⟨a, b⟩ := fold_spec e o n d (removeEmpty_spec e o n) (listed s d) (s, true) listed_suffix
      obtain ⟨c, f⟩ := finishDir_spec e o d ((listed s d).foldl (entryStep e o n) (s, true))
      exact ⟨a.trans c, b.trans f⟩

/-- There is something other than a directory below. -/
def HasContent (fs : FS) (d : Path) : Prop := ∃ f k, (f, k) ∈ fs.items ∧ k ≠ .dir ∧ d <:+ f

theorem HasContent.keep {fs fs' : FS} {d c : Path} (h : HasContent fs d) (hw : fs.WF)
    (hs : Shrink (EmptyBelow c) fs fs') : HasContent fs' d := by
  obtain ⟨f, k, h1, h2, h3⟩ := h
  exact ⟨f, k, hs.keep hw _ h1 (fun hc => h2 hc.1), h2, h3⟩

theorem suffix_total {a b c : Path} (h1 : a <:+ c) (h2 : b <:+ c) : a <:+ b ∨ b <:+ a :=
  List.suffix_or_suffix_of_suffix h1 h2

/-- Directories that are left have content; if the answer is that the tree is empty, it is gone. -/
def Tidy (fs : FS) (d : Path) : Prop := ∀ x, d <:+ x → (x, Kind.dir) ∈ fs.items → HasContent fs x

theorem removeEmpty_tidy (e : Env) (o : Options) : ∀ (n : Nat) (s : St) (d : Path), s.fs.WF →
    (∀ i ∈ s.fs.items, i.1.length < d.length + n) →
    (removeEmpty e o n s d).1.thrown = false → (removeEmpty e o n s d).1.hasError = false →
    Tidy (removeEmpty e o n s d).1.fs d ∧
    ((removeEmpty e o n s d).2 = true → ∀ k, (d, k) ∉ (removeEmpty e o n s d).1.fs.items) ∧
    ((removeEmpty e o n s d).2 = false → (d, Kind.dir) ∈ s.fs.items →
      HasContent (removeEmpty e o n s d).1.fs d)
  | 0, s, d, hw, hn, _, _ => by
    have hd : ∀ k, (d, k) ∉ s.fs.items := by
      intro k hk
      have := hn _ hk
      simp at this
    refine ⟨?_, fun _ => hd, fun _ h => absurd h (hd _)⟩
    intro x hx hxd
    exact absurd hxd (nothing_below hw hd x _ hx)
  | n + 1, s, d, hw, hn, ht, he => by
    have hall := removeEmpty_spec e o (n + 1) s d
    have hts : s.thrown = false := by
      cases h : s.thrown with
      | false => rfl
      | true => rw [hall.1.thrown h] at ht; cases ht
    have heq : removeEmpty e o (n + 1) s d = finishDir e o d ((listed s d).foldl (entryStep e o n) (s, true)) := by
      rw [removeEmpty_succ, if_neg (by simp [hts])]
    -- the loop
    have key : ∀ (l : List (Path × Kind)) (r : St × Bool), (∀ c ∈ l, ∃ m, c.1 = m :: d) →
        (∀ c ∈ l, c ∈ s.fs.items) → r.1.fs.WF → (∀ i ∈ r.1.fs.items, i ∈ s.fs.items) →
        (l.foldl (entryStep e o n) r).1.thrown = false → (l.foldl (entryStep e o n) r).1.hasError = false →
        (∀ c ∈ l, c.2 ≠ .dir → c ∈ r.1.fs.items) →
        (∀ c ∈ l, c.2 = .dir → Tidy (l.foldl (entryStep e o n) r).1.fs c.1) ∧
        ((l.foldl (entryStep e o n) r).2 = true → r.2 = true ∧
          ∀ c ∈ l, ∀ k, (c.1, k) ∉ (l.foldl (entryStep e o n) r).1.fs.items) ∧
        ((l.foldl (entryStep e o n) r).2 = false → r.2 = true → (l.map (·.1)).Nodup → (∀ c ∈ l, c ∈ r.1.fs.items) →
          HasContent (l.foldl (entryStep e o n) r).1.fs d) := by
      intro l
      induction l with
      | nil =>
        intro r _ _ _ _ _ _ _
        refine ⟨by simp, fun h => ⟨h, by simp⟩, fun h h' => ?_⟩
        simp only [List.foldl_nil] at h
        rw [h] at h'
        cases h'
      | cons c l ih =>
        intro r hl hin hrw hsub ht he hfile
        rw [List.foldl_cons] at ht he ⊢
        obtain ⟨m, hm⟩ := hl c List.mem_cons_self
        have hstep : Frame r.1 (entryStep e o n r c).1 ∧
            Shrink (EmptyBelow c.1) r.1.fs (entryStep e o n r c).1.fs := by
          have := fold_spec e o n c.1 (removeEmpty_spec e o n) [c] r (by simp)
          simpa using this
        have hrest := fold_spec e o n d (removeEmpty_spec e o n) l (entryStep e o n r c) (fun x hx => by
          obtain ⟨m', hm'⟩ := hl x (List.mem_cons_of_mem _ hx)
          rw [hm']
          exact List.suffix_cons m' d)
        have hw' := hstep.2.wf hrw
        obtain ⟨i1, i2, i3⟩ := ih (entryStep e o n r c) (fun x hx => hl x (List.mem_cons_of_mem _ hx))
          (fun x hx => hin x (List.mem_cons_of_mem _ hx)) hw'
          (fun i hi => hsub i (hstep.2.sub i hi)) ht he
          (fun x hx hk => hstep.2.keep hrw _ (hfile x (List.mem_cons_of_mem _ hx) hk) (fun hc => hk hc.1))
        have ht1 : (entryStep e o n r c).1.thrown = false := by
          cases h : (entryStep e o n r c).1.thrown with
          | false => rfl
          | true => rw [hrest.1.thrown h] at ht; cases ht
        have he1 : (entryStep e o n r c).1.hasError = false := by
          cases h : (entryStep e o n r c).1.hasError with
          | false => rfl
          | true => rw [hrest.1.error h] at he; cases he
        by_cases hk : c.2 = .dir
        · have hes : entryStep e o n r c = ((removeEmpty e o n r.1 c.1).1, r.2 && (removeEmpty e o n r.1 c.1).2) := by
            unfold entryStep
            rw [if_pos hk]
          rw [hes] at ht1 he1
          obtain ⟨j1, j2, j3⟩ := removeEmpty_tidy e o n r.1 c.1 hrw (fun i hi => by
            have := hn i (hsub i hi)
            rw [hm, List.length_cons]
            omega) ht1 he1
          refine ⟨?_, ?_, ?_⟩
          · intro x hx hxk
            rcases List.mem_cons.mp hx with rfl | hx
            · intro y hy hyd
              have h1 : (y, Kind.dir) ∈ (entryStep e o n r x).1.fs.items := hrest.2.sub _ hyd
              rw [hes] at h1
              have h2 := j1 y hy h1
              rw [hes] at hrest hw'
              rw [hes]
              exact h2.keep hw' hrest.2
            · exact i1 x hx hxk
          · intro h
            obtain ⟨h1, h2⟩ := i2 h
            rw [hes] at h1
            simp only [Bool.and_eq_true] at h1
            refine ⟨h1.1, ?_⟩
            intro x hx k hkx
            rcases List.mem_cons.mp hx with rfl | hx
            · have := hrest.2.sub _ hkx
              rw [hes] at this
              exact j2 h1.2 k this
            · exact h2 x hx k hkx
          · intro h hr hnd hmem
            rw [List.map_cons, List.nodup_cons] at hnd
            by_cases hb : (removeEmpty e o n r.1 c.1).2 = true
            · refine i3 h (by rw [hes]; simp [hr, hb]) hnd.2 ?_
              intro x hx
              refine hstep.2.keep hrw x (hmem x (List.mem_cons_of_mem _ hx)) ?_
              rintro ⟨_, hsuf⟩
              obtain ⟨m', hm'⟩ := hl x (List.mem_cons_of_mem _ hx)
              rw [hm, hm'] at hsuf
              rcases List.suffix_cons_iff.mp hsuf with hsuf | hsuf
              · exact hnd.1 (by rw [hm, hsuf, ← hm']; exact List.mem_map_of_mem hx)
              · have := hsuf.length_le
                simp only [List.length_cons] at this
                omega
            · have hc := j3 (by simpa using hb) (by
                have := hmem c List.mem_cons_self
                rw [← hk]
                exact this)
              rw [hes] at hrest hw' ⊢
              obtain ⟨f, k, h1, h2, h3⟩ := hc.keep hw' hrest.2
              exact ⟨f, k, h1, h2, (List.suffix_cons m d).trans (by rw [← hm]; exact h3)⟩
        · have hes : entryStep e o n r c = (r.1, false) := by
            unfold entryStep
            rw [if_neg hk]
          refine ⟨?_, ?_, ?_⟩
          · intro x hx hxk
            rcases List.mem_cons.mp hx with rfl | hx
            · exact absurd hxk hk
            · exact i1 x hx hxk
          · intro h
            have := (i2 h).1
            rw [hes] at this
            cases this
          · intro _ _ _ hmem
            have h1 := hmem c List.mem_cons_self
            rw [hes] at hrest ⊢
            refine ⟨c.1, c.2, hrest.2.keep hrw _ h1 (fun hc => hk hc.1), hk, ?_⟩
            rw [hm]
            exact List.suffix_cons m d
    -- and the end
    have hlist : ∀ c ∈ listed s d, c ∈ s.fs.items ∧ ∃ m, c.1 = m :: d :=
      fun c hc => FS.mem_children.mp (List.mem_filter.mp hc).1
    have hloop := fold_spec e o n d (removeEmpty_spec e o n) (listed s d) (s, true) listed_suffix
    have hfin := finishDir_spec e o d ((listed s d).foldl (entryStep e o n) (s, true))
    have hnd : ((listed s d).map (·.1)).Nodup :=
      hw.nodup.sublist ((List.filter_sublist.trans List.filter_sublist).map _)
    rw [heq] at ht he ⊢
    have hk := key (listed s d) (s, true) (fun c hc => (hlist c hc).2) (fun c hc => (hlist c hc).1) hw
      (fun i hi => hi)
    generalize hr : (listed s d).foldl (entryStep e o n) (s, true) = r at ht he hk hloop hfin ⊢
    have ht1 : r.1.thrown = false := by
      cases h : r.1.thrown with
      | false => rfl
      | true => rw [hfin.1.thrown h] at ht; cases ht
    have he1 : r.1.hasError = false := by
      cases h : r.1.hasError with
      | false => rfl
      | true => rw [hfin.1.error h] at he; cases he
    obtain ⟨k1, k2, k3⟩ := hk ht1 he1 (fun c hc _ => (hlist c hc).1)
    have hw1 := hloop.2.wf hw
    have inner : ∀ x, d <:+ x → x ≠ d → (x, Kind.dir) ∈ (finishDir e o d r).1.fs.items →
        HasContent (finishDir e o d r).1.fs x := by
      intro x hx hne hxd
      obtain ⟨t, ht⟩ := hx
      have htne : t ≠ [] := by
        intro h
        rw [h] at ht
        exact hne ht.symm
      obtain ⟨t', m, htm⟩ : ∃ t' m, t = t' ++ [m] :=
        ⟨t.dropLast, t.getLast htne, (List.dropLast_concat_getLast htne).symm⟩
      have hcs : (m :: d) <:+ x := ⟨t', by rw [← ht, htm]; simp⟩
      have hxs := hloop.2.sub _ (hfin.2.sub _ hxd)
      have hanc : ∀ (t : List String) (k : Kind), (t ++ m :: d, k) ∈ s.fs.items →
          (x, Kind.dir) ∈ s.fs.items → (t ≠ [] ∨ k = .dir) → (m :: d, Kind.dir) ∈ s.fs.items := by
        intro t
        induction t with
        | nil =>
          intro k h1 _ h2
          rw [← h2.resolve_left (by simp)]
          exact h1
        | cons a t ih =>
          intro k h1 hx' _
          exact ih .dir (hw.parent a _ k h1) hx' (Or.inr rfl)
      have hcd : (m :: d, Kind.dir) ∈ s.fs.items :=
        hanc t' .dir (by rw [show t' ++ m :: d = x by rw [← ht, htm]; simp]; exact hxs) hxs (Or.inr rfl)
      have hcl : (m :: d, Kind.dir) ∈ listed s d :=
        List.mem_filter.mpr ⟨FS.mem_children.mpr ⟨hcd, m, rfl⟩, by simp⟩
      exact (k1 _ hcl rfl x hcs (hfin.2.sub _ hxd)).keep hw1 hfin.2
    by_cases hb : r.2 = true
    · -- the directory was removed
      obtain ⟨fs', hrm⟩ : ∃ fs', r.1.fs.rmdir e.denied d = some fs' := by
        cases hrm : r.1.fs.rmdir e.denied d with
        | some fs' => exact ⟨fs', rfl⟩
        | none =>
          exfalso
          unfold finishDir at ht he
          rw [if_neg (by simp [ht1]), if_pos hb, hrm] at ht he
          simp only at ht he
          split at ht
          · rename_i hkg
            rw [if_pos hkg] at he
            cases he
          · cases ht
      have hfd : finishDir e o d r = ({ r.1 with fs := fs' }, true) := by
        unfold finishDir
        rw [if_neg (by simp [ht1]), if_pos hb, hrm]
      have hgone : ∀ k, (d, k) ∉ (finishDir e o d r).1.fs.items := by
        intro k hk
        rw [hfd, (rmdir_some hrm).2.2.2] at hk
        exact (FS.mem_erase.mp hk).2 rfl
      refine ⟨?_, fun _ => hgone, fun h => ?_⟩
      · intro x hx hxd
        by_cases hne : x = d
        · rw [hne] at hxd
          exact absurd hxd (hgone _)
        · exact inner x hx hne hxd
      · rw [hfd] at h
        cases h
    · have hfd : finishDir e o d r = r := by
        unfold finishDir
        rw [if_neg (by simp [ht1]), if_neg hb]
      have hc : HasContent r.1.fs d := k3 (by simpa using hb) rfl hnd (fun c hc => (hlist c hc).1)
      refine ⟨?_, fun h => ?_, fun _ _ => by rw [hfd]; exact hc⟩
      · intro x hx hxd
        by_cases hne : x = d
        · rw [hne, hfd]; exact hc
        · exact inner x hx hne hxd
      · rw [hfd] at h
        exact absurd h hb

end Verif.Clean
