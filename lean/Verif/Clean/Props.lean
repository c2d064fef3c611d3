import Verif.Clean.Loop
/-!
# C29: cleaning

Specification used below: `Selected ps a` (a generated artifact of one of the products), `Rescuable s ps x`
(a path with rescuable data of one of the products), `HasContent fs d` (something that is not a
directory is below `d`); `a <:+ b` says that `b` is `a` or below it.
-/
namespace Verif.Clean

/-- The generated artifacts are inside the build directory, as rules may create them only there. -/
def InBuild (build : Path) (ps : List Product) : Prop := ∀ a, Selected ps a → build <:+ a.path.tail

def start (s : St) : St := { s with dirs := [], hasError := false, thrown := false }

theorem mem_addIfNew {d x : Path} : ∀ {l acc : List Path}, x ∈ l.foldl addIfNew acc ↔ x ∈ acc ∨ x ∈ l
  | [], acc => by simp
  | y :: l, acc => by
    rw [List.foldl_cons, mem_addIfNew (d := d)]
    unfold addIfNew
    split
    · rename_i h
      have h := List.contains_iff_mem.mp h
      constructor
      · rintro (h' | h')
        · exact Or.inl h'
        · exact Or.inr (List.mem_cons_of_mem _ h')
      · rintro (h' | h')
        · exact Or.inl h'
        · rcases List.mem_cons.mp h' with rfl | h'
          · exact Or.inl h
          · exact Or.inr h'
    · simp only [List.mem_cons]
      constructor
      · rintro ((h | h) | h)
        · exact Or.inr (Or.inl h)
        · exact Or.inl h
        · exact Or.inr (Or.inr h)
      · rintro (h | h | h)
        · exact Or.inl (Or.inr h)
        · exact Or.inl (Or.inl h)
        · exact Or.inr h

/-- The list of directories at the beginning of the last loop. -/
def dirList (s : St) : List Path := Common.isort leStr (s.dirs.foldl addIfNew [])

theorem mem_dirList {s : St} {x : Path} : x ∈ dirList s ↔ x ∈ s.dirs := by
  unfold dirList
  rw [Common.mem_isort, mem_addIfNew (d := x)]
  simp

theorem cleanup_eq (e : Env) (o : Options) (build : Path) (s : St) (ps : List Product) :
    cleanup e o build s ps =
      if (visitProducts e o (start s) ps).thrown then visitProducts e o (start s) ps
      else dirLoop e o build (measure (dirList (visitProducts e o (start s) ps)))
        (visitProducts e o (start s) ps) [] (dirList (visitProducts e o (start s) ps)) := rfl

theorem dirs_below (e : Env) (o : Options) (build : Path) (s : St) (ps : List Product) (hb : InBuild build ps) :
    ∀ d ∈ dirList (visitProducts e o (start s) ps), build <:+ d := by
  intro d hd
  rcases (products_rel e o ps (start s)).dirsFrom d (mem_dirList.mp hd) with h | ⟨a, ha, h⟩
  · cases h
  · rw [h]; exact hb a ha

/-- After the artifacts have been visited only empty directories are removed. -/
theorem cleanup_rel (e : Env) (o : Options) (build : Path) (s : St) (ps : List Product)
    (hb : InBuild build ps) :
    Frame (visitProducts e o (start s) ps) (cleanup e o build s ps) ∧
    Shrink (EmptyBelow build) (visitProducts e o (start s) ps).fs (cleanup e o build s ps).fs := by
  rw [cleanup_eq]
  split
  · exact ⟨Frame.refl _, Shrink.refl _ _⟩
  · exact dirLoop_spec e o build _ _ _ _ (dirs_below e o build s ps hb)

theorem failed_false {s : St} (h : s.failed = false) : s.hasError = false ∧ s.thrown = false := by
  unfold St.failed at h
  simpa using h

/-- **C29.** Whatever happens: what is removed is a generated artifact of the products (or below one), a
file with rescuable data, or a directory in the build directory everything in which is removed, too. -/
theorem C29_removes_only (e : Env) (o : Options) (build : Path) (s : St) (ps : List Product)
    (hw : s.fs.WF) (hb : InBuild build ps) (i : Path × Kind) (hi : i ∈ s.fs.items)
    (hr : i ∉ (cleanup e o build s ps).fs.items) :
    (∃ a, Selected ps a ∧ a.path <:+ i.1) ∨ (∃ x, Rescuable s ps x ∧ x <:+ i.1) ∨
    (i.2 = .dir ∧ build <:+ i.1 ∧ ∀ j ∈ s.fs.items, i.1 <:+ j.1 → j ∉ (cleanup e o build s ps).fs.items) := by
  have h1 := products_rel e o ps (start s)
  obtain ⟨_, h2⟩ := cleanup_rel e o build s ps hb
  have hw0 : (start s).fs.WF := hw
  have hw1 := h1.shrink.wf hw0
  by_cases hm : i ∈ (visitProducts e o (start s) ps).fs.items
  · right; right
    have hd : EmptyBelow build i := Classical.byContradiction (fun hn => hr (h2.keep hw1 i hm hn))
    refine ⟨hd.1, hd.2, fun j hj hsuf hjr => ?_⟩
    have hgone : ∀ k, (i.1, k) ∉ (cleanup e o build s ps).fs.items := by
      intro k hk
      have := hw1.kind _ _ _ (h2.sub _ hk) hm
      rw [this] at hk
      exact hr hk
    exact nothing_below (h2.wf hw1) hgone j.1 j.2 hsuf hjr
  · have hA := Classical.byContradiction (fun hn => hm (h1.shrink.keep hw0 i hi hn))
    obtain ⟨x, ⟨a, ha, rfl⟩ | hx, hs⟩ := hA
    · exact Or.inl ⟨a, ha, hs⟩
    · exact Or.inr (Or.inl ⟨x, hx, hs⟩)

/-- **C29.** A file that is not a generated artifact of the products and has no rescuable data (nor is in
a directory that is one) stays. -/
theorem C29_other_files_stay (e : Env) (o : Options) (build : Path) (s : St) (ps : List Product)
    (hw : s.fs.WF) (hb : InBuild build ps) (f : Path) (k : Kind) (hf : (f, k) ∈ s.fs.items) (hk : k ≠ .dir)
    (ha : ∀ a, Selected ps a → ¬ a.path <:+ f) (hx : ∀ x, Rescuable s ps x → ¬ x <:+ f) :
    (f, k) ∈ (cleanup e o build s ps).fs.items := by
  refine Classical.byContradiction (fun hn => ?_)
  rcases C29_removes_only e o build s ps hw hb _ hf hn with ⟨a, h1, h2⟩ | ⟨x, h1, h2⟩ | ⟨h1, _⟩
  · exact ha a h1 h2
  · exact hx x h1 h2
  · exact hk h1

/-- **C29.** If cleaning succeeds, all generated artifacts of the products and all files with rescuable
data are gone, and so are their time stamps and data. -/
theorem C29_removes_all (e : Env) (o : Options) (build : Path) (s : St) (ps : List Product)
    (hb : InBuild build ps) (hd : o.dryRun = false) (hok : (cleanup e o build s ps).failed = false) :
    (∀ a, Selected ps a → (cleanup e o build s ps).fs.exists a.path = false ∧
      a.id ∉ (cleanup e o build s ps).stamped) ∧
    (∀ x, Rescuable s ps x → (cleanup e o build s ps).fs.exists x = false) ∧
    (∀ p ∈ ps, ∀ x, (p.id, x) ∉ (cleanup e o build s ps).rescuable) := by
  have h1 := products_rel e o ps (start s)
  obtain ⟨hf, h2⟩ := cleanup_rel e o build s ps hb
  obtain ⟨he, ht⟩ := failed_false hok
  have ht1 : (visitProducts e o (start s) ps).thrown = false := by
    cases h : (visitProducts e o (start s) ps).thrown with
    | false => rfl
    | true => rw [hf.thrown h] at ht; cases ht
  have he1 : (visitProducts e o (start s) ps).hasError = false := by
    cases h : (visitProducts e o (start s) ps).hasError with
    | false => rfl
    | true => rw [hf.error h] at he; cases he
  refine ⟨?_, ?_, ?_⟩
  · intro a ha
    obtain ⟨s1, s2, id, hw, hs2, _, hlater⟩ := at_artifact e o ps (start s) a ha
    obtain ⟨A, T, hrel⟩ := hlater ht1
    have ht2 : s2.thrown = false := by
      cases h : s2.thrown with
      | false => rfl
      | true => rw [hrel.thrown h] at ht1; cases ht1
    have he2 : s2.hasError = false := by
      cases h : s2.hasError with
      | false => rfl
      | true => rw [hrel.error h] at he1; cases he1
    have hsp := (visitArtifact_spec e o id s1 a).2.2 hw
    rw [← hs2] at hsp
    obtain ⟨g1, g2⟩ := (hsp ht2).2 he2 hd
    refine ⟨FS.exists_false.mpr (fun k hk => g1 k (hrel.shrink.sub _ (h2.sub _ hk))), fun hk => ?_⟩
    rw [hf.stamped] at hk
    exact g2 (hrel.stamped _ hk)
  · rintro x ⟨p, hp, hx⟩
    refine FS.exists_false.mpr (fun k hk => ?_)
    exact h1.gone hd ht1 (p.id, x) hx (rescuable_done e o ps (start s) ht1 p hp x) k (h2.sub _ hk)
  · intro p hp x hx
    rw [hf.rescuable] at hx
    exact rescuable_done e o ps (start s) ht1 p hp x hx

/-- **C29.** If cleaning succeeds, the directories of the artifacts and those above them (in the build
directory) contain something that is not a directory, if they still exist. -/
theorem C29_no_empty_directories (e : Env) (o : Options) (build : Path) (s : St) (ps : List Product)
    (hw : s.fs.WF) (hb : InBuild build ps) (hok : (cleanup e o build s ps).failed = false)
    (a : Artifact) (ha : Selected ps a) (d : Path) (hd : d <:+ a.path.tail) (hdb : build <:+ d) (hne : d ≠ build)
    (hex : (d, Kind.dir) ∈ (cleanup e o build s ps).fs.items) : HasContent (cleanup e o build s ps).fs d := by
  have h1 := products_rel e o ps (start s)
  obtain ⟨hf, h2⟩ := cleanup_rel e o build s ps hb
  obtain ⟨he, ht⟩ := failed_false hok
  have ht1 : (visitProducts e o (start s) ps).thrown = false := by
    cases h : (visitProducts e o (start s) ps).thrown with
    | false => rfl
    | true => rw [hf.thrown h] at ht; cases ht
  obtain ⟨s1, s2, id, hwa, hs2, _, hlater⟩ := at_artifact e o ps (start s) a ha
  obtain ⟨A, T, hrel⟩ := hlater ht1
  have ht2 : s2.thrown = false := by
    cases h : s2.thrown with
    | false => rfl
    | true => rw [hrel.thrown h] at ht1; cases ht1
  have hsp := (visitArtifact_spec e o id s1 a).2.2 hwa
  rw [← hs2] at hsp
  have hin : a.path.tail ∈ dirList (visitProducts e o (start s) ps) :=
    mem_dirList.mpr (hrel.dirs _ (hsp ht2).1)
  have hce := cleanup_eq e o build s ps
  rw [if_neg (by simp [ht1])] at hce
  rw [hce] at ht he hex ⊢
  obtain ⟨done, i1, i2, i3⟩ := dirLoop_tidy e o build _ (visitProducts e o (start s) ps) [] _
    (h1.shrink.wf hw) (Nat.le_refl _) (by
      intro x hx
      exact dirs_below e o build s ps hb x (by simpa using hx)) (by simp) (by simp) ht he
  -- all directories above are in the list
  have up : ∀ (t : List String), (t ++ d) ∈ done → d ∈ done := by
    intro t
    induction t with
    | nil => intro h; exact h
    | cons n t ih =>
      intro h
      rcases i3 _ h with h' | h' | h'
      · exfalso
        have h3 := congrArg List.length h'
        have h4 := hdb.length_le
        simp only [List.cons_append, List.length_cons, List.length_append] at h3
        omega
      · simp only [List.cons_append, List.tail_cons] at h'
        have h3 := congrArg List.length h'
        have h4 := hdb.length_le
        simp only [List.length_append] at h3
        have h5 : t = [] := List.length_eq_zero_iff.mp (by omega)
        rw [h5] at h'
        exact absurd h' hne
      · exact ih h'
  obtain ⟨t, hteq⟩ := hd
  have hdone := up t (by rw [hteq]; exact i1 _ (by simpa using hin))
  exact i2 d hdone d (List.suffix_refl d) hex

/-! ## Failures -/

theorem removeArtifact_complete (e : Env) (o : Options) (s : St) (id : Option Nat) (p : Path) (hw : s.fs.WF)
    (hd : o.dryRun = false) (hn : ∀ x, p <:+ x → e.denied x = false) :
    (removeArtifact e o s id p).2 = true := by
  unfold removeArtifact
  simp only [hd]
  split
  · rfl
  · simp only [Bool.false_eq_true, if_false]
    refine (removeRec_complete e.denied _ s.fs p hw hn (fun i hi => ?_)).1.resolve_right ?_
    · have := height_lt i hi
      omega
    · have := height_pos (fs := s.fs)
      omega

/-- **C29.** With `keepGoing`, and unless canceled, each artifact whose removal is possible is removed,
also if others cannot be. (Rescuable data are left out here, see `C29_rescuable_failure_stops`.) -/
theorem C29_keep_going_partial (e : Env) (o : Options) (build : Path) (s : St) (ps : List Product)
    (hw : s.fs.WF) (hb : InBuild build ps) (hd : o.dryRun = false) (hk : o.keepGoing = true)
    (hc : ∀ i, e.canceled i = false) (hres : s.rescuable = []) (a : Artifact) (ha : Selected ps a)
    (hn : ∀ x, a.path <:+ x → e.denied x = false) :
    (cleanup e o build s ps).fs.exists a.path = false := by
  obtain ⟨_, h2⟩ := cleanup_rel e o build s ps hb
  -- nothing is thrown
  have step : ∀ id (s : St) b, s.thrown = false → (visitArtifact e o id s b).thrown = false := by
    intro id s b hs
    unfold visitArtifact
    rw [if_neg (by simp [hs])]
    split
    · exact hs
    · rw [if_neg (by simp [hc])]
      split
      · exact hs
      · simp only [hk, Bool.not_true, Bool.and_false, Bool.false_eq_true, if_false]
        rw [(removeArtifact_spec e o s (some b.id) b.path).2.2.2.2.2.1]
        exact hs
  have steps : ∀ id (l : List Artifact) (s : St), s.thrown = false →
      (l.foldl (visitArtifact e o id) s).thrown = false := by
    intro id l
    induction l with
    | nil => intro s h; exact h
    | cons b l ih => intro s h; rw [List.foldl_cons]; exact ih _ (step id s b h)
  have prods : ∀ (ps : List Product) (s : St), s.thrown = false → s.rescuable = [] →
      (visitProducts e o s ps).thrown = false := by
    intro ps
    induction ps with
    | nil => intro s h _; exact h
    | cons p ps ih =>
      intro s h hr
      have hr1 : (p.nodes.foldl (visitArtifact e o p.id) s).rescuable = [] := by
        refine List.eq_nil_iff_forall_not_mem.mpr (fun y hy => ?_)
        have := (nodes_rel e o p.id p.nodes s).rescuable y hy
        rw [hr] at this
        cases this
      have hv : visitProduct e o s p = p.nodes.foldl (visitArtifact e o p.id) s := by
        unfold visitProduct
        simp only
        rw [hr1]
        rfl
      unfold visitProducts
      rw [List.foldl_cons, if_neg (by simp [h]), hv]
      exact ih _ (steps p.id p.nodes s h) hr1
  have ht1 := prods ps (start s) rfl hres
  obtain ⟨s1, s2, id, hwa, hs2, ⟨A1, T1, hbefore⟩, hlater⟩ := at_artifact e o ps (start s) a ha
  obtain ⟨A, T, hrel⟩ := hlater ht1
  have hts1 : s2.thrown = false := by
    cases h : s2.thrown with
    | false => rfl
    | true => rw [hrel.thrown h] at ht1; cases ht1
  have ht0 : s1.thrown = false := by
    cases h : s1.thrown with
    | false => rfl
    | true =>
      rw [hs2] at hts1
      rw [(visitArtifact_spec e o id s1 a).1.thrown h] at hts1
      cases hts1
  have hw1 : s1.fs.WF := hbefore.shrink.wf hw
  have hgone : ∀ k, (a.path, k) ∉ s2.fs.items := by
    have hok := removeArtifact_complete e o s1 (some a.id) a.path hw1 hd hn
    have hspec := removeArtifact_spec e o s1 (some a.id) a.path
    have heq : s2.fs = (removeArtifact e o s1 (some a.id) a.path).1.fs := by
      rw [hs2]
      unfold visitArtifact
      rw [if_neg (by simp [ht0]), if_neg (by simp [hwa.1]), if_neg (by simp [hc]), if_neg (by simp [hwa.2])]
      simp only [hok, Bool.not_true, Bool.false_and, Bool.false_eq_true, if_false]
    rw [heq]
    exact hspec.2.2.2.2.2.2.1 hd hok
  exact FS.exists_false.mpr (fun k hk => hgone k (hrel.shrink.sub _ (h2.sub _ hk)))

theorem foldl_thrown (e : Env) (o : Options) (id : Nat) : ∀ (l : List Artifact) (s : St), s.thrown = true →
    l.foldl (visitArtifact e o id) s = s
  | [], s, _ => rfl
  | b :: l, s, h => by
    rw [List.foldl_cons, show visitArtifact e o id s b = s by unfold visitArtifact; rw [if_pos h]]
    exact foldl_thrown e o id l s h

theorem foldl_thrown' (e : Env) (o : Options) (id : Nat) : ∀ (l : List Path) (s : St), s.thrown = true →
    l.foldl (visitRescuable e o id) s = s
  | [], s, _ => rfl
  | b :: l, s, h => by
    rw [List.foldl_cons, show visitRescuable e o id s b = s by unfold visitRescuable; rw [if_pos h]]
    exact foldl_thrown' e o id l s h

/-- **C29.** Without `keepGoing` the first artifact that cannot be removed ends the cleaning: only
artifacts before it are removed, and the failure is reported. -/
theorem C29_stops_at_failure (e : Env) (o : Options) (build : Path) (s : St) (id : Nat)
    (before after : List Artifact) (a : Artifact) (hw : s.fs.WF)
    (hd : o.dryRun = false) (hk : o.keepGoing = false) (ha : a.generated = true ∧ a.product = id)
    (hfile : (a.path, Kind.file) ∈ s.fs.items) (hden : e.denied a.path = true)
    (hnot : ∀ b ∈ before, b.generated = true → ¬ b.path <:+ a.path) :
    let r := cleanup e o build s [⟨id, before ++ a :: after⟩]
    r.failed = true ∧
    ∀ i ∈ s.fs.items, i ∉ r.fs.items → ∃ b ∈ before, b.generated = true ∧ b.path <:+ i.1 := by
  intro r
  have hrel := nodes_rel e o id before (start s)
  generalize hs1 : before.foldl (visitArtifact e o id) (start s) = s1 at hrel
  have hin : (a.path, Kind.file) ∈ s1.fs.items := by
    refine hrel.shrink.keep hw _ hfile ?_
    rintro ⟨x, ⟨b, hb, hwb, rfl⟩, hsuf⟩
    exact hnot b hb hwb.1 hsuf
  have hw1 : s1.fs.WF := hrel.shrink.wf hw
  -- the artifact
  have h2 : (visitArtifact e o id s1 a).thrown = true ∧ (visitArtifact e o id s1 a).fs = s1.fs := by
    unfold visitArtifact
    split
    · rename_i h
      exact ⟨h, rfl⟩
    · rw [if_neg (by simp [ha.1])]
      split
      · exact ⟨rfl, rfl⟩
      · rw [if_neg (by simp [ha.2])]
        have hex : s1.fs.exists a.path = true := FS.exists_iff.mpr ⟨_, hin⟩
        have hdir : s1.fs.isDir a.path = false := by
          cases hdir : s1.fs.isDir a.path with
          | false => rfl
          | true =>
            have := hw1.kind _ _ _ hin (FS.isDir_iff.mp hdir)
            cases this
        have hrm : removeRec e.denied s1.fs.height s1.fs a.path = (s1.fs, false) := by
          have := height_pos (fs := s1.fs)
          obtain ⟨n, hn⟩ : ∃ n, s1.fs.height = n + 1 := ⟨s1.fs.height - 1, by omega⟩
          rw [hn]
          unfold removeRec
          rw [if_neg (by simp [hex]), if_neg (by simp [hdir])]
          have : s1.fs.unlink e.denied a.path = none := by
            unfold FS.unlink
            rw [if_neg (by simp [hden])]
          rw [this]
        unfold removeArtifact
        simp [hex, hd, hk, hrm]
  have hfold : (before ++ a :: after).foldl (visitArtifact e o id) (start s) = visitArtifact e o id s1 a := by
    rw [List.foldl_append, List.foldl_cons, hs1]
    exact foldl_thrown e o id after _ h2.1
  have hv : visitProducts e o (start s) [⟨id, before ++ a :: after⟩] = visitArtifact e o id s1 a := by
    unfold visitProducts
    rw [List.foldl_cons, List.foldl_nil, if_neg (by simp [start])]
    unfold visitProduct
    simp only
    rw [hfold]
    exact foldl_thrown' e o id _ _ h2.1
  have hr : r = visitArtifact e o id s1 a := by
    show cleanup e o build s [⟨id, before ++ a :: after⟩] = _
    rw [cleanup_eq, hv, if_pos h2.1]
  rw [hr]
  refine ⟨by unfold St.failed; rw [h2.1]; simp, ?_⟩
  intro i hi hni
  rw [h2.2] at hni
  have hA := Classical.byContradiction (fun hn => hni (hrel.shrink.keep hw i hi hn))
  obtain ⟨x, ⟨b, hb, hwb, rfl⟩, hsuf⟩ := hA
  exact ⟨b, hb, hwb.1, hsuf⟩

/-! ## Dry run -/

/-- **C29.** In dry-run mode only directories that are empty (or contain only such directories) are
removed, and no time stamp changes. The full property says that nothing is removed:
see `C29_dry_run_removes_directories`, `C29_dry_run_forgets`. -/
theorem C29_dry_run_partial (e : Env) (o : Options) (build : Path) (s : St) (ps : List Product)
    (hw : s.fs.WF) (hb : InBuild build ps) (hd : o.dryRun = true) :
    (cleanup e o build s ps).stamped = s.stamped ∧
    ∀ i ∈ s.fs.items, i ∉ (cleanup e o build s ps).fs.items →
      i.2 = .dir ∧ build <:+ i.1 ∧ ¬ HasContent s.fs i.1 := by
  have h1 := products_rel e o ps (start s)
  obtain ⟨hf, h2⟩ := cleanup_rel e o build s ps hb
  obtain ⟨d1, d2⟩ := h1.dry hd
  have d1 : (visitProducts e o (start s) ps).fs = s.fs := d1
  rw [d1] at h2
  refine ⟨hf.stamped.trans d2, fun i hi hn => ?_⟩
  have hdir : EmptyBelow build i := Classical.byContradiction (fun h => hn (h2.keep hw i hi h))
  refine ⟨hdir.1, hdir.2, ?_⟩
  rintro ⟨f, k, hfk, hk, hsuf⟩
  have hgone : ∀ k, (i.1, k) ∉ (cleanup e o build s ps).fs.items := by
    intro k hk
    have := hw.kind _ _ _ (h2.sub _ hk) hi
    rw [this] at hk
    exact hn hk
  exact nothing_below (h2.wf hw) hgone f k hsuf (h2.keep hw _ hfk (fun hc => hk hc.1))

/-! ## Cases -/

def fs0 : FS := ⟨[([], .dir), (["b"], .dir), (["p", "b"], .dir), (["a.o", "p", "b"], .file),
  (["x", "p", "b"], .file), (["sub", "p", "b"], .dir), (["g.c", "sub", "p", "b"], .file),
  (["s"], .dir), (["main.c", "s"], .file), (["bg", "b"], .file)]⟩

def prod0 : Product := ⟨1, [⟨1, ["main.c", "s"], false, 1⟩, ⟨2, ["a.o", "p", "b"], true, 1⟩,
  ⟨3, ["g.c", "sub", "p", "b"], true, 1⟩]⟩

def st0 : St := ⟨fs0, [1, 2, 3], [(1, ["x", "p", "b"])], [], false, false⟩

def env0 : Env := ⟨fun _ => false, fun _ => false⟩

theorem fs0_wf : fs0.WF := by
  refine ⟨?_, ?_, by decide⟩
  · intro n p k h
    simp only [fs0, List.mem_cons, List.not_mem_nil, or_false, Prod.mk.injEq] at h
    rcases h with h | h | h | h | h | h | h | h | h | h <;> first
      | (obtain ⟨h, _⟩ := h; cases h; decide)
      | (obtain ⟨h, _⟩ := h; cases h)
  · intro p k k' h1 h2
    have : ∀ i ∈ fs0.items, ∀ j ∈ fs0.items, i.1 = j.1 → i.2 = j.2 := by decide
    exact this _ h1 _ h2 rfl

example : st0.fs.WF ∧ InBuild ["b"] [prod0] ∧
    (cleanup env0 ⟨false, false⟩ ["b"] st0 [prod0]).failed = false := by
  refine ⟨fs0_wf, ?_, by decide⟩
  rintro a ⟨p, hp, ha, hg, _⟩
  rw [List.mem_singleton.mp hp] at ha
  simp only [prod0, List.mem_cons, List.not_mem_nil, or_false] at ha
  rcases ha with rfl | rfl | rfl
  · cases hg
  · exact ⟨["p"], rfl⟩
  · exact ⟨["sub", "p"], rfl⟩

example : (cleanup env0 ⟨false, false⟩ ["b"] st0 [prod0]).fs.items =
    [([], .dir), (["b"], .dir), (["s"], .dir), (["main.c", "s"], .file), (["bg", "b"], .file)] := by decide

/-- The cases of failures. -/
example : let e : Env := ⟨fun p => p == ["a.o", "p", "b"], fun _ => false⟩
    let r := cleanup e ⟨false, true⟩ ["b"] { st0 with rescuable := [] } [prod0]
    r.failed = true ∧ r.fs.exists ["a.o", "p", "b"] = true ∧ r.fs.exists ["g.c", "sub", "p", "b"] = false ∧
    let r := cleanup e ⟨false, false⟩ ["b"] st0 [prod0]
    r.failed = true ∧ r.fs = fs0 := by decide

/-- **C29 finding.** In dry-run mode empty directories are removed all the same
(artifactcleaner.cpp 217-218). -/
theorem C29_dry_run_removes_directories :
    let fs : FS := ⟨[([], .dir), (["b"], .dir), (["p", "b"], .dir), (["bg", "b"], .file)]⟩
    let s : St := ⟨fs, [], [], [], false, false⟩
    let r := cleanup env0 ⟨true, false⟩ ["b"] s [⟨1, [⟨2, ["a.o", "p", "b"], true, 1⟩]⟩]
    r.failed = false ∧ s.fs.exists ["p", "b"] = true ∧ r.fs.exists ["p", "b"] = false := by decide

/-- **C29 finding.** A dry run forgets about files with rescuable data (artifactcleaner.cpp 125), so that
a later cleaning does not remove them. -/
theorem C29_dry_run_forgets :
    let r := cleanup env0 ⟨true, false⟩ ["b"] st0 [prod0]
    let r' := cleanup env0 ⟨false, false⟩ ["b"] r [prod0]
    r.fs = st0.fs ∧ r'.failed = false ∧ r'.fs.exists ["x", "p", "b"] = true ∧
    (cleanup env0 ⟨false, false⟩ ["b"] st0 [prod0]).fs.exists ["x", "p", "b"] = false := by decide

/-- **C29 finding.** If a file with rescuable data cannot be removed, cleaning stops even with `keepGoing`
(artifactcleaner.cpp 124 has no handler, unlike 140-147). -/
theorem C29_rescuable_failure_stops :
    let e : Env := ⟨fun p => p == ["x", "p", "b"], fun _ => false⟩
    let other : Product := ⟨2, [⟨3, ["g.c", "sub", "p", "b"], true, 2⟩]⟩
    let r := cleanup e ⟨false, true⟩ ["b"] st0 [⟨1, []⟩, other]
    r.failed = true ∧ r.fs.exists ["g.c", "sub", "p", "b"] = true := by decide

/-- **C29 finding.** A broken link in a directory makes cleaning fail: the listing does not show it, so the
directory seems to be empty and cannot be removed (artifactcleaner.cpp 208, 218). -/
theorem C29_broken_link_fails :
    let fs : FS := ⟨[([], .dir), (["b"], .dir), (["p", "b"], .dir), (["a.o", "p", "b"], .file),
      (["lnk", "p", "b"], .special), (["bg", "b"], .file)]⟩
    let s : St := ⟨fs, [], [], [], false, false⟩
    (cleanup env0 ⟨false, false⟩ ["b"] s [⟨1, [⟨2, ["a.o", "p", "b"], true, 1⟩]⟩]).failed = true := by decide

/-- **C29 finding.** The directories of files with rescuable data are not looked at
(artifactcleaner.cpp 119-126 do not add to `m_directories`): they stay although they are empty. -/
theorem C29_rescuable_directory_stays :
    let fs : FS := ⟨[([], .dir), (["b"], .dir), (["p", "b"], .dir), (["x", "p", "b"], .file),
      (["bg", "b"], .file)]⟩
    let s : St := ⟨fs, [], [(1, ["x", "p", "b"])], [], false, false⟩
    let r := cleanup env0 ⟨false, false⟩ ["b"] s [⟨1, []⟩]
    r.failed = false ∧ r.fs.exists ["x", "p", "b"] = false ∧ r.fs.exists ["p", "b"] = true := by decide

end Verif.Clean
