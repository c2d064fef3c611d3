import Verif.Install.Paths
/-!
# C30: what installing does to the file system
-/
namespace Verif.Install

open Verif.Path Verif.Path.Spec

/-! ## Targets -/

/-- `w` is inside the directory `r`. -/
def Inside (r w : List Str) : Prop := r <+: w

/-- `w` is inside a directory next to `r`, whose name is that of `r` with something appended. -/
def BesideLonger (r w : List Str) : Prop :=
  ∃ x rest, x ≠ [] ∧ r ≠ [] ∧ w = r.dropLast ++ (r.getLastD [] ++ x) :: rest

theorem absolute_ne {d : List Str} (h : d ≠ []) : absolute d = text d := by
  unfold absolute; rw [if_neg h]; rfl

theorem text_cons (a : Str) (l : List Str) : text (a :: l) = '/' :: (a ++ text l) := by
  simp [text]

theorem text_append (a b : List Str) : text (a ++ b) = text a ++ text b := by
  simp [text]

theorem accepted_shape {R W : List Str} {k : Nat} (hr : ∀ n ∈ R, IsName n) (hw : ∀ n ∈ W, IsName n)
    (h : absolute R <+: absolute (List.replicate k up ++ W)) : Inside R W ∨ BesideLonger R W := by
  by_cases hR : R = []
  · exact Or.inl (by rw [hR]; exact List.nil_prefix)
  · have hS : List.replicate k up ++ W ≠ [] := by
      intro h'
      rw [h', absolute_ne hR] at h
      cases R with
      | nil => exact hR rfl
      | cons r R =>
        have := h.length_le
        rw [text_cons] at this
        have h1 := (hr r (by simp)).1
        cases r with
        | nil => exact h1 rfl
        | cons c r => simp [absolute] at this
    rw [absolute_ne hR, absolute_ne hS] at h
    have hp := text_prefix R _ (fun n hn => seg_of_name (hr n hn)) (shape_seg hw) h
    cases k with
    | zero => simpa [Inside, BesideLonger] using hp
    | succ k =>
      exfalso
      rw [List.replicate_succ, List.cons_append] at hp
      cases R with
      | nil => exact hR rfl
      | cons r R =>
        have hr1 := hr r (by simp)
        rcases hp with hp | ⟨x, rest, h1, _, h3⟩
        · rw [List.cons_prefix_cons] at hp
          exact hr1.2.2.2 hp.1
        · cases R with
          | nil =>
            simp only [List.dropLast_singleton, List.nil_append, List.cons.injEq] at h3
            have h4 : ['.', '.'] = r ++ x := h3.1
            obtain ⟨n1, n2, n3, n4⟩ := hr1
            rcases r with _ | ⟨c, _ | ⟨d, r⟩⟩
            · exact n1 rfl
            · simp only [List.cons_append, List.cons.injEq] at h4
              exact n3 (by rw [← h4.1])
            · simp only [List.cons_append, List.cons.injEq] at h4
              have := congrArg List.length h4.2.2
              cases x with
              | nil => exact h1 rfl
              | cons _ _ => simp at this
          | cons r' R =>
            simp only [List.dropLast_cons_cons, List.cons_append, List.cons.injEq] at h3
            exact hr1.2.2.2 h3.1.symm

theorem targetDir_shape {R : List Str} (hr : ∀ n ∈ R, IsName n) (a : Artifact) :
    ∃ k, cleanPath (absolute R ++ '/' :: a.pre ++ '/' :: a.dir) =
        absolute (List.replicate k up ++ targetPlace R a) ∧
      (up ∉ components a.pre ++ components a.dir → k = 0) ∧ (∀ n ∈ targetPlace R a, IsName n) := by
  have habs : isAbsolute (absolute R ++ '/' :: a.pre ++ '/' :: a.dir) = true :=
    isAbsolute_append (isAbsolute_append (absolute_isAbsolute R))
  have hne : absolute R ++ '/' :: a.pre ++ '/' :: a.dir ≠ [] := by simp
  have hpl : place (absolute R ++ '/' :: a.pre ++ '/' :: a.dir) = targetPlace R a := by
    rw [← (place_cleanPath habs).1]; exact (targetDir_place hr a).1
  obtain ⟨k, hk, hk'⟩ := cleanSegs_shape (absolute R ++ '/' :: a.pre ++ '/' :: a.dir)
  rw [hpl] at hk
  refine ⟨k, ?_, ?_, ?_⟩
  · conv => lhs; unfold cleanPath
    rw [if_neg hne, if_pos habs, hk]
  · intro h
    apply hk'
    rw [components_append, components_append, components_absolute R (fun n hn => seg_of_name (hr n hn))]
    intro hm
    simp only [List.mem_append] at hm h
    rcases hm with (hm | hm) | hm
    · exact (hr _ hm).2.2.2 rfl
    · exact h (Or.inl hm)
    · exact h (Or.inr hm)
  · rw [← hpl]; exact place_names _

theorem final_place {R : List Str} (hr : ∀ n ∈ R, IsName n) (a : Artifact) (rest : Str) :
    place (cleanPath (cleanPath (absolute R ++ '/' :: a.pre ++ '/' :: a.dir) ++ '/' :: rest)) =
      walk (targetPlace R a) (components rest) := by
  obtain ⟨h1, h2⟩ := targetDir_place hr a
  rw [(place_cleanPath (isAbsolute_append h2)).1, place_append, h1]

theorem absolute_ne_nil (R : List Str) : absolute R ≠ [] := by
  intro h
  have := absolute_isAbsolute R
  rw [h] at this
  cases this

/-- C30, without `installSourceBase`: an accepted target is the file's name in the directory reached from
    the install root by way of the prefix and the installation directory, and that directory is inside the
    install root, or else inside a directory next to it whose name continues the install root's. What is
    missing for the full property is the latter (see `C30_sibling_directory`). -/
theorem C30_inside_partial {home t : Str} {R : List Str} {a : Artifact} (hr : ∀ n ∈ R, IsName n)
    (hb : a.base = []) (hf : IsName (fileName a.src))
    (h : targetFilePath home (absolute R) a = .ok t) :
    place t = walk R (components a.pre ++ components a.dir) ++ [fileName a.src] ∧
    (Inside R (walk R (components a.pre ++ components a.dir)) ∨
     BesideLonger R (walk R (components a.pre ++ components a.dir))) := by
  unfold targetFilePath at h
  simp only [if_neg (absolute_ne_nil R)] at h
  rw [if_pos hb] at h
  obtain ⟨k, hk, _, hw⟩ := targetDir_shape hr a
  by_cases hp : absolute R <+: cleanPath (absolute R ++ '/' :: a.pre ++ '/' :: a.dir)
  · rw [if_neg (by simpa using hp)] at h
    injection h with h
    subst h
    refine ⟨?_, accepted_shape (k := k) hr hw (hk ▸ hp)⟩
    rw [final_place hr, components_name hf.2.1 hf.1]
    exact walk_names _ _ (by simpa using hf)
  · rw [if_pos (by rw [Bool.not_eq_true', ← Bool.not_eq_true, List.isPrefixOf_iff_prefix]; exact hp)] at h
    cases h

theorem walk_no_up : ∀ (cs R : List Str), up ∉ cs → walk R cs = R ++ cs.filter (· ≠ ['.'])
  | [], R, _ => by simp [walk]
  | c :: cs, R, h => by
    simp only [List.mem_cons, not_or] at h
    rw [show walk R (c :: cs) = walk (step R c) cs from rfl]
    unfold step
    by_cases h1 : c = ['.']
    · rw [if_pos h1, walk_no_up cs R h.2, List.filter_cons_of_neg (by simp [h1])]
    · rw [if_neg h1, if_neg (fun h' => h.1 (by rw [h']; rfl)), walk_no_up cs _ h.2,
        List.filter_cons_of_pos (by simp [h1])]
      simp

theorem absolute_prefix (R l : List Str) : absolute R <+: absolute (R ++ l) := by
  by_cases hR : R = []
  · subst hR
    by_cases hl : l = []
    · subst hl; exact List.prefix_refl _
    · rw [List.nil_append, absolute_ne hl]
      cases l with
      | nil => exact absurd rfl hl
      | cons a l => rw [text_cons]; exact ⟨a ++ text l, rfl⟩
  · rw [absolute_ne hR, absolute_ne (by simp [hR]), text_append]
    exact List.prefix_append _ _

/-- C30: with a prefix and a directory that do not go up, installation is not refused, and the target is
    inside the install root, in the directory the prefix and the directory say. -/
theorem C30_not_refused {home : Str} {R : List Str} {a : Artifact} (hr : ∀ n ∈ R, IsName n)
    (hb : a.base = []) (hf : IsName (fileName a.src))
    (hp : ['.', '.'] ∉ components a.pre) (hd : ['.', '.'] ∉ components a.dir) :
    ∃ t, targetFilePath home (absolute R) a = .ok t ∧
      place t = R ++ ((components a.pre).filter (· ≠ ['.']) ++ (components a.dir).filter (· ≠ ['.']) ++
        [fileName a.src]) := by
  obtain ⟨k, hk, hk0, hw⟩ := targetDir_shape hr a
  have hup : up ∉ components a.pre ++ components a.dir := by
    simp only [List.mem_append, not_or]; exact ⟨hp, hd⟩
  have hW : targetPlace R a = R ++ (components a.pre ++ components a.dir).filter (· ≠ ['.']) :=
    walk_no_up _ _ hup
  rw [hk0 hup, List.replicate_zero, List.nil_append, hW] at hk
  have hpre : absolute R <+: cleanPath (absolute R ++ '/' :: a.pre ++ '/' :: a.dir) := by
    rw [hk]; exact absolute_prefix _ _
  have he : ∃ t, targetFilePath home (absolute R) a = .ok t := by
    unfold targetFilePath
    simp only [if_neg (absolute_ne_nil R)]
    rw [if_pos hb, if_neg (by simpa using hpre)]
    exact ⟨_, rfl⟩
  obtain ⟨t, ht⟩ := he
  refine ⟨t, ht, ?_⟩
  rw [(C30_inside_partial hr hb hf ht).1, walk_no_up _ _ hup, List.filter_append]
  simp

example : targetFilePath "/home/u".toList (absolute ["r".toList])
    ⟨"/s/x".toList, "/s".toList, true, "usr/./local".toList, "bin".toList, [], []⟩ =
    .ok "/r/usr/local/bin/x".toList := by decide +kernel

theorem drop_base {B rest : List Str} (hB : ∀ n ∈ B, IsName n) (hrest : rest ≠ []) :
    (absolute (B ++ rest)).drop ((absolute B).length +
      (if (absolute B).getLast? = some '/' then 0 else 1)) = (text rest).drop 1 := by
  by_cases h : B = []
  · subst h
    rw [List.nil_append, absolute_ne hrest]
    rfl
  · have hl : ¬ (absolute B).getLast? = some '/' := by
      intro hl
      have hc := chop_absolute B hB
      rw [if_pos hl, absolute_ne h] at hc
      have := congrArg List.length hc
      cases B with
      | nil => exact h rfl
      | cons b B => rw [text_cons] at this; simp at this
    rw [if_neg hl, absolute_ne h, absolute_ne (by simp [h]), text_append, List.drop_append]
    simp

/-- C30, with `installSourceBase`: a file below the base directory keeps its path relative to it, below the
    directory reached by way of the prefix and the installation directory. -/
theorem C30_source_base {home : Str} {R B rest : List Str} {a : Artifact} (hr : ∀ n ∈ R, IsName n)
    (hb : a.base ≠ [])
    (hB : ∀ n ∈ B, IsName n) (hrest : ∀ n ∈ rest, IsName n) (hne : rest ≠ [])
    (hbase : resolvePath home (cleanPath a.sourceDir) (cleanPath a.base) = some (absolute B))
    (hsrc : a.src = absolute (B ++ rest)) :
    ∃ t, targetFilePath home (absolute R) a = .ok t ∧
      place t = walk R (components a.pre ++ components a.dir) ++ rest := by
  unfold targetFilePath
  simp only [if_neg (absolute_ne_nil R)]
  rw [if_neg hb, hbase]
  have hp : absolute B <+: a.src := by rw [hsrc]; exact absolute_prefix _ _
  simp only
  rw [if_neg (by simpa using hp)]
  refine ⟨_, rfl, ?_⟩
  rw [final_place hr, hsrc, drop_base hB hne]
  cases rest with
  | nil => exact absurd rfl hne
  | cons r rs =>
    have e : components ((text (r :: rs)).drop 1) = r :: rs := by
      have := components_text (r :: rs) hrest
      rw [text_cons, components_slash] at this
      rw [text_cons]
      exact this
    rw [e]
    exact walk_names _ _ hrest

theorem clean_names : ∀ (l acc : List Str), (∀ n ∈ l, IsName n) → l.foldl stepClean acc = acc ++ l
  | [], acc, _ => by simp
  | n :: l, acc, h => by
    have hn := h n (by simp)
    rw [List.foldl_cons]
    have : stepClean acc n = acc ++ [n] := by
      unfold stepClean; rw [if_neg hn.2.2.1, if_neg hn.2.2.2]
    rw [this, clean_names l _ (fun m hm => h m (by simp [hm]))]
    simp

theorem cleanPath_absolute {d : List Str} (h : ∀ n ∈ d, IsName n) :
    cleanPath (absolute d) = absolute d := by
  unfold cleanPath
  rw [if_neg (absolute_ne_nil d), if_pos (absolute_isAbsolute d)]
  unfold cleanSegs
  rw [components_absolute d (fun n hn => seg_of_name (h n hn)), clean_names d [] h, List.nil_append]

theorem cleanPath_relative {d : List Str} (h : ∀ n ∈ d, IsName n) (hne : d ≠ []) :
    cleanPath ((text d).drop 1) = (text d).drop 1 := by
  cases d with
  | nil => exact absurd rfl hne
  | cons a d =>
    have ha := h a (by simp)
    have e : (text (a :: d)).drop 1 = a ++ text d := by rw [text_cons]; rfl
    have hc : components (a ++ text d) = a :: d := by
      have := components_text (a :: d) h
      rw [text_cons, components_slash] at this
      exact this
    have hs : cleanSegs (a ++ text d) = a :: d := by
      unfold cleanSegs; rw [hc, clean_names _ [] h, List.nil_append]
    unfold cleanPath
    rw [e, if_neg (by simp [ha.1]), if_neg, hs, if_neg (by simp)]
    · show (text (a :: d)).drop 1 = _
      exact e
    · cases a with
      | nil => exact absurd rfl ha.1
      | cons c a =>
        intro h'
        have : c = '/' := by simpa [isAbsolute] using h'
        exact ha.2.1 (by simp [this])

/-- C30: `installSourceBase` naming a directory below the product's source directory. -/
theorem C30_source_base_relative {home : Str} {R S names rest : List Str} {a : Artifact}
    (hr : ∀ n ∈ R, IsName n) (hS : ∀ n ∈ S, IsName n) (hn : ∀ n ∈ names, IsName n)
    (hrest : ∀ n ∈ rest, IsName n) (hne : rest ≠ []) (hne' : names ≠ []) (ht : names.head? ≠ some ['~'])
    (hsd : a.sourceDir = absolute S) (hb : a.base = (text names).drop 1)
    (hsrc : a.src = absolute (S ++ names ++ rest)) :
    ∃ t, targetFilePath home (absolute R) a = .ok t ∧
      place t = walk R (components a.pre ++ components a.dir) ++ rest := by
  refine C30_source_base (B := S ++ names) hr ?_ ?_ hrest hne ?_ hsrc
  · rw [hb]
    cases names with
    | nil => exact absurd rfl hne'
    | cons a names => rw [text_cons]; simp [(hn a (by simp)).1]
  · intro n h
    rcases List.mem_append.mp h with h | h
    · exact hS n h
    · exact hn n h
  · rw [hsd, hb, cleanPath_absolute hS, cleanPath_relative hn hne']
    have := C06_resolve_clean home S names 0 hS hn hne' ht
    simpa using this

example : targetFilePath "/home/u".toList (absolute ["r".toList])
    ⟨"/s/doc/a/x".toList, "/s".toList, true, "usr".toList, "share".toList, "doc".toList, []⟩ =
    .ok "/r/usr/share/a/x".toList := by decide +kernel

/-- **C30 finding.** The test whether the target is inside the install root compares strings: a directory
    next to the install root whose name only begins like it passes. -/
theorem C30_sibling_directory :
    ∃ (a : Artifact) (t : Str), a.base = [] ∧
      targetFilePath "/home/u".toList (absolute ["root".toList]) a = .ok t ∧
      t = "/root-of-others/x".toList ∧ ¬ Inside (place "/root".toList) (place t) := by
  refine ⟨⟨"/s/x".toList, "/s".toList, true, [], "../root-of-others".toList, [], []⟩,
    "/root-of-others/x".toList, rfl, by decide +kernel, rfl, ?_⟩
  unfold Inside
  decide +kernel

/-- **C30 finding.** With `installSourceBase` there is no test at all: the file is installed outside of the
    install root. -/
theorem C30_no_test_with_source_base :
    ∃ (a : Artifact) (t : Str), a.base ≠ [] ∧
      targetFilePath "/home/u".toList (absolute ["root".toList]) a = .ok t ∧ t = "/etc/x".toList := by
  exact ⟨⟨"/s/x".toList, "/s".toList, true, [], "../etc".toList, ".".toList, []⟩,
    "/etc/x".toList, by decide, by decide +kernel, rfl⟩

/-- **C30 finding.** Whether a file is below `installSourceBase` is also decided by comparing strings: a file
    of another directory is accepted and its path cut in the middle of a name. -/
theorem C30_source_base_cuts_names :
    ∃ (a : Artifact) (t : Str), a.src = "/s/foobar/x".toList ∧ a.base = "foo".toList ∧
      targetFilePath "/home/u".toList (absolute ["root".toList]) a = .ok t ∧ t = "/root/ar/x".toList := by
  exact ⟨⟨"/s/foobar/x".toList, "/s".toList, true, [], [], "foo".toList, []⟩,
    "/root/ar/x".toList, rfl, rfl, by decide +kernel, rfl⟩

/-- **C30 finding.** Without an install root there is no test either: the artifact's own root is used, but
    what the target is compared to is the empty string. -/
theorem C30_no_root_no_test :
    ∃ (a : Artifact) (t : Str), a.rootProperty = "/root".toList ∧ a.base = [] ∧
      targetFilePath "/home/u".toList [] a = .ok t ∧ t = "/etc/x".toList := by
  exact ⟨⟨"/s/x".toList, "/s".toList, true, [], "../etc".toList, [], "/root".toList⟩,
    "/etc/x".toList, rfl, rfl, by decide +kernel, rfl⟩

/-! ## Installing -/

/-- `a` is to be installed to `t`. -/
def Goes (e : Env) (root : Str) (as : List Artifact) (a : Artifact) (t : Str) : Prop :=
  a ∈ as ∧ a.install = true ∧ targetFilePath e.home root a = .ok t

theorem failed_thrown {s : St} (h : s.thrown.isSome = true) : s.failed = true := by
  unfold St.failed; rw [h]; rfl

theorem handleError_failed (o : Options) (s : St) (x : Error) : (handleError o s x).failed = true := by
  unfold handleError St.failed
  split <;> simp

theorem checked_files (o : Options) (s : St) (a : Artifact) (t : Str) :
    (checked o s a t).files = s.files ∧ (checked o s a t).map = s.map ∧
    (s.failed = true → (checked o s a t).failed = true) := by
  unfold checked
  split
  · split
    · refine ⟨?_, ?_, fun _ => handleError_failed _ _ _⟩ <;> · unfold handleError; split <;> rfl
    · exact ⟨rfl, rfl, id⟩
  · exact ⟨rfl, rfl, id⟩

theorem installFile_eq (e : Env) (o : Options) (root : Str) (s : St) (a : Artifact) {t : Str}
    (hs : s.thrown.isSome = false) (ht : targetFilePath e.home root a = .ok t) (hd : o.dryRun = false)
    (hm : e.mkpathFails t = false) :
    installFile e o root s a =
      if (checked o s a t).thrown.isSome then checked o s a t
      else if (copyFile e s.files a.src t).2 then
        { checked o s a t with map := (t, a.src) :: s.map, files := (copyFile e s.files a.src t).1 }
      else handleError o
        { checked o s a t with map := (t, a.src) :: s.map, files := (copyFile e s.files a.src t).1 }
        (.copy t) := by
  unfold installFile
  rw [if_neg (by simp [hs]), ht]
  simp only [hd, hm, Bool.false_eq_true, if_false]
  rw [(checked_files o s a t).1, (checked_files o s a t).2.1]

theorem installFile_thrown (e : Env) (o : Options) (root : Str) (s : St) (a : Artifact)
    (hs : s.thrown.isSome = true) : installFile e o root s a = s := by
  unfold installFile; rw [if_pos hs]

theorem handleError_files (o : Options) (s : St) (x : Error) :
    (handleError o s x).files = s.files ∧ (handleError o s x).map = s.map := by
  unfold handleError; split <;> exact ⟨rfl, rfl⟩

/-- All cases of the installation of a file. -/
theorem installFile_cases (e : Env) (o : Options) (root : Str) (s : St) (a : Artifact) :
    (installFile e o root s a = s ∧ (s.thrown.isSome = true ∨ o.dryRun = true)) ∨
    ((installFile e o root s a).failed = true ∧ (installFile e o root s a).files = s.files) ∨
    (∃ t, targetFilePath e.home root a = .ok t ∧ o.dryRun = false ∧ s.thrown.isSome = false ∧
      (installFile e o root s a).files = (copyFile e s.files a.src t).1 ∧
      ((installFile e o root s a).failed = true ∨
       ((copyFile e s.files a.src t).2 = true ∧
        (installFile e o root s a).map = (t, a.src) :: s.map ∧
        (s.failed = true → (installFile e o root s a).failed = true) ∧
        (∀ other, s.map.lookup t = some other → other = a.src)))) := by
  cases hs : s.thrown.isSome with
  | true => exact Or.inl ⟨installFile_thrown e o root s a hs, Or.inl rfl⟩
  | false =>
    cases ht : targetFilePath e.home root a with
    | error x =>
      right; left
      have : installFile e o root s a = { s with thrown := some x } := by
        unfold installFile; rw [if_neg (by simp [hs]), ht]
      rw [this]
      exact ⟨rfl, rfl⟩
    | ok t =>
      cases hd : o.dryRun with
      | true =>
        left
        refine ⟨?_, Or.inr rfl⟩
        unfold installFile; rw [if_neg (by simp [hs]), ht]; simp [hd]
      | false =>
        cases hm : e.mkpathFails t with
        | true =>
          right; left
          have : installFile e o root s a = handleError o s (.mkpath t) := by
            unfold installFile; rw [if_neg (by simp [hs]), ht]; simp [hd, hm]
          rw [this]
          exact ⟨handleError_failed _ _ _, (handleError_files _ _ _).1⟩
        | false =>
          obtain ⟨c1, c2, c3⟩ := checked_files o s a t
          rw [installFile_eq e o root s a hs ht hd hm]
          by_cases hc : (checked o s a t).thrown.isSome = true
          · rw [if_pos hc]
            exact Or.inr (Or.inl ⟨failed_thrown hc, c1⟩)
          · rw [if_neg hc]
            right; right
            refine ⟨t, rfl, rfl, rfl, ?_⟩
            by_cases hok : (copyFile e s.files a.src t).2 = true
            · rw [if_pos hok]
              refine ⟨rfl, ?_⟩
              by_cases hcf : (checked o s a t).failed = true
              · exact Or.inl hcf
              · refine Or.inr ⟨hok, rfl, fun h => c3 h, ?_⟩
                intro other hl
                unfold checked at hcf
                rw [hl] at hcf
                simp only at hcf
                by_cases he : a.src = other
                · exact he.symm
                · rw [if_pos he] at hcf
                  exact absurd (handleError_failed _ _ _) hcf
            · rw [if_neg hok]
              exact ⟨(handleError_files _ _ _).1, Or.inl (handleError_failed _ _ _)⟩

theorem installFile_failed (e : Env) (o : Options) (root : Str) (s : St) (a : Artifact)
    (h : s.failed = true) : (installFile e o root s a).failed = true := by
  rcases installFile_cases e o root s a with ⟨h1, _⟩ | ⟨h1, _⟩ | ⟨t, _, _, _, _, h1 | ⟨_, _, h1, _⟩⟩
  · rw [h1]; exact h
  · exact h1
  · exact h1
  · exact h1 h

/-- The state in which the first file is installed. -/
def begin (e : Env) (o : Options) (root : Str) (files : Str → Option File) : St :=
  if o.removeExisting then removeInstallRoot e o root ⟨files, [], [], none⟩ else ⟨files, [], [], none⟩

/-- What is there after the removal of an existing installation, if it was asked for and worked. -/
def afterRemoval (e : Env) (o : Options) (root : Str) (files : Str → Option File) : Str → Option File :=
  if o.removeExisting = true ∧ o.dryRun = false ∧ e.rootRemovalFails = false then
    fun p => if place root <+: place p then none else files p
  else files

theorem begin_spec (e : Env) (o : Options) (root : Str) (files : Str → Option File) :
    (begin e o root files).files = afterRemoval e o root files ∧ (begin e o root files).map = [] := by
  unfold begin afterRemoval removeInstallRoot
  cases h1 : o.removeExisting with
  | false => simp
  | true =>
    cases h2 : o.dryRun with
    | true => simp
    | false =>
      cases h3 : e.rootRemovalFails with
      | true =>
        simp only [if_true, Bool.false_eq_true, if_false]
        have := handleError_files o ⟨files, [], [], none⟩ .remove
        simp [this.1, this.2]
      | false => simp

theorem installAll_eq (e : Env) (o : Options) (root : Str) (files : Str → Option File) (as : List Artifact) :
    installAll e o root files as =
      (as.filter (·.install)).foldl (installFile e o root) (begin e o root files) := rfl

theorem copyFile_other (e : Env) (f : Str → Option File) (src t p : Str) (h : p ≠ t) :
    (copyFile e f src t).1 p = f p := by
  unfold copyFile
  have hset : ∀ x, setFile f t x p = f p := by intro x; unfold setFile; rw [if_neg h]
  split
  · rfl
  · rfl
  · split
    · rfl
    · split
      · rfl
      · split <;> exact hset _
  · split
    · rfl
    · exact hset _

/-- C30: installing changes no file but the targets of the artifacts to be installed, and, if the removal of
    an existing installation is asked for, files inside the install root. -/
theorem C30_changes_only_targets (e : Env) (o : Options) (root : Str) (files : Str → Option File)
    (as : List Artifact) (p : Str) (h : (installAll e o root files as).files p ≠ files p) :
    (∃ a, Goes e root as a p) ∨ (o.removeExisting = true ∧ place root <+: place p) := by
  by_cases hg : ∃ a, Goes e root as a p
  · exact Or.inl hg
  · right
    have hnot : ∀ a ∈ as.filter (·.install), targetFilePath e.home root a ≠ .ok p := by
      intro a ha ht
      obtain ⟨h1, h2⟩ := List.mem_filter.mp ha
      exact hg ⟨a, h1, h2, ht⟩
    have key : ∀ (l : List Artifact) (s : St), (∀ a ∈ l, targetFilePath e.home root a ≠ .ok p) →
        (l.foldl (installFile e o root) s).files p = s.files p := by
      intro l
      induction l with
      | nil => intro s _; rfl
      | cons a l ih =>
        intro s hl
        rw [List.foldl_cons, ih _ (fun b hb => hl b (by simp [hb]))]
        rcases installFile_cases e o root s a with ⟨h1, _⟩ | ⟨_, h1⟩ | ⟨t, ht, _, _, h1, _⟩
        · rw [h1]
        · rw [h1]
        · rw [h1]
          refine copyFile_other e _ _ _ _ ?_
          intro hpt
          exact hl a (by simp) (by rw [ht, hpt])
    rw [installAll_eq, key _ _ hnot, (begin_spec e o root files).1] at h
    unfold afterRemoval at h
    split at h
    · rename_i hc
      refine ⟨hc.1, ?_⟩
      simp only at h
      by_cases hp : place root <+: place p
      · exact hp
      · rw [if_neg hp] at h; exact absurd rfl h
    · exact absurd rfl h

/-- C30: a dry run changes nothing. -/
theorem C30_dry_run (e : Env) (o : Options) (c : Conf) (files : Str → Option File) (as : List Artifact)
    (h : o.dryRun = true) : (install e o c files as).files = files := by
  unfold install
  split
  · rfl
  · rename_i root _
    rw [installAll_eq]
    have key : ∀ (l : List Artifact) (s : St), (l.foldl (installFile e o root) s).files = s.files := by
      intro l
      induction l with
      | nil => intro s; rfl
      | cons a l ih =>
        intro s
        rw [List.foldl_cons, ih]
        rcases installFile_cases e o root s a with ⟨h1, _⟩ | ⟨_, h1⟩ | ⟨t, _, hd, _⟩
        · rw [h1]
        · rw [h1]
        · rw [h] at hd; cases hd
    rw [key, (begin_spec e o root files).1]
    unfold afterRemoval
    rw [if_neg (by simp [h])]

/-- While nothing has failed, each file installed so far is known by its target. -/
theorem good_installAll (e : Env) (o : Options) (root : Str) (s0 : St) (hd : o.dryRun = false)
    (l : List Artifact) (h : (l.foldl (installFile e o root) s0).failed = false) :
    ∀ a ∈ l, ∃ t, targetFilePath e.home root a = .ok t ∧
      (l.foldl (installFile e o root) s0).map.lookup t = some a.src := by
  induction l using Verif.snoc_induction with
  | nil => intro a ha; cases ha
  | append_singleton l b ih =>
    rw [List.foldl_append] at h ⊢
    simp only [List.foldl_cons, List.foldl_nil] at h ⊢
    have hl : (l.foldl (installFile e o root) s0).failed = false := by
      cases hc : (l.foldl (installFile e o root) s0).failed with
      | false => rfl
      | true => rw [installFile_failed e o root _ b hc] at h; exact h
    have ih := ih hl
    rcases installFile_cases e o root (l.foldl (installFile e o root) s0) b with
      ⟨_, h2⟩ | ⟨h1, _⟩ | ⟨t, ht, _, _, _, h1 | ⟨_, h2, _, h3⟩⟩
    · rcases h2 with h2 | h2
      · rw [failed_thrown h2] at hl; cases hl
      · rw [hd] at h2; cases h2
    · rw [h1] at h; cases h
    · rw [h1] at h; cases h
    · intro a ha
      rw [h2]
      rcases List.mem_append.mp ha with ha | ha
      · obtain ⟨u, hu, hlk⟩ := ih a ha
        refine ⟨u, hu, ?_⟩
        by_cases hut : u = t
        · subst hut
          rw [h3 _ hlk]
          simp
        · rw [List.lookup_cons, show (u == t) = false by simpa using hut]; exact hlk
      · rw [List.mem_singleton.mp ha]
        exact ⟨t, ht, by simp⟩

/-- C30: if two different files are to be installed to the same location, the installation does not succeed
    silently. -/
theorem C30_conflicts_reported (e : Env) (o : Options) (root : Str) (files : Str → Option File)
    (as : List Artifact) (hd : o.dryRun = false) (a b : Artifact) (t : Str)
    (ha : Goes e root as a t) (hb : Goes e root as b t) (hab : a.src ≠ b.src) :
    (installAll e o root files as).failed = true := by
  cases hf : (installAll e o root files as).failed with
  | true => rfl
  | false =>
    exfalso
    rw [installAll_eq] at hf
    have key := good_installAll e o root _ hd _ hf
    obtain ⟨u, hu, h1⟩ := key a (List.mem_filter.mpr ⟨ha.1, ha.2.1⟩)
    obtain ⟨v, hv, h2⟩ := key b (List.mem_filter.mpr ⟨hb.1, hb.2.1⟩)
    rw [ha.2.2] at hu
    rw [hb.2.2] at hv
    injection hu with hu
    injection hv with hv
    rw [← hu] at h1
    rw [← hv, h1] at h2
    injection h2 with h2
    exact hab h2

/-- C30: an artifact that is refused makes the installation fail, also with `keepGoing`. -/
theorem C30_refusal_fails (e : Env) (o : Options) (root : Str) (files : Str → Option File)
    (as : List Artifact) (hd : o.dryRun = false) (a : Artifact) (x : Error)
    (ha : a ∈ as) (hi : a.install = true) (h : targetFilePath e.home root a = .error x) :
    (installAll e o root files as).failed = true := by
  cases hf : (installAll e o root files as).failed with
  | true => rfl
  | false =>
    exfalso
    rw [installAll_eq] at hf
    obtain ⟨u, hu, _⟩ := good_installAll e o root _ hd _ hf a (List.mem_filter.mpr ⟨ha, hi⟩)
    rw [h] at hu; cases hu

/-- What copying leaves in the target, given the source and what was there. -/
def Result (src old new : Option File) : Prop :=
  match src, old with
  | some f, none => ∃ g, new = some g ∧ g.content = f.content
  | some f, some g0 => if f.mtime ≤ g0.mtime then ∃ g, new = some g ∧ (g = g0 ∨ g.content = f.content)
      else ∃ g, new = some g ∧ g.content = f.content
  | none, old => old.isSome ∧ new = old

theorem copyFile_result (e : Env) (f : Str → Option File) (src t : Str)
    (h : (copyFile e f src t).2 = true) : Result (f src) (f t) ((copyFile e f src t).1 t) := by
  unfold copyFile Result at *
  have hset : ∀ x, setFile f t x t = x := by intro x; unfold setFile; rw [if_pos rfl]
  cases hs : f src with
  | none =>
    cases ht : f t with
    | none => rw [hs, ht] at h; cases h
    | some g => exact ⟨rfl, ht⟩
  | some f1 =>
    cases ht : f t with
    | none =>
      rw [hs, ht] at h
      simp only at h ⊢
      by_cases hc : e.copyFails t = true
      · rw [if_pos hc] at h; cases h
      · rw [if_neg hc]; exact ⟨_, hset _, rfl⟩
    | some g =>
      rw [hs, ht] at h
      simp only at h ⊢
      by_cases hm : f1.mtime ≤ g.mtime
      · rw [if_pos hm, if_pos hm]; exact ⟨g, ht, Or.inl rfl⟩
      · rw [if_neg hm] at h ⊢
        rw [if_neg hm]
        by_cases hr : e.removeFails t = true
        · rw [if_pos hr] at h; cases h
        · rw [if_neg hr] at h ⊢
          by_cases hc : e.copyFails t = true
          · rw [if_pos hc] at h; cases h
          · rw [if_neg hc]; exact ⟨_, hset _, rfl⟩

/-- Copying the same file once more. -/
theorem Result_again {src old new new' : Option File} (h : Result src old new) (h' : Result src new new') :
    Result src old new' := by
  unfold Result at *
  cases src with
  | none =>
    simp only at h h' ⊢
    exact ⟨h.1, by rw [h'.2, h.2]⟩
  | some f =>
    cases old with
    | none =>
      simp only at h ⊢
      obtain ⟨g, rfl, hg⟩ := h
      simp only at h'
      split at h'
      · obtain ⟨g', rfl, h' | h'⟩ := h'
        · exact ⟨g', rfl, by rw [h', hg]⟩
        · exact ⟨g', rfl, h'⟩
      · exact h'
    | some g0 =>
      simp only at h ⊢
      by_cases hm : f.mtime ≤ g0.mtime
      · rw [if_pos hm] at h ⊢
        obtain ⟨g, rfl, hg⟩ := h
        simp only at h'
        split at h'
        · obtain ⟨g', rfl, h' | h'⟩ := h'
          · rw [h']; exact ⟨g, rfl, hg⟩
          · exact ⟨g', rfl, Or.inr h'⟩
        · obtain ⟨g', h1, h2⟩ := h'
          exact ⟨g', h1, Or.inr h2⟩
      · rw [if_neg hm] at h ⊢
        obtain ⟨g, rfl, hg⟩ := h
        simp only at h'
        split at h'
        · obtain ⟨g', rfl, h' | h'⟩ := h'
          · exact ⟨g', rfl, by rw [h', hg]⟩
          · exact ⟨g', rfl, h'⟩
        · exact h'

/-- C30: after a successful installation each target exists and has the content of its source, unless an
    installed file that is not older than the source was there already (it may have stayed), or the source
    does not exist. `sep`: no artifact's target is an artifact's source. -/
theorem C30_installed (e : Env) (o : Options) (root : Str) (files : Str → Option File)
    (as : List Artifact) (hd : o.dryRun = false) (hok : (installAll e o root files as).failed = false)
    (sep : ∀ a b t, Goes e root as a t → b ∈ as → b.install = true → b.src ≠ t)
    (a : Artifact) (ha : a ∈ as) (hi : a.install = true) :
    ∃ t, targetFilePath e.home root a = .ok t ∧
      Result (afterRemoval e o root files a.src) (afterRemoval e o root files t)
        ((installAll e o root files as).files t) := by
  rw [installAll_eq] at hok ⊢
  obtain ⟨b1, b2⟩ := begin_spec e o root files
  rw [← b1]
  have key : ∀ l : List Artifact, (∀ b ∈ l, b ∈ as ∧ b.install = true) →
      (l.foldl (installFile e o root) (begin e o root files)).failed = false →
      (∀ b ∈ as, b.install = true →
        (l.foldl (installFile e o root) (begin e o root files)).files b.src =
          (begin e o root files).files b.src) ∧
      (∀ t, (∀ b ∈ l, targetFilePath e.home root b ≠ .ok t) →
        (l.foldl (installFile e o root) (begin e o root files)).files t =
          (begin e o root files).files t) ∧
      (∀ b ∈ l, ∃ t, targetFilePath e.home root b = .ok t ∧
        Result ((begin e o root files).files b.src) ((begin e o root files).files t)
          ((l.foldl (installFile e o root) (begin e o root files)).files t)) := by
    intro l
    induction l using Verif.snoc_induction with
    | nil => intro _ _; exact ⟨fun _ _ _ => rfl, fun _ _ => rfl, fun b hb => by cases hb⟩
    | append_singleton l b ih =>
      intro hm hf
      have hgood := good_installAll e o root (begin e o root files) hd (l ++ [b]) hf
      rw [List.foldl_append] at hf hgood ⊢
      simp only [List.foldl_cons, List.foldl_nil] at hf hgood ⊢
      have hl : (l.foldl (installFile e o root) (begin e o root files)).failed = false := by
        cases hc : (l.foldl (installFile e o root) (begin e o root files)).failed with
        | false => rfl
        | true => rw [installFile_failed e o root _ b hc] at hf; exact hf
      obtain ⟨i1, i2, i3⟩ := ih (fun c hc => hm c (by simp [hc])) hl
      have hb := hm b (by simp)
      rcases installFile_cases e o root (l.foldl (installFile e o root) (begin e o root files)) b with
        ⟨_, h2⟩ | ⟨h1, _⟩ | ⟨t, ht, _, _, hfl, h1 | ⟨hc, h2, _, h3⟩⟩
      · rcases h2 with h2 | h2
        · rw [failed_thrown h2] at hl; cases hl
        · rw [hd] at h2; cases h2
      · rw [h1] at hf; cases hf
      · rw [h1] at hf; cases hf
      · rw [hfl]
        have hres := copyFile_result e _ _ _ hc
        refine ⟨?_, ?_, ?_⟩
        · intro c hc hci
          rw [copyFile_other e _ _ _ _ (sep b c t ⟨hb.1, hb.2, ht⟩ hc hci), i1 c hc hci]
        · intro u hu
          have hut : u ≠ t := by
            intro h; subst h; exact hu b (by simp) ht
          rw [copyFile_other e _ _ _ _ hut, i2 u (fun c hc => hu c (by simp [hc]))]
        · -- what the copied file's target had before
          rw [i1 b hb.1 hb.2] at hres
          have hbt : Result ((begin e o root files).files b.src) ((begin e o root files).files t)
              ((copyFile e (l.foldl (installFile e o root) (begin e o root files)).files b.src t).1 t) := by
            by_cases hex : ∀ c ∈ l, targetFilePath e.home root c ≠ .ok t
            · rw [i2 t hex] at hres; exact hres
            · obtain ⟨c, hex⟩ := Classical.not_forall.mp hex
              obtain ⟨hcl, hct⟩ := Classical.not_imp.mp hex
              have hct := Classical.not_not.mp hct
              obtain ⟨u, hu, hr⟩ := i3 c hcl
              rw [hct] at hu
              injection hu with hu
              subst hu
              obtain ⟨v, hv, g1⟩ := hgood c (by simp [hcl])
              rw [hct] at hv
              injection hv with hv
              subst hv
              rw [h2] at g1
              simp only [List.lookup_cons_self, Option.some.injEq] at g1
              rw [← g1] at hr
              exact Result_again hr hres
          intro c hcm
          rcases List.mem_append.mp hcm with hcm | hcm
          · obtain ⟨u, hu, hr⟩ := i3 c hcm
            refine ⟨u, hu, ?_⟩
            by_cases hut : u = t
            · subst hut
              obtain ⟨v, hv, g1⟩ := hgood c (by simp [hcm])
              rw [hu] at hv
              injection hv with hv
              subst hv
              rw [h2] at g1
              simp only [List.lookup_cons_self, Option.some.injEq] at g1
              rw [← g1]
              exact hbt
            · rw [copyFile_other e _ _ _ _ hut]; exact hr
          · rw [List.mem_singleton.mp hcm]
            exact ⟨t, ht, hbt⟩
  exact (key _ (fun b hb => ⟨(List.mem_filter.mp hb).1, (List.mem_filter.mp hb).2⟩) hok).2.2 a
    (List.mem_filter.mpr ⟨ha, hi⟩)

/-- C30: a successful installation that removes an existing one first: inside the install root there are
    then exactly the targets of the artifacts, each with its source's content. -/
theorem C30_fresh_installation (e : Env) (o : Options) (root : Str) (files : Str → Option File)
    (as : List Artifact) (hd : o.dryRun = false) (hr : o.removeExisting = true)
    (hrm : e.rootRemovalFails = false)
    (hok : (installAll e o root files as).failed = false)
    (inside : ∀ a t, Goes e root as a t → place root <+: place t)
    (srcs : ∀ a ∈ as, a.install = true → (files a.src).isSome ∧ ¬ place root <+: place a.src) :
    (∀ a ∈ as, a.install = true → ∃ t, targetFilePath e.home root a = .ok t ∧
      ((installAll e o root files as).files t).map File.content = (files a.src).map File.content) ∧
    (∀ p, place root <+: place p → ((installAll e o root files as).files p).isSome →
      ∃ a, Goes e root as a p) := by
  have hrem : afterRemoval e o root files = fun p => if place root <+: place p then none else files p := by
    unfold afterRemoval; rw [if_pos ⟨hr, hd, hrm⟩]
  constructor
  · intro a ha hi
    have sep : ∀ a b t, Goes e root as a t → b ∈ as → b.install = true → b.src ≠ t := by
      intro a b t hg hb hbi h
      exact (srcs b hb hbi).2 (by rw [h]; exact inside a t hg)
    obtain ⟨t, ht, hres⟩ := C30_installed e o root files as hd hok sep a ha hi
    refine ⟨t, ht, ?_⟩
    rw [hrem] at hres
    simp only [if_neg (srcs a ha hi).2, if_pos (inside a t ⟨ha, hi, ht⟩)] at hres
    obtain ⟨f, hf⟩ := Option.isSome_iff_exists.mp (srcs a ha hi).1
    rw [hf] at hres ⊢
    obtain ⟨g, hg, hgc⟩ := hres
    rw [hg]
    simp [hgc]
  · intro p hp hsome
    apply Classical.byContradiction
    intro hno
    have key : ∀ (l : List Artifact) (s : St), (∀ a ∈ l, targetFilePath e.home root a ≠ .ok p) →
        (l.foldl (installFile e o root) s).files p = s.files p := by
      intro l
      induction l with
      | nil => intro s _; rfl
      | cons a l ih =>
        intro s hl
        rw [List.foldl_cons, ih _ (fun b hb => hl b (by simp [hb]))]
        rcases installFile_cases e o root s a with ⟨h1, _⟩ | ⟨_, h1⟩ | ⟨t, ht, _, _, h1, _⟩
        · rw [h1]
        · rw [h1]
        · rw [h1]
          refine copyFile_other e _ _ _ _ ?_
          intro hpt
          exact hl a (by simp) (by rw [ht, hpt])
    rw [installAll_eq, key _ _ (fun a ha ht =>
      hno ⟨a, (List.mem_filter.mp ha).1, (List.mem_filter.mp ha).2, ht⟩), (begin_spec e o root files).1,
      hrem] at hsome
    simp only [if_pos hp] at hsome
    cases hsome

/-- C30: with an install root given by the user, an installation that removes the existing one is refused if
    the root is the root directory or the home directory; nothing changes then. The same for the sysroot. -/
theorem C30_refuses_removal (e : Env) (o : Options) (c : Conf) (files : Str → Option File)
    (as : List Artifact) (hrm : o.removeExisting = true)
    (h : (o.root ≠ [] ∧ (place o.root = [] ∨ place o.root = place e.home)) ∨
      (o.root = [] ∧ o.useSysroot = true)) :
    (install e o c files as).thrown = some .refused ∧ (install e o c files as).files = files := by
  have hc : construct e o c = .error .refused := by
    unfold construct
    rcases h with ⟨h1, h2⟩ | ⟨h1, h2⟩
    · rw [if_pos h1, if_pos ⟨hrm, h2⟩]
    · rw [if_neg (by simp [h1]), if_pos ⟨h2, hrm⟩]
  unfold install
  rw [hc]
  exact ⟨rfl, rfl⟩

/-- C30: unless it is refused, the installation goes to the install root given by the user, or else the
    sysroot if the user asks for it, or else the one configured by the project. -/
theorem C30_root (e : Env) (o : Options) (c : Conf) (files : Str → Option File) (as : List Artifact)
    (chosen : Str) (hc : chosen = if o.root ≠ [] then o.root else
      if o.useSysroot then c.sysroot else c.installRoot)
    (habs : isAbsolute chosen = true) :
    ((install e o c files as).thrown = some .refused ∧ o.removeExisting = true) ∨
    ∃ root, place root = place chosen ∧ isAbsolute root = true ∧
      install e o c files as = installAll e o root files as := by
  have ok : ∀ r, construct e o c = .ok r → r = cleanPath chosen →
      ∃ root, place root = place chosen ∧ isAbsolute root = true ∧
        install e o c files as = installAll e o root files as := by
    intro r h1 h2
    refine ⟨r, by rw [h2]; exact (place_cleanPath habs).1, by rw [h2]; exact (place_cleanPath habs).2, ?_⟩
    unfold install
    rw [h1]
  have bad : construct e o c = .error .refused → (install e o c files as).thrown = some .refused := by
    intro h
    unfold install
    rw [h]
  by_cases hr : o.root ≠ []
  · rw [if_pos hr] at hc
    by_cases hrm : o.removeExisting ∧ (place o.root = [] ∨ place o.root = place e.home)
    · exact .inl ⟨bad (by unfold construct; rw [if_pos hr, if_pos hrm]), hrm.1⟩
    · exact .inr (ok (cleanPath o.root) (by unfold construct; rw [if_pos hr, if_neg hrm]) (by rw [hc]))
  · rw [if_neg hr] at hc
    by_cases hrm : o.useSysroot ∧ o.removeExisting
    · exact .inl ⟨bad (by unfold construct; rw [if_neg hr, if_pos hrm]), hrm.2⟩
    · refine .inr (ok (effectiveRoot o c) (by unfold construct; rw [if_neg hr, if_neg hrm]) ?_)
      unfold effectiveRoot
      rw [if_neg hr, hc]
      split <;> rfl

/-! ## Cases -/

def env : Env := ⟨"/home/u".toList, fun _ => false, fun _ => false, fun _ => false, false, 100⟩
def opts : Options := ⟨"/r".toList, false, false, false, false⟩
def art (src dir : String) : Artifact := ⟨src.toList, "/s".toList, true, [], dir.toList, [], []⟩
def disk (l : List (String × File)) : Str → Option File := fun p => l.lookup (String.ofList p)

/-- The sysroot is used if it is asked for. -/
example : isAbsolute "/sys".toList = true ∧
    "/sys".toList = (if ({ opts with root := [], useSysroot := true } : Options).root ≠ [] then
      opts.root else "/sys".toList) := by decide

/-- Two files of different directories, and what was in the root before. -/
def someFiles : Str → Option File :=
  disk [("/s/a/x", ⟨"A", 50⟩), ("/s/b/y", ⟨"B", 60⟩), ("/r/old", ⟨"old", 10⟩)]

example :
    let s := installAll env { opts with removeExisting := true } "/r".toList someFiles
      [art "/s/a/x" "bin", art "/s/b/y" "lib", art "/s/a/x" "bin"]
    s.failed = false ∧ s.files "/r/bin/x".toList = some ⟨"A", 100⟩ ∧
    s.files "/r/lib/y".toList = some ⟨"B", 100⟩ ∧ s.files "/r/old".toList = none ∧
    s.files "/s/a/x".toList = some ⟨"A", 50⟩ := by decide +kernel

/-- A conflict. -/
example : Goes env "/r".toList [art "/s/a/x" "bin", art "/s/c/x" "bin"] (art "/s/c/x" "bin") "/r/bin/x".toList ∧
    (installAll env opts "/r".toList someFiles [art "/s/a/x" "bin", art "/s/c/x" "bin"]).thrown =
      some (.conflict "/s/c/x".toList "/s/a/x".toList "/r/bin/x".toList) := by
  refine ⟨⟨by decide +kernel, rfl, by decide +kernel⟩, by decide +kernel⟩

example : (install env { opts with root := "/home//./u".toList, removeExisting := true } ⟨[], []⟩ someFiles
    []).thrown = some .refused := by decide +kernel

/-- **C30 finding.** A source that is older than what is installed is not installed, although it is another
    file (for instance an artifact of another configuration, or one restored from a backup): the installation
    succeeds and the old content stays. -/
theorem C30_older_source_not_installed :
    ∃ (files : Str → Option File) (as : List Artifact),
      (installAll env opts "/r".toList files as).failed = false ∧
      files "/s/a/x".toList = some ⟨"new", 50⟩ ∧ as = [art "/s/a/x" "bin"] ∧
      (installAll env opts "/r".toList files as).files "/r/bin/x".toList = some ⟨"other", 60⟩ := by
  exact ⟨disk [("/s/a/x", ⟨"new", 50⟩), ("/r/bin/x", ⟨"other", 60⟩)], [art "/s/a/x" "bin"],
    by decide +kernel, by decide +kernel, rfl, by decide +kernel⟩

/-- **C30 finding.** If the source does not exist, but something is installed already, the installation
    succeeds without having installed it. -/
theorem C30_missing_source_accepted :
    ∃ (files : Str → Option File) (as : List Artifact),
      as = [art "/s/a/x" "bin"] ∧ files "/s/a/x".toList = none ∧
      (installAll env opts "/r".toList files as).failed = false := by
  exact ⟨disk [("/r/bin/x", ⟨"other", 60⟩)], [art "/s/a/x" "bin"], rfl, by decide +kernel, by decide +kernel⟩

/-- **C30 finding.** A dry run does not find conflicts. -/
theorem C30_dry_run_misses_conflicts :
    ∃ as : List Artifact,
      (installAll env opts "/r".toList someFiles as).failed = true ∧
      (installAll env { opts with dryRun := true } "/r".toList someFiles as).failed = false := by
  exact ⟨[art "/s/a/x" "bin", art "/s/c/x" "bin"], by decide +kernel, by decide +kernel⟩

/-- **C30 finding.** If the install root is that of the project's configuration, it is not tested before it
    is removed: all of the home directory is removed. -/
theorem C30_configured_root_removed :
    ∃ (c : Conf) (files : Str → Option File) (p : Str), c.installRoot = env.home ∧
      (files p).isSome ∧ place env.home <+: place p ∧
      (install env { opts with root := [], removeExisting := true } c files []).failed = false ∧
      (install env { opts with root := [], removeExisting := true } c files []).files p = none := by
  exact ⟨⟨"/home/u".toList, []⟩, disk [("/home/u/thesis", ⟨"text", 1⟩)], "/home/u/thesis".toList, rfl,
    by decide +kernel, by decide +kernel, by decide +kernel, by decide +kernel⟩

/-- **C30 finding.** When a build installs, the constructor is not told that the existing installation is to
    be removed, so it does not refuse to remove the home directory. -/
theorem C30_build_removes_home :
    ∃ (files : Str → Option File) (p : Str), (files p).isSome ∧ place env.home <+: place p ∧
      (buildStart env true false false env.home ⟨[], []⟩ files).failed = false ∧
      (buildStart env true false false env.home ⟨[], []⟩ files).files p = none ∧
      (install env { opts with root := env.home, removeExisting := true } ⟨[], []⟩ files []).thrown =
        some .refused := by
  exact ⟨disk [("/home/u/thesis", ⟨"text", 1⟩)], "/home/u/thesis".toList,
    by decide +kernel, by decide +kernel, by decide +kernel, by decide +kernel, by decide +kernel⟩

end Verif.Install
