import Verif.Status.Lem

/-!
# Properties of `qbs status`
-/

namespace Verif.Status

variable (other : Str → Str → Bool) (exist : Str → Bool) (root : Str) (ignoreFile : Option Str)
  (tree : Entries) (ps : List Product)

theorem untracked_mem (w : Wf tree) (s : Str) :
    s ∈ (printStatus other exist root ignoreFile tree ps).untracked ↔
      ∃ cs, FileAt tree cs ∧ s = rel cs ∧ Visible (ignored other root ignoreFile) root cs ∧
        ¬ Tracked ps (pathOf root cs) := by
  unfold printStatus
  simp only [List.mem_map, addAll_eq]
  constructor
  · rintro ⟨p, hp, rfl⟩
    rw [files_untracked _ _ _ _ (walk_nodup _ _ _ w), walk_mem, tracked_iff] at hp
    obtain ⟨⟨cs, h1, rfl, h2⟩, h3⟩ := hp
    refine ⟨cs, h1, ?_, h2, h3⟩
    cases cs with
    | nil => exact absurd rfl (fileAt_ne h1)
    | cons n cs => exact drop_pathOf root n cs
  · rintro ⟨cs, h1, rfl, h2, h3⟩
    refine ⟨pathOf root cs, ?_, ?_⟩
    · rw [files_untracked _ _ _ _ (walk_nodup _ _ _ w), walk_mem, tracked_iff]
      exact ⟨⟨cs, h1, rfl, h2⟩, h3⟩
    · cases cs with
      | nil => exact absurd rfl (fileAt_ne h1)
      | cons n cs => exact drop_pathOf root n cs

/-- **C118.** The untracked files that are reported are exactly the files in the
project directory that belong to no product and are neither hidden nor to be
ignored, each named relative to the project directory. -/
theorem C118_untracked (w : Wf tree) (s : Str) :
    s ∈ (printStatus other exist root ignoreFile tree ps).untracked ↔
      ∃ cs, FileAt tree cs ∧ s = rel cs ∧ Visible (ignored other root ignoreFile) root cs ∧
        ¬ Tracked ps (pathOf root cs) :=
  untracked_mem other exist root ignoreFile tree ps w s

/-- **C118.** The missing files that are reported are exactly the files of the
groups that do not exist, in the order of the groups and as often as they occur
in them. -/
theorem C118_missing :
    (printStatus other exist root ignoreFile tree ps).missing =
      ((ps.flatten.flatten).filter (fun f => !exist f)).map (·.drop (root.length + 1)) := by
  unfold printStatus
  simp only [addAll_eq, files_missing, List.nil_append]

/-- **C118.** Every file of every group is printed under its group. -/
theorem C118_listed :
    (printStatus other exist root ignoreFile tree ps).listed =
      (ps.flatten.flatten).map (·.drop (root.length + 1)) := by
  unfold printStatus
  simp only [addAll_eq, files_listed, List.nil_append]

/-- **C118.** No file is forgotten: every file in the project directory that is
not hidden and not to be ignored is printed, either under a group or as
untracked. -/
theorem C118_accounted (w : Wf tree) (cs : List Str) (h : FileAt tree cs)
    (v : Visible (ignored other root ignoreFile) root cs) :
    rel cs ∈ (printStatus other exist root ignoreFile tree ps).listed ∨
      rel cs ∈ (printStatus other exist root ignoreFile tree ps).untracked := by
  by_cases t : Tracked ps (pathOf root cs)
  · left
    rw [C118_listed, List.mem_map]
    refine ⟨_, (tracked_iff _ _).mpr t, ?_⟩
    cases cs with
    | nil => exact absurd rfl (fileAt_ne h)
    | cons n cs => exact drop_pathOf root n cs
  · exact .inr ((untracked_mem other exist root ignoreFile tree ps w _).mpr ⟨cs, h, rfl, v, t⟩)

/-- **C118.** No untracked file is reported twice. -/
theorem C118_once (w : Wf tree) :
    (printStatus other exist root ignoreFile tree ps).untracked.Nodup := by
  have nd : ∀ (fs : List Str) (r : Report), r.untracked.Nodup →
      (fs.foldl (addFile exist root) r).untracked.Nodup := by
    intro fs
    induction fs with
    | nil => exact fun _ h => h
    | cons f fs ih => exact fun r h => ih _ (by simpa [addFile] using h.erase f)
  have h := nd ps.flatten.flatten
    { listed := [], missing := [],
      untracked := walk (ignored other root ignoreFile) root tree } (walk_nodup _ _ _ w)
  unfold printStatus
  simp only [addAll_eq]
  rw [List.nodup_iff_pairwise_ne] at *
  rw [List.pairwise_map]
  refine List.Pairwise.imp_of_mem ?_ h
  intro a b ha hb hab e
  apply hab
  rw [files_untracked _ _ _ _ (walk_nodup _ _ _ w)] at ha hb
  obtain ⟨n, -, x, -, rfl⟩ := walk_starts ha.1
  obtain ⟨m, -, y, -, rfl⟩ := walk_starts hb.1
  have d : ∀ z : Str, (root ++ '/' :: z).drop (root.length + 1) = z := by
    intro z; rw [List.drop_append]; simp
  rw [d, d] at e
  rw [e]

/-- A reported file whose path follows a pattern that starts with the project
directory. -/
theorem not_reported (w : Wf tree) (start : Str) (hp : Plain root) (hs : Plain start)
    (hm : (root ++ '/' :: start) ++ ['.', '*'] ∈ patterns root ignoreFile)
    (s : Str) (h : s ∈ (printStatus other exist root ignoreFile tree ps).untracked)
    (hl : '\n' ∉ s) : ¬ start <+: s := by
  rw [untracked_mem _ _ _ _ _ _ w] at h
  obtain ⟨cs, h1, rfl, h2, -⟩ := h
  rintro ⟨t, ht⟩
  cases cs with
  | nil => exact absurd rfl (fileAt_ne h1)
  | cons n cs =>
    have hi := h2.2 (n :: cs).length (by simp) (by simp)
    rw [List.take_length] at hi
    have : matchPat other ((root ++ '/' :: start) ++ ['.', '*']) (pathOf root (n :: cs)) = true := by
      rw [matchPat_prefix]
      · refine ⟨t, ?_, ?_⟩
        · rw [pathOf_eq, pathOf_rel, ← ht]; simp
        · intro hn; apply hl; rw [← ht]; simp [hn]
      · intro c hc
        simp only [List.mem_append, List.mem_cons] at hc
        rcases hc with hc | rfl | hc
        · exact hp c hc
        · decide
        · exact hs c hc
    have hi' : ignored other root ignoreFile (pathOf root (n :: cs)) = true := by
      unfold ignored
      rw [Bool.or_eq_true]
      left
      exact List.any_eq_true.mpr ⟨_, hm, this⟩
    rw [hi] at hi'
    cases hi'

/-- **C118.** Nothing in a build directory is reported as untracked, if the path
of the project has no character with a meaning in regular expressions. -/
theorem C118_build_partial (w : Wf tree) (hp : Plain root) (s : Str)
    (h : s ∈ (printStatus other exist root ignoreFile tree ps).untracked) (hl : '\n' ∉ s) :
    ¬ "build".toList <+: s := by
  refine not_reported other exist root ignoreFile tree ps w _ hp ?_ ?_ s h hl
  · intro c hc
    revert hc c
    decide
  · unfold patterns
    have : root ++ '/' :: "build".toList ++ ['.', '*'] = root ++ "/build.*".toList := by
      simp [List.append_assoc]
    rw [this]
    simp

/-- **C118.** Nothing is reported as untracked whose name starts with a line of
`.qbsignore` that begins with a slash, if neither the line nor the path of the
project has a character with a meaning in regular expressions. -/
theorem C118_ignore_line_partial (w : Wf tree) (hp : Plain root) (a start b : Str)
    (hs : Plain start) (hn : '\n' ∉ start)
    (ha : a = [] ∨ ∃ x, a = x ++ ['\n']) (hb : b = [] ∨ ∃ x, b = '\n' :: x) (s : Str)
    (h : s ∈ (printStatus other exist root (some (a ++ '/' :: start ++ b)) tree ps).untracked)
    (hl : '\n' ∉ s) : ¬ start <+: s := by
  refine not_reported other exist root _ tree ps w start hp hs ?_ s h hl
  unfold patterns
  refine List.mem_cons_of_mem _ ?_
  rw [List.mem_filterMap]
  exact ⟨'/' :: start, splitLines_mem a ('/' :: start) b (by simp [hn]) ha hb, by simp [linePattern]⟩

/-- **C118 finding.** The built-in wildcards for project files, makefiles,
libraries and object files ignore nothing: a star stands for characters other
than a slash, and the expressions are applied to whole absolute paths. -/
theorem C118_finding_wildcards (d : Str) (n : Str) (hd : d.head? = some '/') :
    wildcards.any (fun w => matchAll (wildcard w) (child d n)) = false := by
  cases d with
  | nil => simp at hd
  | cons c d =>
    simp only [List.head?_cons, Option.some.injEq] at hd
    subst hd
    rw [List.any_eq_false]
    intro w hw
    rw [child, List.cons_append, wildcard_absolute w hw]
    simp

/-- **C118 finding.** A line of `.qbsignore` that does not begin with a slash, such
as the name of a file or a directory, ignores nothing: it would have to match a
whole absolute path. -/
theorem C118_finding_relative_line (line d n : Str) (hs : Plain line)
    (hl : line.head? ≠ some '/') (hd : d.head? = some '/') :
    ∀ pat, linePattern root line = some pat → matchPat other pat (child d n) = false := by
  intro pat hpat
  have : pat = line := by
    unfold linePattern at hpat
    split at hpat
    · cases hpat
    · simp at hl
    · cases hpat; rfl
  subst this
  rw [Bool.eq_false_iff, Ne, matchPat_plain _ _ _ hs]
  rintro rfl
  cases d with
  | nil => simp at hd
  | cons c d => simp [child] at hl hd; exact hl hd

end Verif.Status
