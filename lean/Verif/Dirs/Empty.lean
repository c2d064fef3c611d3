import Verif.Dirs.Locker
/-!
# C48: removal of directories that have become empty

Model of src/lib/corelib/buildgraph/emptydirectoriesremover.cpp 51-113.
-/
namespace Verif.Dirs

/-- The path as a string; the number of slashes in it is the length of the path. (The root would be
"/" with one slash; the model lets it have none.) -/
def str : Path → List Char
  | [] => []
  | n :: r => str r ++ '/' :: n.toList

/-- emptydirectoriesremover.cpp 77-89 `insertSorted`; deeper directories come first. -/
def insertSorted (d : Path) : List Path → List Path
  | [] => [d]
  | cur :: rest =>
    if d = cur then cur :: rest
    else if d.length > cur.length then d :: cur :: rest
    else cur :: insertSorted d rest

structure RSt where
  fs : FS
  todo : List Path
  handled : List Path
deriving DecidableEq, Repr

/-- emptydirectoriesremover.cpp 91-113 `removeDirIfEmpty`. Symbolic links are not directories
of the model, so the tests for existence and for a link are one. -/
def removeDirIfEmpty (b : Path) (denied : Path → Bool) (s : RSt) : RSt :=
  match s.todo with
  | [] => s
  | d :: rest =>
    let s := { s with todo := rest, handled := d :: s.handled }
    if !s.fs.dirs.contains d || !(str b).isPrefixOf (str d) || d == b then s
    else if s.fs.hasVisibleEntry d then s
    else match s.fs.rmdir denied d with
      | none => s
      | some fs' =>
        let parent := d.tail
        if s.handled.contains parent then { s with fs := fs' }
        else { s with fs := fs', todo := insertSorted parent rest }

def rloop (b : Path) (denied : Path → Bool) : Nat → RSt → RSt
  | 0, s => s
  | n + 1, s => rloop b denied n (removeDirIfEmpty b denied s)

def measure : List Path → Nat
  | [] => 0
  | d :: l => d.length + 1 + measure l

/-- emptydirectoriesremover.cpp 57-65 `removeEmptyParentDirectories`. A step does nothing once the
list is empty; `C48_terminates` shows that it is then. -/
def removeEmpty (b : Path) (denied : Path → Bool) (fs : FS) (artifacts : List Path) : RSt :=
  let todo := artifacts.foldl (fun l a => insertSorted a.tail l) []
  rloop b denied (measure todo) { fs := fs, todo := todo, handled := [] }

theorem mem_insertSorted {d x : Path} : ∀ {l : List Path},
    x ∈ insertSorted d l ↔ x = d ∨ x ∈ l
  | [] => by simp [insertSorted]
  | cur :: rest => by
    unfold insertSorted
    split
    · rename_i h; subst h; simp
    · split
      · simp
      · simp [mem_insertSorted (l := rest)]
        constructor
        · rintro (h | h | h)
          · exact Or.inr (Or.inl h)
          · exact Or.inl h
          · exact Or.inr (Or.inr h)
        · rintro (h | h | h)
          · exact Or.inr (Or.inl h)
          · exact Or.inl h
          · exact Or.inr (Or.inr h)

def SortedDesc : List Path → Prop
  | [] => True
  | d :: l => (∀ x ∈ l, x.length ≤ d.length) ∧ SortedDesc l

theorem insertSorted_sorted {d : Path} : ∀ {l : List Path}, SortedDesc l →
    SortedDesc (insertSorted d l)
  | [], _ => by simp [insertSorted, SortedDesc]
  | cur :: rest, h => by
    unfold insertSorted
    split
    · exact h
    · split
      · rename_i h1 h2
        refine ⟨?_, h⟩
        intro x hx
        rcases List.mem_cons.mp hx with rfl | hx
        · omega
        · have := h.1 x hx; omega
      · rename_i h1 h2
        refine ⟨?_, insertSorted_sorted h.2⟩
        intro x hx
        rcases mem_insertSorted.mp hx with rfl | hx
        · omega
        · exact h.1 x hx

theorem measure_insertSorted {d : Path} : ∀ {l : List Path},
    measure (insertSorted d l) ≤ d.length + 1 + measure l
  | [] => by simp [insertSorted, measure]
  | cur :: rest => by
    unfold insertSorted
    split
    · simp [measure]
    · split
      · simp [measure]
      · have := measure_insertSorted (d := d) (l := rest)
        simp only [measure]; omega

theorem measure_step {b : Path} {denied : Path → Bool} {s : RSt} (h : s.todo ≠ []) :
    measure (removeDirIfEmpty b denied s).todo < measure s.todo := by
  unfold removeDirIfEmpty
  cases ht : s.todo with
  | nil => exact absurd ht h
  | cons d rest =>
    simp only
    split
    · simp only [measure]; omega
    · split
      · simp only [measure]; omega
      · cases hr : s.fs.rmdir denied d with
        | none => simp only [measure]; omega
        | some fs' =>
          simp only
          split
          · simp only [measure]; omega
          · cases d with
            | nil =>
              -- the root has no parent; it is never removed as it is never strictly inside `b`
              rename_i h1 h2 h3
              simp at h1
              exfalso
              obtain ⟨⟨_, hp⟩, hb⟩ := h1
              cases b with
              | nil => exact hb rfl
              | cons n r => simp [str] at hp
            | cons n p =>
              have := measure_insertSorted (d := p) (l := rest)
              simp only [measure, List.tail_cons, List.length_cons] at this ⊢
              omega

theorem rloop_done {b : Path} {denied : Path → Bool} : ∀ (n : Nat) (s : RSt), measure s.todo ≤ n →
    (rloop b denied n s).todo = []
  | 0, s, h => by
    cases ht : s.todo with
    | nil => exact ht
    | cons d l => rw [ht] at h; simp [measure] at h
  | n + 1, s, h => by
    simp only [rloop]
    apply rloop_done
    by_cases ht : s.todo = []
    · have : removeDirIfEmpty b denied s = s := by unfold removeDirIfEmpty; rw [ht]
      rw [this, ht]; simp [measure]
    · have := measure_step (b := b) (denied := denied) ht
      omega

/-- **C48.** The loop ends. -/
theorem C48_terminates (b : Path) (denied : Path → Bool) (fs : FS) (artifacts : List Path) :
    (removeEmpty b denied fs artifacts).todo = [] :=
  rloop_done _ _ (Nat.le_refl _)

/-- What one step does to the file system. -/
theorem step_cases (b : Path) (denied : Path → Bool) (s : RSt) (d : Path) (rest : List Path)
    (ht : s.todo = d :: rest) :
    let s' := removeDirIfEmpty b denied s
    s'.handled = d :: s.handled ∧
    ((s'.fs = s.fs ∧ s'.todo = rest ∧
        (d ∉ s.fs.dirs ∨ ¬ str b <+: str d ∨ d = b ∨ s.fs.hasEntry d = true ∨ denied d = true)) ∨
     (s.fs.rmdir denied d = some s'.fs ∧ str b <+: str d ∧ d ≠ b ∧ d ≠ [] ∧
        ((d.tail ∈ d :: s.handled ∧ s'.todo = rest) ∨
         (d.tail ∉ d :: s.handled ∧ s'.todo = insertSorted d.tail rest)))) := by
  simp only [removeDirIfEmpty, ht]
  by_cases h1 : (!s.fs.dirs.contains d || !(str b).isPrefixOf (str d) || d == b) = true
  · rw [if_pos h1]
    refine ⟨rfl, Or.inl ⟨rfl, rfl, ?_⟩⟩
    simp at h1
    rcases h1 with (h | h) | h
    · exact Or.inl h
    · exact Or.inr (Or.inl (fun hp => by rw [List.isPrefixOf_iff_prefix.mpr hp] at h; cases h))
    · exact Or.inr (Or.inr (Or.inl h))
  · rw [if_neg h1]
    simp at h1
    obtain ⟨⟨h1, h2⟩, h3⟩ := h1
    by_cases h4 : s.fs.hasVisibleEntry d = true
    · rw [if_pos h4]
      exact ⟨rfl, Or.inl ⟨rfl, rfl, Or.inr (Or.inr (Or.inr (Or.inl (hasEntry_of_visible h4))))⟩⟩
    · rw [if_neg h4]
      cases hr : s.fs.rmdir denied d with
      | none =>
        refine ⟨rfl, Or.inl ⟨rfl, rfl, ?_⟩⟩
        rcases FS.rmdir_none hr with h | h | h
        · exact Or.inl h
        · exact Or.inr (Or.inr (Or.inr (Or.inl h)))
        · exact Or.inr (Or.inr (Or.inr (Or.inr h)))
      | some fs' =>
        simp only
        have hne : d ≠ [] := by
          rintro rfl
          cases b with
          | nil => exact h3 rfl
          | cons n r => simp [str] at h2
        by_cases h5 : (d :: s.handled).contains d.tail = true
        · rw [if_pos h5]
          exact ⟨rfl, Or.inr ⟨rfl, h2, h3, hne, Or.inl ⟨by simpa using h5, rfl⟩⟩⟩
        · rw [if_neg h5]
          exact ⟨rfl, Or.inr ⟨rfl, h2, h3, hne, Or.inr ⟨by simpa using h5, rfl⟩⟩⟩

theorem rloop_induct {b : Path} {denied : Path → Bool} (P : RSt → Prop)
    (hstep : ∀ s, P s → s.todo ≠ [] → P (removeDirIfEmpty b denied s)) :
    ∀ (n : Nat) (s : RSt), P s → P (rloop b denied n s)
  | 0, _, h => h
  | n + 1, s, h => by
    simp only [rloop]
    apply rloop_induct P hstep
    by_cases ht : s.todo = []
    · have : removeDirIfEmpty b denied s = s := by unfold removeDirIfEmpty; rw [ht]
      rw [this]; exact h
    · exact hstep s h ht

theorem mem_todo {artifacts : List Path} {x : Path} : ∀ {l : List Path},
    x ∈ artifacts.foldl (fun l a => insertSorted a.tail l) l ↔ x ∈ l ∨ ∃ a ∈ artifacts, x = a.tail := by
  induction artifacts with
  | nil => intro l; simp
  | cons a as ih =>
    intro l
    rw [List.foldl_cons, ih, mem_insertSorted]
    simp only [List.mem_cons, exists_eq_or_imp]
    constructor
    · rintro ((h | h) | h)
      · exact Or.inr (Or.inl h)
      · exact Or.inl h
      · exact Or.inr (Or.inr h)
    · rintro (h | h | h)
      · exact Or.inl (Or.inr h)
      · exact Or.inl (Or.inl h)
      · exact Or.inr h

theorem sorted_todo {artifacts : List Path} : ∀ {l : List Path}, SortedDesc l →
    SortedDesc (artifacts.foldl (fun l a => insertSorted a.tail l) l) := by
  induction artifacts with
  | nil => intro l h; exact h
  | cons a as ih =>
    intro l h
    rw [List.foldl_cons]
    exact ih (insertSorted_sorted h)

/-- **C48.** For all directory trees and all lists of artifacts: no file is touched, and a directory
is removed only if the string of its path begins with the build directory's and is not the build
directory itself, if it holds an artifact of the list directly or further down, and if it is empty:
whatever was in it had been removed before. -/
theorem C48_only_empty_directories (b : Path) (denied : Path → Bool) (fs : FS)
    (artifacts : List Path) :
    let after := (removeEmpty b denied fs artifacts).fs
    after.files = fs.files ∧ (∀ d ∈ after.dirs, d ∈ fs.dirs) ∧
    ∀ d ∈ fs.dirs, d ∉ after.dirs →
      (str b <+: str d ∧ d ≠ b) ∧ (∃ a ∈ artifacts, d <:+ a.tail) ∧
      ∀ n, (n :: d) ∉ after.dirs ∧ (n :: d) ∉ fs.files := by
  intro after
  let P : RSt → Prop := fun s =>
    s.fs.files = fs.files ∧ (∀ d ∈ s.fs.dirs, d ∈ fs.dirs) ∧
    (∀ d ∈ s.todo, ∃ a ∈ artifacts, d <:+ a.tail) ∧
    ∀ d ∈ fs.dirs, d ∉ s.fs.dirs →
      (str b <+: str d ∧ d ≠ b) ∧ (∃ a ∈ artifacts, d <:+ a.tail) ∧
      ∀ n, (n :: d) ∉ s.fs.dirs ∧ (n :: d) ∉ fs.files
  have hP : P (removeEmpty b denied fs artifacts) := by
    refine rloop_induct P ?_ _ _ ⟨rfl, fun d h => h, ?_, fun d h1 h2 => absurd h1 h2⟩
    · rintro s ⟨p1, p2, p3, p4⟩ hne
      cases ht : s.todo with
      | nil => exact absurd ht hne
      | cons d rest =>
        obtain ⟨_, hc⟩ := step_cases b denied s d rest ht
        rw [ht] at p3
        rcases hc with ⟨c1, c2, _⟩ | ⟨c1, c2, c3, c4, c5⟩
        · refine ⟨by rw [c1]; exact p1, by rw [c1]; exact p2, ?_, by rw [c1]; exact p4⟩
          rw [c2]
          exact fun x hx => p3 x (List.mem_cons_of_mem _ hx)
        · obtain ⟨r1, r2, r3, r4, r5⟩ := FS.rmdir_some c1
          refine ⟨r4.trans p1, fun x hx => p2 x ((r5 x).mp hx).1, ?_, ?_⟩
          · have hpar : ∃ a ∈ artifacts, d.tail <:+ a.tail := by
              obtain ⟨a, ha, hs⟩ := p3 d List.mem_cons_self
              exact ⟨a, ha, (List.tail_suffix d).trans hs⟩
            intro x hx
            rcases c5 with ⟨_, c5⟩ | ⟨_, c5⟩
            · rw [c5] at hx; exact p3 x (List.mem_cons_of_mem _ hx)
            · rw [c5] at hx
              rcases mem_insertSorted.mp hx with rfl | hx
              · exact hpar
              · exact p3 x (List.mem_cons_of_mem _ hx)
          · intro x hx hnx
            by_cases hxd : x = d
            · subst hxd
              refine ⟨⟨c2, c3⟩, p3 x List.mem_cons_self, ?_⟩
              intro n
              have hno : ¬ ((n :: x) ∈ s.fs.dirs ∨ (n :: x) ∈ s.fs.files) := by
                intro hm
                have := (FS.hasEntry_iff s.fs x).mpr ⟨n, hm⟩
                rw [r2] at this; cases this
              exact ⟨fun hm => hno (Or.inl ((r5 _).mp hm).1), fun hm => hno (Or.inr (p1 ▸ hm))⟩
            · have hnx' : x ∉ s.fs.dirs := fun hm => hnx ((r5 x).mpr ⟨hm, hxd⟩)
              obtain ⟨q1, q2, q3⟩ := p4 x hx hnx'
              exact ⟨q1, q2, fun n => ⟨fun hm => (q3 n).1 ((r5 _).mp hm).1, (q3 n).2⟩⟩
    · intro d hd
      rcases mem_todo.mp hd with h | ⟨a, ha, rfl⟩
      · cases h
      · exact ⟨a, ha, List.suffix_refl _⟩
  exact ⟨hP.1, hP.2.1, hP.2.2.2⟩

/-- **C48.** Artifacts of a project are in its build directory. Then nothing outside it, nor the
build directory itself, is removed. -/
theorem C48_stays_inside (b : Path) (denied : Path → Bool) (fs : FS) (artifacts : List Path)
    (hin : ∀ a ∈ artifacts, b <:+ a.tail) :
    let after := (removeEmpty b denied fs artifacts).fs
    ∀ d ∈ fs.dirs, d ∉ after.dirs → b <:+ d ∧ d ≠ b := by
  intro after
  let P : RSt → Prop := fun s =>
    (∀ d ∈ s.todo, b <:+ d) ∧ ∀ d ∈ fs.dirs, d ∉ s.fs.dirs → b <:+ d ∧ d ≠ b
  have hP : P (removeEmpty b denied fs artifacts) := by
    refine rloop_induct P ?_ _ _ ⟨?_, fun d h1 h2 => absurd h1 h2⟩
    · rintro s ⟨p3, p4⟩ hne
      cases ht : s.todo with
      | nil => exact absurd ht hne
      | cons d rest =>
        obtain ⟨_, hc⟩ := step_cases b denied s d rest ht
        rw [ht] at p3
        rcases hc with ⟨c1, c2, _⟩ | ⟨c1, c2, c3, c4, c5⟩
        · refine ⟨?_, by rw [c1]; exact p4⟩
          rw [c2]
          exact fun x hx => p3 x (List.mem_cons_of_mem _ hx)
        · obtain ⟨r1, r2, r3, r4, r5⟩ := FS.rmdir_some c1
          have hd := p3 d List.mem_cons_self
          refine ⟨?_, ?_⟩
          · have hpar : b <:+ d.tail := by
              cases d with
              | nil => exact absurd rfl c4
              | cons n r =>
                rcases List.suffix_cons_iff.mp hd with h | h
                · exact absurd h.symm c3
                · exact h
            intro x hx
            rcases c5 with ⟨_, c5⟩ | ⟨_, c5⟩
            · rw [c5] at hx; exact p3 x (List.mem_cons_of_mem _ hx)
            · rw [c5] at hx
              rcases mem_insertSorted.mp hx with rfl | hx
              · exact hpar
              · exact p3 x (List.mem_cons_of_mem _ hx)
          · intro x hx hnx
            by_cases hxd : x = d
            · subst hxd; exact ⟨hd, c3⟩
            · exact p4 x hx (fun hm => hnx ((r5 x).mpr ⟨hm, hxd⟩))
    · intro d hd
      rcases mem_todo.mp hd with h | ⟨a, ha, rfl⟩
      · cases h
      · exact hin a ha
  exact hP.2

theorem str_prefix_of_suffix {b d : Path} (h : b <:+ d) : str b <+: str d := by
  induction d with
  | nil => rw [List.suffix_nil.mp h]; exact List.prefix_refl _
  | cons n r ih =>
    rcases List.suffix_cons_iff.mp h with h | h
    · rw [h]; exact List.prefix_refl _
    · exact (ih h).trans (by simp [str])

/-- **C48.** Chains of directories that have become empty are removed completely: of the directories
inside the build directory that held one of the artifacts, directly or further down, those that still
exist are not empty, or the operating system refused to remove them for another reason than that. -/
theorem C48_removes_all_empty (b : Path) (denied : Path → Bool) (fs : FS) (artifacts : List Path)
    (hw : fs.WF) :
    let after := (removeEmpty b denied fs artifacts).fs
    ∀ a ∈ artifacts, a.tail ∈ fs.dirs → ∀ d ∈ after.dirs, d <:+ a.tail → b <:+ d → d ≠ b →
      after.hasEntry d = true ∨ denied d = true := by
  intro after
  -- the directories in question
  let Q : Path → Prop := fun d =>
    (∃ a ∈ artifacts, a.tail ∈ fs.dirs ∧ d <:+ a.tail) ∧ b <:+ d ∧ d ≠ b
  let P : RSt → Prop := fun s =>
    SortedDesc s.todo ∧ (∀ h ∈ s.handled, ∀ d ∈ s.todo, d.length ≤ h.length) ∧
    ∀ d ∈ s.fs.dirs, Q d → d ∈ s.todo ∨ s.fs.hasEntry d = true ∨ denied d = true
  have hP : P (removeEmpty b denied fs artifacts) := by
    refine rloop_induct P ?_ _ _ ⟨sorted_todo (by simp [SortedDesc]), by simp, ?_⟩
    · rintro s ⟨p1, p2, p3⟩ hne
      cases ht : s.todo with
      | nil => exact absurd ht hne
      | cons d rest =>
        obtain ⟨hh, hc⟩ := step_cases b denied s d rest ht
        rw [ht] at p1 p2 p3
        rcases hc with ⟨c1, c2, c3⟩ | ⟨c1, c2, c3, c4, c5⟩
        · refine ⟨by rw [c2]; exact p1.2, ?_, ?_⟩
          · rw [hh, c2]
            intro h hmem x hx
            rcases List.mem_cons.mp hmem with rfl | hmem
            · exact p1.1 x hx
            · exact p2 h hmem x (List.mem_cons_of_mem _ hx)
          · rw [c1, c2]
            intro x hx hq
            rcases p3 x hx hq with h | h
            · rcases List.mem_cons.mp h with rfl | h
              · rcases c3 with c3 | c3 | c3 | c3
                · exact absurd hx c3
                · exact absurd (str_prefix_of_suffix hq.2.1) c3
                · exact absurd c3 hq.2.2
                · exact Or.inr c3
              · exact Or.inl h
            · exact Or.inr h
        · obtain ⟨r1, r2, r3, r4, r5⟩ := FS.rmdir_some c1
          have hlen : ∀ h ∈ d :: s.handled, d.length ≤ h.length := by
            intro h hmem
            rcases List.mem_cons.mp hmem with rfl | hmem
            · exact Nat.le_refl _
            · exact p2 h hmem d List.mem_cons_self
          obtain ⟨m, r, hd⟩ : ∃ m r, d = m :: r := by
            cases d with
            | nil => exact absurd rfl c4
            | cons m r => exact ⟨m, r, rfl⟩
          have htail : d.tail.length < d.length := by rw [hd]; simp
          have hnot : d.tail ∉ d :: s.handled := by
            intro hm
            have := hlen _ hm
            omega
          have c6 : (removeDirIfEmpty b denied s).todo = insertSorted d.tail rest := by
            rcases c5 with ⟨c5, _⟩ | ⟨_, c5⟩
            · exact absurd c5 hnot
            · exact c5
          refine ⟨by rw [c6]; exact insertSorted_sorted p1.2, ?_, ?_⟩
          · rw [hh, c6]
            intro h hmem x hx
            have hl := hlen h hmem
            rcases mem_insertSorted.mp hx with rfl | hx
            · omega
            · have := p1.1 x hx; omega
          · rw [c6]
            intro x hx hq
            obtain ⟨hx1, hx2⟩ := (r5 x).mp hx
            rcases p3 x hx1 hq with h | h | h
            · rcases List.mem_cons.mp h with rfl | h
              · exact absurd rfl hx2
              · exact Or.inl (mem_insertSorted.mpr (Or.inr h))
            · obtain ⟨n, hn⟩ := (FS.hasEntry_iff _ _).mp h
              by_cases hxd : n :: x = d
              · left
                rw [← hxd]
                exact mem_insertSorted.mpr (Or.inl rfl)
              · right; left
                refine (FS.hasEntry_iff _ _).mpr ⟨n, ?_⟩
                rcases hn with hn | hn
                · exact Or.inl ((r5 _).mpr ⟨hn, hxd⟩)
                · exact Or.inr (by rw [r4]; exact hn)
            · exact Or.inr (Or.inr h)
    · rintro d hd ⟨⟨a, ha, had, hs⟩, _, _⟩
      by_cases he : d = a.tail
      · left; exact mem_todo.mpr (Or.inr ⟨a, ha, he⟩)
      · right; left
        exact hasEntry_of_below hw had hs he
  intro a ha had d hd hs hb hne
  rcases hP.2.2 d hd ⟨⟨a, ha, had, hs⟩, hb, hne⟩ with h | h
  · rw [C48_terminates] at h; cases h
  · exact h

/-- Two directories below "gen" become empty, so "gen" does; "obj" holds another file. -/
example :
    let b : Path := ["build", "home"]
    let fs : FS := ⟨[[], ["home"], b, "gen" :: b, "a" :: "gen" :: b, "b" :: "gen" :: b, "obj" :: b],
      ["other.o" :: "obj" :: b]⟩
    (removeEmpty b (fun _ => false) fs
      ["x.h" :: "a" :: "gen" :: b, "y.h" :: "b" :: "gen" :: b, "z.o" :: "obj" :: b]).fs =
      ⟨[[], ["home"], b, "obj" :: b], ["other.o" :: "obj" :: b]⟩ := by decide +kernel

example : (⟨[[], ["build"], ["gen", "build"]], [["x", "build"]]⟩ : FS).WF := by
  refine ⟨?_, by decide⟩
  intro n p h
  simp at h
  rcases h with (h | h) | h
  · rw [h.2]; decide
  · rw [h.2]; decide
  · rw [h.2]; decide

/-- **C48 finding.** The test for "inside the build directory" compares strings: for a path that is
not inside, a sibling directory whose name only begins like the build directory's is removed. -/
theorem C48_sibling_directory_removed :
    ∃ (b : Path) (fs : FS) (a d : Path), d ∈ fs.dirs ∧ ¬ b <:+ d ∧
      d ∉ (removeEmpty b (fun _ => false) fs [a]).fs.dirs := by
  refine ⟨["build"], ⟨[[], ["build"], ["build-old"]], []⟩, ["x", "build-old"], ["build-old"], ?_⟩
  decide +kernel

/-- **C48 finding.** If the directory of an artifact is gone already, its parents are not looked at:
an empty one stays. (This is why `C48_removes_all_empty` asks for `a.tail ∈ fs.dirs`.) -/
theorem C48_missing_directory_stops :
    ∃ (b : Path) (fs : FS) (a d : Path), fs.WF ∧ b <:+ a.tail ∧ d <:+ a.tail ∧ b <:+ d ∧ d ≠ b ∧
      d ∈ (removeEmpty b (fun _ => false) fs [a]).fs.dirs ∧
      (removeEmpty b (fun _ => false) fs [a]).fs.hasEntry d = false := by
  refine ⟨["build"], ⟨[[], ["build"], ["gen", "build"]], []⟩, ["x.h", "sub", "gen", "build"],
    ["gen", "build"], ⟨?_, by decide⟩, ?_⟩
  · intro n p h
    simp at h
    rcases h with h | h <;> (rw [h.2]; decide)
  · decide +kernel

end Verif.Dirs
