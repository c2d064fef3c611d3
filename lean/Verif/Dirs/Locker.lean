import Verif.Dirs.Model
/-!
# C35: the lock on the build graph

Model of src/lib/corelib/tools/buildgraphlocker.cpp 58-163.
-/
namespace Verif.Dirs

/-! ## The directories -/

/-- buildgraphlocker.cpp 69-76 `rememberCreatedDirectories`: the missing directories from the
build directory upwards. (The root exists; the model stops there in any case.) -/
def remember (fs : FS) : Path → List Path
  | [] => if fs.exists [] then [] else [[]]
  | n :: r => if fs.exists (n :: r) then [] else (n :: r) :: remember fs r

/-- buildgraphlocker.cpp 94-100: `mkpath`, if no file is in the way. -/
def mkpath (fs : FS) (p : Path) : FS := { fs with dirs := fs.dirs ++ remember fs p }

/-- buildgraphlocker.cpp 78-92 `removeEmptyCreatedDirectories`. -/
def removeCreated (denied : Path → Bool) : List Path → FS → FS
  | [], fs => fs
  | d :: rest, fs =>
    if fs.hasVisibleEntry d then fs
    else match fs.rmdir denied d with
      | some fs' => removeCreated denied rest fs'
      | none => removeCreated denied rest fs

theorem mem_remember {fs : FS} : ∀ {p d : Path}, d ∈ remember fs p →
    fs.exists d = false ∧ d <:+ p
  | [], d, h => by
    unfold remember at h
    split at h
    · cases h
    · rename_i hc
      simp at h; subst h
      exact ⟨by simpa using hc, List.suffix_refl _⟩
  | n :: r, d, h => by
    unfold remember at h
    split at h
    · cases h
    · rename_i hc
      rcases List.mem_cons.mp h with rfl | h
      · exact ⟨by simpa using hc, List.suffix_refl _⟩
      · have := mem_remember h
        exact ⟨this.1, this.2.trans (List.suffix_cons n r)⟩

theorem not_exists {fs : FS} {p : Path} (h : fs.exists p = false) : p ∉ fs.dirs ∧ p ∉ fs.files := by
  simpa [FS.exists] using h

/-- **C35.** The destructor removes only directories that did not exist when the lock object was
created and that have become empty; files are not touched. `fs` is the file system when the lock
object was created, `now` the one when it is destroyed: anything may have happened in between. -/
theorem C35_removes_only_created_and_empty (fs now : FS) (dir : Path) (denied : Path → Bool) :
    let after := removeCreated denied (remember fs dir) now
    after.files = now.files ∧ (∀ d ∈ after.dirs, d ∈ now.dirs) ∧
    ∀ d ∈ now.dirs, d ∉ after.dirs →
      d ∉ fs.dirs ∧ d <:+ dir ∧ ∀ n, (n :: d) ∉ after.dirs ∧ (n :: d) ∉ now.files := by
  have key : ∀ (l : List Path) (now : FS), (∀ d ∈ l, fs.exists d = false ∧ d <:+ dir) →
      let after := removeCreated denied l now
      after.files = now.files ∧ (∀ d ∈ after.dirs, d ∈ now.dirs) ∧
      ∀ d ∈ now.dirs, d ∉ after.dirs →
        d ∉ fs.dirs ∧ d <:+ dir ∧ ∀ n, (n :: d) ∉ after.dirs ∧ (n :: d) ∉ now.files := by
    intro l
    induction l with
    | nil =>
      intro now _
      exact ⟨rfl, fun d h => h, fun d h1 h2 => absurd h1 h2⟩
    | cons x l ih =>
      intro now hl
      simp only [removeCreated]
      split
      · exact ⟨rfl, fun d h => h, fun d h1 h2 => absurd h1 h2⟩
      · cases hr : now.rmdir denied x with
        | none =>
          exact ih now (fun d hd => hl d (List.mem_cons_of_mem _ hd))
        | some fs' =>
          obtain ⟨h1, h2, h3, h4, h5⟩ := FS.rmdir_some hr
          have ih' := ih fs' (fun d hd => hl d (List.mem_cons_of_mem _ hd))
          refine ⟨ih'.1.trans h4, fun d hd => ((h5 d).mp (ih'.2.1 d hd)).1, ?_⟩
          intro d hd hnd
          by_cases hx : d = x
          · subst hx
            have hc := hl d List.mem_cons_self
            refine ⟨(not_exists hc.1).1, hc.2, ?_⟩
            intro n
            have hne : ¬ ((n :: d) ∈ now.dirs ∨ (n :: d) ∈ now.files) := by
              intro hm
              have := (FS.hasEntry_iff now d).mpr ⟨n, hm⟩
              rw [h2] at this; cases this
            exact ⟨fun hm => hne (Or.inl ((h5 _).mp (ih'.2.1 _ hm)).1), fun hm => hne (Or.inr hm)⟩
          · have := ih'.2.2 d ((h5 d).mpr ⟨hd, hx⟩) hnd
            exact ⟨this.1, this.2.1, fun n => ⟨(this.2.2 n).1, by rw [← h4]; exact (this.2.2 n).2⟩⟩
  exact key _ now (fun d hd => mem_remember hd)

theorem remember_all {fs : FS} (hw : fs.WF) : ∀ {p d : Path}, d <:+ p → d ∉ fs.dirs →
    d ∉ fs.files → d ∈ remember fs p
  | [], d, hs, h1, _ => by
    have := List.suffix_nil.mp hs
    subst this; exact absurd hw.2 h1
  | n :: r, d, hs, h1, h2 => by
    have hne : fs.exists (n :: r) = false := by
      cases he : fs.exists (n :: r)
      · rfl
      · exfalso
        have hall : ∀ q : Path, fs.exists q = true → d <:+ q → False := by
          intro q
          induction q with
          | nil =>
            intro _ h
            have := List.suffix_nil.mp h
            subst this; exact h1 hw.2
          | cons m q ih =>
            intro hq h
            have hq' : (m :: q) ∈ fs.dirs ∨ (m :: q) ∈ fs.files := by simpa [FS.exists] using hq
            rcases List.suffix_cons_iff.mp h with h | h
            · subst h; exact hq'.elim h1 h2
            · exact ih (by simp [FS.exists, hw.1 m q hq']) h
        exact hall _ he hs
    rw [remember, hne]
    rcases List.suffix_cons_iff.mp hs with h | h
    · subst h; simp
    · exact List.mem_cons_of_mem _ (remember_all hw h h1 h2)

theorem removeCreated_keeps (denied : Path → Bool) : ∀ (l : List Path) (now : FS),
    (removeCreated denied l now).files = now.files ∧
    (∀ d ∈ (removeCreated denied l now).dirs, d ∈ now.dirs) ∧
    ∀ d ∈ now.dirs, d ∉ l → d ∈ (removeCreated denied l now).dirs := by
  intro l
  induction l with
  | nil => intro now; exact ⟨rfl, fun _ h => h, fun _ h _ => h⟩
  | cons x l ih =>
    intro now
    simp only [removeCreated]
    split
    · exact ⟨rfl, fun _ h => h, fun _ h _ => h⟩
    · cases hr : now.rmdir denied x with
      | none =>
        have := ih now
        exact ⟨this.1, this.2.1, fun d hd hn => this.2.2 d hd (fun hm => hn (List.mem_cons_of_mem _ hm))⟩
      | some fs' =>
        obtain ⟨h1, h2, h3, h4, h5⟩ := FS.rmdir_some hr
        have := ih fs'
        exact ⟨this.1.trans h4, fun d hd => ((h5 d).mp (this.2.1 d hd)).1,
          fun d hd hn => this.2.2 d ((h5 d).mpr ⟨hd, fun he => hn (he ▸ List.mem_cons_self)⟩)
            (fun hm => hn (List.mem_cons_of_mem _ hm))⟩

/-- A directory with something below it has an entry. -/
theorem hasEntry_of_below {fs : FS} (hw : fs.WF) {d : Path} : ∀ {q : Path}, q ∈ fs.dirs →
    d <:+ q → d ≠ q → fs.hasEntry d = true
  | [], _, h1, h2 => absurd (List.suffix_nil.mp h1) h2
  | m :: q, hq, h1, h2 => by
    rcases List.suffix_cons_iff.mp h1 with h | h
    · exact absurd h h2
    · by_cases he : d = q
      · subst he; exact (FS.hasEntry_iff _ _).mpr ⟨m, Or.inl hq⟩
      · exact hasEntry_of_below hw (hw.1 m q (Or.inl hq)) h he

theorem hasEntry_of_visible {fs : FS} {q : Path} (h : fs.hasVisibleEntry q = true) :
    fs.hasEntry q = true := by
  unfold FS.hasVisibleEntry at h
  unfold FS.hasEntry
  cases he : fs.entries q with
  | nil => rw [he] at h; simp at h
  | cons a l => rfl

theorem removeCreated_rest (fs : FS) (hroot : [] ∈ fs.dirs) (denied : Path → Bool) :
    ∀ (dir : Path) (now : FS), now.WF → ∀ d ∈ remember fs dir,
      d ∈ (removeCreated denied (remember fs dir) now).dirs →
      (removeCreated denied (remember fs dir) now).hasEntry d = true ∨ denied d = true
  | [], now, _, d, hd, _ => by
    simp [remember, FS.exists, hroot] at hd
  | n :: r, now, hw, d, hd, ha => by
    by_cases hex : fs.exists (n :: r) = true
    · simp [remember, hex] at hd
    · have hrem : remember fs (n :: r) = (n :: r) :: remember fs r := by rw [remember]; simp [hex]
      rw [hrem] at hd ha ⊢
      simp only [removeCreated] at ha ⊢
      by_cases hv : now.hasVisibleEntry (n :: r) = true
      · rw [if_pos hv] at ha ⊢
        have he := hasEntry_of_visible hv
        left
        by_cases hdx : d = n :: r
        · subst hdx; exact he
        · obtain ⟨m, hm⟩ := (FS.hasEntry_iff _ _).mp he
          have hsuf : d <:+ n :: r := by
            rcases List.mem_cons.mp hd with h | h
            · exact absurd h hdx
            · exact (mem_remember h).2.trans (List.suffix_cons _ _)
          exact hasEntry_of_below hw (hw.1 m _ hm) hsuf hdx
      · rw [if_neg hv] at ha ⊢
        cases hr : now.rmdir denied (n :: r) with
        | some fs' =>
          rw [hr] at ha
          simp only at ha ⊢
          obtain ⟨h1, h2, h3, h4, h5⟩ := FS.rmdir_some hr
          rcases List.mem_cons.mp hd with h | h
          · subst h
            have := (removeCreated_keeps denied (remember fs r) fs').2.1 _ ha
            exact absurd rfl ((h5 _).mp this).2
          · exact removeCreated_rest fs hroot denied r fs' (FS.rmdir_WF hw hr (by simp)) d h ha
        | none =>
          rw [hr] at ha
          simp only at ha ⊢
          rcases List.mem_cons.mp hd with h | h
          · subst h
            have hk := removeCreated_keeps denied (remember fs r) now
            rcases FS.rmdir_none hr with h | h | h
            · exact absurd (hk.2.1 _ ha) h
            · left
              obtain ⟨m, hm⟩ := (FS.hasEntry_iff _ _).mp h
              refine (FS.hasEntry_iff _ _).mpr ⟨m, ?_⟩
              rcases hm with hm | hm
              · refine Or.inl (hk.2.2 _ hm ?_)
                intro hc
                have := (mem_remember hc).2.length_le
                simp at this
                omega
              · exact Or.inr (by rw [hk.1]; exact hm)
            · exact Or.inr h
          · exact removeCreated_rest fs hroot denied r now hw d h ha

/-- **C35.** No stray directories: of the directories on the path to the build directory that were
missing when the lock object was created, those that exist after its destruction are not empty, or
the operating system refused to remove them for another reason than that. -/
theorem C35_no_stray_directories (fs now : FS) (dir : Path) (denied : Path → Bool)
    (hfs : fs.WF) (hnow : now.WF) :
    let after := removeCreated denied (remember fs dir) now
    ∀ d ∈ after.dirs, d <:+ dir → d ∉ fs.dirs → d ∉ fs.files →
      after.hasEntry d = true ∨ denied d = true := by
  intro after d hd hs h1 h2
  exact removeCreated_rest fs hfs.2 denied dir now hnow d (remember_all hfs hs h1 h2) hd

theorem mkpath_WF {fs : FS} (hw : fs.WF) : ∀ (dir : Path),
    (∀ d, d <:+ dir → d ∉ fs.files) → (mkpath fs dir).WF ∧ dir ∈ (mkpath fs dir).dirs
  | [], _ => by
    have : remember fs [] = [] := by simp [remember, FS.exists, hw.2]
    refine ⟨⟨?_, ?_⟩, ?_⟩ <;> simp [mkpath, this]
    · exact hw.1
    · exact hw.2
    · exact hw.2
  | n :: r, hf => by
    have ih := mkpath_WF hw r (fun d hd => hf d (hd.trans (List.suffix_cons _ _)))
    by_cases hex : fs.exists (n :: r) = true
    · have hrem : remember fs (n :: r) = [] := by simp [remember, hex]
      have : mkpath fs (n :: r) = fs := by simp [mkpath, hrem]
      rw [this]
      refine ⟨hw, ?_⟩
      simp [FS.exists] at hex
      exact hex.resolve_right (hf _ (List.suffix_refl _))
    · have hrem : remember fs (n :: r) = (n :: r) :: remember fs r := by rw [remember]; simp [hex]
      have hmem : ∀ q, q ∈ (mkpath fs (n :: r)).dirs ↔ q = n :: r ∨ q ∈ (mkpath fs r).dirs := by
        intro q
        simp only [mkpath, hrem, List.mem_append, List.mem_cons]
        constructor
        · rintro (h | h | h)
          · exact Or.inr (Or.inl h)
          · exact Or.inl h
          · exact Or.inr (Or.inr h)
        · rintro (h | h | h)
          · exact Or.inr (Or.inl h)
          · exact Or.inl h
          · exact Or.inr (Or.inr h)
      refine ⟨⟨?_, (hmem []).mpr (Or.inr ih.1.2)⟩, (hmem _).mpr (Or.inl rfl)⟩
      intro m p hp
      rcases hp with hp | hp
      · rcases (hmem _).mp hp with h | h
        · cases h; exact (hmem _).mpr (Or.inr ih.2)
        · exact (hmem _).mpr (Or.inr (ih.1.1 m p (Or.inl h)))
      · exact (hmem _).mpr (Or.inr (ih.1.1 m p (Or.inr hp)))

/-- **C35.** A build that stored nothing leaves no trace: if the directories were created and nobody
else changed anything, the same directories and files exist afterwards as before. -/
theorem C35_leaves_no_trace (fs : FS) (dir : Path) (hfs : fs.WF)
    (hfile : ∀ d, d <:+ dir → d ∉ fs.files) :
    let after := removeCreated (fun _ => false) (remember fs dir) (mkpath fs dir)
    after.files = fs.files ∧ ∀ d, d ∈ after.dirs ↔ d ∈ fs.dirs := by
  intro after
  have hk := removeCreated_keeps (fun _ => false) (remember fs dir) (mkpath fs dir)
  have hwf := (mkpath_WF hfs dir hfile).1
  refine ⟨hk.1, fun d => ⟨fun hd => ?_, fun hd => ?_⟩⟩
  · -- what remains and was not there: take the deepest such directory; it is empty
    apply Classical.byContradiction
    intro hnd
    have hall : ∀ k (q : Path), q.length + k = dir.length → q ∈ after.dirs → q ∉ fs.dirs →
        q <:+ dir → False := by
      intro k
      induction k with
      | zero =>
        intro q hlen hq hnq hs
        have hqd : q = dir := hs.eq_of_length (by omega)
        have hst := C35_no_stray_directories fs (mkpath fs dir) dir (fun _ => false) hfs hwf q hq hs
          hnq (hfile q hs)
        rcases hst with hst | hst
        · obtain ⟨m, hm⟩ := (FS.hasEntry_iff _ _).mp hst
          rcases hm with hm | hm
          · have hm' := hk.2.1 _ hm
            simp only [mkpath, List.mem_append] at hm'
            rcases hm' with h | h
            · exact hnq (hfs.1 m q (Or.inl h))
            · have := (mem_remember h).2.length_le
              simp at this; omega
          · rw [hk.1] at hm
            exact hnq (hfs.1 m q (Or.inr hm))
        · cases hst
      | succ k ih =>
        intro q hlen hq hnq hs
        have hst := C35_no_stray_directories fs (mkpath fs dir) dir (fun _ => false) hfs hwf q hq hs
          hnq (hfile q hs)
        rcases hst with hst | hst
        · obtain ⟨m, hm⟩ := (FS.hasEntry_iff _ _).mp hst
          rcases hm with hm | hm
          · have hm' := hk.2.1 _ hm
            simp only [mkpath, List.mem_append] at hm'
            rcases hm' with h | h
            · exact hnq (hfs.1 m q (Or.inl h))
            · have hs' := mem_remember h
              exact ih (m :: q) (by simp; omega) hm (not_exists hs'.1).1 hs'.2
          · rw [hk.1] at hm
            exact hnq (hfs.1 m q (Or.inr hm))
        · cases hst
    have hd' := hk.2.1 d hd
    simp only [mkpath, List.mem_append] at hd'
    rcases hd' with h | h
    · exact hnd h
    · have hs := (mem_remember h).2
      exact hall (dir.length - d.length) d (by have := hs.length_le; omega) hd hnd hs
  · refine hk.2.2 d (by simp [mkpath, hd]) ?_
    intro hm
    exact (not_exists (mem_remember hm).1).1 hd

/-- Two missing directories are created and removed; when the build graph has been stored they stay. -/
example :
    let fs : FS := ⟨[[], ["home"]], []⟩
    let dir : Path := ["debug", "build", "home"]
    let r := remember fs dir
    r = [["debug", "build", "home"], ["build", "home"]] ∧
    (removeCreated (fun _ => false) r (mkpath fs dir)) = fs ∧
    let stored : FS := { mkpath fs dir with files := ["debug.bg" :: dir] }
    removeCreated (fun _ => false) r stored = stored := by decide +kernel

example : (⟨[[], ["home"]], []⟩ : FS).WF := by
  refine ⟨?_, by decide⟩
  intro n p h
  simp at h
  rw [h.2]; decide

/-- **C35 finding.** With two processes, directories can be left behind: the second one started
waiting when they existed, so it does not remember them, and creates them again after the first one
has removed them (buildgraphlocker.cpp 106: in each attempt). -/
theorem C35_waiting_process_leaves_directories :
    ∃ (fs : FS) (dir : Path), fs.WF ∧
      -- the first process creates the directory and locks
      let s1 := mkpath fs dir
      -- the second one starts, the first one ends, the second one gets the lock, then ends
      let remembered2 := remember s1 dir
      let s2 := removeCreated (fun _ => false) (remember fs dir) s1
      let s3 := mkpath s2 dir
      let s4 := removeCreated (fun _ => false) remembered2 s3
      dir ∉ fs.dirs ∧ dir ∈ s4.dirs ∧ s4.hasEntry dir = false := by
  refine ⟨⟨[[]], []⟩, ["build"], ⟨?_, by decide⟩, ?_⟩
  · intro n p h; simp at h
  · decide +kernel

/-! ## The attempts -/

/-- What happens in one attempt (buildgraphlocker.cpp 104-158): each step's outcome is decided by
the environment. -/
inductive Attempt where
  | canceled
  /-- `mkpath` failed -/
  | noDirectory
  | locked
  /-- Somebody else holds the lock; `owner` is what the lock file says about them: the name stored
  in the file, and the name of the process that has the stored id now. -/
  | lockFailed (owner : Option (String × String))
  | permissionError
  | unknownError
deriving DecidableEq, Repr

inductive LockError where
  | cannotCreateDirectory | alreadyLocked | noPermission | unknown
deriving DecidableEq, Repr

inductive LockResult where
  /-- The constructor returned. -/
  | done
  | error (e : LockError)
  /-- Still waiting after the attempts given. -/
  | waiting
deriving DecidableEq, Repr

/-- The part of the loop after a failed attempt; `none`: go on. The second component says whether
`removeStaleLockFile` was called (buildgraphlocker.cpp 121-150; on systems where file names are
compared case-insensitively the two names are compared that way too, which the model leaves to the
environment). -/
def react (wait : Bool) (a : Attempt) : Option LockResult × Bool :=
  match a with
  | .canceled => (some (.error .unknown), false)
  | .noDirectory => (some (.error .cannotCreateDirectory), false)
  | .locked => (some .done, false)
  | .lockFailed owner =>
    if wait then (none, false)
    else match owner with
      | none => (none, false)
      | some (stored, running) =>
        if stored == running then (some (.error .alreadyLocked), false) else (none, true)
  | .permissionError => (some (.error .noPermission), false)
  | .unknownError => (some (.error .unknown), false)

/-- buildgraphlocker.cpp 112-158, the constructor's loop; `attempts` counts the finished ones. -/
def lockLoop (wait : Bool) : Nat → List Attempt → LockResult
  | _, [] => .waiting
  | attempts, a :: rest =>
    match (react wait a).1 with
    | some r => r
    | none =>
      if attempts + 1 < 10 || wait then lockLoop wait (attempts + 1) rest else .error .unknown

def lock (wait : Bool) (env : List Attempt) : LockResult := lockLoop wait 0 env

/-! ### Specification -/

/-- After this outcome another attempt makes sense: somebody else has the lock, and unless waiting
was requested nothing is known about them or they do not run any more. -/
def Retry (wait : Bool) (a : Attempt) : Prop :=
  ∃ owner, a = .lockFailed owner ∧ (wait = false → ∀ s r, owner = some (s, r) → s ≠ r)

theorem react_none_iff (wait : Bool) (a : Attempt) : (react wait a).1 = none ↔ Retry wait a := by
  cases a with
  | lockFailed owner =>
    unfold react Retry
    cases wait with
    | true => simp
    | false =>
      cases owner with
      | none => simp
      | some o =>
        obtain ⟨s, r⟩ := o
        simp only [Bool.false_eq_true, if_false]
        by_cases h : s = r
        · subst h; simp
        · simp only [beq_iff_eq, if_neg h, Attempt.lockFailed.injEq, forall_const]
          simp only [true_iff]
          exact ⟨some (s, r), rfl, fun s' r' he => by cases he; exact h⟩
  | _ => simp [react, Retry]

theorem react_done_iff (wait : Bool) (a : Attempt) :
    (react wait a).1 = some .done ↔ a = .locked := by
  cases a with
  | lockFailed owner =>
    unfold react
    cases wait with
    | true => simp
    | false =>
      cases owner with
      | none => simp
      | some o =>
        obtain ⟨s, r⟩ := o
        by_cases h : s = r <;> simp [h]
  | _ => simp [react]

theorem lockLoop_done (wait : Bool) : ∀ (env : List Attempt) (n : Nat),
    lockLoop wait n env = .done ↔
      ∃ i, env[i]? = some .locked ∧ (i = 0 ∨ n + i < 10 ∨ wait = true) ∧
        ∀ j, j < i → ∃ a, env[j]? = some a ∧ Retry wait a := by
  intro env
  induction env with
  | nil => intro n; simp [lockLoop]
  | cons a rest ih =>
    intro n
    unfold lockLoop
    cases hr : (react wait a).1 with
    | some r =>
      simp only
      constructor
      · rintro rfl
        refine ⟨0, ?_, Or.inl rfl, fun j hj => absurd hj (Nat.not_lt_zero _)⟩
        simpa using (react_done_iff wait a).mp hr
      · rintro ⟨i, h1, h2, h3⟩
        cases i with
        | zero =>
          have : a = .locked := by simpa using h1
          have h := (react_done_iff wait a).mpr this
          rw [hr] at h; cases h; rfl
        | succ i =>
          obtain ⟨a', ha', hret⟩ := h3 0 (Nat.succ_pos i)
          have : a' = a := by simpa using ha'.symm
          subst this
          have := (react_none_iff wait a').mpr hret
          rw [hr] at this; cases this
    | none =>
      simp only
      have hret := (react_none_iff wait a).mp hr
      by_cases hc : (decide (n + 1 < 10) || wait) = true
      · rw [if_pos hc, ih (n + 1)]
        have hc' : n + 1 < 10 ∨ wait = true := by simpa using hc
        constructor
        · rintro ⟨i, h1, h2, h3⟩
          refine ⟨i + 1, by simpa using h1, ?_, ?_⟩
          · right
            rcases h2 with h2 | h2 | h2
            · subst h2
              rcases hc' with hc' | hc'
              · left; omega
              · right; exact hc'
            · left; omega
            · right; exact h2
          · intro j hj
            cases j with
            | zero => exact ⟨a, by simp, hret⟩
            | succ j =>
              obtain ⟨a', h4, h5⟩ := h3 j (by omega)
              exact ⟨a', by simpa using h4, h5⟩
        · rintro ⟨i, h1, h2, h3⟩
          cases i with
          | zero =>
            have : a = .locked := by simpa using h1
            subst this
            obtain ⟨o, ho, _⟩ := hret
            cases ho
          | succ i =>
            refine ⟨i, by simpa using h1, ?_, ?_⟩
            · rcases h2 with h2 | h2 | h2
              · cases h2
              · right; left; omega
              · right; right; exact h2
            · intro j hj
              obtain ⟨a', h4, h5⟩ := h3 (j + 1) (by omega)
              exact ⟨a', by simpa using h4, h5⟩
      · rw [if_neg hc]
        have hc' : ¬ n + 1 < 10 ∧ wait = false := by simpa using hc
        constructor
        · intro h; cases h
        · rintro ⟨i, h1, h2, h3⟩
          cases i with
          | zero =>
            have : a = .locked := by simpa using h1
            subst this
            obtain ⟨o, ho, _⟩ := hret
            cases ho
          | succ i =>
            exfalso
            rcases h2 with h2 | h2 | h2
            · cases h2
            · exact hc'.1 (by omega)
            · rw [hc'.2] at h2; cases h2

/-- **C35.** The constructor returns normally exactly if one of its attempts — one of the first ten,
unless waiting was requested — took the lock, and in each earlier attempt the lock was held by
somebody who, unless waiting was requested, is not known to be running. -/
theorem C35_returns_iff_locked (wait : Bool) (env : List Attempt) :
    lock wait env = .done ↔
      ∃ i, env[i]? = some .locked ∧ (i < 10 ∨ wait = true) ∧
        ∀ j, j < i → ∃ a, env[j]? = some a ∧ Retry wait a := by
  unfold lock
  rw [lockLoop_done]
  constructor
  · rintro ⟨i, h1, h2, h3⟩
    refine ⟨i, h1, ?_, h3⟩
    rcases h2 with h2 | h2 | h2
    · left; omega
    · left; omega
    · right; exact h2
  · rintro ⟨i, h1, h2, h3⟩
    refine ⟨i, h1, ?_, h3⟩
    rcases h2 with h2 | h2
    · right; left; omega
    · right; right; exact h2

theorem lockLoop_bounded : ∀ (env : List Attempt) (n : Nat), n < 10 → 10 ≤ n + env.length →
    lockLoop false n env ≠ .waiting := by
  intro env
  induction env with
  | nil => intro n h1 h2; simp at h2; omega
  | cons a rest ih =>
    intro n h1 h2
    unfold lockLoop
    cases hr : (react false a).1 with
    | some r =>
      simp only
      rintro rfl
      cases a with
      | lockFailed owner =>
        cases owner with
        | none => simp [react] at hr
        | some o =>
          obtain ⟨s, r⟩ := o
          by_cases h : s = r <;> simp [react, h] at hr
      | _ => simp [react] at hr
    | none =>
      simp only
      split
      · rename_i hc
        refine ih (n + 1) (by simpa using hc) ?_
        simp at h2; omega
      · simp

/-- **C35.** Unless waiting was requested, ten attempts decide. -/
theorem C35_bounded (env : List Attempt) (h : 10 ≤ env.length) : lock false env ≠ .waiting :=
  lockLoop_bounded env 0 (by omega) (by omega)

/-- **C35.** If somebody holds the lock and runs, the constructor reports it at once; if waiting was
requested it goes on trying, as often as it takes. -/
theorem C35_already_locked (app : String) (rest : List Attempt) (n : Nat) :
    lock false (.lockFailed (some (app, app)) :: rest) = .error .alreadyLocked ∧
    lock true (List.replicate n (.lockFailed (some (app, app))) ++ [.locked]) = .done := by
  constructor
  · simp [lock, lockLoop, react]
  · rw [C35_returns_iff_locked]
    refine ⟨n, by simp, Or.inr rfl, ?_⟩
    intro j hj
    refine ⟨.lockFailed (some (app, app)), ?_, ?_⟩
    · rw [List.getElem?_append_left (by simpa using hj)]
      simp [hj]
    · exact ⟨_, rfl, fun h => by cases h⟩

/-- Nine times nothing is known about the owner, or the process id was reused; then it works. -/
example : lock false (List.replicate 8 (.lockFailed none) ++
    [.lockFailed (some ("qbs", "bash")), .locked]) = .done ∧
    lock false (List.replicate 10 (.lockFailed none) ++ [.locked]) = .error .unknown := by
  decide

/-! ## Several processes

The lock file as QLockFile implements it (assumed, not part of qbs): the file names its owner, and
the owner's process holds an operating system lock on it, which disappears with the process. A lock
file without such a lock is left over from a process that crashed. -/

inductive Phase where
  | idle
  /-- about to call `tryLock` -/
  | trying (attempts : Nat)
  /-- `tryLock` has failed; about to look who it is -/
  | failed (attempts : Nat)
  /-- about to call `removeStaleLockFile` -/
  | removing (attempts : Nat)
  /-- the constructor has returned -/
  | inside
deriving DecidableEq, Repr

structure World where
  /-- the process id in the lock file, if there is one -/
  file : Option Nat
  /-- the process that has the operating system lock -/
  osLock : Option Nat
  phase : Nat → Phase

inductive Event where
  /-- A process creates the lock object. -/
  | start (p : Nat)
  /-- `tryLock`; `ownerGone`: QLockFile sees that no process with the stored id runs. -/
  | tryLock (p : Nat) (ownerGone : Bool)
  /-- `getLockInfo`, `processNameByPid`: `none` if there is no information, else whether the names
  are equal. -/
  | inspect (p : Nat) (same : Option Bool) (wait : Bool)
  | removeStale (p : Nat)
  /-- The lock object is destroyed. -/
  | release (p : Nat)
  | crash (p : Nat)
deriving Repr

def setPhase (w : World) (p : Nat) (ph : Phase) : World :=
  { w with phase := fun q => if q = p then ph else w.phase q }

/-- buildgraphlocker.cpp 152-158: the loop condition. -/
def again (w : World) (p : Nat) (attempts : Nat) (wait : Bool) : World :=
  if attempts + 1 < 10 || wait then setPhase w p (.trying (attempts + 1)) else setPhase w p .idle

/-- QLockFile::tryLock takes the lock if there is no lock file, or a stale one which it can remove
because nobody has the operating system lock on it. -/
def canTake (w : World) (ownerGone : Bool) : Bool :=
  w.file.isNone || (ownerGone && w.osLock.isNone)

def step (w : World) : Event → World
  | .start p => if w.phase p = .idle then setPhase w p (.trying 0) else w
  | .tryLock p gone =>
    match w.phase p with
    | .trying n =>
      if canTake w gone then
        { setPhase w p .inside with file := some p, osLock := some p }
      else setPhase w p (.failed n)
    | _ => w
  | .inspect p same wait =>
    match w.phase p with
    | .failed n =>
      if wait then again w p n wait
      else match same with
        | none => again w p n wait
        | some true => setPhase w p .idle
        | some false => setPhase w p (.removing n)
    | _ => w
  | .removeStale p =>
    match w.phase p with
    | .removing n =>
      -- QLockFile::removeStaleLockFile fails while somebody has the operating system lock
      let w' := if w.osLock.isNone then { w with file := none } else w
      again w' p n false
    | _ => w
  | .release p =>
    match w.phase p with
    | .inside => { setPhase w p .idle with file := none, osLock := none }
    | _ => w
  | .crash p =>
    { setPhase w p .idle with osLock := if w.osLock = some p then none else w.osLock }

def run (w : World) : List Event → World
  | [] => w
  | e :: es => run (step w e) es

/-- Nobody runs; possibly a lock file has been left behind. -/
def fresh (file : Option Nat) : World := { file := file, osLock := none, phase := fun _ => .idle }

structure WInv (w : World) : Prop where
  owner : ∀ p, w.phase p = .inside ↔ w.osLock = some p
  named : ∀ p, w.osLock = some p → w.file = some p

theorem WInv.set {w : World} (h : WInv w) {p : Nat} {ph : Phase} (h1 : w.phase p ≠ .inside)
    (h2 : ph ≠ .inside) : WInv (setPhase w p ph) := by
  refine ⟨?_, h.named⟩
  intro q
  show (if q = p then ph else w.phase q) = .inside ↔ w.osLock = some q
  by_cases hq : q = p
  · subst hq
    rw [if_pos rfl, ← h.owner q]
    exact ⟨fun hh => absurd hh h2, fun hh => absurd hh h1⟩
  · rw [if_neg hq]; exact h.owner q

theorem WInv.again {w : World} (h : WInv w) {p : Nat} {n : Nat} {wait : Bool}
    (h1 : w.phase p ≠ .inside) : WInv (Dirs.again w p n wait) := by
  unfold Dirs.again
  split
  · exact h.set h1 (by simp)
  · exact h.set h1 (by simp)

theorem WInv.step {w : World} (h : WInv w) (e : Event) : WInv (step w e) := by
  cases e with
  | start p =>
    simp only [Dirs.step]
    split
    · rename_i hp
      exact h.set (by rw [hp]; simp) (by simp)
    · exact h
  | tryLock p gone =>
    simp only [Dirs.step]
    cases hp : w.phase p with
    | trying n =>
      simp only
      by_cases hc : canTake w gone = true
      · rw [if_pos hc]
        have hno : w.osLock = none := by
          cases ho : w.osLock with
          | none => rfl
          | some q =>
            have := h.named q ho
            simp [canTake, this, ho] at hc
        refine ⟨?_, ?_⟩
        · intro q
          show (if q = p then Phase.inside else w.phase q) = .inside ↔ some p = some q
          by_cases hq : q = p
          · subst hq; simp
          · rw [if_neg hq, h.owner q, hno]
            simp [Ne.symm hq]
        · intro q hq; exact hq
      · rw [if_neg hc]
        exact h.set (by rw [hp]; simp) (by simp)
    | _ => exact h
  | inspect p same wait =>
    simp only [Dirs.step]
    cases hp : w.phase p with
    | failed n =>
      simp only
      have hni : w.phase p ≠ .inside := by rw [hp]; simp
      cases wait with
      | true => exact h.again hni
      | false =>
        rcases same with _ | _ | _
        · exact h.again hni
        · exact h.set hni (by simp)
        · exact h.set hni (by simp)
    | _ => exact h
  | removeStale p =>
    simp only [Dirs.step]
    cases hp : w.phase p with
    | removing n =>
      simp only
      cases ho : w.osLock with
      | none =>
        rw [if_pos (by rfl)]
        refine WInv.again (w := { file := none, osLock := none, phase := w.phase }) ⟨fun q => ?_, ?_⟩
          (by show w.phase p ≠ _; rw [hp]; simp)
        · have := h.owner q; rw [ho] at this; exact this
        · intro q hq; cases hq
      | some q =>
        rw [if_neg (by simp)]
        exact h.again (by rw [hp]; simp)
    | _ => exact h
  | release p =>
    simp only [Dirs.step]
    cases hp : w.phase p with
    | inside =>
      have ho := (h.owner p).mp hp
      refine ⟨?_, fun q hq => by cases hq⟩
      intro q
      show (if q = p then Phase.idle else w.phase q) = .inside ↔ none = some q
      by_cases hq : q = p
      · subst hq; simp
      · rw [if_neg hq, h.owner q, ho]; simp [Ne.symm hq]
    | _ => exact h
  | crash p =>
    simp only [Dirs.step]
    refine ⟨?_, ?_⟩
    · intro q
      show (if q = p then Phase.idle else w.phase q) = .inside ↔
        (if w.osLock = some p then none else w.osLock) = some q
      by_cases hq : q = p
      · subst hq
        by_cases ho : w.osLock = some q
        · simp [ho]
        · rw [if_neg ho]; simp [ho]
      · rw [if_neg hq, h.owner q]
        by_cases ho : w.osLock = some p
        · simp [ho, Ne.symm hq]
        · rw [if_neg ho]
    · intro q hq
      have hq' : (if w.osLock = some p then none else w.osLock) = some q := hq
      split at hq'
      · cases hq'
      · exact h.named q hq'

theorem WInv.run {w : World} (h : WInv w) (es : List Event) : WInv (run w es) := by
  induction es generalizing w with
  | nil => exact h
  | cons e es ih => exact ih (h.step e)

/-- **C35.** Whatever the processes do and whenever they crash, at most one of them is past the
constructor and has not destroyed its lock object, and the lock file is there and names it: no
other process, in particular none that believes the lock file to be stale, has removed it. -/
theorem C35_exclusive (file : Option Nat) (es : List Event) (p q : Nat)
    (hp : (run (fresh file) es).phase p = .inside) :
    (run (fresh file) es).file = some p ∧
    ((run (fresh file) es).phase q = .inside → q = p) := by
  have h : WInv (run (fresh file) es) :=
    WInv.run ⟨fun p => by simp [fresh], fun p hp => by simp [fresh] at hp⟩ es
  have ho := (h.owner p).mp hp
  refine ⟨h.named p ho, fun hq => ?_⟩
  have := (h.owner q).mp hq
  rw [ho] at this; cases this; rfl

/-- Process 1 crashes inside; 2 and 3 both find the left-over file, both think the owner's process
id has been reused; 2 removes the file and gets in, 3 then fails to remove the new one. -/
example :
    let w := run (fresh none) [.start 1, .tryLock 1 false, .crash 1, .start 2, .start 3,
      .tryLock 2 false, .tryLock 3 false, .inspect 2 (some false) false, .inspect 3 (some false) false,
      .removeStale 2, .tryLock 2 false, .removeStale 3, .tryLock 3 false]
    w.phase 1 = .idle ∧ w.phase 2 = .inside ∧ w.phase 3 = .failed 1 ∧ w.file = some 2 := by
  decide

end Verif.Dirs
