import Verif.Files.RemoveProps
import Verif.Files.CopyProps
/-!
# Examples and findings for removing, copying and moving files (C63, C64, C65)
-/
namespace Verif.Files

/-- Names are listed in the order in which they are found, links lead to what is in the root directory, nothing is refused. -/
def world : Env :=
  { order := fun l => l, place := fun _ t => [t], maxLinks := 40, ok := fun _ _ => true, now := fun _ => 100 }

theorem world_lists : Lists world := fun l => List.Perm.refl l

/-- Files that are in directories, as can be checked. -/
def wellFormed (fs : FS) : Bool :=
  (match get fs [] with | some (.dir _ _) => true | _ => false) &&
  fs.all (fun e => e.1 = [] || match get fs e.1.dropLast with | some (.dir _ _) => true | _ => false)

theorem wf_of {fs : FS} (h : wellFormed fs = true) : WF fs := by
  unfold wellFormed at h
  rw [Bool.and_eq_true, List.all_eq_true] at h
  constructor
  · have := h.1
    split at this
    · rename_i w t hr; exact ⟨w, t, hr⟩
    · simp at this
  · intro p n hn
    cases hg : get fs (p ++ [n]) with
    | none => exact absurd hg hn
    | some m =>
      have := h.2 _ (mem_of_get hg)
      simp only [List.dropLast_concat, Bool.or_eq_true, decide_eq_true_eq] at this
      rcases this with h0 | h0
      · simp at h0
      · split at h0
        · rename_i w t hr; exact ⟨w, t, hr⟩
        · simp at h0

/-- `/a` with a file, a link to the file `/x`, and a directory with a file; `/e` is empty; `/x` may not be written. -/
def files : FS :=
  [([], .dir true 0), (["a"], .dir true 1), (["a", "f"], .file 1 true 10), (["a", "l"], .link "x"), (["a", "d"], .dir true 2),
   (["a", "d", "g"], .file 2 false 20), (["e"], .dir true 3), (["x"], .file 3 false 5)]

def before : St := ⟨files, 0, []⟩
theorem files_wf : WF before.fs := wf_of (by decide +kernel)

deriving instance DecidableEq for St

/-! ## Removing -/

example : (remove world ["a"] before).1 = true ∧ get (remove world ["a"] before).2.fs ["a", "d", "g"] = none :=
  ⟨C63_succeeds world_lists (by simp) files_wf (fun _ _ _ => ⟨rfl, rfl⟩),
    (C63_removed world_lists (by simp) files_wf).2 (C63_succeeds world_lists (by simp) files_wf (fun _ _ _ => ⟨rfl, rfl⟩)) _
      ⟨["d", "g"], rfl⟩⟩

/-- A file that cannot be removed: it is reported, and its directories are as well. -/
def refusing : Env := { world with ok := fun _ o => decide (o ≠ .unlink ["a", "d", "g"]) }

example : (remove refusing ["a"] before).1 = false ∧
    (remove refusing ["a"] before).2.errors = [["a", "d", "g"], ["a", "d"], ["a"]] ∧
    get (remove refusing ["a"] before).2.fs ["a", "f"] = none ∧
    get (remove refusing ["a"] before).2.fs ["a", "d", "g"] = some (.file 2 true 20) := by decide +kernel

/-- Of `C63_others_kept`: there are no links in `/e` -/
example : get (remove world ["e"] before).2.fs ["x"] = get files ["x"] := by
  refine C63_others_kept world_lists (by simp) files_wf ?_ ["x"] (by decide)
  intro l q hl hle
  obtain ⟨r, rfl⟩ := hl
  cases r with
  | nil =>
    cases hle with
    | here => exact ⟨[], rfl⟩
    | link h =>
      have hd : get before.fs (["e"] ++ []) = some (.dir true 3) := by decide
      rw [hd] at h
      simp at h
  | cons n r =>
    have h1 : get before.fs (["e"] ++ [n]) = none := by
      have : names before.fs ["e"] = [] := by decide +kernel
      exact names_nil.mp this n
    have h2 : get before.fs (["e"] ++ n :: r) = none := files_wf.below h1 ⟨r, by simp⟩
    exact absurd h2 hle.source

/-- Of `C63_directory` -/
example : (removeDirectory world ["x"] before).1 = false ∧ (removeDirectory world ["x"] before).2.fs = files :=
  (C63_directory world_lists (by simp) files_wf).1 ⟨3, false, 5, by decide⟩

/-- **C63 finding.** Removing a link makes the file writable that it leads to, outside of the directory that is removed. -/
theorem C63_link_makes_writable : get files ["x"] = some (.file 3 false 5) ∧ (remove world ["a"] before).1 = true ∧
    get (remove world ["a"] before).2.fs ["x"] = some (.file 3 true 5) := by decide +kernel

/-- **C63 finding.** If the install root is a link to a directory, only the link is removed, and what was installed is kept, although
    removing the existing installation was asked for and succeeds. -/
theorem C63_install_root_is_link :
    let fs : FS := [([], .dir true 0), (["root"], .link "data"), (["data"], .dir true 1), (["data", "f"], .file 1 true 10)]
    (removeDirectory world ["root"] ⟨fs, 0, []⟩).1 = true ∧
    get (removeDirectory world ["root"] ⟨fs, 0, []⟩).2.fs ["data", "f"] = some (.file 1 true 10) := by decide +kernel

/-! ## Copying -/

theorem no_links {fs : FS} (hw : WF fs) {p : Path} (h : get fs p = none) (q : Path) (t : String) :
    get fs (p ++ q) ≠ some (.link t) := by
  rw [hw.below h ⟨q, rfl⟩]; simp

/-- `/a` is copied to `/new/b` -/
example : (copy world ["a"] ["new", "b"] before).1 = true :=
  C64_succeeds world_lists (by unfold Apart; decide) files_wf (no_links files_wf (by decide)) (fun _ _ => rfl)
    ⟨fun q hq hne => by
      obtain ⟨r, hr⟩ := hq
      match q, r, hr with
      | [], _, _ => exact .inr ⟨true, 0, rfl⟩
      | [a], r, h =>
        simp only [List.cons_append, List.nil_append, List.cons.injEq] at h
        rw [h.1]
        exact .inl (by decide)
      | a :: b :: q, r, h =>
        exfalso
        apply hne
        simp only [List.cons_append, List.cons.injEq, List.append_eq_nil_iff] at h
        rw [h.1, h.2.1, h.2.2.1],
    fun q _ _ => by rw [files_wf.below (p := ["new", "b"]) (by decide) ⟨q, rfl⟩]; simp [IsDir],
    fun q _ => .inl (files_wf.below (by decide) ⟨q, rfl⟩)⟩ (by decide)

example : get (copy world ["a"] ["new", "b"] before).2.fs ["new", "b", "d", "g"] = some (.file 2 false 100) ∧
    get (copy world ["a"] ["new", "b"] before).2.fs ["new", "b", "l"] = some (.link "x") := by decide +kernel

/-- **C64 finding.** An empty directory is not copied, and there is no error. -/
theorem C64_empty_directory : (copy world ["e"] ["b"] before).1 = true ∧ get (copy world ["e"] ["b"] before).2.fs ["b"] = none := by
  decide +kernel

/-- **C64 finding.** Copying a file that does not exist succeeds if there is a file already at the target, and the documented error
    is not thrown. -/
theorem C64_missing_source : get files ["nothing"] = none ∧ (copy world ["nothing"] ["x"] before).1 = true ∧
    (copy world ["nothing"] ["x"] before).2.fs = files := by decide +kernel

/-- **C64 finding.** Copying a file to where there is a directory succeeds if the directory is newer, and nothing is copied. -/
theorem C64_directory_in_the_way :
    let fs : FS := [([], .dir true 0), (["f"], .file 1 true 10), (["d"], .dir true 20)]
    (copy world ["f"] ["d"] ⟨fs, 0, []⟩).1 = true ∧ (copy world ["f"] ["d"] ⟨fs, 0, []⟩).2.fs = fs := by decide +kernel

/-- **C64 finding.** Replacing a link makes the file writable that it leads to. -/
theorem C64_link_makes_writable :
    let fs : FS := [([], .dir true 0), (["f"], .file 1 true 10), (["l"], .link "x"), (["x"], .file 3 false 5)]
    get fs ["x"] = some (.file 3 false 5) ∧ (copy world ["f"] ["l"] ⟨fs, 0, []⟩).1 = true ∧
    get (copy world ["f"] ["l"] ⟨fs, 0, []⟩).2.fs ["x"] = some (.file 3 true 5) := by decide +kernel

/-! ## Moving -/

example : (move world ["a", "f"] ["x"] true before).1 = true :=
  C65_succeeds (fun _ _ => rfl) (by decide) (c := 1) (w := true) (t := 10) (by decide) ⟨true, 0, by decide⟩ (by decide)
    (.inr ⟨rfl, 3, false, 5, by decide⟩)

example : get (move world ["a", "f"] ["x"] true before).2.fs ["x"] = some (.file 1 true 10) := by decide +kernel

example : (move world ["a", "f"] ["x"] false before).2.fs = files := C65_failed_partial (.inl rfl) (by decide +kernel)

/-- **C65 finding.** Moving a file to itself deletes it. -/
theorem C65_same_path : (move world ["x"] ["x"] true before).1 = false ∧ get files ["x"] = some (.file 3 false 5) ∧
    get (move world ["x"] ["x"] true before).2.fs ["x"] = none := by decide +kernel

/-- **C65 finding.** If the source does not exist, the target is deleted before the error is noticed. -/
theorem C65_missing_source : get files ["nothing"] = none ∧ (move world ["nothing"] ["x"] true before).1 = false ∧
    get (move world ["nothing"] ["x"] true before).2.fs ["x"] = none := by decide +kernel

/-- **C65 finding.** If renaming is refused, the old target is lost. -/
theorem C65_refused :
    let e : Env := { world with ok := fun _ o => decide (o ≠ .rename ["a", "f"] ["x"]) }
    (move e ["a", "f"] ["x"] true before).1 = false ∧ get (move e ["a", "f"] ["x"] true before).2.fs ["x"] = none := by decide +kernel

end Verif.Files
