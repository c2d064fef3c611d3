/-!
# A small file system

Paths are lists of names, deepest first; `[]` is the root. Used for C35 and C48.
-/
namespace Verif.Dirs

abbrev Path := List String

structure FS where
  dirs : List Path
  files : List Path
deriving DecidableEq, Repr

def FS.exists (fs : FS) (p : Path) : Bool := fs.dirs.contains p || fs.files.contains p

/-- `p` is directly inside `d`. -/
def isChild (d p : Path) : Bool :=
  match p with
  | [] => false
  | _ :: r => r == d

/-- Qt does not list entries whose name begins with a dot unless told to (`QDir::Hidden`). -/
def visible (p : Path) : Bool :=
  match p with
  | [] => true
  | n :: _ => n.toList.head? != some '.'

def FS.entries (fs : FS) (d : Path) : List Path := (fs.dirs ++ fs.files).filter (isChild d)

def FS.hasEntry (fs : FS) (d : Path) : Bool := !(fs.entries d).isEmpty

/-- What the directory listing shows. -/
def FS.hasVisibleEntry (fs : FS) (d : Path) : Bool := !((fs.entries d).filter visible).isEmpty

/-- The system call: refuses what is not a directory or not empty; `denied` stands for all other
reasons. -/
def FS.rmdir (fs : FS) (denied : Path → Bool) (d : Path) : Option FS :=
  if fs.dirs.contains d && !fs.hasEntry d && !denied d then
    some { fs with dirs := fs.dirs.filter (· != d) }
  else none

/-- Every entry is in a directory. -/
def FS.WF (fs : FS) : Prop :=
  (∀ n p, (n :: p) ∈ fs.dirs ∨ (n :: p) ∈ fs.files → p ∈ fs.dirs) ∧ [] ∈ fs.dirs

theorem FS.hasEntry_iff (fs : FS) (d : Path) :
    fs.hasEntry d = true ↔ ∃ n, (n :: d) ∈ fs.dirs ∨ (n :: d) ∈ fs.files := by
  unfold hasEntry entries
  simp only [Bool.not_eq_true', List.isEmpty_eq_false_iff, ne_eq, List.filter_eq_nil_iff,
    List.mem_append]
  constructor
  · intro h
    simp only [Classical.not_forall, Decidable.not_not] at h
    obtain ⟨p, hp, hc⟩ := h
    cases p with
    | nil => simp [isChild] at hc
    | cons n r =>
      simp [isChild] at hc
      subst hc
      exact ⟨n, hp⟩
  · rintro ⟨n, hn⟩ h
    exact h _ hn (by simp [isChild])

theorem FS.rmdir_some {fs fs' : FS} {denied : Path → Bool} {d : Path}
    (h : fs.rmdir denied d = some fs') :
    d ∈ fs.dirs ∧ fs.hasEntry d = false ∧ denied d = false ∧ fs'.files = fs.files ∧
    ∀ p, p ∈ fs'.dirs ↔ p ∈ fs.dirs ∧ p ≠ d := by
  unfold rmdir at h
  split at h
  · rename_i hc
    simp at hc
    cases h
    refine ⟨hc.1.1, hc.1.2, hc.2, rfl, ?_⟩
    intro p; simp
  · cases h

theorem FS.rmdir_none {fs : FS} {denied : Path → Bool} {d : Path}
    (h : fs.rmdir denied d = none) :
    d ∉ fs.dirs ∨ fs.hasEntry d = true ∨ denied d = true := by
  unfold rmdir at h
  split at h
  · cases h
  · rename_i hc
    simp at hc
    by_cases h1 : d ∈ fs.dirs
    · by_cases h2 : fs.hasEntry d = true
      · exact Or.inr (Or.inl h2)
      · exact Or.inr (Or.inr (hc h1 (by simpa using h2)))
    · exact Or.inl h1

theorem FS.rmdir_WF {fs fs' : FS} {denied : Path → Bool} {d : Path} (hw : fs.WF)
    (h : fs.rmdir denied d = some fs') (hd : d ≠ []) : fs'.WF := by
  obtain ⟨h1, h2, h3, h4, h5⟩ := FS.rmdir_some h
  refine ⟨?_, (h5 []).mpr ⟨hw.2, Ne.symm hd⟩⟩
  intro n p hp
  have hp' : (n :: p) ∈ fs.dirs ∨ (n :: p) ∈ fs.files := by
    rcases hp with hp | hp
    · exact Or.inl ((h5 _).mp hp).1
    · rw [h4] at hp; exact Or.inr hp
  refine (h5 p).mpr ⟨hw.1 n p hp', ?_⟩
  rintro rfl
  have := (FS.hasEntry_iff fs p).mpr ⟨n, hp'⟩
  rw [h2] at this; cases this

/-- `a` is `d` or lies below it. -/
def Below (d a : Path) : Prop := d <:+ a

end Verif.Dirs
