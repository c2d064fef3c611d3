import Verif.Saver.Model

/-! # C13: what a reader of the target file sees -/

namespace Verif.Saver

theorem writes_target {fs : FS} {new : Bytes} {n : Nat} : ∀ s ∈ writes fs new n, s.target = fs.target := by
  induction n with
  | zero => intro s hs; simp [writes] at hs; rw [hs]
  | succ n ih =>
    intro s hs
    simp only [writes, List.mem_append, List.mem_singleton] at hs
    rcases hs with hs | rfl
    · exact ih s hs
    · rfl

theorem writes_ne (fs : FS) (new : Bytes) (n : Nat) : writes fs new n ≠ [] := by
  cases n <;> simp [writes]

theorem writes_last (fs : FS) (new : Bytes) (n : Nat) :
    (writes fs new n).getLast? = some { fs with temp := some (new.take n) } := by
  cases n <;> simp [writes]

/-- C13.  Unless `rename` refuses to replace an existing file, the target has at every moment,
whatever fails, either its old or the complete new contents.  (`_partial`: with such a `rename`, see
`C13_eexist_not_atomic`.) -/
theorem C13_old_or_new_partial (overwrite : Bool) (fs : FS) (new : Bytes) (e : Env)
    (hr : e.rename1 ≠ .eexist) :
    ∀ s ∈ fs :: (save overwrite fs new e).1, s.target = fs.target ∨ s.target = some new := by
  intro s hs
  simp only [List.mem_cons] at hs
  rcases hs with rfl | hs
  · exact Or.inl rfl
  unfold save at hs
  split at hs
  · simp at hs
  · split at hs
    · simp at hs
    · simp only at hs
      split at hs
      · exact Or.inl (writes_target s hs)
      · split at hs
        · simp only [List.mem_append, List.mem_singleton] at hs
          rcases hs with hs | rfl
          · exact Or.inl (writes_target s hs)
          · exact Or.inr rfl
        · exact Or.inl (writes_target s hs)
        · rename_i h; exact absurd h hr

/-- C13, for all environments: the target never has partial contents; in the worst case it is
missing, and then the new contents are complete in the temporary file. -/
theorem C13_never_partial (overwrite : Bool) (fs : FS) (new : Bytes) (e : Env) :
    ∀ s ∈ fs :: (save overwrite fs new e).1,
      s.target = fs.target ∨ s.target = some new ∨ (s.target = none ∧ s.temp = some new) := by
  intro s hs
  by_cases hr : e.rename1 = .eexist
  · simp only [List.mem_cons] at hs
    rcases hs with rfl | hs
    · exact Or.inl rfl
    unfold save at hs
    split at hs
    · simp at hs
    · split at hs
      · simp at hs
      · simp only [hr] at hs
        split at hs
        · exact Or.inl (writes_target s hs)
        · split at hs
          · exact Or.inl (writes_target s hs)
          · split at hs
            · simp only [List.append_assoc, List.mem_append, List.mem_singleton] at hs
              rcases hs with hs | rfl | rfl
              · exact Or.inl (writes_target s hs)
              · exact Or.inr (Or.inr ⟨rfl, rfl⟩)
              · exact Or.inr (Or.inl rfl)
            · simp only [List.mem_append, List.mem_singleton] at hs
              rcases hs with hs | rfl
              · exact Or.inl (writes_target s hs)
              · exact Or.inr (Or.inr ⟨rfl, rfl⟩)
  · rcases C13_old_or_new_partial overwrite fs new e hr s hs with h | h
    · exact Or.inl h
    · exact Or.inr (Or.inl h)

/-- C13.  After a successful `commit` the target has the new contents.  (`_partial`: not if the new
contents are empty and the file did not exist or could not be read, see `C13_empty_file_not_created`.) -/
theorem C13_success_partial (overwrite : Bool) (fs : FS) (new : Bytes) (e : Env)
    (hn : overwrite = true ∨ new ≠ [] ∨ (fs.target.isSome ∧ e.readable = true))
    (h : (save overwrite fs new e).2 = true) :
    (final overwrite fs new e).target = some new := by
  unfold final
  unfold save at h ⊢
  by_cases h1 : overwrite = false ∧ oldContents fs e = new
  · rw [if_pos h1]
    simp only [List.getLast?_nil, Option.getD_none]
    obtain ⟨ho, h1⟩ := h1
    unfold oldContents at h1
    cases ht : fs.target with
    | none =>
      rw [ht] at h1 hn
      simp only at h1
      rcases hn with hn | hn | hn
      · rw [ho] at hn; cases hn
      · exact absurd h1.symm hn
      · simp at hn
    | some c =>
      rw [ht] at h1 hn
      cases hr : e.readable with
      | true => simp [hr] at h1; rw [h1]
      | false =>
        simp [hr] at h1 hn
        rcases hn with hn | hn
        · rw [ho] at hn; cases hn
        · exact absurd h1.symm (by simpa using hn)
  · rw [if_neg h1] at h ⊢
    by_cases h2 : e.openTemp = false
    · rw [if_pos h2] at h; simp at h
    · rw [if_neg h2] at h ⊢
      simp only at h ⊢
      by_cases h3 : min e.accepted new.length < new.length ∨ e.close = false
      · rw [if_pos h3] at h; simp at h
      · rw [if_neg h3] at h ⊢
        cases hr : e.rename1 with
        | ok => simp
        | other => simp [hr] at h
        | eexist =>
          simp only [hr] at h ⊢
          by_cases h4 : e.unlink = false
          · rw [if_pos h4] at h; simp at h
          · rw [if_neg h4] at h ⊢
            by_cases h5 : e.rename2 = true
            · rw [if_pos h5]; simp
            · rw [if_neg h5] at h; simp at h

/-- C13.  A file which already has the new contents is left alone, and so is its directory. -/
theorem C13_unchanged_not_written (fs : FS) (new : Bytes) (e : Env) (hr : e.readable = true)
    (h : fs.target = some new) : save false fs new e = ([], true) := by
  unfold save
  rw [if_pos ⟨rfl, by simp [oldContents, h, hr]⟩]

/-- C13.  If `commit` reports failure, the target has its old contents, or it is missing and the new
contents are in the temporary file. -/
theorem C13_failure (overwrite : Bool) (fs : FS) (new : Bytes) (e : Env)
    (h : (save overwrite fs new e).2 = false) :
    (final overwrite fs new e).target = fs.target ∨
      (e.rename1 = .eexist ∧ final overwrite fs new e = ⟨none, some new⟩) := by
  unfold final
  unfold save at h ⊢
  have hl : ∀ n, (((writes fs new n).getLast?).getD fs).target = fs.target := by
    intro n; rw [writes_last]; rfl
  by_cases h1 : overwrite = false ∧ oldContents fs e = new
  · rw [if_pos h1] at h; simp at h
  · rw [if_neg h1] at h ⊢
    by_cases h2 : e.openTemp = false
    · rw [if_pos h2]; exact Or.inl rfl
    · rw [if_neg h2] at h ⊢
      simp only at h ⊢
      by_cases h3 : min e.accepted new.length < new.length ∨ e.close = false
      · rw [if_pos h3]; exact Or.inl (hl _)
      · rw [if_neg h3] at h ⊢
        cases hr : e.rename1 with
        | ok => simp [hr] at h
        | other => exact Or.inl (hl _)
        | eexist =>
          simp only [hr] at h ⊢
          by_cases h4 : e.unlink = false
          · rw [if_pos h4]; exact Or.inl (hl _)
          · rw [if_neg h4] at h ⊢
            by_cases h5 : e.rename2 = true
            · rw [if_pos h5] at h; simp at h
            · rw [if_neg h5]; right; simp

/-- Nothing fails. -/
def fine : Env := ⟨true, true, 1000, true, .ok, true, true⟩

/-- A saved file, all states it goes through. -/
example : save false ⟨some [1], none⟩ [7, 8] fine =
    ([⟨some [1], some []⟩, ⟨some [1], some [7]⟩, ⟨some [1], some [7, 8]⟩, ⟨some [7, 8], none⟩], true) := by
  decide

/-- The disk is full after one byte. -/
example : save false ⟨some [1], none⟩ [7, 8] { fine with accepted := 1 } =
    ([⟨some [1], some []⟩, ⟨some [1], some [7]⟩], false) := by decide

/-- Finding: on systems whose `rename` does not replace files (Windows, where `rename` fails with
`EEXIST`) the old file is deleted first (filesaver.cpp:104-108); a crash before the second `rename`
leaves no target file. -/
theorem C13_eexist_not_atomic :
    (⟨none, some [7]⟩ : FS) ∈ (save false ⟨some [1], none⟩ [7] { fine with rename1 := .eexist }).1 := by
  decide

/-- Finding: saving empty contents to a new file reports success without creating it, because a
missing file counts as an empty one (filesaver.cpp:69-70, 89-90). -/
theorem C13_empty_file_not_created :
    save false ⟨none, none⟩ [] fine = ([], true) := by decide

end Verif.Saver
