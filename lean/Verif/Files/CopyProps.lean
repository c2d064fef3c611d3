import Verif.Files.CopyLem
/-!
# Copying and moving files (C64, C65)
-/
namespace Verif.Files

variable {e : Env}

theorem copy_copied (he : Lists e) {src tgt : Path} (ha : Apart src tgt) {s : St} (hw : WF s.fs)
    (hl : ∀ q t, get s.fs (tgt ++ q) ≠ some (.link t)) : Copied e src tgt s (copy e src tgt s).1 (copy e src tgt s).2 :=
  copyRec_copied he _ src tgt s ha (d := depth s.fs + 1) ⟨hw, fun _ hq => Nat.lt_succ_of_le (depth_bound hq), hl⟩ (by omega)

/-- If copying succeeds, everything has arrived, except for empty directories and what is newer in the target. What else there
    is in the target is left alone. -/
theorem C64_copied_partial (he : Lists e) {src tgt : Path} (ha : Apart src tgt) {s : St} (hw : WF s.fs)
    (hl : ∀ q t, get s.fs (tgt ++ q) ≠ some (.link t)) (h : (copy e src tgt s).1 = true) (q : Path) :
    Arrived s.fs (copy e src tgt s).2.fs (src ++ q) (tgt ++ q) :=
  (copy_copied he ha hw hl).arrived h q

/-- If there was nothing at the target, it is a copy of the source: all files and links are there, and all directories that are
    not empty, and nothing else. -/
theorem C64_exact_partial (he : Lists e) {src tgt : Path} (ha : Apart src tgt) {s : St} (hw : WF s.fs) (ht : get s.fs tgt = none)
    (h : (copy e src tgt s).1 = true) (q : Path) :
    (∀ c w t, get s.fs (src ++ q) = some (.file c w t) → ∃ t', get (copy e src tgt s).2.fs (tgt ++ q) = some (.file c w t')) ∧
    (∀ t, get s.fs (src ++ q) = some (.link t) → get (copy e src tgt s).2.fs (tgt ++ q) = some (.link t)) ∧
    (∀ n, get s.fs (src ++ q ++ [n]) ≠ none → IsDir (get (copy e src tgt s).2.fs (tgt ++ q))) ∧
    (get s.fs (src ++ q) = none → get (copy e src tgt s).2.fs (tgt ++ q) = none) := by
  have hb : ∀ r, get s.fs (tgt ++ r) = none := fun r => hw.below ht ⟨r, rfl⟩
  have ha' := C64_copied_partial he ha hw (fun q t => by rw [hb]; simp) h q
  unfold Arrived at ha'
  refine ⟨fun c w t hg => ?_, fun t hg => ?_, fun n hn => ?_, fun hg => ?_⟩
  · rw [hg] at ha'
    rcases ha' with h | ⟨_, h⟩
    · exact h
    · rw [hb] at h; cases h
  · rw [hg] at ha'; exact ha'
  · obtain ⟨w, t, hd⟩ := hw.parents _ n hn
    rw [hd] at ha'
    exact ha'.1 ⟨n, hn⟩
  · rw [hg] at ha'
    dsimp only at ha'
    rw [ha', hb]

/-- Whether it succeeds or not: the source is as it was. -/
theorem C64_source_kept (he : Lists e) {src tgt : Path} (ha : Apart src tgt) {s : St} (hw : WF s.fs)
    (hl : ∀ q t, get s.fs (tgt ++ q) ≠ some (.link t)) (q : Path) : get (copy e src tgt s).2.fs (src ++ q) = get s.fs (src ++ q) :=
  source_same ha (copy_copied he ha hw hl).outside q

/-- Whether it succeeds or not: outside of the target, nothing is changed, except that directories for it may have been created.
    In the target, nothing is changed that has no counterpart in the source. Files are still in directories. -/
theorem C64_others_kept (he : Lists e) {src tgt : Path} (ha : Apart src tgt) {s : St} (hw : WF s.fs)
    (hl : ∀ q t, get s.fs (tgt ++ q) ≠ some (.link t)) :
    (∀ q, ¬ tgt <+: q → get (copy e src tgt s).2.fs q = get s.fs q ∨
      (q <+: tgt ∧ get s.fs q = none ∧ IsDir (get (copy e src tgt s).2.fs q))) ∧
    (∀ q, get s.fs (src ++ q) = none → get (copy e src tgt s).2.fs (tgt ++ q) = get s.fs (tgt ++ q)) ∧
    WF (copy e src tgt s).2.fs := by
  have h := copy_copied he ha hw hl
  exact ⟨h.outside, fun q hq => Decidable.byContradiction (fun hc => h.touched q hc hq), h.wf⟩

/-- It succeeds if nothing is refused, the source exists, and no file is in the way of a directory or the other way round. -/
theorem C64_succeeds (he : Lists e) {src tgt : Path} (ha : Apart src tgt) {s : St} (hw : WF s.fs)
    (hl : ∀ q t, get s.fs (tgt ++ q) ≠ some (.link t)) (ho : ∀ n o, e.ok n o = true) (hc : Compatible s.fs src tgt)
    (hs : get s.fs src ≠ none) : (copy e src tgt s).1 = true :=
  (copy_copied he ha hw hl).succeeds ho hc hs

/-! ## Moving -/

theorem rename_cases (src tgt : Path) (s : St) :
    ((rename e src tgt s).1 = true ∧ e.ok s.step (.rename src tgt) = true ∧ get s.fs tgt = none ∧ IsDir (get s.fs tgt.dropLast) ∧
      ∃ n, get s.fs src = some n ∧ (rename e src tgt s).2.fs = put (del s.fs src) tgt n) ∨
    ((rename e src tgt s).1 = false ∧ (rename e src tgt s).2.fs = s.fs ∧
      (get s.fs src ≠ none → get s.fs tgt = none → IsDir (get s.fs tgt.dropLast) → e.ok s.step (.rename src tgt) = false)) := by
  unfold rename
  split
  · rename_i n w t h1 h2 h3
    split
    · rename_i ho; exact .inl ⟨rfl, ho, h2, ⟨w, t, h3⟩, n, h1, rfl⟩
    · rename_i ho; exact .inr ⟨rfl, rfl, fun _ _ _ => by simpa using ho⟩
  · rename_i hn
    refine .inr ⟨rfl, rfl, fun h1 h2 ⟨w, t, h3⟩ => ?_⟩
    cases hg : get s.fs src with
    | none => exact absurd hg h1
    | some n => exact absurd h3 (hn n w t hg h2)

theorem isDir_of {fs : FS} {p : Path} (h : IsDir (get fs p)) : isDir e fs p = true := by
  obtain ⟨w, t, h⟩ := h
  unfold isDir
  rw [follow_self h (by simp)]
  simp [h]

/-- If moving succeeds, the target is what the source was, the source is gone, and nothing else has changed. -/
theorem C65_moved {src tgt : Path} {overwrite : Bool} {s : St} (hw : WF s.fs) (h : (move e src tgt overwrite s).1 = true) :
    (∃ n, get s.fs src = some n ∧ get (move e src tgt overwrite s).2.fs tgt = some n ∧ ¬ IsDir (some n)) ∧ src ≠ tgt ∧
    get (move e src tgt overwrite s).2.fs src = none ∧
    (∀ q, q ≠ src → q ≠ tgt → get (move e src tgt overwrite s).2.fs q = get s.fs q) ∧
    (overwrite = false → get s.fs tgt = none) ∧ WF (move e src tgt overwrite s).2.fs := by
  unfold move at h ⊢
  split at h
  · simp at h
  · rename_i hsd
    rw [if_neg hsd]
    split at h
    · simp at h
    · rename_i htd
      rw [if_neg htd]
      dsimp only at h ⊢
      have hr : ∃ r, (if overwrite = true ∧ exists? e s.fs tgt = true then unlink e tgt s else (true, s)) = r ∧
          OnlyAt tgt s r.2 ∧ WF r.2.fs ∧ (overwrite = false → r.2 = s) ∧ (get r.2.fs tgt = none ∨ get r.2.fs tgt = get s.fs tgt) := by
        refine ⟨_, rfl, ?_⟩
        split
        · rename_i hc
          refine ⟨unlink_only _ _, unlink_wf hw, fun h => by rw [h] at hc; simp at hc, ?_⟩
          rcases unlink_cases (e := e) tgt s with ⟨_, hs, _⟩ | ⟨_, hs, _⟩
          · rw [hs]; exact .inl (by simp [get_del])
          · rw [hs]; exact .inr rfl
        · exact ⟨OnlyAt.refl _ _, hw, fun _ => rfl, .inr rfl⟩
      obtain ⟨r, hr0, hr1, hr2, hr3, hr4⟩ := hr
      rw [hr0] at h ⊢
      split at h
      · rename_i hb
        rw [hb] at h
        simp at h
      · rename_i hb
        rw [if_neg hb]
        split at h
        · simp at h
        · rename_i hx
          rw [if_neg hx]
          rcases rename_cases (e := e) src tgt r.2 with ⟨_, _, hn, hp, n, hg, hf⟩ | ⟨hb2, _⟩
          · have hst : src ≠ tgt := by
              rintro rfl
              rw [hn] at hg
              simp at hg
            have hg0 : get s.fs src = some n := by rw [← hr1 _ hst, hg]
            have hnd : ¬ IsDir (some n) := fun hd => hsd (isDir_of (by rw [hg0]; exact hd))
            have hts : tgt ≠ src := fun h => hst h.symm
            refine ⟨⟨n, hg0, by rw [hf, get_put, if_pos rfl], hnd⟩, hst, by rw [hf, get_put, if_neg hst, get_del, if_pos rfl],
              fun q h1 h2 => by rw [hf, get_put, if_neg h2, get_del, if_neg h1, hr1 q h2], fun ho => ?_, ?_⟩
            · rw [← hr3 ho]; exact hn
            · rw [hf]
              refine put_wf (del_wf hr2 ?_ (hr2.leaf (fun w t hd => ?_))) (by rw [get_del, if_neg hts]; exact hn) ?_ n
              · rintro rfl
                obtain ⟨w, t, hroot⟩ := hr2.root
                rw [hg] at hroot
                simp only [Option.some.injEq] at hroot
                exact hnd ⟨w, t, by rw [hroot]⟩
              · rw [hg] at hd
                simp only [Option.some.injEq] at hd
                exact hnd ⟨w, t, by rw [hd]⟩
              · rw [get_del, if_neg]
                · exact hp
                · intro he
                  rw [he, hg] at hp
                  exact hnd hp
          · rw [hb2] at h; simp at h

/-- If it fails and there was nothing at the target, or if nothing is to be overwritten, nothing has changed. -/
theorem C65_failed_partial {src tgt : Path} {overwrite : Bool} {s : St} (hn : overwrite = false ∨ get s.fs tgt = none)
    (h : (move e src tgt overwrite s).1 = false) : (move e src tgt overwrite s).2.fs = s.fs := by
  have hc : ¬ (overwrite = true ∧ exists? e s.fs tgt = true) := by
    rintro ⟨h1, h2⟩
    rcases hn with hn | hn
    · rw [hn] at h1; simp at h1
    · unfold exists? at h2
      rw [follow_none hn] at h2
      simp at h2
  unfold move at h ⊢
  rw [if_neg hc] at *
  split
  · rfl
  · split
    · rfl
    · dsimp only at h ⊢
      rw [if_neg (by simp)]
      split
      · rfl
      · rename_i h1 h2 h3
        rw [if_neg h1, if_neg h2, if_neg (by simp), if_neg h3] at h
        rcases rename_cases (e := e) src tgt s with ⟨hb, _⟩ | ⟨_, hf, _⟩
        · rw [hb] at h; simp at h
        · exact hf

/-- A file can be moved to another place, if there is a directory for it, if nothing is refused, and if files may be overwritten
    or there is none. -/
theorem C65_succeeds {src tgt : Path} {overwrite : Bool} {s : St} (ho : ∀ n o, e.ok n o = true) (hst : src ≠ tgt)
    {c : Nat} {w : Bool} {t : Nat} (hs : get s.fs src = some (.file c w t)) (hp : IsDir (get s.fs tgt.dropLast)) (hne : tgt ≠ [])
    (ht : get s.fs tgt = none ∨ overwrite = true ∧ ∃ c w t, get s.fs tgt = some (.file c w t)) :
    (move e src tgt overwrite s).1 = true := by
  unfold move
  have h1 : isDir e s.fs src = false := by
    unfold isDir
    rw [follow_self hs (by simp)]
    simp [hs]
  have h2 : isDir e s.fs tgt = false := by
    unfold isDir
    rcases ht with ht | ⟨_, c, w, t, ht⟩
    · rw [follow_none ht]; rfl
    · rw [follow_self ht (by simp)]
      simp [ht]
  rw [if_neg (by simp [h1]), if_neg (by simp [h2])]
  dsimp only
  have hr : ∃ r, (if overwrite = true ∧ exists? e s.fs tgt = true then unlink e tgt s else (true, s)) = r ∧ r.1 = true ∧
      OnlyAt tgt s r.2 ∧ get r.2.fs tgt = none := by
    refine ⟨_, rfl, ?_⟩
    split
    · rename_i hc
      rcases ht with ht | ⟨_, c, w, t, ht⟩
      · unfold exists? at hc
        rw [follow_none ht] at hc
        simp at hc
      · rcases unlink_cases (e := e) tgt s with ⟨hb, hs, _⟩ | ⟨_, _, hr⟩
        · exact ⟨hb, unlink_only _ _, by rw [hs]; simp [get_del]⟩
        · have := hr ⟨_, ht, by simp⟩
          rw [ho] at this
          simp at this
    · rename_i hc
      refine ⟨rfl, OnlyAt.refl _ _, ?_⟩
      rcases ht with ht | ⟨h, c, w, t, ht⟩
      · exact ht
      · exact absurd ⟨h, (exists_iff (by rw [ht]; simp)).mpr (by rw [ht]; simp)⟩ hc
  obtain ⟨r, hr0, hr1, hr2, hr3⟩ := hr
  rw [hr0, if_neg (by simp [hr1])]
  have hx : ¬ exists? e r.2.fs tgt = true := by
    unfold exists?
    rw [follow_none hr3]
    simp
  rw [if_neg hx]
  rcases rename_cases (e := e) src tgt r.2 with ⟨hb, _⟩ | ⟨_, _, hf⟩
  · exact hb
  · have := hf (by rw [hr2 _ hst, hs]; simp) hr3 (by rw [hr2 _ (dropLast_ne hne)]; exact hp)
    rw [ho] at this
    simp at this

end Verif.Files
