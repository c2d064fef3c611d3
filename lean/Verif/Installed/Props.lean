import Verif.Installed.Lem

/-! # C132: `ModUtils.artifactInstalledFilePath` agrees with the installer -/

namespace Verif.Installed

open Verif.Path Verif.Path.Spec Verif.Install
open Verif.PathProbe (joinPaths)

/-- The names of the file below the installation directory: its own name, or its path below the base directory, which is written
with or without a separator at its end. -/
inductive Below (a : Artifact) : List Str → Prop where
  | name (hb : a.base = []) (hf : IsName (fileName a.src)) : Below a [fileName a.src]
  | base (S B rest : List Str) (hS : ∀ n ∈ S, IsName n) (hs : a.sourceDir = absolute S)
      (hB : ∀ n ∈ B, IsName n) (hb : a.base = absolute B ∨ B ≠ [] ∧ a.base = absolute B ++ ['/'])
      (hr : ∀ n ∈ rest, IsName n) (hne : rest ≠ []) (hsrc : a.src = absolute (B ++ rest)) : Below a rest

theorem text_last {l : List Str} (h : ∀ n ∈ l, IsName n) (hne : l ≠ []) : (text l).getLast? ≠ some '/' := by
  have h1 := List.dropLast_concat_getLast hne
  have h2 := h _ (List.getLast_mem hne)
  rw [← h1, text_append, text_cons]
  generalize l.getLast hne = x at h2
  have : x.getLast? ≠ some '/' := fun e => h2.2.1 (List.mem_of_getLast? e)
  rw [List.getLast?_append]
  cases x with
  | nil => exact absurd rfl h2.1
  | cons c x =>
    rw [List.cons_append, List.getLast?_cons_cons, show text [] = [] from rfl, List.append_nil]
    cases hx : (c :: x).getLast? with
    | none => simp at hx
    | some y => rw [hx] at this; simpa using this

theorem drop_one_last {l : List Str} (h : ∀ n ∈ l, IsName n) (hne : l ≠ []) :
    ((text l).drop 1).getLast? ≠ some '/' ∧ (text l).drop 1 ≠ [] ∧ components ((text l).drop 1) = l := by
  cases l with
  | nil => exact absurd rfl hne
  | cons a l =>
    have h1 := text_last h hne
    have h2 := components_text (a :: l) h
    have ha := (h a (by simp)).1
    rw [text_cons] at h1 h2 ⊢
    rw [components_slash] at h2
    cases a with
    | nil => exact absurd rfl ha
    | cons c a =>
      rw [List.cons_append, List.getLast?_cons_cons] at h1
      exact ⟨h1, by simp, h2⟩

/-- What the function gives -/
theorem installed_text {R : List Str} {a : Artifact} {l : List Str} (hR : a.rootProperty = absolute R) (hn : ∀ n ∈ R, IsName n)
    (hl : Below a l) :
    installedFilePath a = some (text (R ++ components a.pre ++ components a.dir ++ l)) := by
  have hroot : components a.rootProperty = R := by
    rw [hR]; exact components_absolute R (fun n h => seg_of_name (hn n h))
  have habs : isAbsolute a.rootProperty = true := by rw [hR]; exact absolute_isAbsolute R
  have key : ∀ r : Str, components r = l → r ≠ [] → r.getLast? ≠ some '/' →
      joinPaths [joinPaths [a.rootProperty, a.pre, a.dir], r] = text (R ++ components a.pre ++ components a.dir ++ l) := by
    intro r h1 h2 h3
    rw [join_text habs h2 h3, hroot, h1]
  unfold installedFilePath
  cases hl with
  | name hb hf =>
    simp only [hb, ne_eq, not_true_eq_false, if_false]
    rw [key _ (components_name hf.2.1 hf.1) hf.1 (fun e => hf.2.1 (List.mem_of_getLast? e))]
  | base S B rest hS hs hB hb hr hne hsrc =>
    have hbne : a.base ≠ [] := by
      rcases hb with hb | ⟨_, hb⟩
      · rw [hb]; exact absolute_ne_nil B
      · rw [hb]; simp
    have hba : isAbsolute a.base = true := by
      rcases hb with hb | ⟨_, hb⟩
      · rw [hb]; exact absolute_isAbsolute B
      · rw [hb]; exact isAbsolute_append (absolute_isAbsolute B)
    obtain ⟨d1, d2, d3⟩ := drop_one_last hr hne
    have hsplit : ∃ r : Str, a.src = a.base ++ r ∧ components r = l ∧ r ≠ [] ∧ r.getLast? ≠ some '/' := by
      have ht : text l = '/' :: (text l).drop 1 := by
        cases l with
        | nil => exact absurd rfl hne
        | cons x l => rw [text_cons]; rfl
      by_cases hB0 : B = []
      · subst hB0
        have hb' : a.base = ['/'] := by
          rcases hb with hb | ⟨h, _⟩
          · rw [hb]; rfl
          · exact absurd rfl h
        refine ⟨(text l).drop 1, ?_, d3, d2, d1⟩
        rw [hsrc, hb', List.nil_append, absolute_ne hne]
        exact ht
      · have hs' : a.src = text B ++ text l := by
          rw [hsrc, absolute_ne (by simp [hne]), text_append]
        rcases hb with hb | ⟨_, hb⟩
        · refine ⟨text l, by rw [hs', hb, absolute_ne hB0], components_text l hr, ?_, text_last hr hne⟩
          rw [ht]; simp
        · refine ⟨(text l).drop 1, ?_, d3, d2, d1⟩
          rw [hs', hb, absolute_ne hB0, List.append_assoc]
          conv => lhs; rw [ht]
          rfl
    obtain ⟨r, e1, e2, e3, e4⟩ := hsplit
    have hpre : a.base.isPrefixOf a.src = true := by
      rw [List.isPrefixOf_iff_prefix, e1]; exact List.prefix_append _ _
    simp only [hbne, ne_eq, not_false_eq_true, if_true, hba, hpre, Bool.not_true, Bool.false_eq_true, if_false]
    rw [e1, List.drop_left, key r e2 e3 e4]

theorem cleanPath_slash {B : List Str} (hB : ∀ n ∈ B, IsName n) : cleanPath (absolute B ++ ['/']) = absolute B := by
  unfold cleanPath
  rw [if_neg (by simp), if_pos (isAbsolute_append (absolute_isAbsolute B))]
  unfold cleanSegs
  rw [components_append, components_absolute B (fun n hn => seg_of_name (hB n hn)), show components [] = [] from rfl, List.append_nil,
    clean_names B [] hB, List.nil_append]

/-- What the installer does -/
theorem target_place {home t : Str} {R : List Str} {a : Artifact} {l : List Str} (hn : ∀ n ∈ R, IsName n) (hl : Below a l)
    (ht : targetFilePath home (absolute R) a = .ok t) :
    place t = walk R (components a.pre ++ components a.dir) ++ l ∧
    ∃ r : Str, components r = l ∧
      t = cleanPath (cleanPath (absolute R ++ '/' :: a.pre ++ '/' :: a.dir) ++ '/' :: r) := by
  cases hl with
  | name hb hf =>
    refine ⟨(C30_inside_partial hn hb hf ht).1, fileName a.src, components_name hf.2.1 hf.1, ?_⟩
    unfold targetFilePath at ht
    simp only [if_neg (absolute_ne_nil R)] at ht
    rw [if_pos hb] at ht
    split at ht
    · cases ht
    · injection ht with ht; exact ht.symm
  | base S B rest hS hs hB hb hr hne hsrc =>
    have hbne : a.base ≠ [] := by
      rcases hb with hb | ⟨_, hb⟩
      · rw [hb]; exact absolute_ne_nil B
      · rw [hb]; simp
    have hclean : cleanPath a.base = absolute B := by
      rcases hb with hb | ⟨_, hb⟩
      · rw [hb, cleanPath_absolute hB]
      · rw [hb, cleanPath_slash hB]
    have hres : resolvePath home (cleanPath a.sourceDir) (cleanPath a.base) = some (absolute B) := by
      rw [hs, cleanPath_absolute hS, hclean]
      exact C06_resolve_absolute home _ _ (absolute_isAbsolute S) (absolute_isAbsolute B)
    obtain ⟨t', h1, h2⟩ := C30_source_base hn hbne hB hr hne hres hsrc
    rw [h1] at ht
    injection ht with ht
    subst ht
    refine ⟨h2, (text l).drop 1, (drop_one_last hr hne).2.2, ?_⟩
    unfold targetFilePath at h1
    simp only [if_neg (absolute_ne_nil R)] at h1
    rw [if_neg hbne, hres] at h1
    simp only at h1
    split at h1
    · cases h1
    · injection h1 with h1
      rw [← h1, hsrc, drop_base hB hne]

theorem place_text' (l : List Str) (h : ∀ n ∈ l, n ≠ [] ∧ '/' ∉ n) : place (text l) = walk [] l := by
  unfold place
  rw [components_text' l h]

theorem below_names {a : Artifact} {l : List Str} (h : Below a l) : (∀ n ∈ l, IsName n) ∧ l ≠ [] := by
  cases h with
  | name hb hf => exact ⟨by simpa using hf, by simp⟩
  | base S B rest hS hs hB hb hr hne hsrc => exact ⟨hr, hne⟩

/-- **C132.** If the installer puts the file at `t`, and the install root is the one of the project, the function gives a path of
the same place. The base directory, if there is one, has to be an absolute clean path, and the file has to be below it; see the
findings for what happens otherwise. -/
theorem C132_same_place_partial {home t : Str} {R : List Str} {a : Artifact} {l : List Str} (hR : a.rootProperty = absolute R)
    (hn : ∀ n ∈ R, IsName n) (hl : Below a l) (ht : targetFilePath home (absolute R) a = .ok t) :
    ∃ s, installedFilePath a = some s ∧ isAbsolute s = true ∧ place s = place t := by
  refine ⟨_, installed_text hR hn hl, ?_, ?_⟩
  · obtain ⟨_, hne⟩ := below_names hl
    cases hq : R ++ components a.pre ++ components a.dir ++ l with
    | nil => simp [hne] at hq
    | cons x y => rw [text_cons]; rfl
  · rw [(target_place hn hl ht).1, place_text']
    · rw [walk_append, List.append_assoc, walk_append, walk_names [] R hn, List.nil_append, walk_names _ l (below_names hl).1]
    · intro n h
      simp only [List.mem_append] at h
      rcases h with ((h | h) | h) | h
      · exact seg_of_name (hn n h)
      · exact components_seg _ n h
      · exact components_seg _ n h
      · exact seg_of_name ((below_names hl).1 n h)

/-- **C132.** The paths are also the same text, so that scripts can compare them, if neither the prefix nor the directory has `.` or
`..` in it. -/
theorem C132_same_text_partial {home t : Str} {R : List Str} {a : Artifact} {l : List Str} (hR : a.rootProperty = absolute R)
    (hn : ∀ n ∈ R, IsName n) (hl : Below a l) (hp : ∀ n ∈ components a.pre, IsName n) (hd : ∀ n ∈ components a.dir, IsName n)
    (ht : targetFilePath home (absolute R) a = .ok t) :
    installedFilePath a = some t := by
  obtain ⟨hln, hlne⟩ := below_names hl
  have hall : ∀ n ∈ R ++ components a.pre ++ components a.dir, IsName n := by
    intro n h
    simp only [List.mem_append] at h
    rcases h with (h | h) | h
    · exact hn n h
    · exact hp n h
    · exact hd n h
  have hclean : ∀ (d : List Str) (s : Str), isAbsolute s = true → components s = d → (∀ n ∈ d, IsName n) → cleanPath s = absolute d := by
    intro d s h1 h2 h3
    have hs : s ≠ [] := fun e => by rw [e] at h1; cases h1
    unfold cleanPath
    rw [if_neg hs, if_pos h1]
    unfold cleanSegs
    rw [h2, clean_names d [] h3, List.nil_append]
  obtain ⟨_, r, hr, e⟩ := target_place hn hl ht
  have c1 : cleanPath (absolute R ++ '/' :: a.pre ++ '/' :: a.dir) = absolute (R ++ components a.pre ++ components a.dir) := by
    refine hclean _ _ (isAbsolute_append (isAbsolute_append (absolute_isAbsolute R))) ?_ hall
    rw [components_append, components_append, components_absolute R (fun n h => seg_of_name (hn n h))]
  have c2 : t = absolute (R ++ components a.pre ++ components a.dir ++ l) := by
    rw [e, c1]
    refine hclean _ _ (isAbsolute_append (absolute_isAbsolute _)) ?_ ?_
    · rw [components_append, components_absolute _ (fun n h => seg_of_name (hall n h)), hr]
    · intro n h
      rcases List.mem_append.mp h with h | h
      · exact hall n h
      · exact hln n h
  rw [installed_text hR hn hl, c2, absolute_ne (by simp [hlne])]

end Verif.Installed
