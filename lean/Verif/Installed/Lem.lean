import Verif.Installed.Model
import Verif.Install.Props
import Verif.PathProbe.Props

/-! # Components of joined paths -/

namespace Verif.Installed

open Verif.Path Verif.Path.Spec Verif.Install
open Verif.PathProbe (joinPaths joinSlash unique splitOn comps Clean C130_join splitOn_unique)

theorem splitOn_ne (s : Str) : splitOn '/' s ≠ [] := by
  cases s with
  | nil => simp [splitOn]
  | cons c s =>
    rw [splitOn]
    split
    · simp
    · split <;> simp

theorem split_splitOn (cur s : Str) : split cur s = (match splitOn '/' s with
    | [] => [cur]
    | w :: ws => (cur ++ w) :: ws) := by
  induction s generalizing cur with
  | nil => simp [split, splitOn]
  | cons c s ih =>
    rw [split, splitOn]
    by_cases h : c = '/'
    · rw [if_pos h, if_pos h, ih]
      cases hs : splitOn '/' s with
      | nil => exact absurd hs (splitOn_ne s)
      | cons w ws => simp
    · rw [if_neg h, if_neg h, ih]
      cases splitOn '/' s <;> simp

theorem components_comps (s : Str) : components s = comps s := by
  unfold components comps
  rw [split_splitOn]
  cases h : splitOn '/' s with
  | nil => exact absurd h (splitOn_ne s)
  | cons w ws =>
    simp only [List.nil_append]
    congr 1
    funext x
    cases x <;> simp

theorem components_join (ps : List Str) : components (joinPaths ps) = ps.flatMap components := by
  rw [components_comps, (C130_join ps).1]
  congr 1
  funext x
  exact (components_comps x).symm

/-! ## Paths are their components -/

theorem text_split (cur s : Str) : text (split cur s) = '/' :: cur ++ s := by
  induction s generalizing cur with
  | nil => simp [split, text]
  | cons c s ih =>
    rw [split]
    by_cases h : c = '/'
    · rw [if_pos h, text_cons, ih, h]
      simp
    · rw [if_neg h, ih]
      simp

theorem split_nonempty {cur s : Str} (h : cur = [] → s ≠ [] ∧ s.head? ≠ some '/') (hc : Clean s) (hl : s.getLast? ≠ some '/') :
    ∀ x ∈ split cur s, x ≠ [] := by
  induction s generalizing cur with
  | nil =>
    intro x hx
    simp only [split, List.mem_singleton] at hx
    subst hx
    exact fun e => (h e).1 rfl
  | cons c s ih =>
    have hc' : Clean s := fun a b e => hc (c :: a) b (by rw [e]; rfl)
    have hl' : s.getLast? ≠ some '/' := by
      cases s with
      | nil => simp
      | cons d s => rw [List.getLast?_cons_cons] at hl; exact hl
    rw [split]
    by_cases hs : c = '/'
    · rw [if_pos hs]
      intro x hx
      rcases List.mem_cons.mp hx with e | e
      · subst e
        exact fun e => (h e).2 (by simp [hs])
      · refine ih (cur := []) (fun _ => ⟨fun e => ?_, fun e => ?_⟩) hc' hl' x e
        · subst e; exact hl (by simp [hs])
        · cases s with
          | nil => cases e
          | cons d s =>
            have : d = '/' := by simpa using e
            exact hc [] s (by rw [hs, this]; rfl)
    · rw [if_neg hs]
      exact ih (by simp) hc' hl'

/-- A clean absolute path that does not end with a separator is the text of its components. -/
theorem text_components {s : Str} (ha : isAbsolute s = true) (hc : Clean s) (hl : s.getLast? ≠ some '/') : s = text (components s) := by
  cases s with
  | nil => cases ha
  | cons c s =>
    have h : c = '/' := by simpa [isAbsolute] using ha
    subst h
    have hs : s ≠ [] ∧ s.head? ≠ some '/' := by
      refine ⟨fun e => by subst e; exact hl rfl, fun e => ?_⟩
      cases s with
      | nil => cases e
      | cons d s =>
        have : d = '/' := by simpa using e
        exact hc [] s (by rw [this]; rfl)
    have hl' : s.getLast? ≠ some '/' := by
      cases s with
      | nil => exact absurd rfl hs.1
      | cons d s => rw [List.getLast?_cons_cons] at hl; exact hl
    have hn := split_nonempty (cur := []) (fun _ => hs) (fun a b e => hc ('/' :: a) b (by rw [e]; rfl)) hl'
    rw [components_slash, components, List.filter_eq_self.mpr (by simpa using hn), text_split]
    rfl

theorem unique_last (s : Str) : (unique s).getLast? = s.getLast? := by
  fun_induction unique s with
  | case1 => rfl
  | case2 => rfl
  | case3 c d s h ih => rw [ih, List.getLast?_cons_cons]
  | case4 c d s h ih =>
    have hne : unique (d :: s) ≠ [] := by
      intro e
      have := Verif.PathProbe.unique_head (d :: s)
      rw [e] at this
      cases this
    cases hu : unique (d :: s) with
    | nil => exact absurd hu hne
    | cons x y => rw [List.getLast?_cons_cons, ← hu, ih, List.getLast?_cons_cons]

theorem join_two {a b : Str} (ha : a ≠ []) (hb : b ≠ []) : joinPaths [a, b] = unique (a ++ '/' :: b) := by
  have : ([a, b] : List Str).filter (fun p => !p.isEmpty) = [a, b] := by simp [ha, hb]
  rw [joinPaths, this]
  rfl

theorem join_absolute {a : Str} {ps : List Str} (h : isAbsolute a = true) : isAbsolute (joinPaths (a :: ps)) = true := by
  cases a with
  | nil => cases h
  | cons c a =>
    have : ((c :: a) :: ps).filter (fun p => !p.isEmpty) = (c :: a) :: ps.filter (fun p => !p.isEmpty) := by simp
    rw [joinPaths, this]
    have hh : (joinSlash ((c :: a) :: ps.filter (fun p => !p.isEmpty))).head? = some c := by
      cases ps.filter (fun p => !p.isEmpty) <;> rfl
    have := Verif.PathProbe.unique_head (joinSlash ((c :: a) :: ps.filter (fun p => !p.isEmpty)))
    rw [hh] at this
    cases hu : unique (joinSlash ((c :: a) :: ps.filter (fun p => !p.isEmpty))) with
    | nil => rw [hu] at this; cases this
    | cons x y =>
      rw [hu] at this
      simp at this
      subst this
      simpa [isAbsolute] using h

/-- The joined path as text -/
theorem join_text {root pre dir rest : Str} (hr : isAbsolute root = true) (hne : rest ≠ []) (hl : rest.getLast? ≠ some '/') :
    joinPaths [joinPaths [root, pre, dir], rest] = text (components root ++ components pre ++ components dir ++ components rest) := by
  have h1 : isAbsolute (joinPaths [root, pre, dir]) = true := join_absolute hr
  have h2 : joinPaths [root, pre, dir] ≠ [] := fun e => by rw [e] at h1; cases h1
  have h3 : isAbsolute (joinPaths [joinPaths [root, pre, dir], rest]) = true := join_absolute h1
  have h4 : (joinPaths [joinPaths [root, pre, dir], rest]).getLast? ≠ some '/' := by
    rw [join_two h2 hne, unique_last, List.getLast?_append]
    cases rest with
    | nil => exact absurd rfl hne
    | cons c r =>
      rw [List.getLast?_cons_cons]
      cases hx : (c :: r).getLast? with
      | none => simp at hx
      | some x => rw [hx] at hl; simpa using hl
  rw [text_components h3 (C130_join _).2 h4, components_join]
  simp only [List.flatMap_cons, List.flatMap_nil, List.append_nil, components_join, List.append_assoc]

end Verif.Installed
