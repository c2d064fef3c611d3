import Verif.Install.Model
import Verif.Path.Props
/-!
# Where targets are
-/
namespace Verif.Install

open Verif.Path Verif.Path.Spec

/-- A segment: not empty and without a slash. -/
def Seg (n : Str) : Prop := n ≠ [] ∧ '/' ∉ n

theorem components_seg (s : Str) : ∀ n ∈ components s, Seg n := by
  intro n hn
  unfold components at hn
  obtain ⟨h1, h2⟩ := List.mem_filter.mp hn
  refine ⟨by simpa using h2, ?_⟩
  have key : ∀ (s cur : Str), '/' ∉ cur → ∀ n ∈ split cur s, '/' ∉ n := by
    intro s
    induction s with
    | nil =>
      intro cur hc n hn
      rw [List.mem_singleton.mp hn]
      exact hc
    | cons c cs ih =>
      intro cur hc n hn
      simp only [split] at hn
      split at hn
      · rcases List.mem_cons.mp hn with rfl | hn
        · exact hc
        · exact ih [] (by simp) n hn
      · rename_i hne
        refine ih (cur ++ [c]) ?_ n hn
        simp only [List.mem_append, List.mem_singleton, not_or]
        exact ⟨hc, fun h => hne h.symm⟩
  exact key s [] (by simp) n h1

theorem components_text' (d : List Str) (h : ∀ n ∈ d, Seg n) : components (text d) = d := by
  induction d using Verif.snoc_induction with
  | nil => rfl
  | append_singleton d n ih =>
    have hn := h n (by simp)
    rw [text_snoc, components_append, ih (fun m hm => h m (by simp [hm])), components_name hn.2 hn.1]

theorem components_absolute (d : List Str) (h : ∀ n ∈ d, Seg n) : components (absolute d) = d := by
  unfold absolute
  split
  · rename_i hd; subst hd; rfl
  · exact components_text' d h

def up : Str := ['.', '.']

/-- Some `..` and then names: what cleaning leaves. -/
theorem foldl_shape : ∀ (cs : List Str) (k : Nat) (names : List Str), (∀ n ∈ cs, Seg n) →
    (∀ n ∈ names, IsName n) →
    (∀ n ∈ walk names cs, IsName n) ∧
    ∃ k', k ≤ k' ∧ cs.foldl stepClean (List.replicate k up ++ names) = List.replicate k' up ++ walk names cs ∧
      (up ∉ cs → k' = k)
  | [], k, names, _, hn => ⟨hn, k, Nat.le_refl k, rfl, fun _ => rfl⟩
  | c :: cs, k, names, hc, hn => by
    have hcs : ∀ n ∈ cs, Seg n := fun n h => hc n (by simp [h])
    have hcc := hc c (by simp)
    rw [List.foldl_cons]
    have hw : walk names (c :: cs) = walk (step names c) cs := rfl
    rw [hw]
    by_cases h1 : c = ['.']
    · have e1 : stepClean (List.replicate k up ++ names) c = List.replicate k up ++ names := by
        unfold stepClean; rw [if_pos h1]
      have e2 : step names c = names := by unfold step; rw [if_pos h1]
      rw [e1, e2]
      obtain ⟨i1, k', i2, i3, i4⟩ := foldl_shape cs k names hcs hn
      exact ⟨i1, k', i2, i3, fun h => i4 (fun h' => h (by simp [h']))⟩
    · by_cases h2 : c = ['.', '.']
      · have e2 : step names c = names.dropLast := by unfold step; rw [if_neg h1, if_pos h2]
        rw [e2]
        by_cases h3 : names = []
        · subst h3
          have e1 : stepClean (List.replicate k up ++ []) c = List.replicate (k + 1) up ++ [] := by
            unfold stepClean
            rw [if_neg h1, if_pos h2, if_pos]
            · rw [h2, List.replicate_succ']; simp [up]
            · cases k with
              | zero => exact Or.inl rfl
              | succ k =>
                right
                rw [List.append_nil, List.replicate_succ', List.getLast?_append]
                rfl
          rw [e1]
          obtain ⟨i1, k', i2, i3, i4⟩ := foldl_shape cs (k + 1) [] hcs (by simp)
          refine ⟨i1, k', by omega, i3, fun h => absurd ?_ h⟩
          rw [h2]; simp [up]
        · have e1 : stepClean (List.replicate k up ++ names) c = List.replicate k up ++ names.dropLast := by
            unfold stepClean
            rw [if_neg h1, if_pos h2, if_neg]
            · rw [List.dropLast_append_of_ne_nil h3]
            · rintro (h | h)
              · exact h3 (List.append_eq_nil_iff.mp h).2
              · rw [List.getLast?_append, List.getLast?_eq_some_getLast h3] at h
                simp only [Option.some_or, Option.some.injEq] at h
                exact (hn _ (List.getLast_mem h3)).2.2.2 h
          rw [e1]
          obtain ⟨i1, k', i2, i3, i4⟩ := foldl_shape cs k names.dropLast hcs
            (fun n h => hn n (List.dropLast_subset names h))
          refine ⟨i1, k', i2, i3, fun h => absurd ?_ h⟩
          rw [h2]; simp [up]
      · have e1 : stepClean (List.replicate k up ++ names) c = List.replicate k up ++ (names ++ [c]) := by
          unfold stepClean; rw [if_neg h1, if_neg h2, List.append_assoc]
        have e2 : step names c = names ++ [c] := by unfold step; rw [if_neg h1, if_neg h2]
        rw [e1, e2]
        obtain ⟨i1, k', i2, i3, i4⟩ := foldl_shape cs k (names ++ [c]) hcs (by
          intro n h
          rcases List.mem_append.mp h with h | h
          · exact hn n h
          · rw [List.mem_singleton.mp h]; exact ⟨hcc.1, hcc.2, h1, h2⟩)
        exact ⟨i1, k', i2, i3, fun h => i4 (fun h' => h (by simp [h']))⟩

theorem place_names (s : Str) : ∀ n ∈ place s, IsName n :=
  (foldl_shape (components s) 0 [] (components_seg s) (by simp)).1

theorem cleanSegs_shape (s : Str) : ∃ k, cleanSegs s = List.replicate k up ++ place s ∧
    (up ∉ components s → k = 0) := by
  obtain ⟨_, k, _, h, h'⟩ := foldl_shape (components s) 0 [] (components_seg s) (by simp)
  exact ⟨k, h, h'⟩

theorem seg_of_name {n : Str} (h : IsName n) : Seg n := ⟨h.1, h.2.1⟩

theorem shape_seg {k : Nat} {names : List Str} (h : ∀ n ∈ names, IsName n) :
    ∀ n ∈ List.replicate k up ++ names, Seg n := by
  intro n hn
  rcases List.mem_append.mp hn with hn | hn
  · rw [(List.mem_replicate.mp hn).2]; exact ⟨by decide, by decide⟩
  · exact seg_of_name (h n hn)

theorem walk_up : ∀ (k : Nat), walk [] (List.replicate k up) = []
  | 0 => rfl
  | k + 1 => by
    rw [List.replicate_succ, show walk [] (up :: List.replicate k up) = walk (step [] up) (List.replicate k up)
      from rfl]
    exact walk_up k

/-- Cleaning does not change the place. -/
theorem place_cleanPath {s : Str} (h : isAbsolute s = true) :
    place (cleanPath s) = place s ∧ isAbsolute (cleanPath s) = true := by
  have hne : s ≠ [] := by intro h'; rw [h'] at h; cases h
  unfold cleanPath
  rw [if_neg hne, if_pos h]
  refine ⟨?_, absolute_isAbsolute _⟩
  obtain ⟨k, hk, _⟩ := cleanSegs_shape s
  rw [hk]
  show walk [] (components (absolute (List.replicate k up ++ place s))) = place s
  rw [components_absolute _ (shape_seg (place_names s)), walk_append, walk_up, walk_names _ _ (place_names s)]
  rfl

theorem isAbsolute_append {s t : Str} (h : isAbsolute s = true) : isAbsolute (s ++ t) = true := by
  cases s with
  | nil => cases h
  | cons c s => exact h

theorem place_append (a b : Str) : place (a ++ '/' :: b) = walk (place a) (components b) := by
  unfold place
  rw [components_append, walk_append]

theorem place_absolute {d : List Str} (h : ∀ n ∈ d, IsName n) : place (absolute d) = d := by
  unfold place
  rw [components_absolute d (fun n hn => seg_of_name (h n hn)), walk_names _ _ h]
  rfl

/-- The directory a path is installed to: from the root, down the prefix and the directory. -/
def targetPlace (root : List Str) (a : Artifact) : List Str :=
  walk root (components a.pre ++ components a.dir)

theorem targetDir_place {root : List Str} (hr : ∀ n ∈ root, IsName n) (a : Artifact) :
    place (cleanPath (absolute root ++ '/' :: a.pre ++ '/' :: a.dir)) = targetPlace root a ∧
    isAbsolute (cleanPath (absolute root ++ '/' :: a.pre ++ '/' :: a.dir)) = true := by
  have habs : isAbsolute (absolute root ++ '/' :: a.pre ++ '/' :: a.dir) = true :=
    isAbsolute_append (isAbsolute_append (absolute_isAbsolute root))
  obtain ⟨h1, h2⟩ := place_cleanPath habs
  refine ⟨?_, h2⟩
  rw [h1, place_append, place_append, place_absolute hr]
  unfold targetPlace
  rw [walk_append]

/-- Comparison of paths as strings: inside, or in a directory whose name only begins like the last one. -/
theorem text_prefix : ∀ (r w : List Str), (∀ n ∈ r, Seg n) → (∀ n ∈ w, Seg n) → text r <+: text w →
    r <+: w ∨ ∃ x rest, x ≠ [] ∧ r ≠ [] ∧ w = r.dropLast ++ (r.getLastD [] ++ x) :: rest
  | [], w, _, _, _ => Or.inl (List.nil_prefix)
  | r :: rs, [], hr, _, h => by
    have := h.length_le
    simp [text] at this
  | r :: rs, w :: ws, hr, hw, h => by
    have hr1 := hr r (by simp)
    have hw1 := hw w (by simp)
    have ht : ∀ (a : Str) (l : List Str), text (a :: l) = '/' :: (a ++ text l) := by
      intro a l; simp [text]
    rw [ht, ht, List.cons_prefix_cons] at h
    have h := h.2
    -- the first names
    have cmp : ∀ (a b : Str) (x y : Str), '/' ∉ a → '/' ∉ b → (x = [] ∨ ∃ x', x = '/' :: x') →
        (y = [] ∨ ∃ y', y = '/' :: y') → a ++ x <+: b ++ y →
        (a = b ∧ x <+: y) ∨ (x = [] ∧ ∃ z, z ≠ [] ∧ b = a ++ z) := by
      intro a
      induction a with
      | nil =>
        intro b x y _ hb hx hy hp
        cases b with
        | nil => exact Or.inl ⟨rfl, hp⟩
        | cons c b =>
          rcases hx with rfl | ⟨x', rfl⟩
          · exact Or.inr ⟨rfl, c :: b, by simp, by simp⟩
          · simp only [List.nil_append, List.cons_append, List.cons_prefix_cons] at hp
            exact absurd (by rw [← hp.1]; simp) hb
      | cons c a ih =>
        intro b x y ha hb hx hy hp
        cases b with
        | nil =>
          rcases hy with rfl | ⟨y', rfl⟩
          · have := hp.length_le
            simp at this
          · simp only [List.nil_append, List.cons_append, List.cons_prefix_cons] at hp
            exact absurd (by rw [hp.1]; simp) ha
        | cons d b =>
          simp only [List.cons_append, List.cons_prefix_cons] at hp
          simp only [List.mem_cons, not_or] at ha hb
          rcases ih b x y ha.2 hb.2 hx hy hp.2 with ⟨h1, h2⟩ | ⟨h1, z, h2, h3⟩
          · exact Or.inl ⟨by rw [hp.1, h1], h2⟩
          · exact Or.inr ⟨h1, z, h2, by rw [hp.1, h3]; rfl⟩
    have hform : ∀ l : List Str, text l = [] ∨ ∃ x', text l = '/' :: x' := by
      intro l
      cases l with
      | nil => exact Or.inl rfl
      | cons a l => exact Or.inr ⟨_, ht a l⟩
    rcases cmp r w (text rs) (text ws) hr1.2 hw1.2 (hform rs) (hform ws) h with ⟨h1, h2⟩ | ⟨h1, z, h2, h3⟩
    · subst h1
      rcases text_prefix rs ws (fun n hn => hr n (by simp [hn])) (fun n hn => hw n (by simp [hn])) h2 with
        h | ⟨x, rest, h1, h2, h3⟩
      · exact Or.inl ((List.prefix_cons_inj r).mpr h)
      · refine Or.inr ⟨x, rest, h1, by simp, ?_⟩
        rw [h3, List.dropLast_cons_of_ne_nil h2]
        cases rs with
        | nil => exact absurd rfl h2
        | cons a rs => rfl
    · have hrs : rs = [] := by
        cases rs with
        | nil => rfl
        | cons a rs => rw [ht] at h1; cases h1
      subst hrs
      exact Or.inr ⟨z, ws, h2, by simp, by simp [h3]⟩

end Verif.Install
