import Verif.Path.Model
import Verif.Path.Spec
import Verif.Common.Snoc

/-
C06: path decomposition and resolution.
-/

namespace Verif.Path

open Spec

/-! ### Searching -/

theorem indexOf_none {c : Char} {s : Str} : indexOf c s = none ↔ c ∉ s := by
  induction s with
  | nil => simp [indexOf]
  | cons x xs ih =>
    simp only [indexOf]
    split
    · rename_i h; simp [h]
    · rename_i h; simp [ih, Ne.symm h]

theorem indexOf_some {c : Char} {s : Str} {i : Nat} (h : indexOf c s = some i) :
    s = s.take i ++ c :: s.drop (i + 1) ∧ c ∉ s.take i := by
  induction s generalizing i with
  | nil => simp [indexOf] at h
  | cons x xs ih =>
    simp only [indexOf] at h
    split at h
    · rename_i hx; subst hx; simp only [Option.some.injEq] at h; subst h; simp
    · rename_i hx
      rcases ho : indexOf c xs with _ | j
      · simp [ho] at h
      · simp only [ho, Option.map_some, Option.some.injEq] at h
        subst h
        obtain ⟨h1, h2⟩ := ih ho
        refine ⟨?_, by simp [h2, Ne.symm hx]⟩
        simp only [List.take_succ_cons, List.drop_succ_cons, List.cons_append]
        rw [← h1]

theorem lastIndexOf_none {c : Char} {s : Str} : lastIndexOf c s = none ↔ c ∉ s := by
  induction s with
  | nil => simp [lastIndexOf]
  | cons x xs ih =>
    simp only [lastIndexOf]
    split
    · rename_i i hi
      have : ¬ c ∉ xs := by rw [← ih, hi]; simp
      simp at this; simp [this]
    · rename_i hn
      rw [ih] at hn
      split
      · rename_i h; simp [h]
      · rename_i h; simp [hn, Ne.symm h]

theorem lastIndexOf_some {c : Char} {s : Str} {i : Nat} (h : lastIndexOf c s = some i) :
    s = s.take i ++ c :: s.drop (i + 1) ∧ c ∉ s.drop (i + 1) := by
  induction s generalizing i with
  | nil => simp [lastIndexOf] at h
  | cons x xs ih =>
    simp only [lastIndexOf] at h
    split at h
    · rename_i j hj
      simp only [Option.some.injEq] at h; subst h
      obtain ⟨h1, h2⟩ := ih hj
      refine ⟨?_, by simpa using h2⟩
      simp only [List.take_succ_cons, List.drop_succ_cons, List.cons_append]
      rw [← h1]
    · rename_i hn
      split at h
      · rename_i hx; simp only [Option.some.injEq] at h; subst h; subst hx
        simpa using lastIndexOf_none.mp hn
      · simp at h

/-- The decomposition at the last occurrence is unique. -/
theorem lastIndexOf_append {c : Char} (a b : Str) (hb : c ∉ b) :
    lastIndexOf c (a ++ c :: b) = some a.length := by
  induction a with
  | nil => simp [lastIndexOf, lastIndexOf_none.mpr hb]
  | cons x a ih => simp [lastIndexOf, ih]

/-! ### Decomposition -/

/-- Directory part and file name recompose the path, and the file name has no slash. -/
theorem C06_split_recomposes (fp : Str) :
    let (d, n) := splitIntoDirectoryAndFileName fp
    '/' ∉ n ∧ n = fileName fp ∧
    (('/' ∈ fp → fp = d ++ '/' :: n) ∧ ('/' ∉ fp → d = [] ∧ n = fp)) := by
  unfold splitIntoDirectoryAndFileName fileName
  split
  rename_i d n h
  rcases ho : lastIndexOf '/' fp with _ | i
  · rw [ho] at h
    simp only [Prod.mk.injEq] at h
    obtain ⟨rfl, rfl⟩ := h
    have := lastIndexOf_none.mp ho
    exact ⟨this, rfl, fun h => absurd h this, fun _ => ⟨rfl, rfl⟩⟩
  · rw [ho] at h
    simp only [Prod.mk.injEq] at h
    obtain ⟨rfl, rfl⟩ := h
    obtain ⟨h1, h2⟩ := lastIndexOf_some ho
    exact ⟨h2, rfl, fun _ => h1, fun hn => absurd (by rw [h1]; simp) hn⟩

/-- base name and suffix, in the short and the complete form, decompose the file name if it has a
    dot. -/
theorem C06_base_and_suffix_partial (fp : Str) (h : '.' ∈ fileName fp) :
    (fileName fp = baseName fp ++ '.' :: completeSuffix fp ∧ '.' ∉ baseName fp) ∧
    (fileName fp = completeBaseName fp ++ '.' :: suffix fp ∧ '.' ∉ suffix fp) := by
  constructor
  · unfold baseName completeSuffix
    rcases ho : indexOf '.' (fileName fp) with _ | i
    · exact absurd h (indexOf_none.mp ho)
    · simp only [ho]; exact indexOf_some ho
  · unfold completeBaseName suffix
    rcases ho : lastIndexOf '.' (fileName fp) with _ | i
    · exact absurd h (lastIndexOf_none.mp ho)
    · simp only [ho]; exact lastIndexOf_some ho

/-- A file name without a dot: it is the base name, but both suffix functions return it as well
    (instead of nothing). -/
theorem C06_suffix_without_dot (fp : Str) (h : '.' ∉ fileName fp) :
    baseName fp = fileName fp ∧ completeBaseName fp = fileName fp ∧
    suffix fp = fileName fp ∧ completeSuffix fp = fileName fp := by
  unfold baseName completeBaseName suffix completeSuffix
  simp only [indexOf_none.mpr h, lastIndexOf_none.mpr h, and_self]

/-- `path` and `fileName` of a file in a directory with a clean absolute name. -/
theorem C06_path_of_file (cleanPath : Str → Str) (dir : List Str) (n : Str) (hn : '/' ∉ n)
    (hd : ∀ m ∈ dir, IsName m)
    (hc : ∀ d : List Str, (∀ m ∈ d, IsName m) → d ≠ [] → cleanPath (absolute d) = absolute d)
    (h0 : cleanPath [] = []) :
    path cleanPath ((dir.map ('/' :: ·)).flatten ++ '/' :: n) = absolute dir ∧
    fileName ((dir.map ('/' :: ·)).flatten ++ '/' :: n) = n := by
  have hi := lastIndexOf_append ((dir.map ('/' :: ·)).flatten) n hn
  constructor
  · unfold path
    rw [if_neg (by simp), hi]
    simp only [List.take_left]
    by_cases he : dir = []
    · subst he; simp [absolute, h0]
    · have : (dir.map ('/' :: ·)).flatten = absolute dir := by simp [absolute, he]
      rw [this, hc dir hd he, if_neg]
      rw [absolute, if_neg he]
      cases dir with
      | nil => exact absurd rfl he
      | cons a as => simp
  · unfold fileName
    rw [hi]
    simp only
    rw [show ((dir.map ('/' :: ·)).flatten ++ '/' :: n) =
      ((dir.map ('/' :: ·)).flatten ++ ['/']) ++ n by simp, List.drop_left' (by simp)]

/-! ### Resolution -/

theorem split_append (a b cur : Str) : split cur (a ++ '/' :: b) = split cur a ++ split [] b := by
  induction a generalizing cur with
  | nil => simp [split]
  | cons c cs ih =>
    simp only [List.cons_append, split]
    split
    · simp [ih]
    · exact ih _

theorem components_append (a b : Str) :
    components (a ++ '/' :: b) = components a ++ components b := by
  simp [components, split_append]

theorem components_name {n : Str} (h : '/' ∉ n) (hn : n ≠ []) : components n = [n] := by
  have : ∀ cur, split cur n = [cur ++ n] := by
    clear hn
    induction n with
    | nil => intro cur; simp [split]
    | cons c cs ih =>
      intro cur
      simp only [List.mem_cons, not_or] at h
      rw [split, if_neg (Ne.symm h.1), ih h.2]; simp
  simp [components, this, hn]

theorem components_slash (s : Str) : components ('/' :: s) = components s := by
  simp [components, split]

theorem walk_append (d a b : List Str) : walk d (a ++ b) = walk (walk d a) b := by
  simp [walk]

/-- The text of a place without the slash of the root. -/
def text (dir : List Str) : Str := (dir.map ('/' :: ·)).flatten

theorem text_snoc (d : List Str) (n : Str) : text (d ++ [n]) = text d ++ '/' :: n := by
  simp [text]

theorem walk_names (d cs : List Str) (h : ∀ n ∈ cs, IsName n) : walk d cs = d ++ cs := by
  induction cs generalizing d with
  | nil => simp [walk]
  | cons c cs ih =>
    have hc := h c (by simp)
    have := ih (d ++ [c]) (fun n hn => h n (by simp [hn]))
    simp only [walk, List.foldl_cons, step] at this ⊢
    rw [if_neg hc.2.2.1, if_neg hc.2.2.2, this]; simp

theorem components_text (d : List Str) (h : ∀ n ∈ d, IsName n) : components (text d) = d := by
  induction d using Verif.snoc_induction with
  | nil => rfl
  | append_singleton d n ih =>
    have hn := h n (by simp)
    rw [text_snoc, components_append, ih (fun m hm => h m (by simp [hm])),
      components_name hn.2.1 hn.1]

theorem place_text (d : List Str) (h : ∀ n ∈ d, IsName n) : place (text d) = d := by
  rw [place, components_text d h, walk_names _ _ h]; rfl

theorem goUp_text (d : List Str) (h : ∀ n ∈ d, IsName n) : goUp (text d) = text d.dropLast := by
  induction d using Verif.snoc_induction with
  | nil => rfl
  | append_singleton d n _ =>
    rw [goUp, text_snoc, lastIndexOf_append _ _ (h n (by simp)).2.1]
    simp

theorem names_dropLast {d : List Str} (h : ∀ n ∈ d, IsName n) : ∀ n ∈ d.dropLast, IsName n :=
  fun n hn => h n ((List.dropLast_sublist d).subset hn)

/-- The loop: the result denotes the place reached, and is either absolute or empty. -/
theorem resolveLoop_place (s r : Str) (d : List Str) (hr : r = text d) (h : ∀ n ∈ d, IsName n) :
    place (resolveLoop r s) = walk d (components s) ∧
    (isAbsolute (resolveLoop r s) = true ∨ resolveLoop r s = []) := by
  have habs : ∀ d, isAbsolute (text d) = true ∨ text d = [] := by
    intro d; cases d with
    | nil => exact .inr rfl
    | cons a as => exact .inl rfl
  fun_induction resolveLoop r s generalizing d with
  | case1 r s ih =>
    subst hr
    have := ih d.dropLast (goUp_text d h) (names_dropLast h)
    refine ⟨?_, this.2⟩
    rw [this.1]
    have : components ('.' :: '.' :: '/' :: s) = [['.', '.']] ++ components s :=
      components_append ['.', '.'] s
    rw [this, walk_append]
    rfl
  | case2 r s hne r' s' heq hs' =>
    subst hr
    split at heq
    · simp only [Prod.mk.injEq] at heq; exact absurd heq.2.symm hs'
    · simp only [Prod.mk.injEq] at heq
      obtain ⟨rfl, rfl⟩ := heq
      refine ⟨?_, ?_⟩
      · rw [place, components_append, walk_append, components_text d h, walk_names _ _ h]; rfl
      · rcases habs d with ha | ha
        · left
          cases hd : text d with
          | nil => rw [hd] at ha; simp [isAbsolute] at ha
          | cons c cs => rw [hd] at ha; exact ha
        · left; rw [ha]; rfl
  | case3 r s hne r' s' heq hs' =>
    subst hr
    simp only [ne_eq, Decidable.not_not] at hs'
    subst hs'
    split at heq
    · rename_i hs
      simp only [Prod.mk.injEq, and_true] at heq
      subst heq; subst hs
      rw [goUp_text d h, place_text _ (names_dropLast h)]
      exact ⟨rfl, habs _⟩
    · simp only [Prod.mk.injEq] at heq
      obtain ⟨rfl, rfl⟩ := heq
      rw [place_text d h]
      exact ⟨rfl, habs _⟩

theorem chop_absolute (d : List Str) (h : ∀ n ∈ d, IsName n) :
    (if (absolute d).getLast? = some '/' then (absolute d).dropLast else absolute d) = text d := by
  induction d using Verif.snoc_induction with
  | nil => rfl
  | append_singleton d n _ =>
    have hn := h n (by simp)
    have : absolute (d ++ [n]) = text d ++ '/' :: n := by
      rw [absolute, if_neg (by simp), ← text, text_snoc]
    rw [this, if_neg, text_snoc]
    intro hl
    rw [List.getLast?_append, List.getLast?_cons] at hl
    rcases hg : n.getLast? with _ | x
    · exact hn.1 (List.getLast?_eq_none_iff.mp hg)
    · rw [hg] at hl
      simp only [Option.getD_some, Option.some_or, Option.some.injEq] at hl
      subst hl
      exact hn.2.1 (List.mem_of_getLast? hg)

theorem absolute_isAbsolute (d : List Str) : isAbsolute (absolute d) = true := by
  unfold absolute
  split
  · rfl
  · cases d with
    | nil => rename_i h; exact absurd rfl h
    | cons a as => rfl

/-- An absolute path is not changed by resolving it. -/
theorem C06_resolve_absolute (home base rel : Str) (hb : isAbsolute base = true)
    (hr : isAbsolute rel = true) : resolvePath home base rel = some rel := by
  simp [resolvePath, hb, hr]

/-- C06, resolution: resolving any relative path against a clean absolute base yields a path that
    denotes the place reached by walking from the base; the result is absolute except that the root
    directory may come out as the empty string. (`~` stands for the home directory instead.) -/
theorem C06_resolve_walks_partial (home : Str) (base : List Str) (rel : Str)
    (hb : ∀ n ∈ base, IsName n) (hr : isAbsolute rel = false) (ht : rel ≠ ['~'])
    (ht' : ¬ ['~', '/'] <+: rel) :
    ∃ p, resolvePath home (absolute base) rel = some p ∧
      place p = walk base (components rel) ∧
      (isAbsolute p = true ∨ (p = [] ∧ walk base (components rel) = [])) := by
  unfold resolvePath
  rw [if_neg (by simp [absolute_isAbsolute]), if_neg (by simp [hr])]
  by_cases hd : rel = ['.']
  · subst hd
    refine ⟨absolute base, by simp, ?_, .inl (absolute_isAbsolute _)⟩
    have : walk base (components ['.']) = base := rfl
    rw [this]
    unfold absolute
    split
    · rename_i h; subst h; rfl
    · exact place_text base hb
  · rw [if_neg hd, if_neg ht, if_neg (by rw [List.isPrefixOf_iff_prefix]; exact ht')]
    refine ⟨_, rfl, ?_⟩
    rw [chop_absolute base hb]
    obtain ⟨h1, h2⟩ := resolveLoop_place rel (text base) base rfl hb
    refine ⟨h1, ?_⟩
    rcases h2 with h2 | h2
    · exact .inl h2
    · right; refine ⟨h2, ?_⟩
      rw [← h1, h2]; rfl

/-- Up to the root: the result is empty and not absolute. -/
theorem C06_resolve_to_root_finding (home : Str) :
    resolvePath home "/a".toList "..".toList = some [] ∧
    isAbsolute [] = false ∧
    walk [['a']] (components "..".toList) = [] := by
  simp [resolvePath, isAbsolute, resolveLoop, goUp, lastIndexOf, walk, components, split, step]

/-- A clean relative path: some steps up, then names. The text of the result is the clean absolute
    path of the place reached. -/
theorem C06_resolve_clean (home : Str) (base names : List Str) (k : Nat)
    (hb : ∀ n ∈ base, IsName n) (hn : ∀ n ∈ names, IsName n) (hne : names ≠ [])
    (ht : names.head? ≠ some ['~']) :
    resolvePath home (absolute base)
      ((List.replicate k ['.', '.', '/']).flatten ++ (text names).drop 1) =
      some (absolute (base.take (base.length - k) ++ names)) := by
  have hloop : ∀ (k : Nat) (d : List Str), (∀ n ∈ d, IsName n) →
      resolveLoop (text d) ((List.replicate k ['.', '.', '/']).flatten ++ (text names).drop 1) =
        text (d.take (d.length - k) ++ names) := by
    intro k
    induction k with
    | zero =>
      intro d hd
      simp only [List.replicate_zero, List.flatten_nil, List.nil_append, Nat.sub_zero, List.take_length]
      cases names with
      | nil => exact absurd rfl hne
      | cons a as =>
        have ha := hn a (by simp)
        have e : (text (a :: as)).drop 1 = a ++ text as := by simp [text]
        have e2 : text (d ++ a :: as) = text d ++ '/' :: (a ++ text as) := by simp [text]
        rw [e, e2]
        have hna : a ++ text as ≠ [] := by simp [ha.1]
        have hnd : a ++ text as ≠ ['.', '.'] := by
          intro h
          cases as with
          | nil => simp [text] at h; exact ha.2.2.2 h
          | cons b bs =>
            have : '/' ∈ ['.', '.'] := by rw [← h]; simp [text]
            simp at this
        have hnp : ∀ s, a ++ text as ≠ '.' :: '.' :: '/' :: s := by
          intro s h
          rcases a with _ | ⟨x, _ | ⟨y, _ | ⟨z, a⟩⟩⟩
          · exact ha.1 rfl
          · cases as with
            | nil => simp [text] at h
            | cons b bs => simp [text] at h
          · simp only [List.cons_append, List.nil_append, List.cons.injEq] at h
            exact ha.2.2.2 (by simp [h.1, h.2.1])
          · simp only [List.cons_append, List.cons.injEq] at h
            exact ha.2.1 (by simp [h.2.2.1])
        unfold resolveLoop
        split
        · rename_i s h; exact absurd h (hnp s)
        · rw [if_neg hnd]
          simp [ha.1]
    | succ k ih =>
      intro d hd
      have e : (List.replicate (k + 1) ['.', '.', '/']).flatten ++ (text names).drop 1 =
          '.' :: '.' :: '/' :: ((List.replicate k ['.', '.', '/']).flatten ++ (text names).drop 1) := by
        simp [List.replicate_succ]
      rw [e, resolveLoop, goUp_text d hd, ih _ (names_dropLast hd)]
      congr 2
      rw [List.dropLast_eq_take, List.length_take, List.take_take]
      congr 1; omega
  have hrel : ∃ c s, (List.replicate k ['.', '.', '/']).flatten ++ (text names).drop 1 = c :: s ∧
      c ≠ '/' ∧ (c :: s ≠ ['.']) ∧ c :: s ≠ ['~'] ∧ ¬ ['~', '/'] <+: c :: s := by
    cases k with
    | succ k =>
      exact ⟨'.', '.' :: '/' :: ((List.replicate k ['.', '.', '/']).flatten ++ (text names).drop 1),
        by simp [List.replicate_succ], by decide, by simp, by simp, by simp⟩
    | zero =>
      cases names with
      | nil => exact absurd rfl hne
      | cons a as =>
        have ha := hn a (by simp)
        cases a with
        | nil => exact absurd rfl ha.1
        | cons x xs =>
          refine ⟨x, xs ++ text as, by simp [text], ?_, ?_, ?_, ?_⟩
          · rintro rfl; exact ha.2.1 (by simp)
          · intro h
            simp only [List.cons.injEq, List.append_eq_nil_iff] at h
            exact ha.2.2.1 (by simp [h.1, h.2.1])
          · intro h
            simp only [List.cons.injEq, List.append_eq_nil_iff] at h
            exact ht (by simp [h.1, h.2.1])
          · rintro ⟨t, h⟩
            simp only [List.cons_append, List.nil_append, List.cons.injEq] at h
            cases xs with
            | nil => exact ht (by simp [← h.1])
            | cons y ys =>
              simp only [List.cons_append, List.cons.injEq] at h
              exact ha.2.1 (by simp [← h.2.1])
  obtain ⟨c, s, e, h1, h2, h3, h4⟩ := hrel
  have hl := hloop k base hb
  rw [e] at hl ⊢
  unfold resolvePath
  rw [if_neg (by simp [absolute_isAbsolute]), if_neg (by simp [isAbsolute, h1]), if_neg h2, if_neg h3,
    if_neg (by rw [List.isPrefixOf_iff_prefix]; exact h4)]
  simp only
  rw [chop_absolute base hb, hl, absolute, if_neg (by simp [hne])]
  rfl

/-- Non-vacuity. -/
example : (∀ n ∈ ["usr".toList, "lib".toList], IsName n) ∧
    resolvePath [] (absolute ["usr".toList, "lib".toList]) "../../x/./y/..".toList =
      some "/x/./y/..".toList ∧
    walk ["usr".toList, "lib".toList] (components "../../x/./y/..".toList) = [['x']] ∧
    fileName "/usr/lib/a.tar.gz".toList = "a.tar.gz".toList ∧
    completeSuffix "/usr/lib/a.tar.gz".toList = "tar.gz".toList := by decide

end Verif.Path
