import Verif.Wild.Props
/-!
# C55: examples, and what goes wrong
-/
namespace Verif.Wild

abbrev Table := List (Path × Name × Info)

def Table.bound (t : Table) : Nat := t.foldl (fun m e => max m (e.1.length + 1)) 0

theorem le_foldl_max (l : Table) (m : Nat) : m ≤ l.foldl (fun m e => max m (e.1.length + 1)) m ∧
    ∀ e ∈ l, e.1.length + 1 ≤ l.foldl (fun m e => max m (e.1.length + 1)) m := by
  induction l generalizing m with
  | nil => simp
  | cons a l ih =>
    simp only [List.foldl_cons, List.mem_cons, forall_eq_or_imp]
    obtain ⟨h1, h2⟩ := ih (max m (a.1.length + 1))
    exact ⟨by omega, by omega, h2⟩

/-- A file system given by a table. -/
def mkFS (t : Table) (h : ∀ e ∈ t, ∀ e' ∈ t, e.2.2.isDir = false → ¬ (e.1 ++ [e.2.1]) <+: e'.1) : FS where
  entries := fun p => t.filterMap (fun e => if e.1 = p then some e.2 else none)
  depth := fun p => t.bound - p.length
  nested := by
    intro p n i hm _ _
    simp only [List.mem_filterMap, Option.ite_none_right_eq_some, Option.some.injEq] at hm
    obtain ⟨e, he, rfl, _⟩ := hm
    have := (le_foldl_max t 0).2 e he
    simp only [Table.bound, List.length_append, List.length_singleton]
    omega
  inDirs := by
    intro p n i hm hi q
    simp only [List.mem_filterMap, Option.ite_none_right_eq_some, Option.some.injEq] at hm
    obtain ⟨e, he, rfl, hn⟩ := hm
    rw [List.filterMap_eq_nil_iff]
    intro e' he'
    rw [if_neg]
    intro hx
    refine h e he e' he' (by rw [hn]; exact hi) ?_
    rw [hn, hx]
    exact ⟨q, by simp⟩

def aFile : Info := ⟨false, true, false, true⟩
def aDir : Info := ⟨true, false, false, true⟩
def dirLink : Info := ⟨true, false, true, true⟩

/-- `*` followed by a suffix, or a name -/
def simpleGlob (p n : Name) : Bool :=
  match p with
  | '*' :: s => s.isSuffixOf n
  | _ => !isPattern p && n = p

/-- In /s: a.c, .h.c, a directory d with b.c, a hidden directory with c.c, a link to d; the build directory is /s/o, with
    those of two products, one of which has generated g.c. -/
def exTable : Table :=
  [([], ['s'], aDir),
   ([['s']], ['a', '.', 'c'], aFile), ([['s']], ['.', 'h', '.', 'c'], aFile), ([['s']], ['d'], aDir),
   ([['s']], ['.', 'g'], aDir), ([['s']], ['l'], dirLink), ([['s']], ['o'], aDir),
   ([['s'], ['d']], ['b', '.', 'c'], aFile), ([['s'], ['.', 'g']], ['c', '.', 'c'], aFile),
   ([['s'], ['l']], ['b', '.', 'c'], aFile),
   ([['s'], ['o']], ['1'], aDir), ([['s'], ['o']], ['2'], aDir),
   ([['s'], ['o'], ['1']], ['g', '.', 'c'], aFile)]

def mkEnv (t : Table) (h : ∀ e ∈ t, ∀ e' ∈ t, e.2.2.isDir = false → ¬ (e.1 ++ [e.2.1]) <+: e'.1) : Env :=
  ⟨mkFS t h, simpleGlob, ['/', 'h']⟩

set_option maxRecDepth 100000 in
def exEnv : Env := mkEnv exTable (by decide +kernel)

theorem sane_of {t : Table} {h} (h1 : ∀ e ∈ t, e.2.1 ≠ dot ∧ e.2.1 ≠ dotDot)
    (h2 : ∀ e ∈ t, e.2.2.isDir = true → e.2.2.isFile = false ∧ e.2.2.found = true) : (mkEnv t h).Sane where
  names := by
    intro p n i hm
    simp only [mkEnv, mkFS, List.mem_filterMap, Option.ite_none_right_eq_some, Option.some.injEq] at hm
    obtain ⟨e, he, _, hn⟩ := hm
    have := h1 e he
    rw [hn] at this
    exact this
  infos := by
    intro p n i hm
    simp only [mkEnv, mkFS, List.mem_filterMap, Option.ite_none_right_eq_some, Option.some.injEq] at hm
    obtain ⟨e, he, _, hn⟩ := hm
    have := h2 e he
    rw [hn] at this
    exact this
  literal := by
    intro p n hp
    simp only [mkEnv]
    cases p with
    | nil => simp [simpleGlob, isPattern]
    | cons c cs =>
      by_cases hc : c = '*'
      · subst hc
        simp [isPattern] at hp
      · unfold simpleGlob
        split
        · rename_i h; simp at h; exact absurd h.1 hc
        · simp [hp]

theorem exSane : exEnv.Sane := sane_of (by decide) (by decide)

/-- `*.c`, in directories further down too -/
def exW : Wildcards := ⟨[], [['s']], [['*', '*', '/', '*', '.', 'c']], [['d', '/', '*']]⟩

def exW' : Wildcards := { exW with excluded := [] }

example : expand exEnv [['s'], ['o']] exW = some [[['s'], ['a', '.', 'c']]] := by decide +kernel

example : expand exEnv [['s'], ['o']] exW' = some [[['s'], ['a', '.', 'c']], [['s'], ['d'], ['b', '.', 'c']]] := by
  decide +kernel

/-- The symbolic link is followed if it is matched, the hidden directory if it is given by name. -/
example : expand exEnv [['s'], ['o']] { exW' with patterns := [['*', '/', '*', '.', 'c'], ['.', 'g', '/', '*']] } =
    some [[['s'], ['d'], ['b', '.', 'c']], [['s'], ['l'], ['b', '.', 'c']], [['s'], ['.', 'g'], ['c', '.', 'c']]] := by
  decide +kernel

example : exW.NoEmpty exEnv := by
  intro pat hp
  revert pat
  decide +kernel

/-- What is meant by a pattern. -/
example : Denotes exEnv [['s']] [starStar, ['*', '.', 'c']] [['s'], ['d'], ['b', '.', 'c']] :=
  .down (n := ['d']) (i := aDir) (by decide +kernel) rfl rfl (by decide)
    (.here (by decide) (.file (i := aFile) (by decide) (by decide +kernel) (by decide) (by decide) (by decide)))

/-- The conditions of `C55_plain` are met. -/
example : exW.Plain exEnv ([['s']] ++ [['o']]) := by
  refine C55_plain exSane ?_ (by decide) (by decide) (by decide +kernel) ?_
  · intro p n i hm
    simp only [exEnv, mkEnv, mkFS, List.mem_filterMap, Option.ite_none_right_eq_some, Option.some.injEq] at hm
    obtain ⟨e, he, _, hn⟩ := hm
    have : ∀ e ∈ exTable, '/' ∉ e.2.1 := by decide
    have := this e he
    rw [hn] at this
    exact this
  · intro y hy hne pat hp raw hden hpre
    have hP : ∀ p n i, (n, i) ∈ exEnv.fs.entries p → n = ['o'] ∨ ¬ ['o'] <+: n := by
      intro p n i hm
      simp only [exEnv, mkEnv, mkFS, List.mem_filterMap, Option.ite_none_right_eq_some, Option.some.injEq] at hm
      obtain ⟨e, he, _, hn⟩ := hm
      have : ∀ e ∈ exTable, e.2.1 = ['o'] ∨ ¬ ['o'] <+: e.2.1 := by decide
      have := this e he
      rw [hn] at this
      exact this
    have hd : ∀ pat ∈ exW.patterns ++ exW.excluded, dot ∉ partsOf exEnv exW pat ∧ dotDot ∉ partsOf exEnv exW pat := by
      decide +kernel
    have hst : ∀ pat ∈ exW.patterns ++ exW.excluded, ∀ n ∈ startOf exEnv exW pat, n = ['o'] ∨ ¬ ['o'] <+: n := by
      decide +kernel
    have := denotes_comps hP hden (hst pat hp) (hd pat hp).1 (hd pat hp).2 y (by
      have h1 : y ∈ raw.dropLast := hpre.subset (by simp)
      exact List.dropLast_subset _ h1)
    rcases this with h | h
    · exact hne h
    · exact h hy

/-- A new file is noticed. -/
def newTable : Table := ([['s']], ['n', '.', 'c'], aFile) :: exTable

set_option maxRecDepth 100000 in
def newEnv : Env := mkEnv newTable (by decide +kernel)

example : hasChanged newEnv false [['s'], ['o'], ['1']] exW' [[['s'], ['a', '.', 'c']], [['s'], ['d'], ['b', '.', 'c']]] =
    some true := by decide +kernel

/-- Nothing has changed. -/
example : hasChanged exEnv false [['s'], ['o'], ['1']] exW' [[['s'], ['a', '.', 'c']], [['s'], ['d'], ['b', '.', 'c']]] =
    some false := by decide +kernel

/-- **C55 finding.** A product with a recursive wildcard that is built in its source directory: the file that another
    product (`1`) generates there is not matched when the project is resolved, but when it is checked whether the files
    have changed, as only the product's own build directory (`2`) is then left out. So the project is resolved
    again each time, although nothing has changed. -/
theorem C55_resolved_each_time : ∃ files, expand exEnv [['s'], ['o']] exW' = some files ∧
    hasChanged exEnv false [['s'], ['o'], ['2']] exW' files = some true :=
  ⟨_, rfl, by decide +kernel⟩

/-- /s/o-x, beside the build directory /s/o -/
def sibTable : Table :=
  [([], ['s'], aDir), ([['s']], ['o'], aDir), ([['s']], ['o', '-', 'x'], aDir),
   ([['s'], ['o', '-', 'x']], ['b', '.', 'c'], aFile)]

def sibEnv : Env := mkEnv sibTable (by decide)

/-- **C55 finding.** Files in a directory whose name begins with that of the build directory beside it are not found. -/
theorem C55_sibling_ignored : Meant sibEnv exW' exW'.patterns [['s'], ['o', '-', 'x'], ['b', '.', 'c']] ∧
    ¬ Inside [['s'], ['o']] [['s'], ['o', '-', 'x'], ['b', '.', 'c']] ∧ expand sibEnv [['s'], ['o']] exW' = some [] := by
  refine ⟨⟨['*', '*', '/', '*', '.', 'c'], by decide, [['s'], ['o', '-', 'x'], ['b', '.', 'c']], ?_, by decide⟩,
    by unfold Inside; decide, by decide +kernel⟩
  exact .down (n := ['o', '-', 'x']) (i := aDir) (by decide +kernel) rfl rfl (by decide)
    (.here (by decide) (.file (i := aFile) (by decide) (by decide +kernel) (by decide) (by decide) (by decide)))

/-- The build directory /s/o with a generated file, also seen from /s/d. -/
def dotsTable : Table :=
  [([], ['s'], aDir), ([['s']], ['d'], aDir), ([['s']], ['o'], aDir), ([['s'], ['o']], ['g', '.', 'c'], aFile),
   ([['s'], ['d'], dotDot], ['d'], aDir), ([['s'], ['d'], dotDot], ['o'], aDir),
   ([['s'], ['d'], dotDot, ['o']], ['g', '.', 'c'], aFile)]

def dotsEnv : Env := mkEnv dotsTable (by decide)

/-- **C55 finding.** With `..` in a pattern, generated files in the build directory are taken for source files. -/
theorem C55_generated_file_matched :
    expand dotsEnv [['s'], ['o']] { exW' with
      baseDir := [['s'], ['d']]
      patterns := [['.', '.', '/', '*', '/', '*', '.', 'c']] } = some [[['s'], ['o'], ['g', '.', 'c']]] ∧
    Inside [['s'], ['o']] [['s'], ['o'], ['g', '.', 'c']] := by
  refine ⟨by decide +kernel, by unfold Inside; decide⟩

/-- **C55 finding.** An empty pattern, for instance in `excludeFiles`, is undefined behaviour. -/
theorem C55_empty_pattern : expand exEnv [['s'], ['o']] { exW with excluded := [[]] } = none := by decide +kernel

/-- A hidden file in /s/d -/
def hiddenTable : Table := [([], ['s'], aDir), ([['s']], ['d'], aDir), ([['s'], ['d']], ['.', 'f'], aFile)]

def hiddenEnv : Env := mkEnv hiddenTable (by decide)

/-- **C55 finding.** A hidden file that is given by name after a pattern for its directory is not found. -/
theorem C55_hidden_file_not_found : (['.', 'f'], aFile) ∈ hiddenEnv.fs.entries [['s'], ['d']] ∧
    expand hiddenEnv [['o']] { exW' with patterns := [['*', '/', '.', 'f']] } = some [] := by decide +kernel

/-- /s/l is a link to another directory, beside which there is x. -/
def upTable : Table :=
  [([], ['s'], aDir), ([['s']], ['l'], dirLink), ([['s'], ['l']], ['y'], aFile), ([['s'], ['l'], dotDot], ['x'], aFile)]

def upEnv : Env := mkEnv upTable (by decide)

/-- **C55 finding.** With a symbolic link and `..` in a pattern, a path is found that does not exist. -/
theorem C55_path_does_not_exist : expand upEnv [['o']] { exW' with patterns := [['*', '/', '.', '.', '/', 'x']] } =
    some [[['s'], ['x']]] ∧ ∀ i, (['x'], i) ∉ upEnv.fs.entries [['s']] := by
  refine ⟨by decide +kernel, ?_⟩
  intro i hm
  simp [upEnv, mkEnv, mkFS, upTable] at hm

end Verif.Wild
