import Verif.PathProbe.Lem

/-! # C130: what PathProbe finds -/

namespace Verif.PathProbe

/-- **C130.** The components of a joined path are those of its parts, in order, and there are no empty ones between them. -/
theorem C130_join (ps : List Text) : comps (joinPaths ps) = ps.flatMap comps ∧ Clean (joinPaths ps) := by
  refine ⟨?_, clean_unique _⟩
  rw [joinPaths, comps_unique, comps_join, flatMap_filter]

theorem filter_empty {ps : List Text} (h : ∀ p ∈ ps, p = []) : ps.filter (fun p => !p.isEmpty) = [] := by
  rw [List.filter_eq_nil_iff]
  intro p hp
  rw [h p hp]
  simp

/-- **C130.** A joined path is absolute if and only if the first part that is not empty is. -/
theorem C130_join_absolute {a : List Text} {p : Text} (b : List Text) (ha : ∀ x ∈ a, x = []) (hp : p ≠ []) :
    Absolute (joinPaths (a ++ p :: b)) ↔ Absolute p := by
  unfold Absolute
  have : (a ++ p :: b).filter (fun p => !p.isEmpty) = p :: b.filter (fun p => !p.isEmpty) := by
    rw [List.filter_append, filter_empty ha, List.nil_append, List.filter_cons, if_pos (by simpa using hp)]
  rw [joinPaths, this, unique_head, join_head hp]

theorem joinSlash_append {P Q : List Text} (hP : P ≠ []) (hQ : Q ≠ []) : joinSlash (P ++ Q) = joinSlash P ++ '/' :: joinSlash Q := by
  induction P with
  | nil => exact absurd rfl hP
  | cons p P ih =>
    cases P with
    | nil =>
      cases Q with
      | nil => exact absurd rfl hQ
      | cons q Q => rfl
    | cons p' P =>
      have e : joinSlash (p :: p' :: P ++ Q) = p ++ '/' :: joinSlash (p' :: P ++ Q) := rfl
      rw [e, ih (by simp)]
      have e' : joinSlash (p :: p' :: P) = p ++ '/' :: joinSlash (p' :: P) := rfl
      rw [e']
      simp

theorem unique_ne {s : Text} (h : s ≠ []) : unique s ≠ [] := by
  intro e
  have := unique_head s
  rw [e] at this
  cases s with
  | nil => exact h rfl
  | cons => cases this

theorem joinSlash_ne {P : List Text} (hP : P ≠ []) (h : ∀ p ∈ P, p ≠ []) : joinSlash P ≠ [] := by
  cases P with
  | nil => exact absurd rfl hP
  | cons p P =>
    intro e
    have := join_head (ps := P) (h p (by simp))
    rw [e] at this
    cases p with
    | nil => exact h [] (by simp) rfl
    | cons => cases this

/-- **C130.** Paths can be joined step by step. -/
theorem C130_join_assoc (ps qs : List Text) : joinPaths (joinPaths ps :: qs) = joinPaths (ps ++ qs) := by
  unfold joinPaths
  have hP : ∀ p ∈ ps.filter (fun p => !p.isEmpty), p ≠ [] := by
    intro p hp
    have := (List.mem_filter.1 hp).2
    simpa using this
  rw [List.filter_append]
  generalize ps.filter (fun p => !p.isEmpty) = P at hP
  cases P with
  | nil => rfl
  | cons p P =>
    have hne := unique_ne (joinSlash_ne (by simp) hP)
    rw [List.filter_cons, if_pos (by simpa using hne)]
    generalize qs.filter (fun p => !p.isEmpty) = Q
    cases Q with
    | nil =>
      rw [List.append_nil]
      have := unique_append (joinSlash (p :: P)) []
      rw [List.append_nil, List.append_nil] at this
      exact this
    | cons q Q =>
      rw [joinSlash_append (by simp) (by simp)]
      exact unique_append _ _

/-- **C130.** The file that is found is the first one in the order of names, directories and sub-directories that exists and is
accepted by the user's filter. The candidates that are reported are those in front of it, and itself. -/
theorem C130_first {w : World} {i : Input} {c : Canonical} {a b : List Cand} {t : Cand}
    (h : order (fullNames i c) (paths w i) ([] :: i.pathSuffixes) = a ++ t :: b) (ha : ∀ x ∈ a, ¬ Accepted w i (Cand.file x))
    (ht : Accepted w i (Cand.file t)) :
    findFile w i c = ⟨true, (a ++ [t]).map Cand.file, some (Cand.file t), some t.1, some (Cand.dir t)⟩ := by
  have := loopI_spec w i (fullNames i c) []
  unfold findFile
  rcases this with ⟨h1, h2⟩ | ⟨a', t', b', h1, h2, h3, h4⟩
  · exact absurd ht (h2 t (by rw [show suffixes i = [] :: i.pathSuffixes from rfl, h]; simp))
  · rw [h4]
    rw [show suffixes i = [] :: i.pathSuffixes from rfl, h] at h1
    have : a = a' ∧ t = t' := by
      rcases List.append_eq_append_iff.1 h1 with ⟨z, e1, e2⟩ | ⟨z, e1, e2⟩
      · cases z with
        | nil =>
          simp at e1 e2
          exact ⟨e1.symm, e2.1⟩
        | cons q z =>
          injection e2 with e3 e4
          exact absurd ht (h2 t (by rw [e1, e3]; simp))
      · cases z with
        | nil =>
          simp at e1 e2
          exact ⟨e1, e2.1.symm⟩
        | cons q z =>
          injection e2 with e3 e4
          exact absurd h3 (ha t' (by rw [e1, ← e3]; simp))
    obtain ⟨rfl, rfl⟩ := this
    rfl

/-- **C130.** If there is no such file, nothing is found, and all candidates are reported. -/
theorem C130_none {w : World} {i : Input} {c : Canonical}
    (h : ∀ x ∈ order (fullNames i c) (paths w i) ([] :: i.pathSuffixes), ¬ Accepted w i (Cand.file x)) :
    findFile w i c = ⟨false, (order (fullNames i c) (paths w i) ([] :: i.pathSuffixes)).map Cand.file, none, none, none⟩ := by
  have := loopI_spec w i (fullNames i c) []
  unfold findFile
  rcases this with ⟨h1, h2⟩ | ⟨a', t', b', h1, h2, h3, h4⟩
  · rw [h1]; rfl
  · exact absurd h3 (h t' (by rw [show [] :: i.pathSuffixes = suffixes i from rfl, h1]; simp))

theorem found_cases (w : World) (i : Input) (c : Canonical) :
    ((findFile w i c).found = true ∧ ∃ t ∈ order (fullNames i c) (paths w i) ([] :: i.pathSuffixes), Accepted w i (Cand.file t) ∧
      (findFile w i c).filePath = some (Cand.file t) ∧ (findFile w i c).fileName = some t.1 ∧ (findFile w i c).path = some (Cand.dir t)) ∨
    ((findFile w i c).found = false ∧ ∀ t ∈ order (fullNames i c) (paths w i) ([] :: i.pathSuffixes), ¬ Accepted w i (Cand.file t)) := by
  have := loopI_spec w i (fullNames i c) []
  unfold findFile
  rcases this with ⟨h1, h2⟩ | ⟨a', t', b', h1, h2, h3, h4⟩
  · right
    rw [h1]
    exact ⟨rfl, h2⟩
  · left
    rw [h4]
    exact ⟨rfl, t', by rw [show [] :: i.pathSuffixes = suffixes i from rfl, h1]; simp, h3, rfl, rfl, rfl⟩

/-- **C130.** A file is found if and only if, in one of the directories, or one of the given sub-directories there, there is a file
with one of the names that the user accepts. -/
theorem C130_found_iff (w : World) (i : Input) (c : Canonical) : (findFile w i c).found = true ↔
    ∃ n p s, NameOf i c n ∧ Dir w i p ∧ (s = [] ∨ s ∈ i.pathSuffixes) ∧ Accepted w i (joinPaths [p, s, n]) := by
  have hm : ∀ t, t ∈ order (fullNames i c) (paths w i) ([] :: i.pathSuffixes) ↔
      NameOf i c t.1 ∧ Dir w i t.2.1 ∧ (t.2.2 = [] ∨ t.2.2 ∈ i.pathSuffixes) := by
    intro t
    rw [mem_order, mem_names, mem_paths, List.mem_cons]
  rcases found_cases w i c with ⟨h1, t, ht, h2, -⟩ | ⟨h1, h2⟩
  · rw [h1]
    obtain ⟨e1, e2, e3⟩ := (hm t).1 ht
    exact ⟨fun _ => ⟨t.1, t.2.1, t.2.2, e1, e2, e3, h2⟩, fun _ => rfl⟩
  · rw [h1]
    constructor
    · intro e; cases e
    · rintro ⟨n, p, s, e1, e2, e3, e4⟩
      exact absurd e4 (h2 (n, p, s) ((hm (n, p, s)).2 ⟨e1, e2, e3⟩))

/-- **C130.** What is reported of a file that was found fits together: it is accepted, and its path is that of the directory joined
with the file name. -/
theorem C130_parts {w : World} {i : Input} {c : Canonical} (h : (findFile w i c).found = true) :
    ∃ f d n, (findFile w i c).filePath = some f ∧ (findFile w i c).path = some d ∧ (findFile w i c).fileName = some n ∧
      f = joinPaths [d, n] ∧ Accepted w i f ∧ NameOf i c n := by
  rcases found_cases w i c with ⟨-, t, ht, h2, h3, h4, h5⟩ | ⟨h1, -⟩
  · refine ⟨_, _, _, h3, h5, h4, ?_, h2, ?_⟩
    · exact (C130_join_assoc [t.2.1, t.2.2] [t.1]).symm
    · rw [mem_order, mem_names] at ht; exact ht.1
  · rw [h1] at h; cases h

theorem foldl_and (l : List FileRes) (b : Bool) : l.foldl (fun acc r => acc && r.found) b = (b && l.all (·.found)) := by
  induction l generalizing b with
  | nil => simp
  | cons r l ih => rw [List.foldl_cons, ih, List.all_cons, Bool.and_assoc]

/-- **C130.** With several selectors there is one result for each, in order, and the probe succeeds if and only if all files were
found. -/
theorem C130_selectors {w : World} {i : Input} {cs : List Canonical} (h : selectorsOf i = some cs) :
    ∃ r, configure w i = some r ∧ r.files = cs.map (findFile w i) ∧
      (r.found = true ↔ ∀ c ∈ cs, (findFile w i c).found = true) := by
  unfold configure
  rw [h]
  refine ⟨_, rfl, rfl, ?_⟩
  simp only [foldl_and, Bool.true_and, List.all_map, List.all_eq_true]
  rfl

/-- **C130.** With a list of names there is one selector, which has the suffixes of the probe. -/
theorem C130_names {w : World} {i : Input} {names : List Text} (hs : i.selectors = none) (hn : i.names = some names) :
    configure w i = some ⟨(findFile w i ⟨names, i.nameSuffixes⟩).found, [findFile w i ⟨names, i.nameSuffixes⟩]⟩ := by
  have : selectorsOf i = some [⟨names, i.nameSuffixes⟩] := by
    unfold selectorsOf
    rw [hs, hn]
  unfold configure
  rw [this]
  simp

theorem canonicals_spec (x : Option (List Text)) (sels : List Selector) :
    (canonicalSelectors x sels = none ↔ ∃ l, Selector.dict none l ∈ sels) ∧
    ∀ cs : List Canonical, canonicalSelectors x sels = some cs → cs.length = sels.length ∧
      ∀ (k : Nat) sel, sels[k]? = some sel → ∃ c : Canonical, cs[k]? = some c ∧ Means x sel c.names c.nameSuffixes := by
  induction sels with
  | nil => simp [canonicalSelectors]
  | cons s ss ih =>
    obtain ⟨ih1, ih2⟩ := ih
    have hc : (canonical x s = none ↔ ∃ l, s = .dict none l) ∧ ∀ c, canonical x s = some c → Means x s c.names c.nameSuffixes := by
      cases s with
      | str s => exact ⟨by simp [canonical], fun c h => by cases h; exact .str⟩
      | list l => exact ⟨by simp [canonical], fun c h => by cases h; exact .list⟩
      | dict n l =>
        cases n with
        | none => simp [canonical]
        | some n =>
          cases l with
          | none => exact ⟨by simp [canonical], fun c h => by cases h; exact .probe⟩
          | some l => exact ⟨by simp [canonical], fun c h => by cases h; exact .own⟩
    simp only [canonicalSelectors]
    cases h1 : canonical x s with
    | none =>
      obtain ⟨l, hl⟩ := hc.1.mp h1
      subst hl
      simp
    | some c =>
      have hn : ¬ ∃ l, s = .dict none l := fun h => by rw [hc.1.mpr h] at h1; cases h1
      cases h2 : canonicalSelectors x ss with
      | none =>
        obtain ⟨l, hl⟩ := ih1.mp h2
        simp only [true_iff, reduceCtorEq, false_implies, implies_true, and_true]
        exact ⟨l, List.mem_cons_of_mem _ hl⟩
      | some cs =>
        refine ⟨⟨fun h => (by cases h), fun ⟨l, hl⟩ => ?_⟩, ?_⟩
        · rcases List.mem_cons.mp hl with e | e
          · exact absurd ⟨l, e.symm⟩ hn
          · rw [ih1.mpr ⟨l, e⟩] at h2; cases h2
        · intro cs' h
          cases h
          obtain ⟨hlen, hk⟩ := ih2 cs h2
          refine ⟨by simp [hlen], fun k sel hsel => ?_⟩
          cases k with
          | zero => simp at hsel; subst hsel; exact ⟨c, rfl, hc.2 c h1⟩
          | succ k => exact hk k sel (by simpa using hsel)

/-- **C130.** Selectors are used in their order, each with the names and suffixes that are meant; a dictionary without names, and
nothing else, is an error. -/
theorem C130_selector_kinds {i : Input} {sels : List Selector} (h : i.selectors = some sels) :
    (selectorsOf i = none ↔ ∃ l, Selector.dict none l ∈ sels) ∧
    ∀ cs : List Canonical, selectorsOf i = some cs → cs.length = sels.length ∧
      ∀ (k : Nat) sel, sels[k]? = some sel → ∃ c : Canonical, cs[k]? = some c ∧ Means i.nameSuffixes sel c.names c.nameSuffixes := by
  have : selectorsOf i = canonicalSelectors i.nameSuffixes sels := by unfold selectorsOf; rw [h]
  rw [this]
  exact canonicals_spec _ _

/-- **C130 finding.** The suffixes of the probe are not used for selectors that are strings or lists, although they are used for
dictionaries: a program that is found by name is not found by a selector with the same name. -/
theorem C130_selector_suffixes (i : Input) (n s : Text) (hs : i.nameSuffixes = some [s]) (hf : i.nameFilter = none) :
    (∃ c, canonical i.nameSuffixes (.str n) = some c ∧ fullNames i c = [n]) ∧
    (∃ c, canonical i.nameSuffixes (.dict (some [n]) none) = some c ∧ fullNames i c = [n ++ s]) := by
  refine ⟨⟨_, rfl, ?_⟩, ⟨_, rfl, ?_⟩⟩
  · simp [fullNames, hf]
  · simp [fullNames, hf, hs]

/-- **C130 finding.** An empty element of a variable such as PATH makes the probe look in the current directory of the process; the
path of the file that is found is not a full path but only the name. -/
theorem C130_relative {w : World} {i : Input} {c : Canonical} {e v n : Text} {ns : List Text}
    (he : i.environmentPaths = [e]) (hv : w.getEnv e = some (':' :: v)) (hn : fullNames i c = n :: ns)
    (hc : Clean n) (hne : n ≠ []) (ha : Accepted w i n) :
    (findFile w i c).filePath = some n ∧ (findFile w i c).path = some [] := by
  have hp : ∃ ps, paths w i = [] :: ps := by
    refine ⟨splitOn ':' v ++ i.searchPaths ++ pathsFromEnvs w i.platformEnvironmentPaths ++ i.platformSearchPaths, ?_⟩
    unfold paths
    rw [he]
    simp [pathsFromEnvs, hv, splitOn_sep]
  obtain ⟨ps, hp⟩ := hp
  have hfile : Cand.file (n, [], []) = n := by
    have : ([[], [], n] : List Text).filter (fun p => !p.isEmpty) = [n] := by
      simp [List.filter_cons, hne]
    show joinPaths [[], [], n] = n
    rw [joinPaths, this]
    exact unique_clean hc
  have ho : ∃ b, order (fullNames i c) (paths w i) ([] :: i.pathSuffixes) = [] ++ (n, [], []) :: b := by
    rw [hn, hp]
    exact ⟨_, rfl⟩
  obtain ⟨b, ho⟩ := ho
  rw [C130_first ho (by simp) (by rw [hfile]; exact ha)]
  exact ⟨by rw [hfile], rfl⟩

/-- **C130 finding.** Files directly in a directory are found, and even preferred, if sub-directories are given, although the file
should then be in one of these. -/
theorem C130_no_subdirectory {w : World} {i : Input} {c : Canonical} {p n : Text} {ps ns : List Text}
    (hp : paths w i = p :: ps) (hn : fullNames i c = n :: ns) (ha : Accepted w i (joinPaths [p, [], n])) :
    (findFile w i c).filePath = some (joinPaths [p, n]) := by
  have ho : ∃ b, order (fullNames i c) (paths w i) ([] :: i.pathSuffixes) = [] ++ (n, p, []) :: b := by
    rw [hn, hp]
    exact ⟨_, rfl⟩
  obtain ⟨b, ho⟩ := ho
  rw [C130_first ho (by simp) ha]
  show some (joinPaths [p, [], n]) = _
  have : ([p, [], n] : List Text).filter (fun p => !p.isEmpty) = [p, n].filter (fun p => !p.isEmpty) := by
    simp [List.filter_cons]
  rw [joinPaths, this]
  rfl

end Verif.PathProbe
