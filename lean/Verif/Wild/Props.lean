import Verif.Wild.Expand
/-!
# C55: properties
-/
namespace Verif.Wild

theorem splitParts_slash (s : List Char) : splitParts ('/' :: s) = splitParts s := by
  cases s <;> simp [splitParts]

theorem splitParts_word : ∀ (s : List Char), s ≠ [] → '/' ∉ s → splitParts s = [s] := by
  intro s
  induction s with
  | nil => intro h; exact absurd rfl h
  | cons c cs ih =>
    intro _ hs
    simp only [List.mem_cons, not_or] at hs
    cases cs with
    | nil => simp [splitParts, Ne.symm hs.1]
    | cons d ds =>
      have hd : d ≠ '/' := by
        intro h
        exact hs.2 (by simp [h])
      have := ih (by simp) hs.2
      rw [splitParts, if_neg (Ne.symm hs.1)]
      simp only [hd, if_false, this]

/-- A non-empty string begins with slashes or with a word. -/
theorem splitParts_append : ∀ (s t : List Char), splitParts (s ++ '/' :: t) = splitParts s ++ splitParts t := by
  intro s
  induction s with
  | nil => intro t; rw [List.nil_append, splitParts_slash]; simp [splitParts]
  | cons c cs ih =>
    intro t
    by_cases hc : c = '/'
    · subst hc
      rw [List.cons_append, splitParts_slash, splitParts_slash, ih]
    · cases cs with
      | nil =>
        simp only [List.cons_append, List.nil_append]
        rw [splitParts, if_neg hc]
        simp [splitParts, hc]
      | cons d ds =>
        have := ih t
        rw [List.cons_append] at this
        rw [List.cons_append, List.cons_append, splitParts, if_neg hc, splitParts, if_neg hc]
        by_cases hd : d = '/'
        · simp only [hd, if_true] at this ⊢
          rw [this]
          rfl
        · simp only [hd, if_false]
          rw [this]
          cases hx : splitParts (d :: ds) with
          | nil =>
            exfalso
            unfold splitParts at hx
            rw [if_neg hd] at hx
            cases ds with
            | nil => simp at hx
            | cons e es =>
              simp only at hx
              split at hx
              · cases hx
              · split at hx <;> cases hx
          | cons x xs => rfl

/-- **C55.** The parts of a pattern are the maximal strings without slashes, without empty ones: a slash separates, a
    non-empty string without slashes is one part. -/
theorem C55_parts (s t : List Char) : splitParts [] = [] ∧ (s ≠ [] → '/' ∉ s → splitParts s = [s]) ∧
    splitParts (s ++ '/' :: t) = splitParts s ++ splitParts t :=
  ⟨by simp [splitParts], splitParts_word s, splitParts_append s t⟩

/-- **C55.** The prefix comes before each pattern; `~/` at its beginning stands for the home directory; backslashes are
    as good as slashes. -/
theorem C55_prefix (env : Env) (prefix_ pattern : List Char) (hp : '\\' ∉ prefix_) (hpat : '\\' ∉ pattern)
    (hh : '\\' ∉ env.home) :
    (¬ ['~', '/'] <+: prefix_ → wholePattern env prefix_ pattern = prefix_ ++ pattern) ∧
    (wholePattern env ('~' :: '/' :: prefix_) pattern = env.home ++ '/' :: prefix_ ++ pattern) ∧
    (∀ a b, pattern = a ++ '/' :: b → wholePattern env prefix_ (a ++ '\\' :: b) = wholePattern env prefix_ pattern) := by
  have hmap : ∀ l : List Char, '\\' ∉ l → l.map (fun c => if c = '\\' then '/' else c) = l := by
    intro l hl
    conv => rhs; rw [← List.map_id l]
    apply List.map_congr_left
    intro c hc
    have : c ≠ '\\' := fun h => hl (h ▸ hc)
    simp [this]
  refine ⟨?_, ?_, ?_⟩
  · intro hn
    have hn' : ['~', '/'].isPrefixOf prefix_ = false := by
      rw [← Bool.not_eq_true, List.isPrefixOf_iff_prefix]
      exact hn
    simp only [wholePattern, hn', Bool.false_eq_true, if_false]
    exact hmap _ (by simp [hp, hpat])
  · have hn' : ['~', '/'].isPrefixOf ('~' :: '/' :: prefix_) = true := by simp [List.isPrefixOf]
    simp only [wholePattern, hn', if_true, List.drop_succ_cons, List.drop_zero]
    exact hmap _ (by simp [hp, hpat, hh])
  · rintro a b rfl
    simp [wholePattern]

theorem mem_expandList {env : Env} (hs : env.Sane) {bd : Path} {w : Wildcards} {patterns : List (List Char)}
    (hne : ∀ pat ∈ patterns, partsOf env w pat ≠ []) : ∃ l, expandList env bd w.baseDir w.prefix_ patterns = some l ∧
    ∀ f, f ∈ l ↔ ∃ pat ∈ patterns, ∃ raw, Denotes env (startOf env w pat) (partsOf env w pat) raw ∧
      startsWith raw.dropLast bd = false ∧ f = clean raw := by
  have hone : ∀ pat ∈ patterns, ∃ l, expandPattern env bd w.baseDir w.prefix_ pat = some l ∧
      ∀ f, f ∈ l ↔ ∃ raw, Denotes env (startOf env w pat) (partsOf env w pat) raw ∧
        startsWith raw.dropLast bd = false ∧ f = clean raw :=
    fun pat hp => mem_expandParts hs _ _ _ (hne pat hp) (Nat.le_succ _)
  obtain ⟨ls, hls, hm⟩ := mapM_some patterns (fun pat hp => (hone pat hp).imp (fun _ h => h.1))
  unfold expandList
  rw [hls]
  refine ⟨_, rfl, ?_⟩
  intro f
  rw [hm]
  constructor
  · rintro ⟨pat, hp, r, hr, hf⟩
    obtain ⟨l, hl, hml⟩ := hone pat hp
    rw [hl] at hr
    cases hr
    exact ⟨pat, hp, (hml f).1 hf⟩
  · rintro ⟨pat, hp, h⟩
    obtain ⟨l, hl, hml⟩ := hone pat hp
    exact ⟨pat, hp, l, hl, (hml f).2 h⟩

theorem startsWith_false {p dir : Path} : startsWith p dir = false ↔ ¬ str dir <+: str p := by
  unfold startsWith
  rw [← Bool.not_eq_true, List.isPrefixOf_iff_prefix]

/-- **C55.** The files of a group with wildcards are those that one of its patterns means and none of the patterns to be
    excluded, without those in the build directory. -/
theorem C55_expand {env : Env} {bd : Path} {w : Wildcards} (hs : env.Sane) (hne : w.NoEmpty env) (hpl : w.Plain env bd) :
    ∃ l, expand env bd w = some l ∧ ∀ f, f ∈ l ↔
      Meant env w w.patterns f ∧ ¬ Meant env w w.excluded f ∧ ¬ Inside bd f := by
  obtain ⟨l, hl, hml⟩ := mem_expandList (bd := bd) hs (w := w) (patterns := w.patterns)
    (fun pat hp => hne pat (List.mem_append_left _ hp))
  obtain ⟨x, hx, hmx⟩ := mem_expandList (bd := bd) hs (w := w) (patterns := w.excluded)
    (fun pat hp => hne pat (List.mem_append_right _ hp))
  unfold expand
  rw [hl, hx]
  refine ⟨_, rfl, ?_⟩
  intro f
  simp only [List.mem_filter, Bool.not_eq_true', List.contains_eq_mem, decide_eq_false_iff_not, hml, hmx, startsWith_false]
  constructor
  · rintro ⟨⟨pat, hp, raw, hden, hsw, rfl⟩, hnx⟩
    have hin : ¬ Inside bd (clean raw) := fun h => hsw ((hpl pat (List.mem_append_left _ hp) raw hden).2 h)
    refine ⟨⟨pat, hp, raw, hden, rfl⟩, ?_, hin⟩
    rintro ⟨pat', hp', raw', hden', he⟩
    refine hnx ⟨pat', hp', raw', hden', ?_, he⟩
    intro h
    have := (hpl pat' (List.mem_append_right _ hp') raw' hden').1 h
    rw [← he] at this
    exact hin this
  · rintro ⟨⟨pat, hp, raw, hden, rfl⟩, hnx, hin⟩
    refine ⟨⟨pat, hp, raw, hden, ?_, rfl⟩, ?_⟩
    · exact fun h => hin ((hpl pat (List.mem_append_left _ hp) raw hden).1 h)
    · rintro ⟨pat', hp', raw', hden', _, he⟩
      exact hnx ⟨pat', hp', raw', hden', he⟩

/-! ## When a path can be judged by its beginning -/

theorem cleanStep_foldl (p acc : Path) (h : ∀ n ∈ p, n ≠ dot ∧ n ≠ dotDot) : p.foldl cleanStep acc = acc ++ p := by
  induction p generalizing acc with
  | nil => simp
  | cons n p ih =>
    have hn := h n (by simp)
    rw [List.foldl_cons, ih _ (fun m hm => h m (by simp [hm]))]
    simp [cleanStep, hn]

theorem clean_of_plain {p : Path} (h : ∀ n ∈ p, n ≠ dot ∧ n ≠ dotDot) : clean p = p := by
  unfold clean
  rw [cleanStep_foldl _ _ h]
  rfl

theorem denotes_comps {env : Env} {P : Name → Prop} (hP : ∀ p n i, (n, i) ∈ env.fs.entries p → P n) {base : Path}
    {parts : List Name} {raw : Path} (h : Denotes env base parts raw) :
    (∀ n ∈ base, P n) → dot ∉ parts → dotDot ∉ parts → ∀ n ∈ raw, P n := by
  have hsnoc : ∀ (b : Path) (m : Name), (∀ n ∈ b, P n) → P m → ∀ n ∈ b ++ [m], P n := by
    intro b m hb hm n hn
    rcases List.mem_append.1 hn with h | h
    · exact hb n h
    · rw [List.mem_singleton.1 h]; exact hm
  induction h with
  | file _ h1 => intro hb _ _; exact hsnoc _ _ hb (hP _ _ _ h1)
  | dir _ _ h1 _ _ _ _ ih =>
    intro hb hd hdd
    exact ih (hsnoc _ _ hb (hP _ _ _ h1)) (fun h => hd (by simp [h])) (fun h => hdd (by simp [h]))
  | dots hp =>
    intro _ hd hdd
    rcases hp with rfl | rfl
    · exact absurd (by simp) hd
    · exact absurd (by simp) hdd
  | here _ _ ih => intro hb hd hdd; exact ih hb (fun h => hd (by simp [h])) (fun h => hdd (by simp [h]))
  | down h1 _ _ _ _ ih => intro hb hd hdd; exact ih (hsnoc _ _ hb (hP _ _ _ h1)) hd hdd
  | all _ ih => intro hb hd hdd; exact ih hb (by decide) (by decide)

theorem str_prefix_of {a b : Path} (h : a <+: b) : str a <+: str b := by
  obtain ⟨t, rfl⟩ := h
  rw [str_append]
  exact List.prefix_append _ _

theorem str_cons (c : Name) (p : Path) : str (c :: p) = '/' :: (c ++ str p) := by simp [str]

/-- If one path as a string begins with the other, the components are the same up to the last, and that begins with the
    last component of the other. -/
theorem str_prefix {x : Name} : ∀ (b q : Path), (∀ n ∈ b ++ [x], '/' ∉ n) → (∀ n ∈ q, '/' ∉ n) →
    str (b ++ [x]) <+: str q → ∃ y, x <+: y ∧ b ++ [y] <+: q := by
  intro b
  induction b with
  | nil =>
    intro q hb hq h
    cases q with
    | nil => simp [str] at h
    | cons y q =>
      rw [List.nil_append, str_cons, str_cons, List.cons_prefix_cons] at h
      simp only [str, List.flatMap_nil, List.append_nil] at h
      refine ⟨y, ?_, by simp⟩
      have hx : '/' ∉ x := hb x (by simp)
      obtain ⟨t, ht⟩ := h.2
      rw [List.append_eq_append_iff] at ht
      rcases ht with ⟨c, hc, -⟩ | ⟨c, hc, hc'⟩
      · exact ⟨c, hc.symm⟩
      · cases c with
        | nil => rw [hc]; simp
        | cons d ds =>
          exfalso
          cases q with
          | nil => simp at hc'
          | cons z q =>
            simp only [List.flatMap_cons, List.cons_append, List.cons.injEq] at hc'
            rw [← hc'.1] at hc
            exact hx (by rw [hc]; simp)
  | cons c b ih =>
    intro q hb hq h
    cases q with
    | nil => simp [str] at h
    | cons y q =>
      rw [List.cons_append, str_cons, str_cons, List.cons_prefix_cons] at h
      have hc : '/' ∉ c := hb c (by simp)
      have hy : '/' ∉ y := hq y (by simp)
      obtain ⟨t, ht⟩ := h.2
      rw [List.append_assoc, List.append_eq_append_iff] at ht
      have hcy : c = y := by
        rcases ht with ⟨e, he, he'⟩ | ⟨e, he, he'⟩
        · cases e with
          | nil => simpa using he.symm
          | cons d ds =>
            exfalso
            have : d = '/' := by
              cases b with
              | nil => simp [str_cons] at he'; exact he'.1.symm
              | cons z b => simp [str_cons] at he'; exact he'.1.symm
            exact hy (by rw [he, this]; simp)
        · cases e with
          | nil => simpa using he
          | cons d ds =>
            exfalso
            cases q with
            | nil => simp [str] at he'
            | cons z q =>
              simp [str_cons] at he'
              exact hc (by rw [he, ← he'.1]; simp)
      subst hcy
      have h' : str (b ++ [x]) <+: str q := by
        have := h.2
        rwa [List.prefix_append_right_inj] at this
      obtain ⟨z, hz1, hz2⟩ := ih q (fun n hn => hb n (by simp at hn ⊢; exact .inr hn)) (fun n hn => hq n (by simp [hn])) h'
      exact ⟨z, hz1, by rw [List.cons_append]; exact List.cons_prefix_cons.2 ⟨rfl, hz2⟩⟩

/-- **C55.** When `C55_expand` applies: `.` and `..` do not occur, and no directory beside the build directory has a name
    that begins with that of the build directory. -/
theorem C55_plain {env : Env} {b : Path} {x : Name} {w : Wildcards} (hs : env.Sane)
    (hslash : ∀ p n i, (n, i) ∈ env.fs.entries p → '/' ∉ n)
    (hbase : ∀ n ∈ w.baseDir, '/' ∉ n ∧ n ≠ dot ∧ n ≠ dotDot) (hbd : ∀ n ∈ b ++ [x], '/' ∉ n)
    (hparts : ∀ pat ∈ w.patterns ++ w.excluded, dot ∉ partsOf env w pat ∧ dotDot ∉ partsOf env w pat)
    (hsib : ∀ y, x <+: y → y ≠ x → ∀ pat ∈ w.patterns ++ w.excluded, ∀ raw,
      Denotes env (startOf env w pat) (partsOf env w pat) raw → ¬ b ++ [y] <+: raw.dropLast) :
    w.Plain env (b ++ [x]) := by
  intro pat hp raw hden
  have hstart : ∀ n ∈ startOf env w pat, '/' ∉ n ∧ n ≠ dot ∧ n ≠ dotDot := by
    unfold startOf
    split
    · simp
    · exact hbase
  have hraw := denotes_comps (P := fun n => '/' ∉ n ∧ n ≠ dot ∧ n ≠ dotDot)
    (fun p n i h => ⟨hslash p n i h, hs.names p n i h⟩) hden hstart (hparts pat hp).1 (hparts pat hp).2
  rw [clean_of_plain (fun n hn => (hraw n hn).2)]
  unfold Inside
  constructor
  · intro h
    obtain ⟨y, hy1, hy2⟩ := str_prefix b raw.dropLast hbd (fun n hn => (hraw n (List.dropLast_subset _ hn)).1) h
    by_cases he : y = x
    · rw [he] at hy2; exact hy2
    · exact absurd hy2 (hsib y hy1 he pat hp raw hden)
  · exact str_prefix_of

/-! ## Noticing changes -/

theorem sameSet_iff {a b : List Path} : sameSet a b = true ↔ ∀ f, f ∈ a ↔ f ∈ b := by
  unfold sameSet
  simp only [Bool.and_eq_true, List.all_eq_true, List.contains_eq_mem, decide_eq_true_eq]
  exact ⟨fun h f => ⟨h.1 f, h.2 f⟩, fun h => ⟨fun f => (h f).1, fun f => (h f).2⟩⟩

/-- **C55.** If it is found that nothing has changed, the files are still those that are meant: a file that has appeared
    or vanished is noticed. -/
theorem C55_noticed {env : Env} {newer : Bool} {bd bd' : Path} {w : Wildcards} {files : List Path} (hs : env.Sane)
    (hne : w.NoEmpty env) (hpl : w.Plain env bd') (hin : ∀ f ∈ files, ¬ Inside bd f) (hsub : bd <+: bd')
    (h : hasChanged env newer bd' w files = some false) :
    ∀ f, f ∈ files ↔ Meant env w w.patterns f ∧ ¬ Meant env w w.excluded f ∧ ¬ Inside bd f := by
  obtain ⟨l, hl, hm⟩ := C55_expand hs hne hpl
  unfold hasChanged at h
  cases hn : newer
  · rw [hn, hl] at h
    simp only [Bool.false_eq_true, if_false, Option.map_some, Option.some.injEq, Bool.not_eq_false', sameSet_iff, hm] at h
    intro f
    constructor
    · intro hf
      have := (h f).1 hf
      exact ⟨this.1, this.2.1, hin f hf⟩
    · rintro ⟨h1, h2, h3⟩
      exact (h f).2 ⟨h1, h2, fun h4 => h3 (hsub.trans h4)⟩
  · rw [hn] at h
    simp at h

/-- **C55.** If the files are those that are meant, no directory is newer, and there is no matching file in the build
    directory outside that of the product, it is found that nothing has changed. Without the last condition it is false,
    see the finding. -/
theorem C55_quiet_partial {env : Env} {bd bd' : Path} {w : Wildcards} {files : List Path} (hs : env.Sane)
    (hne : w.NoEmpty env) (hpl : w.Plain env bd') (hsub : bd <+: bd')
    (hfiles : ∀ f, f ∈ files ↔ Meant env w w.patterns f ∧ ¬ Meant env w w.excluded f ∧ ¬ Inside bd f)
    (hgen : ∀ f, Meant env w w.patterns f → ¬ Meant env w w.excluded f → Inside bd f → Inside bd' f) :
    hasChanged env false bd' w files = some false := by
  obtain ⟨l, hl, hm⟩ := C55_expand hs hne hpl
  unfold hasChanged
  rw [hl]
  simp only [Bool.false_eq_true, if_false, Option.map_some, Option.some.injEq, Bool.not_eq_false', sameSet_iff, hm, hfiles]
  intro f
  constructor
  · rintro ⟨h1, h2, h3⟩
    exact ⟨h1, h2, fun h4 => h3 (hsub.trans h4)⟩
  · rintro ⟨h1, h2, h3⟩
    exact ⟨h1, h2, fun h4 => h3 (hgen f h1 h2 h4)⟩

end Verif.Wild
