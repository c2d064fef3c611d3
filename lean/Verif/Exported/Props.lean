import Verif.Exported.Lem2

/-! Property C123: what a product exports. -/
namespace Verif.Exported

/-- **C123.** A string no prefix matches is exported as it is. -/
theorem C123_unmapped (l : List (Str × Str)) (v : Str) (h : ∀ e ∈ l, ¬ e.1 <+: v) :
    stringMapper (prefixMap l) v = v :=
  stringMapper_none _ _ (fun p hp => by
    rcases mem_prefixMap l [] p hp with h' | h'
    · exact h p h'
    · cases h')

/-- **C123.** In a string, the shortest prefix that matches is replaced, by the last replacement given
for it.  The order of the entries does not matter otherwise. -/
theorem C123_mapped (l : List (Str × Str)) (v p r : Str)
    (hr : replacement l p = some r) (hp : p <+: v)
    (hmin : ∀ e ∈ l, e.1 <+: v → p.length ≤ e.1.length) :
    stringMapper (prefixMap l) v = r ++ v.drop p.length := by
  obtain ⟨h1, h2⟩ := prefixMap_ok l
  refine stringMapper_sorted _ h1 v p r (by rw [h2]; exact hr) hp ?_
  intro q r' hq hqv
  rw [h2] at hq
  unfold replacement at hq
  cases hf : l.reverse.find? (fun e => e.1 = q) with
  | none => rw [hf] at hq; cases hq
  | some e =>
    have h3 := List.mem_of_find?_eq_some hf
    have h4 := List.find?_some hf
    simp only [decide_eq_true_eq] at h4
    have := hmin e (List.mem_reverse.mp h3) (by rw [h4]; exact hqv)
    rw [h4] at this
    exact this

/-- **C123 finding.** The entry for a directory is never used if there is one for a directory above
it, in whatever order they are given: the mapping for the directory above is used, for every file
below. -/
theorem C123_specific (a b : Str × Str) (rest : Str) (h : a.1 <+: b.1) (hne : a.1 ≠ b.1) :
    stringMapper (prefixMap [a, b]) (b.1 ++ rest) = a.2 ++ (b.1 ++ rest).drop a.1.length ∧
      stringMapper (prefixMap [b, a]) (b.1 ++ rest) = a.2 ++ (b.1 ++ rest).drop a.1.length := by
  have hb : ¬ b.1 = a.1 := fun e => hne e.symm
  have hle := List.IsPrefix.length_le h
  refine ⟨C123_mapped _ _ _ _ ?_ (h.trans (List.prefix_append _ _)) ?_,
    C123_mapped _ _ _ _ ?_ (h.trans (List.prefix_append _ _)) ?_⟩
  · simp [replacement, hb]
  · intro e he _
    simp only [List.mem_cons, List.not_mem_nil, or_false] at he
    rcases he with e | e <;> subst e
    · exact Nat.le_refl _
    · exact hle
  · simp [replacement]
  · intro e he _
    simp only [List.mem_cons, List.not_mem_nil, or_false] at he
    rcases he with e | e <;> subst e
    · exact hle
    · exact Nat.le_refl _

/-- **C123 finding.** Prefixes are not directories: the entry for `/opt` also changes `/optional`. -/
theorem C123_boundary : stringMapper (prefixMap [("/opt".toList, "/x".toList)]) "/optional/a".toList =
    "/xional/a".toList := by decide

/-- **C123 finding.** An entry without prefix puts its replacement in front of every string, and
disables all other entries. -/
theorem C123_empty (l : List (Str × Str)) (r v : Str) (h : replacement l [] = some r) :
    stringMapper (prefixMap l) v = r ++ v :=
  C123_mapped l v [] r h (List.nil_prefix) (by simp)

/-- **C123.** A list of strings is exported element by element, in order, without those that refer to
the product that imports it. -/
theorem C123_list (sh : Shadow) (m : List (Str × Str)) (l : List Str) :
    listMapper sh m l = (l.filter (fun v => ! refers sh v)).map (stringMapper m) := by
  induction l with
  | nil => rfl
  | cons v l ih =>
    simp only [listMapper, List.filter_cons]
    cases refers sh v <;> simp [ih]

theorem contains_iff (v s : Str) : contains v s = true ↔ ∃ a b, v = a ++ s ++ b := by
  induction v with
  | nil =>
    simp only [contains, List.isEmpty_iff]
    constructor
    · rintro rfl; exact ⟨[], [], rfl⟩
    · rintro ⟨a, b, h⟩
      have := (List.append_eq_nil_iff.mp h.symm).1
      exact (List.append_eq_nil_iff.mp this).2
  | cons c v ih =>
    simp only [contains, Bool.or_eq_true, ih]
    constructor
    · rintro (h | ⟨a, b, h⟩)
      · obtain ⟨t, ht⟩ := List.isPrefixOf_iff_prefix.mp h
        exact ⟨[], t, by simpa using ht.symm⟩
      · exact ⟨c :: a, b, by rw [h]; simp⟩
    · rintro ⟨a, b, h⟩
      cases a with
      | nil => exact .inl (List.isPrefixOf_iff_prefix.mpr ⟨b, by simpa using h.symm⟩)
      | cons x a =>
        simp only [List.cons_append, List.cons.injEq] at h
        exact .inr ⟨a, b, h.2⟩

/-- **C123.** A string refers to the importing product if it contains the name of it, in upper or
lower case, or its build directory. -/
theorem C123_refers (sh : Shadow) (v : Str) : refers sh v = true ↔
    (∃ a b, v.map Char.toLower = a ++ sh.name.map Char.toLower ++ b) ∨
      ∃ a b, v = a ++ sh.buildDir ++ b := by
  simp [refers, contains_iff]

/-- **C123.** Nothing else about the properties is changed: the names stay, and so does every value
that is neither a string nor a list of strings. -/
theorem C123_names (sh : Shadow) (l : List (Str × Str)) (props : List (Str × Val)) :
    (adapt sh l props).map (·.1) = props.map (·.1) ∧
      ∀ n k, (n, Val.other k) ∈ adapt sh l props ↔ (n, Val.other k) ∈ props := by
  refine ⟨by simp [adapt], ?_⟩
  intro n k
  simp only [adapt, List.mem_map]
  constructor
  · rintro ⟨⟨n', v⟩, h, e⟩
    cases v <;> simp [mapper] at e
    obtain ⟨rfl, rfl⟩ := e
    exact h
  · intro h
    exact ⟨_, h, rfl⟩

/-- **C123.** What becomes of a string and of a list of strings. -/
theorem C123_values (sh : Shadow) (l : List (Str × Str)) (props : List (Str × Val)) (n : Str) :
    (∀ s, (n, Val.str s) ∈ props → (n, Val.str (stringMapper (prefixMap l) s)) ∈ adapt sh l props) ∧
      ∀ ss, (n, Val.strs ss) ∈ props →
        (n, Val.strs ((ss.filter (fun v => ! refers sh v)).map (stringMapper (prefixMap l)))) ∈
          adapt sh l props := by
  refine ⟨fun s h => List.mem_map.mpr ⟨_, h, rfl⟩, fun ss h => List.mem_map.mpr ⟨_, h, ?_⟩⟩
  simp [mapper, C123_list]

/-- **C123 finding.** A string that refers to the importing product is exported nevertheless, if it is
not in a list. -/
theorem C123_string_refers (sh : Shadow) (l : List (Str × Str)) (n v : Str)
    (h : ∀ e ∈ l, ¬ e.1 <+: v) (props : List (Str × Val)) (hp : (n, .str v) ∈ props) :
    (n, .str v) ∈ adapt sh l props := by
  have := (C123_values sh l props n).1 v hp
  rwa [C123_unmapped l v h] at this

/-- **C123 finding.** Lists that are not declared as lists of strings are exported as they are: no
prefix is replaced in them, and nothing that refers to the importing product is removed. -/
theorem C123_untyped (sh : Shadow) (l : List (Str × Str)) (n : Str) (ss : List Str)
    (props : List (Str × Val)) (hp : (n, .list ss) ∈ props) : (n, .list ss) ∈ adapt sh l props :=
  List.mem_map.mpr ⟨_, hp, rfl⟩

/-- **C123.** The names of the products an Export item depends on: each once, in order. -/
theorem C123_products (e : Export) :
    (depNames e).Pairwise (fun a b => strLt a b = true) ∧
      ∀ x, x ∈ depNames e ↔ ∃ d ∈ e.deps, d.product = x := by
  obtain ⟨h1, h2⟩ := uniq_ok e.deps [] List.nodup_nil
  obtain ⟨h3, h4⟩ := sortStrs_ok _ h1
  refine ⟨h3, fun x => ?_⟩
  rw [depNames, h4, h2]
  simp

/-- The full statement about parameters: those given for a dependency in the Export item are
exported for it. -/
def ParamsExported : Prop :=
  ∀ e : Export, ∀ d ∈ e.deps, d.given ≠ [] → ∃ p ∈ depParams e, p.1 = d.product ∧ ∀ x ∈ d.given, x ∈ p.2

/-- **C123 finding.** The parameters given for a dependency in the Export item are lost.  What is
exported for every dependency instead are the default parameters for those that depend on the
exporting product. -/
theorem C123_params (e : Export) (p : Str × Params) :
    p ∈ depParams e ↔ e.defaults ≠ [] ∧ p.2 = e.defaults ∧ ∃ d ∈ e.deps, d.product = p.1 := by
  by_cases h : e.defaults = []
  · have : ∀ (l : List PDep) (m : List (Str × Params)),
        l.foldl (fun m d => if shadowParams e = [] then m
          else paramInsert d.product (shadowParams e) m) m = m := by
      intro l
      induction l with
      | nil => intro m; rfl
      | cons d l ih => intro m; simp only [List.foldl_cons]; rw [if_pos (by exact h)]; exact ih m
    rw [depParams, this]
    simp [h]
  · rw [depParams]
    have := params_fold e.defaults h e.deps [] (by simp) p
    refine Iff.trans this ?_
    simp [h]

/-- **C123 finding.** So the parameters are not exported. -/
theorem C123_params_lost : ¬ ParamsExported := by
  intro h
  obtain ⟨p, hp, _⟩ := h ⟨[], [⟨['a'], [(['x'], ['y'])]⟩]⟩ ⟨['a'], [(['x'], ['y'])]⟩ (by simp) (by simp)
  rw [C123_params] at hp
  exact hp.1 rfl

/-- **C123.** Each module is listed once. -/
theorem C123_modules_once (ms : List Mod) (direct : List Nat) : (moduleDeps ms direct).Nodup := by
  obtain ⟨w, e, n, _⟩ := (moduleDeps_inv (ms := ms) (direct := direct)).1
  rw [e]; simpa using n

/-- **C123.** The modules that are listed are those the Export item depends on, directly or through
other modules that count. -/
theorem C123_modules (ms : List Mod) (direct : List Nat) (h1 : OneEach ms) (n : List Str) :
    n ∈ moduleDeps ms direct ↔ ∃ i, Needs ms direct i ∧ Named ms i n := by
  obtain ⟨⟨w, e, _, _, p⟩, hd⟩ := moduleDeps_inv (ms := ms) (direct := direct)
  have ew : moduleDeps ms direct = w := by simpa using e
  constructor
  · intro h
    rw [ew] at h
    obtain ⟨i, m, hm, hn, hneed, _⟩ := p n h
    exact ⟨i, hneed, m, hm, hn⟩
  · rintro ⟨i, hneed, hn⟩
    have counts : ∀ {i}, Needs ms direct i → Counts ms i := by
      intro i h
      cases h with
      | direct _ h => exact h
      | sub _ _ _ h => exact h
    induction hneed generalizing n with
    | direct hi hc => exact hd _ hi hc n hn
    | @sub i j m hi hm hj hc ih =>
      have h2 := ih m.name ⟨m, hm, rfl⟩
      rw [ew] at h2
      obtain ⟨i', m', hm', hn', hneed', hcl⟩ := p _ h2
      have : i' = i := h1 i' i m.name (counts hneed') (counts hi) ⟨m', hm', hn'⟩ ⟨m, hm, rfl⟩
      subst this
      rw [hm] at hm'; cases hm'
      exact hcl j hj hc n hn

end Verif.Exported
