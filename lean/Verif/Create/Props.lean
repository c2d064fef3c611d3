import Verif.Create.Lem2
import Verif.Common.Snoc
/-!
# C107 and C108: the project made for a source tree
-/
namespace Verif.Create

/-- **C107.**  What was written is a project that qbs can read, and its products have exactly the source files of the tree
that were to be taken, each of them as often as it is there: once. -/
theorem C107_sources_partial (c : Cfg) (path : List Str) (d : Dir) (hg : d.Good) (dirs : List Str → List Str)
    (hd : ∀ q, ∀ s ∈ dirs q, isQbs s = false) (out : Out) (h : create c path d = some out) :
    ∃ ps, Loads out dirs path (baseName d.name ++ ".qbs".toList) ps ∧
      (ps.flatMap Product.sources).Perm (d.sources c path) := by
  unfold create at h
  cases hs : setup c d with
  | none => rw [hs] at h; cases h
  | some p =>
    rw [hs] at h
    cases h
    obtain ⟨ps, h1, h2, _⟩ := load_ok (c := c) (dirs := dirs) (by
      intro q
      rw [List.filter_eq_nil_iff]
      intro s hm
      simp [hd q s hm]) p path _ (setup_good d p hg hs) (fun _ _ => rfl)
    refine ⟨ps, ?_, h2 ▸ setup_perm d p path hs⟩
    rw [← setup_name hs]
    exact h1

/-! ## Existing project files -/

mutual
theorem setup_none {c : Cfg} : ∀ (d : Dir), setup c d = none ↔ ∃ f ∈ d.all, isQbs f.name = true
  | .mk n fs ds => by
    rw [setup, Dir.all]
    have ih := setupAll_none (c := c) ds
    split
    · rename_i h
      obtain ⟨f, hf, h⟩ := List.any_eq_true.mp h
      simp only [true_iff]
      exact ⟨f, List.mem_append_left _ hf, h⟩
    · rename_i h
      split
      · rename_i hn
        obtain ⟨f, hf, h⟩ := ih.mp hn
        simp only [true_iff]
        exact ⟨f, List.mem_append_right _ hf, h⟩
      · rename_i ps hn
        constructor
        · intro hh; cases hh
        · rintro ⟨f, hf, hq⟩
          rcases List.mem_append.mp hf with hf | hf
          · exact absurd (List.any_eq_true.mpr ⟨f, hf, hq⟩) h
          · rw [ih.mpr ⟨f, hf, hq⟩] at hn
            cases hn
theorem setupAll_none {c : Cfg} : ∀ (l : List Dir), setupAll c l = none ↔ ∃ f ∈ dirsAll l, isQbs f.name = true
  | [] => by simp [setupAll, dirsAll]
  | d :: l => by
    rw [setupAll, dirsAll]
    have h1 := setup_none (c := c) d
    have h2 := setupAll_none (c := c) l
    split
    · rename_i hn
      obtain ⟨f, hf, h⟩ := h1.mp hn
      simp only [true_iff]
      exact ⟨f, List.mem_append_left _ hf, h⟩
    · rename_i p hp
      split
      · rename_i hn
        obtain ⟨f, hf, h⟩ := h2.mp hn
        simp only [true_iff]
        exact ⟨f, List.mem_append_right _ hf, h⟩
      · rename_i qs hq
        constructor
        · intro hh; cases hh
        · rintro ⟨f, hf, hb⟩
          rcases List.mem_append.mp hf with hf | hf
          · rw [h1.mpr ⟨f, hf, hb⟩] at hp; cases hp
          · rw [h2.mpr ⟨f, hf, hb⟩] at hq; cases hq
end

mutual
theorem written_qbs {c : Cfg} : ∀ (p : Proj) (path : List Str), ∀ x ∈ serialize c path p, isQbs x.1.2 = true
  | .mk n fs subs, path, x, h => by
    have hq : isQbs (baseName n ++ ".qbs".toList) = true := by
      unfold isQbs
      rw [List.isSuffixOf_iff_suffix]
      exact List.suffix_append _ _
    rw [serialize] at h
    simp only at h
    split at h
    · rw [List.mem_singleton] at h
      subst h
      exact hq
    · rcases List.mem_cons.mp h with rfl | h
      · exact hq
      · exact written_qbs_all subs path x h
theorem written_qbs_all {c : Cfg} : ∀ (l : List Proj) (path : List Str), ∀ x ∈ serializeAll c path l, isQbs x.1.2 = true
  | [], path, x, h => by cases h
  | p :: l, path, x, h => by
    rw [serializeAll] at h
    rcases List.mem_append.mp h with h | h
    · exact written_qbs p _ x h
    · exact written_qbs_all l path x h
end

/-- **C107.**  If there is a project file anywhere in the tree, nothing is written; otherwise project files are written
only, at the top and below, and no file of the tree has the name of one of them. -/
theorem C107_existing (c : Cfg) (path : List Str) (d : Dir) :
    (create c path d = none ↔ ∃ f ∈ d.all, isQbs f.name = true) ∧
    ∀ out, create c path d = some out → ∀ x ∈ out, path <+: x.1.1 ∧ isQbs x.1.2 = true ∧ ∀ f ∈ d.all, f.name ≠ x.1.2 := by
  unfold create
  constructor
  · rw [Option.map_eq_none_iff]
    exact setup_none d
  · intro out h x hx
    cases hs : setup c d with
    | none => rw [hs] at h; cases h
    | some p =>
      rw [hs] at h
      cases h
      have hq := written_qbs p path x hx
      refine ⟨keys p path x hx, hq, ?_⟩
      intro f hf he
      rw [← he] at hq
      rw [(setup_none d).mpr ⟨f, hf, hq⟩] at hs
      cases hs

/-- **C107.**  With the option for it, there is one project file only. -/
theorem C107_flat (c : Cfg) (path : List Str) (d : Dir) (hf : c.flat = true) (out : Out) (h : create c path d = some out) :
    ∃ i, out = [((path, baseName d.name ++ ".qbs".toList), i)] := by
  unfold create at h
  cases hs : setup c d with
  | none => rw [hs] at h; cases h
  | some p =>
    rw [hs] at h
    cases h
    rw [← setup_name hs]
    cases p with
    | mk n fs subs =>
      rw [serialize]
      simp only [hf, Bool.or_true, if_true]
      exact ⟨_, rfl⟩

/-! ## Names of products -/

mutual
/-- The names of the directories of a tree up to the first dot. -/
def Dir.baseNames : Dir → List Str
  | .mk n _ ds => baseName n :: baseNamesAll ds
def baseNamesAll : List Dir → List Str
  | [] => []
  | d :: l => d.baseNames ++ baseNamesAll l
end

theorem productsAll_eq (c : Cfg) (l : List Proj) : productsAll c l = l.flatMap (Proj.products c) := by
  induction l with
  | nil => rfl
  | cons p l ih => rw [productsAll, ih, List.flatMap_cons]

mutual
theorem products_count {c : Cfg} : ∀ (d : Dir) (p : Proj), setup c d = some p → ∀ x,
    (p.products c).count x ≤ d.baseNames.count x
  | .mk n fs ds, p, h, x => by
    rw [setup] at h
    split at h
    · cases h
    · split at h
      · cases h
      · rename_i subs hs
        cases h
        rw [Proj.products, Dir.baseNames]
        split
        · rw [List.count_cons, List.count_cons]
          simp
        · have h1 := productsAll_count ds subs hs x
          have h2 : (productsAll c (Common.isort (fun a b => c.le a.name b.name) subs)).count x =
              (productsAll c subs).count x := by
            rw [productsAll_eq, productsAll_eq]
            exact ((Common.isort_perm _ _).flatMap_right _).count_eq x
          rw [h2, List.count_cons]
          omega
theorem productsAll_count {c : Cfg} : ∀ (l : List Dir) (ps : List Proj), setupAll c l = some ps → ∀ x,
    (productsAll c ps).count x ≤ (baseNamesAll l).count x
  | [], ps, h, x => by cases h; exact Nat.le_refl _
  | d :: l, ps, h, x => by
    rw [setupAll] at h
    split at h
    · cases h
    · rename_i p hp
      split at h
      · cases h
      · rename_i qs hq
        cases h
        have h1 := products_count d p hp x
        have h2 := productsAll_count l qs hq x
        rw [baseNamesAll, List.count_append]
        split
        · omega
        · rw [productsAll, List.count_append]
          omega
end

/-- **C107.**  If the directories have different names up to the first dot, or there is one project file only, no two
products have the same name.  (Otherwise qbs refuses the project.) -/
theorem C107_names_partial (c : Cfg) (path : List Str) (d : Dir) (hg : d.Good) (dirs : List Str → List Str)
    (hd : ∀ q, ∀ s ∈ dirs q, isQbs s = false) (out : Out) (h : create c path d = some out)
    (hn : d.baseNames.Nodup ∨ c.flat = true) (ps : List Product)
    (hl : Loads out dirs path (baseName d.name ++ ".qbs".toList) ps) : (ps.map Product.name).Nodup := by
  unfold create at h
  cases hs : setup c d with
  | none => rw [hs] at h; cases h
  | some p =>
    rw [hs] at h
    cases h
    obtain ⟨ps', ⟨N, h1⟩, _, h3⟩ := load_ok (c := c) (dirs := dirs) (by
      intro q
      rw [List.filter_eq_nil_iff]
      intro s hm
      simp [hd q s hm]) p path _ (setup_good d p hg hs) (fun _ _ => rfl)
    obtain ⟨M, hl⟩ := hl
    have e1 := h1 (N + M) (by omega)
    have e2 := hl (N + M) (by omega)
    have hfile : p.file = baseName d.name ++ ".qbs".toList := by rw [← setup_name hs]; rfl
    rw [hfile] at e1
    have e2 : load (serialize c path p) dirs (N + M) path (baseName d.name ++ ".qbs".toList) = some ps := e2
    rw [e1] at e2
    cases e2
    rw [h3]
    rcases hn with hn | hn
    · rw [List.nodup_iff_count] at hn ⊢
      intro x
      exact Nat.le_trans (products_count d p hs x) (hn x)
    · cases p with
      | mk n fs subs => rw [Proj.products, hn, Bool.or_true, if_pos rfl]; simp

/-! ## The order of entries -/

theorem sorted_unique {α : Type} (key : α → Str) {le : Str → Str → Bool} (hle : Order le) : ∀ (l l' : List α), l.Perm l' →
    (l.map key).Nodup → l.Pairwise (fun a b => le (key a) (key b) = true) →
    l'.Pairwise (fun a b => le (key a) (key b) = true) → l = l' := by
  intro l
  induction l with
  | nil => intro l' h _ _ _; exact (List.nil_perm.mp h).symm
  | cons a l ih =>
    intro l' h hn h1 h2
    cases l' with
    | nil => exact absurd (List.perm_nil.mp h) (by simp)
    | cons b l' =>
      have hab : a = b := by
        rcases List.mem_cons.mp (h.mem_iff.mp (List.mem_cons_self (a := a) (l := l))) with e | ha
        · exact e
        · rcases List.mem_cons.mp (h.mem_iff.mpr (List.mem_cons_self (a := b) (l := l'))) with e | hb
          · exact e.symm
          · have k1 := (List.pairwise_cons.mp h1).1 b hb
            have k2 := (List.pairwise_cons.mp h2).1 a ha
            have := hle.antisymm _ _ k1 k2
            rw [List.map_cons, List.nodup_cons] at hn
            exact absurd (this ▸ List.mem_map_of_mem hb) hn.1
      subst hab
      rw [List.map_cons, List.nodup_cons] at hn
      rw [ih l' ((List.perm_cons a).mp h) hn.2 (List.pairwise_cons.mp h1).2 (List.pairwise_cons.mp h2).2]

theorem isort_unique {α : Type} (key : α → Str) {le : Str → Str → Bool} (hle : Order le) (l l' : List α) (h : l.Perm l')
    (hn : (l.map key).Nodup) : Common.isort (fun a b => le (key a) (key b)) l = Common.isort (fun a b => le (key a) (key b)) l' := by
  refine sorted_unique key hle _ _ ((Common.isort_perm _ _).trans (h.trans (Common.isort_perm _ _).symm)) ?_ ?_ ?_
  · exact (((Common.isort_perm _ _).map key).nodup_iff).mpr hn
  · exact Common.isort_sorted (fun a b => le (key a) (key b)) (fun a b => hle.total _ _) (fun a b d => hle.trans _ _ _) _
  · exact Common.isort_sorted (fun a b => le (key a) (key b)) (fun a b => hle.total _ _) (fun a b d => hle.trans _ _ _) _

theorem setupAll_reorder {c : Cfg} {l l' : List Dir} (h : l.Perm l') : ∀ ps, setupAll c l = some ps →
    ∃ ps', setupAll c l' = some ps' ∧ ps.Perm ps' := by
  induction h with
  | nil => intro ps h; exact ⟨ps, h, .refl _⟩
  | cons d _ ih =>
    intro ps h
    rw [setupAll] at h ⊢
    split at h
    · cases h
    · split at h
      · cases h
      · rename_i p hp qs hq
        cases h
        obtain ⟨qs', h1, h2⟩ := ih qs hq
        simp only [h1]
        refine ⟨_, rfl, ?_⟩
        split
        · exact h2
        · exact h2.cons _
  | swap d e l =>
    intro ps h
    simp only [setupAll] at h ⊢
    cases hd : setup c d with
    | none =>
      rw [hd] at h
      cases he : setup c e with
      | none => rw [he] at h; cases h
      | some q => rw [he] at h; cases h
    | some p =>
      cases he : setup c e with
      | none => rw [he] at h; cases h
      | some q =>
        rw [hd, he] at h
        cases hl : setupAll c l with
        | none => rw [hl] at h; cases h
        | some qs =>
          rw [hl] at h
          simp only [Option.some.injEq] at h ⊢
          subst h
          refine ⟨_, rfl, ?_⟩
          by_cases h1 : p.isEmpty = true
          · simp only [h1, if_true]; exact .refl _
          · by_cases h2 : q.isEmpty = true
            · simp only [h2, if_true]; exact .refl _
            · simp only [h1, h2]; exact .swap _ _ _
  | trans _ _ ih1 ih2 =>
    intro ps h
    obtain ⟨qs, h1, h2⟩ := ih1 ps h
    obtain ⟨rs, h3, h4⟩ := ih2 qs h1
    exact ⟨rs, h3, h2.trans h4⟩

theorem reorder_name {d e : Dir} (h : Reorder d e) : d.name = e.name := by
  induction h with
  | perm => rfl
  | child => rfl
  | trans _ _ ih1 ih2 => exact ih1.trans ih2

theorem reorder_good {d e : Dir} (h : Reorder d e) : d.Good → e.Good := by
  induction h with
  | perm h1 h2 =>
    intro hg
    rw [Dir.Good, GoodAll_iff] at hg ⊢
    exact ⟨hg.1, fun f hf => hg.2.1 f (h1.mem_iff.mpr hf), ((h1.map _).nodup_iff).mp hg.2.2.1,
      ((h2.map _).nodup_iff).mp hg.2.2.2.1, fun d hd => hg.2.2.2.2 d (h2.mem_iff.mpr hd)⟩
  | child h ih =>
    intro hg
    rw [Dir.Good, GoodAll_iff] at hg ⊢
    refine ⟨hg.1, hg.2.1, hg.2.2.1, ?_, ?_⟩
    · have := hg.2.2.2.1
      rw [List.map_append, List.map_cons] at this ⊢
      rw [← reorder_name h]
      exact this
    · intro d hd
      have := hg.2.2.2.2
      rcases List.mem_append.mp hd with hd | hd
      · exact this d (by simp [hd])
      · rcases List.mem_cons.mp hd with rfl | hd
        · exact ih (this _ (by simp))
        · exact this d (by simp [hd])
  | trans _ _ ih1 ih2 => exact fun h => ih2 (ih1 h)

theorem setupAll_child {c : Cfg} {d d' : Dir} (h : setup c d = setup c d') (b : List Dir) : ∀ a : List Dir,
    setupAll c (a ++ d :: b) = setupAll c (a ++ d' :: b) := by
  intro a
  induction a with
  | nil => simp only [List.nil_append, setupAll, h]
  | cons x a ih => simp only [List.cons_append, setupAll, ih]

theorem setup_reorder {c : Cfg} (hle : Order c.le) {d e : Dir} (h : Reorder d e) : d.Good → setup c d = setup c e := by
  induction h with
  | @perm n f f' l l' h1 h2 =>
    intro hg
    rw [Dir.Good] at hg
    rw [setup, setup]
    have ha : f.any (fun f => isQbs f.name) = f'.any (fun f => isQbs f.name) := by
      rw [Bool.eq_iff_iff, List.any_eq_true, List.any_eq_true]
      exact ⟨fun ⟨x, a, b⟩ => ⟨x, h1.mem_iff.mp a, b⟩, fun ⟨x, a, b⟩ => ⟨x, h1.mem_iff.mpr a, b⟩⟩
    rw [ha]
    split
    · rfl
    · cases hs : setupAll c l with
      | none =>
        cases hs' : setupAll c l' with
        | none => rfl
        | some ps' =>
          obtain ⟨ps, h, _⟩ := setupAll_reorder h2.symm ps' hs'
          rw [hs] at h; cases h
      | some ps =>
        obtain ⟨ps', hs', hp⟩ := setupAll_reorder h2 ps hs
        rw [hs']
        simp only
        rw [isort_unique File.name hle _ _ (h1.filter _) ((List.filter_sublist.map _).nodup hg.2.2.1),
          isort_unique Proj.name hle _ _ hp ((setupAll_names hs).nodup hg.2.2.2.1)]
  | child h ih =>
    intro hg
    rw [Dir.Good, GoodAll_iff] at hg
    rw [setup, setup, setupAll_child (ih (hg.2.2.2.2 _ (by simp)))]
  | trans h1 _ ih1 ih2 =>
    intro hg
    exact (ih1 hg).trans (ih2 (reorder_good h1 hg))

/-- **C107.**  The order in which the system lists the entries of directories has no influence. -/
theorem C107_order (c : Cfg) (hle : Order c.le) (path : List Str) (d e : Dir) (hg : d.Good) (h : Reorder d e) :
    create c path d = create c path e := by
  unfold create
  rw [setup_reorder hle h hg]

/-! ## C108: what kind of product it is -/

theorem contains_iff (t : Str) : ∀ s : Str, contains t s = true ↔ t <:+: s := by
  intro s
  induction s with
  | nil => rw [contains, List.isEmpty_iff, List.infix_nil]
  | cons c s ih => rw [contains, Bool.or_eq_true, ih, List.isPrefixOf_iff_prefix, List.infix_cons_iff]

theorem takeWhile_dot (x y : Str) (hx : '.' ∉ x) : (x ++ '.' :: y).takeWhile (· ≠ '.') = x := by
  induction x with
  | nil => simp
  | cons c x ih =>
    have hc : c ≠ '.' := fun h => hx (by simp [h])
    rw [List.cons_append, List.takeWhile_cons, if_pos (by simpa using hc), ih (fun h => hx (by simp [h]))]

theorem suffix_iff (s x : Str) (hx : '.' ∉ x) (hne : x ≠ []) : suffix s = x ↔ '.' :: x <:+ s := by
  unfold suffix
  constructor
  · split
    · rename_i hs
      intro h
      have h1 : s.reverse = s.reverse.takeWhile (· ≠ '.') ++ s.reverse.dropWhile (· ≠ '.') := List.takeWhile_append_dropWhile.symm
      have h2 : s.reverse.takeWhile (· ≠ '.') = x.reverse := by rw [← h, List.reverse_reverse]
      cases hd : s.reverse.dropWhile (· ≠ '.') with
      | nil =>
        rw [hd, h2, List.append_nil] at h1
        have : s = x := List.reverse_inj.mp h1
        exact absurd (this ▸ hs) hx
      | cons c r =>
        have hc : c = '.' := by
          have := List.head?_dropWhile_not (fun c : Char => decide (c ≠ '.')) s.reverse
          rw [hd] at this
          simpa using this
        subst hc
        rw [hd, h2] at h1
        refine ⟨r.reverse, ?_⟩
        apply List.reverse_inj.mp
        rw [h1]
        simp
    · intro h; exact absurd h.symm hne
  · rintro ⟨r, rfl⟩
    rw [if_pos (by simp)]
    rw [List.reverse_append, List.reverse_cons, List.append_assoc]
    have := takeWhile_dot x.reverse (r.reverse) (by simpa using hx)
    simp only [List.cons_append, List.nil_append] at this ⊢
    rw [this, List.reverse_reverse]

/-- The name has this suffix. -/
def Ends (ext : String) (f : File) : Prop := '.' :: ext.toList <:+ f.name

/-- A file for a compiler. -/
def Compiled (f : File) : Prop := Ends "cpp" f ∨ Ends "c" f ∨ Ends "m" f ∨ Ends "mm" f

/-- A file that can be read and contains the text. -/
def Has (t : String) (f : File) : Prop := ∃ s, f.text = some s ∧ t.toList <:+: s

theorem compiled_iff (f : File) : suffix f.name ∈ ["cpp".toList, "c".toList, "m".toList, "mm".toList] ↔ Compiled f := by
  simp only [List.mem_cons, List.not_mem_nil, or_false]
  rw [suffix_iff _ _ (by decide) (by decide), suffix_iff _ _ (by decide) (by decide), suffix_iff _ _ (by decide) (by decide),
    suffix_iff _ _ (by decide) (by decide)]
  rfl

theorem qrc_iff (f : File) : suffix f.name = "qrc".toList ↔ Ends "qrc" f := suffix_iff _ _ (by decide) (by decide)

/-- What is known after the names of some files. -/
structure Known (l : List File) (f : Flags) : Prop where
  qt : f.qt = true ↔ ∃ x ∈ l, Ends "qrc" x
  cpp : f.cpp = true → ∃ x ∈ l, Compiled x
  compiled : (∃ x ∈ l, Compiled x) → f.cpp = true ∨ (f.app = true ∧ f.qt = true)
  app : f.app = true → f.cpp = true ∧ ∃ x ∈ l, completeBaseName x.name = "main".toList
  main : (∃ x ∈ l, Compiled x ∧ completeBaseName x.name = "main".toList) → f.app = true

theorem not_both (x : File) (h : Ends "qrc" x) (h' : Compiled x) : False := by
  have h1 := (qrc_iff x).mpr h
  have h2 := (compiled_iff x).mpr h'
  rw [h1] at h2
  revert h2
  decide

theorem known_snoc {l : List File} {f : Flags} (h : Known l f) (x : File) : Known (l ++ [x]) (nameFlags f x) := by
  have ex : ∀ P : File → Prop, (∃ y ∈ l ++ [x], P y) ↔ (∃ y ∈ l, P y) ∨ P x := by
    intro P
    constructor
    · rintro ⟨y, hy, hp⟩
      rcases List.mem_append.mp hy with hy | hy
      · exact .inl ⟨y, hy, hp⟩
      · rw [List.mem_singleton] at hy; exact .inr (hy ▸ hp)
    · rintro (⟨y, hy, hp⟩ | hp)
      · exact ⟨y, by simp [hy], hp⟩
      · exact ⟨x, by simp, hp⟩
  unfold nameFlags
  by_cases h0 : (f.app && f.qt) = true
  · rw [if_pos h0]
    rw [Bool.and_eq_true] at h0
    refine ⟨?_, ?_, fun _ => .inr h0, ?_, fun _ => h0.1⟩
    · rw [ex]
      exact ⟨fun hq => .inl (h.qt.mp hq), fun _ => h0.2⟩
    · intro hc; rw [ex]; exact .inl (h.cpp hc)
    · intro ha
      obtain ⟨a, b⟩ := h.app ha
      rw [ex]
      exact ⟨a, .inl b⟩
  · rw [if_neg h0]
    by_cases hq : suffix x.name = "qrc".toList
    · rw [if_pos hq]
      have hq := (qrc_iff x).mp hq
      refine ⟨?_, ?_, ?_, ?_, ?_⟩
      · rw [ex]; simp [hq]
      · intro hc; rw [ex]; exact .inl (h.cpp hc)
      · rw [ex]
        rintro (hc | hc)
        · rcases h.compiled hc with a | ⟨a, b⟩
          · exact .inl a
          · exact .inr ⟨a, rfl⟩
        · exact absurd hc (not_both x hq)
      · intro ha
        obtain ⟨a, b⟩ := h.app ha
        rw [ex]
        exact ⟨a, .inl b⟩
      · rw [ex]
        rintro (hc | ⟨hc, _⟩)
        · exact h.main hc
        · exact absurd hc (not_both x hq)
    · rw [if_neg hq]
      have hq : ¬ Ends "qrc" x := fun hh => hq ((qrc_iff x).mpr hh)
      by_cases hc : suffix x.name ∈ ["cpp".toList, "c".toList, "m".toList, "mm".toList]
      · simp only [if_pos hc, Bool.true_and]
        have hc := (compiled_iff x).mp hc
        by_cases hm : completeBaseName x.name = "main".toList
        · rw [if_pos (by simpa using hm)]
          refine ⟨?_, ?_, fun _ => .inl rfl, ?_, fun _ => rfl⟩
          · rw [ex]; simp only [hq, or_false]; exact h.qt
          · intro _; rw [ex]; exact .inr hc
          · intro _; rw [ex]; exact ⟨rfl, .inr hm⟩
        · rw [if_neg (by simpa using hm)]
          refine ⟨?_, ?_, fun _ => .inl rfl, ?_, ?_⟩
          · rw [ex]; simp only [hq, or_false]; exact h.qt
          · intro _; rw [ex]; exact .inr hc
          · intro ha
            obtain ⟨a, b⟩ := h.app ha
            rw [ex]
            exact ⟨rfl, .inl b⟩
          · rw [ex]
            rintro (hh | ⟨_, hh⟩)
            · exact h.main hh
            · exact absurd hh hm
      · simp only [if_neg hc]
        have hc : ¬ Compiled x := fun hh => hc ((compiled_iff x).mpr hh)
        by_cases hm : (f.cpp && decide (completeBaseName x.name = "main".toList)) = true
        · rw [if_pos hm]
          rw [Bool.and_eq_true, decide_eq_true_eq] at hm
          refine ⟨?_, ?_, fun _ => .inl hm.1, ?_, fun _ => rfl⟩
          · rw [ex]; simp only [hq, or_false]; exact h.qt
          · intro _; rw [ex]; exact .inl (h.cpp hm.1)
          · intro _; rw [ex]; exact ⟨hm.1, .inr hm.2⟩
        · rw [if_neg hm]
          refine ⟨?_, ?_, ?_, ?_, ?_⟩
          · rw [ex]; simp only [hq, or_false]; exact h.qt
          · intro hh; rw [ex]; exact .inl (h.cpp hh)
          · rw [ex]; simp only [hc, or_false]; exact h.compiled
          · intro ha
            obtain ⟨a, b⟩ := h.app ha
            rw [ex]
            exact ⟨a, .inl b⟩
          · rw [ex]; simp only [hc, false_and, or_false]; exact h.main

theorem known_fold (l : List File) : Known l (l.foldl nameFlags {}) := by
  induction l using Verif.snoc_induction with
  | nil => exact ⟨by simp, by simp, by simp, by simp, by simp⟩
  | append_singleton l x ih => rw [List.foldl_append]; exact known_snoc ih x

theorem content_fold : ∀ (l : List File) (f : Flags),
    ((l.foldl contentFlags f).qt = true ↔ f.qt = true ∨ ∃ x ∈ l, Has "#include <Q" x) ∧
    ((l.foldl contentFlags f).app = true ↔ f.app = true ∨ ∃ x ∈ l, Has "int main" x) ∧
    (l.foldl contentFlags f).cpp = f.cpp := by
  intro l
  induction l with
  | nil => intro f; simp
  | cons x l ih =>
    intro f
    rw [List.foldl_cons]
    obtain ⟨h1, h2, h3⟩ := ih (contentFlags f x)
    have key : ((contentFlags f x).qt = true ∨ (∃ y ∈ l, Has "#include <Q" y) ↔ f.qt = true ∨ ∃ y ∈ x :: l, Has "#include <Q" y) ∧
        ((contentFlags f x).app = true ∨ (∃ y ∈ l, Has "int main" y) ↔ f.app = true ∨ ∃ y ∈ x :: l, Has "int main" y) ∧
        (contentFlags f x).cpp = f.cpp := by
      unfold contentFlags
      split
      · rename_i h
        rw [Bool.and_eq_true] at h
        simp [h.1, h.2]
      · split
        · rename_i h
          have hn : ∀ t, ¬ Has t x := by
            rintro t ⟨s, hs, _⟩
            rw [h] at hs; cases hs
          simp [hn]
        · rename_i s h
          have hn : ∀ t : String, contains t.toList s = true ↔ Has t x := by
            intro t
            rw [contains_iff]
            constructor
            · intro hh; exact ⟨s, h, hh⟩
            · rintro ⟨s', hs', hh⟩
              rw [h] at hs'; cases hs'
              exact hh
          simp only [Bool.or_eq_true, hn, List.mem_cons, exists_eq_or_imp, and_true]
          constructor <;> rw [or_assoc]
    exact ⟨h1.trans key.1, h2.trans key.2.1, h3.trans key.2.2⟩

/-- **C108.**  The product depends on Qt just if there is a resource file, or there are files for a compiler and some file
includes a header of Qt; otherwise on the compiler just if there are files for it. -/
theorem C108_depends (p : Proj) :
    let needsQt := (∃ x ∈ p.all, Ends "qrc" x) ∨ ((∃ x ∈ p.all, Compiled x) ∧ ∃ x ∈ p.all, Has "#include <Q" x)
    ((getFlags p).dep = some "Qt".toList ↔ needsQt) ∧
    ((getFlags p).dep = some "cpp".toList ↔ ¬ needsQt ∧ ∃ x ∈ p.all, Compiled x) := by
  have hk := known_fold p.all
  obtain ⟨c1, c2, c3⟩ := content_fold p.all (p.all.foldl nameFlags {})
  have hqt : (getFlags p).qt = true ↔ (∃ x ∈ p.all, Ends "qrc" x) ∨
      ((∃ x ∈ p.all, Compiled x) ∧ ∃ x ∈ p.all, Has "#include <Q" x) := by
    unfold getFlags
    simp only
    split
    · rename_i h
      rw [Bool.and_eq_true] at h
      simp only [h.2, true_iff]
      exact .inl (hk.qt.mp h.2)
    · rename_i h
      split
      · rename_i hc
        have hno : ¬ ∃ x ∈ p.all, Compiled x := by
          intro hh
          rcases hk.compiled hh with a | ⟨a, b⟩
          · rw [a] at hc; cases hc
          · rw [a, b] at h; exact h rfl
        rw [hk.qt]
        simp [hno]
      · rename_i hc
        have hc : (p.all.foldl nameFlags {}).cpp = true := by simpa using hc
        have := hk.cpp hc
        rw [c1, hk.qt]
        simp only [this, true_and]
  have hcpp : (getFlags p).qt = false → ((getFlags p).cpp = true ↔ ∃ x ∈ p.all, Compiled x) := by
    intro hq
    unfold getFlags at hq ⊢
    simp only at hq ⊢
    split at hq
    · rename_i h
      rw [Bool.and_eq_true] at h
      rw [h.2] at hq; cases hq
    · rename_i h
      rw [if_neg h]
      have hb : (p.all.foldl nameFlags {}).cpp = true ↔ ∃ x ∈ p.all, Compiled x := by
        refine ⟨hk.cpp, fun hh => ?_⟩
        rcases hk.compiled hh with a | ⟨a, b⟩
        · exact a
        · rw [a, b] at h; exact absurd rfl h
      split
      · exact hb
      · rw [c3]; exact hb
  refine ⟨?_, ?_⟩
  · rw [← hqt]
    unfold Flags.dep
    split
    · simp_all
    · rename_i hq
      simp only [hq]
      split
      · simp
      · simp
  · rw [← hqt]
    unfold Flags.dep
    split
    · rename_i hq
      simp [hq]
    · rename_i hq
      rw [Bool.not_eq_true] at hq
      rw [← hcpp hq]
      simp only [hq]
      split
      · rename_i hc; simp [hc]
      · rename_i hc; simp [hc]

/-- **C108.**  It is an application if there is a main file for a compiler, or there are files for a compiler and a file
says `int main`; and only if there are files for a compiler, and a file with the name or the text. -/
theorem C108_type_partial (p : Proj) :
    ((∃ x ∈ p.all, Compiled x ∧ completeBaseName x.name = "main".toList) ∨
      ((∃ x ∈ p.all, Compiled x) ∧ ∃ x ∈ p.all, Has "int main" x) → (getFlags p).app = true) ∧
    ((getFlags p).app = true → (∃ x ∈ p.all, Compiled x) ∧
      ∃ x ∈ p.all, completeBaseName x.name = "main".toList ∨ Has "int main" x) := by
  have hk := known_fold p.all
  obtain ⟨c1, c2, c3⟩ := content_fold p.all (p.all.foldl nameFlags {})
  have appOf : (p.all.foldl nameFlags {}).app = true → (∃ x ∈ p.all, Compiled x) ∧
      ∃ x ∈ p.all, completeBaseName x.name = "main".toList ∨ Has "int main" x := by
    intro h
    obtain ⟨a, x, hx, hm⟩ := hk.app h
    exact ⟨hk.cpp a, x, hx, .inl hm⟩
  unfold getFlags
  simp only
  split
  · rename_i h
    rw [Bool.and_eq_true] at h
    exact ⟨fun _ => h.1, appOf⟩
  · rename_i h
    split
    · rename_i hc
      refine ⟨?_, appOf⟩
      have hno : ¬ ∃ x ∈ p.all, Compiled x := by
        intro hh
        rcases hk.compiled hh with a | ⟨a, b⟩
        · rw [a] at hc; cases hc
        · rw [a, b] at h; exact h rfl
      rintro (⟨x, hx, hcx, _⟩ | ⟨hh, _⟩)
      · exact absurd ⟨x, hx, hcx⟩ hno
      · exact absurd hh hno
    · rename_i hc
      have hc : (p.all.foldl nameFlags {}).cpp = true := by simpa using hc
      rw [c2]
      constructor
      · rintro (hh | ⟨_, hh⟩)
        · exact .inl (hk.main hh)
        · exact .inr hh
      · rintro (hh | ⟨x, hx, hh⟩)
        · exact appOf hh
        · exact ⟨hk.cpp hc, x, hx, .inr hh⟩

end Verif.Create
