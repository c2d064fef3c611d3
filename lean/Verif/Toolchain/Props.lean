import Verif.Toolchain.Spec
/-
C80: the canonical list of toolchains.
-/

namespace Verif.Toolchain

open Verif.Common Spec

theorem mem_known {a : Str} : a ∈ known ↔ Known a := by
  simp [known, Known]

theorem mem_removeDuplicates {a : Str} : ∀ {l : List Str}, a ∈ removeDuplicates l ↔ a ∈ l := by
  intro l
  induction l with
  | nil => simp [removeDuplicates]
  | cons x xs ih =>
    simp only [removeDuplicates, List.mem_cons, List.mem_filter, ih, decide_eq_true_eq]
    by_cases h : a = x <;> simp [h]

theorem removeDuplicates_nodup : ∀ l : List Str, (removeDuplicates l).Nodup := by
  intro l
  induction l with
  | nil => simp [removeDuplicates]
  | cons x xs ih =>
    simp only [removeDuplicates, List.nodup_cons, List.mem_filter]
    exact ⟨by simp, List.Pairwise.filter _ ih⟩

theorem removeDuplicates_of_nodup : ∀ {l : List Str}, l.Nodup → removeDuplicates l = l := by
  intro l
  induction l with
  | nil => intro _; rfl
  | cons x xs ih =>
    intro h
    rw [List.nodup_cons] at h
    rw [removeDuplicates, ih h.2, List.filter_eq_self.2]
    intro a ha
    simp only [decide_eq_true_eq]
    rintro rfl
    exact h.1 ha

theorem removeDuplicates_filter (p : Str → Bool) : ∀ l : List Str,
    (removeDuplicates l).filter p = removeDuplicates (l.filter p) := by
  intro l
  induction l with
  | nil => rfl
  | cons x xs ih =>
    by_cases h : p x
    · rw [List.filter_cons_of_pos h, removeDuplicates, removeDuplicates,
        List.filter_cons_of_pos h, ← ih, List.filter_filter, List.filter_filter]
      simp only [Bool.and_comm]
    · rw [List.filter_cons_of_neg h, removeDuplicates, List.filter_cons_of_neg h, ← ih,
        List.filter_filter]
      apply List.filter_congr
      intro a _
      by_cases hp : p a = true
      · have : a ≠ x := by rintro rfl; exact h hp
        simp [hp, this]
      · simp [hp]

theorem takeKnown_eq : ∀ l : List Str, takeKnown l =
    (l.filter (fun a => decide (a ∉ known)), l.filter (fun a => decide (a ∈ known))) := by
  intro l
  induction l with
  | nil => rfl
  | cons x xs ih =>
    by_cases h : x ∈ known
    · simp [takeKnown, ih, h]
    · simp [takeKnown, ih, h]

theorem aux_xcode {lower : Str → Str} (h : LowerOk lower) (n : Nat) :
    canonicalNameAux lower (n + 1) gcc = [gcc] := by
  rw [canonicalNameAux, h.known gcc (by simp [Known])]
  simp [show gcc ≠ xcode by decide, show gcc ≠ clang by decide, show gcc ≠ llvm by decide,
    show gcc ≠ mingw by decide, show gcc ≠ emscripten by decide, show gcc ≠ clangCl by decide]

theorem aux_msvc {lower : Str → Str} (h : LowerOk lower) (n : Nat) :
    canonicalNameAux lower (n + 1) msvc = [msvc] := by
  rw [canonicalNameAux, h.known msvc (by simp [Known])]
  simp [show msvc ≠ xcode by decide, show msvc ≠ clang by decide, show msvc ≠ llvm by decide,
    show msvc ≠ mingw by decide, show msvc ≠ emscripten by decide, show msvc ≠ clangCl by decide]

theorem aux_llvm {lower : Str → Str} (h : LowerOk lower) (n : Nat) :
    canonicalNameAux lower (n + 2) llvm = [llvm, gcc] := by
  rw [canonicalNameAux, h.known llvm (by simp [Known])]
  simp [show llvm ≠ xcode by decide, show llvm ≠ clang by decide, aux_xcode h]

theorem aux_clang {lower : Str → Str} (h : LowerOk lower) (n : Nat) :
    canonicalNameAux lower (n + 3) clang = [clang, llvm, gcc] := by
  rw [canonicalNameAux, h.known clang (by simp [Known])]
  simp [show clang ≠ xcode by decide, aux_llvm h]

/-- The list for one name, spelled out. -/
theorem canonicalName_eq {lower : Str → Str} (h : LowerOk lower) (name : Str) :
    canonicalName lower name =
      lower name ::
        (if lower name = xcode then [clang, llvm, gcc]
         else if lower name = clang then [llvm, gcc]
         else if lower name = llvm ∨ lower name = mingw ∨ lower name = emscripten then [gcc]
         else if lower name = clangCl then [msvc] else []) := by
  rw [canonicalName, canonicalNameAux]
  simp only [aux_clang h 0, aux_llvm h 1, aux_xcode h 2, aux_msvc h 2]

theorem has_mono {lower : Str → Str} {l l' : List Str} (hl : ∀ x ∈ l, x ∈ l') {a : Str}
    (h : Has lower l a) : Has lower l' a := by
  induction h with
  | given x hx => exact .given x (hl x hx)
  | implied a b _ hab ih => exact .implied a b ih hab

theorem mem_canonicalName {lower : Str → Str} (h : LowerOk lower) (name a : Str) :
    a ∈ canonicalName lower name ↔ Has lower [name] a := by
  constructor
  · intro ha
    rw [canonicalName_eq h] at ha
    have h0 : Has lower [name] (lower name) := .given name (by simp)
    rcases List.mem_cons.1 ha with rfl | ha
    · exact h0
    · by_cases h1 : lower name = xcode
      · rw [if_pos h1] at ha
        rw [h1] at h0
        have c := Has.implied _ _ h0 .xcodeClang
        have l := Has.implied _ _ c .clangLlvm
        have g := Has.implied _ _ l .llvmGcc
        simp only [List.mem_cons, List.not_mem_nil, or_false] at ha
        rcases ha with rfl | rfl | rfl <;> assumption
      rw [if_neg h1] at ha
      by_cases h2 : lower name = clang
      · rw [if_pos h2] at ha
        rw [h2] at h0
        have l := Has.implied _ _ h0 .clangLlvm
        have g := Has.implied _ _ l .llvmGcc
        simp only [List.mem_cons, List.not_mem_nil, or_false] at ha
        rcases ha with rfl | rfl <;> assumption
      rw [if_neg h2] at ha
      by_cases h3 : lower name = llvm ∨ lower name = mingw ∨ lower name = emscripten
      · rw [if_pos h3, List.mem_singleton] at ha
        subst ha
        rcases h3 with h3 | h3 | h3 <;> rw [h3] at h0
        · exact .implied _ _ h0 .llvmGcc
        · exact .implied _ _ h0 .mingwGcc
        · exact .implied _ _ h0 .emscriptenGcc
      rw [if_neg h3] at ha
      by_cases h4 : lower name = clangCl
      · rw [if_pos h4, List.mem_singleton] at ha
        subst ha
        rw [h4] at h0
        exact .implied _ _ h0 .clangClMsvc
      · rw [if_neg h4] at ha
        cases ha
  · intro ha
    induction ha with
    | given x hx =>
      rw [List.mem_singleton] at hx
      subst hx
      rw [canonicalName_eq h]
      simp
    | implied a b _ hab ih =>
      rw [canonicalName_eq h] at ih ⊢
      generalize lower name = n at ih ⊢
      by_cases h1 : n = xcode
      · subst h1; cases hab <;> revert ih <;> decide
      by_cases h2 : n = clang
      · subst h2; cases hab <;> revert ih <;> decide
      by_cases h3 : n = llvm
      · subst h3; cases hab <;> revert ih <;> decide
      by_cases h4 : n = mingw
      · subst h4; cases hab <;> revert ih <;> decide
      by_cases h5 : n = emscripten
      · subst h5; cases hab <;> revert ih <;> decide
      by_cases h6 : n = clangCl
      · subst h6; cases hab <;> revert ih <;> decide
      simp only [h1, h2, h3, h4, h5, h6, or_self, if_false, List.mem_cons, List.not_mem_nil,
        or_false] at ih
      subst ih
      cases hab <;> simp_all

theorem mem_flatMap {lower : Str → Str} (h : LowerOk lower) (l : List Str) (a : Str) :
    a ∈ l.flatMap (canonicalName lower) ↔ Has lower l a := by
  rw [List.mem_flatMap]
  constructor
  · rintro ⟨x, hx, ha⟩
    exact has_mono (by simpa using hx) ((mem_canonicalName h x a).1 ha)
  · intro ha
    induction ha with
    | given x hx => exact ⟨x, hx, (mem_canonicalName h x _).2 (.given x (by simp))⟩
    | implied a b _ hab ih =>
      obtain ⟨x, hx, ha⟩ := ih
      exact ⟨x, hx, (mem_canonicalName h x b).2 (.implied a b ((mem_canonicalName h x a).1 ha) hab)⟩

def rle (a b : Str) : Bool := decide (rank a ≤ rank b)

theorem canonical_eq (lower : Str → Str) (l : List Str) : canonical lower l =
    (removeDuplicates (l.flatMap (canonicalName lower))).filter (fun a => decide (a ∉ known)) ++
    isort rle ((removeDuplicates (l.flatMap (canonicalName lower))).filter
      (fun a => decide (a ∈ known))) := by
  simp only [canonical, takeKnown_eq]
  rfl

theorem mem_canonical_all {lower : Str → Str} (l : List Str) (a : Str) :
    a ∈ canonical lower l ↔ a ∈ l.flatMap (canonicalName lower) := by
  rw [canonical_eq, List.mem_append, mem_isort, List.mem_filter, List.mem_filter,
    mem_removeDuplicates]
  by_cases h : a ∈ known <;> simp [h]

/-- C80: the list has the names that were given, in lower case, and everything they
are special cases of, and nothing else. -/
theorem C80_members {lower : Str → Str} (h : LowerOk lower) (l : List Str) (a : Str) :
    a ∈ canonical lower l ↔ Has lower l a := by
  rw [mem_canonical_all, mem_flatMap h]

/-- C80: for a single name as well. -/
theorem C80_single {lower : Str → Str} (h : LowerOk lower) (name a : Str) :
    a ∈ canonicalName lower name ↔ Has lower [name] a :=
  mem_canonicalName h name a

/-- C80: no name is there twice. -/
theorem C80_no_duplicates (lower : Str → Str) (l : List Str) : (canonical lower l).Nodup := by
  rw [canonical_eq, List.nodup_append]
  have hn := removeDuplicates_nodup (l.flatMap (canonicalName lower))
  refine ⟨List.Pairwise.filter _ hn,
    (isort_perm _ _).nodup_iff.2 (List.Pairwise.filter _ hn), ?_⟩
  intro a ha b hb hab
  subst hab
  rw [mem_isort, List.mem_filter, decide_eq_true_eq] at hb
  rw [List.mem_filter, decide_eq_true_eq] at ha
  exact ha.2 hb.2

/-- C80: the names qbs does not know come before those it knows. -/
theorem C80_custom_first (lower : Str → Str) (l : List Str) :
    (canonical lower l).Pairwise (fun a b => Known a → Known b) := by
  rw [canonical_eq, List.pairwise_append]
  have hk : ∀ a, a ∈ isort rle ((removeDuplicates (l.flatMap (canonicalName lower))).filter
      (fun a => decide (a ∈ known))) → Known a := by
    intro a ha
    rw [mem_isort, List.mem_filter, decide_eq_true_eq] at ha
    exact mem_known.1 ha.2
  refine ⟨?_, ?_, ?_⟩
  · rw [List.pairwise_iff_forall_sublist]
    intro a b hab ha
    have : a ∈ (removeDuplicates (l.flatMap (canonicalName lower))).filter
      (fun a => decide (a ∉ known)) := hab.subset (by simp)
    rw [List.mem_filter, decide_eq_true_eq] at this
    exact absurd (mem_known.2 ha) this.2
  · rw [List.pairwise_iff_forall_sublist]
    intro a b hab _
    exact hk b (hab.subset (by simp))
  · intro a _ b hb _
    exact hk b hb

theorem rle_total (a b : Str) : rle a b = true ∨ rle b a = true := by
  simp only [rle, decide_eq_true_eq]; omega

theorem rle_trans (a b c : Str) (h : rle a b = true) (h' : rle b c = true) : rle a c = true := by
  simp only [rle, decide_eq_true_eq] at *; omega

theorem canonical_sorted (lower : Str → Str) (l : List Str) :
    (canonical lower l).Pairwise (fun a b => Known a → Known b → rank a ≤ rank b) := by
  rw [canonical_eq, List.pairwise_append]
  refine ⟨?_, ?_, ?_⟩
  · rw [List.pairwise_iff_forall_sublist]
    intro a b hab ha
    have : a ∈ (removeDuplicates (l.flatMap (canonicalName lower))).filter
      (fun a => decide (a ∉ known)) := hab.subset (by simp)
    rw [List.mem_filter, decide_eq_true_eq] at this
    exact absurd (mem_known.2 ha) this.2
  · refine (isort_sorted rle rle_total rle_trans _).imp ?_
    intro a b hab _ _
    simpa [rle] using hab
  · intro a ha _ _ hk
    rw [List.mem_filter, decide_eq_true_eq] at ha
    exact absurd (mem_known.2 hk) ha.2

theorem before_of_pairwise {R : Str → Str → Prop} {l : List Str} (hn : l.Nodup)
    (hp : l.Pairwise R) {a b : Str} (ha : a ∈ l) (hb : b ∈ l) (hab : a ≠ b) (hr : ¬ R b a) :
    Before l a b := by
  obtain ⟨l₁, l₂, rfl⟩ := List.append_of_mem ha
  rw [List.nodup_append, List.nodup_cons] at hn
  rw [List.pairwise_append] at hp
  have h1 : b ∉ l₁ := fun hb1 => hr (hp.2.2 b hb1 a (by simp))
  refine ⟨l₁, l₂, rfl, fun h => hn.2.2 a h a (by simp) rfl, h1, hab, ?_⟩
  rcases List.mem_append.1 hb with hb | hb
  · exact absurd hb h1
  · rcases List.mem_cons.1 hb with hb | hb
    · exact absurd hb.symm hab
    · exact hb

/-- C80, part: a special case comes before what it is a special case of, so that
scripts that use the first name take the most specific one. Missing: emscripten,
see `C80_emscripten`. -/
theorem C80_specific_first_partial {lower : Str → Str} (h : LowerOk lower) (l : List Str)
    (a b : Str) (hab : Implies a b) (hne : a ≠ emscripten) (ha : a ∈ canonical lower l) :
    Before (canonical lower l) a b := by
  have hb : b ∈ canonical lower l :=
    (C80_members h l b).2 (.implied a b ((C80_members h l a).1 ha) hab)
  refine before_of_pairwise (C80_no_duplicates lower l) (canonical_sorted lower l) ha hb ?_ ?_
  · cases hab <;> decide
  · cases hab <;> simp only [ne_eq, not_true_eq_false] at hne
    all_goals
      intro hr
      have := hr (by simp [Known]) (by simp [Known])
      revert this
      decide

/-- **C80 finding.** Emscripten is a special case of gcc, but the list of toolchains
has gcc first. -/
theorem C80_emscripten {lower : Str → Str} (h : LowerOk lower) (l : List Str)
    (ha : emscripten ∈ canonical lower l) :
    Before (canonical lower l) gcc emscripten ∧
      Before (canonicalName lower emscripten) emscripten gcc := by
  have hb : gcc ∈ canonical lower l :=
    (C80_members h l gcc).2 (.implied _ _ ((C80_members h l _).1 ha) .emscriptenGcc)
  refine ⟨before_of_pairwise (C80_no_duplicates lower l) (canonical_sorted lower l) hb ha
    (by decide) ?_, ?_⟩
  · intro hr
    have := hr (by simp [Known]) (by simp [Known])
    revert this
    decide
  · rw [canonicalName_eq h, h.known emscripten (by simp [Known])]
    exact ⟨[], [gcc], by decide, by decide, by decide, by decide, by decide⟩

theorem custom_canonicalName {lower : Str → Str} (h : LowerOk lower) (name : Str) :
    (canonicalName lower name).filter (fun a => decide (a ∉ known)) =
      [lower name].filter (fun a => decide (a ∉ known)) := by
  rw [canonicalName_eq h]
  generalize lower name = n
  have : ∀ t : List Str, (∀ a ∈ t, a ∈ known) →
      (n :: t).filter (fun a => decide (a ∉ known)) = [n].filter (fun a => decide (a ∉ known)) := by
    intro t ht
    have : t.filter (fun a => decide (a ∉ known)) = [] := by
      rw [List.filter_eq_nil_iff]
      intro a ha
      simp [ht a ha]
    rw [List.filter_cons, List.filter_cons, this]
    rfl
  apply this
  intro a ha
  split at ha
  · revert ha; simp [known]; grind
  split at ha
  · revert ha; simp [known]; grind
  split at ha
  · revert ha; simp [known]; grind
  split at ha
  · revert ha; simp [known]; grind
  · cases ha

theorem custom_flatMap {lower : Str → Str} (h : LowerOk lower) : ∀ l : List Str,
    (l.flatMap (canonicalName lower)).filter (fun a => decide (a ∉ known)) =
      (l.map lower).filter (fun a => decide (a ∉ known)) := by
  intro l
  induction l with
  | nil => rfl
  | cons x xs ih =>
    rw [List.flatMap_cons, List.filter_append, custom_canonicalName h, ih, List.map_cons,
      ← List.filter_append]
    rfl

theorem before_removeDuplicates {a b : Str} : ∀ {l : List Str}, Before l a b →
    Before (removeDuplicates l) a b := by
  intro l
  induction l with
  | nil =>
    rintro ⟨l₁, l₂, h, _⟩
    exact absurd h (by simp)
  | cons x xs ih =>
    rintro ⟨l₁, l₂, h, ha, hb, hab, hl⟩
    cases l₁ with
    | nil =>
      rw [List.nil_append] at h
      obtain ⟨rfl, rfl⟩ := List.cons.inj h
      refine ⟨[], (removeDuplicates xs).filter (· ≠ x), rfl, by simp, by simp, hab, ?_⟩
      rw [List.mem_filter, mem_removeDuplicates]
      exact ⟨hl, by simpa using fun h => hab h.symm⟩
    | cons y l₁ =>
      obtain ⟨rfl, rfl⟩ := List.cons.inj h
      have hay : a ≠ x := fun e => ha (by simp [e])
      have hby : b ≠ x := fun e => hb (by simp [e])
      obtain ⟨m₁, m₂, hm, ha', hb', _, hl'⟩ := ih
        ⟨l₁, l₂, rfl, fun h => ha (by simp [h]), fun h => hb (by simp [h]), hab, hl⟩
      refine ⟨x :: m₁.filter (· ≠ x), m₂.filter (· ≠ x), ?_, ?_, ?_, hab, ?_⟩
      · rw [removeDuplicates, hm, List.filter_append, List.filter_cons_of_pos (by simpa using hay)]
        rfl
      · simp [hay, ha']
      · simp [hby, hb']
      · simp [hby, hl']

theorem before_filter {p : Str → Bool} {a b : Str} {l : List Str} (ha : p a = true)
    (hb : p b = true) (h : Before l a b) : Before (l.filter p) a b := by
  obtain ⟨l₁, l₂, rfl, h1, h2, h3, h4⟩ := h
  refine ⟨l₁.filter p, l₂.filter p, ?_, ?_, ?_, h3, ?_⟩
  · rw [List.filter_append, List.filter_cons_of_pos ha]
  · simp [h1]
  · simp [h2]
  · simp [h4, hb]

/-- C80: names qbs does not know keep the order in which they were first given. -/
theorem C80_custom_order {lower : Str → Str} (h : LowerOk lower) (l : List Str) (a b : Str)
    (ha : ¬ Known a) (hb : ¬ Known b) (hab : Before (l.map lower) a b) :
    Before (canonical lower l) a b := by
  rw [canonical_eq, removeDuplicates_filter, custom_flatMap h]
  have hf : ∀ x, ¬ Known x → decide (x ∉ known) = true := by
    intro x hx
    rw [decide_eq_true_eq, mem_known]
    exact hx
  obtain ⟨l₁, l₂, he, h1, h2, h3, h4⟩ :=
    before_removeDuplicates (before_filter (p := fun a => decide (a ∉ known)) (hf a ha) (hf b hb) hab)
  exact ⟨l₁, l₂ ++ _, by rw [he, List.append_assoc]; rfl, h1, h2, h3, List.mem_append_left _ h4⟩

theorem rank_inj {a b : Str} (ha : a ∈ known) (hb : b ∈ known) (h : rank a = rank b) : a = b := by
  have : ∀ a ∈ known, ∀ b ∈ known, rank a = rank b → a = b := by decide +kernel
  exact this a ha b hb h

theorem isort_congr {l l' : List Str} (h : l.Perm l') (hk : ∀ a ∈ l, a ∈ known) :
    isort rle l = isort rle l' := by
  refine List.Perm.eq_of_pairwise (le := fun a b => rle a b = true) ?_
    (isort_sorted rle rle_total rle_trans l) (isort_sorted rle rle_total rle_trans l')
    (((isort_perm _ _).trans h).trans (isort_perm _ _).symm)
  intro a b ha hb hab hba
  have ha : a ∈ l := (mem_isort _ _ _).1 ha
  have hb : b ∈ l := h.mem_iff.2 ((mem_isort _ _ _).1 hb)
  simp only [rle, decide_eq_true_eq] at hab hba
  exact rank_inj (hk a ha) (hk b hb) (by omega)

/-- C80: the order in which known toolchains are given does not matter, nor does how
often they are given or whether what they imply is given. -/
theorem C80_order_irrelevant {lower : Str → Str} (h : LowerOk lower) (l l' : List Str)
    (hl : ∀ x ∈ l, Known (lower x)) (hl' : ∀ x ∈ l', Known (lower x))
    (heq : ∀ a, Has lower l a ↔ Has lower l' a) : canonical lower l = canonical lower l' := by
  have hc : ∀ m : List Str, (∀ x ∈ m, Known (lower x)) →
      (removeDuplicates (m.flatMap (canonicalName lower))).filter (fun a => decide (a ∉ known)) =
        [] := by
    intro m hm
    rw [removeDuplicates_filter, custom_flatMap h, List.filter_eq_nil_iff.2]
    · rfl
    · intro a ha
      obtain ⟨x, hx, rfl⟩ := List.mem_map.1 ha
      simp [mem_known, hm x hx]
  rw [canonical_eq, canonical_eq, hc l hl, hc l' hl']
  congr 1
  apply isort_congr
  · rw [List.perm_ext_iff_of_nodup (List.Pairwise.filter _ (removeDuplicates_nodup _))
      (List.Pairwise.filter _ (removeDuplicates_nodup _))]
    intro a
    rw [List.mem_filter, List.mem_filter, mem_removeDuplicates, mem_removeDuplicates,
      mem_flatMap h, mem_flatMap h, heq]
  · intro a ha
    simpa using (List.mem_filter.1 ha).2

theorem has_lower {lower : Str → Str} (h : LowerOk lower) {l : List Str} {a : Str}
    (ha : Has lower l a) : lower a = a := by
  cases ha with
  | given x _ => exact h.twice x
  | implied _ _ _ hab => cases hab <;> exact h.known _ (by simp [Known])

theorem has_canonical {lower : Str → Str} (h : LowerOk lower) (l : List Str) (a : Str) :
    Has lower (canonical lower l) a ↔ Has lower l a := by
  constructor
  · intro ha
    induction ha with
    | given x hx =>
      have hx := (C80_members h l x).1 hx
      rwa [has_lower h hx]
    | implied a b _ hab ih => exact .implied a b ih hab
  · intro ha
    have := Has.given (lower := lower) a ((C80_members h l a).2 ha)
    rwa [has_lower h ha] at this

/-- C80: canonicalizing a second time changes nothing. -/
theorem C80_idempotent {lower : Str → Str} (h : LowerOk lower) (l : List Str) :
    canonical lower (canonical lower l) = canonical lower l := by
  have hmap : (canonical lower l).map lower = canonical lower l := by
    conv => rhs; rw [← List.map_id (canonical lower l)]
    apply List.map_congr_left
    intro a ha
    exact has_lower h ((C80_members h l a).1 ha)
  have hfk : ∀ m : List Str, (∀ a ∈ m, a ∈ known) →
      m.filter (fun a => decide (a ∉ known)) = [] := by
    intro m hm
    rw [List.filter_eq_nil_iff]
    intro a ha
    simp [hm a ha]
  rw [canonical_eq lower (canonical lower l), removeDuplicates_filter, custom_flatMap h, hmap]
  conv => rhs; rw [canonical_eq]
  congr 1
  · rw [canonical_eq, List.filter_append, hfk (isort rle _) _, List.append_nil,
      List.filter_filter]
    · simp only [Bool.and_self]
      exact removeDuplicates_of_nodup (List.Pairwise.filter _ (removeDuplicates_nodup _))
    · intro a ha
      rw [mem_isort, List.mem_filter, decide_eq_true_eq] at ha
      exact ha.2
  · apply isort_congr
    · rw [List.perm_ext_iff_of_nodup (List.Pairwise.filter _ (removeDuplicates_nodup _))
        (List.Pairwise.filter _ (removeDuplicates_nodup _))]
      intro a
      rw [List.mem_filter, List.mem_filter, mem_removeDuplicates, mem_removeDuplicates,
        mem_flatMap h, mem_flatMap h, has_canonical h]
    · intro a ha
      simpa using (List.mem_filter.1 ha).2

end Verif.Toolchain
