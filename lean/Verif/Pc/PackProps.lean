import Verif.Pc.Props
import Verif.Pc.PackModel
import Verif.Version.Props

/-! # C72: flags of packages, and looking for packages; C73: required versions -/

namespace Verif.Pc

/-! ## Flags -/

/-- How a flag is written as arguments -/
def Flag.args (f : Flag) : List Text :=
  match f.type with
  | .libraryName => ["-l".toList ++ f.value]
  | .staticLibraryName => [f.value]
  | .libraryPath => ["-L".toList ++ f.value]
  | .framework => ["-framework".toList, f.value]
  | .frameworkPath => ["-F".toList ++ f.value]
  | .linkerFlag => [f.value]
  | .includePath => ["-I".toList ++ f.value]
  | .systemIncludePath => ["-isystem".toList, f.value]
  | .dirAfterIncludePath => ["-idirafter".toList, f.value]
  | .define => ["-D".toList ++ f.value]
  | .compilerFlag => [f.value]

/-- An argument without white space at its ends, or behind its first two characters -/
def Plain (a : Text) : Prop := trimmed a = a ∧ trimmed (a.drop 2) = a.drop 2 ∧ a ≠ []

/-- The flags for the linker: which kind each one is. The last argument may be "-framework" alone. -/
def LibFlag (f : Flag) : Prop :=
  match f.type with
  | .libraryName => startsWith ("-l".toList ++ f.value) "-lib:".toList = false
  | .staticLibraryName => startsWith f.value "-".toList = false ∧ (endsWith f.value ".a".toList ∨ endsWith f.value ".lib".toList)
  | .linkerFlag => f.value ≠ [] ∧ (startsWith f.value "-l".toList = true → startsWith f.value "-lib:".toList = true) ∧
      startsWith f.value "-L".toList = false ∧ startsWith f.value "-F".toList = false ∧
      (startsWith f.value "-".toList = false → ¬ (endsWith f.value ".a".toList ∨ endsWith f.value ".lib".toList))
  | .libraryPath => True
  | .framework => True
  | .frameworkPath => True
  | _ => False

/-- The flags for the compiler -/
def CFlag (f : Flag) : Prop :=
  match f.type with
  | .includePath => True
  | .define => True
  | .systemIncludePath => True
  | .dirAfterIncludePath => True
  | .compilerFlag => f.value ≠ [] ∧ startsWith f.value "-I".toList = false ∧ startsWith f.value "-D".toList = false
  | _ => False

theorem startsWith_drop {s p : Text} (h : startsWith s p = true) : s = p ++ s.drop p.length := by
  unfold startsWith at h
  rw [List.isPrefixOf_iff_prefix] at h
  obtain ⟨r, rfl⟩ := h
  simp

theorem parseLibs_spec (n : Nat) : ∀ args : List Text, args.length ≤ n → (∀ a ∈ args, Plain a) →
    (parseLibs args).flatMap Flag.args = args ∧ (∀ f ∈ parseLibs args, LibFlag f) ∧
      (∀ l1 f l2, parseLibs args = l1 ++ f :: l2 → f = ⟨.linkerFlag, "-framework".toList⟩ → l2 = []) := by
  induction n with
  | zero =>
    intro args h _
    have : args = [] := by cases args <;> simp_all
    subst this
    simp [parseLibs]
  | succ n ih =>
    intro args h hp
    cases args with
    | nil => simp [parseLibs]
    | cons a l =>
      simp only [List.length_cons] at h
      obtain ⟨p1, p2, p3⟩ := hp a (by simp)
      obtain ⟨i1, i2, i3⟩ := ih l (by omega) (fun x hx => hp x (by simp [hx]))
      have key : ∀ f : Flag, parseLibs (a :: l) = f :: parseLibs l → f.args = [a] → LibFlag f → f ≠ ⟨.linkerFlag, "-framework".toList⟩ ∨ l = [] →
          (parseLibs (a :: l)).flatMap Flag.args = a :: l ∧ (∀ f ∈ parseLibs (a :: l), LibFlag f) ∧
          (∀ l1 f l2, parseLibs (a :: l) = l1 ++ f :: l2 → f = ⟨.linkerFlag, "-framework".toList⟩ → l2 = []) := by
        intro f hf hfa hlf hne
        rw [hf]
        refine ⟨by rw [List.flatMap_cons, hfa, i1]; rfl, ?_, ?_⟩
        · intro g hg
          simp only [List.mem_cons] at hg
          rcases hg with rfl | hg
          · exact hlf
          · exact i2 g hg
        · intro l1 g l2 he hg
          cases l1 with
          | nil =>
            cases he
            rcases hne with hne | hne
            · exact absurd hg hne
            · rw [hne]; rfl
          | cons x l1 => exact i3 l1 g l2 (List.cons.inj he).2 hg
      rw [parseLibs.eq_def] at key ⊢
      simp only [p1, p2] at key ⊢
      by_cases c1 : (startsWith a "-l".toList && !startsWith a "-lib:".toList) = true
      · simp only [if_pos c1] at key ⊢
        simp only [Bool.and_eq_true, Bool.not_eq_true'] at c1
        have ea := startsWith_drop c1.1
        refine key _ rfl (by simp only [Flag.args]; rw [← show a = "-l".toList ++ a.drop 2 from ea]) ?_ (.inl (by simp))
        simp only [LibFlag]
        rw [← show a = "-l".toList ++ a.drop 2 from ea]; exact c1.2
      simp only [if_neg c1] at key ⊢
      by_cases c2 : startsWith a "-L".toList = true
      · simp only [if_pos c2] at key ⊢
        have ea := startsWith_drop c2
        exact key _ rfl (by simp only [Flag.args]; rw [← show a = "-L".toList ++ a.drop 2 from ea]) trivial (.inl (by simp))
      simp only [if_neg c2] at key ⊢
      -- without a framework
      have rest : (a = "-framework".toList → l = []) → ∀ r, r = (if startsWith a "-F".toList = true then (⟨.frameworkPath, a.drop 2⟩ : Flag) :: parseLibs l
          else if (!startsWith a "-".toList && (endsWith a ".a".toList || endsWith a ".lib".toList)) = true then
            ⟨.staticLibraryName, a⟩ :: parseLibs l
          else if a = [] then parseLibs l
          else ⟨.linkerFlag, a⟩ :: parseLibs l) → ∃ f : Flag, r = f :: parseLibs l ∧ f.args = [a] ∧ LibFlag f ∧ (f ≠ ⟨.linkerFlag, "-framework".toList⟩ ∨ l = []) := by
        intro hfw r hr
        by_cases c3 : startsWith a "-F".toList = true
        · rw [if_pos c3] at hr
          have ea := startsWith_drop c3
          exact ⟨_, hr, by simp only [Flag.args]; rw [← show a = "-F".toList ++ a.drop 2 from ea], trivial, .inl (by simp)⟩
        rw [if_neg c3] at hr
        by_cases c4 : (!startsWith a "-".toList && (endsWith a ".a".toList || endsWith a ".lib".toList)) = true
        · rw [if_pos c4] at hr
          simp only [Bool.and_eq_true, Bool.not_eq_true', Bool.or_eq_true] at c4
          exact ⟨_, hr, rfl, c4, .inl (by simp)⟩
        rw [if_neg c4, if_neg p3] at hr
        refine ⟨_, hr, rfl, ⟨p3, ?_, by simpa using c2, by simpa using c3, ?_⟩, ?_⟩
        · intro hl
          cases hb : startsWith a "-lib:".toList with
          | true => rfl
          | false => exfalso; exact c1 (by simp only [hl, hb]; rfl)
        · intro hs hor
          exact c4 (by rw [hs]; simpa using hor)
        · by_cases hfa : a = "-framework".toList
          · exact .inr (hfw hfa)
          · left; intro he; exact hfa (congrArg Flag.value he)
      by_cases hfa : a = "-framework".toList
      · rw [decide_eq_true hfa] at key ⊢
        cases l with
        | nil =>
          simp only at key ⊢
          obtain ⟨f, hf, k1, k2, k3⟩ := rest (fun _ => rfl) _ rfl
          exact key f hf k1 k2 (k3.imp (fun h => h) (fun _ => trivial))
        | cons b l' =>
          simp only
          obtain ⟨q1, -, q3⟩ := hp b (by simp)
          obtain ⟨j1, j2, j3⟩ := ih l' (by simp only [List.length_cons] at h; omega) (fun x hx => hp x (by simp [hx]))
          refine ⟨?_, ?_, ?_⟩
          · rw [List.flatMap_cons, j1, q1, hfa]; rfl
          · intro g hg
            simp only [List.mem_cons] at hg
            rcases hg with rfl | hg
            · trivial
            · exact j2 g hg
          · intro l1 g l2 he hg
            cases l1 with
            | nil => cases he; cases hg
            | cons x l1 => exact j3 l1 g l2 (List.cons.inj he).2 hg
      · rw [decide_eq_false hfa] at key ⊢
        simp only at key ⊢
        obtain ⟨f, hf, k1, k2, k3⟩ := rest (fun h => absurd h hfa) _ rfl
        exact key f hf k1 k2 k3

/-- C72: nothing is lost or made up when arguments for the linker become flags, and each of them is of the right kind: "-l", "-L"
and "-F" are what they are for, other things are not, and "-framework" takes the next argument. -/
theorem C72_libs (args : List Text) (h : ∀ a ∈ args, Plain a) :
    (parseLibs args).flatMap Flag.args = args ∧ (∀ f ∈ parseLibs args, LibFlag f) ∧
      (∀ l1 f l2, parseLibs args = l1 ++ f :: l2 → f = ⟨.linkerFlag, "-framework".toList⟩ → l2 = []) :=
  parseLibs_spec args.length args (Nat.le_refl _) h

theorem parseCFlags_spec (n : Nat) : ∀ args : List Text, args.length ≤ n → (∀ a ∈ args, Plain a) →
    (parseCFlags args).flatMap Flag.args = args ∧ (∀ f ∈ parseCFlags args, CFlag f) ∧
      (∀ l1 f l2, parseCFlags args = l1 ++ f :: l2 →
        f = ⟨.compilerFlag, "-isystem".toList⟩ ∨ f = ⟨.compilerFlag, "-idirafter".toList⟩ → l2 = []) := by
  induction n with
  | zero =>
    intro args h _
    have : args = [] := by cases args <;> simp_all
    subst this
    simp [parseCFlags]
  | succ n ih =>
    intro args h hp
    cases args with
    | nil => simp [parseCFlags]
    | cons a l =>
      simp only [List.length_cons] at h
      obtain ⟨p1, p2, p3⟩ := hp a (by simp)
      obtain ⟨i1, i2, i3⟩ := ih l (by omega) (fun x hx => hp x (by simp [hx]))
      have key : ∀ f : Flag, parseCFlags (a :: l) = f :: parseCFlags l → f.args = [a] → CFlag f →
          (f ≠ ⟨.compilerFlag, "-isystem".toList⟩ ∧ f ≠ ⟨.compilerFlag, "-idirafter".toList⟩) ∨ l = [] →
          (parseCFlags (a :: l)).flatMap Flag.args = a :: l ∧ (∀ f ∈ parseCFlags (a :: l), CFlag f) ∧
          (∀ l1 f l2, parseCFlags (a :: l) = l1 ++ f :: l2 →
            f = ⟨.compilerFlag, "-isystem".toList⟩ ∨ f = ⟨.compilerFlag, "-idirafter".toList⟩ → l2 = []) := by
        intro f hf hfa hlf hne
        rw [hf]
        refine ⟨by rw [List.flatMap_cons, hfa, i1]; rfl, ?_, ?_⟩
        · intro g hg
          simp only [List.mem_cons] at hg
          rcases hg with rfl | hg
          · exact hlf
          · exact i2 g hg
        · intro l1 g l2 he hg
          cases l1 with
          | nil =>
            cases he
            rcases hne with hne | hne
            · rcases hg with hg | hg
              · exact absurd hg hne.1
              · exact absurd hg hne.2
            · rw [hne]; rfl
          | cons x l1 => exact i3 l1 g l2 (List.cons.inj he).2 hg
      have two : ∀ (f : Flag) (b : Text) (l' : List Text), l = b :: l' → parseCFlags (a :: l) = f :: parseCFlags l' → f.args = [a, b] → CFlag f →
          (f ≠ ⟨.compilerFlag, "-isystem".toList⟩ ∧ f ≠ ⟨.compilerFlag, "-idirafter".toList⟩) →
          (parseCFlags (a :: l)).flatMap Flag.args = a :: l ∧ (∀ f ∈ parseCFlags (a :: l), CFlag f) ∧
          (∀ l1 f l2, parseCFlags (a :: l) = l1 ++ f :: l2 →
            f = ⟨.compilerFlag, "-isystem".toList⟩ ∨ f = ⟨.compilerFlag, "-idirafter".toList⟩ → l2 = []) := by
        intro f b l' hl hf hfa hlf hne
        subst hl
        obtain ⟨j1, j2, j3⟩ := ih l' (by simp only [List.length_cons] at h; omega) (fun x hx => hp x (by simp [hx]))
        rw [hf]
        refine ⟨by rw [List.flatMap_cons, hfa, j1]; rfl, ?_, ?_⟩
        · intro g hg
          simp only [List.mem_cons] at hg
          rcases hg with rfl | hg
          · exact hlf
          · exact j2 g hg
        · intro l1 g l2 he hg
          cases l1 with
          | nil =>
            cases he
            rcases hg with hg | hg
            · exact absurd hg hne.1
            · exact absurd hg hne.2
          | cons x l1 => exact j3 l1 g l2 (List.cons.inj he).2 hg
      rw [parseCFlags.eq_def] at key two ⊢
      simp only [p1, p2] at key two ⊢
      by_cases c1 : startsWith a "-I".toList = true
      · simp only [if_pos c1] at key ⊢
        have ea := startsWith_drop c1
        exact key _ rfl (by simp only [Flag.args]; rw [← show a = "-I".toList ++ a.drop 2 from ea]) trivial (.inl ⟨by simp, by simp⟩)
      simp only [if_neg c1] at key two ⊢
      by_cases c2 : startsWith a "-D".toList = true
      · simp only [if_pos c2] at key ⊢
        have ea := startsWith_drop c2
        exact key _ rfl (by simp only [Flag.args]; rw [← show a = "-D".toList ++ a.drop 2 from ea]) trivial (.inl ⟨by simp, by simp⟩)
      simp only [if_neg c2] at key two ⊢
      have hcf : CFlag ⟨.compilerFlag, a⟩ := ⟨p3, by simpa using c1, by simpa using c2⟩
      by_cases c3 : a = "-isystem".toList
      · rw [decide_eq_true c3] at key two ⊢
        cases l with
        | nil =>
          simp only [if_neg p3] at key ⊢
          exact key _ rfl rfl hcf (.inr trivial)
        | cons b l' =>
          obtain ⟨q1, -, -⟩ := hp b (by simp)
          simp only [q1] at two ⊢
          exact two _ b l' rfl rfl (by rw [c3]; rfl) trivial ⟨by simp, by simp⟩
      rw [decide_eq_false c3] at key two ⊢
      by_cases c4 : a = "-idirafter".toList
      · rw [decide_eq_true c4] at key two ⊢
        cases l with
        | nil =>
          simp only [if_neg p3] at key ⊢
          exact key _ rfl rfl hcf (.inr trivial)
        | cons b l' =>
          obtain ⟨q1, -, -⟩ := hp b (by simp)
          simp only [q1] at two ⊢
          exact two _ b l' rfl rfl (by rw [c4]; rfl) trivial ⟨by simp, by simp⟩
      rw [decide_eq_false c4] at key two ⊢
      cases l with
      | nil =>
        simp only [if_neg p3] at key ⊢
        exact key _ rfl rfl hcf (.inr trivial)
      | cons b l' =>
        simp only [if_neg p3] at key ⊢
        exact key _ rfl rfl hcf (.inl ⟨fun he => c3 (congrArg Flag.value he), fun he => c4 (congrArg Flag.value he)⟩)

/-- C72: the same holds for the compiler, where "-isystem" and "-idirafter" take the next argument. -/
theorem C72_cflags (args : List Text) (h : ∀ a ∈ args, Plain a) :
    (parseCFlags args).flatMap Flag.args = args ∧ (∀ f ∈ parseCFlags args, CFlag f) ∧
      (∀ l1 f l2, parseCFlags args = l1 ++ f :: l2 →
        f = ⟨.compilerFlag, "-isystem".toList⟩ ∨ f = ⟨.compilerFlag, "-idirafter".toList⟩ → l2 = []) :=
  parseCFlags_spec args.length args (Nat.le_refl _) h

/-! ## The root directory -/

/-- Flags that name a directory -/
def isDirectoryFlag (t : FlagType) : Prop := t ∈ [FlagType.includePath, .systemIncludePath, .dirAfterIncludePath, .libraryPath]

theorem isPath_iff (t : FlagType) : t.isPath = true ↔ isDirectoryFlag t := by
  unfold isDirectoryFlag
  cases t <;> simp [FlagType.isPath]

theorem sysroot_lemma (sysroot : Text) (h0 : sysroot ≠ []) (h1 : sysroot ≠ ['/']) (f : Flag) :
    (f.type.isPath = true → f.value.head? = some '/' → sysroot.isPrefixOf f.value = false →
      appendRoot sysroot f = { f with value := sysroot ++ f.value }) ∧
    (f.type.isPath = false ∨ f.value.head? ≠ some '/' ∨ sysroot.isPrefixOf f.value = true → appendRoot sysroot f = f) ∧
    appendRoot sysroot (appendRoot sysroot f) = appendRoot sysroot f := by
  have pre : ∀ g : Flag, sysroot.isPrefixOf g.value = true → appendRoot sysroot g = g := by
    intro g hg
    unfold appendRoot
    have : shouldRewrite sysroot g.value = false := by
      unfold shouldRewrite startsWith
      rw [hg]
      simp
    rw [this]; rfl
  refine ⟨?_, ?_, ?_⟩
  · intro ht hh hp
    unfold appendRoot
    have : shouldRewrite sysroot f.value = true := by
      unfold shouldRewrite startsWith
      rw [if_neg, if_neg (by simp [hh]), if_neg h1, hp]
      · rfl
      · rintro (h | h)
        · exact h0 h
        · rw [h] at hh; cases hh
    rw [this, ht]; rfl
  · rintro (h | h | h)
    · unfold appendRoot
      rw [h]
      simp
    · unfold appendRoot
      have : shouldRewrite sysroot f.value = false := by
        unfold shouldRewrite
        by_cases he : sysroot = [] ∨ f.value = []
        · rw [if_pos he]
        · rw [if_neg he, if_pos h]
      rw [this]; rfl
    · exact pre f h
  · unfold appendRoot
    by_cases hs : shouldRewrite sysroot f.value = true
    · rw [hs]
      by_cases ht : f.type.isPath = true
      · rw [ht]
        simp only [Bool.not_true, Bool.false_eq_true, if_false, if_true, ht]
        have := pre { f with value := sysroot ++ f.value } (by rw [List.isPrefixOf_iff_prefix]; exact ⟨_, rfl⟩)
        unfold appendRoot at this
        simpa [ht] using this
      · have ht' : f.type.isPath = false := by simpa using ht
        simp [ht', hs]
    · have hs' : shouldRewrite sysroot f.value = false := by simpa using hs
      simp [hs']

/-- C72: absolute paths that do not begin with the sysroot get it; nothing else is changed, and doing it again does nothing. -/
theorem C72_sysroot (sysroot : Text) (h0 : sysroot ≠ []) (h1 : sysroot ≠ ['/']) (f : Flag) :
    (isDirectoryFlag f.type → f.value.head? = some '/' → sysroot.isPrefixOf f.value = false →
      appendRoot sysroot f = { f with value := sysroot ++ f.value }) ∧
    (¬ isDirectoryFlag f.type ∨ f.value.head? ≠ some '/' ∨ sysroot.isPrefixOf f.value = true → appendRoot sysroot f = f) ∧
    appendRoot sysroot (appendRoot sysroot f) = appendRoot sysroot f := by
  have := sysroot_lemma sysroot h0 h1 f
  rw [← isPath_iff, Bool.not_eq_true]
  exact this

/-- C72: without a sysroot, or with `/`, nothing is changed. -/
theorem C72_no_sysroot (sysroot : Text) (h : sysroot = [] ∨ sysroot = ['/']) (p : Package) : prependSysroot sysroot p = p := by
  have key : ∀ f : Flag, appendRoot sysroot f = f := by
    intro f
    have : shouldRewrite sysroot f.value = false := by
      unfold shouldRewrite
      rcases h with rfl | rfl
      · simp
      · by_cases h1 : ['/'] = ([] : Text) ∨ f.value = []
        · rw [if_pos h1]
        · rw [if_neg h1]
          split
          · rfl
          · rw [if_pos rfl]
    unfold appendRoot
    rw [this]; rfl
  have key' : ∀ l : List Flag, l.map (appendRoot sysroot) = l := by
    intro l
    induction l with
    | nil => rfl
    | cons f l ih => rw [List.map_cons, key, ih]
  unfold prependSysroot
  rw [key', key', key']

/-- C72: paths of system libraries are left out, and nothing else. -/
theorem C72_system_paths (paths : List Text) (p : Package) (f : Flag) :
    (f ∈ (removeSystemPaths paths p).libs ↔ f ∈ p.libs ∧ ¬ (f.type = .libraryPath ∧ f.value ∈ paths)) ∧
    (f ∈ (removeSystemPaths paths p).libsPrivate ↔ f ∈ p.libsPrivate ∧ ¬ (f.type = .libraryPath ∧ f.value ∈ paths)) ∧
    (removeSystemPaths paths p).libs.Sublist p.libs ∧ (removeSystemPaths paths p).cflags = p.cflags := by
  unfold removeSystemPaths
  refine ⟨?_, ?_, List.filter_sublist, rfl⟩
  · simp only [List.mem_filter, Bool.not_eq_true', Bool.and_eq_false_iff, beq_eq_false_iff_ne, List.contains_eq_mem, decide_eq_false_iff_not]
    grind
  · simp only [List.mem_filter, Bool.not_eq_true', Bool.and_eq_false_iff, beq_eq_false_iff_ne, List.contains_eq_mem, decide_eq_false_iff_not]
    grind

/-! ## Looking for packages -/

theorem char_eq {a b : Char} (h1 : ¬ a.toNat < b.toNat) (h2 : ¬ b.toNat < a.toNat) : a = b := by
  have : a.toNat = b.toNat := by omega
  exact Char.toNat_inj.1 this

theorem textLt_trichotomy (s t : Text) (h1 : textLt s t = false) (h2 : textLt t s = false) : s = t := by
  induction s generalizing t with
  | nil =>
    cases t with
    | nil => rfl
    | cons b t => cases h1
  | cons a s ih =>
    cases t with
    | nil => cases h2
    | cons b t =>
      simp only [textLt] at h1 h2
      by_cases hab : a.toNat < b.toNat
      · rw [if_pos hab] at h1; cases h1
      · by_cases hba : b.toNat < a.toNat
        · rw [if_pos hba] at h2; cases h2
        · rw [if_neg hab, if_neg hba] at h1
          rw [if_neg hba, if_neg hab] at h2
          rw [char_eq hab hba, ih t h1 h2]

theorem textLt_irrefl (s : Text) : textLt s s = false := by
  induction s with
  | nil => rfl
  | cons a s ih => simp [textLt, ih]

/-- C72: a package is found if, and only if, there is a file with that name, however the packages have been sorted. -/
theorem C72_found (o : Options) (files : List PcFile) (sorted : List Found) (hs : SortedAs (found o files) sorted) (name : Text) :
    (∀ f, getPackage sorted name = some f → f.base = name ∧ f ∈ found o files) ∧
    ((getPackage sorted name).isSome ↔ ∃ f ∈ files, completeBaseName f.path = name) ∧
    (∀ f, jsPackage sorted name = some f → f.base = name ∧ f ∈ found o files) ∧
    ((jsPackage sorted name).isSome ↔ ∃ f ∈ files, completeBaseName f.path = name) := by
  have hmem : (∃ f ∈ files, completeBaseName f.path = name) ↔ ∃ g ∈ sorted, g.base = name := by
    constructor
    · rintro ⟨f, hf, rfl⟩
      exact ⟨load o f, hs.1.mem_iff.2 (List.mem_map_of_mem hf), rfl⟩
    · rintro ⟨g, hg, rfl⟩
      have := hs.1.mem_iff.1 hg
      simp only [found, List.mem_map] at this
      obtain ⟨f, hf, rfl⟩ := this
      exact ⟨f, hf, rfl⟩
  have h1 : ∀ f, getPackage sorted name = some f → f.base = name ∧ f ∈ sorted := by
    intro f hf
    unfold getPackage at hf
    split at hf
    · cases hf
    · rename_i g l hd
      split at hf
      · rename_i hb
        cases hf
        exact ⟨hb, (List.dropWhile_suffix (fun f : Found => textLt f.base name)).subset (by rw [hd]; simp)⟩
      · cases hf
  have h2 : (∃ g ∈ sorted, g.base = name) → (getPackage sorted name).isSome := by
    have key : ∀ l : List Found, l.Pairwise (fun a b => textLt b.base a.base = false) → (∃ g ∈ l, g.base = name) → (getPackage l name).isSome := by
      intro l hp hg
      induction l with
      | nil => obtain ⟨g, hg, -⟩ := hg; cases hg
      | cons x l ih =>
        rw [List.pairwise_cons] at hp
        obtain ⟨g, hg, hgn⟩ := hg
        simp only [List.mem_cons] at hg
        unfold getPackage
        by_cases hx : textLt x.base name = true
        · rw [List.dropWhile_cons_of_pos (p := fun f : Found => textLt f.base name) hx]
          have hgx : g ≠ x := by
            rintro rfl
            rw [hgn, textLt_irrefl] at hx; cases hx
          have := ih hp.2 ⟨g, by simpa [hgx] using hg, hgn⟩
          unfold getPackage at this
          exact this
        · rw [List.dropWhile_cons_of_neg (p := fun f : Found => textLt f.base name) hx]
          have hx' : textLt x.base name = false := by simpa using hx
          have : x.base = name := by
            rcases hg with rfl | hg
            · exact hgn
            · have := hp.1 g hg
              rw [hgn] at this
              exact textLt_trichotomy _ _ hx' this
          simp [this]
    exact key sorted hs.2
  refine ⟨fun f hf => ⟨(h1 f hf).1, hs.1.mem_iff.1 (h1 f hf).2⟩, ?_, ?_, ?_⟩
  · rw [hmem]
    constructor
    · intro h
      obtain ⟨f, hf⟩ := Option.isSome_iff_exists.1 h
      exact ⟨f, (h1 f hf).2, (h1 f hf).1⟩
    · exact h2
  · intro f hf
    unfold jsPackage at hf
    have ha := List.find?_some hf
    have hb := List.mem_of_find?_eq_some hf
    exact ⟨by simpa using ha, hs.1.mem_iff.1 (by simpa using hb)⟩
  · rw [hmem]
    unfold jsPackage
    rw [List.find?_isSome]
    simp

/-! ## Versions -/

open Verif.Version (Version Range fromString toString Version.Wf LexLt)

/-- What the operators mean -/
def Comparison.holds (c : Comparison) (v w : Version) : Prop :=
  match c with
  | .lessThan => LexLt v w
  | .greaterThan => LexLt w v
  | .lessThanEqual => LexLt v w ∨ v = w
  | .greaterThanEqual => LexLt w v ∨ v = w
  | .equal => v = w
  | .notEqual => v ≠ w
  | .alwaysMatch => True

/-- The number that digits stand for -/
def numberOf (s : Text) : Nat := s.foldl (fun n c => 10 * n + (c.toNat - 48)) 0

def Number (s : Text) : Prop := s ≠ [] ∧ (∀ c ∈ s, c.isDigit = true) ∧ numberOf s ≤ 2147483647

/-- A version as one writes it: one to three numbers with dots between them, each of which fits into an integer. -/
inductive Dotted : Text → Version → Prop
  | one (a : Text) : Number a → Dotted a ⟨numberOf a, 0, 0, 0⟩
  | two (a b : Text) : Number a → Number b → Dotted (a ++ '.' :: b) ⟨numberOf a, numberOf b, 0, 0⟩
  | three (a b c : Text) : Number a → Number b → Number c →
      Dotted (a ++ '.' :: (b ++ '.' :: c)) ⟨numberOf a, numberOf b, numberOf c, 0⟩

/-- The full claim: what a package requires is what is checked. -/
def VersionsChecked : Prop := ∀ (r : Required) (version : Text) (v w : Version), Dotted version v → Dotted r.version w →
  (acceptsVersion r version = true ↔ r.comparison.holds v w)


open Verif.Version Verif.Digits in
theorem number_toInt {s : Text} (h : Number s) : IsNum s ∧ toInt s = (numberOf s : Nat) := by
  obtain ⟨h1, h2, h3⟩ := h
  have hv : value s = numberOf s := rfl
  refine ⟨⟨h1, h2⟩, ?_⟩
  unfold toInt
  rw [hv, if_pos (by simpa [intMax] using h3)]

open Verif.Version Verif.Digits in
/-- Versions are understood as they are written. -/
theorem dotted_parse {s : Text} {v : Version} (h : Dotted s v) : fromString s false = v := by
  have e0 : toInt [] = 0 := by decide
  have dot : ∀ r : List Char, ∀ c cs, '.' :: r = c :: cs → c.isDigit = false := by
    intro r c cs h; simp at h; rw [← h.1]; decide
  have nil : ∀ c cs, ([] : List Char) = c :: cs → c.isDigit = false := by simp
  have gnil : ∀ seps, optGroup seps [] = ([], []) := fun _ => rfl
  cases h with
  | one a ha =>
    obtain ⟨n1, t1⟩ := number_toInt ha
    unfold fromString
    have := spanDigits_append s [] n1.2 nil
    rw [List.append_nil] at this
    rw [this]
    simp only [n1.1, if_false, gnil, Bool.false_eq_true, if_true, t1, e0]
  | two a b ha hb =>
    obtain ⟨n1, t1⟩ := number_toInt ha
    obtain ⟨n2, t2⟩ := number_toInt hb
    unfold fromString
    rw [spanDigits_append a _ n1.2 (dot _)]
    have := optGroup_app ['.'] b [] '.' (by simp) n2 nil
    rw [List.append_nil] at this
    simp only [this, n1.1, if_false, gnil, Bool.false_eq_true, if_true, t1, t2, e0]
  | three a b c ha hb hc =>
    obtain ⟨n1, t1⟩ := number_toInt ha
    obtain ⟨n2, t2⟩ := number_toInt hb
    obtain ⟨n3, t3⟩ := number_toInt hc
    unfold fromString
    rw [spanDigits_append a _ n1.2 (dot _)]
    simp only [n1.1, if_false]
    rw [optGroup_app ['.'] b _ '.' (by simp) n2 (dot _)]
    have := optGroup_app ['.'] c [] '.' (by simp) n3 nil
    rw [List.append_nil] at this
    rw [this]
    simp only [Bool.false_eq_true, if_false, if_true, t1, t2, t3, e0]

theorem dotted_wf {s : Text} {v : Version} (h : Dotted s v) : v.Wf ∧ v.build = 0 := by
  unfold Version.Wf Verif.Version.intMax
  cases h with
  | one a ha => have := ha.2.2; exact ⟨by simp only; omega, rfl⟩
  | two a b ha hb => have := ha.2.2; have := hb.2.2; exact ⟨by simp only; omega, rfl⟩
  | three a b c ha hb hc => have := ha.2.2; have := hb.2.2; have := hc.2.2; exact ⟨by simp only; omega, rfl⟩

/-- The version that follows is understood as it is written, too. -/
theorem next_parse {s : Text} {w : Version} (h : Dotted s w) (hp : w.patch < 2147483647) :
    fromString (toString (nextVersion s)) false = { w with patch := w.patch + 1 } := by
  obtain ⟨h1, h2⟩ := dotted_wf h
  have he : nextVersion s = { w with patch := w.patch + 1 } := by
    unfold nextVersion
    rw [dotted_parse h]
    obtain ⟨a, b, c, d⟩ := w
    simp only at h2 ⊢
    rw [h2]
  rw [he]
  refine (Verif.Version.C02_parse_print _ ?_).2.2.1 h2
  unfold Version.Wf Verif.Version.intMax at h1 ⊢
  simp only
  omega

/-- C73: with the operators "<", "<=", ">" and ">=", or none, a package is accepted if, and only if, its version is what is required.
"=" and "!=" are missing, as is "< 0", and versions that are not up to three numbers. -/
theorem C73_versions_partial (r : Required) (version : Text) (v w : Version) (hv : Dotted version v)
    (h : (r.comparison = .alwaysMatch) ∨ (r.comparison = .greaterThanEqual ∧ Dotted r.version w) ∨
      (r.comparison = .lessThan ∧ Dotted r.version w ∧ w ≠ {}) ∨
      ((r.comparison = .greaterThan ∨ r.comparison = .lessThanEqual) ∧ Dotted r.version w ∧ w.patch < 2147483647)) :
    acceptsVersion r version = true ↔ r.comparison.holds v w := by
  obtain ⟨hwf, hb⟩ := dotted_wf hv
  unfold acceptsVersion
  rw [dotted_parse hv, Verif.Version.C03_accepts_iff_allows _ _ hwf]
  have e : fromString [] false = {} := by decide
  have h0 : ¬ LexLt v {} := by
    unfold Version.Wf at hwf
    unfold LexLt
    simp only
    omega
  rcases h with h | ⟨h, hw⟩ | ⟨h, hw, hn⟩ | ⟨h | h, hw, hp⟩
  · simp only [versionProps, h, dependsRange, Option.getD_none, e, Range.Allows, Comparison.holds]
    exact ⟨fun _ => trivial, fun _ => ⟨h0, .inl trivial⟩⟩
  · simp only [versionProps, h, dependsRange, Option.getD_none, Option.getD_some, e, dotted_parse hw, Range.Allows, Comparison.holds]
    obtain ⟨a, b, c, d⟩ := v
    obtain ⟨a', b', c', d'⟩ := w
    simp only [LexLt, Verif.Version.Version.mk.injEq, true_or, and_true]
    omega
  · simp only [versionProps, h, dependsRange, Option.getD_none, Option.getD_some, e, dotted_parse hw, Range.Allows, Comparison.holds]
    exact ⟨fun ⟨_, h⟩ => h.resolve_left hn, fun h => ⟨h0, .inr h⟩⟩
  · simp only [versionProps, h, dependsRange, Option.getD_none, Option.getD_some, e, next_parse hw hp, Range.Allows, Comparison.holds]
    have hwb := (dotted_wf hw).2
    obtain ⟨a, b, c, d⟩ := v
    obtain ⟨a', b', c', d'⟩ := w
    simp only at hb hwb
    simp only [LexLt, true_or, and_true]
    omega
  · simp only [versionProps, h, dependsRange, Option.getD_none, Option.getD_some, e, next_parse hw hp, Range.Allows, Comparison.holds]
    have hwb := (dotted_wf hw).2
    have hwf' := (dotted_wf hw).1
    unfold Version.Wf at hwf'
    have hne : ({ w with patch := w.patch + 1 } : Version) ≠ {} := by
      intro he
      have := congrArg Version.patch he
      simp only at this
      omega
    obtain ⟨a, b, c, d⟩ := v
    obtain ⟨a', b', c', d'⟩ := w
    simp only at hb hwb hne h0 ⊢
    simp only [h0, not_false_eq_true, true_and, hne, false_or]
    simp only [LexLt, Verif.Version.Version.mk.injEq]
    omega

/-- **C73 finding.** A requirement "= 2.0" is not checked at all: it becomes a property that nothing reads. -/
theorem C73_equal_ignored (r : Required) (version : Text) (h : r.comparison = .equal) : acceptsVersion r version = true := by
  unfold acceptsVersion
  have e : fromString [] false = {} := by decide
  simp only [versionProps, h, dependsRange, Option.getD_none, e]
  rfl

/-- **C73 finding.** A requirement "!= 2.0" cannot be met by any version: it becomes a range whose beginning is behind its end. -/
theorem C73_not_equal_refuses (r : Required) (version : Text) (w : Version) (h : r.comparison = .notEqual)
    (hw : Dotted r.version w) (hn : w ≠ {}) (hp : w.patch < 2147483647) : acceptsVersion r version = false := by
  unfold acceptsVersion
  simp only [versionProps, h, dependsRange, Option.getD_some, dotted_parse hw, next_parse hw hp]
  have hwb := (dotted_wf hw).2
  have hv : w.isValid = true := (Verif.Version.isValid_iff w).2 hn
  have hge : Verif.Version.ge { w with patch := w.patch + 1 } w = true := by
    unfold Verif.Version.ge
    have : ¬ Verif.Version.lt { w with patch := w.patch + 1 } w = true := by
      rw [Verif.Version.lt_iff]
      unfold LexLt
      simp only
      omega
    simpa using this
  unfold Range.accepts
  simp only [hv, hge, Bool.or_true, if_true, Bool.and_self]

/-- **C73 finding.** Hence what is required is not what is checked. -/
theorem C73_not_checked : ¬ VersionsChecked := by
  intro h
  have := (h ⟨"a".toList, .equal, "2.0".toList⟩ "1".toList ⟨1, 0, 0, 0⟩ ⟨2, 0, 0, 0⟩
    (Dotted.one "1".toList ⟨by decide, by decide, by decide⟩)
    (Dotted.two "2".toList "0".toList ⟨by decide, by decide, by decide⟩ ⟨by decide, by decide, by decide⟩)).1
    (C73_equal_ignored _ _ rfl)
  simp [Comparison.holds] at this

end Verif.Pc
