import Verif.Pc.ModLem

/-! # Lemmas about files -/

namespace Verif.Pc

/-! ## One line -/

theorem tag_nspace {c : Char} (h : isTag c = true) : isSpace c = false := by
  cases hs : isSpace c with
  | false => rfl
  | true =>
    unfold isSpace at hs
    simp only [Bool.or_eq_true, beq_iff_eq] at hs
    rcases hs with ((((rfl | rfl) | rfl) | rfl) | rfl) | rfl <;> exact absurd h (by decide)

theorem space_ntag {c : Char} (h : isSpace c = true) : isTag c = false := by
  cases ht : isTag c with
  | false => rfl
  | true => rw [tag_nspace ht] at h; cases h

theorem takeDrop_tag {t s : Text} (ht : ∀ c ∈ t, isTag c = true) (hs : ∀ c l, s = c :: l → isTag c = false) :
    (t ++ s).takeWhile isTag = t ∧ (t ++ s).dropWhile isTag = s := by
  induction t with
  | nil =>
    cases s with
    | nil => exact ⟨rfl, rfl⟩
    | cons c l => simp [hs c l rfl]
  | cons x t ih =>
    have := ih (fun c hc => ht c (by simp [hc]))
    simp [ht x, this]

theorem head_append {α} {a b : List α} {P : α → Prop} (ha : ∀ c l, a = c :: l → P c) (hb : ∀ c l, b = c :: l → P c) :
    ∀ c l, a ++ b = c :: l → P c := by
  intro c l h
  cases a with
  | nil => exact hb c l h
  | cons x a => cases h; exact ha _ _ rfl

theorem last_append {α} {a b : List α} {P : α → Prop} (hb : ∀ c l, b = l ++ [c] → P c) (hb0 : b = [] → ∀ c l, a = l ++ [c] → P c) :
    ∀ c l, a ++ b = l ++ [c] → P c := by
  intro c l h
  rcases List.eq_nil_or_concat b with rfl | ⟨b', x, rfl⟩
  · exact hb0 rfl c l (by simpa using h)
  · rw [List.concat_eq_append] at h hb
    rw [← List.append_assoc] at h
    have h' := List.append_inj' h rfl
    cases h'.2
    exact hb _ b' rfl

theorem sign_facts {sign : Char} (h : sign = ':' ∨ sign = '=') : isSpace sign = false ∧ isTag sign = false := by
  rcases h with rfl | rfl <;> decide

/-- What is behind the sign, given what the line says -/
theorem says_parts {line tag value : Text} {sign : Char} (h : Says line tag sign value) :
    (trimmed line).takeWhile isTag = tag ∧
      ∃ rest, trimmed ((trimmed line).dropWhile isTag) = sign :: rest ∧ trimmed rest = value := by
  obtain ⟨a, b, c, d, rfl, ha, hb, hc, hd, ht, hs, h1, h2⟩ := h
  obtain ⟨hsp, hst⟩ := sign_facts hs
  -- the last part, without white space at the end
  have key : ∃ c' d', (∀ x ∈ c', isSpace x = true) ∧ (∀ x ∈ d', isSpace x = true) ∧ c ++ value ++ d = c' ++ value ++ d' ∧ (value = [] → c' = []) := by
    by_cases hv : value = []
    · refine ⟨[], c ++ d, by simp, ?_, by simp [hv], fun _ => rfl⟩
      intro x hx; simp only [List.mem_append] at hx; rcases hx with hx | hx; exact hc x hx; exact hd x hx
    · exact ⟨c, d, hc, hd, rfl, fun h => absurd h hv⟩
  obtain ⟨c', d', hc', hd', e, hv0⟩ := key
  have tailLast : ∀ x l, [sign] ++ (c' ++ value) = l ++ [x] → isSpace x = false := by
    refine last_append (last_append h2 ?_) ?_
    · intro hv x l hx; rw [hv0 hv] at hx; simp at hx
    · intro hcv x l hx
      have := List.append_inj' (s₁ := []) (t₁ := [sign]) hx rfl
      cases this.2; exact hsp
  -- without white space at the beginning
  have key2 : ∃ a' b', (∀ x ∈ a', isSpace x = true) ∧ (∀ x ∈ b', isSpace x = true) ∧ a ++ tag ++ b = a' ++ tag ++ b' ∧ (tag = [] → b' = []) := by
    by_cases hv : tag = []
    · refine ⟨a ++ b, [], ?_, by simp, by simp [hv], fun _ => rfl⟩
      intro x hx; simp only [List.mem_append] at hx; rcases hx with hx | hx; exact ha x hx; exact hb x hx
    · exact ⟨a, b, ha, hb, rfl, fun h => absurd h hv⟩
  obtain ⟨a', b', ha', hb', e2, ht0⟩ := key2
  have hline : a ++ tag ++ b ++ [sign] ++ c ++ value ++ d = a' ++ (tag ++ (b' ++ ([sign] ++ (c' ++ value)))) ++ d' := by
    have : a ++ tag ++ b ++ [sign] ++ c ++ value ++ d = (a ++ tag ++ b) ++ [sign] ++ (c ++ value ++ d) := by simp
    rw [this, e, e2]; simp
  have hlast : ∀ x l, tag ++ (b' ++ ([sign] ++ (c' ++ value))) = l ++ [x] → isSpace x = false :=
    last_append (last_append tailLast (by simp)) (by simp)
  have htrim : trimmed (a ++ tag ++ b ++ [sign] ++ c ++ value ++ d) = tag ++ (b' ++ ([sign] ++ (c' ++ value))) := by
    rw [hline]
    refine trimmed_eq ha' hd' ?_ hlast
    intro x l hx
    cases htag : tag with
    | nil =>
      rw [htag, ht0 htag] at hx
      simp only [List.nil_append, List.cons_append] at hx
      cases hx; exact hsp
    | cons y tag' => rw [htag] at hx; cases hx; exact tag_nspace (ht _ (by rw [htag]; simp))
  have hdrop : ∀ x l, b' ++ ([sign] ++ (c' ++ value)) = x :: l → isTag x = false := by
    intro x l hx
    cases hbb : b' with
    | nil => rw [hbb] at hx; cases hx; exact hst
    | cons y b'' => rw [hbb] at hx; cases hx; exact space_ntag (hb' _ (by rw [hbb]; simp))
  obtain ⟨k1, k2⟩ := takeDrop_tag ht hdrop
  rw [htrim, k1, k2]
  refine ⟨rfl, c' ++ value, ?_, ?_⟩
  · have := trimmed_eq (a := b') (t := [sign] ++ (c' ++ value)) (b := []) hb' (by simp) (by intro x l hx; cases hx; exact hsp) tailLast
    simpa using this
  · have := trimmed_eq (a := c') (t := value) (b := []) hc' (by simp) h1 h2
    simpa using this

theorem trimmed_trimmed (s : Text) : trimmed (trimmed s) = trimmed s := by
  obtain ⟨a, b, -, -, -, h1, h2⟩ := trimmed_decomp s
  have := trimmed_eq (a := []) (t := trimmed s) (b := []) (by simp) (by simp) h1 h2
  simpa using this

theorem trimmed_of {t : Text} (h1 : ∀ c l, t = c :: l → isSpace c = false) (h2 : ∀ c l, t = l ++ [c] → isSpace c = false) :
    trimmed t = t := by
  have := trimmed_eq (a := []) (t := t) (b := []) (by simp) (by simp) h1 h2
  simpa using this

theorem parseLine_field {line tag value : Text} (h : Says line tag ':' value) (o : Options) (pkg : Package) :
    parseLine o pkg line = parseField o pkg tag value := by
  obtain ⟨k1, rest, k2, k3⟩ := says_parts h
  unfold parseLine
  simp only [k1, k2, k3, if_true]

theorem parseLine_variable {line tag value : Text} (h : Says line tag '=' value) (o : Options) (pkg : Package) :
    parseLine o pkg line = parseVariable o pkg tag value := by
  obtain ⟨k1, rest, k2, k3⟩ := says_parts h
  unfold parseLine
  simp only [k1, k2, k3, if_true]
  rw [if_neg (by decide)]

theorem takeDrop_all (s : Text) : (∀ c ∈ s.takeWhile isTag, isTag c = true) ∧ s = s.takeWhile isTag ++ s.dropWhile isTag := by
  induction s with
  | nil => simp
  | cons x s ih =>
    cases hx : isTag x with
    | true =>
      simp only [List.takeWhile, List.dropWhile, hx]
      refine ⟨?_, by rw [List.cons_append, ← ih.2]⟩
      intro c hc; simp only [List.mem_cons] at hc
      rcases hc with rfl | hc
      · exact hx
      · exact ih.1 c hc
    | false => simp [hx]

/-- A line that says nothing is ignored. -/
theorem parseLine_cases (line : Text) : (∃ tag sign value, Says line tag sign value) ∨ ∀ o pkg, parseLine o pkg line = .ok pkg := by
  obtain ⟨a, d, h1, ha, hd, -, -⟩ := trimmed_decomp line
  obtain ⟨ht, h2⟩ := takeDrop_all (trimmed line)
  obtain ⟨b, d', h3, hb, hd', -, -⟩ := trimmed_decomp ((trimmed line).dropWhile isTag)
  cases hr : trimmed ((trimmed line).dropWhile isTag) with
  | nil => right; intro o pkg; unfold parseLine; simp only [hr]
  | cons x rest =>
    by_cases hx : x = ':' ∨ x = '='
    · left
      obtain ⟨c, d'', h4, hc, hd'', h5, h6⟩ := trimmed_decomp rest
      refine ⟨(trimmed line).takeWhile isTag, x, trimmed rest, a, b, c, d'' ++ d' ++ d, ?_, ha, hb, hc, ?_, ht, hx, h5, h6⟩
      · have e1 : (trimmed line).dropWhile isTag = b ++ (x :: (c ++ trimmed rest ++ d'')) ++ d' := by
          rw [h3, hr, ← h4]
        have e2 : trimmed line = (trimmed line).takeWhile isTag ++ (b ++ (x :: (c ++ trimmed rest ++ d'')) ++ d') := by
          rw [← e1]; exact h2
        generalize hT : (trimmed line).takeWhile isTag = T at *
        rw [h1, e2]; simp
      · intro y hy
        simp only [List.mem_append] at hy
        rcases hy with (hy | hy) | hy
        · exact hd'' y hy
        · exact hd' y hy
        · exact hd y hy
    · right
      intro o pkg
      unfold parseLine
      simp only [hr]
      rw [if_neg (fun h => hx (.inl h)), if_neg (fun h => hx (.inr h))]

theorem says_inj {line t1 t2 v1 v2 : Text} {s1 s2 : Char} (h1 : Says line t1 s1 v1) (h2 : Says line t2 s2 v2) :
    t1 = t2 ∧ s1 = s2 ∧ v1 = v2 := by
  obtain ⟨a1, r1, a2, a3⟩ := says_parts h1
  obtain ⟨b1, r2, b2, b3⟩ := says_parts h2
  rw [a2] at b2
  cases b2
  exact ⟨a1 ▸ b1, rfl, a3 ▸ b3⟩

/-! ## What is kept -/

theorem look_append {k : Text} {l m : List (Text × Text)} : look k (l ++ m) = (look k l).or (look k m) := by
  induction l with
  | nil => rfl
  | cons p l ih =>
    simp only [List.cons_append, look]
    split
    · rfl
    · exact ih

/-- Everything that is known before is known afterwards. -/
structure Keeps (p q : Package) : Prop where
  base : q.baseFileName = p.baseFileName
  path : q.filePath = p.filePath
  vars : ∀ n x, look n p.variables = some x → look n q.variables = some x
  old : p.oldPrefix.isSome → q.oldPrefix = p.oldPrefix
  text : ∀ f : TextField, f.get p ≠ [] → f.get q = f.get p
  flags : ∀ f : FlagsField, f.get p ≠ [] → f.get q = f.get p
  packages : ∀ f : PackagesField, f.get p ≠ [] → f.get q = f.get p

theorem Keeps.refl (p : Package) : Keeps p p := ⟨rfl, rfl, fun _ _ h => h, fun _ => rfl, fun _ _ => rfl, fun _ _ => rfl, fun _ _ => rfl⟩

theorem Keeps.trans {p q r : Package} (h1 : Keeps p q) (h2 : Keeps q r) : Keeps p r where
  base := by rw [h2.base, h1.base]
  path := by rw [h2.path, h1.path]
  vars n x h := h2.vars n x (h1.vars n x h)
  old h := by rw [h2.old (by rw [h1.old h]; exact h), h1.old h]
  text f h := by rw [h2.text f (by rw [h1.text f h]; exact h), h1.text f h]
  flags f h := by rw [h2.flags f (by rw [h1.flags f h]; exact h), h1.flags f h]
  packages f h := by rw [h2.packages f (by rw [h1.packages f h]; exact h), h1.packages f h]

theorem map_ok {α β ε} {f : α → β} {x : Except ε α} {y : β} (h : x.map f = .ok y) : ∃ a, x = .ok a ∧ f a = y := by
  cases x with
  | error e => cases h
  | ok a => cases h; exact ⟨a, rfl, rfl⟩

theorem stringField_ok {o : Options} {pkg : Package} {field tag str x : Text} (h : stringField o pkg field tag str = .ok x) :
    field = [] ∧ trimAndSubstitute (getVariable o pkg) str = .ok x := by
  unfold stringField at h
  split at h
  · cases h
  · rename_i hf; exact ⟨by simpa using hf, h⟩

theorem flagsField_ok {o : Options} {pkg : Package} {parse : List Text → List Flag} (hp : parse [] = []) {field x : List Flag} {tag str : Text}
    (h : flagsField o pkg parse field tag str = .ok x) :
    field = [] ∧ ∃ t argv, trimAndSubstitute (getVariable o pkg) str = .ok t ∧ split t = some argv ∧ x = parse argv := by
  unfold flagsField at h
  split at h
  · cases h
  · rename_i hf
    have hf : field = [] := by simpa using hf
    refine ⟨hf, ?_⟩
    split at h
    · cases h
    · rename_i t ht
      split at h
      · rename_i h0
        cases h
        refine ⟨t, [], ht, by rw [h0]; rfl, by rw [hp]; exact hf⟩
      · split at h
        · cases h
        · rename_i argv ha; cases h; exact ⟨t, argv, ht, ha, rfl⟩

theorem versionsField_ok {o : Options} {pkg : Package} {field x : List Required} {tag str : Text}
    (h : versionsField o pkg field tag str = .ok x) :
    field = [] ∧ ∃ t, trimAndSubstitute (getVariable o pkg) str = .ok t ∧ parseModuleList t = .ok x := by
  unfold versionsField at h
  split at h
  · cases h
  · rename_i hf
    refine ⟨by simpa using hf, ?_⟩
    split at h
    · cases h
    · rename_i t ht; exact ⟨t, ht, h⟩

/-- What a line with a keyword does -/
inductive Change (o : Options) (p : Package) (tag str : Text) (q : Package) : Prop
  | text (f : TextField) (ht : tag ∈ f.keywords) (h0 : f.get p = []) (x : Text)
      (hx : trimAndSubstitute (getVariable o p) str = .ok x) (hq : f.get q = x)
      (same : q.baseFileName = p.baseFileName ∧ q.filePath = p.filePath ∧ q.variables = p.variables ∧ q.oldPrefix = p.oldPrefix)
      (ot : ∀ g : TextField, g ≠ f → g.get q = g.get p) (of : ∀ g : FlagsField, g.get q = g.get p)
      (op : ∀ g : PackagesField, g.get q = g.get p)
  | flags (f : FlagsField) (ht : tag ∈ f.keywords) (h0 : f.get p = []) (t : Text) (argv : List Text)
      (hx : trimAndSubstitute (getVariable o p) str = .ok t) (ha : split t = some argv) (hq : f.get q = f.parse argv)
      (same : q.baseFileName = p.baseFileName ∧ q.filePath = p.filePath ∧ q.variables = p.variables ∧ q.oldPrefix = p.oldPrefix)
      (ot : ∀ g : TextField, g.get q = g.get p) (of : ∀ g : FlagsField, g ≠ f → g.get q = g.get p)
      (op : ∀ g : PackagesField, g.get q = g.get p)
  | packages (f : PackagesField) (ht : tag ∈ f.keywords) (h0 : f.get p = []) (t : Text) (l : List Required)
      (hx : trimAndSubstitute (getVariable o p) str = .ok t) (ha : parseModuleList t = .ok l) (hq : f.get q = l)
      (same : q.baseFileName = p.baseFileName ∧ q.filePath = p.filePath ∧ q.variables = p.variables ∧ q.oldPrefix = p.oldPrefix)
      (ot : ∀ g : TextField, g.get q = g.get p) (of : ∀ g : FlagsField, g.get q = g.get p)
      (op : ∀ g : PackagesField, g ≠ f → g.get q = g.get p)
  | none (ht : (∀ f : TextField, tag ∉ f.keywords) ∧ (∀ f : FlagsField, tag ∉ f.keywords) ∧ ∀ f : PackagesField, tag ∉ f.keywords)
      (hq : q = p)

theorem parseField_change {o : Options} {p q : Package} {tag str : Text} (h : parseField o p tag str = .ok q) : Change o p tag str q := by
  unfold parseField at h
  split at h
  · rename_i ht
    obtain ⟨x, hx, rfl⟩ := map_ok h
    obtain ⟨h0, hx⟩ := stringField_ok hx
    exact .text .name (by simp [TextField.keywords, ht]) h0 x hx rfl ⟨rfl, rfl, rfl, rfl⟩
      (by intro g hg; cases g <;> first | rfl | exact absurd rfl hg) (by intro g; cases g <;> rfl) (by intro g; cases g <;> rfl)
  split at h
  · rename_i ht
    obtain ⟨x, hx, rfl⟩ := map_ok h
    obtain ⟨h0, hx⟩ := stringField_ok hx
    exact .text .description (by simp [TextField.keywords, ht]) h0 x hx rfl ⟨rfl, rfl, rfl, rfl⟩
      (by intro g hg; cases g <;> first | rfl | exact absurd rfl hg) (by intro g; cases g <;> rfl) (by intro g; cases g <;> rfl)
  split at h
  · rename_i ht
    obtain ⟨x, hx, rfl⟩ := map_ok h
    obtain ⟨h0, hx⟩ := stringField_ok hx
    exact .text .version (by simp [TextField.keywords, ht]) h0 x hx rfl ⟨rfl, rfl, rfl, rfl⟩
      (by intro g hg; cases g <;> first | rfl | exact absurd rfl hg) (by intro g; cases g <;> rfl) (by intro g; cases g <;> rfl)
  split at h
  · rename_i ht
    obtain ⟨x, hx, rfl⟩ := map_ok h
    obtain ⟨h0, t, ht', ha⟩ := versionsField_ok hx
    exact .packages .requiresPrivate (by simp [PackagesField.keywords, ht]) h0 t x ht' ha rfl ⟨rfl, rfl, rfl, rfl⟩
      (by intro g; cases g <;> rfl) (by intro g; cases g <;> rfl) (by intro g hg; cases g <;> first | rfl | exact absurd rfl hg)
  split at h
  · rename_i ht
    obtain ⟨x, hx, rfl⟩ := map_ok h
    obtain ⟨h0, t, ht', ha⟩ := versionsField_ok hx
    exact .packages .requires (by simp [PackagesField.keywords, ht]) h0 t x ht' ha rfl ⟨rfl, rfl, rfl, rfl⟩
      (by intro g; cases g <;> rfl) (by intro g; cases g <;> rfl) (by intro g hg; cases g <;> first | rfl | exact absurd rfl hg)
  split at h
  · rename_i ht
    obtain ⟨x, hx, rfl⟩ := map_ok h
    obtain ⟨h0, t, argv, ht', ha, rfl⟩ := flagsField_ok (by simp [parseLibs]) hx
    exact .flags .libsPrivate (by simp [FlagsField.keywords, ht]) h0 t argv ht' ha rfl ⟨rfl, rfl, rfl, rfl⟩
      (by intro g; cases g <;> rfl) (by intro g hg; cases g <;> first | rfl | exact absurd rfl hg) (by intro g; cases g <;> rfl)
  split at h
  · rename_i ht
    obtain ⟨x, hx, rfl⟩ := map_ok h
    obtain ⟨h0, t, argv, ht', ha, rfl⟩ := flagsField_ok (by simp [parseLibs]) hx
    exact .flags .libs (by simp [FlagsField.keywords, ht]) h0 t argv ht' ha rfl ⟨rfl, rfl, rfl, rfl⟩
      (by intro g; cases g <;> rfl) (by intro g hg; cases g <;> first | rfl | exact absurd rfl hg) (by intro g; cases g <;> rfl)
  split at h
  · rename_i ht
    obtain ⟨x, hx, rfl⟩ := map_ok h
    obtain ⟨h0, t, argv, ht', ha, rfl⟩ := flagsField_ok (by simp [parseCFlags]) hx
    exact .flags .cflags (by simpa [FlagsField.keywords] using ht) h0 t argv ht' ha rfl ⟨rfl, rfl, rfl, rfl⟩
      (by intro g; cases g <;> rfl) (by intro g hg; cases g <;> first | rfl | exact absurd rfl hg) (by intro g; cases g <;> rfl)
  split at h
  · rename_i ht
    obtain ⟨x, hx, rfl⟩ := map_ok h
    obtain ⟨h0, t, ht', ha⟩ := versionsField_ok hx
    exact .packages .conflicts (by simp [PackagesField.keywords, ht]) h0 t x ht' ha rfl ⟨rfl, rfl, rfl, rfl⟩
      (by intro g; cases g <;> rfl) (by intro g; cases g <;> rfl) (by intro g hg; cases g <;> first | rfl | exact absurd rfl hg)
  split at h
  · rename_i ht
    obtain ⟨x, hx, rfl⟩ := map_ok h
    obtain ⟨h0, hx⟩ := stringField_ok hx
    exact .text .url (by simp [TextField.keywords, ht]) h0 x hx rfl ⟨rfl, rfl, rfl, rfl⟩
      (by intro g hg; cases g <;> first | rfl | exact absurd rfl hg) (by intro g; cases g <;> rfl) (by intro g; cases g <;> rfl)
  · cases h
    refine .none ⟨?_, ?_, ?_⟩ rfl
    all_goals
      intro f
      cases f <;> simp_all [TextField.keywords, FlagsField.keywords, PackagesField.keywords]

theorem Change.keeps {o : Options} {p q : Package} {tag str : Text} (h : Change o p tag str q) : Keeps p q := by
  cases h with
  | text f _ h0 x _ hq same ot of op =>
    refine ⟨same.1, same.2.1, fun n x h => by rw [same.2.2.1]; exact h, fun _ => same.2.2.2, ?_, fun g _ => of g, fun g _ => op g⟩
    intro g hg
    by_cases hgf : g = f
    · subst hgf; exact absurd h0 hg
    · exact ot g hgf
  | flags f _ h0 t argv _ _ hq same ot of op =>
    refine ⟨same.1, same.2.1, fun n x h => by rw [same.2.2.1]; exact h, fun _ => same.2.2.2, fun g _ => ot g, ?_, fun g _ => op g⟩
    intro g hg
    by_cases hgf : g = f
    · subst hgf; exact absurd h0 hg
    · exact of g hgf
  | packages f _ h0 t l _ _ hq same ot of op =>
    refine ⟨same.1, same.2.1, fun n x h => by rw [same.2.2.1]; exact h, fun _ => same.2.2.2, fun g _ => ot g, fun g _ => of g, ?_⟩
    intro g hg
    by_cases hgf : g = f
    · subst hgf; exact absurd h0 hg
    · exact op g hgf
  | none _ hq => subst hq; exact .refl q

theorem evaluateVariable_old {o : Options} {pkg : Package} {tag str v : Text} {old : Option Text}
    (h : evaluateVariable o pkg tag str = .ok (v, old)) :
    old = pkg.oldPrefix ∨ (o.definePrefix = true ∧ tag = "prefix".toList ∧ old = some str ∧ v = newPrefix pkg.filePath str) := by
  unfold evaluateVariable at h
  split at h
  · rename_i hd
    split at h
    · rename_i ht; cases h; exact .inr ⟨hd, ht, rfl, rfl⟩
    · split at h
      · split at h
        · obtain ⟨x, -, he⟩ := map_ok h; cases he; exact .inl rfl
        · obtain ⟨x, -, he⟩ := map_ok h; cases he; exact .inl rfl
      · obtain ⟨x, -, he⟩ := map_ok h; cases he; exact .inl rfl
  · obtain ⟨x, -, he⟩ := map_ok h; cases he; exact .inl rfl

theorem parseVariable_ok {o : Options} {p q : Package} {tag str : Text} (h : parseVariable o p tag str = .ok q) :
    ∃ v old, evaluateVariable o p tag str = .ok (v, old) ∧ look tag p.variables = none ∧
      q = { p with oldPrefix := old, variables := p.variables ++ [(tag, v)] } := by
  unfold parseVariable at h
  split at h
  · cases h
  · rename_i v old he
    split at h
    · cases h
    · rename_i hl; cases h; exact ⟨v, old, he, by simpa using hl, rfl⟩

/-- The old prefix is known if, and only if, there is a prefix and it is replaced. -/
def PrefixInv (o : Options) (p : Package) : Prop :=
  p.oldPrefix.isSome → (look "prefix".toList p.variables).isSome

theorem parseVariable_keeps {o : Options} {p q : Package} {tag str : Text} (hi : PrefixInv o p) (h : parseVariable o p tag str = .ok q) :
    Keeps p q ∧ PrefixInv o q := by
  obtain ⟨v, old, he, hl, rfl⟩ := parseVariable_ok h
  refine ⟨⟨rfl, rfl, ?_, ?_, ?_, ?_, ?_⟩, ?_⟩
  · intro n x hx; simp only [look_append, hx]; rfl
  · intro hs
    rcases evaluateVariable_old he with h' | ⟨-, rfl, -, -⟩
    · exact h'
    · have := hi hs; rw [hl] at this; cases this
  · intro f _; cases f <;> rfl
  · intro f _; cases f <;> rfl
  · intro f _; cases f <;> rfl
  · intro hs
    simp only at hs
    rcases evaluateVariable_old he with h' | ⟨-, rfl, -, -⟩
    · rw [h'] at hs
      have := hi hs
      obtain ⟨x, hx⟩ := Option.isSome_iff_exists.1 this
      simp only [look_append, hx]; rfl
    · simp only [look_append, hl, look]
      simp

theorem parseLine_keeps {o : Options} {p q : Package} {line : Text} (hi : PrefixInv o p) (h : parseLine o p line = .ok q) :
    Keeps p q ∧ PrefixInv o q := by
  rcases parseLine_cases line with ⟨tag, sign, value, hs⟩ | hn
  · have hsign : sign = ':' ∨ sign = '=' := by
      obtain ⟨_, _, _, _, _, _, _, _, _, _, hs, _⟩ := hs; exact hs
    rcases hsign with rfl | rfl
    · rw [parseLine_field hs] at h
      have hk := (parseField_change h).keeps
      refine ⟨hk, ?_⟩
      intro h1
      have hv : q.variables = p.variables ∧ q.oldPrefix = p.oldPrefix := by
        cases parseField_change h with
        | text f _ _ _ _ _ same => exact same.2.2
        | flags f _ _ _ _ _ _ _ same => exact same.2.2
        | packages f _ _ _ _ _ _ _ same => exact same.2.2
        | none _ hq => subst hq; exact ⟨rfl, rfl⟩
      rw [hv.1]; rw [hv.2] at h1; exact hi h1
    · rw [parseLine_variable hs] at h
      exact parseVariable_keeps hi h
  · rw [hn] at h; cases h; exact ⟨.refl _, hi⟩

theorem parseFrom_keeps {o : Options} {ls : List Text} {p q : Package} (hi : PrefixInv o p) (h : parseFrom o p ls = .ok q) :
    Keeps p q ∧ PrefixInv o q := by
  induction ls generalizing p with
  | nil => cases h; exact ⟨.refl _, hi⟩
  | cons l ls ih =>
    rw [parseFrom] at h
    split at h
    · cases h
    · rename_i p' hp
      obtain ⟨k1, k2⟩ := parseLine_keeps hi hp
      obtain ⟨k3, k4⟩ := ih k2 h
      exact ⟨k1.trans k3, k4⟩

theorem parseFrom_append {o : Options} {l1 l2 : List Text} {p q : Package} (h : parseFrom o p (l1 ++ l2) = .ok q) :
    ∃ m, parseFrom o p l1 = .ok m ∧ parseFrom o m l2 = .ok q := by
  induction l1 generalizing p with
  | nil => exact ⟨p, rfl, h⟩
  | cons l ls ih =>
    rw [List.cons_append, parseFrom] at h
    rw [parseFrom]
    split at h
    · cases h
    · rename_i p' hp
      exact ih h

theorem parseFrom_cons {o : Options} {l : Text} {ls : List Text} {p q : Package} (h : parseFrom o p (l :: ls) = .ok q) :
    ∃ m, parseLine o p l = .ok m ∧ parseFrom o m ls = .ok q := by
  rw [parseFrom] at h
  split at h
  · cases h
  · rename_i p' hp; exact ⟨p', hp, h⟩

theorem getVariable_keeps {o : Options} {p q : Package} (h : Keeps p q) {n x : Text} (hx : getVariable o p n = some x) :
    getVariable o q n = some x := by
  unfold getVariable at hx ⊢
  split
  · rename_i h0; rw [if_pos h0] at hx; cases hx
  · rename_i h0
    rw [if_neg h0] at hx
    simp only [h.base] at hx ⊢
    split at hx
    · rename_i y hy; exact hx
    · rename_i hy; exact h.vars n x hx

theorem subst_mono {f g : Text → Option Text} (h : ∀ n x, f n = some x → g n = some x) : ∀ (v : Option Text) (s t : Text),
    subst f v s = .ok t → subst g v s = .ok t := by
  intro v s
  induction v, s using subst.induct (lookup := f) with
  | case1 => intro t ht; rw [subst] at ht ⊢; exact ht
  | case2 => intro t ht; rw [subst] at ht; cases ht
  | case3 => intro t ht; rw [subst] at ht ⊢; exact ht
  | case4 s ih =>
    intro t ht
    rw [subst] at ht ⊢
    obtain ⟨x, hx, rfl⟩ := map_ok ht
    rw [ih x hx]; rfl
  | case5 s ih => intro t ht; rw [subst] at ht ⊢; exact ih t ht
  | case6 c s h1 h2 h3 ih =>
    intro t ht
    rw [subst.eq_6 _ _ _ h1 h2 h3] at ht ⊢
    obtain ⟨x, hx, rfl⟩ := map_ok ht
    rw [ih x hx]; rfl
  | case7 v s hl =>
    intro t ht
    rw [subst.eq_7, if_pos rfl, hl] at ht; cases ht
  | case8 v s y hl ih =>
    intro t ht
    rw [subst.eq_7, if_pos rfl, hl] at ht
    obtain ⟨x, hx, rfl⟩ := map_ok ht
    rw [subst.eq_7, if_pos rfl, h v y hl]
    simp only
    rw [ih x hx]; rfl
  | case9 v c s hc ih =>
    intro t ht
    rw [subst.eq_7, if_neg hc] at ht ⊢
    exact ih t ht

end Verif.Pc
