import Verif.Pc.FileLem

/-! # C71: .pc files are read as they are meant -/

namespace Verif.Pc

/-! ## Lines -/

/-- C71: comments are dropped, a backslash at the end of a line continues it, and one before a number sign keeps that. Other
backslashes stay. The last line needs no end. -/
theorem C71_lines (ls : List Line) (last : Line) (backslash : Bool) (h : ∀ l ∈ ls, l.ok) (hl : last.ok)
    (hb : backslash = true → last.comment = none) :
    fileLines (fileText ls last backslash) =
      ls.map Line.value ++
        if last.text = [] ∧ backslash = false then [] else [last.value ++ if backslash then ['\\'] else []] :=
  fileLines_text h hl hb

/-- C71: these are all the files there are. Carriage returns do not count. -/
theorem C71_every_file (s : Text) :
    fileLines s = fileLines (s.filter (fun c => decide (c ≠ '\r'))) ∧
    ('\r' ∉ s → ∃ ls last backslash, (∀ l ∈ ls, Line.ok l) ∧ last.ok ∧ (backslash = true → last.comment = none) ∧
      s = fileText ls last backslash) :=
  ⟨readLines_cr s false false false [], fun h => fileText_exists s.length s (Nat.le_refl _) h⟩

/-! ## Variables -/

/-- C71: variables in braces are replaced by their values, two dollar signs stand for one, and everything else stays. It works
if, and only if, all the variables are defined. -/
theorem C71_substitution (lookup : Text → Option Text) (l : List Part) (h : okParts l) (t : Text) :
    subst lookup none (l.flatMap Part.text) = .ok t ↔ Replaced lookup l t := subst_parts lookup h t

/-- C71: every text is of that form, or a closing brace is missing at the end of it, which is an error. -/
theorem C71_every_text (s : Text) :
    (∃ l, okParts l ∧ s = l.flatMap Part.text) ∨
    ((∃ l v, okParts l ∧ '}' ∉ v ∧ s = l.flatMap Part.text ++ ['$', '{'] ++ v) ∧ ∀ lookup t, subst lookup none s ≠ .ok t) :=
  subst_cases s.length s (Nat.le_refl _)

/-! ## Arguments -/

/-- C71: arguments are separated by white space outside of quotes. A backslash takes the special meaning from any character
outside of quotes, and from the quote inside of them. Empty arguments are dropped. The only error is a backslash at the end. -/
theorem C71_arguments (lead : Text) (args : List Arg) (last : List ArgPart) (tail : Tail) (hl : ∀ c ∈ lead, isSpace c = true)
    (ha : ∀ a ∈ args, a.ok) (hp : ∀ p ∈ last, p.ok) (ht : tail.ok) :
    split (argsText lead args last tail) =
      tail.value.map (fun v => (args.map Arg.value ++ [last.flatMap ArgPart.value ++ v]).filter (fun x => decide (x ≠ []))) :=
  split_argsText hl ha hp ht

/-- C71: every text without NUL characters is of that form. -/
theorem C71_every_argument_list (s : Text) (h : Char.ofNat 0 ∉ s) :
    ∃ lead args last tail, (∀ c ∈ lead, isSpace c = true) ∧ (∀ a ∈ args, Arg.ok a) ∧ (∀ p ∈ last, ArgPart.ok p) ∧ tail.ok ∧
      s = argsText lead args last tail := argsText_exists s.length s (Nat.le_refl _) h

/-- C71: any list of arguments that are not empty can be written down, for example with a backslash before each character. -/
theorem C71_arguments_round_trip (args : List Text) (h : ∀ a ∈ args, a ≠ []) :
    split (args.flatMap (fun a => a.flatMap (fun c => ['\\', c]) ++ [' '])) = some args := by
  have := C71_arguments [] (args.map (fun a => ⟨a.map ArgPart.escaped, [' ']⟩)) [] .done (by simp) (by
    intro a ha
    simp only [List.mem_map] at ha
    obtain ⟨x, -, rfl⟩ := ha
    refine ⟨?_, by simp, by simp [isSpace]⟩
    intro p hp
    simp only [List.mem_map] at hp
    obtain ⟨c, -, rfl⟩ := hp
    trivial) (by simp) trivial
  have e1 : argsText [] (args.map (fun a => (⟨a.map ArgPart.escaped, [' ']⟩ : Arg))) [] .done =
      args.flatMap (fun a => a.flatMap (fun c => ['\\', c]) ++ [' ']) := by
    simp only [argsText, Tail.text, List.flatMap_nil, List.nil_append, List.append_nil, List.flatMap_map, Arg.text, ArgPart.text]
  rw [e1] at this
  rw [this]
  have e2 : ∀ l : List Text, (l.map (fun a => (⟨a.map ArgPart.escaped, [' ']⟩ : Arg))).map Arg.value = l := by
    intro l
    induction l with
    | nil => rfl
    | cons a l ih =>
      simp only [List.map_cons, ih]
      congr 1
      unfold Arg.value
      simp only
      induction a with
      | nil => rfl
      | cons c a ih => simp only [List.map_cons, List.flatMap_cons, ArgPart.value, ih]; rfl
  simp only [Tail.value, Option.map_some, e2, List.flatMap_nil, List.nil_append, List.filter_append]
  rw [List.filter_eq_self.2 (by simpa using h)]
  simp

/-! ## Lists of packages -/

/-- C71: names with or without versions, separated by commas or white space, are read as such. -/
theorem C71_requires (lead : Text) (es : List Entry) (h : okEntries es) (hl : ∀ c ∈ lead, isSeparator c = true)
    (h0 : es = [] → lead = []) : parseModuleList (lead ++ es.flatMap Entry.text) = .ok (es.map Entry.value) :=
  parseModuleList_entries h hl h0

/-! ## Files -/

/-- The package at the beginning -/
def start (path dir : Text) : Package :=
  { baseFileName := completeBaseName path, filePath := path, variables := [("pcfiledir".toList, dir)] }

theorem text_eq : ∀ f g : TextField, ∀ t ∈ f.keywords, t ∈ g.keywords → g = f := by
  intro f g; cases f <;> cases g <;> decide

theorem flags_eq : ∀ f g : FlagsField, ∀ t ∈ f.keywords, t ∈ g.keywords → g = f := by
  intro f g; cases f <;> cases g <;> decide

theorem packages_eq : ∀ f g : PackagesField, ∀ t ∈ f.keywords, t ∈ g.keywords → g = f := by
  intro f g; cases f <;> cases g <;> decide

theorem text_flags : ∀ (f : TextField) (g : FlagsField), ∀ t ∈ f.keywords, t ∉ g.keywords := by
  intro f g; cases f <;> cases g <;> decide

theorem text_packages : ∀ (f : TextField) (g : PackagesField), ∀ t ∈ f.keywords, t ∉ g.keywords := by
  intro f g; cases f <;> cases g <;> decide

theorem flags_packages : ∀ (f : FlagsField) (g : PackagesField), ∀ t ∈ f.keywords, t ∉ g.keywords := by
  intro f g; cases f <;> cases g <;> decide

theorem look_start {path dir n x : Text} (h : look n (start path dir).variables = some x) : n = "pcfiledir".toList ∧ x = dir := by
  unfold start at h
  simp only at h
  generalize "pcfiledir".toList = k at *
  simp only [look] at h
  by_cases hk : k = n
  · rw [if_pos hk] at h; cases h; exact ⟨hk.symm, rfl⟩
  · rw [if_neg hk] at h; cases h

theorem start_look (path dir : Text) : look "pcfiledir".toList (start path dir).variables = some dir := by
  unfold start
  simp only
  generalize "pcfiledir".toList = k
  simp [look]

theorem parsePackage_eq {o : Options} {path dir contents : Text} (hp : path ≠ []) :
    parsePackage o path dir contents = parseFrom o (start path dir) (fileLines contents) := by
  unfold parsePackage start
  rw [if_neg hp]

theorem start_inv (o : Options) (path dir : Text) : PrefixInv o (start path dir) := by
  intro h; cases h

/-- The states before and after a line -/
theorem around {o : Options} {path dir contents : Text} {pkg : Package} (hp : path ≠ [])
    (h : parsePackage o path dir contents = .ok pkg) {l1 l2 : List Text} {line : Text} (hl : fileLines contents = l1 ++ line :: l2) :
    ∃ p q, parseFrom o (start path dir) l1 = .ok p ∧ parseLine o p line = .ok q ∧ parseFrom o q l2 = .ok pkg ∧
      Keeps (start path dir) p ∧ PrefixInv o p ∧ Keeps p q ∧ PrefixInv o q ∧ Keeps q pkg := by
  rw [parsePackage_eq hp, hl] at h
  obtain ⟨p, h1, h2⟩ := parseFrom_append h
  obtain ⟨q, h3, h4⟩ := parseFrom_cons h2
  obtain ⟨k1, k2⟩ := parseFrom_keeps (start_inv o path dir) h1
  obtain ⟨k3, k4⟩ := parseLine_keeps k2 h3
  obtain ⟨k5, -⟩ := parseFrom_keeps k4 h4
  exact ⟨p, q, h1, h3, h4, k1, k2, k3, k4, k5⟩

theorem trimAndSubstitute_says {line tag value : Text} {sign : Char} (h : Says line tag sign value) (lookup : Text → Option Text) :
    trimAndSubstitute lookup value = subst lookup none value := by
  obtain ⟨_, _, _, _, _, _, _, _, _, _, _, h1, h2⟩ := h
  unfold trimAndSubstitute
  rw [trimmed_of h1 h2]

/-- C71: the value of a variable in a file is what it is defined as, where the variables in it are replaced by their values.
(Here, the prefix is not changed.) -/
theorem C71_variable {o : Options} {path dir contents : Text} {pkg : Package} (hp : path ≠ [])
    (h : parsePackage o path dir contents = .ok pkg) (hd : o.definePrefix = false) {line tag value : Text}
    (hl : line ∈ fileLines contents) (hs : Says line tag '=' value) :
    ∃ v, look tag pkg.variables = some v ∧ subst (getVariable o pkg) none value = .ok v := by
  obtain ⟨l1, l2, hl⟩ := List.append_of_mem hl
  obtain ⟨p, q, -, hq, -, -, -, k1, -, k2⟩ := around hp h hl
  rw [parseLine_variable hs] at hq
  obtain ⟨v, old, he, hn, rfl⟩ := parseVariable_ok hq
  unfold evaluateVariable at he
  rw [if_neg (by simp [hd]), trimAndSubstitute_says hs] at he
  obtain ⟨x, hx, e⟩ := map_ok he
  cases e
  refine ⟨v, k2.vars tag v ?_, subst_mono (fun n y hy => getVariable_keeps (k1.trans k2) hy) _ _ _ hx⟩
  simp only [look_append, hn, look]
  simp

theorem parseLine_vars {o : Options} {p q : Package} {line : Text} (h : parseLine o p line = .ok q) {n x : Text}
    (hx : look n q.variables = some x) : look n p.variables = some x ∨ ∃ value, Says line n '=' value := by
  rcases parseLine_cases line with ⟨tag, sign, value, hs⟩ | hn
  · have hsign : sign = ':' ∨ sign = '=' := by
      obtain ⟨_, _, _, _, _, _, _, _, _, _, hs, _⟩ := hs; exact hs
    rcases hsign with rfl | rfl
    · rw [parseLine_field hs] at h
      have hv : q.variables = p.variables := by
        cases parseField_change h with
        | text f _ _ _ _ _ same => exact same.2.2.1
        | flags f _ _ _ _ _ _ _ same => exact same.2.2.1
        | packages f _ _ _ _ _ _ _ same => exact same.2.2.1
        | none _ hq => subst hq; rfl
      left; rw [← hv]; exact hx
    · rw [parseLine_variable hs] at h
      obtain ⟨v, old, he, hn, rfl⟩ := parseVariable_ok h
      simp only [look_append, look] at hx
      by_cases hnt : tag = n
      · subst hnt; exact .inr ⟨value, hs⟩
      · left
        cases hlk : look n p.variables with
        | none => simp [hlk, hnt] at hx
        | some y => simp [hlk] at hx; rw [hx]
  · rw [hn] at h; cases h; exact .inl hx

theorem parseFrom_vars {o : Options} {ls : List Text} {p q : Package} (h : parseFrom o p ls = .ok q) {n x : Text}
    (hx : look n q.variables = some x) : look n p.variables = some x ∨ ∃ line ∈ ls, ∃ value, Says line n '=' value := by
  induction ls generalizing p with
  | nil => cases h; exact .inl hx
  | cons l ls ih =>
    obtain ⟨m, h1, h2⟩ := parseFrom_cons h
    rcases ih h2 with hm | ⟨line, hl, v, hv⟩
    · rcases parseLine_vars h1 hm with hm | ⟨v, hv⟩
      · exact .inl hm
      · exact .inr ⟨l, by simp, v, hv⟩
    · exact .inr ⟨line, by simp [hl], v, hv⟩

/-- C71: a variable is known if the file defines it, and otherwise it is the directory of the file. -/
theorem C71_only {o : Options} {path dir contents : Text} {pkg : Package} (hp : path ≠ [])
    (h : parsePackage o path dir contents = .ok pkg) {n x : Text} (hx : look n pkg.variables = some x) :
    (n = "pcfiledir".toList ∧ x = dir) ∨ ∃ line ∈ fileLines contents, ∃ value, Says line n '=' value := by
  rw [parsePackage_eq hp] at h
  rcases parseFrom_vars h hx with h' | h'
  · exact .inl (look_start h')
  · exact .inr h'

/-- C71: no variable is defined twice, and the directory of the file is not defined again. -/
theorem C71_once {o : Options} {path dir contents : Text} {pkg : Package} (hp : path ≠ [])
    (h : parsePackage o path dir contents = .ok pkg) {l1 l2 : List Text} {line tag value : Text}
    (hl : fileLines contents = l1 ++ line :: l2) (hs : Says line tag '=' value) :
    tag ≠ "pcfiledir".toList ∧ ∀ line' ∈ l1, ∀ value', ¬ Says line' tag '=' value' := by
  obtain ⟨p, q, hp1, hq, -, k0, -, k1, -, k2⟩ := around hp h hl
  rw [parseLine_variable hs] at hq
  obtain ⟨v, old, he, hn, -⟩ := parseVariable_ok hq
  constructor
  · intro ht
    have := k0.vars _ _ (start_look path dir)
    rw [← ht, hn] at this; cases this
  · intro line' hl' value' hs'
    obtain ⟨a, b, rfl⟩ := List.append_of_mem hl'
    obtain ⟨m, h1, h2⟩ := parseFrom_append hp1
    obtain ⟨m', h3, h4⟩ := parseFrom_cons h2
    obtain ⟨-, i1⟩ := parseFrom_keeps (start_inv o path dir) h1
    obtain ⟨-, i2⟩ := parseLine_keeps i1 h3
    obtain ⟨k, -⟩ := parseFrom_keeps i2 h4
    rw [parseLine_variable hs'] at h3
    obtain ⟨v', old', he', hn', rfl⟩ := parseVariable_ok h3
    have := k.vars tag v' (by simp only [look_append, hn', look]; simp)
    rw [hn] at this; cases this

/-- C71: where the value of a variable comes from -/
theorem C71_precedence (o : Options) (pkg : Package) (n x : Text) :
    getVariable o pkg n = some x ↔ Known o pkg.baseFileName pkg.variables n x := by
  have henv : varToEnvVar pkg.baseFileName n = envName pkg.baseFileName n := by
    unfold varToEnvVar envName
    rw [show ['_'] = "_".toList from rfl]
  unfold getVariable
  rw [henv]
  constructor
  · intro h
    split at h
    · cases h
    · rename_i hn
      simp only at h
      by_cases hb : pkg.baseFileName = []
      · rw [if_pos hb] at h
        cases hg : look n o.globals with
        | some y => rw [hg] at h; cases h; exact .global hn (.inl hb) hg
        | none => rw [hg] at h; exact .own hn (.inl hb) hg h
      · rw [if_neg hb] at h
        cases he : look (envName pkg.baseFileName n) o.system with
        | some y => rw [he] at h; cases h; exact .env hn hb he
        | none =>
          rw [he] at h
          cases hg : look n o.globals with
          | some y => rw [hg] at h; cases h; exact .global hn (.inr he) hg
          | none => rw [hg] at h; exact .own hn (.inr he) hg h
  · intro h
    cases h with
    | env hn hb he => simp [hn, hb, he]
    | global hn he hg =>
      rcases he with he | he
      · simp [hn, he, hg]
      · by_cases hb : pkg.baseFileName = [] <;> simp [hn, he, hg, hb]
    | own hn he hg hv =>
      rcases he with he | he
      · simp [hn, he, hg, hv]
      · by_cases hb : pkg.baseFileName = [] <;> simp [hn, he, hg, hv, hb]

theorem replaced_known {lookup : Text → Option Text} {l : List Part} {t n : Text} (h : Replaced lookup l t) (hn : Part.var n ∈ l) :
    ∃ x, lookup n = some x := by
  induction h with
  | nil => cases hn
  | lit _ ih =>
    simp only [List.mem_cons] at hn
    rcases hn with hn | hn
    · cases hn
    · exact ih hn
  | dollar _ ih =>
    simp only [List.mem_cons] at hn
    rcases hn with hn | hn
    · cases hn
    · exact ih hn
  | var hx _ ih =>
    simp only [List.mem_cons] at hn
    rcases hn with hn | hn
    · cases hn; exact ⟨_, hx⟩
    · exact ih hn

/-- C71: a variable can be used only where it has been defined before, or is known from elsewhere. -/
theorem C71_order {o : Options} {path dir contents : Text} {pkg : Package} (hp : path ≠ [])
    (h : parsePackage o path dir contents = .ok pkg) (hd : o.definePrefix = false) {l1 l2 : List Text} {line tag : Text}
    {parts : List Part} (hl : fileLines contents = l1 ++ line :: l2) (hs : Says line tag '=' (parts.flatMap Part.text))
    (hok : okParts parts) {n : Text} (hn : Part.var n ∈ parts) :
    (look (envName (completeBaseName path) n) o.system).isSome ∨ (look n o.globals).isSome ∨ n = "pcfiledir".toList ∨
      ∃ line' ∈ l1, ∃ value, Says line' n '=' value := by
  obtain ⟨p, q, hp1, hq, -, k0, -, k1, -, k2⟩ := around hp h hl
  rw [parseLine_variable hs] at hq
  obtain ⟨v, old, he, hn', rfl⟩ := parseVariable_ok hq
  unfold evaluateVariable at he
  rw [if_neg (by simp [hd]), trimAndSubstitute_says hs] at he
  obtain ⟨x, hx, e⟩ := map_ok he
  obtain ⟨y, hy⟩ := replaced_known ((C71_substitution _ parts hok x).1 hx) hn
  rw [C71_precedence] at hy
  cases hy with
  | env _ _ hy => left; rw [show completeBaseName path = p.baseFileName from k0.base.symm, hy]; rfl
  | global _ _ hy => right; left; rw [hy]; rfl
  | own _ _ _ hy =>
    right; right
    rcases parseFrom_vars hp1 hy with h' | h'
    · exact .inl (look_start h').1
    · exact .inr h'

/-- C71: name, version, description and address are the text behind the keyword, where variables are replaced by their values.
(If that is empty, the keyword may be used again.) -/
theorem C71_text_field {o : Options} {path dir contents : Text} {pkg : Package} (hp : path ≠ [])
    (h : parsePackage o path dir contents = .ok pkg) (f : TextField) {line tag value : Text}
    (hl : line ∈ fileLines contents) (hs : Says line tag ':' value) (ht : tag ∈ f.keywords) :
    ∃ t, subst (getVariable o pkg) none value = .ok t ∧ (t = [] ∨ f.get pkg = t) := by
  obtain ⟨l1, l2, hl⟩ := List.append_of_mem hl
  obtain ⟨p, q, -, hq, -, -, -, k1, -, k2⟩ := around hp h hl
  rw [parseLine_field hs] at hq
  have hmono : ∀ s t, subst (getVariable o p) none s = .ok t → subst (getVariable o pkg) none s = .ok t :=
    fun s t => subst_mono (fun n y hy => getVariable_keeps (k1.trans k2) hy) _ _ _
  cases parseField_change hq with
  | text g hg h0 x hx hqx =>
    have : g = f := text_eq f g tag ht hg
    subst this
    rw [trimAndSubstitute_says hs] at hx
    refine ⟨x, hmono _ _ hx, ?_⟩
    by_cases hx0 : x = []
    · exact .inl hx0
    · right; rw [k2.text g (by rw [hqx]; exact hx0), hqx]
  | flags g hg => exact absurd hg (text_flags f g tag ht)
  | packages g hg => exact absurd hg (text_packages f g tag ht)
  | none hn => exact absurd ht (hn.1 f)

/-- C71: the flags are the arguments behind the keyword, after variables have been replaced by their values. -/
theorem C71_flags_field {o : Options} {path dir contents : Text} {pkg : Package} (hp : path ≠ [])
    (h : parsePackage o path dir contents = .ok pkg) (f : FlagsField) {line tag value : Text}
    (hl : line ∈ fileLines contents) (hs : Says line tag ':' value) (ht : tag ∈ f.keywords) :
    ∃ t argv, subst (getVariable o pkg) none value = .ok t ∧ split t = some argv ∧ (f.parse argv = [] ∨ f.get pkg = f.parse argv) := by
  obtain ⟨l1, l2, hl⟩ := List.append_of_mem hl
  obtain ⟨p, q, -, hq, -, -, -, k1, -, k2⟩ := around hp h hl
  rw [parseLine_field hs] at hq
  have hmono : ∀ s t, subst (getVariable o p) none s = .ok t → subst (getVariable o pkg) none s = .ok t :=
    fun s t => subst_mono (fun n y hy => getVariable_keeps (k1.trans k2) hy) _ _ _
  cases parseField_change hq with
  | flags g hg h0 x argv hx ha hqx =>
    have : g = f := flags_eq f g tag ht hg
    subst this
    rw [trimAndSubstitute_says hs] at hx
    refine ⟨x, argv, hmono _ _ hx, ha, ?_⟩
    by_cases hx0 : g.parse argv = []
    · exact .inl hx0
    · right; rw [k2.flags g (by rw [hqx]; exact hx0), hqx]
  | text g hg => exact absurd ht (text_flags g f tag hg)
  | packages g hg => exact absurd hg (flags_packages f g tag ht)
  | none hn => exact absurd ht (hn.2.1 f)

/-- C71: so are the lists of other packages. -/
theorem C71_packages_field {o : Options} {path dir contents : Text} {pkg : Package} (hp : path ≠ [])
    (h : parsePackage o path dir contents = .ok pkg) (f : PackagesField) {line tag value : Text}
    (hl : line ∈ fileLines contents) (hs : Says line tag ':' value) (ht : tag ∈ f.keywords) :
    ∃ t l, subst (getVariable o pkg) none value = .ok t ∧ parseModuleList t = .ok l ∧ (l = [] ∨ f.get pkg = l) := by
  obtain ⟨l1, l2, hl⟩ := List.append_of_mem hl
  obtain ⟨p, q, -, hq, -, -, -, k1, -, k2⟩ := around hp h hl
  rw [parseLine_field hs] at hq
  have hmono : ∀ s t, subst (getVariable o p) none s = .ok t → subst (getVariable o pkg) none s = .ok t :=
    fun s t => subst_mono (fun n y hy => getVariable_keeps (k1.trans k2) hy) _ _ _
  cases parseField_change hq with
  | packages g hg h0 x l hx ha hqx =>
    have : g = f := packages_eq f g tag ht hg
    subst this
    rw [trimAndSubstitute_says hs] at hx
    refine ⟨x, l, hmono _ _ hx, ha, ?_⟩
    by_cases hx0 : l = []
    · exact .inl hx0
    · right; rw [k2.packages g (by rw [hqx]; exact hx0), hqx]
  | text g hg => exact absurd ht (text_packages g f tag hg)
  | flags g hg => exact absurd ht (flags_packages g f tag hg)
  | none hn => exact absurd ht (hn.2.2 f)

theorem parseFrom_fields {o : Options} {ls : List Text} {p q : Package} (h : parseFrom o p ls = .ok q) :
    (∀ f : TextField, f.get q ≠ f.get p → ∃ line ∈ ls, ∃ tag ∈ f.keywords, ∃ value, Says line tag ':' value) ∧
    (∀ f : FlagsField, f.get q ≠ f.get p → ∃ line ∈ ls, ∃ tag ∈ f.keywords, ∃ value, Says line tag ':' value) ∧
    (∀ f : PackagesField, f.get q ≠ f.get p → ∃ line ∈ ls, ∃ tag ∈ f.keywords, ∃ value, Says line tag ':' value) := by
  induction ls generalizing p with
  | nil => cases h; simp
  | cons l ls ih =>
    obtain ⟨m, h1, h2⟩ := parseFrom_cons h
    obtain ⟨i1, i2, i3⟩ := ih h2
    have key : (∀ f : TextField, f.get m ≠ f.get p → ∃ tag ∈ f.keywords, ∃ value, Says l tag ':' value) ∧
        (∀ f : FlagsField, f.get m ≠ f.get p → ∃ tag ∈ f.keywords, ∃ value, Says l tag ':' value) ∧
        (∀ f : PackagesField, f.get m ≠ f.get p → ∃ tag ∈ f.keywords, ∃ value, Says l tag ':' value) := by
      rcases parseLine_cases l with ⟨tag, sign, value, hs⟩ | hn
      · have hsign : sign = ':' ∨ sign = '=' := by
          obtain ⟨_, _, _, _, _, _, _, _, _, _, hs, _⟩ := hs; exact hs
        rcases hsign with rfl | rfl
        · rw [parseLine_field hs] at h1
          cases parseField_change h1 with
          | text g hg _ _ _ _ _ ot of op =>
            refine ⟨fun f hf => ?_, fun f hf => absurd (of f) hf, fun f hf => absurd (op f) hf⟩
            by_cases hfg : f = g
            · subst hfg; exact ⟨tag, hg, value, hs⟩
            · exact absurd (ot f hfg) hf
          | flags g hg _ _ _ _ _ _ _ ot of op =>
            refine ⟨fun f hf => absurd (ot f) hf, fun f hf => ?_, fun f hf => absurd (op f) hf⟩
            by_cases hfg : f = g
            · subst hfg; exact ⟨tag, hg, value, hs⟩
            · exact absurd (of f hfg) hf
          | packages g hg _ _ _ _ _ _ _ ot of op =>
            refine ⟨fun f hf => absurd (ot f) hf, fun f hf => absurd (of f) hf, fun f hf => ?_⟩
            by_cases hfg : f = g
            · subst hfg; exact ⟨tag, hg, value, hs⟩
            · exact absurd (op f hfg) hf
          | none _ hq => subst hq; simp
        · rw [parseLine_variable hs] at h1
          obtain ⟨v, old, he, hn, rfl⟩ := parseVariable_ok h1
          refine ⟨?_, ?_, ?_⟩ <;> intro f hf <;> cases f <;> exact absurd rfl hf
      · rw [hn] at h1; cases h1; simp
    refine ⟨?_, ?_, ?_⟩
    · intro f hf
      by_cases hm : f.get q = f.get m
      · obtain ⟨tag, ht, v, hv⟩ := key.1 f (by rw [← hm]; exact hf)
        exact ⟨l, by simp, tag, ht, v, hv⟩
      · obtain ⟨line, hl, r⟩ := i1 f hm
        exact ⟨line, by simp [hl], r⟩
    · intro f hf
      by_cases hm : f.get q = f.get m
      · obtain ⟨tag, ht, v, hv⟩ := key.2.1 f (by rw [← hm]; exact hf)
        exact ⟨l, by simp, tag, ht, v, hv⟩
      · obtain ⟨line, hl, r⟩ := i2 f hm
        exact ⟨line, by simp [hl], r⟩
    · intro f hf
      by_cases hm : f.get q = f.get m
      · obtain ⟨tag, ht, v, hv⟩ := key.2.2 f (by rw [← hm]; exact hf)
        exact ⟨l, by simp, tag, ht, v, hv⟩
      · obtain ⟨line, hl, r⟩ := i3 f hm
        exact ⟨line, by simp [hl], r⟩

/-- C71: a field without a line for it is empty. -/
theorem C71_no_field {o : Options} {path dir contents : Text} {pkg : Package} (hp : path ≠ [])
    (h : parsePackage o path dir contents = .ok pkg) :
    (∀ f : TextField, f.get pkg ≠ [] → ∃ line ∈ fileLines contents, ∃ tag ∈ f.keywords, ∃ value, Says line tag ':' value) ∧
    (∀ f : FlagsField, f.get pkg ≠ [] → ∃ line ∈ fileLines contents, ∃ tag ∈ f.keywords, ∃ value, Says line tag ':' value) ∧
    (∀ f : PackagesField, f.get pkg ≠ [] → ∃ line ∈ fileLines contents, ∃ tag ∈ f.keywords, ∃ value, Says line tag ':' value) := by
  rw [parsePackage_eq hp] at h
  obtain ⟨h1, h2, h3⟩ := parseFrom_fields h
  refine ⟨fun f hf => h1 f ?_, fun f hf => h2 f ?_, fun f hf => h3 f ?_⟩
  · rw [show f.get (start path dir) = [] by cases f <;> rfl]; exact hf
  · rw [show f.get (start path dir) = [] by cases f <;> rfl]; exact hf
  · rw [show f.get (start path dir) = [] by cases f <;> rfl]; exact hf

/-! ## Another prefix -/

theorem parseLine_old {o : Options} {p q : Package} {line : Text} (h : parseLine o p line = .ok q) {old : Text}
    (hx : q.oldPrefix = some old) : p.oldPrefix = some old ∨ Says line "prefix".toList '=' old := by
  rcases parseLine_cases line with ⟨tag, sign, value, hs⟩ | hn
  · have hsign : sign = ':' ∨ sign = '=' := by
      obtain ⟨_, _, _, _, _, _, _, _, _, _, hs, _⟩ := hs; exact hs
    rcases hsign with rfl | rfl
    · rw [parseLine_field hs] at h
      have hv : q.oldPrefix = p.oldPrefix := by
        cases parseField_change h with
        | text f _ _ _ _ _ same => exact same.2.2.2
        | flags f _ _ _ _ _ _ _ same => exact same.2.2.2
        | packages f _ _ _ _ _ _ _ same => exact same.2.2.2
        | none _ hq => subst hq; rfl
      left; rw [← hv]; exact hx
    · rw [parseLine_variable hs] at h
      obtain ⟨v, old', he, hn, rfl⟩ := parseVariable_ok h
      simp only at hx
      rcases evaluateVariable_old he with h' | ⟨-, ht, h', -⟩
      · left; rw [← h']; exact hx
      · right; rw [hx] at h'; cases h'; rw [← ht]; exact hs
  · rw [hn] at h; cases h; exact .inl hx

theorem parseFrom_old {o : Options} {ls : List Text} {p q : Package} (h : parseFrom o p ls = .ok q) {old : Text}
    (hx : q.oldPrefix = some old) : p.oldPrefix = some old ∨ ∃ line ∈ ls, Says line "prefix".toList '=' old := by
  induction ls generalizing p with
  | nil => cases h; exact .inl hx
  | cons l ls ih =>
    obtain ⟨m, h1, h2⟩ := parseFrom_cons h
    rcases ih h2 with hm | ⟨line, hl, hv⟩
    · rcases parseLine_old h1 hm with hm | hv
      · exact .inl hm
      · exact .inr ⟨l, by simp, hv⟩
    · exact .inr ⟨line, by simp [hl], hv⟩

theorem parseFrom_prefix {o : Options} {ls : List Text} {p q : Package} (hi : PrefixInv o p) (h : parseFrom o p ls = .ok q)
    (hd : o.definePrefix = true) {line old : Text} (hl : line ∈ ls) (hs : Says line "prefix".toList '=' old) :
    q.oldPrefix = some old ∧ look "prefix".toList q.variables = some (newPrefix p.filePath old) := by
  obtain ⟨a, b, rfl⟩ := List.append_of_mem hl
  obtain ⟨m, h1, h2⟩ := parseFrom_append h
  obtain ⟨m', h3, h4⟩ := parseFrom_cons h2
  obtain ⟨k1, i1⟩ := parseFrom_keeps hi h1
  obtain ⟨-, i2⟩ := parseLine_keeps i1 h3
  obtain ⟨k, -⟩ := parseFrom_keeps i2 h4
  rw [parseLine_variable hs] at h3
  obtain ⟨v', old', he', hn', rfl⟩ := parseVariable_ok h3
  have he : v' = newPrefix m.filePath old ∧ old' = some old := by
    unfold evaluateVariable at he'
    rw [if_pos hd, if_pos rfl] at he'
    cases he'; exact ⟨rfl, rfl⟩
  obtain ⟨rfl, rfl⟩ := he
  constructor
  · rw [k.old rfl]
  · refine k.vars _ _ ?_
    simp only [look_append, hn', look, k1.path]
    simp

/-- C71: if the prefix is to be changed, it is the one derived from the path of the file, … -/
theorem C71_prefix {o : Options} {path dir contents : Text} {pkg : Package} (hp : path ≠ [])
    (h : parsePackage o path dir contents = .ok pkg) (hd : o.definePrefix = true) {line old : Text}
    (hl : line ∈ fileLines contents) (hs : Says line "prefix".toList '=' old) :
    look "prefix".toList pkg.variables = some (newPrefix path old) := by
  rw [parsePackage_eq hp] at h
  exact (parseFrom_prefix (start_inv o path dir) h hd hl hs).2

/-- C71: … and in the values of other variables further down that begin with the old prefix it is replaced. -/
theorem C71_relocated {o : Options} {path dir contents : Text} {pkg : Package} (hp : path ≠ [])
    (h : parsePackage o path dir contents = .ok pkg) (hd : o.definePrefix = true) {l1 l2 : List Text} {line lineP tag old rest : Text}
    (hl : fileLines contents = l1 ++ line :: l2) (hlp : lineP ∈ l1) (hsp : Says lineP "prefix".toList '=' old)
    (hs : Says line tag '=' (old ++ '/' :: rest)) :
    ∃ v, look tag pkg.variables = some v ∧
      subst (getVariable o pkg) none (trimmed (newPrefix path old ++ '/' :: rest)) = .ok v := by
  have htag : tag ≠ "prefix".toList := by
    intro ht
    rw [ht] at hs
    exact (C71_once hp h hl hs).2 lineP hlp old hsp
  obtain ⟨p, q, hp1, hq, -, k0, -, k1, -, k2⟩ := around hp h hl
  rw [parseLine_variable hs] at hq
  obtain ⟨v, old', he, hn, rfl⟩ := parseVariable_ok hq
  obtain ⟨e1, e2⟩ := parseFrom_prefix (start_inv o path dir) hp1 hd hlp hsp
  unfold evaluateVariable at he
  rw [if_pos hd, if_neg htag, e1] at he
  simp only at he
  have hst : startsWith (old ++ '/' :: rest) (old ++ ['/']) = true := by
    unfold startsWith
    rw [List.isPrefixOf_iff_prefix]
    exact ⟨rest, by simp⟩
  rw [if_pos hst, e2] at he
  simp only [Option.getD_some, List.drop_left] at he
  obtain ⟨x, hx, e⟩ := map_ok he
  cases e
  refine ⟨v, k2.vars tag v ?_, subst_mono (fun n y hy => getVariable_keeps (k1.trans k2) hy) _ _ _ hx⟩
  simp only [look_append, hn, look]
  simp

/-- C71: all other values stay as they are. -/
theorem C71_not_relocated {o : Options} {path dir contents : Text} {pkg : Package} (hp : path ≠ [])
    (h : parsePackage o path dir contents = .ok pkg) {l1 l2 : List Text} {line tag value : Text}
    (hl : fileLines contents = l1 ++ line :: l2) (hs : Says line tag '=' value) (ht : tag ≠ "prefix".toList)
    (hno : ∀ lineP ∈ l1, ∀ old, Says lineP "prefix".toList '=' old → ¬ ∃ rest, value = old ++ '/' :: rest) :
    ∃ v, look tag pkg.variables = some v ∧ subst (getVariable o pkg) none value = .ok v := by
  obtain ⟨p, q, hp1, hq, -, k0, -, k1, -, k2⟩ := around hp h hl
  rw [parseLine_variable hs] at hq
  obtain ⟨v, old', he, hn, rfl⟩ := parseVariable_ok hq
  have he' : ∃ x, trimAndSubstitute (getVariable o p) value = .ok x ∧ v = x := by
    unfold evaluateVariable at he
    by_cases hd : o.definePrefix = true
    · rw [if_pos hd, if_neg ht] at he
      split at he
      · rename_i old ho
        rw [if_neg] at he
        · obtain ⟨x, hx, e⟩ := map_ok he; cases e; exact ⟨_, hx, rfl⟩
        · intro hst
          rcases parseFrom_old hp1 ho with h' | ⟨lineP, hlp, hsp⟩
          · cases h'
          · refine hno lineP hlp old hsp ?_
            unfold startsWith at hst
            rw [List.isPrefixOf_iff_prefix] at hst
            obtain ⟨r, hr⟩ := hst
            exact ⟨r, by rw [← hr]; simp⟩
      · obtain ⟨x, hx, e⟩ := map_ok he; cases e; exact ⟨_, hx, rfl⟩
    · rw [if_neg hd] at he
      obtain ⟨x, hx, e⟩ := map_ok he; cases e; exact ⟨_, hx, rfl⟩
  obtain ⟨x, hx, rfl⟩ := he'
  rw [trimAndSubstitute_says hs] at hx
  refine ⟨v, k2.vars tag v ?_, subst_mono (fun n y hy => getVariable_keeps (k1.trans k2) hy) _ _ _ hx⟩
  simp only [look_append, hn, look]
  simp

theorem takeDrop_slash {f x : Text} (hf : '/' ∉ f) :
    (x ++ '/' :: f).reverse.dropWhile (fun c => c != '/') = '/' :: x.reverse ∧
      (x ++ '/' :: f).reverse.takeWhile (fun c => c != '/') = f.reverse := by
  have : (x ++ '/' :: f).reverse = f.reverse ++ '/' :: x.reverse := by simp
  rw [this]
  have hr : '/' ∉ f.reverse := by simpa using hf
  revert hr
  generalize f.reverse = g
  intro hr
  induction g with
  | nil => simp
  | cons c g ih =>
    simp only [List.mem_cons, not_or] at hr
    have hc : (c != '/') = true := by simpa using fun h => hr.1 h.symm
    have := ih hr.2
    simp only [List.cons_append, List.dropWhile, List.takeWhile, hc]
    exact ⟨this.1, by rw [this.2]⟩

theorem parentPath_eq {x f : Text} (hx : x ≠ []) (hf : '/' ∉ f) : parentPath (x ++ '/' :: f) = x := by
  unfold parentPath
  rw [if_neg (by simp)]
  simp only [(takeDrop_slash hf).1]
  have : x.reverse ≠ [] := by simpa using hx
  cases hr : x.reverse with
  | nil => exact absurd hr this
  | cons a b => simp only; rw [← hr]; simp

theorem fileName_eq {x f : Text} (hf : '/' ∉ f) : fileName (x ++ '/' :: f) = f := by
  unfold fileName
  rw [(takeDrop_slash hf).2, List.reverse_reverse]

/-- C71: the prefix of a file in a directory "pkgconfig" is two directories further up; otherwise it is the directory. -/
theorem C71_root {root lib file old : Text} (hr : root ≠ []) (hf : '/' ∉ file) (hl : '/' ∉ lib) :
    newPrefix (root ++ '/' :: (lib ++ '/' :: ("pkgconfig".toList ++ '/' :: file))) old = root ∧
    (∀ name : Text, '/' ∉ name → '.' ∉ name → name ≠ "pkgconfig".toList →
      newPrefix (root ++ '/' :: (name ++ '/' :: file)) old = root ++ '/' :: name) := by
  constructor
  · unfold newPrefix
    have e1 : root ++ '/' :: (lib ++ '/' :: ("pkgconfig".toList ++ '/' :: file)) =
        (root ++ '/' :: (lib ++ '/' :: "pkgconfig".toList)) ++ '/' :: file := by simp
    have e2 : root ++ '/' :: (lib ++ '/' :: "pkgconfig".toList) = (root ++ '/' :: lib) ++ '/' :: "pkgconfig".toList := by simp
    have hb : completeBaseName (root ++ '/' :: lib ++ '/' :: "pkgconfig".toList) = "pkgconfig".toList := by
      unfold completeBaseName
      rw [fileName_eq (by decide)]
      decide
    rw [e1, parentPath_eq (by simp) hf, e2]
    simp only
    rw [if_pos hb, parentPath_eq (by simp) (by decide), parentPath_eq hr hl, if_neg hr]
  · intro name hn hdot hne
    unfold newPrefix
    have e1 : root ++ '/' :: (name ++ '/' :: file) = (root ++ '/' :: name) ++ '/' :: file := by simp
    have hb : completeBaseName (root ++ '/' :: name) = name := by
      unfold completeBaseName
      rw [fileName_eq hn]
      simp only
      rw [if_neg (by simpa using hdot)]
    rw [e1, parentPath_eq (by simp) hf]
    simp only
    rw [hb, if_neg hne, if_neg (by simp)]

end Verif.Pc
