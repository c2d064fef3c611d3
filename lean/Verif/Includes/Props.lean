import Verif.Includes.Spec
/-!
# C51: dependencies found by scanners
-/
namespace Verif.Includes

/-! ## Paths -/

theorem lastIndexOf_none (s : Str) (h : '/' ∉ s) : Path.lastIndexOf '/' s = none := by
  induction s with
  | nil => rfl
  | cons c s ih =>
    simp only [List.mem_cons, not_or] at h
    unfold Path.lastIndexOf
    rw [ih h.2]
    simp only []
    rw [if_neg (fun e => h.1 e.symm)]

theorem lastIndexOf_append (a b : Str) (h : '/' ∉ b) : Path.lastIndexOf '/' (a ++ '/' :: b) = some a.length := by
  induction a with
  | nil =>
    show Path.lastIndexOf '/' ('/' :: b) = _
    unfold Path.lastIndexOf
    rw [lastIndexOf_none b h]
    simp
  | cons c a ih =>
    show Path.lastIndexOf '/' (c :: (a ++ '/' :: b)) = _
    unfold Path.lastIndexOf
    rw [ih]
    simp

theorem split_append (a b : Str) (h : '/' ∉ b) :
    Path.splitIntoDirectoryAndFileName (a ++ '/' :: b) = (a, b) := by
  unfold Path.splitIntoDirectoryAndFileName
  rw [lastIndexOf_append a b h]
  simp only []
  rw [List.take_left, ← List.drop_drop, List.drop_left]
  rfl

theorem split_name (p : Str) : '/' ∉ (Path.splitIntoDirectoryAndFileName p).2 := by
  have key : ∀ s : Str, (Path.lastIndexOf '/' s = none → '/' ∉ s) ∧
      (∀ i, Path.lastIndexOf '/' s = some i → '/' ∉ s.drop (i + 1)) := by
    intro s
    induction s with
    | nil => exact ⟨(fun _ h => by cases h), (fun i h => by cases h)⟩
    | cons c s ih =>
      unfold Path.lastIndexOf
      cases hl : Path.lastIndexOf '/' s with
      | none =>
        simp only []
        refine ⟨?_, ?_⟩
        · intro h hm
          by_cases hc : c = '/'
          · rw [if_pos hc] at h; cases h
          · rcases List.mem_cons.mp hm with e | hm
            · exact hc e.symm
            · exact ih.1 hl hm
        · intro i h
          by_cases hc : c = '/'
          · rw [if_pos hc] at h
            injection h with h
            subst h
            exact ih.1 hl
          · rw [if_neg hc] at h; cases h
      | some i =>
        simp only []
        refine ⟨(fun h => by cases h), ?_⟩
        intro k h
        injection h with h
        subst h
        exact ih.2 i hl
  unfold Path.splitIntoDirectoryAndFileName
  cases hl : Path.lastIndexOf '/' p with
  | none => exact (key p).1 hl
  | some i => exact (key p).2 i hl

/-- The names in what a C++ file includes have no slash, as the theorems require. -/
theorem cppScan_names (present : Str → Bool) (dir : Str) (l : List Include) :
    ∀ d ∈ cppScan present dir l, '/' ∉ d.name := by
  intro d hd
  obtain ⟨i, _, rfl⟩ := List.mem_map.mp hd
  exact split_name _

/-- C51: what the C++ scanner reports: an include in quotes stands for the file beside the including one if there is
    one, any other include for what it says. -/
theorem C51_cpp_scan (present : Str → Bool) (dir : Str) (l : List Include) (d : Dep) :
    d ∈ cppScan present dir l ↔ ∃ i ∈ l, i.text ≠ [] ∧
      ((i.quoted = true ∧ present (dir ++ '/' :: i.text) = true ∧ d = Dep.ofPath (dir ++ '/' :: i.text)) ∨
       (¬ (i.quoted = true ∧ present (dir ++ '/' :: i.text) = true) ∧ d = Dep.ofPath i.text)) := by
  unfold cppScan
  rw [List.mem_map]
  constructor
  · rintro ⟨i, hi, rfl⟩
    rw [List.mem_filter] at hi
    refine ⟨i, hi.1, by simpa using hi.2, ?_⟩
    by_cases hc : (i.quoted && present (dir ++ '/' :: i.text)) = true
    · rw [if_pos hc]
      rw [Bool.and_eq_true] at hc
      exact Or.inl ⟨hc.1, hc.2, rfl⟩
    · rw [if_neg hc]
      rw [Bool.and_eq_true] at hc
      exact Or.inr ⟨hc, rfl⟩
  · rintro ⟨i, hi, hne, h⟩
    refine ⟨i, List.mem_filter.mpr ⟨hi, by simpa using hne⟩, ?_⟩
    rcases h with ⟨h1, h2, rfl⟩ | ⟨h1, rfl⟩
    · rw [if_pos (by rw [h1, h2]; rfl)]
    · rw [if_neg (by rw [Bool.and_eq_true]; exact h1)]

/-- C51: the directory looked into is, cleaned, the one the scanned path gives relative to the search path, if that is
    clean and resolving a directory without dots or doubled slashes against it leaves it so. -/
theorem C51_place (w : World) (base : Str) (d : Dep)
    (hclean : d.isClean = true → w.cleanPath (if base = [] then d.dir else if d.dir = [] then base else
      w.resolvePath base d.dir) = if base = [] then d.dir else if d.dir = [] then base else w.resolvePath base d.dir) :
    place w base d = w.cleanPath (if base = [] then d.dir else if d.dir = [] then base else
      w.resolvePath base d.dir) := by
  unfold place
  simp only []
  by_cases hc : d.isClean = true
  · rw [if_pos hc, hclean hc]
  · rw [if_neg hc]

/-- C51: a directory with a dot is always cleaned. -/
theorem C51_place_dots (w : World) (base : Str) (d : Dep) (h : '.' ∈ d.dir) :
    place w base d = w.cleanPath (if base = [] then d.dir else w.resolvePath base d.dir) := by
  have hne : d.dir ≠ [] := by intro e; rw [e] at h; cases h
  have hc : d.isClean = false := by
    unfold Dep.isClean
    rw [show d.dir.contains '.' = true from by rw [List.contains_iff_mem]; exact h]
    rfl
  rw [C51_place w base d (by rw [hc]; intro h; cases h), if_neg hne]

/-! ## Resolution -/

theorem here_iff (w : World) (dir name : Str) (a : Artifact) :
    a ∈ w.arts.filter (fun a => a.dir == dir && a.name == name) ↔ Here w dir name a := by
  rw [List.mem_filter]
  simp [Here]

theorem pick_spec (w : World) (product : Nat) (l : List Artifact) :
    (pick w product l = none ↔ l = []) ∧
    (∀ a, pick w product l = some a → a ∈ l ∧ (a.product = product ∨
      ((∀ b ∈ l, b.product ≠ product) ∧ (w.dependsOn product a.product = true ∨
        ∀ b ∈ l, w.dependsOn product b.product = false)))) := by
  unfold pick
  cases h1 : l.find? (fun a => a.product == product) with
  | some x =>
    simp only []
    constructor
    · constructor
      · intro h; cases h
      · rintro rfl; cases h1
    · intro a ha
      injection ha with ha
      subst ha
      have := List.find?_some (p := fun a : Artifact => a.product == product) h1
      exact ⟨List.mem_of_find?_eq_some h1, Or.inl (by simpa using this)⟩
  | none =>
    rw [List.find?_eq_none] at h1
    have h1 : ∀ b ∈ l, b.product ≠ product := fun b hb => by simpa using h1 b hb
    simp only []
    cases h2 : l.find? (fun a => w.dependsOn product a.product) with
    | some x =>
      simp only []
      constructor
      · constructor
        · intro h; cases h
        · rintro rfl; cases h2
      · intro a ha
        injection ha with ha
        subst ha
        have := List.find?_some (p := fun a : Artifact => w.dependsOn product a.product) h2
        exact ⟨List.mem_of_find?_eq_some h2, Or.inr ⟨h1, Or.inl this⟩⟩
    | none =>
      rw [List.find?_eq_none] at h2
      simp only []
      constructor
      · exact List.getLast?_eq_none_iff
      · intro a ha
        refine ⟨List.mem_of_getLast? ha, Or.inr ⟨h1, Or.inr ?_⟩⟩
        intro b hb
        simpa using h2 b hb

theorem resolveAt_spec (w : World) (product : Nat) (base : Str) (d : Dep) :
    (resolveAt w w.known product base d = none ↔ ∀ f, ¬ Means w product (place w base d) d.name f) ∧
    (∀ f, resolveAt w w.known product base d = some f → Means w product (place w base d) d.name f) := by
  obtain ⟨p1, p2⟩ := pick_spec w product
    (w.arts.filter (fun a => a.dir == place w base d && a.name == d.name))
  have mem := here_iff w (place w base d) d.name
  have nothing : pick w product (w.arts.filter (fun a => a.dir == place w base d && a.name == d.name)) = none →
      ∀ b, ¬ Here w (place w base d) d.name b := by
    intro h b hb
    rw [p1] at h
    have := (mem b).mpr hb
    rw [h] at this
    cases this
  unfold resolveAt
  cases hp : pick w product (w.arts.filter (fun a => a.dir == place w base d && a.name == d.name)) with
  | some a =>
    simp only []
    obtain ⟨h1, h2⟩ := p2 a hp
    have hm : Means w product (place w base d) d.name (.art a) := by
      refine ⟨(mem a).mp h1, ?_⟩
      rcases h2 with h2 | ⟨h2, h3⟩
      · exact Or.inl h2
      · refine Or.inr ⟨fun b hb => h2 b ((mem b).mpr hb), ?_⟩
        rcases h3 with h3 | h3
        · exact Or.inl h3
        · exact Or.inr (fun b hb => h3 b ((mem b).mpr hb))
    constructor
    · constructor
      · intro h; cases h
      · intro h; exact absurd hm (h _)
    · intro f hf
      injection hf with hf
      subst hf
      exact hm
  | none =>
    simp only []
    have hn := nothing hp
    by_cases hc : (w.known.contains (place w base d, d.name) || w.onDisk (place w base d ++ '/' :: d.name)) = true
    · rw [if_pos hc]
      have hm : Means w product (place w base d) d.name (.dep (place w base d ++ '/' :: d.name)) := by
        refine ⟨rfl, ?_, hn⟩
        rw [Bool.or_eq_true, List.contains_iff_mem] at hc
        exact hc
      constructor
      · constructor
        · intro h; cases h
        · intro h; exact absurd hm (h _)
      · intro f hf
        injection hf with hf
        subst hf
        exact hm
    · rw [if_neg hc]
      constructor
      · refine ⟨fun _ => ?_, fun _ => rfl⟩
        rintro (a | p) hf
        · exact hn a hf.1
        · obtain ⟨h1, h2, _⟩ := hf
          apply hc
          rw [Bool.or_eq_true, List.contains_iff_mem]
          rw [h1] at h2
          exact h2
      · intro f hf; cases hf

theorem findSome_iff {α β : Type} (g : α → Option β) (l : List α) (y : β) :
    l.findSome? g = some y ↔ ∃ pre x post, l = pre ++ x :: post ∧ g x = some y ∧ ∀ z ∈ pre, g z = none := by
  induction l with
  | nil => simp
  | cons a l ih =>
    rw [List.findSome?_cons]
    cases hg : g a with
    | some v =>
      simp only []
      constructor
      · intro h
        injection h with h
        subst h
        exact ⟨[], a, l, rfl, hg, fun z hz => by cases hz⟩
      · rintro ⟨pre, x, post, h1, h2, h3⟩
        cases pre with
        | nil =>
          injection h1 with h1 _
          subst h1
          rw [← hg, h2]
        | cons b pre =>
          injection h1 with h1 _
          have := h3 b (by simp)
          rw [← h1, hg] at this
          cases this
    | none =>
      simp only []
      rw [ih]
      constructor
      · rintro ⟨pre, x, post, h1, h2, h3⟩
        refine ⟨a :: pre, x, post, by rw [h1]; rfl, h2, ?_⟩
        intro z hz
        rcases List.mem_cons.mp hz with rfl | hz
        · exact hg
        · exact h3 z hz
      · rintro ⟨pre, x, post, h1, h2, h3⟩
        cases pre with
        | nil =>
          injection h1 with h1 _
          subst h1
          rw [hg] at h2
          cases h2
        | cons b pre =>
          injection h1 with _ h1
          exact ⟨pre, x, post, h1, h2, fun z hz => h3 z (by simp [hz])⟩

/-- C51: a relative name stands for what is meant by it in the first search path in which it means anything. -/
theorem C51_resolution (w : World) (j : Job) (d : Dep) (hrel : Path.isAbsolute d.path = false) :
    (∀ f, j.target w d = some f → ∃ pre base post, j.searchPaths = pre ++ base :: post ∧
      Means w j.start.product (place w base d) d.name f ∧
      ∀ b ∈ pre, ∀ g, ¬ Means w j.start.product (place w b d) d.name g) ∧
    (j.target w d = none ↔ ∀ b ∈ j.searchPaths, ∀ g, ¬ Means w j.start.product (place w b d) d.name g) := by
  unfold Job.target resolve
  rw [hrel]
  constructor
  · intro f hf
    rw [if_neg (by simp), findSome_iff] at hf
    obtain ⟨pre, base, post, h1, h2, h3⟩ := hf
    refine ⟨pre, base, post, h1, (resolveAt_spec w _ base d).2 f h2, ?_⟩
    intro b hb
    exact (resolveAt_spec w _ b d).1.mp (h3 b hb)
  · rw [if_neg (by simp), List.findSome?_eq_none_iff]
    constructor
    · intro h b hb
      exact (resolveAt_spec w _ b d).1.mp (h b hb)
    · intro h b hb
      exact (resolveAt_spec w _ b d).1.mpr (h b hb)

/-- C51: an absolute name stands for what is meant by it. -/
theorem C51_resolution_absolute (w : World) (j : Job) (d : Dep) (habs : Path.isAbsolute d.path = true) :
    (∀ f, j.target w d = some f → Means w j.start.product (place w [] d) d.name f) ∧
    (j.target w d = none ↔ ∀ g, ¬ Means w j.start.product (place w [] d) d.name g) := by
  unfold Job.target resolve
  rw [if_pos habs]
  exact ⟨(resolveAt_spec w _ [] d).2, (resolveAt_spec w _ [] d).1⟩

/-! ## The table of file dependencies does not matter -/

def RegOk (w : World) (reg : List (Str × Str)) : Prop :=
  (∀ x ∈ w.known, x ∈ reg) ∧ ∀ x ∈ reg, x ∈ w.known ∨ w.onDisk (x.1 ++ '/' :: x.2) = true

theorem resolveAt_reg {w : World} {reg : List (Str × Str)} (h : RegOk w reg) (product : Nat) (base : Str) (d : Dep) :
    resolveAt w reg product base d = resolveAt w w.known product base d := by
  unfold resolveAt
  cases pick w product (w.arts.filter (fun a => a.dir == place w base d && a.name == d.name)) with
  | some a => rfl
  | none =>
    simp only []
    have : (reg.contains (place w base d, d.name) || w.onDisk (place w base d ++ '/' :: d.name)) =
        (w.known.contains (place w base d, d.name) || w.onDisk (place w base d ++ '/' :: d.name)) := by
      rw [Bool.eq_iff_iff, Bool.or_eq_true, Bool.or_eq_true, List.contains_iff_mem, List.contains_iff_mem]
      constructor
      · rintro (h1 | h1)
        · exact h.2 _ h1
        · exact Or.inr h1
      · rintro (h1 | h1)
        · exact Or.inl (h.1 _ h1)
        · exact Or.inr h1
    rw [this]

theorem resolve_reg {w : World} {reg : List (Str × Str)} (h : RegOk w reg) (product : Nat) (paths : List Str) (d : Dep) :
    resolve w reg product paths d = resolve w w.known product paths d := by
  unfold resolve
  rw [resolveAt_reg h]
  congr 2
  funext p
  exact resolveAt_reg h product p d

theorem resolve_dep {w : World} {product : Nat} {paths : List Str} {d : Dep} {p : Str} (hn : '/' ∉ d.name)
    (h : resolve w w.known product paths d = some (.dep p)) :
    (Path.splitIntoDirectoryAndFileName p ∈ w.known ∨
      w.onDisk ((Path.splitIntoDirectoryAndFileName p).1 ++ '/' :: (Path.splitIntoDirectoryAndFileName p).2) = true) := by
  have key : ∀ base, resolveAt w w.known product base d = some (.dep p) →
      (Path.splitIntoDirectoryAndFileName p ∈ w.known ∨
      w.onDisk ((Path.splitIntoDirectoryAndFileName p).1 ++ '/' :: (Path.splitIntoDirectoryAndFileName p).2) = true) := by
    intro base hr
    obtain ⟨h1, h2, _⟩ := (resolveAt_spec w product base d).2 _ hr
    rw [h1, split_append _ _ hn]
    rw [h1] at h2
    exact h2
  unfold resolve at h
  split at h
  · exact key _ h
  · obtain ⟨_, base, _, _, h2, _⟩ := (findSome_iff _ _ _).mp h
    exact key base h2

/-! ## One scan result -/

section
variable (w : World) (o product : Nat) (paths : List Str) (base : List Nat)

def TableOk (t : List (Dep × Option File)) : Prop :=
  ∀ d r, t.lookup d = some r → r = resolve w w.known product paths d

structure StateOk (s : State) : Prop where
  reg : RegOk w s.reg
  table : TableOk w product paths s.table
  children : ∀ c, c ∈ s.children ↔ c ∈ base ∨ c ∈ s.scanned

theorem cached_spec {s : State} (h : StateOk w product paths base s) (d : Dep) :
    (cached w product paths s d).2 = resolve w w.known product paths d ∧
    StateOk w product paths base (cached w product paths s d).1 ∧
    (cached w product paths s d).1.fileDeps = s.fileDeps ∧ (cached w product paths s d).1.scanned = s.scanned := by
  unfold cached
  cases hl : s.table.lookup d with
  | some r => exact ⟨h.table d r hl, h, rfl, rfl⟩
  | none =>
    refine ⟨resolve_reg h.reg product paths d, ⟨h.reg, ?_, h.children⟩, rfl, rfl⟩
    intro d' r hr
    simp only [List.lookup_cons] at hr
    by_cases hd : d' = d
    · subst hd
      simp only [beq_self_eq_true] at hr
      injection hr with hr
      rw [← hr]
      exact resolve_reg h.reg product paths d'
    · have : (d' == d) = false := by simpa using hd
      rw [this] at hr
      exact h.table d' r hr

theorem handle_spec {s : State} (h : StateOk w product paths base s) (f : File)
    (hf : ∀ p, f = .dep p → Path.splitIntoDirectoryAndFileName p ∈ w.known ∨
      w.onDisk ((Path.splitIntoDirectoryAndFileName p).1 ++ '/' :: (Path.splitIntoDirectoryAndFileName p).2) = true) :
    StateOk w product paths base (handle w o s f) ∧
    (∀ p, p ∈ (handle w o s f).fileDeps ↔ p ∈ s.fileDeps ∨ f = .dep p) ∧
    (∀ x, x ∈ (handle w o s f).scanned ↔ x ∈ s.scanned ∨ ∃ a, f = .art a ∧ a.id = x ∧ Eligible w o (· ∈ base) x) := by
  cases f with
  | dep p =>
    refine ⟨⟨⟨?_, ?_⟩, h.table, h.children⟩, ?_, ?_⟩
    · intro x hx
      exact List.mem_cons_of_mem _ (h.reg.1 x hx)
    · intro x hx
      rcases List.mem_cons.mp hx with rfl | hx
      · exact hf p rfl
      · exact h.reg.2 x hx
    · intro q
      show q ∈ p :: s.fileDeps ↔ _
      rw [List.mem_cons, File.dep.injEq]
      constructor
      · rintro (rfl | hq)
        · exact Or.inr rfl
        · exact Or.inl hq
      · rintro (hq | rfl)
        · exact Or.inr hq
        · exact Or.inl rfl
    · intro x
      show x ∈ s.scanned ↔ _
      simp
  | art a =>
    unfold handle
    simp only []
    have noop : (¬ Eligible w o (· ∈ base) a.id ∨ a.id ∈ s.scanned) →
        ∀ x, x ∈ s.scanned ↔ x ∈ s.scanned ∨ ∃ b, File.art a = .art b ∧ b.id = x ∧ Eligible w o (· ∈ base) x := by
      intro hno x
      constructor
      · exact Or.inl
      · rintro (hx | ⟨b, hb, rfl, he⟩)
        · exact hx
        · injection hb with hb
          subst hb
          rcases hno with hno | hno
          · exact absurd he hno
          · exact hno
    by_cases c1 : a.id = o
    · rw [if_pos c1]
      exact ⟨h, by simp, noop (Or.inl (fun he => he.1 c1))⟩
    rw [if_neg c1]
    by_cases c2 : w.trafo a.id = w.trafo o
    · rw [if_pos c2]
      exact ⟨h, by simp, noop (Or.inl (fun he => he.2.1 c2))⟩
    rw [if_neg c2]
    by_cases c3 : s.children.contains a.id = true
    · rw [if_pos c3]
      refine ⟨h, by simp, noop ?_⟩
      rw [List.contains_iff_mem, h.children] at c3
      rcases c3 with c3 | c3
      · exact Or.inl (fun he => he.2.2.1 c3)
      · exact Or.inr c3
    rw [if_neg c3]
    by_cases c4 : w.leadsTo a.id o = true
    · rw [if_pos c4]
      refine ⟨h, by simp, noop (Or.inl (fun he => ?_))⟩
      rw [he.2.2.2] at c4
      cases c4
    rw [if_neg c4]
    rw [List.contains_iff_mem, h.children, not_or] at c3
    have he : Eligible w o (· ∈ base) a.id := ⟨c1, c2, c3.1, by simpa using c4⟩
    refine ⟨⟨h.reg, h.table, ?_⟩, by simp, ?_⟩
    · intro c
      show c ∈ a.id :: s.children ↔ c ∈ base ∨ c ∈ a.id :: s.scanned
      rw [List.mem_cons, List.mem_cons, h.children]
      constructor
      · rintro (rfl | hc | hc)
        · exact Or.inr (Or.inl rfl)
        · exact Or.inl hc
        · exact Or.inr (Or.inr hc)
      · rintro (hc | rfl | hc)
        · exact Or.inr (Or.inl hc)
        · exact Or.inl rfl
        · exact Or.inr (Or.inr hc)
    · intro x
      show x ∈ a.id :: s.scanned ↔ _
      rw [List.mem_cons]
      constructor
      · rintro (rfl | hx)
        · exact Or.inr ⟨a, rfl, rfl, he⟩
        · exact Or.inl hx
      · rintro (hx | ⟨b, hb, rfl, _⟩)
        · exact Or.inr hx
        · injection hb with hb
          subst hb
          exact Or.inl rfl

/-- What one list of dependencies adds. -/
structure Adds (ds : List Dep) (s s' : State) : Prop where
  ok : StateOk w product paths base s'
  fileDeps : ∀ p, p ∈ s'.fileDeps ↔ p ∈ s.fileDeps ∨ ∃ d ∈ ds, resolve w w.known product paths d = some (.dep p)
  scanned : ∀ x, x ∈ s'.scanned ↔ x ∈ s.scanned ∨ ∃ d ∈ ds, ∃ a, resolve w w.known product paths d = some (.art a) ∧
    a.id = x ∧ Eligible w o (· ∈ base) x

theorem resolveAll_spec : ∀ (ds : List Dep) {s : State}, StateOk w product paths base s → (∀ d ∈ ds, '/' ∉ d.name) →
    Adds w o product paths base ds s (resolveAll w o product paths ds s).1 ∧
    (∀ f, f ∈ (resolveAll w o product paths ds s).2 ↔
      ∃ d ∈ ds, resolve w w.known product paths d = some f ∧ scannable w f = true) ∧
    (resolveAll w o product paths ds s).2.length ≤ ds.length
  | [], s, h, _ => by
    refine ⟨⟨h, by simp [resolveAll], by simp [resolveAll]⟩, by simp [resolveAll], by simp [resolveAll]⟩
  | d :: ds, s, h, hn => by
    obtain ⟨c1, c2, c3, c4⟩ := cached_spec w product paths base h d
    have hn' : ∀ d ∈ ds, '/' ∉ d.name := fun d hd => hn d (by simp [hd])
    unfold resolveAll
    simp only [c1]
    cases hr : resolve w w.known product paths d with
    | none =>
      simp only []
      obtain ⟨i1, i2, i3⟩ := resolveAll_spec ds c2 hn'
      refine ⟨⟨i1.ok, ?_, ?_⟩, ?_, ?_⟩
      · intro p
        rw [i1.fileDeps, c3]
        simp [hr]
      · intro x
        rw [i1.scanned, c4]
        simp [hr]
      · intro f
        rw [i2]
        simp [hr]
      · simp only [List.length_cons]
        omega
    | some f =>
      simp only []
      have hf : ∀ p, f = .dep p → Path.splitIntoDirectoryAndFileName p ∈ w.known ∨
          w.onDisk ((Path.splitIntoDirectoryAndFileName p).1 ++ '/' :: (Path.splitIntoDirectoryAndFileName p).2) = true := by
        rintro p rfl
        exact resolve_dep (hn d (by simp)) hr
      obtain ⟨h1, h2, h3⟩ := handle_spec w o product paths base c2 f hf
      obtain ⟨i1, i2, i3⟩ := resolveAll_spec ds h1 hn'
      refine ⟨⟨i1.ok, ?_, ?_⟩, ?_, ?_⟩
      · intro p
        rw [i1.fileDeps, h2, c3, or_assoc]
        apply or_congr Iff.rfl
        constructor
        · rintro (rfl | ⟨d', hd', h'⟩)
          · exact ⟨d, by simp, hr⟩
          · exact ⟨d', by simp [hd'], h'⟩
        · rintro ⟨d', hd', h'⟩
          rcases List.mem_cons.mp hd' with rfl | hd'
          · rw [hr] at h'
            injection h' with h'
            exact Or.inl h'
          · exact Or.inr ⟨d', hd', h'⟩
      · intro x
        rw [i1.scanned, h3, c4, or_assoc]
        apply or_congr Iff.rfl
        constructor
        · rintro (⟨a, rfl, h'⟩ | ⟨d', hd', h'⟩)
          · exact ⟨d, by simp, a, hr, h'⟩
          · exact ⟨d', by simp [hd'], h'⟩
        · rintro ⟨d', hd', a, h', h''⟩
          rcases List.mem_cons.mp hd' with rfl | hd'
          · rw [hr] at h'
            injection h' with h'
            exact Or.inl ⟨a, h', h''⟩
          · exact Or.inr ⟨d', hd', a, h', h''⟩
      · intro g
        have hg : g ∈ (if scannable w f = true then
            f :: (resolveAll w o product paths ds (handle w o (cached w product paths s d).1 f)).2 else
            (resolveAll w o product paths ds (handle w o (cached w product paths s d).1 f)).2) ↔
            (g = f ∧ scannable w f = true) ∨
            g ∈ (resolveAll w o product paths ds (handle w o (cached w product paths s d).1 f)).2 := by
          by_cases hs : scannable w f = true
          · rw [if_pos hs, List.mem_cons]; simp [hs]
          · rw [if_neg hs]; simp [hs]
        rw [hg, i2]
        constructor
        · rintro (⟨rfl, hs⟩ | ⟨d', hd', h'⟩)
          · exact ⟨d, by simp, hr, hs⟩
          · exact ⟨d', by simp [hd'], h'⟩
        · rintro ⟨d', hd', h', h''⟩
          rcases List.mem_cons.mp hd' with rfl | hd'
          · rw [hr] at h'
            injection h' with h'
            subst h'
            exact Or.inl ⟨rfl, h''⟩
          · exact Or.inr ⟨d', hd', h', h''⟩
      · simp only [List.length_cons]
        split
        · simp only [List.length_cons]; omega
        · omega

end

/-! ## The loop -/

theorem scannable_iff (w : World) (f : File) : scannable w f = true ↔ Followed w f := by
  cases f with
  | dep p => exact ⟨(fun _ a h => by cases h), fun _ => rfl⟩
  | art a =>
    unfold scannable Followed
    rw [Bool.or_eq_true]
    constructor
    · intro h b hb
      injection hb with hb
      subst hb
      exact h
    · exact fun h => h a rfl

structure LoopInv (w : World) (o : Nat) (j : Job) (base : List Nat) (s0 : State) (visited : List Str)
    (queue : List File) (s : State) : Prop where
  ok : StateOk w j.start.product j.searchPaths base s
  visitedOk : ∀ p ∈ visited, Scanned w j p
  queueOk : ∀ f ∈ queue, Scanned w j f.path
  start : (File.art j.start).path ∈ visited ∨ (File.art j.start).path ∈ queue.map File.path
  closed : j.recursive = true → ∀ p ∈ visited, ∀ d ∈ j.scan p, ∀ f, j.target w d = some f → scannable w f = true →
    f.path ∈ visited ∨ f.path ∈ queue.map File.path
  fileDeps : ∀ p, p ∈ s.fileDeps ↔ p ∈ s0.fileDeps ∨
    ∃ q ∈ visited, ∃ d ∈ j.scan q, j.target w d = some (.dep p)
  scanned : ∀ x, x ∈ s.scanned ↔ x ∈ s0.scanned ∨
    ∃ q ∈ visited, ∃ d ∈ j.scan q, ∃ a, j.target w d = some (.art a) ∧ a.id = x ∧ Eligible w o (· ∈ base) x

theorem loop_step {w : World} {o : Nat} {j : Job} {base : List Nat} {s0 s : State} {visited : List Str} {f : File}
    {queue : List File} (hn : ∀ p, ∀ d ∈ j.scan p, '/' ∉ d.name) (h : LoopInv w o j base s0 visited (f :: queue) s) :
    (visited.contains f.path = true → LoopInv w o j base s0 visited queue s) ∧
    LoopInv w o j base s0 (f.path :: visited)
      (queue ++ if j.recursive = true then
        (resolveAll w o j.start.product j.searchPaths (j.scan f.path) s).2 else [])
      (resolveAll w o j.start.product j.searchPaths (j.scan f.path) s).1 := by
  constructor
  · intro hv
    rw [List.contains_iff_mem] at hv
    refine ⟨h.ok, h.visitedOk, fun g hg => h.queueOk g (by simp [hg]), ?_, ?_, h.fileDeps, h.scanned⟩
    · rcases h.start with hs | hs
      · exact Or.inl hs
      · rw [List.map_cons] at hs
        rcases List.mem_cons.mp hs with hs | hs
        · exact Or.inl (hs ▸ hv)
        · exact Or.inr hs
    · intro hr p hp d hd g hg hsc
      rcases h.closed hr p hp d hd g hg hsc with hs | hs
      · exact Or.inl hs
      · rw [List.map_cons] at hs
        rcases List.mem_cons.mp hs with hs | hs
        · exact Or.inl (hs ▸ hv)
        · exact Or.inr hs
  · have hf : Scanned w j f.path := h.queueOk f (by simp)
    obtain ⟨r1, r2, _⟩ := resolveAll_spec w o j.start.product j.searchPaths base (j.scan f.path) h.ok (hn f.path)
    refine ⟨r1.ok, ?_, ?_, ?_, ?_, ?_, ?_⟩
    · intro p hp
      rcases List.mem_cons.mp hp with rfl | hp
      · exact hf
      · exact h.visitedOk p hp
    · intro g hg
      rcases List.mem_append.mp hg with hg | hg
      · exact h.queueOk g (by simp [hg])
      · by_cases hr : j.recursive = true
        · rw [if_pos hr] at hg
          obtain ⟨d, hd, ht, hsc⟩ := (r2 g).mp hg
          exact .next hr hf hd ht ((scannable_iff w g).mp hsc)
        · rw [if_neg hr] at hg
          cases hg
    · rcases h.start with hs | hs
      · exact Or.inl (by simp [hs])
      · rw [List.map_cons] at hs
        rcases List.mem_cons.mp hs with hs | hs
        · exact Or.inl (by rw [hs]; simp)
        · exact Or.inr (by rw [List.map_append]; exact List.mem_append_left _ hs)
    · intro hr p hp d hd g hg hsc
      rcases List.mem_cons.mp hp with rfl | hp
      · right
        rw [List.map_append, if_pos hr]
        apply List.mem_append_right
        exact List.mem_map.mpr ⟨g, (r2 g).mpr ⟨d, hd, hg, hsc⟩, rfl⟩
      · rcases h.closed hr p hp d hd g hg hsc with hs | hs
        · exact Or.inl (by simp [hs])
        · rw [List.map_cons] at hs
          rcases List.mem_cons.mp hs with hs | hs
          · exact Or.inl (by rw [hs]; simp)
          · exact Or.inr (by rw [List.map_append]; exact List.mem_append_left _ hs)
    · intro p
      rw [r1.fileDeps, h.fileDeps, or_assoc]
      apply or_congr Iff.rfl
      constructor
      · rintro (⟨q, hq, h'⟩ | ⟨d, hd, h'⟩)
        · exact ⟨q, by simp [hq], h'⟩
        · exact ⟨f.path, by simp, d, hd, h'⟩
      · rintro ⟨q, hq, h'⟩
        rcases List.mem_cons.mp hq with rfl | hq
        · exact Or.inr h'
        · exact Or.inl ⟨q, hq, h'⟩
    · intro x
      rw [r1.scanned, h.scanned, or_assoc]
      apply or_congr Iff.rfl
      constructor
      · rintro (⟨q, hq, h'⟩ | ⟨d, hd, h'⟩)
        · exact ⟨q, by simp [hq], h'⟩
        · exact ⟨f.path, by simp, d, hd, h'⟩
      · rintro ⟨q, hq, h'⟩
        rcases List.mem_cons.mp hq with rfl | hq
        · exact Or.inr h'
        · exact Or.inl ⟨q, hq, h'⟩

theorem loop_inv {w : World} {o : Nat} {j : Job} {base : List Nat} {s0 : State}
    (hn : ∀ p, ∀ d ∈ j.scan p, '/' ∉ d.name) : ∀ (n : Nat) {visited : List Str} {queue : List File} {s s' : State},
    LoopInv w o j base s0 visited queue s → loop w o j j.searchPaths n visited queue s = some s' →
    ∃ visited', LoopInv w o j base s0 visited' [] s'
  | 0, _, _, _, _, _, hl => by cases hl
  | n + 1, visited, [], s, s', h, hl => by
    unfold loop at hl
    injection hl with hl
    subst hl
    exact ⟨visited, h⟩
  | n + 1, visited, f :: queue, s, s', h, hl => by
    unfold loop at hl
    obtain ⟨h1, h2⟩ := loop_step hn h
    by_cases hv : visited.contains f.path = true
    · rw [if_pos hv] at hl
      exact loop_inv hn n (h1 hv) hl
    · rw [if_neg hv] at hl
      exact loop_inv hn n h2 hl

theorem loop_spec {w : World} {o : Nat} {j : Job} {base : List Nat} {s s' : State} {n : Nat}
    (hn : ∀ p, ∀ d ∈ j.scan p, '/' ∉ d.name) (hs : StateOk w j.start.product j.searchPaths base s)
    (hl : loop w o j j.searchPaths n [] [.art j.start] s = some s') :
    StateOk w j.start.product j.searchPaths base s' ∧
    (∀ p, p ∈ s'.fileDeps ↔ p ∈ s.fileDeps ∨ Found w j (.dep p)) ∧
    (∀ x, x ∈ s'.scanned ↔ x ∈ s.scanned ∨ ∃ a, Found w j (.art a) ∧ a.id = x ∧ Eligible w o (· ∈ base) x) := by
  have h0 : LoopInv w o j base s [] [.art j.start] s :=
    ⟨hs, (fun p hp => by cases hp), (fun f hf => by rw [List.mem_singleton] at hf; subst hf; exact .start),
      Or.inr (by simp), (fun _ p hp => by cases hp), by simp, by simp⟩
  obtain ⟨v, h⟩ := loop_inv hn n h0 hl
  have all : ∀ p, Scanned w j p → p ∈ v := by
    intro p hp
    induction hp with
    | start => exact h.start.resolve_right (by simp)
    | next hr _ hd ht hsc ih => exact (h.closed hr _ ih _ hd _ ht ((scannable_iff w _).mpr hsc)).resolve_right (by simp)
  refine ⟨h.ok, ?_, ?_⟩
  · intro p
    rw [h.fileDeps]
    apply or_congr Iff.rfl
    constructor
    · rintro ⟨q, hq, d, hd, ht⟩
      exact ⟨q, d, h.visitedOk q hq, hd, ht⟩
    · rintro ⟨q, d, hq, hd, ht⟩
      exact ⟨q, all q hq, d, hd, ht⟩
  · intro x
    rw [h.scanned]
    apply or_congr Iff.rfl
    constructor
    · rintro ⟨q, hq, d, hd, a, ht, hx⟩
      exact ⟨a, ⟨q, d, h.visitedOk q hq, hd, ht⟩, hx⟩
    · rintro ⟨a, ⟨q, d, hq, hd, ht⟩, hx⟩
      exact ⟨q, all q hq, d, hd, a, ht, hx⟩

theorem runJobs_spec {w : World} {o : Nat} {n : Nat} {base : List Nat} {keys : Nat → List Str × Nat} :
    ∀ (jobs : List Job) {c c' : Cache} {s s' : State}, NamesOk jobs → KeysOk keys jobs → CacheOk w keys c →
    RegOk w s.reg → (∀ x, x ∈ s.children ↔ x ∈ base ∨ x ∈ s.scanned) →
    runJobs w o n jobs c s = some (c', s') →
    CacheOk w keys c' ∧ RegOk w s'.reg ∧ (∀ x, x ∈ s'.children ↔ x ∈ base ∨ x ∈ s'.scanned) ∧
    (∀ p, p ∈ s'.fileDeps ↔ p ∈ s.fileDeps ∨ ∃ j ∈ jobs, Found w j (.dep p)) ∧
    (∀ x, x ∈ s'.scanned ↔ x ∈ s.scanned ∨ ∃ j ∈ jobs, ∃ a, Found w j (.art a) ∧ a.id = x ∧
      Eligible w o (· ∈ base) x)
  | [], c, c', s, s', _, _, hc, hr, hch, h => by
    simp only [runJobs, Option.some.injEq, Prod.mk.injEq] at h
    obtain ⟨rfl, rfl⟩ := h
    exact ⟨hc, hr, hch, by simp, by simp⟩
  | j :: js, c, c', s, s', hn, hk, hc, hr, hch, h => by
    have hkj := hk j (by simp)
    have he : (entryFor c j).paths = j.searchPaths ∧
        TableOk w j.start.product j.searchPaths (entryFor c j).table := by
      unfold entryFor
      cases hl : c.lookup j.key with
      | none => exact ⟨rfl, fun d r h => by cases h⟩
      | some e =>
        obtain ⟨e1, e2⟩ := hc j.key e hl
        rw [hkj] at e1 e2
        exact ⟨e1, e2⟩
    simp only [runJobs] at h
    cases hl : loop w o j (entryFor c j).paths n [] [.art j.start] { s with table := (entryFor c j).table } with
    | none => rw [hl] at h; cases h
    | some s1 =>
      rw [hl] at h
      simp only [] at h
      rw [he.1] at hl
      obtain ⟨l1, l2, l3⟩ := loop_spec (base := base) (s := { s with table := (entryFor c j).table }) (hn j (by simp)) ⟨hr, he.2, hch⟩ hl
      have hc1 : CacheOk w keys ((j.key, ⟨(entryFor c j).paths, s1.table⟩) :: c) := by
        intro k e hke
        simp only [List.lookup_cons] at hke
        by_cases hkk : k = j.key
        · subst hkk
          simp only [beq_self_eq_true] at hke
          injection hke with hke
          subst hke
          rw [hkj]
          exact ⟨he.1, l1.table⟩
        · have : (k == j.key) = false := by simpa using hkk
          rw [this] at hke
          exact hc k e hke
      obtain ⟨i1, i2, i3, i4, i5⟩ := runJobs_spec js (fun j' hj' => hn j' (by simp [hj']))
        (fun j' hj' => hk j' (by simp [hj'])) hc1 l1.reg l1.children h
      refine ⟨i1, i2, i3, ?_, ?_⟩
      · intro p
        rw [i4, l2, or_assoc]
        apply or_congr Iff.rfl
        constructor
        · rintro (hf | ⟨j', hj', hf⟩)
          · exact ⟨j, by simp, hf⟩
          · exact ⟨j', by simp [hj'], hf⟩
        · rintro ⟨j', hj', hf⟩
          rcases List.mem_cons.mp hj' with rfl | hj'
          · exact Or.inl hf
          · exact Or.inr ⟨j', hj', hf⟩
      · intro x
        rw [i5, l3, or_assoc]
        apply or_congr Iff.rfl
        constructor
        · rintro (hf | ⟨j', hj', hf⟩)
          · exact ⟨j, by simp, hf⟩
          · exact ⟨j', by simp [hj'], hf⟩
        · rintro ⟨j', hj', hf⟩
          rcases List.mem_cons.mp hj' with rfl | hj'
          · exact Or.inl hf
          · exact Or.inr ⟨j', hj', hf⟩

theorem sameSet_iff (a b : List Str) : sameSet a b = true ↔ ∀ x, x ∈ a ↔ x ∈ b := by
  unfold sameSet
  rw [Bool.and_eq_true, List.all_eq_true, List.all_eq_true]
  simp only [List.contains_iff_mem]
  constructor
  · exact fun h x => ⟨h.1 x, h.2 x⟩
  · exact fun h => ⟨fun x => (h x).mp, fun x => (h x).mpr⟩

/-- C51: after an update the file dependencies of an artifact are exactly the files found, and its children that come
    from scanning are exactly the artifacts found that are eligible; the other children stay. The time stamp is cleared
    if the file dependencies are others than before. And the cache remains usable. -/
theorem C51_dependencies (w : World) (o n : Nat) (jobs : List Job) (c : Cache) (x : Deps) (r : Outcome)
    (keys : Nat → List Str × Nat) (hn : NamesOk jobs) (hk : KeysOk keys jobs) (hc : CacheOk w keys c)
    (h : update w o n jobs c x = some r) :
    (∀ p, p ∈ r.deps.fileDeps ↔ ∃ j ∈ jobs, Found w j (.dep p)) ∧
    (∀ a, a ∈ r.deps.scanned ↔ (∃ j ∈ jobs, ∃ b, Found w j (.art b) ∧ b.id = a) ∧
      Eligible w o (fun b => b ∈ x.children ∧ b ∉ x.scanned) a) ∧
    (∀ a, a ∈ r.deps.children ↔ (a ∈ x.children ∧ a ∉ x.scanned) ∨ a ∈ r.deps.scanned) ∧
    (r.deps.cleared = true ↔ x.cleared = true ∨ ¬ ∀ p, p ∈ x.fileDeps ↔ p ∈ r.deps.fileDeps) ∧
    CacheOk w keys r.cache := by
  unfold update at h
  rw [Option.map_eq_some_iff] at h
  obtain ⟨⟨c', s'⟩, h1, h2⟩ := h
  have hbase : ∀ a, a ∈ x.children.filter (fun a => !x.scanned.contains a) ↔ a ∈ x.children ∧ a ∉ x.scanned := by
    intro a
    rw [List.mem_filter]
    simp
  obtain ⟨i1, i2, i3, i4, i5⟩ := runJobs_spec (base := x.children.filter (fun a => !x.scanned.contains a))
    jobs hn hk hc ⟨fun a ha => ha, fun a ha => Or.inl ha⟩ (by simp) h1
  subst h2
  have hel : ∀ a, Eligible w o (· ∈ x.children.filter (fun a => !x.scanned.contains a)) a ↔
      Eligible w o (fun b => b ∈ x.children ∧ b ∉ x.scanned) a := by
    intro a
    unfold Eligible
    simp only [hbase]
  refine ⟨?_, ?_, ?_, ?_, i1⟩
  · intro p
    show p ∈ s'.fileDeps ↔ _
    rw [i4]
    simp
  · intro a
    show a ∈ s'.scanned ↔ _
    rw [i5]
    constructor
    · rintro (h | ⟨j, hj, b, hf, hb, he⟩)
      · cases h
      · exact ⟨⟨j, hj, b, hf, hb⟩, (hel a).mp he⟩
    · rintro ⟨⟨j, hj, b, hf, hb⟩, he⟩
      exact Or.inr ⟨j, hj, b, hf, hb, (hel a).mpr he⟩
  · intro a
    show a ∈ s'.children ↔ _
    rw [i3, hbase]
  · show (x.cleared || !sameSet x.fileDeps s'.fileDeps) = true ↔ _
    rw [Bool.or_eq_true, Bool.not_eq_true', ← Bool.not_eq_true, sameSet_iff]

/-! ## Termination -/

/-- Steps still to be made: the queue, and what unvisited files can add to it. -/
def work (j : Job) (all visited : List Str) (queue : List File) : Nat :=
  ((all.filter (fun p => !visited.contains p)).map (fun p => (j.scan p).length)).sum + queue.length

theorem sum_remove (g : Str → Nat) (p : Str) : ∀ (all visited : List Str), p ∈ all → p ∉ visited →
    ((all.filter (fun q => !(p :: visited).contains q)).map g).sum + g p ≤
      ((all.filter (fun q => !visited.contains q)).map g).sum
  | [], _, h, _ => by cases h
  | a :: all, visited, h, hv => by
    have mono : ∀ l : List Str, ((l.filter (fun q => !(p :: visited).contains q)).map g).sum ≤
        ((l.filter (fun q => !visited.contains q)).map g).sum := by
      intro l
      induction l with
      | nil => simp
      | cons b l ih =>
        rw [List.filter_cons, List.filter_cons]
        by_cases hb : visited.contains b = true
        · have hb' : (p :: visited).contains b = true := by
            rw [List.contains_iff_mem] at hb ⊢; simp [hb]
          rw [hb, hb']
          simpa using ih
        · by_cases hb' : (p :: visited).contains b = true
          · rw [hb', (Bool.not_eq_true _).mp hb]
            simp only [Bool.not_true, Bool.not_false, Bool.false_eq_true, if_false, if_true]
            simp only [List.map_cons, List.sum_cons]
            omega
          · rw [if_pos (by simpa using hb'), if_pos (by simpa using hb)]
            simp only [List.map_cons, List.sum_cons]
            omega
    rw [List.filter_cons, List.filter_cons]
    by_cases ha : a = p
    · subst ha
      rw [if_neg (by simp), if_pos (by simpa using hv)]
      simp only [List.map_cons, List.sum_cons]
      have := mono all
      omega
    · have hp : p ∈ all := by
        rcases List.mem_cons.mp h with h | h
        · exact absurd h.symm ha
        · exact h
      have ih := sum_remove g p all visited hp hv
      by_cases hb : visited.contains a = true
      · have hb' : (p :: visited).contains a = true := by
          rw [List.contains_iff_mem] at hb ⊢; simp [hb]
        rw [hb, hb']
        simpa using ih
      · have hb' : ¬ (p :: visited).contains a = true := by
          rw [List.contains_iff_mem] at hb ⊢
          simp only [List.mem_cons, not_or]
          exact ⟨ha, hb⟩
        rw [if_pos (by simpa using hb'), if_pos (by simpa using hb)]
        simp only [List.map_cons, List.sum_cons]
        omega

theorem loop_terminates {w : World} {o : Nat} {j : Job} {base : List Nat} {s0 : State} {all : List Str}
    (hn : ∀ p, ∀ d ∈ j.scan p, '/' ∉ d.name) (hall : ∀ p, Scanned w j p → p ∈ all) :
    ∀ (n : Nat) {visited : List Str} {queue : List File} {s : State}, LoopInv w o j base s0 visited queue s →
    work j all visited queue < n → ∃ s', loop w o j j.searchPaths n visited queue s = some s'
  | 0, _, _, _, _, hw => by omega
  | n + 1, visited, [], s, h, hw => ⟨s, rfl⟩
  | n + 1, visited, f :: queue, s, h, hw => by
    unfold loop
    obtain ⟨h1, h2⟩ := loop_step hn h
    by_cases hv : visited.contains f.path = true
    · rw [if_pos hv]
      apply loop_terminates hn hall n (h1 hv)
      unfold work at hw ⊢
      simp only [List.length_cons] at hw
      omega
    · rw [if_neg hv]
      apply loop_terminates hn hall n h2
      obtain ⟨_, _, r3⟩ := resolveAll_spec w o j.start.product j.searchPaths base (j.scan f.path) h.ok (hn f.path)
      have := sum_remove (fun p => (j.scan p).length) f.path all visited
        (hall _ (h.queueOk f (by simp))) (by rw [← List.contains_iff_mem]; exact hv)
      unfold work at hw ⊢
      simp only [List.length_cons, List.length_append] at hw ⊢
      have hlen : (if j.recursive = true then
          (resolveAll w o j.start.product j.searchPaths (j.scan f.path) s).2 else []).length ≤
          (j.scan f.path).length := by
        split
        · exact r3
        · simp
      omega

theorem loop_more {w : World} {o : Nat} {j : Job} {paths : List Str} : ∀ (n m : Nat) {visited : List Str}
    {queue : List File} {s s' : State}, loop w o j paths n visited queue s = some s' → n ≤ m →
    loop w o j paths m visited queue s = some s'
  | 0, _, _, _, _, _, h, _ => by cases h
  | n + 1, 0, _, _, _, _, _, hm => by omega
  | n + 1, m + 1, visited, [], s, s', h, _ => by
    unfold loop at h ⊢
    exact h
  | n + 1, m + 1, visited, f :: queue, s, s', h, hm => by
    unfold loop at h ⊢
    by_cases hv : visited.contains f.path = true
    · rw [if_pos hv] at h ⊢
      exact loop_more n m h (by omega)
    · rw [if_neg hv] at h ⊢
      exact loop_more n m h (by omega)

theorem resolve_path {w : World} {product : Nat} {paths : List Str} {d : Dep} {f : File}
    (h : resolve w w.known product paths d = some f) :
    f.path ∈ w.arts.map (fun a => (File.art a).path) ∨ f.path ∈ w.known.map (fun x => x.1 ++ '/' :: x.2) ∨
      w.onDisk f.path = true := by
  have key : ∀ base, resolveAt w w.known product base d = some f →
      f.path ∈ w.arts.map (fun a => (File.art a).path) ∨ f.path ∈ w.known.map (fun x => x.1 ++ '/' :: x.2) ∨
      w.onDisk f.path = true := by
    intro base hr
    have hm := (resolveAt_spec w product base d).2 f hr
    cases f with
    | art a => exact Or.inl (List.mem_map.mpr ⟨a, hm.1.1, rfl⟩)
    | dep p =>
      obtain ⟨h1, h2, _⟩ := hm
      rcases h2 with h2 | h2
      · exact Or.inr (Or.inl (List.mem_map.mpr ⟨_, h2, by rw [h1]; rfl⟩))
      · exact Or.inr (Or.inr h2)
  unfold resolve at h
  split at h
  · exact key _ h
  · obtain ⟨_, base, _, _, h2, _⟩ := (findSome_iff _ _ _).mp h
    exact key base h2

theorem runJobs_terminates {w : World} {o : Nat} {base : List Nat} {keys : Nat → List Str × Nat} {disk : List Str}
    (hdisk : ∀ p, w.onDisk p = true → p ∈ disk) :
    ∀ (jobs : List Job), NamesOk jobs → KeysOk keys jobs → ∃ N, ∀ n, N ≤ n → ∀ (c : Cache) (s : State),
    CacheOk w keys c → RegOk w s.reg → (∀ x, x ∈ s.children ↔ x ∈ base ∨ x ∈ s.scanned) →
    ∃ r, runJobs w o n jobs c s = some r
  | [], _, _ => ⟨0, fun n _ c s _ _ _ => ⟨(c, s), rfl⟩⟩
  | j :: js, hn, hk => by
    obtain ⟨N, ih⟩ := runJobs_terminates hdisk js (fun j' hj' => hn j' (by simp [hj']))
      (fun j' hj' => hk j' (by simp [hj'])) (o := o) (base := base)
    have hkj := hk j (by simp)
    have hnj := hn j (by simp)
    let all := (File.art j.start).path :: (w.arts.map (fun a => (File.art a).path) ++
      w.known.map (fun x => x.1 ++ '/' :: x.2) ++ disk)
    have hall : ∀ p, Scanned w j p → p ∈ all := by
      intro p hp
      cases hp with
      | start => exact List.mem_cons_self
      | next hr _ hd ht hsc =>
        apply List.mem_cons_of_mem
        rcases resolve_path ht with h | h | h
        · exact List.mem_append_left _ (List.mem_append_left _ h)
        · exact List.mem_append_left _ (List.mem_append_right _ h)
        · exact List.mem_append_right _ (hdisk _ h)
    refine ⟨max N (work j all [] [.art j.start] + 1), ?_⟩
    intro n hle c s hc hr hch
    have he : (entryFor c j).paths = j.searchPaths ∧
        TableOk w j.start.product j.searchPaths (entryFor c j).table := by
      unfold entryFor
      cases hl : c.lookup j.key with
      | none => exact ⟨rfl, fun d r h => by cases h⟩
      | some e =>
        obtain ⟨e1, e2⟩ := hc j.key e hl
        rw [hkj] at e1 e2
        exact ⟨e1, e2⟩
    have h0 : LoopInv w o j base { s with table := (entryFor c j).table } [] [.art j.start]
        { s with table := (entryFor c j).table } :=
      ⟨⟨hr, he.2, hch⟩, (fun p hp => by cases hp),
        (fun f hf => by rw [List.mem_singleton] at hf; subst hf; exact .start),
        Or.inr (by simp), (fun _ p hp => by cases hp), by simp, by simp⟩
    obtain ⟨s1, hl⟩ := loop_terminates hnj hall n h0 (by omega)
    obtain ⟨l1, _, _⟩ := loop_spec (base := base) (s := { s with table := (entryFor c j).table }) hnj ⟨hr, he.2, hch⟩ hl
    have hc1 : CacheOk w keys ((j.key, ⟨(entryFor c j).paths, s1.table⟩) :: c) := by
      intro k e hke
      simp only [List.lookup_cons] at hke
      by_cases hkk : k = j.key
      · subst hkk
        simp only [beq_self_eq_true] at hke
        injection hke with hke
        subst hke
        rw [hkj]
        exact ⟨he.1, l1.table⟩
      · have : (k == j.key) = false := by simpa using hkk
        rw [this] at hke
        exact hc k e hke
    rw [← he.1] at hl
    obtain ⟨r, hrr⟩ := ih n (by omega) _ s1 hc1 l1.reg l1.children
    refine ⟨r, ?_⟩
    simp only [runJobs]
    rw [hl]
    exact hrr

/-- C51: scanning ends, even if files include each other, if there are finitely many files. -/
theorem C51_terminates (w : World) (o : Nat) (jobs : List Job) (c : Cache) (x : Deps)
    (keys : Nat → List Str × Nat) (hn : NamesOk jobs) (hk : KeysOk keys jobs) (hc : CacheOk w keys c)
    (disk : List Str) (hdisk : ∀ p, w.onDisk p = true → p ∈ disk) :
    ∃ N, ∀ n, N ≤ n → ∃ r, update w o n jobs c x = some r := by
  obtain ⟨N, h⟩ := runJobs_terminates (o := o) (base := x.children.filter (fun a => !x.scanned.contains a))
    hdisk jobs hn hk
  refine ⟨N, ?_⟩
  intro n hle
  obtain ⟨r, hr⟩ := h n hle c ⟨w.known, [], [], x.children.filter (fun a => !x.scanned.contains a), []⟩ hc
    ⟨fun a ha => ha, fun a ha => Or.inl ha⟩ (by simp)
  unfold update
  rw [hr]
  exact ⟨_, rfl⟩

end Verif.Includes
