import Verif.Rescue.Model
/-!
# C34: when the state of an artifact is rescued
-/
namespace Verif.Rescue

/-! ## Specification -/

/-- `i` is a former child of the artifact. -/
def Former (p : Project) (r : Rad) (i : Nat) : Prop :=
  ∃ c ∈ r.children, p.lookup c.product c.path = some i

/-- The artifact would be built as it was built: the commands are the same, its children are former children,
    the former children all exist and those that are not its children now were found by a scanner, and
    all files that it depended on still are known as such. -/
structure Same (p : Project) (a : Artifact) (r : Rad) : Prop where
  commands : a.trafo.commands = r.commands
  exist : ∀ c ∈ r.children, ∃ i, p.lookup c.product c.path = some i ∧
    (i ∈ a.children ∨ c.addedByScanner = true)
  old : ∀ i ∈ a.children, Former p r i
  files : ∀ d ∈ r.fileDependencies, d ∈ p.fileDependencies

/-- Identifiers are unique, the former children are different artifacts, and children are a set. -/
structure WF (p : Project) (a : Artifact) (r : Rad) : Prop where
  ids : (p.artifacts.map (·.1)).Nodup
  former : (r.children.map (fun c => (c.product, c.path))).Nodup
  children : a.children.Nodup

/-! ## Lists -/

theorem length_le_of_subset {α : Type} [DecidableEq α] : ∀ (l m : List α), l.Nodup → (∀ x ∈ l, x ∈ m) →
    l.length ≤ m.length
  | [], m, _, _ => Nat.zero_le _
  | x :: l, m, hn, h => by
    have hx := h x (by simp)
    have hn' := List.nodup_cons.mp hn
    have := length_le_of_subset l (m.erase x) hn'.2 (fun y hy =>
      (List.mem_erase_of_ne (fun he : y = x => hn'.1 (he ▸ hy))).mpr (h y (by simp [hy])))
    rw [List.length_erase_of_mem hx] at this
    have hpos := List.length_pos_of_mem hx
    simp only [List.length_cons]
    omega

theorem subset_of_length {α : Type} [DecidableEq α] (l m : List α) (hl : l.Nodup)
    (h : ∀ x ∈ l, x ∈ m) (hlen : m.length ≤ l.length) : ∀ x ∈ m, x ∈ l := by
  intro x hx
  apply Classical.byContradiction
  intro hnot
  have := length_le_of_subset (x :: l) m (List.nodup_cons.mpr ⟨hnot, hl⟩) (by
    intro y hy
    rcases List.mem_cons.mp hy with rfl | hy
    · exact hx
    · exact h y hy)
  simp only [List.length_cons] at this
  omega

/-! ## The loops -/

theorem lookup_injective {p : Project} (h : (p.artifacts.map (·.1)).Nodup) {q q' : String} {f f' : Path}
    {i : Nat} (h1 : p.lookup q f = some i) (h2 : p.lookup q' f' = some i) : (q, f) = (q', f') := by
  have key : ∀ {q f}, p.lookup q f = some i → (i, q, f) ∈ p.artifacts := by
    intro q f hl
    unfold Project.lookup at hl
    cases hf : p.artifacts.find? (fun x => x.2.1 == q && x.2.2 == f) with
    | none => rw [hf] at hl; cases hl
    | some x =>
      rw [hf] at hl
      simp only [Option.map_some, Option.some.injEq] at hl
      have hx := List.find?_some hf
      simp only [Bool.and_eq_true, beq_iff_eq] at hx
      have hm := List.mem_of_find?_eq_some hf
      rw [← hl, ← hx.1, ← hx.2]
      exact hm
  have inj : ∀ (l : List (Nat × String × Path)), (l.map (·.1)).Nodup → ∀ x ∈ l, ∀ y ∈ l, x.1 = y.1 → x = y := by
    intro l
    induction l with
    | nil => intro _ x hx; cases hx
    | cons z l ih =>
      intro hn x hx y hy he
      rw [List.map_cons, List.nodup_cons] at hn
      rcases List.mem_cons.mp hx with hx1 | hx1 <;> rcases List.mem_cons.mp hy with hy1 | hy1
      · rw [hx1, hy1]
      · exact absurd (List.mem_map.mpr ⟨y, hy1, by rw [← he, hx1]⟩) hn.1
      · exact absurd (List.mem_map.mpr ⟨x, hx1, by rw [he, hy1]⟩) hn.1
      · exact ih hn.2 x hx1 y hy1 he
  have := inj _ h _ (key h1) _ (key h2) rfl
  simpa using this

/-- A former child that does not stand in the way. -/
def childOk (p : Project) (ch : List Nat) (c : ChildData) : Bool :=
  match p.lookup c.product c.path with
  | some i => ch.contains i || c.addedByScanner
  | none => false

/-- The children to be connected. -/
def missing (p : Project) (ch : List Nat) (c : ChildData) : Option Nat :=
  match p.lookup c.product c.path with
  | some i => if ch.contains i then none else some i
  | none => none

theorem childStep_artifact (p : Project) (l : Loop) (c : ChildData) :
    (childStep p l c).st.artifact = l.st.artifact := by
  unfold childStep otherChild
  simp only
  split
  · rfl
  · cases p.lookup c.product c.path <;> cases c.addedByScanner <;> simp <;> (repeat' split) <;> rfl

theorem childStep_false (p : Project) (l : Loop) (c : ChildData) (h : l.canRescue = false) :
    (childStep p l c).canRescue = false := by
  unfold childStep otherChild
  simp only
  split
  · exact h
  · cases p.lookup c.product c.path <;> cases c.addedByScanner <;> simp [h]

theorem childStep_ok (p : Project) (l : Loop) (c : ChildData) (hl : l.canRescue = true)
    (h : childOk p l.st.artifact.children c = true) :
    childStep p l c = ⟨true, l.toConnect ++ (missing p l.st.artifact.children c).toList, l.st⟩ := by
  obtain ⟨cr, tc, st⟩ := l
  simp only at hl h
  subst hl
  unfold childOk at h
  unfold childStep missing
  cases hk : p.lookup c.product c.path with
  | none => rw [hk] at h; cases h
  | some i =>
    rw [hk] at h
    simp only [Option.any_some] at h ⊢
    by_cases hc : st.artifact.children.contains i = true
    · rw [if_pos hc, if_pos hc]; simp
    · rw [if_neg hc, if_neg hc]
      have hc : st.artifact.children.contains i = false := by simpa using hc
      rw [hc] at h
      simp only [Bool.false_or] at h
      unfold otherChild
      simp [h]

theorem childStep_bad (p : Project) (l : Loop) (c : ChildData)
    (h : childOk p l.st.artifact.children c = false) : (childStep p l c).canRescue = false := by
  obtain ⟨cr, tc, st⟩ := l
  simp only at h
  unfold childOk at h
  unfold childStep
  cases hk : p.lookup c.product c.path with
  | none =>
    simp only [Option.any_none]
    unfold otherChild
    cases c.addedByScanner <;> simp
  | some i =>
    rw [hk] at h
    simp only [Bool.or_eq_false_iff] at h
    simp only [Option.any_some, h.1]
    unfold otherChild
    simp [h.2]

theorem childLoop_ok (p : Project) : ∀ (cs : List ChildData) (l : Loop), l.canRescue = true →
    (∀ c ∈ cs, childOk p l.st.artifact.children c = true) →
    cs.foldl (childStep p) l =
      ⟨true, l.toConnect ++ cs.filterMap (missing p l.st.artifact.children), l.st⟩
  | [], l, h, _ => by
    obtain ⟨cr, tc, st⟩ := l
    simp only at h
    simp [h]
  | c :: cs, l, h, hok => by
    rw [List.foldl_cons, childStep_ok p l c h (hok c (by simp))]
    rw [childLoop_ok p cs ⟨true, l.toConnect ++ (missing p l.st.artifact.children c).toList, l.st⟩ rfl
      (fun d hd => hok d (by simp [hd]))]
    simp only [List.filterMap_cons]
    cases missing p l.st.artifact.children c <;> simp

theorem childLoop_false (p : Project) : ∀ (cs : List ChildData) (l : Loop), l.canRescue = false →
    (cs.foldl (childStep p) l).canRescue = false
  | [], l, h => h
  | c :: cs, l, h => childLoop_false p cs _ (childStep_false p l c h)

theorem childLoop_artifact (p : Project) : ∀ (cs : List ChildData) (l : Loop),
    (cs.foldl (childStep p) l).st.artifact = l.st.artifact
  | [], l => rfl
  | c :: cs, l => by rw [List.foldl_cons, childLoop_artifact p cs, childStep_artifact]

theorem childLoop_bad (p : Project) : ∀ (cs : List ChildData) (l : Loop) (c : ChildData), c ∈ cs →
    childOk p l.st.artifact.children c = false → (cs.foldl (childStep p) l).canRescue = false
  | d :: cs, l, c, hc, h => by
    rw [List.foldl_cons]
    rcases List.mem_cons.mp hc with rfl | hc
    · exact childLoop_false p cs _ (childStep_bad p l _ h)
    · exact childLoop_bad p cs _ c hc (by rw [childStep_artifact]; exact h)

theorem childOk_iff (p : Project) (ch : List Nat) (c : ChildData) :
    childOk p ch c = true ↔ ∃ i, p.lookup c.product c.path = some i ∧ (i ∈ ch ∨ c.addedByScanner = true) := by
  unfold childOk
  cases p.lookup c.product c.path with
  | none => simp
  | some i => simp

theorem fileLoop (p : Project) : ∀ (ds deps : List Path),
    ((fileDependencyLoop p deps ds).2 = true ↔ ∀ d ∈ ds, d ∈ p.fileDependencies) ∧
    ((∀ d ∈ ds, d ∈ p.fileDependencies) → ∀ q, q ∈ (fileDependencyLoop p deps ds).1 ↔ q ∈ deps ∨ q ∈ ds)
  | [], deps => by simp [fileDependencyLoop]
  | d :: ds, deps => by
    unfold fileDependencyLoop
    by_cases hd : d ∈ p.fileDependencies
    · rw [if_pos (by simpa using hd)]
      obtain ⟨h1, h2⟩ := fileLoop p ds (if deps.contains d then deps else deps ++ [d])
      refine ⟨by rw [h1]; simp [hd], fun h q => ?_⟩
      rw [h2 (fun x hx => h x (by simp [hx])) q]
      by_cases hc : deps.contains d = true
      · rw [if_pos hc]
        have : d ∈ deps := by simpa using hc
        constructor
        · rintro (h | h)
          · exact Or.inl h
          · exact Or.inr (by simp [h])
        · rintro (h | h)
          · exact Or.inl h
          · rcases List.mem_cons.mp h with rfl | h
            · exact Or.inl this
            · exact Or.inr h
      · rw [if_neg hc]
        simp [or_assoc]
    · rw [if_neg (by simpa using hd)]
      exact ⟨by simp [hd], fun h => absurd (h d (by simp)) hd⟩

/-! ## Counting the children -/

/-- Former children that are children. -/
def present (p : Project) (ch : List Nat) (c : ChildData) : Option Nat :=
  match p.lookup c.product c.path with
  | some i => if ch.contains i then some i else none
  | none => none

theorem split_length (p : Project) (ch : List Nat) : ∀ cs : List ChildData,
    (∀ c ∈ cs, childOk p ch c = true) →
    cs.length = (cs.filterMap (present p ch)).length + (cs.filterMap (missing p ch)).length
  | [], _ => rfl
  | c :: cs, h => by
    have ih := split_length p ch cs (fun d hd => h d (by simp [hd]))
    have hc := h c (by simp)
    unfold childOk at hc
    rw [List.filterMap_cons, List.filterMap_cons]
    cases hk : p.lookup c.product c.path with
    | none => rw [hk] at hc; cases hc
    | some i =>
      by_cases hi : ch.contains i = true
      · have e1 : present p ch c = some i := by unfold present; rw [hk]; exact if_pos hi
        have e2 : missing p ch c = none := by unfold missing; rw [hk]; exact if_pos hi
        rw [e1, e2]
        simp only [List.length_cons]
        omega
      · have e1 : present p ch c = none := by unfold present; rw [hk]; exact if_neg hi
        have e2 : missing p ch c = some i := by unfold missing; rw [hk]; exact if_neg hi
        rw [e1, e2]
        simp only [List.length_cons]
        omega

theorem mem_present {p : Project} {ch : List Nat} {cs : List ChildData} {i : Nat} :
    i ∈ cs.filterMap (present p ch) ↔ i ∈ ch ∧ ∃ c ∈ cs, p.lookup c.product c.path = some i := by
  rw [List.mem_filterMap]
  constructor
  · rintro ⟨c, hc, hp⟩
    unfold present at hp
    cases hk : p.lookup c.product c.path with
    | none => rw [hk] at hp; cases hp
    | some j =>
      rw [hk] at hp
      simp only at hp
      by_cases hj : ch.contains j = true
      · rw [if_pos hj] at hp
        injection hp with hp
        subst hp
        exact ⟨by simpa using hj, c, hc, hk⟩
      · rw [if_neg hj] at hp; cases hp
  · rintro ⟨hi, c, hc, hk⟩
    refine ⟨c, hc, ?_⟩
    unfold present
    rw [hk]
    exact if_pos (by simpa using hi)

theorem mem_missing {p : Project} {ch : List Nat} {cs : List ChildData} {i : Nat} :
    i ∈ cs.filterMap (missing p ch) ↔ i ∉ ch ∧ ∃ c ∈ cs, p.lookup c.product c.path = some i := by
  rw [List.mem_filterMap]
  constructor
  · rintro ⟨c, hc, hp⟩
    unfold missing at hp
    cases hk : p.lookup c.product c.path with
    | none => rw [hk] at hp; cases hp
    | some j =>
      rw [hk] at hp
      simp only at hp
      by_cases hj : ch.contains j = true
      · rw [if_pos hj] at hp; cases hp
      · rw [if_neg hj] at hp
        injection hp with hp
        subst hp
        exact ⟨by simpa using hj, c, hc, hk⟩
  · rintro ⟨hi, c, hc, hk⟩
    refine ⟨c, hc, ?_⟩
    unfold missing
    rw [hk]
    exact if_neg (by simpa using hi)

theorem nodup_present {p : Project} (hids : (p.artifacts.map (·.1)).Nodup) (ch : List Nat) :
    ∀ cs : List ChildData, (cs.map (fun c => (c.product, c.path))).Nodup →
      (cs.filterMap (present p ch)).Nodup
  | [], _ => List.nodup_nil
  | c :: cs, h => by
    rw [List.map_cons, List.nodup_cons] at h
    have ih := nodup_present hids ch cs h.2
    rw [List.filterMap_cons]
    cases hp : present p ch c with
    | none => exact ih
    | some i =>
      refine List.nodup_cons.mpr ⟨?_, ih⟩
      intro hm
      obtain ⟨_, d, hd, hk⟩ := mem_present.mp hm
      have hc : p.lookup c.product c.path = some i := by
        have : i ∈ [c].filterMap (present p ch) := by simp [hp]
        obtain ⟨_, c', hc', hk'⟩ := mem_present.mp this
        rw [List.mem_singleton.mp hc'] at hk'
        exact hk'
      have := lookup_injective hids hc hk
      exact h.1 (List.mem_map.mpr ⟨d, hd, this.symm⟩)

/-- The number of children tells whether there are new ones. -/
theorem count_spec {p : Project} {a : Artifact} {r : Rad} (wf : WF p a r)
    (hok : ∀ c ∈ r.children, childOk p a.children c = true) :
    r.children.length ≤ (r.children.filterMap (missing p a.children)).length + a.children.length ∧
    ((r.children.filterMap (missing p a.children)).length + a.children.length = r.children.length ↔
      ∀ i ∈ a.children, Former p r i) := by
  have h1 := split_length p a.children r.children hok
  have hnd := nodup_present wf.ids a.children r.children wf.former
  have hsub : ∀ x ∈ r.children.filterMap (present p a.children), x ∈ a.children :=
    fun x hx => (mem_present.mp hx).1
  have h2 := length_le_of_subset _ _ hnd hsub
  refine ⟨by omega, ?_, ?_⟩
  · intro he i hi
    exact (mem_present.mp (subset_of_length _ _ hnd hsub (by omega) i hi)).2
  · intro hold
    have := length_le_of_subset a.children (r.children.filterMap (present p a.children)) wf.children
      (fun i hi => mem_present.mpr ⟨hi, hold i hi⟩)
    omega

/-! ## Connecting -/

theorem connectAll_spec (circle : Nat → Bool) : ∀ (cs : List Nat) (a : Artifact),
    (∀ i, i ∈ (connectAll circle a cs).children ↔ i ∈ a.children ∨ (i ∈ cs ∧ circle i = false)) ∧
    (∀ i, i ∈ (connectAll circle a cs).byScanner ↔ i ∈ a.byScanner ∨ (i ∈ cs ∧ circle i = false)) ∧
    (connectAll circle a cs).timestamp = a.timestamp ∧ (connectAll circle a cs).trafo = a.trafo ∧
    (connectAll circle a cs).path = a.path ∧
    (connectAll circle a cs).fileDependencies = a.fileDependencies
  | [], a => by simp [connectAll]
  | c :: cs, a => by
    unfold connectAll
    by_cases hc : circle c = true
    · rw [if_pos hc]
      obtain ⟨h1, h2, h3⟩ := connectAll_spec circle cs a
      refine ⟨fun i => ?_, fun i => ?_, h3⟩
      · rw [h1]; constructor
        · rintro (h | ⟨h, h'⟩)
          · exact Or.inl h
          · exact Or.inr ⟨by simp [h], h'⟩
        · rintro (h | ⟨h, h'⟩)
          · exact Or.inl h
          · rcases List.mem_cons.mp h with rfl | h
            · rw [hc] at h'; cases h'
            · exact Or.inr ⟨h, h'⟩
      · rw [h2]; constructor
        · rintro (h | ⟨h, h'⟩)
          · exact Or.inl h
          · exact Or.inr ⟨by simp [h], h'⟩
        · rintro (h | ⟨h, h'⟩)
          · exact Or.inl h
          · rcases List.mem_cons.mp h with rfl | h
            · rw [hc] at h'; cases h'
            · exact Or.inr ⟨h, h'⟩
    · rw [if_neg hc]
      have hc : circle c = false := by simpa using hc
      obtain ⟨h1, h2, h3, h4, h5, h6⟩ := connectAll_spec circle cs (a.connect c)
      have add : ∀ (l : List Nat) (i : Nat), i ∈ (if l.contains c then l else l ++ [c]) ↔ i ∈ l ∨ i = c := by
        intro l i
        by_cases h : l.contains c = true
        · rw [if_pos h]
          have : c ∈ l := by simpa using h
          constructor
          · exact Or.inl
          · rintro (h | rfl)
            · exact h
            · exact this
        · rw [if_neg h]; simp
      refine ⟨fun i => ?_, fun i => ?_, h3, h4, h5, h6⟩
      · rw [h1, show (a.connect c).children = if a.children.contains c then a.children else a.children ++ [c]
          from rfl, add]
        constructor
        · rintro ((h | rfl) | ⟨h, h'⟩)
          · exact Or.inl h
          · exact Or.inr ⟨by simp, hc⟩
          · exact Or.inr ⟨by simp [h], h'⟩
        · rintro (h | ⟨h, h'⟩)
          · exact Or.inl (Or.inl h)
          · rcases List.mem_cons.mp h with rfl | h
            · exact Or.inl (Or.inr rfl)
            · exact Or.inr ⟨h, h'⟩
      · rw [h2, show (a.connect c).byScanner =
          if a.byScanner.contains c then a.byScanner else a.byScanner ++ [c] from rfl, add]
        constructor
        · rintro ((h | rfl) | ⟨h, h'⟩)
          · exact Or.inl h
          · exact Or.inr ⟨by simp, hc⟩
          · exact Or.inr ⟨by simp [h], h'⟩
        · rintro (h | ⟨h, h'⟩)
          · exact Or.inl (Or.inl h)
          · rcases List.mem_cons.mp h with rfl | h
            · exact Or.inl (Or.inr rfl)
            · exact Or.inr ⟨h, h'⟩

/-! ## Rescuing -/

theorem same_iff (p : Project) (a : Artifact) (r : Rad) : Same p a r ↔
    a.trafo.commands = r.commands ∧ (∀ c ∈ r.children, childOk p a.children c = true) ∧
    (∀ i ∈ a.children, Former p r i) ∧ (∀ d ∈ r.fileDependencies, d ∈ p.fileDependencies) := by
  constructor
  · rintro ⟨h1, h2, h3, h4⟩
    exact ⟨h1, fun c hc => (childOk_iff p _ c).mpr (h2 c hc), h3, h4⟩
  · rintro ⟨h1, h2, h3, h4⟩
    exact ⟨h1, fun c hc => (childOk_iff p _ c).mp (h2 c hc), h3, h4⟩

/-- The data of an artifact that would be built as before is taken over. -/
theorem rescue_same {p : Project} {circle : Nat → Bool} {s : St} {r : Rad}
    (hr : s.rescuable s.artifact.path = some r) (hv : r.valid = true) (wf : WF p s.artifact r)
    (h : Same p s.artifact r) :
    rescue p circle s = some
      (accept circle
        ⟨{ s.artifact with fileDependencies :=
            (fileDependencyLoop p s.artifact.fileDependencies r.fileDependencies).1 },
          erase s.rescuable s.artifact.path, s.disk, s.removed⟩ r
        (r.children.filterMap (missing p s.artifact.children)),
       !(r.children.filterMap (missing p s.artifact.children)).isEmpty) := by
  obtain ⟨h1, h2, h3, h4⟩ := (same_iff p _ r).mp h
  have hl := childLoop_ok p r.children
    ⟨true, [], { s with rescuable := erase s.rescuable s.artifact.path }⟩ rfl h2
  have hc := count_spec wf h2
  have hf := ((fileLoop p r.fileDependencies s.artifact.fileDependencies).1).mpr h4
  unfold rescue
  rw [hr]
  simp only [hv, Bool.not_true, Bool.false_eq_true, if_false, if_pos h1, hl, hf, List.nil_append,
    Bool.and_true, if_true, hc.2.mpr h3, Nat.lt_irrefl, gt_iff_lt]

theorem rescue_other {p : Project} {circle : Nat → Bool} {s : St} {r : Rad}
    (hr : s.rescuable s.artifact.path = some r) (hv : r.valid = true) (wf : WF p s.artifact r)
    (h : ¬ Same p s.artifact r) :
    ∃ t : St, rescue p circle s = some (reject t, false) ∧
      (∃ deps, t.artifact = { s.artifact with fileDependencies := deps }) ∧
      ((t.rescuable, t.disk, t.removed) =
          (erase s.rescuable s.artifact.path, s.disk, s.removed) ∨
       (t.rescuable, t.disk, t.removed) =
          ((r.children.foldl (childStep p)
              ⟨true, [], { s with rescuable := erase s.rescuable s.artifact.path }⟩).st.rescuable,
           (r.children.foldl (childStep p)
              ⟨true, [], { s with rescuable := erase s.rescuable s.artifact.path }⟩).st.disk,
           (r.children.foldl (childStep p)
              ⟨true, [], { s with rescuable := erase s.rescuable s.artifact.path }⟩).st.removed)) := by
  unfold rescue
  rw [hr]
  simp only [hv, Bool.not_true, Bool.false_eq_true, if_false]
  by_cases h1 : s.artifact.trafo.commands = r.commands
  · rw [if_pos h1]
    have ha := childLoop_artifact p r.children
      ⟨true, [], { s with rescuable := erase s.rescuable s.artifact.path }⟩
    by_cases h2 : ∀ c ∈ r.children, childOk p s.artifact.children c = true
    · have hl := childLoop_ok p r.children
        ⟨true, [], { s with rescuable := erase s.rescuable s.artifact.path }⟩ rfl h2
      have hc := count_spec wf h2
      by_cases h4 : ∀ d ∈ r.fileDependencies, d ∈ p.fileDependencies
      · have hf := ((fileLoop p r.fileDependencies s.artifact.fileDependencies).1).mpr h4
        have h3 : ¬ ∀ i ∈ s.artifact.children, Former p r i :=
          fun h3 => h ((same_iff p _ r).mpr ⟨h1, h2, h3, h4⟩)
        have hne : (r.children.filterMap (missing p s.artifact.children)).length +
            s.artifact.children.length ≠ r.children.length := fun he => h3 (hc.2.mp he)
        simp only [hl, hf, List.nil_append, Bool.and_true, if_true]
        rw [if_neg (by omega), if_pos (by omega)]
        exact ⟨_, rfl, ⟨_, rfl⟩, Or.inl rfl⟩
      · have hf : (fileDependencyLoop p s.artifact.fileDependencies r.fileDependencies).2 = false := by
          cases hb : (fileDependencyLoop p s.artifact.fileDependencies r.fileDependencies).2 with
          | false => rfl
          | true => exact absurd (((fileLoop p r.fileDependencies s.artifact.fileDependencies).1).mp hb) h4
        simp only [hf, Bool.and_false, Bool.false_eq_true, if_false]
        exact ⟨_, rfl, ⟨(fileDependencyLoop p s.artifact.fileDependencies r.fileDependencies).1,
          by simp only [ha]⟩, Or.inr rfl⟩
    · obtain ⟨c, h2⟩ := Classical.not_forall.mp h2
      obtain ⟨hc, hno⟩ := Classical.not_imp.mp h2
      have hb := childLoop_bad p r.children
        ⟨true, [], { s with rescuable := erase s.rescuable s.artifact.path }⟩ c hc (by simpa using hno)
      simp only [hb, Bool.false_and, Bool.false_eq_true, if_false]
      exact ⟨_, rfl, ⟨(fileDependencyLoop p s.artifact.fileDependencies r.fileDependencies).1,
          by simp only [ha]⟩, Or.inr rfl⟩
  · rw [if_neg h1]
    exact ⟨_, rfl, ⟨s.artifact.fileDependencies, rfl⟩, Or.inl rfl⟩

/-- C34: the state of the artifact is rescued exactly if it would be built as before. Then it has the
    old time stamp and what the commands had accessed, and stays marked if it was out of date; no file
    is removed. -/
theorem C34_rescued (p : Project) (circle : Nat → Bool) (s : St) (r : Rad)
    (hr : s.rescuable s.artifact.path = some r) (hv : r.valid = true) (wf : WF p s.artifact r)
    (h : Same p s.artifact r) :
    ∃ s' b, rescue p circle s = some (s', b) ∧
      s'.artifact.timestamp = r.timestamp ∧
      s'.artifact.trafo.accessesCommands = r.accessesCommands ∧
      s'.artifact.trafo.lastCommand = r.lastCommand ∧
      s'.artifact.trafo.commandsNeedChangeTracking = true ∧
      s'.artifact.trafo.markedForRerun = (s.artifact.trafo.markedForRerun || r.knownOutOfDate) ∧
      (∀ i, i ∈ s'.artifact.children ↔ Former p r i ∧ (i ∈ s.artifact.children ∨ circle i = false)) ∧
      (∀ i, i ∈ s'.artifact.byScanner ↔
        i ∈ s.artifact.byScanner ∨ (Former p r i ∧ i ∉ s.artifact.children ∧ circle i = false)) ∧
      (∀ d, d ∈ s'.artifact.fileDependencies ↔
        d ∈ s.artifact.fileDependencies ∨ d ∈ r.fileDependencies) ∧
      (b = true ↔ ∃ i, Former p r i ∧ i ∉ s.artifact.children) ∧
      s'.disk = s.disk ∧ s'.removed = s.removed := by
  refine ⟨_, _, rescue_same hr hv wf h, ?_⟩
  obtain ⟨c1, c2, c3, c4, _, c6⟩ := connectAll_spec circle
    (r.children.filterMap (missing p s.artifact.children))
    { s.artifact with
      fileDependencies := (fileDependencyLoop p s.artifact.fileDependencies r.fileDependencies).1
      timestamp := r.timestamp
      trafo := s.artifact.trafo.rescue r }
  unfold accept
  simp only
  refine ⟨c3, ?_, ?_, ?_, ?_, ?_, ?_, ?_, ?_, by trivial, by trivial⟩
  · rw [c4]; rfl
  · rw [c4]; rfl
  · rw [c4]; rfl
  · rw [c4]; rfl
  · intro i
    rw [c1, mem_missing]
    simp only
    constructor
    · rintro (hi | ⟨⟨_, hf⟩, hc⟩)
      · exact ⟨h.old i hi, Or.inl hi⟩
      · exact ⟨hf, Or.inr hc⟩
    · rintro ⟨hf, hi | hc⟩
      · exact Or.inl hi
      · by_cases hi : i ∈ s.artifact.children
        · exact Or.inl hi
        · exact Or.inr ⟨⟨hi, hf⟩, hc⟩
  · intro i
    rw [c2, mem_missing]
    simp only
    constructor
    · rintro (hi | ⟨⟨hn, hf⟩, hc⟩)
      · exact Or.inl hi
      · exact Or.inr ⟨hf, hn, hc⟩
    · rintro (hi | ⟨hf, hn, hc⟩)
      · exact Or.inl hi
      · exact Or.inr ⟨⟨hn, hf⟩, hc⟩
  · intro d
    rw [c6]
    exact (fileLoop p r.fileDependencies s.artifact.fileDependencies).2 h.files d
  · constructor
    · intro hb
      cases hm : r.children.filterMap (missing p s.artifact.children) with
      | nil => rw [hm] at hb; cases hb
      | cons i l =>
        have : i ∈ r.children.filterMap (missing p s.artifact.children) := by rw [hm]; simp
        exact ⟨i, (mem_missing.mp this).2, (mem_missing.mp this).1⟩
    · rintro ⟨i, hf, hi⟩
      have := mem_missing.mpr ⟨hi, hf⟩
      cases hm : r.children.filterMap (missing p s.artifact.children) with
      | nil => rw [hm] at this; cases this
      | cons _ _ => rfl

/-- C34: otherwise nothing of the old state is taken over and the generated file is removed, so that it is
    built again. -/
theorem C34_not_rescued (p : Project) (circle : Nat → Bool) (s : St) (r : Rad)
    (hr : s.rescuable s.artifact.path = some r) (hv : r.valid = true) (wf : WF p s.artifact r)
    (h : ¬ Same p s.artifact r) :
    ∃ s', rescue p circle s = some (s', false) ∧
      s'.artifact.timestamp = s.artifact.timestamp ∧ s'.artifact.trafo = s.artifact.trafo ∧
      s'.artifact.children = s.artifact.children ∧ s'.artifact.byScanner = s.artifact.byScanner ∧
      (s.artifact.generated = true → s'.disk s.artifact.path = false) ∧
      s.artifact.path ∈ s'.removed := by
  obtain ⟨t, ht, ⟨deps, hd⟩, _⟩ := rescue_other (circle := circle) hr hv wf h
  refine ⟨reject t, ht, ?_⟩
  unfold reject
  simp only [hd]
  refine ⟨by trivial, by trivial, by trivial, by trivial, fun hg => ?_, ?_⟩
  · rw [if_pos hg]
    unfold removeFile
    rw [if_pos rfl]
  · simp

theorem childStep_disk (p : Project) (l : Loop) (c : ChildData) (f : Path)
    (h : (childStep p l c).st.disk f ≠ l.st.disk f) :
    f = c.path ∧ p.lookup c.product c.path = none ∧ (l.st.rescuable f).isSome := by
  obtain ⟨cr, tc, st⟩ := l
  unfold childStep otherChild at h
  simp only at h
  cases hk : p.lookup c.product c.path with
  | some i =>
    rw [hk] at h
    simp only [Option.isSome_some, if_true] at h
    exfalso
    apply h
    cases hb : (some i).any (fun i => st.artifact.children.contains i) <;>
      cases c.addedByScanner <;> cases cr <;> simp
  | none =>
    rw [hk] at h
    simp only [Option.any_none, Bool.false_eq_true, if_false, Option.isSome_none] at h
    cases hs : st.rescuable c.path with
    | none =>
      exfalso
      apply h
      rw [hs]
      cases c.addedByScanner <;> simp
    | some q =>
      by_cases hf : f = c.path
      · rw [hf, hs]; exact ⟨rfl, rfl, rfl⟩
      · exfalso
        apply h
        rw [hs]
        cases hv : q.valid <;> cases c.addedByScanner <;> simp [removeFile, hf, hv]

theorem childStep_rescuable (p : Project) (l : Loop) (c : ChildData) (f : Path)
    (h : ((childStep p l c).st.rescuable f).isSome) : (l.st.rescuable f).isSome := by
  obtain ⟨cr, tc, st⟩ := l
  unfold childStep otherChild at h
  simp only at h
  cases hk : p.lookup c.product c.path with
  | some i =>
    rw [hk] at h
    revert h
    cases hb : (some i).any (fun i => st.artifact.children.contains i) <;>
      cases c.addedByScanner <;> cases cr <;> simp
  | none =>
    rw [hk] at h
    simp only [Option.any_none, Bool.false_eq_true, if_false, Option.isSome_none] at h
    have key : (erase st.rescuable c.path f).isSome → (st.rescuable f).isSome := by
      unfold erase; split <;> simp
    apply key
    revert h
    cases hs : st.rescuable c.path with
    | none => cases c.addedByScanner <;> simp
    | some q => cases hv : q.valid <;> cases c.addedByScanner <;> simp [hv]

/-- C34: the only files that are removed are the artifact itself, and former children that are no artifacts
    anymore and had been built by the product. -/
theorem C34_removes_only (p : Project) (circle : Nat → Bool) (s s' : St) (b : Bool) (f : Path)
    (wf : ∀ r, s.rescuable s.artifact.path = some r → WF p s.artifact r)
    (h : rescue p circle s = some (s', b)) (hf : s'.disk f ≠ s.disk f) :
    f = s.artifact.path ∨
    ∃ r, s.rescuable s.artifact.path = some r ∧ (s.rescuable f).isSome ∧
      ∃ c ∈ r.children, c.path = f ∧ p.lookup c.product c.path = none := by
  cases hr : s.rescuable s.artifact.path with
  | none =>
    unfold rescue at h
    rw [hr] at h
    simp only [Option.some.injEq, Prod.mk.injEq] at h
    rw [← h.1] at hf
    exact absurd rfl hf
  | some r =>
    cases hv : r.valid with
    | false =>
      unfold rescue at h
      rw [hr] at h
      simp only [hv, Bool.not_false, if_true, Option.some.injEq, Prod.mk.injEq] at h
      rw [← h.1] at hf
      exact absurd rfl hf
    | true =>
      by_cases hs : Same p s.artifact r
      · rw [rescue_same hr hv (wf r hr) hs] at h
        simp only [Option.some.injEq, Prod.mk.injEq] at h
        rw [← h.1] at hf
        exact absurd rfl hf
      · obtain ⟨t, ht, ⟨deps, hd⟩, ht2⟩ := rescue_other (circle := circle) hr hv (wf r hr) hs
        rw [h] at ht
        simp only [Option.some.injEq, Prod.mk.injEq] at ht
        by_cases hfp : f = s.artifact.path
        · exact Or.inl hfp
        · right
          rw [ht.1] at hf
          have e : (reject t).disk f = t.disk f := by
            unfold reject
            simp only
            split
            · unfold removeFile; rw [if_neg (by rw [hd]; exact hfp)]
            · rfl
          rw [e] at hf
          rcases ht2 with ht2 | ht2
          · simp only [Prod.mk.injEq] at ht2
            rw [ht2.2.1] at hf
            exact absurd rfl hf
          · simp only [Prod.mk.injEq] at ht2
            rw [ht2.2.1] at hf
            have key : ∀ (cs : List ChildData) (l : Loop),
                (cs.foldl (childStep p) l).st.disk f ≠ l.st.disk f →
                (l.st.rescuable f).isSome ∧ ∃ c ∈ cs, c.path = f ∧ p.lookup c.product c.path = none := by
              intro cs
              induction cs with
              | nil => intro l h; exact absurd rfl h
              | cons c cs ih =>
                intro l h
                rw [List.foldl_cons] at h
                by_cases h1 : (childStep p l c).st.disk f = l.st.disk f
                · rw [← h1] at h
                  obtain ⟨i1, d, hd, i2⟩ := ih _ h
                  exact ⟨childStep_rescuable p l c f i1, d, by simp [hd], i2⟩
                · obtain ⟨i1, i2, i3⟩ := childStep_disk p l c f h1
                  exact ⟨i3, c, by simp, i1.symm, i2⟩
            obtain ⟨k1, k2⟩ := key _ _ hf
            refine ⟨r, rfl, ?_, k2⟩
            unfold erase at k1
            simp only [hfp, if_false] at k1
            exact k1

/-- C34: the check of the number of children never fails. -/
theorem C34_no_assertion (p : Project) (circle : Nat → Bool) (s : St)
    (wf : ∀ r, s.rescuable s.artifact.path = some r → WF p s.artifact r) :
    (rescue p circle s).isSome = true := by
  cases hr : s.rescuable s.artifact.path with
  | none => unfold rescue; rw [hr]; rfl
  | some r =>
    cases hv : r.valid with
    | false => unfold rescue; rw [hr]; simp [hv]
    | true =>
      by_cases hs : Same p s.artifact r
      · rw [rescue_same hr hv (wf r hr) hs]; rfl
      · obtain ⟨t, ht, _⟩ := rescue_other (circle := circle) hr hv (wf r hr) hs
        rw [ht]; rfl

theorem childStep_none (p : Project) (l : Loop) (c : ChildData) (f : Path)
    (h : l.st.rescuable f = none) : (childStep p l c).st.rescuable f = none := by
  cases hc : (childStep p l c).st.rescuable f with
  | none => rfl
  | some q =>
    have := childStep_rescuable p l c f (by rw [hc]; rfl)
    rw [h] at this; cases this

/-- C34: kept data is used at most once: after the attempt it is gone, and another attempt changes nothing. -/
theorem C34_used_once (p : Project) (circle circle' : Nat → Bool) (s s' : St) (b : Bool)
    (wf : ∀ r, s.rescuable s.artifact.path = some r → WF p s.artifact r)
    (h : rescue p circle s = some (s', b)) :
    s'.rescuable s.artifact.path = none ∧ rescue p circle' s' = some (s', false) := by
  have main : s'.rescuable s.artifact.path = none ∧ s'.artifact.path = s.artifact.path := by
    cases hr : s.rescuable s.artifact.path with
    | none =>
      unfold rescue at h
      rw [hr] at h
      simp only [Option.some.injEq, Prod.mk.injEq] at h
      rw [← h.1]
      exact ⟨hr, rfl⟩
    | some r =>
      have her : erase s.rescuable s.artifact.path s.artifact.path = none := by unfold erase; rw [if_pos rfl]
      cases hv : r.valid with
      | false =>
        unfold rescue at h
        rw [hr] at h
        simp only [hv, Bool.not_false, if_true, Option.some.injEq, Prod.mk.injEq] at h
        rw [← h.1]
        exact ⟨her, rfl⟩
      | true =>
        by_cases hs : Same p s.artifact r
        · rw [rescue_same hr hv (wf r hr) hs] at h
          simp only [Option.some.injEq, Prod.mk.injEq] at h
          rw [← h.1]
          exact ⟨her, (connectAll_spec circle _ _).2.2.2.2.1⟩
        · obtain ⟨t, ht, ⟨deps, hd⟩, ht2⟩ := rescue_other (circle := circle) hr hv (wf r hr) hs
          rw [h] at ht
          simp only [Option.some.injEq, Prod.mk.injEq] at ht
          rw [ht.1]
          refine ⟨?_, by show t.artifact.path = _; rw [hd]⟩
          show t.rescuable s.artifact.path = none
          rcases ht2 with ht2 | ht2
          · simp only [Prod.mk.injEq] at ht2
            rw [ht2.1]; exact her
          · simp only [Prod.mk.injEq] at ht2
            rw [ht2.1]
            have key : ∀ (cs : List ChildData) (l : Loop), l.st.rescuable s.artifact.path = none →
                (cs.foldl (childStep p) l).st.rescuable s.artifact.path = none := by
              intro cs
              induction cs with
              | nil => intro l h; exact h
              | cons c cs ih => intro l h; exact ih _ (childStep_none p l c _ h)
            exact key _ _ her
  refine ⟨main.1, ?_⟩
  unfold rescue
  rw [main.2, main.1]

/-! ## Keeping and rescuing -/

theorem keepData_spec (key : Nat → String × Path) (ex : Path → Bool) :
    ∀ (as : List Artifact) (existing : Path → Option Rad), (as.map (·.path)).Nodup →
    (∀ a ∈ as, ex a.path = false → keepData key ex existing as a.path = some (toRad a key)) ∧
    (∀ q, q ∉ as.map (·.path) → keepData key ex existing as q = existing q)
  | [], existing, _ => ⟨(fun a h => by cases h), fun q _ => rfl⟩
  | b :: as, existing, hn => by
    rw [List.map_cons, List.nodup_cons] at hn
    obtain ⟨h1, h2⟩ := keepData_spec key ex as
      (if ex b.path then existing
       else fun q => if q = b.path then some (toRad b key) else existing q) hn.2
    constructor
    · intro a ha hx
      rcases List.mem_cons.mp ha with rfl | ha
      · unfold keepData
        rw [h2 _ hn.1, if_neg (by simp [hx])]
        simp
      · exact h1 a ha hx
    · intro q hq
      simp only [List.map_cons, List.mem_cons, not_or] at hq
      unfold keepData
      rw [h2 q hq.2]
      split
      · rfl
      · exact if_neg hq.1

/-- C34, the whole way: a product is set up again, and a rule makes the artifact `a` that has the commands of
    the old artifact `o` of the same path; the old children still exist (`now` are their identifiers now), all
    but those found by scanners are children again, and the file dependencies are still known. Then it gets
    its state back: the time stamp, what the commands accessed and when they ran, and all children. -/
theorem C34_unchanged_artifact_keeps_state (p : Project) (circle : Nat → Bool) (key : Nat → String × Path)
    (existsNow : Path → Bool) (existing : Path → Option Rad) (old : List Artifact)
    (o : Artifact) (now : Nat → Nat) (s : St)
    (hold : (old.map (·.path)).Nodup) (ho : o ∈ old) (hnew : existsNow o.path = false)
    (hkept : s.rescuable = keepData key existsNow existing old)
    (hpath : s.artifact.path = o.path)
    (hcmd : s.artifact.trafo.commands = o.trafo.commands)
    (hids : (p.artifacts.map (·.1)).Nodup) (hch : s.artifact.children.Nodup) (hoc : o.children.Nodup)
    (hkey : ∀ c ∈ o.children, ∀ d ∈ o.children, key c = key d → c = d)
    (hnow : ∀ c ∈ o.children, p.lookup (key c).1 (key c).2 = some (now c))
    (hchild : ∀ i, i ∈ s.artifact.children ↔ ∃ c ∈ o.children, c ∉ o.byScanner ∧ now c = i)
    (hfiles : ∀ d ∈ o.fileDependencies, d ∈ p.fileDependencies)
    (hcirc : ∀ c ∈ o.children, circle (now c) = false) :
    ∃ s' b, rescue p circle s = some (s', b) ∧
      s'.artifact.timestamp = o.timestamp ∧
      s'.artifact.trafo.accessesCommands = o.trafo.accessesCommands ∧
      s'.artifact.trafo.lastCommand = o.trafo.lastCommand ∧
      (o.trafo.markedForRerun = true → s'.artifact.trafo.markedForRerun = true) ∧
      (∀ i, i ∈ s'.artifact.children ↔ ∃ c ∈ o.children, now c = i) ∧
      (∀ c ∈ o.children, c ∈ o.byScanner → now c ∈ s'.artifact.byScanner) ∧
      (o.children ≠ [] → ∀ d ∈ o.fileDependencies, d ∈ s'.artifact.fileDependencies) ∧
      s'.disk = s.disk := by
  have hr : s.rescuable s.artifact.path = some (toRad o key) := by
    rw [hkept, hpath]
    exact (keepData_spec key existsNow old existing hold).1 o ho hnew
  have hformer : ∀ i, Former p (toRad o key) i ↔ ∃ c ∈ o.children, now c = i := by
    intro i
    constructor
    · rintro ⟨cd, hcd, hl⟩
      obtain ⟨c, hc, rfl⟩ := List.mem_map.mp hcd
      rw [hnow c hc] at hl
      exact ⟨c, hc, by simpa using hl⟩
    · rintro ⟨c, hc, rfl⟩
      exact ⟨_, List.mem_map.mpr ⟨c, hc, rfl⟩, hnow c hc⟩
  have hwf : WF p s.artifact (toRad o key) := by
    refine ⟨hids, ?_, hch⟩
    have : ((toRad o key).children.map (fun c => (c.product, c.path))) = o.children.map key := by
      unfold toRad
      simp only [List.map_map]
      rfl
    rw [this]
    have aux : ∀ l : List Nat, l.Nodup → (∀ c ∈ l, ∀ d ∈ l, key c = key d → c = d) → (l.map key).Nodup := by
      intro l
      induction l with
      | nil => intro _ _; exact List.nodup_nil
      | cons x l ih =>
        intro hn hi
        rw [List.nodup_cons] at hn
        rw [List.map_cons, List.nodup_cons]
        refine ⟨?_, ih hn.2 (fun c hc d hd => hi c (by simp [hc]) d (by simp [hd]))⟩
        intro hm
        obtain ⟨y, hy, he⟩ := List.mem_map.mp hm
        have := hi y (by simp [hy]) x (by simp) he
        exact hn.1 (this ▸ hy)
    exact aux _ hoc hkey
  have hsame : Same p s.artifact (toRad o key) := by
    refine ⟨hcmd, ?_, ?_, ?_⟩
    · intro cd hcd
      obtain ⟨c, hc, rfl⟩ := List.mem_map.mp hcd
      refine ⟨now c, hnow c hc, ?_⟩
      by_cases hb : c ∈ o.byScanner
      · exact Or.inr (by simpa using hb)
      · exact Or.inl ((hchild _).mpr ⟨c, hc, hb, rfl⟩)
    · intro i hi
      obtain ⟨c, hc, _, he⟩ := (hchild i).mp hi
      exact (hformer i).mpr ⟨c, hc, he⟩
    · intro d hd
      unfold toRad at hd
      simp only [List.mem_flatten, List.mem_map] at hd
      obtain ⟨l, ⟨_, _, rfl⟩, hd⟩ := hd
      exact hfiles d hd
  obtain ⟨s', b, h1, h2, h3, h4, _, h6, h7, h8, h9, _, h10, _⟩ :=
    C34_rescued p circle s (toRad o key) hr rfl hwf hsame
  refine ⟨s', b, h1, h2, h3, h4, ?_, ?_, ?_, ?_, h10⟩
  · intro hm
    rw [h6]
    have : (toRad o key).knownOutOfDate = true := hm
    rw [this, Bool.or_true]
  · intro i
    rw [h7, hformer]
    constructor
    · exact fun h => h.1
    · rintro ⟨c, hc, rfl⟩
      exact ⟨⟨c, hc, rfl⟩, Or.inr (hcirc c hc)⟩
  · intro c hc hb
    rw [h8]
    by_cases hi : now c ∈ s.artifact.children
    · -- another child would be at the same place
      obtain ⟨d, hd, hdb, he⟩ := (hchild _).mp hi
      have h1 := hnow c hc
      have h2 := hnow d hd
      rw [he] at h2
      have := hkey c hc d hd (lookup_injective hids h1 h2)
      subst this
      exact absurd hb hdb
    · exact Or.inr ⟨(hformer _).mpr ⟨c, hc, rfl⟩, hi, hcirc c hc⟩
  · intro hne d hd
    rw [h9]
    right
    unfold toRad
    simp only [List.mem_flatten, List.mem_map]
    obtain ⟨c, hc⟩ := List.exists_mem_of_ne_nil _ hne
    exact ⟨_, ⟨c, hc, rfl⟩, hd⟩

/-! ## Cases -/

def trafo : Trafo := ⟨["cc a.cpp"], "p", "", 20, 0, false, false⟩
def oldTrafo : Trafo := ⟨["cc a.cpp"], "p", "accesses", 10, 11, true, false⟩
/-- 1: the source, 2: a header of the product, found by the scanner. -/
def oldObject : Artifact := ⟨"/b/a.o", true, 12, [1, 2], [2], ["/usr/include/x.h"], oldTrafo⟩
def newObject : Artifact := ⟨"/b/a.o", true, 0, [11], [], [], trafo⟩
def key : Nat → String × Path := fun n => if n = 1 then ("lib", "/s/a.cpp") else ("lib", "/s/a.h")
def project : Project := ⟨[(11, "lib", "/s/a.cpp"), (12, "lib", "/s/a.h"), (13, "app", "/s/a.h")],
  ["/usr/include/x.h"]⟩
def start : St := ⟨newObject, keepData key (fun _ => false) (fun _ => none) [oldObject], fun _ => true, []⟩

/-- It meets the conditions of `C34_unchanged_artifact_keeps_state`. -/
example : (rescue project (fun _ => false) start).map (fun x => (x.1.artifact, x.2, x.1.removed)) =
    some (⟨"/b/a.o", true, 12, [11, 12], [12], ["/usr/include/x.h"],
      ⟨["cc a.cpp"], "p", "accesses", 20, 11, true, false⟩⟩, true, []) := by decide +kernel

example : (∀ c ∈ oldObject.children, project.lookup (key c).1 (key c).2 = some (c + 10)) ∧
    (∀ c ∈ oldObject.children, ∀ d ∈ oldObject.children, key c = key d → c = d) ∧
    (project.artifacts.map (·.1)).Nodup := by decide +kernel

/-- The header is gone: not rescued. -/
example : (rescue { project with artifacts := [(11, "lib", "/s/a.cpp")] } (fun _ => false) start).map
    (fun x => (x.1.artifact.timestamp, x.2, x.1.removed, x.1.disk "/b/a.o")) =
    some (0, false, ["/b/a.o"], false) := by decide +kernel

/-- An object file that depended on a generated header that is not generated anymore. -/
def vanished : St :=
  ⟨{ newObject with path := "/b/x.o" },
   fun q => if q = "/b/x.o" then
       some ⟨5, [⟨"lib", "/s/a.cpp", false⟩, ⟨"lib", "/b/gen/g.h", true⟩], [], false, "", "", ["cc a.cpp"],
         1, 2, true⟩
     else if q = "/b/gen/g.h" then some ⟨5, [], [], false, "", "", ["gen"], 1, 2, true⟩ else none,
   fun _ => true, []⟩

/-- **C34 finding.** When a generated former child is removed because it does not exist anymore, the path that
    is recorded as removed is the one of the artifact, not of the removed file, so directories that
    become empty by this stay. -/
theorem C34_wrong_path_recorded :
    ∃ (p : Project) (s s' : St) (f : Path), rescue p (fun _ => false) s = some (s', false) ∧
      (∀ r, s.rescuable s.artifact.path = some r → WF p s.artifact r) ∧
      s.disk f = true ∧ s'.disk f = false ∧ f ∉ s'.removed := by
  have h : (rescue ⟨[(11, "lib", "/s/a.cpp")], []⟩ (fun _ => false) vanished).map
      (fun x => (x.2, x.1.disk "/b/gen/g.h", x.1.removed)) = some (false, false, ["/b/x.o", "/b/x.o"]) := by
    decide +kernel
  cases hx : rescue ⟨[(11, "lib", "/s/a.cpp")], []⟩ (fun _ => false) vanished with
  | none => rw [hx] at h; cases h
  | some x =>
    rw [hx] at h
    simp only [Option.map_some, Option.some.injEq, Prod.mk.injEq] at h
    refine ⟨_, vanished, x.1, "/b/gen/g.h", by rw [hx, ← h.1], ?_, rfl, h.2.1, ?_⟩
    · intro r hr
      have : vanished.rescuable vanished.artifact.path = some ⟨5, [⟨"lib", "/s/a.cpp", false⟩,
        ⟨"lib", "/b/gen/g.h", true⟩], [], false, "", "", ["cc a.cpp"], 1, 2, true⟩ := by decide +kernel
      rw [this] at hr
      injection hr with hr
      subst hr
      exact ⟨by decide +kernel, by decide +kernel, by decide +kernel⟩
    · rw [h.2.2]; decide +kernel

end Verif.Rescue
