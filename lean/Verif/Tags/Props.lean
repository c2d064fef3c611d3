import Verif.Tags.LemHeap
/-! # Theorems: C95, C96, C97 -/
namespace Verif.Tags

variable {P : Type}

/-! ## Tags from groups -/

theorem snoc_ind {α : Type} {motive : List α → Prop} (nil : motive [])
    (snoc : ∀ l a, motive l → motive (l ++ [a])) (l : List α) : motive l := by
  rw [← List.reverse_reverse l]
  induction l.reverse with
  | nil => exact nil
  | cons a l ih => rw [List.reverse_cons]; exact snoc _ _ ih

theorem mem_tagsOf (ch : List GData) (t : String) : t ∈ tagsOf ch ↔
    ∃ outer g inner, ch = outer ++ g :: inner ∧ OwnTag g t ∧ ∀ h ∈ inner, ¬ Replaces h := by
  induction ch using snoc_ind with
  | nil =>
    constructor
    · intro h; simp [tagsOf] at h
    · rintro ⟨o, g, i, h, _⟩; simp at h
  | snoc ch d ih =>
    rw [tagsOf_snoc]
    unfold stepTags
    have hown : ∀ t, OwnTag d t → ∃ outer g inner, ch ++ [d] = outer ++ g :: inner ∧ OwnTag g t ∧
        ∀ h ∈ inner, ¬ Replaces h := fun t h => ⟨ch, d, [], rfl, h, by simp⟩
    by_cases hr : (d.overrideTags && d.tagsSet) = true
    · rw [if_pos hr]
      have hR : Replaces d := by simpa [Replaces] using hr
      constructor
      · intro h
        apply hown
        split at h
        · rename_i he
          exact Or.inr ⟨hR, he, by simpa [unknownTag] using h⟩
        · exact Or.inl h
      · rintro ⟨o, g, i, he, ho, hi⟩
        have hlast : i = [] := by
          cases hh : i.reverse with
          | nil => simpa using hh
          | cons x xs =>
            exfalso
            have hi' : i = xs.reverse ++ [x] := by
              have := congrArg List.reverse hh; simpa using this
            rw [hi', ← List.cons_append, ← List.append_assoc] at he
            have := (List.append_inj' he rfl).2
            simp only [List.cons.injEq, and_true] at this
            exact hi x (by rw [hi']; simp) (this ▸ hR)
        subst hlast
        have := (List.append_inj' he rfl).2
        simp only [List.cons.injEq, and_true] at this
        subst this
        rcases ho with ho | ⟨_, h1, h2⟩
        · have : d.tags ≠ [] := by intro h'; rw [h'] at ho; simp at ho
          rw [if_neg this]; exact ho
        · rw [if_pos h1, h2]; simp [unknownTag]
    · rw [if_neg hr, mem_unite, ih]
      have hR : ¬ Replaces d := by
        intro h; apply hr; simp [h.1, h.2]
      constructor
      · rintro (h | ⟨o, g, i, he, ho, hi⟩)
        · exact hown t (Or.inl h)
        · refine ⟨o, g, i ++ [d], by rw [he]; simp, ho, ?_⟩
          intro h hh
          rcases List.mem_append.1 hh with hh | hh
          · exact hi h hh
          · rw [List.mem_singleton] at hh; rw [hh]; exact hR
      · rintro ⟨o, g, i, he, ho, hi⟩
        cases hh : i.reverse with
        | nil =>
          have hi0 : i = [] := by simpa using hh
          subst hi0
          have := (List.append_inj' he rfl).2
          simp only [List.cons.injEq, and_true] at this
          subst this
          rcases ho with ho | ⟨h1, _⟩
          · exact Or.inl ho
          · exact absurd h1 hR
        | cons x xs =>
          have hi' : i = xs.reverse ++ [x] := by
            have := congrArg List.reverse hh; simpa using this
          rw [hi', ← List.cons_append, ← List.append_assoc] at he
          obtain ⟨h1, h2⟩ := List.append_inj' he rfl
          refine Or.inr ⟨o, g, xs.reverse, h1, ho, ?_⟩
          intro h hm
          exact hi h (by rw [hi']; exact List.mem_append_left _ hm)

theorem hasTag_iff (c : Place) (t : String) : t ∈ tagsOf c.path ↔ HasTag c t := mem_tagsOf _ _

theorem preOf_eq (c : Place) : preOf c.path = prefixOf c := by
  unfold prefixOf
  generalize c.path = ch
  induction ch using snoc_ind with
  | nil => rfl
  | snoc ch d ih =>
    rw [preOf_snoc, List.reverse_append, List.reverse_cons, List.reverse_nil, List.nil_append,
      List.singleton_append, List.findSome?_cons]
    unfold stepPre
    cases d.pre with
    | some p => rfl
    | none => simpa using ih

theorem fileList_eq (e : Env P) (c : Place) : fileList e (preOf c.path) c.d = filesOf e c := by
  rw [preOf_eq]
  unfold fileList filesOf expandedOf plainOf patternsOf
  congr 1
  · by_cases h : c.d.files.all (fun f => !e.isPattern f) = true
    · rw [if_pos h, if_pos]
      · rfl
      · rw [List.reverse_eq_nil_iff, List.filter_eq_nil_iff]
        rw [List.all_eq_true] at h
        intro f hf; simpa using h f hf
    · rw [if_neg h, if_neg]
      intro h'
      apply h
      rw [List.reverse_eq_nil_iff, List.filter_eq_nil_iff] at h'
      rw [List.all_eq_true]
      intro f hf; simpa using h' f hf
  · rw [List.map_map]; rfl

/-! ## Tags from file taggers -/

theorem tagsLoop_some (e : Env P) (name : String) (q : Int) : ∀ (ts : List Tagger)
    (acc : List String), ts.Pairwise (fun a b => b.priority ≤ a.priority) →
    (∀ u ∈ ts, u.priority ≤ q) → ∀ t, t ∈ tagsLoop e name ts (some q) acc ↔
      t ∈ acc ∨ ∃ u ∈ ts, Covers e u name ∧ t ∈ u.tags ∧ u.priority = q := by
  intro ts
  induction ts with
  | nil => intro acc _ _ t; simp [tagsLoop]
  | cons u ts ih =>
    intro acc hs hq t
    rw [List.pairwise_cons] at hs
    rw [tagsLoop]
    by_cases hc : u.patterns.any (fun p => e.matches_ p name) = true
    · rw [if_pos hc]
      have hcov : Covers e u name := by simpa [Covers] using hc
      by_cases hp : q = u.priority
      · rw [if_neg (by simp [hp]), ih _ hs.2 (fun v hv => hq v (List.mem_cons_of_mem _ hv)), mem_unite]
        constructor
        · rintro ((h | h) | ⟨v, hv, h⟩)
          · exact Or.inl h
          · exact Or.inr ⟨u, List.mem_cons_self, hcov, h, hp.symm⟩
          · exact Or.inr ⟨v, List.mem_cons_of_mem _ hv, h⟩
        · rintro (h | ⟨v, hv, h⟩)
          · exact Or.inl (Or.inl h)
          · rcases List.mem_cons.1 hv with rfl | hv
            · exact Or.inl (Or.inr h.2.1)
            · exact Or.inr ⟨v, hv, h⟩
      · rw [if_pos hp]
        constructor
        · intro h; exact Or.inl h
        · rintro (h | ⟨v, hv, _, _, h⟩)
          · exact h
          · exfalso
            have h1 := hq u List.mem_cons_self
            rcases List.mem_cons.1 hv with rfl | hv
            · exact hp h.symm
            · have := hs.1 v hv; omega
    · rw [if_neg hc, ih _ hs.2 (fun v hv => hq v (List.mem_cons_of_mem _ hv))]
      have hcov : ¬ Covers e u name := by
        intro h; apply hc; simpa [Covers] using h
      constructor
      · rintro (h | ⟨v, hv, h⟩)
        · exact Or.inl h
        · exact Or.inr ⟨v, List.mem_cons_of_mem _ hv, h⟩
      · rintro (h | ⟨v, hv, h⟩)
        · exact Or.inl h
        · rcases List.mem_cons.1 hv with rfl | hv
          · exact absurd h.1 hcov
          · exact Or.inr ⟨v, hv, h⟩

theorem tagsLoop_none (e : Env P) (name : String) : ∀ (ts : List Tagger),
    ts.Pairwise (fun a b => b.priority ≤ a.priority) →
    ∀ t, t ∈ tagsLoop e name ts none [] ↔ TaggerTag e ts name t := by
  intro ts
  induction ts with
  | nil => intro _ t; simp [tagsLoop, TaggerTag]
  | cons u ts ih =>
    intro hs t
    rw [List.pairwise_cons] at hs
    rw [tagsLoop]
    by_cases hc : u.patterns.any (fun p => e.matches_ p name) = true
    · rw [if_pos hc]
      have hcov : Covers e u name := by simpa [Covers] using hc
      rw [tagsLoop_some e name u.priority ts _ hs.2 (fun v hv => hs.1 v hv), mem_unite]
      constructor
      · rintro ((h | h) | ⟨v, hv, h1, h2, h3⟩)
        · simp at h
        · refine ⟨u, List.mem_cons_self, hcov, h, ?_⟩
          intro w hw _
          rcases List.mem_cons.1 hw with rfl | hw
          · exact Int.le_refl _
          · exact hs.1 w hw
        · refine ⟨v, List.mem_cons_of_mem _ hv, h1, h2, ?_⟩
          intro w hw _
          rw [h3]
          rcases List.mem_cons.1 hw with rfl | hw
          · exact Int.le_refl _
          · exact hs.1 w hw
      · rintro ⟨v, hv, h1, h2, h3⟩
        rcases List.mem_cons.1 hv with rfl | hv
        · exact Or.inl (Or.inr h2)
        · refine Or.inr ⟨v, hv, h1, h2, ?_⟩
          have a := h3 u List.mem_cons_self hcov
          have b := hs.1 v hv
          omega
    · rw [if_neg hc, ih hs.2]
      have hcov : ¬ Covers e u name := by
        intro h; apply hc; simpa [Covers] using h
      constructor
      · rintro ⟨v, hv, h1, h2, h3⟩
        refine ⟨v, List.mem_cons_of_mem _ hv, h1, h2, ?_⟩
        intro w hw hcw
        rcases List.mem_cons.1 hw with rfl | hw
        · exact absurd hcw hcov
        · exact h3 w hw hcw
      · rintro ⟨v, hv, h1, h2, h3⟩
        rcases List.mem_cons.1 hv with rfl | hv
        · exact absurd h1 hcov
        · exact ⟨v, hv, h1, h2, fun w hw hcw => h3 w (List.mem_cons_of_mem _ hw) hcw⟩

theorem taggerTag_perm (e : Env P) {ts ts' : List Tagger} (h : ts.Perm ts') (name t : String) :
    TaggerTag e ts name t ↔ TaggerTag e ts' name t := by
  unfold TaggerTag
  constructor
  · rintro ⟨u, hu, h1, h2, h3⟩
    exact ⟨u, h.mem_iff.1 hu, h1, h2, fun v hv => h3 v (h.mem_iff.2 hv)⟩
  · rintro ⟨u, hu, h1, h2, h3⟩
    exact ⟨u, h.mem_iff.2 hu, h1, h2, fun v hv => h3 v (h.mem_iff.1 hv)⟩

/-- **C95.** The tags that file taggers give to a file name are those of all taggers with a matching
pattern of the highest priority, however the sorting orders taggers of the same priority. -/
theorem C95_taggers (e : Env P) (hs : SortOk e) (ts : List Tagger) (name t : String) :
    t ∈ tagsForFileName e (e.sort ts) name ↔ TaggerTag e ts name t := by
  unfold tagsForFileName
  rw [tagsLoop_none e name _ (hs ts).2, taggerTag_perm e (hs ts).1]

theorem applyTaggersTo_spec (e : Env P) (hs : SortOk e) (ts : List Tagger) (c : Place) (a : Art)
    (h1 : a.tags = tagsOf c.path) (h2 : a.overrideTags = c.d.overrideTags) (t : String) :
    t ∈ (applyTaggersTo e (e.sort ts) a).tags ↔ FileTag e ts c a.path t := by
  have hmem : ∀ t, t ∈ a.tags ↔ HasTag c t := fun t => by rw [h1]; exact hasTag_iff c t
  have hemp : a.tags = [] ↔ ¬ ∃ u, HasTag c u := by
    constructor
    · rintro h ⟨u, hu⟩; rw [← hmem, h] at hu; simp at hu
    · intro h
      cases ht : a.tags with
      | nil => rfl
      | cons x xs => exact absurd ⟨x, (hmem x).1 (by rw [ht]; simp)⟩ h
  unfold applyTaggersTo
  by_cases hc : (!a.overrideTags || a.tags.isEmpty) = true
  · rw [if_pos hc]
    have hcond : c.d.overrideTags = false ∨ ¬ ∃ u, HasTag c u := by
      rw [Bool.or_eq_true] at hc
      rcases hc with h | h
      · left; rw [← h2]; simpa using h
      · right; exact hemp.1 (by simpa using h)
    simp only
    have hu : ∀ t, t ∈ unite a.tags (tagsForFileName e (e.sort ts) (e.fileName a.path)) ↔
        HasTag c t ∨ TaggerTag e ts (e.fileName a.path) t := by
      intro t; rw [mem_unite, hmem, C95_taggers e hs]
    by_cases hn : unite a.tags (tagsForFileName e (e.sort ts) (e.fileName a.path)) = []
    · have h0 : ∀ u, ¬ (HasTag c u ∨ TaggerTag e ts (e.fileName a.path) u) := by
        intro u hu'; rw [← hu, hn] at hu'; simp at hu'
      rw [if_pos (by rw [hn]; rfl)]
      simp only [unknownTag, List.mem_singleton]
      constructor
      · intro h
        exact Or.inr ⟨hcond, Or.inr ⟨fun ⟨u, hu'⟩ => h0 u (Or.inl hu'),
          fun ⟨u, hu'⟩ => h0 u (Or.inr hu'), h⟩⟩
      · rintro (h | ⟨_, h | ⟨_, _, h⟩⟩)
        · exact absurd (Or.inl h) (h0 t)
        · exact absurd (Or.inr h) (h0 t)
        · exact h
    · rw [if_neg (by simpa using hn), hu]
      constructor
      · rintro (h | h)
        · exact Or.inl h
        · exact Or.inr ⟨hcond, Or.inl h⟩
      · rintro (h | ⟨_, h | ⟨h1, h2, _⟩⟩)
        · exact Or.inl h
        · exact Or.inr h
        · exfalso
          apply hn
          rw [List.eq_nil_iff_forall_not_mem]
          intro u hu'
          rcases (hu u).1 hu' with h | h
          · exact h1 ⟨u, h⟩
          · exact h2 ⟨u, h⟩
  · rw [if_neg hc, hmem]
    have hcond : ¬ (c.d.overrideTags = false ∨ ¬ ∃ u, HasTag c u) := by
      rintro (h | h)
      · apply hc; rw [h2, h]; rfl
      · apply hc; rw [hemp.2 h]; simp
    constructor
    · intro h; exact Or.inl h
    · rintro (h | h)
      · exact h
      · exact absurd h.1 hcond

/-! ## Groups with filters -/

theorem applies_zero (own : String → Prop) (d : GData) (ds : List GData) :
    Applies own (d :: ds) 0 ↔ ∃ t, t ∈ d.filter ∧ own t := by
  constructor
  · intro h
    cases h with
    | own h1 h2 h3 => simp only [List.getElem?_cons_zero, Option.some.injEq] at h1; subst h1; exact ⟨_, h2, h3⟩
    | added _ _ h3 => omega
  · rintro ⟨t, h1, h2⟩
    exact .own rfl h1 h2

/-- The tags after the first group with a filter. -/
def ownNext (own : String → Prop) (d : GData) (ds : List GData) (t : String) : Prop :=
  own t ∨ (Applies own (d :: ds) 0 ∧ t ∈ d.tags)

theorem applies_succ (own : String → Prop) (d : GData) (ds : List GData) (i : Nat) :
    Applies own (d :: ds) (i + 1) ↔ Applies (ownNext own d ds) ds i := by
  constructor
  · intro h
    generalize hk : i + 1 = k at h
    induction h generalizing i with
    | own h1 h2 h3 =>
      subst hk
      rw [List.getElem?_cons_succ] at h1
      exact .own h1 h2 (Or.inl h3)
    | @added k j d1 d2 t h1 h2 h3 h4 h5 h6 ih =>
      subst hk
      rw [List.getElem?_cons_succ] at h1
      cases j with
      | zero =>
        simp only [List.getElem?_cons_zero, Option.some.injEq] at h5
        subst h5
        exact .own h1 h2 (Or.inr ⟨h4, h6⟩)
      | succ j =>
        rw [List.getElem?_cons_succ] at h5
        exact .added h1 h2 (by omega) (ih j rfl) h5 h6
  · intro h
    induction h with
    | own h1 h2 h3 =>
      rcases h3 with h3 | ⟨h3, h4⟩
      · exact .own (by rw [List.getElem?_cons_succ]; exact h1) h2 h3
      · exact .added (by rw [List.getElem?_cons_succ]; exact h1) h2 (Nat.succ_pos _) h3 rfl h4
    | added h1 h2 h3 _ h5 h6 ih =>
      exact .added (by rw [List.getElem?_cons_succ]; exact h1) h2 (Nat.succ_lt_succ h3) ih
        (by rw [List.getElem?_cons_succ]; exact h5) h6

theorem filtered_cons (own : String → Prop) (d : GData) (ds : List GData) (t : String) :
    Filtered own (d :: ds) t ↔ Filtered (ownNext own d ds) ds t := by
  unfold Filtered
  constructor
  · rintro (h | ⟨i, d1, h1, h2, h3⟩)
    · exact Or.inl (Or.inl h)
    · cases i with
      | zero =>
        simp only [List.getElem?_cons_zero, Option.some.injEq] at h2
        subst h2
        exact Or.inl (Or.inr ⟨h1, h3⟩)
      | succ i =>
        rw [List.getElem?_cons_succ] at h2
        exact Or.inr ⟨i, d1, (applies_succ own d ds i).1 h1, h2, h3⟩
  · rintro ((h | ⟨h1, h2⟩) | ⟨i, d1, h1, h2, h3⟩)
    · exact Or.inl h
    · exact Or.inr ⟨0, d, h1, rfl, h2⟩
    · exact Or.inr ⟨i + 1, d1, (applies_succ own d ds i).2 h1,
        by rw [List.getElem?_cons_succ]; exact h2, h3⟩

def fOf (d : GData) : List String × List String × Nat := (d.filter, d.tags, d.id)

theorem intersects_own (tags : List String) (d : GData) (ds : List GData) :
    intersects tags d.filter = true ↔ Applies (· ∈ tags) (d :: ds) 0 := by
  rw [intersects_iff, applies_zero]
  constructor
  · rintro ⟨t, h1, h2⟩; exact ⟨t, h2, h1⟩
  · rintro ⟨t, h1, h2⟩; exact ⟨t, h2, h1⟩

theorem ownNext_eq (tags : List String) (d : GData) (ds : List GData) :
    ownNext (· ∈ tags) d ds =
      (· ∈ (if intersects tags d.filter then unite tags d.tags else tags)) := by
  funext t
  apply propext
  unfold ownNext
  rw [← intersects_own]
  by_cases h : intersects tags d.filter = true
  · rw [if_pos h, mem_unite]; simp [h]
  · rw [if_neg h]; simp [h]

theorem applyFilters_tags (e : Env P) : ∀ (fs : List GData) (p : P) (tags : List String)
    (t : String), t ∈ (applyFilters e (fs.map fOf) p tags).2 ↔ Filtered (· ∈ tags) fs t := by
  intro fs
  induction fs with
  | nil =>
    intro p tags t
    simp only [List.map_nil, applyFilters, Filtered]
    constructor
    · intro h; exact Or.inl h
    · rintro (h | ⟨i, d, _, h, _⟩)
      · exact h
      · simp at h
  | cons d fs ih =>
    intro p tags t
    rw [List.map_cons, filtered_cons, ownNext_eq]
    show t ∈ (applyFilters e ((d.filter, d.tags, d.id) :: fs.map fOf) p tags).2 ↔ _
    rw [applyFilters]
    by_cases h : intersects tags d.filter = true
    · rw [if_pos h, if_pos h]; exact ih _ _ t
    · rw [if_neg h, if_neg h]; exact ih _ _ t

theorem selected_shift (e : Env P) (sel : Nat → Bool) : ∀ (ds : List GData) (i : Nat) (p : P),
    selected e sel (i + 1) ds p = selected e (fun k => sel (k + 1)) i ds p := by
  intro ds
  induction ds with
  | nil => intro i p; rfl
  | cons d ds ih => intro i p; simp only [selected]; exact ih _ _

theorem applyFilters_props (e : Env P) : ∀ (fs : List GData) (p : P) (tags : List String),
    (∀ d ∈ fs, e.sets d.id = true) →
    ∃ sel : Nat → Bool, (∀ i, sel i = true ↔ Applies (· ∈ tags) fs i) ∧
      (applyFilters e (fs.map fOf) p tags).1 = selected e sel 0 fs p := by
  intro fs
  induction fs with
  | nil =>
    intro p tags _
    refine ⟨fun _ => false, ?_, rfl⟩
    intro i
    constructor
    · intro h; cases h
    · intro h
      cases h with
      | own h1 => simp at h1
      | added h1 => simp at h1
  | cons d fs ih =>
    intro p tags hs
    rw [List.map_cons]
    show ∃ sel : Nat → Bool, _ ∧ (applyFilters e ((d.filter, d.tags, d.id) :: fs.map fOf) p tags).1 = _
    rw [applyFilters]
    obtain ⟨sel, h1, h2⟩ := ih
      (if intersects tags d.filter then e.eval d.id true p else p)
      (if intersects tags d.filter then unite tags d.tags else tags)
      (fun x hx => hs x (List.mem_cons_of_mem _ hx))
    refine ⟨fun k => match k with
      | 0 => intersects tags d.filter
      | k + 1 => sel k, ?_, ?_⟩
    · intro i
      cases i with
      | zero => exact intersects_own tags d fs
      | succ i =>
        rw [applies_succ, ownNext_eq]
        exact h1 i
    · have hadd : additional e d.id p true = e.eval d.id true p := by
        unfold additional; rw [if_pos (hs d List.mem_cons_self)]
      rw [selected, selected_shift]
      simp only
      rw [← h2]
      by_cases h : intersects tags d.filter = true
      · simp only [h, if_true, hadd]
      · simp [h]

/-! ## The whole product -/

variable [DecidableEq P]

theorem curOk_none (pe : Bool) : CurOk pe none [] := ⟨by simp [curEnabled, active], rfl, rfl⟩

theorem resolveModules_printed (e : Env P) (pe : Bool) : ∀ (ms : List (List GItem)) (st : State P),
    st.printed <+: (resolveModules e pe ms st).1.printed := by
  intro ms
  induction ms with
  | nil => intro st; exact List.prefix_refl _
  | cons m ms ih =>
    intro st
    rw [resolveModules]
    have a := resolveItems_printed e pe none true m st
    rcases hr : resolveItems e pe none true m st with ⟨s1, x⟩
    rw [hr] at a
    cases x with
    | some x => exact a
    | none => exact a.trans (ih s1)

theorem resolveModules_walk (e : Env P) (pe : Bool) (hpe : pe = true) :
    ∀ (ms : List (List GItem)) (st st' : State P),
    resolveModules e pe ms st = (st', none) → st'.printed = st.printed →
    Walked e pe st st' (ms.flatMap (placesL [])) (ms.flatMap (taggersL [])) := by
  intro ms
  induction ms with
  | nil =>
    intro st st' h _
    rw [resolveModules] at h
    cases h
    exact ⟨by simp, by simp, by simp⟩
  | cons m ms ih =>
    intro st st' h hp
    rw [resolveModules] at h
    have m1 := resolveItems_printed e pe none true m st
    rcases hr : resolveItems e pe none true m st with ⟨s1, x⟩
    rw [hr] at h m1
    cases x with
    | some x => cases h
    | none =>
      simp only at h m1
      have m2 := resolveModules_printed e pe ms s1
      rw [h] at m2
      obtain ⟨hp1, hp2⟩ := prefix_eq_of_prefix m1 m2 hp
      rw [List.flatMap_cons, List.flatMap_cons]
      exact (resolveItems_walk e pe m none [] st s1 (curOk_none pe) (by simp [active, hpe]) hr hp1).trans
        (ih s1 st' h hp2)

theorem resolveModules_heap (e : Env P) (p0 : P) (pe : Bool) (hpe : pe = true) :
    ∀ (ms : List (List GItem)) (st st' : State P), st.heap[0]? = some p0 → Refs st →
    (st.aprops.map (·.key) ++ filterKeys pe (ms.flatMap (placesL []))).Nodup →
    resolveModules e pe ms st = (st', none) → st'.printed = st.printed →
    HWalked e p0 pe st st' (ms.flatMap (placesL [])) := by
  intro ms
  induction ms with
  | nil =>
    intro st st' _ hr _ h _
    rw [resolveModules] at h
    cases h
    exact quiet_h (Quiet.refl _) hr (by simp) (by simp)
  | cons m ms ih =>
    intro st st' hh hr hn h hp
    rw [resolveModules] at h
    have m1 := resolveItems_printed e pe none true m st
    rcases hri : resolveItems e pe none true m st with ⟨s1, x⟩
    rw [hri] at h m1
    cases x with
    | some x => cases h
    | none =>
      simp only at h m1
      have m2 := resolveModules_printed e pe ms s1
      rw [h] at m2
      obtain ⟨hp1, hp2⟩ := prefix_eq_of_prefix m1 m2 hp
      have hk : filterKeys pe ((m :: ms).flatMap (placesL [])) =
          filterKeys pe (placesL [] m) ++ filterKeys pe (ms.flatMap (placesL [])) := by
        unfold filterKeys; rw [List.flatMap_cons, List.filter_append, List.map_append]
      rw [hk, ← List.append_assoc] at hn
      have w1 := resolveItems_heap e p0 pe m none [] st s1 (by simp [curEnabled, active])
        (by simp [active, hpe]) hh hr (List.nodup_append.1 hn).1 hri hp1
      have w2 := ih s1 st' (prefix_get w1.heap hh) w1.refs (by rw [av_keys w1]; exact hn) h hp2
      rw [List.flatMap_cons]
      exact w1.trans w2

theorem resolveModules_quiet (e : Env P) : ∀ (ms : List (List GItem)) (st : State P),
    Quiet st (resolveModules e false ms st).1 := by
  intro ms
  induction ms with
  | nil => intro st; exact Quiet.refl _
  | cons m ms ih =>
    intro st
    rw [resolveModules]
    have a := (resolveItems_quiet e false none true rfl m st).1
    rcases hr : resolveItems e false none true m st with ⟨s1, x⟩
    rw [hr] at a
    cases x with
    | some x => exact a
    | none => exact a.trans (ih s1)

theorem resolveModules_art (e : Env P) (pe : Bool) : ∀ (ms : List (List GItem)) (st : State P),
    (∀ g ∈ st.groups, ArtOk e g) → ∀ g ∈ (resolveModules e pe ms st).1.groups, ArtOk e g := by
  intro ms
  induction ms with
  | nil => intro st h; exact h
  | cons m ms ih =>
    intro st h
    rw [resolveModules]
    have a := resolveItems_art e pe m none true st h
    rcases hr : resolveItems e pe none true m st with ⟨s1, x⟩
    rw [hr] at a
    cases x with
    | some x => exact a
    | none => exact ih s1 a

theorem resolveModules_inv (e : Env P) (pe : Bool) : ∀ (ms : List (List GItem)) (st : State P),
    (∀ c ∈ ms.flatMap (placesL []), isFileGroup pe c = true → c.d.filesLoc = true) → Inv e st →
    Inv e (resolveModules e pe ms st).1 := by
  intro ms
  induction ms with
  | nil => intro st _ h; exact h
  | cons m ms ih =>
    intro st hl h
    rw [resolveModules]
    rw [List.flatMap_cons] at hl
    have a := resolveItems_inv e pe m none [] true st (by simp [curEnabled, active])
      (fun c hc => hl c (List.mem_append_left _ hc)) h
    rcases hr : resolveItems e pe none true m st with ⟨s1, x⟩
    rw [hr] at a
    cases x with
    | some x => exact a
    | none => exact ih s1 (fun c hc => hl c (List.mem_append_right _ hc)) a

theorem collect_walk (e : Env P) (p : Product P) (hpe : p.enabled = true) (st : State P)
    (h : collect e p = (st, none)) (hp : st.printed = []) :
    Walked e p.enabled { heap := [p.props] } st p.places p.taggers := by
  unfold collect at h
  have m1 := resolveItems_printed e p.enabled none true p.items { heap := [p.props] }
  rcases hr : resolveItems e p.enabled none true p.items { heap := [p.props] } with ⟨s1, x⟩
  rw [hr] at h m1
  cases x with
  | some x => cases h
  | none =>
    simp only at h
    have m2 := resolveModules_printed e p.enabled p.modules s1
    rw [h] at m2
    obtain ⟨hp1, hp2⟩ := prefix_eq_of_prefix m1 m2 hp
    exact (resolveItems_walk e p.enabled p.items none [] _ s1 (curOk_none _)
      (by simp [active, hpe]) hr hp1).trans (resolveModules_walk e p.enabled hpe p.modules s1 st h hp2)

theorem collect_quiet (e : Env P) (p : Product P) (hpe : p.enabled = false) :
    Quiet { heap := [p.props] } (collect e p).1 := by
  unfold collect
  rw [hpe]
  have a := (resolveItems_quiet e false none true rfl p.items { heap := [p.props] }).1
  rcases hr : resolveItems e false none true p.items { heap := [p.props] } with ⟨s1, x⟩
  rw [hr] at a
  cases x with
  | some x => exact a
  | none => exact a.trans (resolveModules_quiet e p.modules s1)

theorem collect_art (e : Env P) (p : Product P) : ∀ g ∈ (collect e p).1.groups, ArtOk e g := by
  unfold collect
  have a := resolveItems_art e p.enabled p.items none true { heap := [p.props] } (by simp)
  rcases hr : resolveItems e p.enabled none true p.items { heap := [p.props] } with ⟨s1, x⟩
  rw [hr] at a
  cases x with
  | some x => exact a
  | none => exact resolveModules_art e p.enabled p.modules s1 a

theorem collect_inv (e : Env P) (p : Product P)
    (hl : ∀ c ∈ p.fileGroups, c.d.filesLoc = true) : Inv e (collect e p).1 := by
  have hl' : ∀ c ∈ p.places, isFileGroup p.enabled c = true → c.d.filesLoc = true :=
    fun c h1 h2 => hl c (List.mem_filter.2 ⟨h1, h2⟩)
  unfold Product.places at hl'
  unfold collect
  have a := resolveItems_inv e p.enabled p.items none [] true { heap := [p.props] }
    (by simp [curEnabled, active]) (fun c hc => hl' c (List.mem_append_left _ hc))
    ⟨by simp, by simp [keys], by simp [keys]⟩
  rcases hr : resolveItems e p.enabled none true p.items { heap := [p.props] } with ⟨s1, x⟩
  rw [hr] at a
  cases x with
  | some x => exact a
  | none =>
    exact resolveModules_inv e p.enabled p.modules s1
      (fun c hc => hl' c (List.mem_append_right _ hc)) a

theorem collect_heap (e : Env P) (p : Product P) (hpe : p.enabled = true) (st : State P)
    (hn : (p.filterGroups.map (·.d.filter)).Nodup)
    (h : collect e p = (st, none)) (hp : st.printed = []) :
    HWalked e p.props p.enabled { heap := [p.props] } st p.places := by
  have hn' : (filterKeys p.enabled p.places).Nodup := hn
  unfold Product.places at hn' ⊢
  unfold collect at h
  have m1 := resolveItems_printed e p.enabled none true p.items { heap := [p.props] }
  rcases hr : resolveItems e p.enabled none true p.items { heap := [p.props] } with ⟨s1, x⟩
  rw [hr] at h m1
  cases x with
  | some x => cases h
  | none =>
    simp only at h
    have m2 := resolveModules_printed e p.enabled p.modules s1
    rw [h] at m2
    obtain ⟨hp1, hp2⟩ := prefix_eq_of_prefix m1 m2 hp
    have hk : filterKeys p.enabled (placesL [] p.items ++ p.modules.flatMap (placesL [])) =
        filterKeys p.enabled (placesL [] p.items) ++
          filterKeys p.enabled (p.modules.flatMap (placesL [])) := by
      unfold filterKeys; rw [List.filter_append, List.map_append]
    rw [hk] at hn'
    have w1 := resolveItems_heap e p.props p.enabled p.items none [] { heap := [p.props] } s1
      (by simp [curEnabled, active]) (by simp [active, hpe]) rfl ⟨by simp, by simp⟩
      (by simpa using (List.nodup_append.1 hn').1) hr hp1
    have w2 := resolveModules_heap e p.props p.enabled hpe p.modules s1 st
      (prefix_get w1.heap rfl) w1.refs (by rw [av_keys w1]; simpa using hn') h hp2
    exact w1.trans w2

/-! ## From the groups to the source files -/

/-- The source file made from an artifact. -/
def sourceOf (e : Env P) (ts : List Tagger) (fs : List (List String × List String × Nat))
    (p : P) (a : Art) : Source P :=
  let b := applyTaggersTo e ts a
  ⟨a.path, (finalize e fs p b).2, a.target, a.wildcard, (finalize e fs p b).1⟩

omit [DecidableEq P] in
theorem applyTaggersTo_same (e : Env P) (ts : List Tagger) (a : Art) :
    (applyTaggersTo e ts a).path = a.path ∧ (applyTaggersTo e ts a).target = a.target ∧
    (applyTaggersTo e ts a).wildcard = a.wildcard ∧ (applyTaggersTo e ts a).props = a.props := by
  unfold applyTaggersTo
  split <;> exact ⟨rfl, rfl, rfl, rfl⟩

omit [DecidableEq P] in
theorem finalSources_eq (e : Env P) (pts : List Tagger) (st : State P) :
    finalSources e (applyFileTaggers e pts st) =
      (st.groups.filter (·.enabled)).flatMap fun g => (g.files.getD []).map fun a =>
        sourceOf e (e.sort (st.taggers ++ pts)) st.filters (st.map e a.props) a := by
  unfold finalSources applyFileTaggers
  simp only
  generalize e.sort (st.taggers ++ pts) = ts
  have hmap : ∀ r, State.map e { st with taggers := ts, groups := onEnabled (applyTaggersTo e ts) st.groups } r =
      st.map e r := fun r => rfl
  simp only [hmap]
  generalize st.groups = gs
  unfold onEnabled
  induction gs with
  | nil => rfl
  | cons g gs ih =>
    rw [List.map_cons]
    cases hg : g.enabled with
    | false =>
      simp only [Bool.false_eq_true, if_false, List.filter_cons, hg]
      exact ih
    | true =>
      simp only [if_true, List.filter_cons, hg, List.flatMap_cons]
      rw [ih]
      congr 1
      cases hf : g.files with
      | none => rfl
      | some l =>
        simp only [Option.map_some, Option.getD_some, List.map_map]
        refine List.map_congr_left ?_
        intro a _
        obtain ⟨h1, h2, h3, h4⟩ := applyTaggersTo_same e ts a
        simp only [Function.comp, sourceOf, h1, h2, h3, h4]

theorem resolveProduct_inv (e : Env P) (p : Product P) (st : State P) (srcs : List (Source P))
    (h : resolveProduct e p = .ok (st, srcs)) : ∃ st0, collect e p = (st0, none) ∧
      st = applyFileTaggers e p.projectTaggers st0 ∧ st.printed = st0.printed ∧
      srcs = (st0.groups.filter (·.enabled)).flatMap fun g => (g.files.getD []).map fun a =>
        sourceOf e (e.sort (st0.taggers ++ p.projectTaggers)) st0.filters (st0.map e a.props) a := by
  unfold resolveProduct at h
  rcases hc : collect e p with ⟨st0, x⟩
  rw [hc] at h
  cases x with
  | some x => simp at h
  | none =>
    simp only [Except.ok.injEq, Prod.mk.injEq] at h
    obtain ⟨rfl, rfl⟩ := h
    exact ⟨st0, rfl, rfl, rfl, finalSources_eq e _ st0⟩

omit [DecidableEq P] in
theorem fileGroups_disabled (p : Product P) (h : p.enabled = false) : p.fileGroups = [] := by
  unfold Product.fileGroups
  rw [List.filter_eq_nil_iff]
  intro c _
  simp [active, h]

/-- What is known about the groups after everything has been collected without an error. -/
theorem collect_views (e : Env P) (p : Product P) (st : State P)
    (h : collect e p = (st, none)) (hp : st.printed = []) :
    st.views = p.fileGroups.map (viewOf e) := by
  cases hpe : p.enabled with
  | true =>
    have := (collect_walk e p hpe st h hp).views
    rw [show State.views ({ heap := [p.props] } : State P) = [] from rfl, List.nil_append] at this
    exact this
  | false =>
    have hq := collect_quiet e p hpe
    rw [h] at hq
    have := hq.views
    rw [fileGroups_disabled p hpe]
    simpa [State.views] using this

/-- **C96.** If no error is reported, then the source files of a product are exactly the files of
its active groups, in the order of the groups: the files of the wildcards first, then those that are
listed, each with the prefix of the innermost group that has one.  A group is active if the
conditions of the product, the group and all groups around it are met. -/
theorem C96_sources (e : Env P) (p : Product P) (st : State P) (srcs : List (Source P))
    (h : resolveProduct e p = .ok (st, srcs)) (hp : st.printed = []) :
    srcs.map (fun s => (s.target, s.path, s.wildcard)) =
      p.fileGroups.flatMap fun c => (filesOf e c).map fun f => (c.d.target, f.1, f.2) := by
  obtain ⟨st0, hc, _, hpr, rfl⟩ := resolveProduct_inv e p st srcs h
  have hv := collect_views e p st0 hc (hpr ▸ hp)
  have ha := collect_art e p
  rw [hc] at ha
  have key : ∀ gs : List Group, (∀ g ∈ gs, ArtOk e g) →
      ((gs.flatMap fun g => (g.files.getD []).map fun a =>
        sourceOf e (e.sort (st0.taggers ++ p.projectTaggers)) st0.filters (st0.map e a.props) a).map
          fun s => (s.target, s.path, s.wildcard)) =
      (gs.map Group.view).flatMap fun v => v.files.map fun f => (v.target, f.1, f.2) := by
    intro gs
    induction gs with
    | nil => intro _; rfl
    | cons g gs ih =>
      intro hg
      rw [List.flatMap_cons, List.map_append, List.map_cons, List.flatMap_cons,
        ih (fun x hx => hg x (List.mem_cons_of_mem _ hx))]
      congr 1
      rw [List.map_map]
      show _ = ((g.files.getD []).map (fun a => (a.path, a.wildcard))).map _
      rw [List.map_map]
      refine List.map_congr_left ?_
      intro a hm
      have := (hg g List.mem_cons_self a hm).2.2.2.1
      simp [sourceOf, this, Group.view]
  rw [key _ (fun g hg => ha g (List.mem_filter.1 hg).1)]
  show (st0.views.flatMap fun v => v.files.map fun f => (v.target, f.1, f.2)) = _
  rw [hv, List.flatMap_map]
  congr 1
  funext c
  simp only [viewOf, fileList_eq]

/-- **C96.** No file that is listed by name becomes a source file unless it exists. -/
theorem C96_exists (e : Env P) (p : Product P) (st : State P) (srcs : List (Source P))
    (h : resolveProduct e p = .ok (st, srcs)) (s : Source P) (hs : s ∈ srcs)
    (hw : s.wildcard = false) : e.isFile s.path = true := by
  obtain ⟨st0, hc, _, _, rfl⟩ := resolveProduct_inv e p st srcs h
  have ha := collect_art e p
  rw [hc] at ha
  obtain ⟨g, hg, hs⟩ := List.mem_flatMap.1 hs
  obtain ⟨a, haa, rfl⟩ := List.mem_map.1 hs
  exact (ha g (List.mem_filter.1 hg).1 a haa).2.2.2.2 hw

/-- Strict mode prints no error. -/
theorem strict_body (e : Env P) (hs : e.strict = true) : ∀ (st : State P) (en : Bool)
    (r : State P × Option Err), r.1.printed = st.printed →
    (settle e en r).1.printed = st.printed := by
  intro st en r h
  unfold settle
  split
  · exact h
  · split
    · exact h
    · first
      | exact h
      | (rw [if_pos hs]; exact h)
      | (split <;> first | exact h | (rename_i hh; exact absurd hs hh))

theorem strict_files (e : Env P) (hs : e.strict = true) (en : Bool) (cur : Option Group) (d : GData)
    (st st' : State P) (r : Option Group) (x : Option Err)
    (h : resolveFiles e en cur d st = (st', r, x)) : st'.printed = st.printed := by
  unfold resolveFiles at h
  obtain ⟨hn1, hn2⟩ := newGroup_spec e en cur d st
  rcases hng : newGroup e en cur d st with ⟨s0, g0⟩
  rw [hng] at h hn1
  simp only at h hn1
  have h0 : s0.printed = st.printed := by rw [hn1]
  rcases hc1 : createSources e d true (expandedOf e g0.pre d) s0 g0 [] with ⟨s1, g1, e1, x1⟩
  rw [hc1] at h
  obtain ⟨hs1, _⟩ := createSources_spec e d true _ _ _ _ _ _ _ _ hc1
  cases x1 with
  | some x1 =>
    simp only [Prod.mk.injEq] at h
    rw [← h.1, hs1.printed, h0]
  | none =>
    simp only at h
    rcases hc2 : createSources e d false (plainOf e g1.pre d) s1 g1 e1 with ⟨s2, g2, e2, x2⟩
    rw [hc2] at h
    obtain ⟨hs2, _⟩ := createSources_spec e d false _ _ _ _ _ _ _ _ hc2
    cases x2 with
    | some x2 =>
      simp only [Prod.mk.injEq] at h
      rw [← h.1, hs2.printed, hs1.printed, h0]
    | none =>
      simp only at h
      split at h
      · simp only [Prod.mk.injEq] at h
        rw [← h.1, hs2.printed, hs1.printed, h0]
      · rename_i hb
        simp only [Prod.mk.injEq] at h
        rw [← h.1]
        rw [hs, Bool.and_true] at hb
        rw [if_neg hb]
        simp only [hs2.printed, hs1.printed, h0]

mutual

theorem resolveItem_strict (e : Env P) (hs : e.strict = true) (pe : Bool) :
    ∀ (i : GItem) (cur : Option Group) (runT : Bool) (st : State P),
    (resolveItem e pe cur runT i st).1.printed = st.printed
  | .tagger t, cur, runT, st => by
    rw [resolveItem]
    split
    · exact (resolveTagger_quiet t st).printed
    · rfl
  | .group d cs, cur, runT, st => by
    rw [resolveItem_group]
    generalize (curEnabled pe cur && d.cond) = en
    refine strict_body e hs st en _ ?_
    unfold body
    split
    · cases en with
      | true =>
        rcases hr : resolveFilter e true cur d st with ⟨s1, x⟩
        exact (resolveFilter_spec e cur d st s1 x hr).1
      | false =>
        unfold resolveFilter
        split
        · rfl
        · rw [if_pos rfl]
    · rcases hr : resolveFiles e en cur d st with ⟨s1, g, x⟩
      have h1 := strict_files e hs en cur d st s1 g x hr
      cases g with
      | none => exact h1
      | some g => exact (resolveItems_strict e hs pe cs (some g) en s1).trans h1

theorem resolveItems_strict (e : Env P) (hs : e.strict = true) (pe : Bool) :
    ∀ (is : List GItem) (cur : Option Group) (runT : Bool) (st : State P),
    (resolveItems e pe cur runT is st).1.printed = st.printed
  | [], cur, runT, st => by rw [resolveItems]
  | i :: is, cur, runT, st => by
    rw [resolveItems]
    have h1 := resolveItem_strict e hs pe i cur runT st
    rcases hr : resolveItem e pe cur runT i st with ⟨s1, x⟩
    rw [hr] at h1
    cases x with
    | some x => exact h1
    | none => exact (resolveItems_strict e hs pe is cur runT s1).trans h1

end

theorem collect_strict (e : Env P) (hs : e.strict = true) (p : Product P) :
    (collect e p).1.printed = [] := by
  unfold collect
  have a := resolveItems_strict e hs p.enabled p.items none true { heap := [p.props] }
  rcases hr : resolveItems e p.enabled none true p.items { heap := [p.props] } with ⟨s1, x⟩
  rw [hr] at a
  cases x with
  | some x => exact a
  | none =>
    simp only at a ⊢
    rw [← a]
    generalize p.modules = ms
    have : ∀ (ms : List (List GItem)) (s : State P),
        (resolveModules e p.enabled ms s).1.printed = s.printed := by
      intro ms
      induction ms with
      | nil => intro s; rfl
      | cons m ms ih =>
        intro s
        rw [resolveModules]
        have b := resolveItems_strict e hs p.enabled m none true s
        rcases hr2 : resolveItems e p.enabled none true m s with ⟨s2, y⟩
        rw [hr2] at b
        cases y with
        | some y => exact b
        | none => exact (ih s2).trans b
    exact this ms s1

/-- **C96.** In strict mode, a product with an active group that lists a file that does not exist
is not resolved. -/
theorem C96_missing (e : Env P) (hs : e.strict = true) (p : Product P) (c : Place)
    (hc : c ∈ p.fileGroups) (f : String) (hf : (f, false) ∈ filesOf e c)
    (hn : e.isFile f = false) : ∃ x, resolveProduct e p = .error x := by
  cases h : resolveProduct e p with
  | error x => exact ⟨x, rfl⟩
  | ok r =>
    exfalso
    rcases r with ⟨st, srcs⟩
    obtain ⟨st0, hcol, _, hpr, _⟩ := resolveProduct_inv e p st srcs h
    have hp : st.printed = [] := by
      rw [hpr]; have := collect_strict e hs p; rw [hcol] at this; exact this
    have heq := C96_sources e p st srcs h hp
    have hmem : (c.d.target, f, false) ∈ srcs.map (fun s => (s.target, s.path, s.wildcard)) := by
      rw [heq]
      exact List.mem_flatMap.2 ⟨c, hc, List.mem_map.2 ⟨(f, false), hf, rfl⟩⟩
    obtain ⟨s, hss, hse⟩ := List.mem_map.1 hmem
    simp only [Prod.mk.injEq] at hse
    have := C96_exists e p st srcs h s hss hse.2.2
    rw [hse.2.1, hn] at this
    cases this

/-- **C96.** No file is twice among the source files of a product, and neither among the targets of
a module, as long as the values of `files` have locations.  For values from the command line, see
`C96_override_twice`. -/
theorem C96_once_partial (e : Env P) (p : Product P) (hl : ∀ c ∈ p.fileGroups, c.d.filesLoc = true)
    (st : State P) (srcs : List (Source P)) (h : resolveProduct e p = .ok (st, srcs)) :
    (srcs.map (fun s => (s.target, s.path))).Nodup := by
  obtain ⟨st0, hc, _, _, rfl⟩ := resolveProduct_inv e p st srcs h
  have hi := (collect_inv e p hl).nodup
  rw [hc] at hi
  unfold keys at hi
  simp only at hi
  rw [List.map_flatMap]
  have : (fun g : Group => ((g.files.getD []).map fun a =>
      sourceOf e (e.sort (st0.taggers ++ p.projectTaggers)) st0.filters (st0.map e a.props) a).map
        fun s => (s.target, s.path)) = groupKeys := by
    funext g
    rw [List.map_map]
    rfl
  rw [this]
  exact hi

/-! ## File tags -/

omit [DecidableEq P] in
theorem map_pair {α β γ δ : Type} {f : α → γ} {f' : β → γ} {g : α → δ} {g' : β → δ} :
    ∀ (l : List α) (m : List β), l.map f = m.map f' → l.map g = m.map g' →
    ∀ x ∈ l, ∃ y ∈ m, f x = f' y ∧ g x = g' y := by
  intro l
  induction l with
  | nil => intro m _ _ x hx; simp at hx
  | cons a l ih =>
    intro m h1 h2 x hx
    cases m with
    | nil => simp at h1
    | cons b m =>
      simp only [List.map_cons, List.cons.injEq] at h1 h2
      rcases List.mem_cons.1 hx with rfl | hx
      · exact ⟨b, List.mem_cons_self, h1.1, h2.1⟩
      · obtain ⟨y, hy, hh⟩ := ih m h1.2 h2.2 x hx
        exact ⟨y, List.mem_cons_of_mem _ hy, hh⟩

omit [DecidableEq P] in
/-- The tags of a source file, given where it comes from. -/
theorem source_tags (e : Env P) (hs : SortOk e) (ts : List Tagger) (fs : List GData) (c : Place)
    (a : Art) (q : P) (h1 : a.tags = tagsOf c.path) (h2 : a.overrideTags = c.d.overrideTags)
    (h3 : a.target = c.d.target) (t : String) :
    t ∈ (sourceOf e (e.sort ts) (fs.map fOf) q a).tags ↔
      FileTag e ts c a.path t ∨
      (c.d.target = "" ∧ Filtered (FileTag e ts c a.path) fs t) ∨
      (t = "installable" ∧ e.install (sourceOf e (e.sort ts) (fs.map fOf) q a).props = true) := by
  have hown : (· ∈ (applyTaggersTo e (e.sort ts) a).tags) = FileTag e ts c a.path := by
    funext t; exact propext (applyTaggersTo_spec e hs ts c a h1 h2 t)
  have htar : (applyTaggersTo e (e.sort ts) a).target = c.d.target := by
    rw [(applyTaggersTo_same e _ a).2.1, h3]
  have hmem : ∀ t, t ∈ (applyTaggersTo e (e.sort ts) a).tags ↔ FileTag e ts c a.path t :=
    fun t => applyTaggersTo_spec e hs ts c a h1 h2 t
  unfold sourceOf finalize
  simp only
  rw [htar]
  by_cases ht : c.d.target = ""
  · simp only [ht, if_true, true_and]
    have hf := applyFilters_tags e fs q (applyTaggersTo e (e.sort ts) a).tags
    rw [hown] at hf
    by_cases hi : e.install (applyFilters e (fs.map fOf) q (applyTaggersTo e (e.sort ts) a).tags).1 = true
    · simp only [hi, if_true, mem_unite, hf, List.mem_singleton, and_true]
      constructor
      · rintro (h | h)
        · exact Or.inr (Or.inl h)
        · exact Or.inr (Or.inr h)
      · rintro (h | h | h)
        · exact Or.inl (Or.inl h)
        · exact Or.inl h
        · exact Or.inr h
    · simp only [hi, Bool.false_eq_true, if_false, hf, and_false, or_false]
      constructor
      · intro h; exact Or.inr h
      · rintro (h | h)
        · exact Or.inl h
        · exact h
  · simp only [ht, if_false, false_and, false_or]
    by_cases hi : e.install q = true
    · simp only [hi, if_true, mem_unite, hmem, List.mem_singleton, and_true]
    · simp only [hi, Bool.false_eq_true, if_false, hmem, and_false, or_false]

/-- **C95.** If no error is reported, every source file has exactly these tags: those of its group
and of the groups around it, up to the first one that replaces them; those of the file taggers of
the highest priority with a matching pattern, unless there are tags from the groups and the file's
group has `overrideTags`; "unknown-file-tag" if there is none; those of the groups whose
`fileTagsFilter` has one of these tags or one that an earlier such group added; and "installable" if
the module properties of the file say so. -/
theorem C95_tags (e : Env P) (hs : SortOk e) (p : Product P) (st : State P) (srcs : List (Source P))
    (h : resolveProduct e p = .ok (st, srcs)) (hp : st.printed = []) (s : Source P)
    (hm : s ∈ srcs) : ∃ c ∈ p.fileGroups, (s.path, s.wildcard) ∈ filesOf e c ∧
      s.target = c.d.target ∧ ∀ t, t ∈ s.tags ↔
        FileTag e p.allTaggers c s.path t ∨
        (c.d.target = "" ∧
          Filtered (FileTag e p.allTaggers c s.path) (p.filterGroups.map (·.d)) t) ∨
        (t = "installable" ∧ e.install s.props = true) := by
  obtain ⟨st0, hc, _, hpr, rfl⟩ := resolveProduct_inv e p st srcs h
  have hp0 : st0.printed = [] := hpr ▸ hp
  have hv := collect_views e p st0 hc hp0
  have ha := collect_art e p
  rw [hc] at ha
  obtain ⟨g, hg, hm⟩ := List.mem_flatMap.1 hm
  obtain ⟨a, haa, rfl⟩ := List.mem_map.1 hm
  obtain ⟨a1, a2, a3, a4, _⟩ := ha g (List.mem_filter.1 hg).1 a haa
  have hgv : g.view ∈ st0.views := List.mem_map.2 ⟨g, hg, rfl⟩
  rw [hv] at hgv
  obtain ⟨c, hcm, hcv⟩ := List.mem_map.1 hgv
  unfold viewOf Group.view at hcv
  simp only [GV.mk.injEq] at hcv
  obtain ⟨_, v2, v3, v4, v5⟩ := hcv
  have hpe : p.enabled = true := by
    cases hh : p.enabled with
    | true => rfl
    | false => rw [fileGroups_disabled p hh] at hcm; simp at hcm
  have hw := collect_walk e p hpe st0 hc hp0
  have hf : st0.filters = (p.filterGroups.map (·.d)).map fOf := by
    have := hw.filters
    simp only [List.nil_append] at this
    rw [this, List.map_map]
    rfl
  have ht : st0.taggers ++ p.projectTaggers = p.allTaggers := by
    have := hw.taggers
    simp only [List.nil_append] at this
    rw [this]
    rfl
  refine ⟨c, hcm, ?_, ?_, ?_⟩
  · rw [← fileList_eq, v5]
    exact List.mem_map.2 ⟨a, haa, rfl⟩
  · show a.target = _
    rw [a4, v4]
  · intro t
    rw [ht, hf]
    exact source_tags e hs p.allTaggers _ c a _ (a1.trans v2.symm) (a2.trans v3.symm)
      (a4.trans v4.symm) t

/-- **C95.** Every source file has a tag. -/
theorem C95_some_tag (e : Env P) (p : Product P) (st : State P) (srcs : List (Source P))
    (h : resolveProduct e p = .ok (st, srcs)) (s : Source P) (hm : s ∈ srcs) : s.tags ≠ [] := by
  obtain ⟨st0, hc, _, _, rfl⟩ := resolveProduct_inv e p st srcs h
  obtain ⟨g, hg, hm⟩ := List.mem_flatMap.1 hm
  obtain ⟨a, haa, rfl⟩ := List.mem_map.1 hm
  generalize e.sort (st0.taggers ++ p.projectTaggers) = ts
  generalize st0.map e a.props = q
  generalize st0.filters = fs
  have hne : (applyTaggersTo e ts a).tags ≠ [] := by
    unfold applyTaggersTo
    by_cases hc : (!a.overrideTags || a.tags.isEmpty) = true
    · rw [if_pos hc]
      simp only
      split
      · simp
      · rename_i hh; simpa using hh
    · rw [if_neg hc]
      intro h'
      apply hc
      rw [h']
      simp
  have hfil : ∀ (fs : List (List String × List String × Nat)) (q : P) (tags : List String),
      tags ≠ [] → (applyFilters e fs q tags).2 ≠ [] := by
    intro fs
    induction fs with
    | nil => intro q tags h; exact h
    | cons f fs ih =>
      rcases f with ⟨f, x, i⟩
      intro q tags h
      rw [applyFilters]
      split
      · refine ih _ _ ?_
        unfold unite
        simp [h]
      · exact ih _ _ h
  unfold sourceOf finalize
  simp only
  split
  · split
    · unfold unite; simp [hfil fs q _ hne]
    · exact hfil fs q _ hne
  · split
    · unfold unite; simp [hne]
    · exact hne

/-! ## Module properties -/

/-- **C97, part.** If no error is reported, the module properties of a source file are those of the
product, changed by what its groups set, and then by what the groups with a matching
`fileTagsFilter` set, in their order.  Missing: groups with `fileTagsFilter` that set no module
property (see `C97_wiped`), and two active ones with the same list (see `C97_product_changed`). -/
theorem C97_props_partial (e : Env P) (hs : SortOk e) (p : Product P) (st : State P)
    (srcs : List (Source P))
    (h : resolveProduct e p = .ok (st, srcs)) (hp : st.printed = [])
    (hn : (p.filterGroups.map (·.d.filter)).Nodup)
    (hset : ∀ c ∈ p.filterGroups, e.sets c.d.id = true) (s : Source P)
    (hm : s ∈ srcs) : ∃ c ∈ p.fileGroups, (s.path, s.wildcard) ∈ filesOf e c ∧
      s.target = c.d.target ∧
      (c.d.target ≠ "" → s.props = propsOf e p.props c.path) ∧
      (c.d.target = "" → ∃ sel : Nat → Bool,
        (∀ i, sel i = true ↔
          Applies (FileTag e p.allTaggers c s.path) (p.filterGroups.map (·.d)) i) ∧
        s.props = selected e sel 0 (p.filterGroups.map (·.d)) (propsOf e p.props c.path)) := by
  obtain ⟨st0, hc, _, hpr, rfl⟩ := resolveProduct_inv e p st srcs h
  have hp0 : st0.printed = [] := hpr ▸ hp
  have hv := collect_views e p st0 hc hp0
  have ha := collect_art e p
  rw [hc] at ha
  obtain ⟨g, hg, hm⟩ := List.mem_flatMap.1 hm
  obtain ⟨a, haa, rfl⟩ := List.mem_map.1 hm
  obtain ⟨a1, a2, a3, a4, _⟩ := ha g (List.mem_filter.1 hg).1 a haa
  have hpe : p.enabled = true := by
    cases hh : p.enabled with
    | true => rfl
    | false =>
      have hgv : g.view ∈ st0.views := List.mem_map.2 ⟨g, hg, rfl⟩
      rw [hv, fileGroups_disabled p hh] at hgv; simp at hgv
  have hw := collect_walk e p hpe st0 hc hp0
  have hh := collect_heap e p hpe st0 hn hc hp0
  have hhv : (st0.groups.filter (·.enabled)).map (fun g => st0.heap[g.props]?) =
      p.fileGroups.map fun c => some (propsOf e p.props c.path) := by
    have := hh.hv
    rw [show Verif.Tags.hv ({ heap := [p.props] } : State P) = [] from rfl, List.nil_append] at this
    exact this
  obtain ⟨c, hcm, hcv, hcp⟩ := map_pair _ _ (show (st0.groups.filter (·.enabled)).map Group.view = _ from hv) hhv g hg
  unfold viewOf Group.view at hcv
  simp only [GV.mk.injEq] at hcv
  obtain ⟨_, v2, v3, v4, v5⟩ := hcv
  have hf : st0.filters = (p.filterGroups.map (·.d)).map fOf := by
    have := hw.filters
    simp only [List.nil_append] at this
    rw [this, List.map_map]
    rfl
  have ht : st0.taggers ++ p.projectTaggers = p.allTaggers := by
    have := hw.taggers
    simp only [List.nil_append] at this
    rw [this]
    rfl
  have hval : st0.map e a.props = propsOf e p.props c.path := by
    unfold State.map
    rw [a3, hcp]
    rfl
  have htar : (applyTaggersTo e (e.sort p.allTaggers) a).target = c.d.target := by
    rw [(applyTaggersTo_same e _ a).2.1, a4, v4]
  refine ⟨c, hcm, ?_, a4.trans v4, ?_, ?_⟩
  · rw [← fileList_eq, ← v5]
    exact List.mem_map.2 ⟨a, haa, rfl⟩
  · intro hne
    rw [ht, hf, hval]
    unfold sourceOf finalize
    simp only [htar, if_neg hne]
  · intro he
    rw [ht, hf, hval]
    have hown : (· ∈ (applyTaggersTo e (e.sort p.allTaggers) a).tags) =
        FileTag e p.allTaggers c a.path := by
      funext t
      exact propext (applyTaggersTo_spec e hs p.allTaggers c a (a1.trans v2) (a2.trans v3) t)
    obtain ⟨sel, s1, s2⟩ := applyFilters_props e (p.filterGroups.map (·.d))
      (propsOf e p.props c.path) (applyTaggersTo e (e.sort p.allTaggers) a).tags (by
        intro d hd
        obtain ⟨c', hc', rfl⟩ := List.mem_map.1 hd
        exact hset c' hc')
    rw [hown] at s1
    refine ⟨sel, s1, ?_⟩
    rw [← s2]
    unfold sourceOf finalize
    simp only [htar, if_pos he]

/-- **C97, part.** If no error is reported, a generated file has the properties of the first active
group whose `fileTagsFilter` matches its tags, those of the product if there is none, and the tags
of that group are added.  Missing: the other groups with a match (see `C97_generated_first`) and
two groups with the same list. -/
theorem C97_generated_partial (e : Env P) (p : Product P) (hpe : p.enabled = true) (st : State P)
    (srcs : List (Source P)) (h : resolveProduct e p = .ok (st, srcs)) (hp : st.printed = [])
    (hn : (p.filterGroups.map (·.d.filter)).Nodup) (tags : List String) (hne : tags ≠ [])
    (name : String) :
    ((∀ c ∈ p.filterGroups, ∀ t ∈ tags, t ∉ c.d.filter) →
      (generated e st tags name).1 = p.props ∧ ∀ t, t ∈ (generated e st tags name).2 ↔
        t ∈ tags ∨ (t = "installable" ∧ e.install p.props = true)) ∧
    (∀ (before after : List Place) (c : Place), p.filterGroups = before ++ c :: after →
      (∀ b ∈ before, ∀ t ∈ tags, t ∉ b.d.filter) → (∃ t ∈ tags, t ∈ c.d.filter) →
      (generated e st tags name).1 = propsOf e p.props c.path ∧
      ∀ t, t ∈ (generated e st tags name).2 ↔ t ∈ tags ∨ t ∈ c.d.tags ∨
        (t = "installable" ∧ e.install (propsOf e p.props c.path) = true)) := by
  obtain ⟨st0, hc, hst, hpr, _⟩ := resolveProduct_inv e p st srcs h
  have hp0 : st0.printed = [] := hpr ▸ hp
  have hh := collect_heap e p hpe st0 hn hc hp0
  have hav : av st0 = p.filterGroups.map
      fun c => (c.d.filter, unite [] c.d.tags, some (propsOf e p.props c.path)) := by
    have := hh.av
    rw [show Verif.Tags.av ({ heap := [p.props] } : State P) = [] from rfl, List.nil_append] at this
    exact this
  have hap : st.aprops = st0.aprops := by rw [hst]; rfl
  have hmap : ∀ r, st.map e r = st0.map e r := by intro r; rw [hst]; rfl
  have h0 : st.map e 0 = p.props := by
    rw [hmap]; unfold State.map; rw [prefix_get hh.heap (show [p.props][0]? = some p.props from rfl)]; rfl
  have hemp : tags.isEmpty = false := by simpa using hne
  -- looking for the first entry
  have key : ∀ (as : List AProps) (cs : List Place),
      as.map (fun a => (a.key, a.extra, a.props.bind (st0.heap[·]?))) =
        cs.map (fun c => (c.d.filter, unite [] c.d.tags, some (propsOf e p.props c.path))) →
      ((∀ c ∈ cs, ∀ t ∈ tags, t ∉ c.d.filter) →
        as.find? (fun a => intersects tags a.key) = none) ∧
      (∀ (before after : List Place) (c : Place), cs = before ++ c :: after →
        (∀ b ∈ before, ∀ t ∈ tags, t ∉ b.d.filter) → (∃ t ∈ tags, t ∈ c.d.filter) →
        ∃ a, as.find? (fun a => intersects tags a.key) = some a ∧
          a.extra = unite [] c.d.tags ∧
          a.props.bind (st0.heap[·]?) = some (propsOf e p.props c.path)) := by
    intro as
    induction as with
    | nil =>
      intro cs hcs
      have : cs = [] := by simpa using hcs.symm
      subst this
      refine ⟨fun _ => rfl, ?_⟩
      intro b a c hb
      simp at hb
    | cons a as ih =>
      intro cs hcs
      cases cs with
      | nil => simp at hcs
      | cons c cs =>
        simp only [List.map_cons, List.cons.injEq, Prod.mk.injEq] at hcs
        obtain ⟨⟨k1, k2, k3⟩, hrest⟩ := hcs
        obtain ⟨i1, i2⟩ := ih cs hrest
        refine ⟨?_, ?_⟩
        · intro hno
          have : intersects tags a.key = false := by
            rw [← Bool.not_eq_true, intersects_iff, k1]
            rintro ⟨t, h1, h2⟩
            exact hno c List.mem_cons_self t h1 h2
          rw [List.find?_cons, this]
          exact i1 (fun c' hc' => hno c' (List.mem_cons_of_mem _ hc'))
        · intro before after c' hsplit hb hcc
          cases before with
          | nil =>
            simp only [List.nil_append, List.cons.injEq] at hsplit
            obtain ⟨rfl, rfl⟩ := hsplit
            have : intersects tags a.key = true := by
              rw [intersects_iff, k1]; exact hcc
            refine ⟨a, ?_, k2, k3⟩
            rw [List.find?_cons, this]
          | cons b before =>
            simp only [List.cons_append, List.cons.injEq] at hsplit
            obtain ⟨rfl, hsplit⟩ := hsplit
            have : intersects tags a.key = false := by
              rw [← Bool.not_eq_true, intersects_iff, k1]
              rintro ⟨t, h1, h2⟩
              exact hb c List.mem_cons_self t h1 h2
            rw [List.find?_cons, this]
            exact i2 before after c' hsplit (fun b' hb' => hb b' (List.mem_cons_of_mem _ hb')) hcc
  obtain ⟨k1, k2⟩ := key st0.aprops p.filterGroups hav
  refine ⟨?_, ?_⟩
  · intro hno
    have hf := k1 hno
    unfold generated
    simp only [hemp, Bool.false_eq_true, if_false, hap, hf, h0]
    refine ⟨trivial, ?_⟩
    intro t
    by_cases hi : e.install p.props = true
    · simp [hi, mem_unite]
    · simp [hi]
  · intro before after c hsplit hb hcc
    obtain ⟨a, hf, ha1, ha2⟩ := k2 before after c hsplit hb hcc
    have hval : st.map e (a.props.getD 0) = propsOf e p.props c.path := by
      rw [hmap]
      unfold State.map
      cases hpp : a.props with
      | none => rw [hpp] at ha2; simp at ha2
      | some r =>
        rw [hpp] at ha2
        simp only [Option.bind_some] at ha2
        rw [Option.getD_some, ha2]
        rfl
    unfold generated
    simp only [hemp, Bool.false_eq_true, if_false, hap, hf, hval, ha1]
    refine ⟨trivial, ?_⟩
    intro t
    by_cases hi : e.install (propsOf e p.props c.path) = true
    · simp [hi, mem_unite, or_assoc]
    · simp [hi, mem_unite]

end Verif.Tags
