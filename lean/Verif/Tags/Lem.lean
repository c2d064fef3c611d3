import Verif.Tags.Spec
/-! # Lemmas: the walk over the items of a product -/
namespace Verif.Tags

variable {P : Type}

theorem unite_nil (a : List String) : unite a [] = a := by simp [unite]

theorem mem_unite (a b : List String) (t : String) : t ∈ unite a b ↔ t ∈ a ∨ t ∈ b := by
  unfold unite
  rw [List.mem_append, List.mem_filter]
  constructor
  · rintro (h | h)
    · exact Or.inl h
    · exact Or.inr h.1
  · rintro (h | h)
    · exact Or.inl h
    · by_cases ha : t ∈ a
      · exact Or.inl ha
      · exact Or.inr ⟨h, by simp [ha]⟩

theorem intersects_iff (a b : List String) : intersects a b = true ↔ ∃ t, t ∈ a ∧ t ∈ b := by
  simp [intersects]

/-! ## The context of a group -/

/-- Tags of the files of a group, given those of the group around it. -/
def stepTags (par : List String) (d : GData) : List String :=
  if d.overrideTags && d.tagsSet then (if d.tags = [] then [unknownTag] else d.tags)
  else unite d.tags par

def tagsOf (ch : List GData) : List String := ch.foldl stepTags []

def stepPre (par : String) (d : GData) : String := d.pre.getD par

def preOf (ch : List GData) : String := ch.foldl stepPre ""

def curEnabled (pe : Bool) : Option Group → Bool
  | some g => g.enabled
  | none => pe

def curTags : Option Group → List String
  | some g => g.tags
  | none => []

def curPre : Option Group → String
  | some g => g.pre
  | none => ""

theorem groupTags_eq (cur : Option Group) (d : GData) :
    groupTags cur d = stepTags (curTags cur) d := by
  cases cur with
  | none => simp [groupTags, stepTags, curTags, unite_nil]
  | some g => rfl

theorem groupPrefix_eq (cur : Option Group) (d : GData) :
    groupPrefix cur d = stepPre (curPre cur) d := by
  cases h : d.pre <;> cases cur <;> simp [groupPrefix, stepPre, curPre, h]

/-- The current group is the innermost one of `outer`. -/
structure CurOk (pe : Bool) (cur : Option Group) (outer : List GData) : Prop where
  en : curEnabled pe cur = active pe outer
  tags : curTags cur = tagsOf outer
  pre : curPre cur = preOf outer

theorem active_snoc (pe : Bool) (outer : List GData) (d : GData) :
    active pe (outer ++ [d]) = (active pe outer && d.cond) := by
  simp [active, Bool.and_assoc]

/-! ## What the parts leave alone -/

/-- Nothing changed but the locations and the list of missing files. -/
structure Same (st st' : State P) : Prop where
  heap : st'.heap = st.heap
  taggers : st'.taggers = st.taggers
  groups : st'.groups = st.groups
  aprops : st'.aprops = st.aprops
  filters : st'.filters = st.filters
  printed : st'.printed = st.printed

theorem Same.refl (st : State P) : Same st st := ⟨rfl, rfl, rfl, rfl, rfl, rfl⟩

theorem Same.trans {a b c : State P} (h : Same a b) (k : Same b c) : Same a c :=
  ⟨k.heap.trans h.heap, k.taggers.trans h.taggers, k.groups.trans h.groups,
    k.aprops.trans h.aprops, k.filters.trans h.filters, k.printed.trans h.printed⟩

/-- The source artifact of a path in a group. -/
def artOf (g : Group) (path : String) (wild : Bool) : Art :=
  ⟨path, g.tags, g.overrideTags, g.props, g.target, wild⟩

theorem createSource_spec (e : Env P) (d : GData) (st : State P) (g : Group) (n : String)
    (wild : Bool) (st' : State P) (g' : Group) (fe : Option FileErr) (x : Option Err)
    (h : createSource e d st g n wild = (st', g', fe, x)) :
    Same st st' ∧ (g.enabled = false → st'.locs = st.locs) ∧
    (x = none → fe = none → ∃ l, g.files = some l ∧
      g' = { g with files := some (l ++ [artOf g (e.resolve d.dir n) wild]) } ∧
      (wild = false → e.isFile (e.resolve d.dir n) = true) ∧
      (g.enabled = true → located st (g.target, e.resolve d.dir n) = false ∧
        st'.locs = ((g.target, e.resolve d.dir n), d.filesLoc) :: st.locs)) ∧
    (x = none → fe ≠ none → g' = g ∧ st'.locs = st.locs) := by
  unfold createSource at h
  simp only at h
  by_cases h1 : (!wild && !e.isFile (e.resolve d.dir n)) = true
  · rw [if_pos h1] at h
    simp only [Prod.mk.injEq] at h
    obtain ⟨rfl, rfl, rfl, rfl⟩ := h
    exact ⟨⟨rfl, rfl, rfl, rfl, rfl, rfl⟩, fun _ => rfl, fun _ h => by simp at h,
      fun _ _ => ⟨rfl, rfl⟩⟩
  · rw [if_neg h1] at h
    by_cases h2 : (g.enabled && located st (g.target, e.resolve d.dir n)) = true
    · rw [if_pos h2] at h
      simp only [Prod.mk.injEq] at h
      obtain ⟨rfl, rfl, rfl, rfl⟩ := h
      exact ⟨Same.refl _, fun _ => rfl, fun _ h => by simp at h, fun _ _ => ⟨rfl, rfl⟩⟩
    · rw [if_neg h2] at h
      have hsame : Same st (if g.enabled = true then
          { st with locs := ((g.target, e.resolve d.dir n), d.filesLoc) :: st.locs } else st) := by
        split
        · exact ⟨rfl, rfl, rfl, rfl, rfl, rfl⟩
        · exact Same.refl _
      cases hf : g.files with
      | none =>
        rw [hf] at h
        simp only [Prod.mk.injEq] at h
        obtain ⟨rfl, rfl, rfl, rfl⟩ := h
        refine ⟨hsame, ?_, fun h => by simp at h, fun h => by simp at h⟩
        intro hg; rw [if_neg (by simp [hg])]
      | some l =>
        rw [hf] at h
        simp only [Prod.mk.injEq] at h
        obtain ⟨rfl, rfl, rfl, rfl⟩ := h
        refine ⟨hsame, ?_, ?_, fun _ h => absurd rfl h⟩
        · intro hg; rw [if_neg (by simp [hg])]
        · intro _ _
          refine ⟨l, rfl, rfl, ?_, ?_⟩
          · intro hw; subst hw; simpa using h1
          · intro hg
            simp only [hg, Bool.true_and, Bool.not_eq_true] at h2
            exact ⟨h2, by rw [if_pos hg]⟩

/-- The group with the artifacts of the given file names added. -/
def withFiles (e : Env P) (d : GData) (wild : Bool) (ns : List String) (g : Group) : Group :=
  { g with files := g.files.map (· ++ ns.map (fun n => artOf g (e.resolve d.dir n) wild)) }

theorem createSources_spec (e : Env P) (d : GData) (wild : Bool) : ∀ (ns : List String)
    (st : State P) (g : Group) (errs : List FileErr) (st' : State P) (g' : Group)
    (errs' : List FileErr) (x : Option Err),
    createSources e d wild ns st g errs = (st', g', errs', x) →
    Same st st' ∧ (g.enabled = false → st'.locs = st.locs) ∧ (∃ k, errs' = errs ++ k) ∧
    (x = none → errs' = errs → g' = withFiles e d wild ns g ∧
      (wild = false → ∀ n ∈ ns, e.isFile (e.resolve d.dir n) = true) ∧
      (ns ≠ [] → g.files ≠ none)) := by
  intro ns
  induction ns with
  | nil =>
    intro st g errs st' g' errs' x h
    simp only [createSources, Prod.mk.injEq] at h
    obtain ⟨rfl, rfl, rfl, rfl⟩ := h
    refine ⟨Same.refl _, fun _ => rfl, ⟨[], by simp⟩, fun _ _ => ⟨?_, by simp, by simp⟩⟩
    cases g with | mk a b c dd ee f gg hh => cases hh <;> simp [withFiles]
  | cons n ns ih =>
    intro st g errs st' g' errs' x h
    rw [createSources] at h
    rcases hc : createSource e d st g n wild with ⟨st1, g1, fe, y⟩
    obtain ⟨hs, hl, hok, herr⟩ := createSource_spec e d st g n wild st1 g1 fe y hc
    rw [hc] at h
    cases y with
    | some y =>
      simp only [Prod.mk.injEq] at h
      obtain ⟨rfl, rfl, rfl, rfl⟩ := h
      exact ⟨hs, hl, ⟨[], by simp⟩, fun h => by simp at h⟩
    | none =>
      cases fe with
      | some fe =>
        simp only at h
        obtain ⟨rfl, hl1⟩ := herr rfl (by simp)
        obtain ⟨hs2, hl2, ⟨k, hk⟩, _⟩ := ih _ _ _ _ _ _ _ h
        refine ⟨hs.trans hs2, fun hg => (hl2 hg).trans hl1, ⟨fe :: k, by rw [hk]; simp⟩, ?_⟩
        intro _ he
        rw [hk] at he
        exact absurd (congrArg List.length he) (by simp)
      | none =>
        simp only at h
        obtain ⟨l, hgl, hg1, hw, hen⟩ := hok rfl rfl
        obtain ⟨hs2, hl2, hk, hgood⟩ := ih _ _ _ _ _ _ _ h
        have hge : g1.enabled = g.enabled := by rw [hg1]
        refine ⟨hs.trans hs2, fun hg => (hl2 (hge.trans hg)).trans (hl hg), hk, ?_⟩
        intro hx he
        obtain ⟨h1, h2, _⟩ := hgood hx he
        refine ⟨?_, ?_, fun _ => by rw [hgl]; simp⟩
        · rw [h1, hg1]
          simp [withFiles, hgl, artOf]
        · intro hwild m hm
          rcases List.mem_cons.1 hm with rfl | hm
          · exact hw hwild
          · exact h2 hwild m hm

theorem getMap_spec [DecidableEq P] (e : Env P) (cur : Option Group) (id : Nat)
    (ex : Option Nat) (st : State P) :
    (getGroupPropertyMap e cur id ex st).1 =
      { st with heap := (getGroupPropertyMap e cur id ex st).1.heap } := by
  unfold getGroupPropertyMap
  cases ex with
  | some r => simp only; split <;> rfl
  | none => simp only; cases cur <;> simp only <;> split <;> rfl

theorem newGroup_spec [DecidableEq P] (e : Env P) (en : Bool) (cur : Option Group) (d : GData)
    (st : State P) :
    (newGroup e en cur d st).1 = { st with heap := (newGroup e en cur d st).1.heap } ∧
    (newGroup e en cur d st).2 =
      { id := d.id, enabled := en, tags := stepTags (curTags cur) d,
        overrideTags := d.overrideTags, props := (getGroupPropertyMap e cur d.id none st).2,
        pre := stepPre (curPre cur) d, target := d.target,
        files := if d.filesLine || d.atProduct then some [] else none } := by
  refine ⟨?_, ?_⟩
  · show (getGroupPropertyMap e cur d.id none st).1 = _
    exact getMap_spec e cur d.id none st
  · rw [← groupTags_eq, ← groupPrefix_eq]; rfl

/-! ## Groups as far as the heap does not matter -/

/-- What a group is, apart from its property map. -/
structure GV where
  id : Nat
  tags : List String
  overrideTags : Bool
  target : String
  files : List (String × Bool)
  deriving DecidableEq

def Group.view (g : Group) : GV :=
  ⟨g.id, g.tags, g.overrideTags, g.target, (g.files.getD []).map (fun a => (a.path, a.wildcard))⟩

def State.views (st : State P) : List GV := (st.groups.filter (·.enabled)).map Group.view

/-- The artifacts of a group have the data of the group. -/
def ArtOk (e : Env P) (g : Group) : Prop :=
  ∀ a ∈ g.files.getD [], a.tags = g.tags ∧ a.overrideTags = g.overrideTags ∧ a.props = g.props ∧
    a.target = g.target ∧ (a.wildcard = false → e.isFile a.path = true)

/-- The files of a group. -/
def fileList (e : Env P) (pre : String) (d : GData) : List (String × Bool) :=
  ((expandedOf e pre d).map fun n => (e.resolve d.dir n, true)) ++
  (plainOf e pre d).map fun n => (e.resolve d.dir n, false)

theorem prefix_eq_of_prefix {α : Type} {a b c : List α} (h : a <+: b) (k : b <+: c) (hc : c = a) :
    b = a ∧ c = b := by
  subst hc
  have : b.length = c.length := Nat.le_antisymm k.length_le h.length_le
  exact ⟨k.eq_of_length this, (k.eq_of_length this).symm⟩

/-- A group whose files are in order. -/
theorem resolveFiles_spec [DecidableEq P] (e : Env P) (en : Bool) (cur : Option Group) (d : GData)
    (st st' : State P) (r : Option Group) (x : Option Err)
    (h : resolveFiles e en cur d st = (st', r, x)) :
    st'.taggers = st.taggers ∧ st'.aprops = st.aprops ∧ st'.filters = st.filters ∧
    st.printed <+: st'.printed ∧ st'.heap = (newGroup e en cur d st).1.heap ∧
    (en = false → st'.locs = st.locs ∧ st'.printed = st.printed ∧ st'.views = st.views) ∧
    (∀ g, r = some g → x = none ∧ g.enabled = en ∧ g.tags = stepTags (curTags cur) d ∧
      g.pre = stepPre (curPre cur) d ∧ g.props = (newGroup e en cur d st).2.props ∧
      st'.groups = st.groups ++ [g]) ∧
    (r = none → x ≠ none ∧ st'.groups = st.groups) ∧
    (∀ g, r = some g → st'.printed = st.printed → en = true →
      g.view = ⟨d.id, stepTags (curTags cur) d, d.overrideTags, d.target,
        fileList e (stepPre (curPre cur) d) d⟩) := by
  unfold resolveFiles at h
  obtain ⟨hn1, hn2⟩ := newGroup_spec e en cur d st
  rcases hng : newGroup e en cur d st with ⟨s0, g0⟩
  rw [hng] at h hn1 hn2
  simp only at h hn1 hn2
  rcases hc1 : createSources e d true (expandedOf e g0.pre d) s0 g0 [] with ⟨s1, g1, e1, x1⟩
  rw [hc1] at h
  obtain ⟨hs1, hl1, ⟨k1, hk1⟩, hg1⟩ := createSources_spec e d true _ _ _ _ _ _ _ _ hc1
  have a0 : s0.taggers = st.taggers ∧ s0.aprops = st.aprops ∧ s0.filters = st.filters ∧
      s0.printed = st.printed ∧ s0.locs = st.locs ∧ s0.groups = st.groups := by
    rw [hn1]; exact ⟨rfl, rfl, rfl, rfl, rfl, rfl⟩
  obtain ⟨t0, p0, f0, r0, l0, gr0⟩ := a0
  have hge0 : g0.enabled = en := by rw [hn2]
  cases x1 with
  | some x1 =>
    simp only [Prod.mk.injEq] at h
    obtain ⟨rfl, rfl, rfl⟩ := h
    refine ⟨hs1.taggers.trans t0, hs1.aprops.trans p0, hs1.filters.trans f0,
      by rw [hs1.printed, r0]; exact List.prefix_refl _, hs1.heap, ?_, by simp,
      fun _ => ⟨by simp, hs1.groups.trans gr0⟩, by simp⟩
    intro hen
    refine ⟨(hl1 (hge0.trans hen)).trans l0, hs1.printed.trans r0, ?_⟩
    simp only [State.views, hs1.groups, gr0]
  | none =>
    simp only at h
    rcases hc2 : createSources e d false (plainOf e g1.pre d) s1 g1 e1 with ⟨s2, g2, e2, x2⟩
    rw [hc2] at h
    obtain ⟨hs2, hl2, ⟨k2, hk2⟩, hg2⟩ := createSources_spec e d false _ _ _ _ _ _ _ _ hc2
    have hs := hs1.trans hs2
    -- the data of the group stay the same
    have keep : ∀ (w : Bool) (ns : List String) (s s' : State P) (g g' : Group)
        (er er' : List FileErr) (y : Option Err),
        createSources e d w ns s g er = (s', g', er', y) →
        g'.enabled = g.enabled ∧ g'.tags = g.tags ∧ g'.pre = g.pre ∧ g'.props = g.props ∧
        g'.id = g.id ∧ g'.overrideTags = g.overrideTags ∧ g'.target = g.target := by
      intro w ns
      induction ns with
      | nil =>
        intro s s' g g' er er' y hh
        simp only [createSources, Prod.mk.injEq] at hh
        obtain ⟨_, rfl, _, _⟩ := hh
        exact ⟨rfl, rfl, rfl, rfl, rfl, rfl, rfl⟩
      | cons n ns ih =>
        intro s s' g g' er er' y hh
        rw [createSources] at hh
        rcases hcc : createSource e d s g n w with ⟨s3, g3, fe3, y3⟩
        have h3 : g3.enabled = g.enabled ∧ g3.tags = g.tags ∧ g3.pre = g.pre ∧
            g3.props = g.props ∧ g3.id = g.id ∧ g3.overrideTags = g.overrideTags ∧
            g3.target = g.target := by
          unfold createSource at hcc
          simp only at hcc
          repeat' split at hcc
          all_goals
            simp only [Prod.mk.injEq] at hcc
            obtain ⟨_, rfl, _, _⟩ := hcc
            exact ⟨rfl, rfl, rfl, rfl, rfl, rfl, rfl⟩
        rw [hcc] at hh
        obtain ⟨q1, q2, q3, q4, q5, q6, q7⟩ := h3
        cases y3 with
        | some y3 =>
          simp only [Prod.mk.injEq] at hh
          obtain ⟨_, rfl, _, _⟩ := hh
          exact ⟨q1, q2, q3, q4, q5, q6, q7⟩
        | none =>
          cases fe3 with
          | some fe3 =>
            obtain ⟨w1, w2, w3, w4, w5, w6, w7⟩ := ih _ _ _ _ _ _ _ hh
            exact ⟨w1.trans q1, w2.trans q2, w3.trans q3, w4.trans q4, w5.trans q5, w6.trans q6,
              w7.trans q7⟩
          | none =>
            obtain ⟨w1, w2, w3, w4, w5, w6, w7⟩ := ih _ _ _ _ _ _ _ hh
            exact ⟨w1.trans q1, w2.trans q2, w3.trans q3, w4.trans q4, w5.trans q5, w6.trans q6,
              w7.trans q7⟩
    obtain ⟨b1, b2, b3, b4, b5, b6, b7⟩ := keep _ _ _ _ _ _ _ _ _ hc1
    obtain ⟨c1, c2, c3, c4, c5, c6, c7⟩ := keep _ _ _ _ _ _ _ _ _ hc2
    have hl2' : en = false → s2.locs = st.locs := fun hen =>
      (hl2 (b1.trans (hge0.trans hen))).trans ((hl1 (hge0.trans hen)).trans l0)
    cases x2 with
    | some x2 =>
      simp only [Prod.mk.injEq] at h
      obtain ⟨rfl, rfl, rfl⟩ := h
      refine ⟨hs.taggers.trans t0, hs.aprops.trans p0, hs.filters.trans f0,
        by rw [hs.printed, r0]; exact List.prefix_refl _, hs.heap, ?_, by simp,
        fun _ => ⟨by simp, hs.groups.trans gr0⟩, by simp⟩
      intro hen
      refine ⟨hl2' hen, hs.printed.trans r0, ?_⟩
      simp only [State.views, hs.groups, gr0]
    | none =>
      simp only at h
      by_cases hbad : (decide (e2 ≠ []) && g2.enabled && e.strict) = true
      · rw [if_pos hbad] at h
        simp only [Prod.mk.injEq] at h
        obtain ⟨rfl, rfl, rfl⟩ := h
        refine ⟨hs.taggers.trans t0, hs.aprops.trans p0, hs.filters.trans f0,
          by rw [hs.printed, r0]; exact List.prefix_refl _, hs.heap, ?_, by simp,
          fun _ => ⟨by simp, hs.groups.trans gr0⟩, by simp⟩
        intro hen
        refine ⟨hl2' hen, hs.printed.trans r0, ?_⟩
        simp only [State.views, hs.groups, gr0]
      · rw [if_neg hbad] at h
        simp only [Prod.mk.injEq] at h
        obtain ⟨hst, rfl, rfl⟩ := h
        have hen2 : g2.enabled = en := c1.trans (b1.trans hge0)
        have heq : st'.taggers = s2.taggers ∧ st'.aprops = s2.aprops ∧ st'.filters = s2.filters ∧
            st'.heap = s2.heap ∧ st'.locs = s2.locs ∧ st'.groups = s2.groups ++ [g2] ∧
            st'.printed = s2.printed ++
              (if (decide (e2 ≠ []) && g2.enabled) = true then [.files e2] else []) := by
          rw [← hst]
          split <;> simp
        obtain ⟨q1, q2, q3, q4, q5, q6, q7⟩ := heq
        refine ⟨q1.trans (hs.taggers.trans t0), q2.trans (hs.aprops.trans p0),
          q3.trans (hs.filters.trans f0), ?_, q4.trans hs.heap, ?_, ?_, by simp, ?_⟩
        · rw [q7, hs.printed, r0]; exact List.prefix_append _ _
        · intro hen
          refine ⟨q5.trans (hl2' hen), ?_, ?_⟩
          · rw [q7, hs.printed, r0, hen2, hen]; simp
          · simp only [State.views, q6, hs.groups, gr0, List.filter_append]
            simp [hen2, hen]
        · rintro g hg
          rw [Option.some.injEq] at hg
          subst hg
          refine ⟨rfl, hen2, ?_, ?_, ?_, by rw [q6, hs.groups, gr0]⟩
          · rw [c2, b2, hn2]
          · rw [c3, b3, hn2]
          · rw [c4, b4]
        · rintro g hg hpr hen
          rw [Option.some.injEq] at hg
          subst hg
          have he2 : e2 = [] := by
            by_cases he : e2 = []
            · exact he
            · rw [q7, hs.printed, r0, hen2, hen] at hpr
              exact absurd (congrArg List.length hpr) (by simp [he])
          have he1 : e1 = [] := by
            rw [hk2] at he2
            exact (List.append_eq_nil_iff.1 he2).1
          obtain ⟨hw1, _, hn1'⟩ := hg1 rfl he1
          obtain ⟨hw2, _, hn2'⟩ := hg2 rfl (by rw [he2, he1])
          have hpre1 : g1.pre = stepPre (curPre cur) d := by rw [b3, hn2]
          have hpre0 : g0.pre = stepPre (curPre cur) d := by rw [hn2]
          unfold Group.view
          rw [c5, b5, c2, b2, c6, b6, c7, b7]
          rw [hw2, hw1, hn2]
          simp only [GV.mk.injEq, true_and]
          unfold withFiles fileList artOf
          by_cases hfl : (d.filesLine || d.atProduct) = true
          · simp only [hfl, if_true]
            simp [Function.comp_def]
          · -- without a list there are no files
            have hf0 : g0.files = none := by rw [hn2]; simp only; rw [if_neg hfl]
            have hf1 : g1.files = none := by rw [hw1]; simp [withFiles, hf0]
            have hx0 : expandedOf e (stepPre (curPre cur) d) d = [] := by
              rw [← hpre0]
              by_cases hh : expandedOf e g0.pre d = []
              · exact hh
              · exact absurd hf0 (hn1' hh)
            have hx1 : plainOf e (stepPre (curPre cur) d) d = [] := by
              rw [← hpre1]
              by_cases hh : plainOf e g1.pre d = []
              · exact hh
              · exact absurd hf1 (hn2' hh)
            rw [hx0, hx1]
            simp [hfl]

end Verif.Tags
