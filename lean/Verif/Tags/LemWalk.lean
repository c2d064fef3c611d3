import Verif.Tags.Lem
/-! # Lemmas: the walk over the items of a product, in full -/
namespace Verif.Tags

variable {P : Type} [DecidableEq P]

theorem newGroup_heap (e : Env P) (en : Bool) (cur : Option Group) (d : GData) (st : State P) :
    st.heap <+: (newGroup e en cur d st).1.heap := by
  show st.heap <+: (getGroupPropertyMap e cur d.id none st).1.heap
  unfold getGroupPropertyMap
  cases cur <;> simp only <;> split
  all_goals first
    | exact List.prefix_refl _
    | exact List.prefix_append _ _

/-- Nothing happened that matters: only groups that are not enabled were added. -/
structure Quiet (st st' : State P) : Prop where
  heap : st.heap <+: st'.heap
  views : st'.views = st.views
  filters : st'.filters = st.filters
  aprops : st'.aprops = st.aprops
  locs : st'.locs = st.locs
  printed : st'.printed = st.printed
  groups : ∃ l, st'.groups = st.groups ++ l ∧ ∀ g ∈ l, g.enabled = false

omit [DecidableEq P] in
theorem Quiet.refl (st : State P) : Quiet st st :=
  ⟨List.prefix_refl _, rfl, rfl, rfl, rfl, rfl, [], by simp, by simp⟩

omit [DecidableEq P] in
theorem Quiet.trans {a b c : State P} (h : Quiet a b) (k : Quiet b c) : Quiet a c := by
  refine ⟨h.heap.trans k.heap, k.views.trans h.views, k.filters.trans h.filters,
    k.aprops.trans h.aprops, k.locs.trans h.locs, k.printed.trans h.printed, ?_⟩
  obtain ⟨l, hl, hd⟩ := h.groups
  obtain ⟨m, hm, hd'⟩ := k.groups
  refine ⟨l ++ m, by rw [hm, hl, List.append_assoc], ?_⟩
  intro g hg
  rcases List.mem_append.1 hg with hg | hg
  · exact hd g hg
  · exact hd' g hg

omit [DecidableEq P] in
theorem resolveTagger_quiet (t : TaggerItem) (st : State P) : Quiet st (resolveTagger t st).1 := by
  unfold resolveTagger
  split
  · exact Quiet.refl _
  · split
    · exact Quiet.refl _
    · exact ⟨List.prefix_refl _, rfl, rfl, rfl, rfl, rfl, [], by simp, by simp⟩

theorem curEnabled_match (pe : Bool) (cur : Option Group) :
    (match cur with
      | some g => g.enabled
      | none => pe) = curEnabled pe cur := by
  cases cur <;> rfl

/-- The result of the body of a group, before errors are looked at. -/
def body (e : Env P) (pe : Bool) (cur : Option Group) (en : Bool) (d : GData) (cs : List GItem)
    (st : State P) : State P × Option Err :=
  if d.filter ≠ [] then resolveFilter e en cur d st
  else
    match resolveFiles e en cur d st with
    | (st, some g, _) => resolveItems e pe (some g) en cs st
    | (st, none, err) => (st, err)

/-- What becomes of an error. -/
def settle (e : Env P) (en : Bool) (r : State P × Option Err) : State P × Option Err :=
  match r.2 with
  | none => (r.1, none)
  | some x =>
    if en = false then (r.1, none)
    else if e.strict then (r.1, some x)
    else ({ r.1 with printed := r.1.printed ++ [x] }, none)

theorem resolveItem_group (e : Env P) (pe : Bool) (cur : Option Group) (runT : Bool) (d : GData)
    (cs : List GItem) (st : State P) :
    resolveItem e pe cur runT (.group d cs) st =
      settle e (curEnabled pe cur && d.cond)
        (body e pe cur (curEnabled pe cur && d.cond) d cs st) := by
  unfold resolveItem settle body
  cases cur <;> rfl

mutual

theorem resolveItem_quiet (e : Env P) (pe : Bool) (cur : Option Group) (runT : Bool)
    (h : curEnabled pe cur = false) : ∀ (i : GItem) (st : State P),
    Quiet st (resolveItem e pe cur runT i st).1 ∧
    (runT = false → (resolveItem e pe cur runT i st).1.taggers = st.taggers ∧
      (resolveItem e pe cur runT i st).2 = none)
  | .tagger t, st => by
    rw [resolveItem]
    cases runT with
    | true => exact ⟨resolveTagger_quiet t st, by simp⟩
    | false => exact ⟨Quiet.refl _, fun _ => ⟨rfl, rfl⟩⟩
  | .group d cs, st => by
    rw [resolveItem_group]
    have hen : (curEnabled pe cur && d.cond) = false := by simp [h]
    rw [hen]
    have hb : Quiet st (body e pe cur false d cs st).1 ∧
        (body e pe cur false d cs st).1.taggers = st.taggers := by
      unfold body
      by_cases hf : d.filter = []
      · rw [if_neg (by simp [hf])]
        rcases hr : resolveFiles e false cur d st with ⟨s1, g, x⟩
        obtain ⟨a1, a2, a3, _, a5, a6, a7, a8, _⟩ := resolveFiles_spec e false cur d st s1 g x hr
        obtain ⟨b1, b2, b3⟩ := a6 rfl
        have hp : st.heap <+: s1.heap := by rw [a5]; exact newGroup_heap e false cur d st
        cases g with
        | some g =>
          obtain ⟨_, c1, _, _, _, c5⟩ := a7 g rfl
          have hq : Quiet st s1 := ⟨hp, b3, a3, a2, b1, b2, [g], c5, by simp [c1]⟩
          obtain ⟨d1, d2⟩ := resolveItems_quiet e pe (some g) false c1 cs s1
          simp only
          exact ⟨hq.trans d1, (d2 rfl).1.trans a1⟩
        | none =>
          simp only
          exact ⟨⟨hp, b3, a3, a2, b1, b2, [], by simp [(a8 rfl).2], by simp⟩, a1⟩
      · rw [if_pos hf]
        unfold resolveFilter
        split
        · exact ⟨Quiet.refl _, rfl⟩
        · rw [if_pos rfl]; exact ⟨Quiet.refl _, rfl⟩
    have hs : (settle e false (body e pe cur false d cs st)) =
        ((body e pe cur false d cs st).1, none) := by
      unfold settle
      cases (body e pe cur false d cs st).2 <;> rfl
    rw [hs]
    exact ⟨hb.1, fun _ => ⟨hb.2, rfl⟩⟩

theorem resolveItems_quiet (e : Env P) (pe : Bool) (cur : Option Group) (runT : Bool)
    (h : curEnabled pe cur = false) : ∀ (is : List GItem) (st : State P),
    Quiet st (resolveItems e pe cur runT is st).1 ∧
    (runT = false → (resolveItems e pe cur runT is st).1.taggers = st.taggers ∧
      (resolveItems e pe cur runT is st).2 = none)
  | [], st => by
    rw [resolveItems]; exact ⟨Quiet.refl _, fun _ => ⟨rfl, rfl⟩⟩
  | i :: is, st => by
    rw [resolveItems]
    obtain ⟨a1, a2⟩ := resolveItem_quiet e pe cur runT h i st
    rcases hr : resolveItem e pe cur runT i st with ⟨s1, x⟩
    rw [hr] at a1 a2
    cases x with
    | some x =>
      simp only
      refine ⟨a1, fun hf => ?_⟩
      exact absurd (a2 hf).2 (by simp)
    | none =>
      simp only
      obtain ⟨b1, b2⟩ := resolveItems_quiet e pe cur runT h is s1
      exact ⟨a1.trans b1, fun hf => ⟨((b2 hf).1).trans (a2 hf).1, (b2 hf).2⟩⟩

end

/-! ## Printed errors -/

theorem resolveFilter_spec (e : Env P) (cur : Option Group) (d : GData) (st st' : State P)
    (x : Option Err) (h : resolveFilter e true cur d st = (st', x)) :
    st'.printed = st.printed ∧ st'.groups = st.groups ∧ st'.taggers = st.taggers ∧
    st'.locs = st.locs ∧
    (x = none → st'.filters = st.filters ++ [(d.filter, d.tags, d.id)]) ∧
    (x ≠ none → st' = st) := by
  unfold resolveFilter at h
  split at h
  · cases h; exact ⟨rfl, rfl, rfl, rfl, by simp, fun _ => rfl⟩
  · simp only [Bool.true_eq_false, if_false] at h
    split at h
    · rename_i a ha
      split at h
      · cases h; exact ⟨rfl, rfl, rfl, rfl, by simp, fun _ => rfl⟩
      · have hm := getMap_spec e cur d.id a.props st
        rcases hg : getGroupPropertyMap e cur d.id a.props st with ⟨s1, r⟩
        rw [hg] at h hm
        simp only [Prod.mk.injEq] at h hm
        obtain ⟨rfl, rfl⟩ := h
        rw [hm]
        exact ⟨rfl, rfl, rfl, rfl, fun _ => rfl, by simp⟩
    · have hm := getMap_spec e cur d.id none st
      rcases hg : getGroupPropertyMap e cur d.id none st with ⟨s1, r⟩
      rw [hg] at h hm
      simp only [Prod.mk.injEq] at h hm
      obtain ⟨rfl, rfl⟩ := h
      rw [hm]
      exact ⟨rfl, rfl, rfl, rfl, fun _ => rfl, by simp⟩

mutual

theorem resolveItem_printed (e : Env P) (pe : Bool) (cur : Option Group) (runT : Bool) :
    ∀ (i : GItem) (st : State P), st.printed <+: (resolveItem e pe cur runT i st).1.printed
  | .tagger t, st => by
    rw [resolveItem]
    cases runT with
    | true => simp only [if_true]; rw [(resolveTagger_quiet t st).printed]; exact List.prefix_refl _
    | false => exact List.prefix_refl _
  | .group d cs, st => by
    rw [resolveItem_group]
    generalize hen : (curEnabled pe cur && d.cond) = en
    have hb : st.printed <+: (body e pe cur en d cs st).1.printed := by
      unfold body
      split
      · cases en with
        | true =>
          rcases hr : resolveFilter e true cur d st with ⟨s1, x⟩
          rw [(resolveFilter_spec e cur d st s1 x hr).1]; exact List.prefix_refl _
        | false =>
          unfold resolveFilter
          split
          · exact List.prefix_refl _
          · rw [if_pos rfl]; exact List.prefix_refl _
      · rcases hr : resolveFiles e en cur d st with ⟨s1, g, x⟩
        have hp := (resolveFiles_spec e en cur d st s1 g x hr).2.2.2.1
        cases g with
        | some g => simp only; exact hp.trans (resolveItems_printed e pe (some g) en cs s1)
        | none => exact hp
    unfold settle
    split
    · exact hb
    · split
      · exact hb
      · split
        · exact hb
        · exact hb.trans (List.prefix_append _ _)

theorem resolveItems_printed (e : Env P) (pe : Bool) (cur : Option Group) (runT : Bool) :
    ∀ (is : List GItem) (st : State P), st.printed <+: (resolveItems e pe cur runT is st).1.printed
  | [], st => by rw [resolveItems]; exact List.prefix_refl _
  | i :: is, st => by
    rw [resolveItems]
    have a1 := resolveItem_printed e pe cur runT i st
    rcases hr : resolveItem e pe cur runT i st with ⟨s1, x⟩
    rw [hr] at a1
    cases x with
    | some x => exact a1
    | none => exact a1.trans (resolveItems_printed e pe cur runT is s1)

end

/-! ## Places -/

mutual

theorem placesI_outer : ∀ (outer : List GData) (i : GItem) (c : Place), c ∈ placesI outer i →
    ∃ l, c.path = outer ++ l
  | outer, .tagger t, c, h => by simp [placesI] at h
  | outer, .group d cs, c, h => by
    rw [placesI] at h
    rcases List.mem_cons.1 h with rfl | h
    · exact ⟨[d], rfl⟩
    · split at h
      · obtain ⟨l, hl⟩ := placesL_outer (outer ++ [d]) cs c h
        exact ⟨d :: l, by rw [hl]; simp⟩
      · simp at h

theorem placesL_outer : ∀ (outer : List GData) (is : List GItem) (c : Place),
    c ∈ placesL outer is → ∃ l, c.path = outer ++ l
  | outer, [], c, h => by simp [placesL] at h
  | outer, i :: is, c, h => by
    rw [placesL] at h
    rcases List.mem_append.1 h with h | h
    · exact placesI_outer outer i c h
    · exact placesL_outer outer is c h

end

mutual

theorem taggersI_outer : ∀ (outer : List GData) (i : GItem) (x : List GData × TaggerItem),
    x ∈ taggersI outer i → ∃ l, x.1 = outer ++ l
  | outer, .tagger t, x, h => by
    simp only [taggersI, List.mem_singleton] at h; subst h; exact ⟨[], by simp⟩
  | outer, .group d cs, x, h => by
    rw [taggersI] at h
    split at h
    · obtain ⟨l, hl⟩ := taggersL_outer (outer ++ [d]) cs x h
      exact ⟨d :: l, by rw [hl]; simp⟩
    · simp at h

theorem taggersL_outer : ∀ (outer : List GData) (is : List GItem) (x : List GData × TaggerItem),
    x ∈ taggersL outer is → ∃ l, x.1 = outer ++ l
  | outer, [], x, h => by simp [taggersL] at h
  | outer, i :: is, x, h => by
    rw [taggersL] at h
    rcases List.mem_append.1 h with h | h
    · exact taggersI_outer outer i x h
    · exact taggersL_outer outer is x h

end

theorem active_append_false (pe : Bool) (a b : List GData) (h : active pe a = false) :
    active pe (a ++ b) = false := by
  unfold active at h ⊢
  rw [List.all_append, ← Bool.and_assoc, h, Bool.false_and]

/-- Groups with files. -/
def isFileGroup (pe : Bool) (c : Place) : Bool := active pe c.path && c.d.filter.isEmpty

def isFilterGroup (pe : Bool) (c : Place) : Bool := active pe c.path && !c.d.filter.isEmpty

def isTagger (pe : Bool) (x : List GData × TaggerItem) : Bool := active pe x.1 && x.2.cond

theorem filter_inactive (pe : Bool) (outer : List GData) (is : List GItem)
    (h : active pe outer = false) :
    (placesL outer is).filter (isFileGroup pe) = [] ∧
    (placesL outer is).filter (isFilterGroup pe) = [] ∧
    (taggersL outer is).filter (isTagger pe) = [] := by
  have key : ∀ c ∈ placesL outer is, active pe c.path = false := by
    intro c hc
    obtain ⟨l, hl⟩ := placesL_outer outer is c hc
    rw [hl]; exact active_append_false pe outer l h
  refine ⟨?_, ?_, ?_⟩
  · rw [List.filter_eq_nil_iff]; intro c hc; simp [isFileGroup, key c hc]
  · rw [List.filter_eq_nil_iff]; intro c hc; simp [isFilterGroup, key c hc]
  · rw [List.filter_eq_nil_iff]
    intro x hx
    obtain ⟨l, hl⟩ := taggersL_outer outer is x hx
    simp [isTagger, hl, active_append_false pe outer l h]

/-! ## The walk -/

/-- The group at a place. -/
def viewOf (e : Env P) (c : Place) : GV :=
  ⟨c.d.id, tagsOf c.path, c.d.overrideTags, c.d.target, fileList e (preOf c.path) c.d⟩

def filterOf (c : Place) : List String × List String × Nat := (c.d.filter, c.d.tags, c.d.id)

def taggerOf (x : List GData × TaggerItem) : Tagger := ⟨x.2.patterns, x.2.tags, x.2.priority⟩

omit [DecidableEq P] in
theorem resolveTagger_spec (t : TaggerItem) (st st' : State P)
    (h : resolveTagger t st = (st', none)) :
    st'.taggers = st.taggers ++ (if t.cond then [⟨t.patterns, t.tags, t.priority⟩] else []) := by
  unfold resolveTagger at h
  split at h
  · rename_i hc
    cases h
    simp only [Bool.not_eq_true'] at hc
    simp [hc]
  · rename_i hc
    simp only [Bool.not_eq_true', Bool.not_eq_false] at hc
    split at h
    · cases h
    · cases h
      simp [hc]

theorem tagsOf_snoc (outer : List GData) (d : GData) :
    tagsOf (outer ++ [d]) = stepTags (tagsOf outer) d := by simp [tagsOf]

theorem preOf_snoc (outer : List GData) (d : GData) :
    preOf (outer ++ [d]) = stepPre (preOf outer) d := by simp [preOf]

/-- Everything the items say has been done. -/
structure Walked (e : Env P) (pe : Bool) (st st' : State P) (pl : List Place)
    (tl : List (List GData × TaggerItem)) : Prop where
  views : st'.views = st.views ++ (pl.filter (isFileGroup pe)).map (viewOf e)
  filters : st'.filters = st.filters ++ (pl.filter (isFilterGroup pe)).map filterOf
  taggers : st'.taggers = st.taggers ++ (tl.filter (isTagger pe)).map taggerOf

omit [DecidableEq P] in
theorem Walked.trans {e : Env P} {pe : Bool} {a b c : State P} {p1 p2 : List Place}
    {t1 t2 : List (List GData × TaggerItem)} (h : Walked e pe a b p1 t1)
    (k : Walked e pe b c p2 t2) : Walked e pe a c (p1 ++ p2) (t1 ++ t2) := by
  refine ⟨?_, ?_, ?_⟩
  · rw [k.views, h.views]; simp
  · rw [k.filters, h.filters]; simp
  · rw [k.taggers, h.taggers]; simp

mutual

theorem resolveItem_walk (e : Env P) (pe : Bool) : ∀ (i : GItem) (cur : Option Group)
    (outer : List GData) (st st' : State P), CurOk pe cur outer → active pe outer = true →
    resolveItem e pe cur true i st = (st', none) → st'.printed = st.printed →
    Walked e pe st st' (placesI outer i) (taggersI outer i)
  | .tagger t, cur, outer, st, st', hc, ha, h, hp => by
    rw [resolveItem, if_pos rfl] at h
    have hq := resolveTagger_quiet t st
    rw [h] at hq
    refine ⟨?_, ?_, ?_⟩
    · rw [hq.views]; simp [placesI]
    · rw [hq.filters]; simp [placesI]
    · rw [resolveTagger_spec t st st' h]
      cases htc : t.cond <;> simp [taggersI, isTagger, ha, taggerOf, htc]
  | .group d cs, cur, outer, st, st', hc, ha, h, hp => by
    cases hd : d.cond with
    | false =>
      have hen : (curEnabled pe cur && d.cond) = false := by simp [hd]
      have hin : active pe (outer ++ [d]) = false := by rw [active_snoc, hd, Bool.and_false]
      -- the group and all in it is switched off
      have hq : Quiet st st' ∧ st'.taggers = st.taggers := by
        rw [resolveItem_group, hen] at h
        have hb : Quiet st (body e pe cur false d cs st).1 ∧
            (body e pe cur false d cs st).1.taggers = st.taggers := by
          unfold body
          by_cases hf : d.filter = []
          · rw [if_neg (by simp [hf])]
            rcases hr : resolveFiles e false cur d st with ⟨s1, g, x⟩
            obtain ⟨a1, a2, a3, _, a5, a6, a7, a8, _⟩ :=
              resolveFiles_spec e false cur d st s1 g x hr
            obtain ⟨b1, b2, b3⟩ := a6 rfl
            have hpp : st.heap <+: s1.heap := by rw [a5]; exact newGroup_heap e false cur d st
            cases g with
            | some g =>
              obtain ⟨_, c1, _, _, _, c5⟩ := a7 g rfl
              have hq : Quiet st s1 := ⟨hpp, b3, a3, a2, b1, b2, [g], c5, by simp [c1]⟩
              obtain ⟨d1, d2⟩ := resolveItems_quiet e pe (some g) false c1 cs s1
              simp only
              exact ⟨hq.trans d1, (d2 rfl).1.trans a1⟩
            | none =>
              simp only
              exact ⟨⟨hpp, b3, a3, a2, b1, b2, [], by simp [(a8 rfl).2], by simp⟩, a1⟩
          · rw [if_pos hf]
            unfold resolveFilter
            split
            · exact ⟨Quiet.refl _, rfl⟩
            · rw [if_pos rfl]; exact ⟨Quiet.refl _, rfl⟩
        have hs : (settle e false (body e pe cur false d cs st)) =
            ((body e pe cur false d cs st).1, none) := by
          unfold settle
          cases (body e pe cur false d cs st).2 <;> rfl
        rw [hs] at h
        simp only [Prod.mk.injEq, and_true] at h
        rw [← h]
        exact hb
      obtain ⟨f1, f2, f3⟩ := filter_inactive pe (outer ++ [d]) cs hin
      refine ⟨?_, ?_, ?_⟩
      · rw [hq.1.views, placesI, List.filter_cons, if_neg (by simp [isFileGroup, Place.path, hin])]
        split
        · rw [f1]; simp
        · simp
      · rw [hq.1.filters, placesI, List.filter_cons,
          if_neg (by simp [isFilterGroup, Place.path, hin])]
        split
        · rw [f2]; simp
        · simp
      · rw [hq.2, taggersI]
        split
        · rw [f3]; simp
        · simp
    | true =>
      have hce : curEnabled pe cur = true := hc.en.trans ha
      have hen : (curEnabled pe cur && d.cond) = true := by simp [hd, hce]
      have hin : active pe (outer ++ [d]) = true := by rw [active_snoc, hd, ha]; rfl
      rw [resolveItem_group, hen] at h
      -- there was no error in the body
      have hbody : body e pe cur true d cs st = (st', none) := by
        have hmono : st.printed <+: (body e pe cur true d cs st).1.printed := by
          unfold body
          split
          · rcases hr : resolveFilter e true cur d st with ⟨s1, x⟩
            rw [(resolveFilter_spec e cur d st s1 x hr).1]; exact List.prefix_refl _
          · rcases hr : resolveFiles e true cur d st with ⟨s1, g, x⟩
            have hpp := (resolveFiles_spec e true cur d st s1 g x hr).2.2.2.1
            cases g with
            | some g => simp only; exact hpp.trans (resolveItems_printed e pe (some g) true cs s1)
            | none => exact hpp
        rcases hb : body e pe cur true d cs st with ⟨s1, x⟩
        rw [hb] at h hmono
        cases x with
        | none => simpa [settle] using h
        | some x =>
          exfalso
          simp only [settle, Bool.true_eq_false, if_false] at h
          split at h
          · cases h
          · simp only [Prod.mk.injEq, and_true] at h
            rw [← h] at hp
            have := hmono.length_le
            have hl := congrArg List.length hp
            simp at hl this
            omega
      unfold body at hbody
      by_cases hf : d.filter = []
      · rw [if_neg (by simp [hf])] at hbody
        rcases hr : resolveFiles e true cur d st with ⟨s1, g, x⟩
        rw [hr] at hbody
        obtain ⟨a1, a2, a3, a4, a5, _, a7, a8, a9⟩ := resolveFiles_spec e true cur d st s1 g x hr
        cases g with
        | none =>
          simp only [Prod.mk.injEq] at hbody
          exact absurd hbody.2 (a8 rfl).1
        | some g =>
          simp only at hbody
          obtain ⟨b0, b1, b2, b3, b4, b5⟩ := a7 g rfl
          have hpr := resolveItems_printed e pe (some g) true cs s1
          rw [hbody] at hpr
          obtain ⟨hp1, hp2⟩ := prefix_eq_of_prefix a4 hpr hp
          have hv := a9 g rfl hp1 rfl
          have hcur : CurOk pe (some g) (outer ++ [d]) := by
            refine ⟨?_, ?_, ?_⟩
            · show g.enabled = _; rw [b1, hin]
            · show g.tags = _; rw [b2, tagsOf_snoc, hc.tags]
            · show g.pre = _; rw [b3, preOf_snoc, hc.pre]
          have ih := resolveItems_walk e pe cs (some g) (outer ++ [d]) s1 st' hcur hin hbody hp2
          have hvs : s1.views = st.views ++ [viewOf e ⟨outer, d⟩] := by
            unfold State.views
            rw [b5, List.filter_append, List.map_append]
            simp only [List.filter_cons, b1, List.filter_nil, if_true, List.map_cons, List.map_nil]
            rw [hv]
            unfold viewOf Place.path
            simp only [tagsOf_snoc, preOf_snoc, hc.tags, hc.pre]
          refine ⟨?_, ?_, ?_⟩
          · rw [ih.views, hvs, placesI, if_pos hf, List.filter_cons,
              if_pos (by simp [isFileGroup, Place.path, hin, hf])]
            simp
          · rw [ih.filters, a3, placesI, if_pos hf, List.filter_cons,
              if_neg (by simp [isFilterGroup, hf])]
          · rw [ih.taggers, a1, taggersI, if_pos hf]
      · rw [if_pos hf] at hbody
        obtain ⟨b1, b2, b3, b4, b5, _⟩ := resolveFilter_spec e cur d st st' none hbody
        refine ⟨?_, ?_, ?_⟩
        · rw [placesI, if_neg hf, List.filter_cons, if_neg (by simp [isFileGroup, hf])]
          simp [State.views, b2]
        · rw [b5 rfl, placesI, if_neg hf, List.filter_cons,
            if_pos (by simp [isFilterGroup, Place.path, hin, hf])]
          simp [filterOf]
        · rw [b3, taggersI, if_neg hf]; simp

theorem resolveItems_walk (e : Env P) (pe : Bool) : ∀ (is : List GItem) (cur : Option Group)
    (outer : List GData) (st st' : State P), CurOk pe cur outer → active pe outer = true →
    resolveItems e pe cur true is st = (st', none) → st'.printed = st.printed →
    Walked e pe st st' (placesL outer is) (taggersL outer is)
  | [], cur, outer, st, st', hc, ha, h, hp => by
    rw [resolveItems] at h
    cases h
    exact ⟨by simp [placesL], by simp [placesL], by simp [taggersL]⟩
  | i :: is, cur, outer, st, st', hc, ha, h, hp => by
    rw [resolveItems] at h
    have m1 := resolveItem_printed e pe cur true i st
    rcases hr : resolveItem e pe cur true i st with ⟨s1, x⟩
    rw [hr] at h m1
    cases x with
    | some x => cases h
    | none =>
      simp only at h m1
      have m2 := resolveItems_printed e pe cur true is s1
      rw [h] at m2
      obtain ⟨hp1, hp2⟩ := prefix_eq_of_prefix m1 m2 hp
      rw [placesL, taggersL]
      exact (resolveItem_walk e pe i cur outer st s1 hc ha hr hp1).trans
        (resolveItems_walk e pe is cur outer s1 st' hc ha h hp2)

end

end Verif.Tags
