import Verif.Tags.LemInv
/-! # Lemmas: property maps -/
namespace Verif.Tags

variable {P : Type} [DecidableEq P]

def stepProps (e : Env P) (p : P) (d : GData) : P :=
  if e.sets d.id = true ∧ e.eval d.id false p ≠ e.empty then e.eval d.id false p else p

theorem propsOf_snoc (e : Env P) (p : P) (outer : List GData) (d : GData) :
    propsOf e p (outer ++ [d]) = stepProps e (propsOf e p outer) d := by
  unfold propsOf stepProps; rw [List.foldl_append]; rfl

def curRef : Option Group → Nat
  | some g => g.props
  | none => 0

theorem getMap_none (e : Env P) (cur : Option Group) (d : GData) (st : State P) (p : P)
    (h : st.heap[curRef cur]? = some p) :
    st.heap <+: (getGroupPropertyMap e cur d.id none st).1.heap ∧
    (getGroupPropertyMap e cur d.id none st).1.heap[(getGroupPropertyMap e cur d.id none st).2]? =
      some (stepProps e p d) := by
  have hm : st.map e (curRef cur) = p := by simp [State.map, h]
  have hadd : additional e d.id p false = e.empty ∨
      (e.sets d.id = true ∧ e.eval d.id false p ≠ e.empty ∧
        additional e d.id p false = e.eval d.id false p) := by
    unfold additional
    cases hs : e.sets d.id with
    | false => simp
    | true =>
      by_cases he : e.eval d.id false p = e.empty
      · simp [he]
      · exact Or.inr ⟨rfl, he, by simp⟩
  have hstep : additional e d.id p false = e.empty → stepProps e p d = p := by
    intro ha
    unfold stepProps
    rw [if_neg]
    rintro ⟨h1, h2⟩
    unfold additional at ha
    rw [if_pos h1] at ha
    exact h2 ha
  have hunf : getGroupPropertyMap e cur d.id none st =
      if additional e d.id (st.map e (curRef cur)) false = e.empty then (st, curRef cur)
      else ({ st with heap := st.heap ++ [additional e d.id (st.map e (curRef cur)) false] },
        st.heap.length) := by
    unfold getGroupPropertyMap
    cases cur <;> rfl
  rw [hunf, hm]
  by_cases ha : additional e d.id p false = e.empty
  · rw [if_pos ha]
    exact ⟨List.prefix_refl _, by rw [hstep ha]; exact h⟩
  · rw [if_neg ha]
    rcases hadd with h' | ⟨h1, h2, h3⟩
    · exact absurd h' ha
    · refine ⟨List.prefix_append _ _, ?_⟩
      rw [h3]
      unfold stepProps
      rw [if_pos ⟨h1, h2⟩]
      simp

theorem prefix_get {α : Type} {a b : List α} (h : a <+: b) {i : Nat} {x : α}
    (hx : a[i]? = some x) : b[i]? = some x := by
  obtain ⟨t, rfl⟩ := h
  rw [List.getElem?_append_left (List.getElem?_eq_some_iff.1 hx).1]
  exact hx

/-- The values of the property maps of the enabled groups. -/
def hv (st : State P) : List (Option P) :=
  (st.groups.filter (·.enabled)).map fun g => st.heap[g.props]?

/-- What is kept for the filters, with the values of the property maps. -/
def av (st : State P) : List (List String × List String × Option P) :=
  st.aprops.map fun a => (a.key, a.extra, a.props.bind (st.heap[·]?))

/-- All property maps exist. -/
structure Refs (st : State P) : Prop where
  groups : ∀ g ∈ st.groups.filter (·.enabled), ∃ p, st.heap[g.props]? = some p
  aprops : ∀ a ∈ st.aprops, ∃ r p, a.props = some r ∧ st.heap[r]? = some p

omit [DecidableEq P] in
theorem hv_mono {st st' : State P} (h : st.heap <+: st'.heap)
    (hg : st'.groups.filter (·.enabled) = st.groups.filter (·.enabled)) (hr : Refs st) :
    hv st' = hv st := by
  unfold hv
  rw [hg]
  refine List.map_congr_left ?_
  intro g hg'
  obtain ⟨p, hp⟩ := hr.groups g hg'
  rw [hp, prefix_get h hp]

omit [DecidableEq P] in
theorem av_mono {st st' : State P} (h : st.heap <+: st'.heap) (ha : st'.aprops = st.aprops)
    (hr : Refs st) : av st' = av st := by
  unfold av
  rw [ha]
  refine List.map_congr_left ?_
  intro a ha'
  obtain ⟨r, p, h1, h2⟩ := hr.aprops a ha'
  rw [h1]
  simp [h2, prefix_get h h2]

/-- The property maps are as the items say. -/
structure HWalked (e : Env P) (p0 : P) (pe : Bool) (st st' : State P) (pl : List Place) :
    Prop where
  heap : st.heap <+: st'.heap
  refs : Refs st'
  hv : hv st' = hv st ++ (pl.filter (isFileGroup pe)).map fun c => some (propsOf e p0 c.path)
  av : av st' = av st ++ (pl.filter (isFilterGroup pe)).map
    fun c => (c.d.filter, unite [] c.d.tags, some (propsOf e p0 c.path))

theorem HWalked.trans {e : Env P} {p0 : P} {pe : Bool} {a b c : State P} {p1 p2 : List Place}
    (h : HWalked e p0 pe a b p1) (k : HWalked e p0 pe b c p2) :
    HWalked e p0 pe a c (p1 ++ p2) := by
  refine ⟨h.heap.trans k.heap, k.refs, ?_, ?_⟩
  · rw [k.hv, h.hv]; simp
  · rw [k.av, h.av]; simp

omit [DecidableEq P] in
theorem quiet_filter {st st' : State P} (hq : Quiet st st') :
    st'.groups.filter (·.enabled) = st.groups.filter (·.enabled) := by
  obtain ⟨l, hl, hd⟩ := hq.groups
  rw [hl, List.filter_append]
  have : l.filter (·.enabled) = [] := by
    rw [List.filter_eq_nil_iff]; intro g hg; simp [hd g hg]
  rw [this, List.append_nil]

theorem quiet_h {e : Env P} {p0 : P} {pe : Bool} {st st' : State P} {pl : List Place}
    (hq : Quiet st st') (hr : Refs st) (h1 : pl.filter (isFileGroup pe) = [])
    (h2 : pl.filter (isFilterGroup pe) = []) : HWalked e p0 pe st st' pl := by
  have hg := quiet_filter hq
  refine ⟨hq.heap, ⟨?_, ?_⟩, ?_, ?_⟩
  · intro g hg'
    rw [hg] at hg'
    obtain ⟨p, hp⟩ := hr.groups g hg'
    exact ⟨p, prefix_get hq.heap hp⟩
  · intro a ha
    rw [hq.aprops] at ha
    obtain ⟨r, p, h1, h2⟩ := hr.aprops a ha
    exact ⟨r, p, h1, prefix_get hq.heap h2⟩
  · rw [h1, hv_mono hq.heap hg hr]; simp
  · rw [h2, av_mono hq.heap hq.aprops hr]; simp

/-- A disabled group changes nothing. -/
theorem disabled_quiet (e : Env P) (pe : Bool) (cur : Option Group) (runT : Bool) (d : GData)
    (cs : List GItem) (st : State P) (hd : d.cond = false) :
    Quiet st (resolveItem e pe cur runT (.group d cs) st).1 := by
  have hen : (curEnabled pe cur && d.cond) = false := by simp [hd]
  rw [resolveItem_group, hen]
  have hs : (settle e false (body e pe cur false d cs st)) =
      ((body e pe cur false d cs st).1, none) := by
    unfold settle
    cases (body e pe cur false d cs st).2 <;> rfl
  rw [hs]
  show Quiet st (body e pe cur false d cs st).1
  unfold body
  by_cases hf : d.filter = []
  · rw [if_neg (by simp [hf])]
    rcases hr : resolveFiles e false cur d st with ⟨s1, g, x⟩
    obtain ⟨a1, a2, a3, _, a5, a6, a7, a8, _⟩ := resolveFiles_spec e false cur d st s1 g x hr
    obtain ⟨b1, b2, b3⟩ := a6 rfl
    have hpp : st.heap <+: s1.heap := by rw [a5]; exact newGroup_heap e false cur d st
    cases g with
    | some g =>
      obtain ⟨_, c1, _, _, _, c5⟩ := a7 g rfl
      have hq : Quiet st s1 := ⟨hpp, b3, a3, a2, b1, b2, [g], c5, by simp [c1]⟩
      obtain ⟨d1, d2⟩ := resolveItems_quiet e pe (some g) false c1 cs s1
      exact hq.trans d1
    | none => exact ⟨hpp, b3, a3, a2, b1, b2, [], by simp [(a8 rfl).2], by simp⟩
  · rw [if_pos hf]
    unfold resolveFilter
    split
    · exact Quiet.refl _
    · rw [if_pos rfl]; exact Quiet.refl _

/-- The body of an enabled group went well if nothing was reported. -/
theorem enabled_body (e : Env P) (pe : Bool) (cur : Option Group) (runT : Bool) (d : GData)
    (cs : List GItem) (st st' : State P) (hen : (curEnabled pe cur && d.cond) = true)
    (h : resolveItem e pe cur runT (.group d cs) st = (st', none))
    (hp : st'.printed = st.printed) : body e pe cur true d cs st = (st', none) := by
  rw [resolveItem_group, hen] at h
  have hmono : st.printed <+: (body e pe cur true d cs st).1.printed := by
    unfold body
    split
    · rcases hr : resolveFilter e true cur d st with ⟨s1, x⟩
      rw [(resolveFilter_spec e cur d st s1 x hr).1]; exact List.prefix_refl _
    · rcases hr : resolveFiles e true cur d st with ⟨s1, g, x⟩
      have hpp := (resolveFiles_spec e true cur d st s1 g x hr).2.2.2.1
      cases g with
      | some g => simp only; exact hpp.trans (resolveItems_printed e pe (some g) true cs s1)
      | none => exact hpp
  rcases hb : body e pe cur true d cs st with ⟨s1, x⟩
  rw [hb] at h hmono
  cases x with
  | none => simpa [settle] using h
  | some x =>
    exfalso
    simp only [settle, Bool.true_eq_false, if_false] at h
    split at h
    · cases h
    · simp only [Prod.mk.injEq, and_true] at h
      rw [← h] at hp
      have := hmono.length_le
      have hl := congrArg List.length hp
      simp at hl this
      omega

/-- The lists given as filters, in order. -/
def filterKeys (pe : Bool) (pl : List Place) : List (List String) :=
  (pl.filter (isFilterGroup pe)).map (·.d.filter)

theorem av_keys {e : Env P} {p0 : P} {pe : Bool} {st st' : State P} {pl : List Place}
    (h : HWalked e p0 pe st st' pl) :
    st'.aprops.map (·.key) = st.aprops.map (·.key) ++ filterKeys pe pl := by
  have := congrArg (List.map (·.1)) h.av
  simp only [av, List.map_append, List.map_map] at this
  exact this

mutual

theorem resolveItem_heap (e : Env P) (p0 : P) (pe : Bool) : ∀ (i : GItem) (cur : Option Group)
    (outer : List GData) (st st' : State P), curEnabled pe cur = active pe outer →
    active pe outer = true → st.heap[curRef cur]? = some (propsOf e p0 outer) → Refs st →
    (st.aprops.map (·.key) ++ filterKeys pe (placesI outer i)).Nodup →
    resolveItem e pe cur true i st = (st', none) → st'.printed = st.printed →
    HWalked e p0 pe st st' (placesI outer i)
  | .tagger t, cur, outer, st, st', hc, ha, hh, hr, hn, h, hp => by
    rw [resolveItem, if_pos rfl] at h
    have hq := resolveTagger_quiet t st
    rw [h] at hq
    exact quiet_h hq hr (by simp [placesI]) (by simp [placesI])
  | .group d cs, cur, outer, st, st', hc, ha, hh, hr, hn, h, hp => by
    cases hd : d.cond with
    | false =>
      have hin : active pe (outer ++ [d]) = false := by rw [active_snoc, hd, Bool.and_false]
      have hq := disabled_quiet e pe cur true d cs st hd
      rw [h] at hq
      obtain ⟨f1, f2, _⟩ := filter_inactive pe (outer ++ [d]) cs hin
      refine quiet_h hq hr ?_ ?_
      · rw [placesI, List.filter_cons, if_neg (by simp [isFileGroup, Place.path, hin])]
        split
        · rw [f1]
        · simp
      · rw [placesI, List.filter_cons, if_neg (by simp [isFilterGroup, Place.path, hin])]
        split
        · rw [f2]
        · simp
    | true =>
      have hen : (curEnabled pe cur && d.cond) = true := by rw [hc, ha, hd]; rfl
      have hin : active pe (outer ++ [d]) = true := by rw [active_snoc, hd, ha]; rfl
      have hbody := enabled_body e pe cur true d cs st st' hen h hp
      unfold body at hbody
      by_cases hf : d.filter = []
      · rw [if_neg (by simp [hf])] at hbody
        rcases hrf : resolveFiles e true cur d st with ⟨s1, g, x⟩
        rw [hrf] at hbody
        obtain ⟨a1, a2, a3, a4, a5, _, a7, a8, a9⟩ := resolveFiles_spec e true cur d st s1 g x hrf
        cases g with
        | none =>
          simp only [Prod.mk.injEq] at hbody
          exact absurd hbody.2 (a8 rfl).1
        | some g =>
          simp only at hbody
          obtain ⟨b0, b1, b2, b3, b4, b5⟩ := a7 g rfl
          have hpr := resolveItems_printed e pe (some g) true cs s1
          rw [hbody] at hpr
          obtain ⟨hp1, hp2⟩ := prefix_eq_of_prefix a4 hpr hp
          obtain ⟨m1, m2⟩ := getMap_none e cur d st _ hh
          have e1 : s1.heap = (getGroupPropertyMap e cur d.id none st).1.heap := a5
          have e2 : g.props = (getGroupPropertyMap e cur d.id none st).2 := b4
          have hval : s1.heap[g.props]? = some (propsOf e p0 (outer ++ [d])) := by
            rw [e1, e2, propsOf_snoc]; exact m2
          have hpre : st.heap <+: s1.heap := by rw [e1]; exact m1
          have hgf : s1.groups.filter (·.enabled) = st.groups.filter (·.enabled) ++ [g] := by
            rw [b5, List.filter_append]; simp [b1]
          have hr1 : Refs s1 := by
            refine ⟨?_, ?_⟩
            · intro g' hg'
              rw [hgf] at hg'
              rcases List.mem_append.1 hg' with hg' | hg'
              · obtain ⟨p, hp'⟩ := hr.groups g' hg'
                exact ⟨p, prefix_get hpre hp'⟩
              · rw [List.mem_singleton] at hg'; rw [hg']; exact ⟨_, hval⟩
            · intro a ha'
              rw [a2] at ha'
              obtain ⟨r, p, h1, h2⟩ := hr.aprops a ha'
              exact ⟨r, p, h1, prefix_get hpre h2⟩
          have hkeep : filterKeys pe (placesI outer (.group d cs)) =
              filterKeys pe (placesL (outer ++ [d]) cs) := by
            unfold filterKeys
            rw [placesI, if_pos hf, List.filter_cons, if_neg (by simp [isFilterGroup, hf])]
          have ih := resolveItems_heap e p0 pe cs (some g) (outer ++ [d]) s1 st' (b1.trans hin.symm)
            hin hval hr1 (by rw [a2, ← hkeep]; exact hn) hbody hp2
          have hv1 : hv s1 = hv st ++ [some (propsOf e p0 (outer ++ [d]))] := by
            unfold hv
            rw [hgf, List.map_append]
            congr 1
            · refine List.map_congr_left ?_
              intro g' hg'
              obtain ⟨p, hp'⟩ := hr.groups g' hg'
              rw [hp', prefix_get hpre hp']
            · simp [hval]
          refine ⟨hpre.trans ih.heap, ih.refs, ?_, ?_⟩
          · rw [ih.hv, hv1, placesI, if_pos hf, List.filter_cons,
              if_pos (by simp [isFileGroup, Place.path, hin, hf])]
            simp [Place.path]
          · rw [ih.av, av_mono hpre a2 hr, placesI, if_pos hf, List.filter_cons,
              if_neg (by simp [isFilterGroup, hf])]
      · rw [if_pos hf] at hbody
        have hfl : (placesI outer (.group d cs)).filter (isFilterGroup pe) = [⟨outer, d⟩] := by
          rw [placesI, if_neg hf, List.filter_cons,
            if_pos (by simp [isFilterGroup, Place.path, hin, hf])]
          rfl
        have hff : (placesI outer (.group d cs)).filter (isFileGroup pe) = [] := by
          rw [placesI, if_neg hf, List.filter_cons, if_neg (by simp [isFileGroup, hf])]
          rfl
        have hnew : st.aprops.find? (fun a => a.key == d.filter) = none := by
          rw [List.find?_eq_none]
          intro a ha'
          have : filterKeys pe (placesI outer (.group d cs)) = [d.filter] := by
            unfold filterKeys; rw [hfl]; rfl
          rw [this, List.nodup_append] at hn
          have := hn.2.2 a.key (List.mem_map.2 ⟨a, ha', rfl⟩) d.filter (by simp)
          simpa using this
        obtain ⟨m1, m2⟩ := getMap_none e cur d st _ hh
        have hm := getMap_spec e cur d.id none st
        unfold resolveFilter at hbody
        split at hbody
        · cases hbody
        · simp only [Bool.true_eq_false, if_false] at hbody
          rw [hnew] at hbody
          rcases hg : getGroupPropertyMap e cur d.id none st with ⟨s1, r⟩
          rw [hg] at hbody m1 m2 hm
          simp only [Prod.mk.injEq, and_true] at hbody m1 m2 hm
          subst hbody
          have hgr : s1.groups = st.groups := by rw [hm]
          have hap : s1.aprops = st.aprops := by rw [hm]
          refine ⟨m1, ⟨?_, ?_⟩, ?_, ?_⟩
          · intro g' hg'
            simp only [hgr] at hg'
            obtain ⟨p, hp'⟩ := hr.groups g' hg'
            exact ⟨p, prefix_get m1 hp'⟩
          · intro a ha'
            simp only [hap] at ha'
            rcases List.mem_append.1 ha' with ha' | ha'
            · obtain ⟨r', p, h1, h2⟩ := hr.aprops a ha'
              exact ⟨r', p, h1, prefix_get m1 h2⟩
            · rw [List.mem_singleton] at ha'; rw [ha']; exact ⟨r, _, rfl, m2⟩
          · rw [hff]
            simp only [List.map_nil, List.append_nil]
            exact hv_mono m1 (by simp only [hgr]) hr
          · rw [hfl]
            unfold av
            simp only [hap, List.map_append, List.map_cons, List.map_nil]
            congr 1
            · refine List.map_congr_left ?_
              intro a ha'
              obtain ⟨r', p, h1, h2⟩ := hr.aprops a ha'
              rw [h1]; simp [h2, prefix_get m1 h2]
            · simp [m2, Place.path, propsOf_snoc]

theorem resolveItems_heap (e : Env P) (p0 : P) (pe : Bool) : ∀ (is : List GItem)
    (cur : Option Group) (outer : List GData) (st st' : State P),
    curEnabled pe cur = active pe outer →
    active pe outer = true → st.heap[curRef cur]? = some (propsOf e p0 outer) → Refs st →
    (st.aprops.map (·.key) ++ filterKeys pe (placesL outer is)).Nodup →
    resolveItems e pe cur true is st = (st', none) → st'.printed = st.printed →
    HWalked e p0 pe st st' (placesL outer is)
  | [], cur, outer, st, st', hc, ha, hh, hr, hn, h, hp => by
    rw [resolveItems] at h
    cases h
    exact quiet_h (Quiet.refl _) hr (by simp [placesL]) (by simp [placesL])
  | i :: is, cur, outer, st, st', hc, ha, hh, hr, hn, h, hp => by
    rw [resolveItems] at h
    have m1 := resolveItem_printed e pe cur true i st
    rcases hri : resolveItem e pe cur true i st with ⟨s1, x⟩
    rw [hri] at h m1
    cases x with
    | some x => cases h
    | none =>
      simp only at h m1
      have m2 := resolveItems_printed e pe cur true is s1
      rw [h] at m2
      obtain ⟨hp1, hp2⟩ := prefix_eq_of_prefix m1 m2 hp
      have hk : filterKeys pe (placesL outer (i :: is)) =
          filterKeys pe (placesI outer i) ++ filterKeys pe (placesL outer is) := by
        unfold filterKeys; rw [placesL, List.filter_append, List.map_append]
      rw [hk, ← List.append_assoc] at hn
      have w1 := resolveItem_heap e p0 pe i cur outer st s1 hc ha hh hr
        (List.nodup_append.1 hn).1 hri hp1
      have w2 := resolveItems_heap e p0 pe is cur outer s1 st' hc ha (prefix_get w1.heap hh) w1.refs
        (by rw [av_keys w1]; exact hn) h hp2
      rw [placesL]
      exact w1.trans w2

end

end Verif.Tags
