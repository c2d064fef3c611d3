import Verif.Tags.LemWalk
/-! # Lemmas: what holds whether or not there are errors -/
namespace Verif.Tags

variable {P : Type}

/-! ## Artifacts have the data of their group -/

theorem createSources_art (e : Env P) (d : GData) (wild : Bool) : ∀ (ns : List String)
    (st : State P) (g : Group) (errs : List FileErr) (st' : State P) (g' : Group)
    (errs' : List FileErr) (x : Option Err),
    createSources e d wild ns st g errs = (st', g', errs', x) → ArtOk e g → ArtOk e g' := by
  intro ns
  induction ns with
  | nil =>
    intro st g errs st' g' errs' x h hg
    simp only [createSources, Prod.mk.injEq] at h
    obtain ⟨_, rfl, _, _⟩ := h
    exact hg
  | cons n ns ih =>
    intro st g errs st' g' errs' x h hg
    rw [createSources] at h
    rcases hc : createSource e d st g n wild with ⟨st1, g1, fe, y⟩
    rw [hc] at h
    have h1 : ArtOk e g1 := by
      unfold createSource at hc
      simp only at hc
      by_cases h1 : (!wild && !e.isFile (e.resolve d.dir n)) = true
      · rw [if_pos h1] at hc
        simp only [Prod.mk.injEq] at hc
        obtain ⟨_, rfl, _, _⟩ := hc
        exact hg
      · rw [if_neg h1] at hc
        split at hc
        · simp only [Prod.mk.injEq] at hc
          obtain ⟨_, rfl, _, _⟩ := hc
          exact hg
        · split at hc
          · simp only [Prod.mk.injEq] at hc
            obtain ⟨_, rfl, _, _⟩ := hc
            exact hg
          · rename_i l hl
            simp only [Prod.mk.injEq] at hc
            obtain ⟨_, rfl, _, _⟩ := hc
            intro a ha
            simp only [Option.getD_some, List.mem_append, List.mem_singleton] at ha
            rcases ha with ha | rfl
            · have := hg a (by rw [hl]; exact ha)
              exact this
            · refine ⟨rfl, rfl, rfl, rfl, ?_⟩
              intro hw
              simp only at hw
              subst hw
              simpa using h1
    cases y with
    | some y =>
      simp only [Prod.mk.injEq] at h
      obtain ⟨_, rfl, _, _⟩ := h
      exact h1
    | none =>
      cases fe with
      | some fe => exact ih _ _ _ _ _ _ _ h h1
      | none => exact ih _ _ _ _ _ _ _ h h1

/-- The keys of the source files of the enabled groups. -/
def groupKeys (g : Group) : List (String × String) :=
  (g.files.getD []).map fun a => (a.target, a.path)

def keys (st : State P) : List (String × String) :=
  (st.groups.filter (·.enabled)).flatMap groupKeys

theorem located_cons (st : State P) (k k' : String × String) (b : Bool) :
    located { st with locs := (k, b) :: st.locs } k' =
      if k = k' then b else located st k' := by
  unfold located
  rw [List.find?_cons]
  by_cases h : k = k'
  · subst h; simp
  · have : (k == k') = false := by simpa using h
    simp [this, h]

theorem createSources_keys (e : Env P) (d : GData) (wild : Bool) (K : List (String × String)) :
    ∀ (ns : List String)
    (st : State P) (g : Group) (errs : List FileErr) (st' : State P) (g' : Group)
    (errs' : List FileErr) (x : Option Err),
    createSources e d wild ns st g errs = (st', g', errs', x) →
    g.enabled = true → d.filesLoc = true →
    (K ++ groupKeys g).Nodup → (∀ k ∈ K ++ groupKeys g, located st k = true) →
    (K ++ groupKeys g').Nodup ∧ (∀ k ∈ K ++ groupKeys g', located st' k = true) ∧
    g'.enabled = true := by
  intro ns
  induction ns with
  | nil =>
    intro st g errs st' g' errs' x h hen hloc hn hl
    simp only [createSources, Prod.mk.injEq] at h
    obtain ⟨rfl, rfl, _, _⟩ := h
    exact ⟨hn, hl, hen⟩
  | cons n ns ih =>
    intro st g errs st' g' errs' x h hen hloc hn hl
    rw [createSources] at h
    rcases hc : createSource e d st g n wild with ⟨st1, g1, fe, y⟩
    rw [hc] at h
    have h1 : (K ++ groupKeys g1).Nodup ∧ (∀ k ∈ K ++ groupKeys g1, located st1 k = true) ∧
        g1.enabled = true := by
      unfold createSource at hc
      simp only at hc
      split at hc
      · simp only [Prod.mk.injEq] at hc
        obtain ⟨rfl, rfl, _, _⟩ := hc
        exact ⟨hn, hl, hen⟩
      · split at hc
        · simp only [Prod.mk.injEq] at hc
          obtain ⟨rfl, rfl, _, _⟩ := hc
          exact ⟨hn, hl, hen⟩
        · rename_i h2
          simp only [hen, Bool.true_and, Bool.not_eq_true] at h2
          have hmono : ∀ k, located st k = true → located { st with
              locs := ((g.target, e.resolve d.dir n), d.filesLoc) :: st.locs } k = true := by
            intro k hk
            rw [located_cons]
            split
            · exact hloc
            · exact hk
          split at hc
          · simp only [Prod.mk.injEq] at hc
            obtain ⟨rfl, rfl, _, _⟩ := hc
            exact ⟨hn, fun k hk => hmono k (hl k hk), hen⟩
          · rename_i l hl'
            simp only [Prod.mk.injEq] at hc
            obtain ⟨rfl, rfl, _, _⟩ := hc
            have hkeys : groupKeys { g with files := some (l ++ [artOf g (e.resolve d.dir n) wild]) } =
                groupKeys g ++ [(g.target, e.resolve d.dir n)] := by
              simp [groupKeys, hl', artOf]
            have hk2 : K ++ groupKeys { g with
                files := some (l ++ [⟨e.resolve d.dir n, g.tags, g.overrideTags, g.props, g.target,
                  wild⟩]) } = (K ++ groupKeys g) ++ [(g.target, e.resolve d.dir n)] := by
              have := hkeys
              unfold artOf at this
              rw [this, List.append_assoc]
            refine ⟨?_, ?_, hen⟩
            · rw [hk2, List.nodup_append]
              refine ⟨hn, by simp, ?_⟩
              intro a ha b hb hab
              rw [List.mem_singleton] at hb
              rw [hab, hb] at ha
              rw [hl _ ha] at h2
              cases h2
            · intro k hk
              rw [hk2] at hk
              rcases List.mem_append.1 hk with hk | hk
              · exact hmono k (hl k hk)
              · rw [List.mem_singleton] at hk
                rw [located_cons, if_pos hk.symm]
                exact hloc
    obtain ⟨q1, q2, q3⟩ := h1
    cases y with
    | some y =>
      simp only [Prod.mk.injEq] at h
      obtain ⟨rfl, rfl, _, _⟩ := h
      exact ⟨q1, q2, q3⟩
    | none =>
      cases fe with
      | some fe => exact ih _ _ _ _ _ _ _ h q3 hloc q1 q2
      | none => exact ih _ _ _ _ _ _ _ h q3 hloc q1 q2

variable [DecidableEq P]

/-- The invariant. -/
structure Inv (e : Env P) (st : State P) : Prop where
  art : ∀ g ∈ st.groups, ArtOk e g
  nodup : (keys st).Nodup
  located : ∀ k ∈ keys st, located st k = true

omit [DecidableEq P] in
theorem located_congr {st st' : State P} (h : st'.locs = st.locs) (k : String × String) :
    located st' k = located st k := by
  unfold located; rw [h]

omit [DecidableEq P] in
theorem Inv.of_eq {e : Env P} {st st' : State P} (h : Inv e st) (hg : st'.groups = st.groups)
    (hl : st'.locs = st.locs) : Inv e st' := by
  refine ⟨by rw [hg]; exact h.art, ?_, ?_⟩
  · show ((st'.groups.filter (·.enabled)).flatMap groupKeys).Nodup
    rw [hg]; exact h.nodup
  · intro k hk
    rw [located_congr hl]
    refine h.located k ?_
    show k ∈ (st.groups.filter (·.enabled)).flatMap groupKeys
    rw [← hg]; exact hk

/-- Locations only become more. -/
theorem resolveFiles_inv (e : Env P) (en : Bool) (cur : Option Group) (d : GData)
    (st st' : State P) (r : Option Group) (x : Option Err) (hloc : en = true → d.filesLoc = true)
    (h : resolveFiles e en cur d st = (st', r, x)) (hi : Inv e st) : Inv e st' := by
  unfold resolveFiles at h
  obtain ⟨hn1, hn2⟩ := newGroup_spec e en cur d st
  rcases hng : newGroup e en cur d st with ⟨s0, g0⟩
  rw [hng] at h hn1 hn2
  simp only at h hn1 hn2
  have hi0 : Inv e s0 := hi.of_eq (by rw [hn1]) (by rw [hn1])
  have hk0 : groupKeys g0 = [] := by
    rw [hn2]; unfold groupKeys; simp only; split <;> rfl
  have ha0 : ArtOk e g0 := by
    intro a ha
    rw [hn2] at ha
    simp only at ha
    split at ha <;> simp at ha
  have hge0 : g0.enabled = en := by rw [hn2]
  rcases hc1 : createSources e d true (expandedOf e g0.pre d) s0 g0 [] with ⟨s1, g1, e1, x1⟩
  rw [hc1] at h
  have ha1 := createSources_art e d true _ _ _ _ _ _ _ _ hc1 ha0
  obtain ⟨hs1, hl1, _, _⟩ := createSources_spec e d true _ _ _ _ _ _ _ _ hc1
  -- the state with a group added, and without
  have fin : ∀ (s : State P) (g : Group), s.groups = s0.groups → ArtOk e g →
      (en = true → (keys s0 ++ groupKeys g).Nodup ∧
        (∀ k ∈ keys s0 ++ groupKeys g, Verif.Tags.located s k = true) ∧ g.enabled = true) →
      (en = false → s.locs = s0.locs ∧ g.enabled = false) →
      Inv e s ∧ ∀ s', s'.groups = s.groups ++ [g] → s'.locs = s.locs → Inv e s' := by
    intro s g hg ha h1 h2
    have hks : keys s = keys s0 := by
      show (s.groups.filter (·.enabled)).flatMap groupKeys = _
      rw [hg]; rfl
    cases en with
    | true =>
      obtain ⟨n1, n2, n3⟩ := h1 rfl
      refine ⟨⟨by rw [hg]; exact hi0.art, by rw [hks]; exact hi0.nodup, ?_⟩, ?_⟩
      · intro k hk
        rw [hks] at hk
        exact n2 k (List.mem_append_left _ hk)
      · intro s' hs' hl'
        have hks' : keys s' = keys s0 ++ groupKeys g := by
          show (s'.groups.filter (·.enabled)).flatMap groupKeys = _
          rw [hs', List.filter_append, List.flatMap_append]
          rw [← hks]
          simp [keys, n3]
        refine ⟨?_, by rw [hks']; exact n1, ?_⟩
        · intro g' hg'
          rw [hs'] at hg'
          rcases List.mem_append.1 hg' with hg' | hg'
          · rw [hg] at hg'; exact hi0.art g' hg'
          · rw [List.mem_singleton] at hg'; rw [hg']; exact ha
        · intro k hk
          rw [hks'] at hk
          rw [located_congr hl']
          exact n2 k hk
    | false =>
      obtain ⟨n1, n3⟩ := h2 rfl
      have hi' : Inv e s := hi0.of_eq hg n1
      refine ⟨hi', ?_⟩
      intro s' hs' hl'
      have hks' : keys s' = keys s := by
        show (s'.groups.filter (·.enabled)).flatMap groupKeys = _
        rw [hs', List.filter_append, List.flatMap_append]
        simp [keys, n3]
      refine ⟨?_, by rw [hks']; exact hi'.nodup, ?_⟩
      · intro g' hg'
        rw [hs'] at hg'
        rcases List.mem_append.1 hg' with hg' | hg'
        · exact hi'.art g' hg'
        · rw [List.mem_singleton] at hg'; rw [hg']; exact ha
      · intro k hk
        rw [hks'] at hk
        rw [located_congr hl']
        exact hi'.located k hk
  have enab : ∀ (w : Bool) (ns : List String) (s s' : State P) (g g' : Group)
      (er er' : List FileErr) (y : Option Err),
      createSources e d w ns s g er = (s', g', er', y) → g'.enabled = g.enabled := by
    intro w ns
    induction ns with
    | nil =>
      intro s s' g g' er er' y hh
      simp only [createSources, Prod.mk.injEq] at hh
      obtain ⟨_, rfl, _, _⟩ := hh
      rfl
    | cons n ns ih =>
      intro s s' g g' er er' y hh
      rw [createSources] at hh
      rcases hcc : createSource e d s g n w with ⟨s3, g3, fe3, y3⟩
      have h3 : g3.enabled = g.enabled := by
        unfold createSource at hcc
        simp only at hcc
        repeat' split at hcc
        all_goals
          simp only [Prod.mk.injEq] at hcc
          obtain ⟨_, rfl, _, _⟩ := hcc
          rfl
      rw [hcc] at hh
      cases y3 with
      | some y3 =>
        simp only [Prod.mk.injEq] at hh
        obtain ⟨_, rfl, _, _⟩ := hh
        exact h3
      | none =>
        cases fe3 with
        | some fe3 => exact (ih _ _ _ _ _ _ _ hh).trans h3
        | none => exact (ih _ _ _ _ _ _ _ hh).trans h3
  have hen1 : g1.enabled = en := (enab _ _ _ _ _ _ _ _ _ hc1).trans hge0
  have u1 : en = true → (keys s0 ++ groupKeys g1).Nodup ∧
      (∀ k ∈ keys s0 ++ groupKeys g1, Verif.Tags.located s1 k = true) ∧ g1.enabled = true := by
    intro hen
    refine createSources_keys e d true (keys s0) _ _ _ _ _ _ _ _ hc1 (hge0.trans hen) (hloc hen) ?_ ?_
    · rw [hk0, List.append_nil]; exact hi0.nodup
    · intro k hk; rw [hk0, List.append_nil] at hk; exact hi0.located k hk
  have d1 : en = false → s1.locs = s0.locs ∧ g1.enabled = false := fun hen =>
    ⟨hl1 (hge0.trans hen), hen1.trans hen⟩
  obtain ⟨f1, _⟩ := fin s1 g1 hs1.groups ha1 u1 d1
  cases x1 with
  | some x1 =>
    simp only [Prod.mk.injEq] at h
    obtain ⟨rfl, _, _⟩ := h
    exact f1
  | none =>
    simp only at h
    rcases hc2 : createSources e d false (plainOf e g1.pre d) s1 g1 e1 with ⟨s2, g2, e2, x2⟩
    rw [hc2] at h
    have ha2 := createSources_art e d false _ _ _ _ _ _ _ _ hc2 ha1
    obtain ⟨hs2, hl2, _, _⟩ := createSources_spec e d false _ _ _ _ _ _ _ _ hc2
    have hen2 : g2.enabled = en := (enab _ _ _ _ _ _ _ _ _ hc2).trans hen1
    have u2 : en = true → (keys s0 ++ groupKeys g2).Nodup ∧
        (∀ k ∈ keys s0 ++ groupKeys g2, Verif.Tags.located s2 k = true) ∧ g2.enabled = true := by
      intro hen
      obtain ⟨n1, n2, n3⟩ := u1 hen
      exact createSources_keys e d false (keys s0) _ _ _ _ _ _ _ _ hc2 n3 (hloc hen) n1 n2
    have d2 : en = false → s2.locs = s0.locs ∧ g2.enabled = false := fun hen =>
      ⟨(hl2 (hen1.trans hen)).trans (d1 hen).1, hen2.trans hen⟩
    obtain ⟨f2, f2'⟩ := fin s2 g2 (hs2.groups.trans hs1.groups) ha2 u2 d2
    cases x2 with
    | some x2 =>
      simp only [Prod.mk.injEq] at h
      obtain ⟨rfl, _, _⟩ := h
      exact f2
    | none =>
      simp only at h
      split at h
      · simp only [Prod.mk.injEq] at h
        obtain ⟨rfl, _, _⟩ := h
        exact f2
      · simp only [Prod.mk.injEq] at h
        obtain ⟨rfl, _, _⟩ := h
        refine f2' _ ?_ ?_
        · split <;> rfl
        · split <;> rfl

theorem resolveFilter_inv (e : Env P) (en : Bool) (cur : Option Group) (d : GData) (st : State P)
    (hi : Inv e st) : Inv e (resolveFilter e en cur d st).1 := by
  cases en with
  | true =>
    rcases hr : resolveFilter e true cur d st with ⟨s1, x⟩
    obtain ⟨_, h2, _, h4, _⟩ := resolveFilter_spec e cur d st s1 x hr
    exact hi.of_eq h2 h4
  | false =>
    unfold resolveFilter
    split
    · exact hi
    · rw [if_pos rfl]; exact hi

mutual

theorem resolveItem_inv (e : Env P) (pe : Bool) : ∀ (i : GItem) (cur : Option Group)
    (outer : List GData) (runT : Bool) (st : State P), curEnabled pe cur = active pe outer →
    (∀ c ∈ placesI outer i, isFileGroup pe c = true → c.d.filesLoc = true) → Inv e st →
    Inv e (resolveItem e pe cur runT i st).1
  | .tagger t, cur, outer, runT, st, hc, hl, hi => by
    rw [resolveItem]
    split
    · have : (resolveTagger t st).1.groups = st.groups ∧ (resolveTagger t st).1.locs = st.locs := by
        unfold resolveTagger
        repeat' split
        all_goals exact ⟨rfl, rfl⟩
      exact hi.of_eq this.1 this.2
    · exact hi
  | .group d cs, cur, outer, runT, st, hc, hl, hi => by
    rw [resolveItem_group]
    have hen : (curEnabled pe cur && d.cond) = active pe (outer ++ [d]) := by
      rw [active_snoc, hc]
    generalize (curEnabled pe cur && d.cond) = en at hen ⊢
    have hb : Inv e (body e pe cur en d cs st).1 := by
      unfold body
      by_cases hf : d.filter = []
      · rw [if_neg (by simp [hf])]
        rcases hr : resolveFiles e en cur d st with ⟨s1, g, x⟩
        have hi1 := resolveFiles_inv e en cur d st s1 g x (by
          intro h
          refine hl ⟨outer, d⟩ (by rw [placesI]; exact List.mem_cons_self) ?_
          simp [isFileGroup, Place.path, ← hen, h, hf]) hr hi
        cases g with
        | none => exact hi1
        | some g =>
          simp only
          have hge := ((resolveFiles_spec e en cur d st s1 (some g) x hr).2.2.2.2.2.2.1 g rfl).2.1
          refine resolveItems_inv e pe cs (some g) (outer ++ [d]) en s1 (hge.trans hen) ?_ hi1
          intro c hc'
          refine hl c ?_
          rw [placesI, if_pos hf]
          exact List.mem_cons_of_mem _ hc'
      · rw [if_pos hf]
        exact resolveFilter_inv e en cur d st hi
    unfold settle
    split
    · exact hb
    · split
      · exact hb
      · split
        · exact hb
        · exact hb.of_eq rfl rfl

theorem resolveItems_inv (e : Env P) (pe : Bool) : ∀ (is : List GItem) (cur : Option Group)
    (outer : List GData) (runT : Bool) (st : State P), curEnabled pe cur = active pe outer →
    (∀ c ∈ placesL outer is, isFileGroup pe c = true → c.d.filesLoc = true) → Inv e st →
    Inv e (resolveItems e pe cur runT is st).1
  | [], cur, outer, runT, st, hc, hl, hi => by rw [resolveItems]; exact hi
  | i :: is, cur, outer, runT, st, hc, hl, hi => by
    rw [resolveItems]
    have h1 := resolveItem_inv e pe i cur outer runT st hc
      (fun c h => hl c (by rw [placesL]; exact List.mem_append_left _ h)) hi
    rcases hr : resolveItem e pe cur runT i st with ⟨s1, x⟩
    rw [hr] at h1
    cases x with
    | some x => exact h1
    | none =>
      exact resolveItems_inv e pe is cur outer runT s1 hc
        (fun c h => hl c (by rw [placesL]; exact List.mem_append_right _ h)) h1

end

/-! ## Without regard to locations -/

theorem resolveFiles_art (e : Env P) (en : Bool) (cur : Option Group) (d : GData)
    (st st' : State P) (r : Option Group) (x : Option Err)
    (h : resolveFiles e en cur d st = (st', r, x)) (hi : ∀ g ∈ st.groups, ArtOk e g) :
    ∀ g ∈ st'.groups, ArtOk e g := by
  obtain ⟨_, _, _, _, _, _, h7, h8, _⟩ := resolveFiles_spec e en cur d st st' r x h
  cases r with
  | none => rw [(h8 rfl).2]; exact hi
  | some g =>
    obtain ⟨_, _, _, _, _, h6⟩ := h7 g rfl
    have hg : ArtOk e g := by
      unfold resolveFiles at h
      obtain ⟨hn1, hn2⟩ := newGroup_spec e en cur d st
      rcases hng : newGroup e en cur d st with ⟨s0, g0⟩
      rw [hng] at h hn1 hn2
      simp only at h hn1 hn2
      have ha0 : ArtOk e g0 := by
        intro a ha
        rw [hn2] at ha
        simp only at ha
        split at ha <;> simp at ha
      rcases hc1 : createSources e d true (expandedOf e g0.pre d) s0 g0 [] with ⟨s1, g1, e1, x1⟩
      rw [hc1] at h
      have ha1 := createSources_art e d true _ _ _ _ _ _ _ _ hc1 ha0
      cases x1 with
      | some x1 => simp at h
      | none =>
        simp only at h
        rcases hc2 : createSources e d false (plainOf e g1.pre d) s1 g1 e1 with ⟨s2, g2, e2, x2⟩
        rw [hc2] at h
        have ha2 := createSources_art e d false _ _ _ _ _ _ _ _ hc2 ha1
        cases x2 with
        | some x2 => simp at h
        | none =>
          simp only at h
          split at h
          · simp at h
          · simp only [Prod.mk.injEq, Option.some.injEq] at h
            rw [← h.2.1]; exact ha2
    rw [h6]
    intro g' hg'
    rcases List.mem_append.1 hg' with hg' | hg'
    · exact hi g' hg'
    · rw [List.mem_singleton] at hg'; rw [hg']; exact hg

theorem resolveFilter_groups (e : Env P) (en : Bool) (cur : Option Group) (d : GData)
    (st : State P) : (resolveFilter e en cur d st).1.groups = st.groups := by
  cases en with
  | true =>
    rcases hr : resolveFilter e true cur d st with ⟨s1, x⟩
    exact (resolveFilter_spec e cur d st s1 x hr).2.1
  | false =>
    unfold resolveFilter
    split
    · rfl
    · rw [if_pos rfl]

mutual

theorem resolveItem_art (e : Env P) (pe : Bool) : ∀ (i : GItem) (cur : Option Group)
    (runT : Bool) (st : State P), (∀ g ∈ st.groups, ArtOk e g) →
    ∀ g ∈ (resolveItem e pe cur runT i st).1.groups, ArtOk e g
  | .tagger t, cur, runT, st, hi => by
    rw [resolveItem]
    split
    · have : (resolveTagger t st).1.groups = st.groups := by
        unfold resolveTagger
        repeat' split
        all_goals rfl
      rw [this]; exact hi
    · exact hi
  | .group d cs, cur, runT, st, hi => by
    rw [resolveItem_group]
    generalize (curEnabled pe cur && d.cond) = en
    have hb : ∀ g ∈ (body e pe cur en d cs st).1.groups, ArtOk e g := by
      unfold body
      split
      · rw [resolveFilter_groups]; exact hi
      · rcases hr : resolveFiles e en cur d st with ⟨s1, g, x⟩
        have hi1 := resolveFiles_art e en cur d st s1 g x hr hi
        cases g with
        | none => exact hi1
        | some g => exact resolveItems_art e pe cs (some g) en s1 hi1
    unfold settle
    split
    · exact hb
    · split
      · exact hb
      · split
        · exact hb
        · exact hb

theorem resolveItems_art (e : Env P) (pe : Bool) : ∀ (is : List GItem) (cur : Option Group)
    (runT : Bool) (st : State P), (∀ g ∈ st.groups, ArtOk e g) →
    ∀ g ∈ (resolveItems e pe cur runT is st).1.groups, ArtOk e g
  | [], cur, runT, st, hi => by rw [resolveItems]; exact hi
  | i :: is, cur, runT, st, hi => by
    rw [resolveItems]
    have h1 := resolveItem_art e pe i cur runT st hi
    rcases hr : resolveItem e pe cur runT i st with ⟨s1, x⟩
    rw [hr] at h1
    cases x with
    | some x => exact h1
    | none => exact resolveItems_art e pe is cur runT s1 h1

end

end Verif.Tags
