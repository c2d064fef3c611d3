import Verif.Params.CtxLem

/-! # C70: parameters of dependencies -/

namespace Verif.Params

theorem moduleParameters_eq (d : PM) (absent : Nat → Bool) (cs : List Context) :
    moduleParameters d absent cs = mergeAll (cands d absent cs) := rfl

theorem wf_cands {d : PM} {absent : Nat → Bool} {cs : List Context} (hd : WF d) (hc : ∀ c ∈ cs, WF c.params) :
    AllWF (cands d absent cs) := by
  intro x hx
  rcases mem_cands.1 hx with rfl | ⟨c, h, _, _, rfl⟩
  · exact hd
  · exact hc c h

theorem parameters_ok {d : PM} {absent : Nat → Bool} {rs : List Context} {m : PM} (h : parameters d absent rs = .ok m) :
    ∃ cs, contexts [] rs = .ok cs ∧ moduleParameters d absent cs = .ok m := by
  unfold parameters at h
  split at h
  · rename_i cs hc; exact ⟨cs, hc, h⟩
  · cases h

theorem mentions_ctx {rs cs : List Context} (hi : Inv rs cs) {c : Context} (hc : c ∈ cs) {p : Path}
    (h : Mentions c.params p) : ∃ r ∈ rs, r.loader = c.loader ∧ Mentions r.params p := by
  rcases h with h | ⟨q, v, hq, h⟩
  · obtain ⟨r, hr, h1, h2⟩ := hi.group c hc p h
    exact ⟨r, hr, h1, .inl h2⟩
  · obtain ⟨r, hr, h1, h2⟩ := hi.sets c hc q v h
    exact ⟨r, hr, h1, .inr ⟨q, v, hq, h2⟩⟩

/-- All maps have one entry for a name, the items of one product or module are equally far away from the product, and the
length of a chain of dependencies is an `int`. -/
structure Input (defaults : PM) (rs : List Context) : Prop where
  defaults : WF defaults
  wf : ∀ r ∈ rs, WF r.params
  chain : ∀ r ∈ rs, ∀ r' ∈ rs, r.loader = r'.loader → r.chain = r'.chain
  int : ∀ r ∈ rs, (r.chain : Int) ≤ intMax

/-- **C70 (the closest one counts).** If a `Depends` item of a module that is present, or of the product, sets a parameter,
no such item that is closer to the product says anything about it, and none that is equally close has a group of parameters
in its place, then the parameter has this value. -/
theorem C70_value {d m : PM} {absent : Nat → Bool} {rs : List Context} (hin : Input d rs)
    (h : parameters d absent rs = .ok m) {r : Context} (hr : r ∈ rs) (ha : absent r.loader = false) {p : Path} {a : String}
    (hs : Sets r.params p (some a))
    (closer : ∀ r' ∈ rs, absent r'.loader = false → r'.chain < r.chain → ¬ Mentions r'.params p)
    (groups : ∀ r' ∈ rs, r'.chain = r.chain → ¬ Group r'.params p) : Sets m p (some a) := by
  obtain ⟨cs, hcs, hm⟩ := parameters_ok h
  have hi : Inv rs cs := by have := contexts_inv hin.wf inv_nil hcs; simpa using this
  obtain ⟨c, hc, hl, hs'⟩ := hi.keep r hr p a hs (fun r' hr' h' => groups r' hr' (hin.chain r' hr' r hr h'))
  have hch : ∀ c' ∈ cs, ∀ r' ∈ rs, r'.loader = c'.loader → r'.chain = c'.chain := by
    intro c' hc' r' hr' hl'
    obtain ⟨r0, h0, h1, h2⟩ := hi.src c' hc'
    rw [← h2]
    exact hin.chain r' hr' r0 h0 (by rw [hl', h1])
  rw [moduleParameters_eq] at hm
  obtain ⟨h1, rfl⟩ := mergeAll_ok hm
  have hmem : (c.params, c.prio) ∈ cands d absent cs :=
    mem_cands.2 (.inr ⟨c, hc, by rw [hl]; exact ha, sets_ne_nil hs', rfl⟩)
  have hcr := hch c hc r hr hl.symm
  have hint := hin.int r hr
  have hpr : intMin < c.prio := by unfold Context.prio intMin; unfold intMax at *; omega
  obtain ⟨l1, l2, hl12⟩ := List.append_of_mem hmem
  have hsort := cands_sorted d absent cs
  have hwf := wf_cands (absent := absent) hin.defaults hi.wf
  rw [hl12] at hsort hwf
  have hmem2 : ∀ x ∈ l2, x = (d, intMin) ∨ ∃ c ∈ cs, absent c.loader = false ∧ c.params ≠ .nil ∧ x = (c.params, c.prio) :=
    fun x hx => mem_cands.1 (by rw [hl12]; simp [hx])
  have hA : ∀ x ∈ l2, c.prio < x.2 → ¬ Mentions x.1 p := by
    intro x hx hlt
    rcases hmem2 x hx with rfl | ⟨c', hc', ha', _, rfl⟩
    · exfalso; simp only at hlt; omega
    · intro hmen
      obtain ⟨r', hr', hl', hmen'⟩ := mentions_ctx hi hc' hmen
      refine closer r' hr' (by rw [hl']; exact ha') ?_ hmen'
      have := hch c' hc' r' hr' hl'
      simp only [Context.prio] at hlt
      omega
  have hB : ∀ x ∈ l2, x.2 = c.prio → ¬ Group x.1 p := by
    intro x hx he
    rcases hmem2 x hx with rfl | ⟨c', hc', ha', _, rfl⟩
    · exfalso; simp only at he; omega
    · intro hg
      obtain ⟨r', hr', hl', hg'⟩ := hi.group c' hc' p hg
      refine groups r' hr' ?_ hg'
      have := hch c' hc' r' hr' hl'
      simp only [Context.prio] at he
      omega
  rw [hl12] at h1 ⊢
  rcases fold_value hwf hsort hs' hA hB with h' | ⟨q, _, _, hq⟩
  · exact h'
  · rw [h1] at hq; cases hq

/-- **C70 (origin).** Every value of a parameter comes from a `Depends` item of a module that is present or of the product,
or is the default. -/
theorem C70_origin {d m : PM} {absent : Nat → Bool} {rs : List Context} (hin : Input d rs)
    (h : parameters d absent rs = .ok m) {p : Path} {v : Leaf} (hs : Sets m p v) :
    Sets d p v ∨ ∃ r ∈ rs, absent r.loader = false ∧ Sets r.params p v := by
  obtain ⟨cs, hcs, hm⟩ := parameters_ok h
  have hi : Inv rs cs := by have := contexts_inv hin.wf inv_nil hcs; simpa using this
  rw [moduleParameters_eq] at hm
  obtain ⟨_, rfl⟩ := mergeAll_ok hm
  obtain ⟨l1, x, l2, he, hs, _⟩ := (fold_sets (wf_cands hin.defaults hi.wf) p v).1 hs
  rcases mem_cands.1 (show x ∈ cands d absent cs by rw [he]; simp) with rfl | ⟨c, hc, ha, _, rfl⟩
  · exact .inl hs
  · obtain ⟨r, hr, hl, hs'⟩ := hi.sets c hc p v hs
    exact .inr ⟨r, hr, by rw [hl]; exact ha, hs'⟩

/-- **C70 (defaults).** A parameter no such `Depends` item says anything about has its default value. -/
theorem C70_default {d m : PM} {absent : Nat → Bool} {rs : List Context} (hin : Input d rs)
    (h : parameters d absent rs = .ok m) {p : Path} {v : Leaf} (hs : Sets d p v)
    (others : ∀ r ∈ rs, absent r.loader = false → ¬ Mentions r.params p) : Sets m p v := by
  obtain ⟨cs, hcs, hm⟩ := parameters_ok h
  have hi : Inv rs cs := by have := contexts_inv hin.wf inv_nil hcs; simpa using this
  rw [moduleParameters_eq] at hm
  obtain ⟨_, rfl⟩ := mergeAll_ok hm
  have hmem : (d, intMin) ∈ cands d absent cs := mem_cands.2 (.inl rfl)
  have hno : ∀ x ∈ cands d absent cs, Mentions x.1 p → x = (d, intMin) := by
    intro x hx hmen
    rcases mem_cands.1 hx with rfl | ⟨c, hc, ha, _, rfl⟩
    · rfl
    · obtain ⟨r, hr, hl, hmen'⟩ := mentions_ctx hi hc hmen
      exact absurd hmen' (others r hr (by rw [hl]; exact ha))
  have hwf := wf_cands (absent := absent) hin.defaults hi.wf
  -- the last one that says something is the one with the defaults
  have key : ∀ l : List (PM × Int), AllWF l → (∀ x ∈ l, Mentions x.1 p → x = (d, intMin)) → (d, intMin) ∈ l →
      Sets (l.foldl next {}).value p v := by
    intro l
    induction l using snoc_induction with
    | nil => intro _ _ h; cases h
    | append_singleton l x ih =>
      intro hw hn hmem
      have hl : AllWF l := fun d hd => hw d (by simp [hd])
      rw [foldl_snoc, sets_next (wf_fold hl .nil) (hw x (by simp))]
      by_cases hx : Mentions x.1 p
      · rw [hn x (by simp) hx]; exact .inl hs
      · right
        refine ⟨ih hl (fun y hy => hn y (by simp [hy])) ?_, hx⟩
        simp only [List.mem_append, List.mem_singleton] at hmem
        rcases hmem with hmem | rfl
        · exact hmem
        · exact absurd (sets_mentions hs) hx
  exact key _ hwf hno hmem

/-- **C70 (conflicts are reported).** Two `Depends` items that are equally close to the product set a parameter to different
values, no one that is closer says anything about it, and none that is equally close has a group of parameters in its place.
Then there is an error. -/
theorem C70_conflict {d : PM} {absent : Nat → Bool} {rs : List Context} (hin : Input d rs) {r r' : Context} (hr : r ∈ rs)
    (hr' : r' ∈ rs) (ha : absent r.loader = false) (ha' : absent r'.loader = false) (hch : r.chain = r'.chain) {p : Path}
    {a b : String} (hs : Sets r.params p (some a)) (hs' : Sets r'.params p (some b)) (hab : a ≠ b)
    (closer : ∀ r' ∈ rs, absent r'.loader = false → r'.chain < r.chain → ¬ Mentions r'.params p)
    (groups : ∀ r' ∈ rs, r'.chain = r.chain → ¬ Group r'.params p) : ∃ e, parameters d absent rs = .error e := by
  cases h : parameters d absent rs with
  | error e => exact ⟨e, rfl⟩
  | ok m =>
    exfalso
    have h1 := C70_value hin h hr ha hs closer groups
    have h2 := C70_value hin h hr' ha' hs' (by rw [← hch]; exact closer) (by rw [← hch]; exact groups)
    have hm : WF m := by
      obtain ⟨cs, hcs, hm⟩ := parameters_ok h
      have hi : Inv rs cs := by have := contexts_inv hin.wf inv_nil hcs; simpa using this
      rw [moduleParameters_eq] at hm
      obtain ⟨_, rfl⟩ := mergeAll_ok hm
      exact wf_fold (wf_cands hin.defaults hi.wf) .nil
    have := sets_unique hm h1 h2
    cases this; exact hab rfl

/-- **C70 (reported conflicts within one item).** An error about the `Depends` items of one product or module is justified:
two of them disagree. -/
theorem C70_same_loader {rs : List Context} (hw : ∀ r ∈ rs, WF r.params) {e : List Path} (h : contexts [] rs = .error e) :
    ∃ r ∈ rs, ∃ r' ∈ rs, r.loader = r'.loader ∧
      ∃ p w, Sets r'.params p w ∧ ((∃ a, Sets r.params p (some a) ∧ w ≠ some a) ∨ Group r.params p) := by
  simpa using contexts_error hw inv_nil h

/-- **C70 (other reported conflicts, partial).** If those that are equally close set the same parameters, then an error is
justified: two of them that are equally close set a parameter to different values, and no closer one sets it. Missing: the
case that they do not set the same parameters, where the claim does not hold (see `C70_false_conflict`). -/
theorem C70_justified_partial {d : PM} {absent : Nat → Bool} {cs : List Context} (hd : WF d) (hw : ∀ c ∈ cs, WF c.params)
    (hint : ∀ c ∈ cs, (c.chain : Int) ≤ intMax)
    (uniform : ∀ c ∈ cs, ∀ c' ∈ cs, absent c.loader = false → absent c'.loader = false → c.params ≠ .nil → c'.params ≠ .nil →
      c.chain = c'.chain → ∀ p, (∃ v, Sets c.params p v) → ∃ v, Sets c'.params p v)
    {e : List Path} (h : moduleParameters d absent cs = .error e) :
    ∃ c ∈ cs, ∃ c' ∈ cs, absent c.loader = false ∧ absent c'.loader = false ∧ c.chain = c'.chain ∧
      ∃ p v w, Sets c.params p v ∧ Sets c'.params p w ∧ v ≠ w ∧
        ∀ c'' ∈ cs, absent c''.loader = false → c''.chain < c.chain → ¬ ∃ v, Sets c''.params p v := by
  rw [moduleParameters_eq] at h
  obtain ⟨p, hp⟩ := List.exists_mem_of_ne_nil _ (mergeAll_error h)
  have hpr : ∀ c ∈ cs, intMin < c.prio := by
    intro c hc; have := hint c hc
    unfold Context.prio intMin; unfold intMax at *; omega
  obtain ⟨x, hx, y, hy, v, w, h1, h2, h3, h4, h5⟩ := fold_conflict (wf_cands hd hw) (cands_sorted d absent cs) (by
    intro x hx y hy he p hs
    rcases mem_cands.1 hx with rfl | ⟨c, hc, ha, hn, rfl⟩ <;> rcases mem_cands.1 hy with rfl | ⟨c', hc', ha', hn', rfl⟩
    · exact hs
    · have := hpr c' hc'; simp only at he; omega
    · have := hpr c hc; simp only at he; omega
    · exact uniform c hc c' hc' ha ha' hn hn' (by simp only [Context.prio] at he; omega) p hs) hp
  rcases mem_cands.1 hx with rfl | ⟨c, hc, ha, hn, rfl⟩ <;> rcases mem_cands.1 hy with rfl | ⟨c', hc', ha', hn', rfl⟩
  · exact absurd (sets_unique hd h2 h3) h4
  · have := hpr c' hc'; simp only at h1; omega
  · have := hpr c hc; simp only at h1; omega
  · refine ⟨c, hc, c', hc', ha, ha', by simp only [Context.prio] at h1; omega, p, v, w, h2, h3, h4, ?_⟩
    intro c'' hc'' ha'' hlt hs
    obtain ⟨u, hu⟩ := hs
    refine h5 (c''.params, c''.prio) (mem_cands.2 (.inr ⟨c'', hc'', ha'', sets_ne_nil hu, rfl⟩)) ?_ ⟨u, hu⟩
    simp only [Context.prio]; omega

/-- **C70 (no conflict).** If all that pull in the module are at different distances from the product, there is no error. -/
theorem C70_no_conflict {d : PM} {absent : Nat → Bool} {cs : List Context} (hd : WF d) (hw : ∀ c ∈ cs, WF c.params)
    (hint : ∀ c ∈ cs, (c.chain : Int) ≤ intMax) (hne : ∀ c ∈ cs, ∀ c' ∈ cs, c.chain = c'.chain → c = c') :
    ∃ m, moduleParameters d absent cs = .ok m := by
  cases h : moduleParameters d absent cs with
  | ok m => exact ⟨m, rfl⟩
  | error e =>
    exfalso
    obtain ⟨c, hc, c', hc', _, _, he, p, v, w, h1, h2, h3, _⟩ :=
      C70_justified_partial hd hw hint (fun c hc c' hc' _ _ _ _ he p hs => by rw [← hne c hc c' hc' he]; exact hs) h
    rw [← hne c hc c' hc' he] at h2
    exact h3 (sets_unique (hw c hc) h1 h2)

end Verif.Params
