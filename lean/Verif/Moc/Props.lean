import Verif.Moc.Lem3

/-!
C120: for every header that asks for it, the generated code is created, and it is compiled unless a
source file of the product includes it; every source file that asks for it gets a file to include.
-/
namespace Verif.Moc

theorem history_inv (cfg : Cfg) (setup later : List Event) (hs : ∀ ev ∈ setup, ev.Setup)
    (hp : ∀ f ∈ files (steps cfg [] setup), PlainTags f)
    (hc : ∀ f ∈ files (steps cfg [] setup), Covered f)
    (hl : Harmless cfg (steps cfg [] setup) later) :
    Inv cfg (steps cfg (steps cfg [] setup) later) := by
  refine steps_inv (setup_inv (setup_untouched (by simp) hs) hp ?_) hl
  intro f hf h1 h2
  exact covered_aux (hc f hf) h1 h2

/-- C120: set up a product in any way, then build it, change files and build again, as often as you
like, but so that it does not change which generated code is included (see the findings for what
happens otherwise).  Whenever the rule for headers has been applied, all headers are right. -/
theorem C120_headers_partial (cfg : Cfg) (setup later : List Event) (hs : ∀ ev ∈ setup, ev.Setup)
    (hp : ∀ f ∈ files (steps cfg [] setup), PlainTags f)
    (hc : ∀ f ∈ files (steps cfg [] setup), Covered f)
    (hl : Harmless cfg (steps cfg [] setup) later)
    (es : List Entry)
    (hes : es = step cfg (steps cfg (steps cfg [] setup) later) (.apply .hpp)) :
    ∀ e ∈ es, sHpp ∈ e.file.tags → sUnmocable ∉ e.file.tags →
      HeaderRight (files es) e.file (e.out .hpp) := by
  intro e he hh hu
  subst hes
  have hinv := history_inv cfg setup later hs hp hc hl
  have hinv' := apply_inv (r := .hpp) hinv
  have hi : input cfg .hpp e.file = true := by simp [input, hh, hu]
  have hf := apply_done cfg .hpp _ e he hi
  obtain ⟨inc, h1, h2⟩ := (hinv' e he).2 .hpp hi hf
  rw [h2]
  exact outputs_header cfg (hinv' e he).1.plain hh hu inc _ (fun b => h1 rfl b)

/-- C120: the same for source files.  Which of them are inputs depends on whether the product
compiles several files at once. -/
theorem C120_sources_partial (cfg : Cfg) (setup later : List Event) (hs : ∀ ev ∈ setup, ev.Setup)
    (hp : ∀ f ∈ files (steps cfg [] setup), PlainTags f)
    (hc : ∀ f ∈ files (steps cfg [] setup), Covered f)
    (hl : Harmless cfg (steps cfg [] setup) later)
    (es : List Entry)
    (hes : es = step cfg (steps cfg (steps cfg [] setup) later) (.apply .cpp)) :
    ∀ e ∈ es, sHpp ∉ e.file.tags → sUnmocable ∉ e.file.tags →
      ((if cfg.combineCxx then sCppCombine else sCpp) ∈ e.file.tags ∨ sCppm ∈ e.file.tags ∨
        (if cfg.combineObjcxx then sObjcppCombine else sObjcpp) ∈ e.file.tags) →
      SourceRight e.file (e.out .cpp) := by
  intro e he hh hu ht
  subst hes
  have hinv := history_inv cfg setup later hs hp hc hl
  have hinv' := apply_inv (r := .cpp) hinv
  have hi : input cfg .cpp e.file = true := by
    simp only [input, Bool.and_eq_true, Bool.or_eq_true, List.contains_iff_mem, Bool.not_eq_true']
    refine ⟨?_, by simpa using hu⟩
    rcases ht with h | h | h
    · exact .inl (.inr h)
    · exact .inr h
    · exact .inl (.inl h)
  have hsrc : SourceFile e.file := by
    rcases ht with h | h | h
    · split at h
      · exact ⟨_, h, .inr (.inl rfl)⟩
      · exact ⟨_, h, .inl rfl⟩
    · exact ⟨_, h, .inr (.inr (.inl rfl))⟩
    · split at h
      · exact ⟨_, h, .inr (.inr (.inr (.inr rfl)))⟩
      · exact ⟨_, h, .inr (.inr (.inr (.inl rfl)))⟩
  have hf := apply_done cfg .cpp _ e he hi
  obtain ⟨inc, _, h2⟩ := (hinv' e he).2 .cpp hi hf
  rw [h2]
  exact outputs_source cfg (hinv' e he).1.plain hh hsrc hu inc

/-- C120: whatever was changed before, as long as no tags were, the headers for which the rule runs
get it right, provided that all source files are tagged as plain C++ or Objective-C++ files: so
touching a header is a way out when the decision for it is out of date. -/
theorem C120_touched_partial (cfg : Cfg) (evs : List Event) (hev : ∀ i tags, .retag i tags ∉ evs)
    (es : List Entry) (hes : es = steps cfg [] evs)
    (hp : ∀ f ∈ files es, PlainTags f)
    (hc : ∀ f ∈ files es, SourceFile f → (sCpp ∈ f.tags ∨ sObjcpp ∈ f.tags) ∧ sUnmocable ∉ f.tags)
    (i : Nat) (e : Entry) (he : es[i]? = some e) (hh : sHpp ∈ e.file.tags)
    (hu : sUnmocable ∉ e.file.tags) (hf : e.fresh .hpp = true) :
    ∃ e', (step cfg es (.apply .hpp))[i]? = some e' ∧ e'.file = e.file ∧
      HeaderRight (files es) e'.file (e'.out .hpp) := by
  subst hes
  have hk := steps_known (cfg := cfg) (es := []) (by simp) hev
  have hdue : due cfg .hpp e = true := by simp [due, input, hh, hu, hf]
  have hmem : e ∈ steps cfg [] evs := List.mem_of_getElem? he
  have hany : (steps cfg [] evs).any (due cfg .hpp) = true := List.any_eq_true.mpr ⟨e, hmem, hdue⟩
  have hef : e.file ∈ files (steps cfg [] evs) := List.mem_map_of_mem hmem
  simp only [step]
  rw [apply_eq cfg .hpp _ hany]
  refine ⟨run cfg .hpp (gather (scanAll cfg .hpp (steps cfg [] evs))) (scanEntry e), ?_, ?_, ?_⟩
  · simp only [scanAll, List.getElem?_map, he, Option.map_some, hdue, Bool.true_or, if_true,
      due_scanEntry]
  · simp [run, scanEntry_file]
  · simp only [run, if_true, scanEntry_file, scanned (hk e hmem)]
    refine outputs_header cfg (hp _ hef) hh hu _ _ ?_
    intro b
    exact gather_known cfg hk hp hc b

/-- C120: the scanner finds exactly the generated code that a source file includes, from whatever
directory. -/
theorem C120_included (f : File) (hf : PlainTags f) (hs : SourceFile f) (b : Str) :
    b ∈ (scanFile f).included ↔ IncludesMoc f b := scan_included hf hs b

/-- C120: a build without changes does nothing. -/
theorem C120_null_build (cfg : Cfg) (r : Rule) (es : List Entry) :
    step cfg (step cfg es (.apply r)) (.apply r) = step cfg es (.apply r) := by
  simp only [step]
  have hd := apply_done cfg r es
  have : (apply cfg r es).any (due cfg r) = false := by
    simp only [List.any_eq_false]
    intro e he
    have := hd e he
    cases hi : input cfg r e.file with
    | false => simp [due, hi]
    | true => simp [due, hi, this hi]
  generalize apply cfg r es = es' at this
  unfold apply
  simp [this]

/-- C120: files that are kept away from `moc` get nothing, whatever happens, if they were never
without the tag. -/
theorem C120_unmocable (cfg : Cfg) (es : List Entry) (ev : Event)
    (h : ∀ e ∈ es, sUnmocable ∈ e.file.tags → ∀ r, e.out r = [])
    (hev : ∀ i tags, ev ≠ .retag i tags) :
    ∀ e ∈ step cfg es ev, sUnmocable ∈ e.file.tags → ∀ r, e.out r = [] := by
  have key : ∀ (g : Entry → Entry) (i : Nat), (∀ e, (g e).file.tags = e.file.tags ∧ (g e).out = e.out) →
      ∀ e ∈ es.modify i g, sUnmocable ∈ e.file.tags → ∀ r, e.out r = [] := by
    intro g i hg e he hu r
    rcases modify_split g es i with ⟨a, x, b, h1, _, h3⟩ | h0
    · rw [h3] at he
      rcases List.mem_append.mp he with he | he
      · exact h e (by rw [h1]; simp [he]) hu r
      rcases List.mem_cons.mp he with rfl | he
      · rw [(hg x).2]; rw [(hg x).1] at hu; exact h x (by rw [h1]; simp) hu r
      · exact h e (by rw [h1]; simp [he]) hu r
    · rw [h0] at he; exact h e he hu r
  cases ev with
  | add f =>
    intro e he hu r
    rcases List.mem_append.mp he with he | he
    · obtain ⟨x, hx, rfl⟩ := List.mem_map.mp he
      exact h x hx hu r
    · rw [List.mem_singleton] at he; subst he; rfl
  | edit i c => exact key _ i (fun e => ⟨rfl, rfl⟩)
  | retag i tags => exact absurd rfl (hev i tags)
  | remove i =>
    intro e he hu r
    obtain ⟨x, hx, rfl⟩ := List.mem_map.mp he
    exact h x (List.mem_of_mem_eraseIdx hx) hu r
  | scan i => exact key _ i (fun e => ⟨by rw [scanEntry_file], scanEntry_out e⟩)
  | apply q =>
    intro e'' he'' hu r
    simp only [step] at he''
    by_cases hd : es.any (due cfg q) = true
    · rw [apply_eq cfg q es hd] at he''
      obtain ⟨e', he', rfl⟩ := List.mem_map.mp he''
      have h' : sUnmocable ∈ e'.file.tags → ∀ r, e'.out r = [] := by
        obtain ⟨e, he, rfl⟩ := List.mem_map.mp he'
        split
        · rw [scanEntry_file, scanEntry_out]; exact h e he
        · exact h e he
      split
      · next hdue =>
        rw [if_pos hdue] at hu
        simp only [due, input, Bool.and_eq_true, Bool.not_eq_true'] at hdue
        have : e'.file.tags.contains sUnmocable = true := List.contains_iff_mem.mpr hu
        rw [hdue.1.2] at this
        cases this
      · next hdue => rw [if_neg hdue] at hu; exact h' hu r
    · have : apply cfg q es = es := by unfold apply; rw [if_neg hd]
      rw [this] at he''
      exact h e'' he'' hu r

end Verif.Moc
