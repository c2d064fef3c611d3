import Verif.Moc.Lem

namespace Verif.Moc

/-! ### The scanner -/

/-- What becomes of a single tag. -/
def normTag (t : Str) : Str := replace sObjcppCombine sObjcpp (replace sCppCombine sCpp t)

theorem normalized_join (ts : List Str) : normalized (join ts) = join (ts.map normTag) := by
  unfold normalized
  rw [replace_join (by decide) (by decide), replace_join (by decide) (by decide), List.map_map]
  rfl

theorem normTag_plain {t : Str} (h : ¬ sCppCombine <:+: t) : normTag t = t := by
  unfold normTag
  rw [replace_none h]
  apply replace_none
  intro h'
  exact h (List.IsInfix.trans ⟨['o','b','j'], [], by decide⟩ h')

theorem normTag_combine : normTag sCppCombine = sCpp := by decide
theorem normTag_objcombine : normTag sObjcppCombine = sObjcpp := by decide

theorem norm_cases {f : File} (hf : PlainTags f) {t : Str} (ht : t ∈ f.tags) :
    (t = sCppCombine ∧ normTag t = sCpp) ∨ (t = sObjcppCombine ∧ normTag t = sObjcpp) ∨
      (t ≠ sCppCombine ∧ t ≠ sObjcppCombine ∧ normTag t = t) := by
  by_cases h1 : t = sCppCombine
  · subst h1; exact .inl ⟨rfl, normTag_combine⟩
  by_cases h2 : t = sObjcppCombine
  · subst h2; exact .inr (.inl ⟨rfl, normTag_objcombine⟩)
  · rcases (hf t ht).2.1 with h | h | h
    · exact absurd h h1
    · exact absurd h h2
    · exact .inr (.inr ⟨h1, h2, normTag_plain h⟩)

theorem norm_comma {f : File} (hf : PlainTags f) {t : Str} (ht : t ∈ f.tags.map normTag) :
    ',' ∉ t := by
  obtain ⟨u, hu, rfl⟩ := List.mem_map.mp ht
  rcases norm_cases hf hu with ⟨_, h⟩ | ⟨_, h⟩ | ⟨_, _, h⟩
  · rw [h]; decide
  · rw [h]; decide
  · rw [h]; exact (hf u hu).1

theorem mem_split {f : File} (hf : PlainTags f) {x : Str} (hx : x ≠ []) :
    x ∈ split (normalized (join f.tags)) ↔ x ∈ f.tags.map normTag := by
  rw [normalized_join, split_join (fun t ht => norm_comma hf ht) hx]

/-- Membership of the tags that the scanner looks for. -/
theorem mem_norm {f : File} (hf : PlainTags f) {x : Str} (h1 : x ≠ sCpp) (h2 : x ≠ sObjcpp)
    (h3 : x ≠ sCppCombine) (h4 : x ≠ sObjcppCombine) :
    x ∈ f.tags.map normTag ↔ x ∈ f.tags := by
  constructor
  · intro h
    obtain ⟨u, hu, rfl⟩ := List.mem_map.mp h
    rcases norm_cases hf hu with ⟨_, h⟩ | ⟨_, h⟩ | ⟨_, _, h⟩
    · exact absurd h h1
    · exact absurd h h2
    · rw [h]; exact hu
  · intro h
    refine List.mem_map.mpr ⟨x, h, ?_⟩
    rcases norm_cases hf h with ⟨h, _⟩ | ⟨h, _⟩ | ⟨_, _, h⟩
    · exact absurd h h3
    · exact absurd h h4
    · exact h

theorem mem_norm_cpp {f : File} (hf : PlainTags f) :
    sCpp ∈ f.tags.map normTag ↔ sCpp ∈ f.tags ∨ sCppCombine ∈ f.tags := by
  constructor
  · intro h
    obtain ⟨u, hu, he⟩ := List.mem_map.mp h
    rcases norm_cases hf hu with ⟨h, _⟩ | ⟨_, h⟩ | ⟨_, _, h⟩
    · right; rw [← h]; exact hu
    · rw [h] at he; exact absurd he (by decide)
    · left; rw [← he, h]; exact hu
  · rintro (h | h)
    · refine List.mem_map.mpr ⟨_, h, ?_⟩; decide
    · exact List.mem_map.mpr ⟨_, h, normTag_combine⟩

theorem mem_norm_objcpp {f : File} (hf : PlainTags f) :
    sObjcpp ∈ f.tags.map normTag ↔ sObjcpp ∈ f.tags ∨ sObjcppCombine ∈ f.tags := by
  constructor
  · intro h
    obtain ⟨u, hu, he⟩ := List.mem_map.mp h
    rcases norm_cases hf hu with ⟨_, h⟩ | ⟨h, _⟩ | ⟨_, _, h⟩
    · rw [h] at he; exact absurd he (by decide)
    · right; rw [← h]; exact hu
    · left; rw [← he, h]; exact hu
  · rintro (h | h)
    · refine List.mem_map.mpr ⟨_, h, ?_⟩; decide
    · exact List.mem_map.mpr ⟨_, h, normTag_objcombine⟩

theorem has_hpp {f : File} (hf : PlainTags f) :
    has sHpp (normalized (join f.tags)) = true ↔ sHpp ∈ f.tags := by
  rw [normalized_join, has_join (by decide) (by decide)]
  constructor
  · rintro ⟨t, ht, h⟩
    obtain ⟨u, hu, rfl⟩ := List.mem_map.mp ht
    rcases norm_cases hf hu with ⟨_, h'⟩ | ⟨_, h'⟩ | ⟨_, _, h'⟩
    · rw [h'] at h; exact absurd h (by decide)
    · rw [h'] at h; exact absurd h (by decide)
    · rw [h', has_iff] at h
      rcases (hf u hu).2.2.2 with h'' | h''
      · rw [← h'']; exact hu
      · exact absurd h h''
  · intro h
    refine ⟨sHpp, (mem_norm hf (by decide) (by decide) (by decide) (by decide)).mpr h, by decide⟩

theorem has_mocable {f : File} (hf : PlainTags f) :
    has sMocable (normalized (join f.tags)) = true ↔ sMocable ∈ f.tags ∨ sUnmocable ∈ f.tags := by
  rw [normalized_join, has_join (by decide) (by decide)]
  constructor
  · rintro ⟨t, ht, h⟩
    obtain ⟨u, hu, rfl⟩ := List.mem_map.mp ht
    rcases norm_cases hf hu with ⟨_, h'⟩ | ⟨_, h'⟩ | ⟨_, _, h'⟩
    · rw [h'] at h; exact absurd h (by decide)
    · rw [h'] at h; exact absurd h (by decide)
    · rw [h', has_iff] at h
      rcases (hf u hu).2.2.1 with h'' | h'' | h''
      · left; rw [← h'']; exact hu
      · right; rw [← h'']; exact hu
      · exact absurd h h''
  · rintro (h | h)
    · exact ⟨sMocable, (mem_norm hf (by decide) (by decide) (by decide) (by decide)).mpr h, by decide⟩
    · exact ⟨sUnmocable, (mem_norm hf (by decide) (by decide) (by decide) (by decide)).mpr h, by decide⟩

theorem source_norm {f : File} (hf : PlainTags f) (hs : SourceFile f) :
    sCpp ∈ f.tags.map normTag ∨ sCppm ∈ f.tags.map normTag ∨ sObjcpp ∈ f.tags.map normTag := by
  obtain ⟨t, ht, rfl | rfl | rfl | rfl | rfl⟩ := hs
  · exact .inl ((mem_norm_cpp hf).mpr (.inl ht))
  · exact .inl ((mem_norm_cpp hf).mpr (.inr ht))
  · exact .inr (.inl ((mem_norm hf (by decide) (by decide) (by decide) (by decide)).mpr ht))
  · exact .inr (.inr ((mem_norm_objcpp hf).mpr (.inl ht)))
  · exact .inr (.inr ((mem_norm_objcpp hf).mpr (.inr ht)))

theorem has_cpp {f : File} (hf : PlainTags f) (hs : SourceFile f) :
    has sCpp (normalized (join f.tags)) = true := by
  rw [normalized_join, has_join (by decide) (by decide)]
  rcases source_norm hf hs with h | h | h
  · exact ⟨_, h, by decide⟩
  · exact ⟨_, h, by decide⟩
  · exact ⟨_, h, by decide⟩

theorem fileType_hpp {f : File} (hf : PlainTags f) (h : sHpp ∈ f.tags) :
    fileType (normalized (join f.tags)) = .hpp := by
  unfold fileType
  have : sHpp ∈ split (normalized (join f.tags)) := by
    rw [mem_split hf (by decide), mem_norm hf (by decide) (by decide) (by decide) (by decide)]
    exact h
  simp [this]

theorem fileType_source {f : File} (hf : PlainTags f) (h : sHpp ∉ f.tags) (hs : SourceFile f) :
    fileType (normalized (join f.tags)) = .cpp ∨ fileType (normalized (join f.tags)) = .cppm ∨
      fileType (normalized (join f.tags)) = .objcpp := by
  have h0 : sHpp ∉ split (normalized (join f.tags)) := by
    rw [mem_split hf (by decide), mem_norm hf (by decide) (by decide) (by decide) (by decide)]
    exact h
  have h1 : sCpp ∈ split (normalized (join f.tags)) ∨ sCppm ∈ split (normalized (join f.tags)) ∨
      sObjcpp ∈ split (normalized (join f.tags)) := by
    rw [mem_split hf (by decide), mem_split hf (by decide), mem_split hf (by decide)]
    exact source_norm hf hs
  unfold fileType
  simp only [h0, if_false]
  by_cases a : sCpp ∈ split (normalized (join f.tags))
  · simp [a]
  by_cases b : sCppm ∈ split (normalized (join f.tags))
  · simp [a, b]
  · simp [a, b] at h1; simp [a, b, h1]

theorem scan_header {f : File} (hf : PlainTags f) (h : sHpp ∈ f.tags) (hu : sUnmocable ∉ f.tags) :
    (scanFile f).qobject = true ↔ WantsMoc f := by
  have e1 := fileType_hpp hf h
  have e2 : has sHpp (normalized (join f.tags)) = true := (has_hpp hf).mpr h
  have e3 : has sMocable (normalized (join f.tags)) = true ↔ sMocable ∈ f.tags := by
    rw [has_mocable hf]; simp [hu]
  unfold scanFile WantsMoc
  simp only [e1, e2, if_true, additionalTag]
  cases hm : f.content.qmacro with
  | true => cases f.content.plugin <;> simp
  | false =>
    cases hb : has sMocable (normalized (join f.tags)) with
    | true => simp [e3.mp hb]
    | false =>
      have : sMocable ∉ f.tags := fun h' => by rw [e3.mpr h'] at hb; cases hb
      simp [this]

theorem scan_source {f : File} (hf : PlainTags f) (h : sHpp ∉ f.tags) (hs : SourceFile f)
    (hu : sUnmocable ∉ f.tags) : (scanFile f).qobject = true ↔ WantsMoc f := by
  have e2 : has sHpp (normalized (join f.tags)) = false := by
    cases hb : has sHpp (normalized (join f.tags)) with
    | false => rfl
    | true => exact absurd ((has_hpp hf).mp hb) h
  have e3 : has sMocable (normalized (join f.tags)) = true ↔ sMocable ∈ f.tags := by
    rw [has_mocable hf]; simp [hu]
  have e4 := has_cpp hf hs
  unfold scanFile WantsMoc
  simp only [e2, e4, additionalTag]
  cases hm : f.content.qmacro with
  | true =>
    rcases fileType_source hf h hs with e | e | e <;> rw [e] <;> cases f.content.plugin <;> simp
  | false =>
    cases hb : has sMocable (normalized (join f.tags)) with
    | true => simp [e3.mp hb]
    | false =>
      have : sMocable ∉ f.tags := fun h' => by rw [e3.mpr h'] at hb; cases hb
      simp [this]

theorem scan_included {f : File} (hf : PlainTags f) (hs : SourceFile f) (b : Str) :
    b ∈ (scanFile f).included ↔ IncludesMoc f b := by
  rw [← included_iff]
  unfold scanFile
  simp only [has_cpp hf hs, Bool.true_or, if_true]

theorem isSource_iff (f : File) : isSource f = true ↔ SourceFile f := by
  unfold isSource SourceFile
  simp only [Bool.or_eq_true, List.contains_iff_mem]
  constructor
  · rintro ((((h | h) | h) | h) | h)
    · exact ⟨_, h, .inl rfl⟩
    · exact ⟨_, h, .inr (.inl rfl)⟩
    · exact ⟨_, h, .inr (.inr (.inl rfl))⟩
    · exact ⟨_, h, .inr (.inr (.inr (.inl rfl)))⟩
    · exact ⟨_, h, .inr (.inr (.inr (.inr rfl)))⟩
  · rintro ⟨t, ht, rfl | rfl | rfl | rfl | rfl⟩ <;> simp [ht]

/-! ### The outputs -/

theorem outputs_header (cfg : Cfg) {f : File} (hf : PlainTags f) (h : sHpp ∈ f.tags)
    (hu : sUnmocable ∉ f.tags) (inc : List Str) (fs : List File)
    (hinc : ∀ b, b ∈ inc ↔ ∃ s ∈ fs, SourceFile s ∧ IncludesMoc s b) :
    HeaderRight fs f (outputs cfg f (some (scanFile f)) inc) := by
  have hq := scan_header hf h hu
  unfold HeaderRight outputs
  cases hb : (scanFile f).qobject with
  | false =>
    have : ¬ WantsMoc f := fun h' => by rw [hq.mpr h'] at hb; cases hb
    simp [hb, this]
  | true =>
    have hw : WantsMoc f := hq.mp hb
    simp only [hb, if_true, h]
    refine ⟨iff_of_true ⟨_, List.mem_cons_self, rfl⟩ hw, ?_⟩
    intro o ho hn
    rcases List.mem_cons.mp ho with rfl | ho
    · by_cases hi : f.base ∈ inc
      · have hx := (hinc f.base).mp hi
        have hc : inc.contains f.base = true := by simpa using hi
        simp only [Out.Compiled, Out.Includable, hc]
        constructor
        · refine iff_of_false ?_ (by simpa using hx)
          cases cfg.combineMoc <;> decide
        · refine iff_of_true ?_ hx
          cases cfg.combineMoc <;> decide
      · have hx : ¬ ∃ s ∈ fs, SourceFile s ∧ IncludesMoc s f.base := fun h' => hi ((hinc f.base).mpr h')
        have hc : inc.contains f.base = false := by simpa using hi
        simp only [Out.Compiled, Out.Includable, hc]
        constructor
        · refine iff_of_true ?_ hx
          cases cfg.combineMoc <;> decide
        · refine iff_of_false ?_ hx
          cases cfg.combineMoc <;> decide
    · exfalso
      split at ho
      · simp only [List.mem_singleton] at ho
        subst ho
        have := congrArg List.length hn
        simp [sMocPrefix, sCppSuffix, sJson] at this
      · cases ho

theorem outputs_source (cfg : Cfg) {f : File} (hf : PlainTags f) (h : sHpp ∉ f.tags)
    (hs : SourceFile f) (hu : sUnmocable ∉ f.tags) (inc : List Str) :
    SourceRight f (outputs cfg f (some (scanFile f)) inc) := by
  have hq := scan_source hf h hs hu
  unfold SourceRight outputs
  cases hb : (scanFile f).qobject with
  | false =>
    have : ¬ WantsMoc f := fun h' => by rw [hq.mpr h'] at hb; cases hb
    simp [hb, this]
  | true =>
    have hw : WantsMoc f := hq.mp hb
    simp only [hb, if_true, h, if_false]
    refine ⟨iff_of_true ⟨_, List.mem_append_left _ List.mem_cons_self, rfl⟩ hw, ?_⟩
    intro o ho
    have hx : (o.tags = [sUnmocable, sHpp]) ∨ (o.tags = [sMetatypes] ∧ o.name = f.base ++ sMocSuffix ++ sJson) := by
      cases hm : cfg.modules <;> cases ht : cfg.metaTypes <;> simp [hm, ht] at ho
      · exact .inl (by rw [ho])
      · rcases ho with rfl | rfl
        · exact .inl rfl
        · exact .inr ⟨rfl, by simp⟩
      · rcases ho with rfl | rfl | rfl <;> exact .inl rfl
      · rcases ho with rfl | rfl | rfl | rfl
        · exact .inl rfl
        · exact .inl rfl
        · exact .inl rfl
        · exact .inr ⟨rfl, by simp⟩
    rcases hx with hx | ⟨hx, hn⟩
    · simp only [Out.Compiled, Out.Includable, hx]
      exact ⟨by decide, fun _ => by decide⟩
    · refine ⟨by simp only [Out.Compiled, hx]; decide, fun hn' => ?_⟩
      rw [hn] at hn'
      have := congrArg List.length hn'
      simp [sMocSuffix, sJson] at this

end Verif.Moc
