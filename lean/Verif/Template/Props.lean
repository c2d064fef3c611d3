import Verif.Template.Lem

/-! # C128: text templates -/

namespace Verif.Template

theorem unknown_error {st : Style} {d : Dict} {ps : List Part} {e : Text} :
    Ok st ps → value st d ps = .error e →
    ∃ a b t, ps = a ++ .var e :: b ∧ Unknown st d e ∧ Rendered st d b t := by
  induction ps with
  | nil => intro _ h; cases h
  | cons p ps ih =>
    intro hok h
    cases p with
    | lit c =>
      simp only [value] at h
      cases hv : value st d ps with
      | ok u => rw [hv] at h; cases h
      | error e' =>
        rw [hv] at h
        cases h
        obtain ⟨a, b, t, h1, h2⟩ := ih hok.2 hv
        exact ⟨.lit c :: a, b, t, by rw [h1]; rfl, h2⟩
    | var n =>
      simp only [value] at h
      cases hv : value st d ps with
      | error e' =>
        rw [hv] at h
        cases h
        obtain ⟨a, b, t, h1, h2⟩ := ih hok.2 hv
        exact ⟨.var n :: a, b, t, by rw [h1]; rfl, h2⟩
      | ok u =>
        rw [hv] at h
        simp only at h
        cases hr : replacement st d n with
        | some x => rw [hr] at h; cases h
        | none =>
          rw [hr] at h
          cases h
          exact ⟨[], ps, u, rfl, ⟨hok.1, value_none.1 hr⟩, rendered_iff.1 hv⟩

/-- **C128.** A line of a template is a sequence of characters and placeholders. In the result the characters are as they were
and each placeholder is replaced by its value; values are not looked at again. -/
theorem C128_line {st : Style} {d : Dict} {ps : List Part} {t : Text} (hok : Ok st ps) :
    renderLine st d (template st ps) = .ok t ↔ Rendered st d ps t := by
  rw [render_parts hok, rendered_iff]

/-- **C128.** Every line can be read as such a sequence, and in one way only as far as the result is concerned. -/
theorem C128_every_line (st : Style) (l : Text) : ∃ ps, Ok st ps ∧ template st ps = l ∧
    ∀ ps', Ok st ps' → template st ps' = l → ∀ d t, Rendered st d ps' t ↔ Rendered st d ps t := by
  obtain ⟨ps, h1, h2⟩ := parts_exist st l.length l (Nat.le_refl _)
  refine ⟨ps, h1, h2, fun ps' h1' h2' d t => ?_⟩
  rw [← C128_line h1, ← C128_line h1', h2, h2']

/-- **C128.** There is an error if and only if there is a placeholder that stands for nothing; the error names the last one. -/
theorem C128_unknown {st : Style} {d : Dict} {ps : List Part} {n : Text} (hok : Ok st ps) :
    renderLine st d (template st ps) = .error n ↔
    ∃ a b t, ps = a ++ .var n :: b ∧ Unknown st d n ∧ Rendered st d b t := by
  rw [render_parts hok]
  constructor
  · exact unknown_error hok
  · rintro ⟨a, b, t, rfl, ⟨-, hn⟩, hb⟩
    clear hok
    induction a with
    | nil =>
      rw [List.nil_append, value, rendered_iff.2 hb]
      simp only [value_none.2 hn]
    | cons p a ih =>
      cases p with
      | lit c => rw [List.cons_append, value, ih]; rfl
      | var m => rw [List.cons_append, value, ih]

/-- **C128.** Every text is the result of a template: the one where each special character is written as a placeholder. -/
theorem C128_quote (st : Style) (d : Dict) (s : Text) : renderLine st d (quote st s) = .ok s := by
  have : ∃ ps, Ok st ps ∧ template st ps = quote st s ∧ Rendered st d ps s := by
    induction s with
    | nil => exact ⟨[], trivial, rfl, .nil⟩
    | cons c s ih =>
      obtain ⟨ps, h1, h2, h3⟩ := ih
      by_cases hc : c = st.special
      · refine ⟨.var [c] :: ps, ⟨.inl (by rw [hc]), h1⟩, ?_, ?_⟩
        · show st.wrap [c] ++ template st ps = (if c = st.special then st.wrap [c] else [c]) ++ quote st s
          rw [if_pos hc, h2]
        · exact .var (x := [c]) (.inl ⟨by rw [hc], by rw [hc]⟩) h3
      · refine ⟨.lit c :: ps, ⟨?_, h1⟩, ?_, .lit h3⟩
        · intro n rest _ he
          apply hc
          cases st <;> (injection he)
        · show [c] ++ template st ps = (if c = st.special then st.wrap [c] else [c]) ++ quote st s
          rw [if_neg hc, h2]
  obtain ⟨ps, h1, h2, h3⟩ := this
  rw [← h2]
  exact (C128_line h1).2 h3

theorem quote_none {st : Style} {s : Text} (h : st.special ∉ s) : quote st s = s := by
  induction s with
  | nil => rfl
  | cons c s ih =>
    simp only [List.mem_cons, not_or] at h
    show (if c = st.special then st.wrap [c] else [c]) ++ quote st s = _
    rw [if_neg (fun e => h.1 e.symm), ih h.2]
    rfl

theorem renderLines_ok {st : Style} {d : Dict} {pss : List (List Part)} {ts : List Text} (h : AllRendered st d pss ts)
    (hok : ∀ ps ∈ pss, Ok st ps) : renderLines st d (pss.map (template st)) = .ok (file ts) := by
  induction h with
  | nil => rfl
  | @cons ps t pss ts h _ ih =>
    rw [List.map_cons, renderLines, (C128_line (hok ps (by simp))).2 h, ih (fun x hx => hok x (by simp [hx]))]
    simp [file]

/-- **C128.** The lines of the output are the results of the lines of the template, in the same order. -/
theorem C128_file {st : Style} {d : Dict} {pss : List (List Part)} {ts : List Text}
    (hok : ∀ ps ∈ pss, Ok st ps ∧ '\n' ∉ template st ps) (h : AllRendered st d pss ts) :
    render st d (file (pss.map (template st))) = .ok (file ts) := by
  have hl : ∀ l ∈ pss.map (template st), '\n' ∉ l := by
    intro l hl
    obtain ⟨ps, hp, rfl⟩ := List.mem_map.1 hl
    exact (hok ps hp).2
  have := fileLines_text hl (last := []) (by simp)
  rw [if_pos rfl, List.append_nil, List.append_nil] at this
  rw [render, file, this]
  exact renderLines_ok h fun ps hp => (hok ps hp).1

/-- **C128.** If one line of the template has a placeholder that stands for nothing, the command fails. -/
theorem C128_file_error {st : Style} {d : Dict} {ls : List Text} (hls : ∀ l ∈ ls, '\n' ∉ l) :
    (∃ n, render st d (file ls) = .error n) ↔ ∃ l ∈ ls, ∃ n, renderLine st d l = .error n := by
  have := fileLines_text hls (last := []) (by simp)
  rw [if_pos rfl, List.append_nil, List.append_nil] at this
  rw [render, file, this]
  clear this hls
  induction ls with
  | nil => simp [renderLines]
  | cons l ls ih =>
    simp only [renderLines, List.mem_cons, exists_eq_or_imp]
    cases renderLine st d l with
    | error e => simp
    | ok t =>
      simp only [reduceCtorEq, exists_false, false_or]
      refine Iff.trans ?_ ih
      cases renderLines st d ls with
      | error e => simp
      | ok r => simp

/-- **C128.** A file that ends with a newline and does not contain the special character is copied. -/
theorem C128_unchanged {st : Style} {d : Dict} {ls : List Text} (hls : ∀ l ∈ ls, '\n' ∉ l ∧ st.special ∉ l) :
    render st d (file ls) = .ok (file ls) := by
  have := fileLines_text (fun l hl => (hls l hl).1) (last := []) (by simp)
  rw [if_pos rfl, List.append_nil, List.append_nil] at this
  rw [render, file, this]
  clear this
  induction ls with
  | nil => rfl
  | cons l ls ih =>
    have := C128_quote st d l
    rw [quote_none (hls l (by simp)).2] at this
    rw [renderLines, this, ih (fun x hx => hls x (by simp [hx]))]
    simp

/-- **C128 finding.** A file whose last line does not end with a newline is not copied: a newline is added, whatever the file is.
A text without a newline at the end cannot be produced, except for the empty one. -/
theorem C128_last_line {st : Style} {d : Dict} {s t : Text} (h : render st d s = .ok t) : t = [] ∨ t.getLast? = some '\n' := by
  unfold render at h
  generalize fileLines none s = ls at h
  induction ls generalizing t with
  | nil => cases h; exact .inl rfl
  | cons l ls ih =>
    rw [renderLines] at h
    cases hr : renderLine st d l with
    | error e => rw [hr] at h; cases h
    | ok x =>
      rw [hr] at h
      simp only at h
      cases hs : renderLines st d ls with
      | error e => rw [hs] at h; cases h
      | ok r =>
        rw [hs] at h
        cases h
        rcases ih hs with rfl | h'
        · exact .inr (by simp)
        · right
          rw [List.getLast?_append, List.getLast?_cons, h']
          rfl

/-- **C128.** A placeholder stands for what the dictionary says, also if all objects have a property of that name. -/
theorem C128_own {st : Style} {d : Dict} {n x : Text} (hn : Name st n) (hs : n ≠ [st.special])
    (hd : (d.own.map Prod.fst).Nodup) (h : (n, x) ∈ d.own) : renderLine st d (st.wrap n) = .ok x := by
  have hf : find n d.own = some x := by
    generalize d.own = l at hd h
    induction l with
    | nil => cases h
    | cons p l ih =>
      rw [List.map_cons, List.nodup_cons] at hd
      rw [find]
      rcases List.mem_cons.1 h with rfl | h
      · rw [if_pos rfl]
      · rw [if_neg]
        · exact ih hd.2 h
        · intro e
          apply hd.1
          rw [e]
          exact List.mem_map.2 ⟨_, h, rfl⟩
  have hp : Ok st [.var n] := ⟨hn, trivial⟩
  have := (C128_line (d := d) (t := x) hp).2 (by
    have := Rendered.var (st := st) (d := d) (n := n) (x := x) (.inr ⟨hs, by rw [Dict.get, hf]; rfl⟩) .nil
    rwa [List.append_nil] at this)
  simpa [template, Part.text] using this

/-- **C128 finding.** A placeholder that the dictionary does not define but all objects have is not reported: its value is text
that nobody wrote. (`toString` and `constructor` are names of this kind.) -/
theorem C128_inherited {st : Style} {d : Dict} {n x : Text} (hn : Name st n) (hs : n ≠ [st.special])
    (hown : ∀ p ∈ d.own, p.1 ≠ n) (h : find n d.inherited = some x) : renderLine st d (st.wrap n) = .ok x := by
  have hf : find n d.own = none := by
    generalize d.own = l at hown
    induction l with
    | nil => rfl
    | cons p l ih => rw [find, if_neg (hown p (by simp)), ih (fun q hq => hown q (by simp [hq]))]
  have hp : Ok st [.var n] := ⟨hn, trivial⟩
  have := (C128_line (d := d) (t := x) hp).2 (by
    have := Rendered.var (st := st) (d := d) (n := n) (x := x) (.inr ⟨hs, by rw [Dict.get, hf, h]; rfl⟩) .nil
    rwa [List.append_nil] at this)
  simpa [template, Part.text] using this

end Verif.Template
