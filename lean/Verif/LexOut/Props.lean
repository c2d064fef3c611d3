import Verif.LexOut.Spec
import Verif.Common.Snoc

namespace Verif.LexOut

open Verif.Path (isAbsolute)

/-- Taking over one setting. -/
def upd (key : Str) (acc : Option Str) (s : Setting) : Option Str := if s.name = key then s.value else acc

theorem lastValue_fold (key : Str) (init : Option Str) (l : List Setting) : lastValue key init l = l.foldl (upd key) init := by
  induction l using Verif.snoc_induction with
  | nil => rfl
  | append_singleton l s ih =>
    rw [List.foldl_append, ← ih]
    simp only [lastValue, List.filter_append, List.foldl_cons, List.foldl_nil, upd]
    by_cases h : s.name = key
    · simp [h]
    · simp [h]

theorem fold_or (key : Str) (init : Option Str) (l : List Setting) (hv : ∀ s ∈ l, s.name = key → s.value ≠ none) :
    l.foldl (upd key) init = (l.foldl (upd key) none).or init := by
  induction l using Verif.snoc_induction with
  | nil => simp
  | append_singleton l s ih =>
    rw [List.foldl_append, List.foldl_append, ih (fun s hs => hv s (by simp [hs]))]
    simp only [List.foldl_cons, List.foldl_nil, upd]
    by_cases h : s.name = key
    · have := hv s (by simp) h
      simp only [h, if_true]
      cases hs : s.value with
      | none => exact absurd hs this
      | some v => rfl
    · simp [h]

theorem fold_irrelevant (key : Str) (acc : Option Str) (l : List Setting) (h : ∀ s ∈ l, s.name ≠ key) : l.foldl (upd key) acc = acc := by
  induction l with
  | nil => rfl
  | cons s l ih =>
    rw [List.foldl_cons, upd, if_neg (h s (by simp))]
    exact ih (fun s hs => h s (by simp [hs]))

theorem read_fold (key : Str) (lines : List (List Setting)) (h : ∀ l ∈ lines, ∀ s ∈ l.tail, s.name ≠ key) (acc : Option Str) :
    (lines.filterMap List.head?).foldl (upd key) acc = lines.flatten.foldl (upd key) acc := by
  induction lines generalizing acc with
  | nil => rfl
  | cons l ls ih =>
    have h' := ih (fun l hl => h l (by simp [hl]))
    rw [List.flatten_cons, List.foldl_append]
    cases l with
    | nil => exact h' acc
    | cons s' l =>
      rw [List.filterMap_cons]
      simp only [List.head?_cons, List.foldl_cons]
      rw [fold_irrelevant key _ l (fun s hs => h (s' :: l) (by simp) s hs)]
      exact h' _

theorem readOption_eq (key : Str) (lines : List (List Setting)) (h : ∀ l ∈ lines, ∀ s ∈ l.tail, s.name ≠ key) :
    readOption lines key = lines.flatten.foldl (upd key) none := read_fold key lines h none

theorem read_value {key v : Str} {l : List Setting} (h : l.foldl (upd key) none = some v) : ∃ s ∈ l, s.name = key ∧ s.value = some v := by
  induction l using Verif.snoc_induction with
  | nil => simp at h
  | append_singleton l s ih =>
    rw [List.foldl_append, List.foldl_cons, List.foldl_nil, upd] at h
    by_cases hk : s.name = key
    · rw [if_pos hk] at h
      exact ⟨s, by simp, hk, h⟩
    · rw [if_neg hk] at h
      obtain ⟨t, ht, h⟩ := ih h
      exact ⟨t, by simp [ht], h⟩

/-- **C138.** The file that the rule declares is the one that lex writes, if the lines `%option` have `outfile` and `prefix` as their
first settings only, and if the output is given by a relative path. The findings below show what happens otherwise. -/
theorem C138_declared_partial (i : Input) (hout : isAbsolute i.outDir = true)
    (hfirst : ∀ l ∈ i.lines, ∀ s ∈ l.tail, s.name ≠ kOutfile ∧ s.name ≠ kPrefix)
    (hval : ∀ l ∈ i.lines, ∀ s ∈ l, s.name = kOutfile ∨ s.name = kPrefix → s.value ≠ none)
    (hrel : ∀ l ∈ i.lines, ∀ s ∈ l, ∀ f, s.name = kOutfile → s.value = some f → isAbsolute f = false)
    (hprop : ∀ f, i.outputProp = some f → isAbsolute f = false) :
    written i = declared i := by
  have ro := readOption_eq kOutfile i.lines (fun l hl s hs => (hfirst l hl s hs).1)
  have rp := readOption_eq kPrefix i.lines (fun l hl s hs => (hfirst l hl s hs).2)
  have vo : ∀ s ∈ i.lines.flatten, s.name = kOutfile → s.value ≠ none := fun s hs h => by
    obtain ⟨l, hl, hs⟩ := List.mem_flatten.1 hs
    exact hval l hl s hs (.inl h)
  have vp : ∀ s ∈ i.lines.flatten, s.name = kPrefix → s.value ≠ none := fun s hs h => by
    obtain ⟨l, hl, hs⟩ := List.mem_flatten.1 hs
    exact hval l hl s hs (.inr h)
  have hdecl : isAbsolute (declared i) = true := by
    obtain ⟨c, d, hd⟩ : ∃ (c : Char) (d : Str), i.outDir = c :: d := by
      cases h : i.outDir with
      | nil => rw [h] at hout; cases hout
      | cons c d => exact ⟨c, d, rfl⟩
    rw [hd] at hout
    unfold declared join
    rw [hd]
    split <;> exact hout
  unfold written flexWrites
  rw [lastValue_fold, lastValue_fold, fold_or _ _ _ vo, fold_or _ _ _ vp, ← ro, ← rp]
  cases h1 : readOption i.lines kOutfile with
  | some f =>
    have hf : isAbsolute f = false := by
      obtain ⟨s, hs, hn, hv⟩ := read_value (ro.symm.trans h1)
      obtain ⟨l, hl, hs⟩ := List.mem_flatten.1 hs
      exact hrel l hl s hs f hn hv
    simp only [declared, outputName, h1, join, hf, Option.some_or, Option.getD_some, Bool.false_eq_true, if_false]
  | none =>
    cases h2 : i.outputProp with
    | some f =>
      simp only [declared, outputName, arguments, fromModule, h1, h2, join, hprop f h2, Option.none_or, Option.getD_some, if_true,
        Bool.false_eq_true, if_false]
    | none =>
      by_cases hu : i.unique = true
      · have ha : arguments i = (some (declared i), some i.base) := by simp only [arguments, fromModule, h1, h2, hu, if_true]
        simp only [ha, hdecl, Option.none_or, Option.getD_some, if_true]
      · have ha : arguments i = (none, none) := by simp only [arguments, fromModule, h1, h2, hu, if_true, if_false, Bool.false_eq_true]
        rw [ha]
        cases h3 : readOption i.lines kPrefix with
        | some p =>
          simp only [declared, outputName, h1, h2, h3, join, Option.none_or, Option.getD_some, Option.getD_none, Option.some_or]
          rfl
        | none =>
          simp only [declared, outputName, h1, h2, h3, hu, join, Option.none_or, Option.getD_none]
          rfl

/-- With `uniqueSymbolPrefix`, inputs with different base names and without settings for the output have different files. -/
theorem C138_unique (i j : Input) (hi : i.unique = true) (hj : j.unique = true) (hd : i.outDir = j.outDir)
    (pi : i.outputProp = none) (pj : j.outputProp = none)
    (oi : ∀ l ∈ i.lines, ∀ s ∈ l, s.name ≠ kOutfile ∧ s.name ≠ kPrefix)
    (oj : ∀ l ∈ j.lines, ∀ s ∈ l, s.name ≠ kOutfile ∧ s.name ≠ kPrefix)
    (ni : isAbsolute i.base = false) (nj : isAbsolute j.base = false) (h : i.base ≠ j.base) : declared i ≠ declared j := by
  have key : ∀ (k : Input), k.unique = true → k.outputProp = none →
      (∀ l ∈ k.lines, ∀ s ∈ l, s.name ≠ kOutfile ∧ s.name ≠ kPrefix) → isAbsolute k.base = false →
      declared k = k.outDir ++ '/' :: (k.base ++ "lex.yy.c".toList) := by
    intro k hk pk ok nk
    have r : ∀ key, (∀ l ∈ k.lines, ∀ s ∈ l, s.name ≠ key) → readOption k.lines key = none := by
      intro key hkey
      rw [readOption_eq key k.lines (fun l hl s hs => hkey l hl s (List.mem_of_mem_tail hs))]
      exact fold_irrelevant key none _ fun s hs => by
        obtain ⟨l, hl, hs⟩ := List.mem_flatten.1 hs
        exact hkey l hl s hs
    have h1 := r _ (fun l hl s hs => (ok l hl s hs).1)
    have h2 := r _ (fun l hl s hs => (ok l hl s hs).2)
    have h3 : isAbsolute (k.base ++ "lex.yy.c".toList) = false := by
      cases hb : k.base with
      | nil => rfl
      | cons c b => rw [hb] at nk; exact nk
    simp only [declared, outputName, h1, h2, pk, hk, join, h3, Option.or_none, if_true, Bool.false_eq_true, if_false]
  rw [key i hi pi oi ni, key j hj pj oj nj, hd]
  intro he
  have := List.append_cancel_left he
  rw [List.cons.injEq] at this
  exact h (List.append_cancel_right this.2)

/-- **C138 finding.** A line `%option` can have several settings, but only the first one is read: with
`%option noyywrap outfile="scanner.c"`, the rule declares `lex.yy.c`, and lex writes `scanner.c`. -/
theorem C138_later_setting (i : Input) (s : Setting) (f : Str) (hs : s.name ≠ kOutfile) (hp : s.name ≠ kPrefix)
    (hl : i.lines = [[s, ⟨kOutfile, some f⟩]]) (hu : i.unique = false) (ho : i.outputProp = none)
    (hf : isAbsolute f = false) :
    declared i = i.outDir ++ "/lex.yy.c".toList ∧ written i = i.outDir ++ '/' :: f := by
  have r1 : readOption i.lines kOutfile = none := by
    simp only [hl, readOption, List.filterMap_cons, List.filterMap_nil, List.head?_cons, List.foldl_cons, List.foldl_nil, if_neg hs]
  have r2 : readOption i.lines kPrefix = none := by
    simp only [hl, readOption, List.filterMap_cons, List.filterMap_nil, List.head?_cons, List.foldl_cons, List.foldl_nil, if_neg hp]
  constructor
  · simp only [declared, outputName, r1, r2, ho, hu, join, Option.none_or, Bool.false_eq_true, if_false]; rfl
  · unfold written flexWrites
    rw [lastValue_fold, hl]
    simp only [List.flatten_cons, List.flatten_nil, List.append_nil, List.foldl_cons, List.foldl_nil, upd, if_true, Option.getD_some, hf,
      Bool.false_eq_true, if_false]

/-- **C138 finding.** An absolute path in `lexOutputFilePath` is declared below the output directory, but lex writes the file with that
path. -/
theorem C138_absolute (i : Input) (f : Str) (hl : i.lines = []) (ho : i.outputProp = some ('/' :: f)) (hd : i.outDir ≠ []) :
    declared i = i.outDir ++ '/' :: f ∧ written i = '/' :: f ∧ declared i ≠ written i := by
  have r1 : readOption i.lines kOutfile = none := by rw [hl]; rfl
  have h1 : declared i = i.outDir ++ '/' :: f := by
    simp only [declared, outputName, r1, ho, join, Option.none_or]; rfl
  have h2 : written i = '/' :: f := by
    have ha : arguments i = (some ('/' :: f), none) := by simp only [arguments, fromModule, r1, ho, if_true]
    unfold written flexWrites
    rw [ha, hl]
    rfl
  refine ⟨h1, h2, ?_⟩
  rw [h1, h2]
  intro h
  have := congrArg List.length h
  rw [List.length_append] at this
  exact hd (List.length_eq_zero_iff.1 (by omega))

theorem fold_some {key : Str} {l : List Setting} (hv : ∀ s ∈ l, s.name = key → s.value ≠ none) (h : ∃ s ∈ l, s.name = key) :
    l.foldl (upd key) none ≠ none := by
  induction l using Verif.snoc_induction with
  | nil => simp at h
  | append_singleton l s ih =>
    rw [List.foldl_append, List.foldl_cons, List.foldl_nil, upd]
    by_cases hk : s.name = key
    · rw [if_pos hk]
      exact hv s (by simp) hk
    · rw [if_neg hk]
      apply ih (fun s hs => hv s (by simp [hs]))
      obtain ⟨t, ht, hn⟩ := h
      rcases List.mem_append.1 ht with ht | ht
      · exact ⟨t, ht, hn⟩
      · rw [List.mem_singleton] at ht
        subst ht
        exact absurd hn hk

/-- **C138.** With `uniqueSymbolPrefix`, and if there is no prefix in the source, the symbols start with the base name of the source;
without it, they start with `yy`. This needs that `lexOutputFilePath` is not set, or that it does not count because there is an
`outfile` in the source. -/
theorem C138_prefix_partial (i : Input) (hl : ∀ l ∈ i.lines, ∀ s ∈ l, s.name ≠ kPrefix)
    (hp : i.outputProp = none ∨ ∃ l ∈ i.lines, ∃ s ∈ l.head?, s.name = kOutfile)
    (hval : ∀ l ∈ i.lines, ∀ s ∈ l, s.name = kOutfile → s.value ≠ none) :
    symbolPrefix i = if i.unique then i.base else "yy".toList := by
  have hf : fromModule i = none := by
    unfold fromModule
    rcases hp with hp | ⟨l, hl, s, hs, hn⟩
    · rw [hp]; split <;> rfl
    · rw [if_neg]
      refine fold_some (key := kOutfile) (l := i.lines.filterMap List.head?) ?_ ⟨s, List.mem_filterMap.2 ⟨l, hl, hs⟩, hn⟩
      intro t ht
      obtain ⟨l', hl', ht⟩ := List.mem_filterMap.1 ht
      exact hval l' hl' t (List.mem_of_head? ht)
  unfold symbolPrefix
  rw [lastValue_fold, fold_irrelevant kPrefix _ _ fun s hs => by
    obtain ⟨l, hl', hs⟩ := List.mem_flatten.1 hs
    exact hl l hl' s hs]
  simp only [arguments, hf]
  split <;> rfl

/-- **C138 finding.** If `lexOutputFilePath` is set, `uniqueSymbolPrefix` has no effect on the symbols, although its documentation
does not say so. -/
theorem C138_prefix_lost (i : Input) (f : Str) (hp : i.outputProp = some f) (hl : i.lines = []) : symbolPrefix i = "yy".toList := by
  have r1 : readOption i.lines kOutfile = none := by rw [hl]; rfl
  have ha : arguments i = (some f, none) := by simp only [arguments, fromModule, r1, hp, if_true]
  unfold symbolPrefix
  rw [ha, hl]
  rfl

end Verif.LexOut
