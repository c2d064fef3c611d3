import Verif.Cli.Spec
/- Lemmas about the command line parser. -/

namespace Verif.Cli

open Spec

/-! ### Names -/

def allOpts : List Opt :=
  [.file, .buildDirectory, .logLevel, .verbose, .quiet, .jobs, .keepGoing, .dryRun,
    .forceProbes, .showProgress, .changedFiles, .products, .noInstall, .installRoot,
    .removeFirst, .noBuild, .forceTimestampCheck, .forceOutputCheck, .buildNonDefault,
    .logTime, .commandEchoMode, .settingsDir, .jobLimits, .respectProjectJobLimits,
    .generator, .waitLock, .runEnvConfig, .deprecationWarnings, .tags]

theorem mem_allOpts (o : Opt) : o ∈ allOpts := by
  cases o <;> decide

theorem names_unique_all :
    ∀ o ∈ allOpts, ∀ o' ∈ allOpts,
      (longName o = longName o' → o = o') ∧
      (shortName o = shortName o' → shortName o ≠ [] → o = o') ∧ longName o ≠ shortName o' := by
  decide +kernel

theorem names_shape_all :
    ∀ o ∈ allOpts,
      ((longName o).head? = some '-' ∧ (longName o)[1]? = some '-' ∧ 2 < (longName o).length) ∧
      (shortName o ≠ [] → (shortName o).head? = some '-' ∧ (shortName o).length = 2 ∧
        (shortName o)[1]? ≠ some '-') := by
  decide +kernel

theorem named_unique {o o' : Opt} {w : Str} (h : Named o w) (h' : Named o' w) : o = o' := by
  obtain ⟨hn, h⟩ := h
  obtain ⟨_, h'⟩ := h'
  have u := names_unique_all o (mem_allOpts o) o' (mem_allOpts o')
  have u' := names_unique_all o' (mem_allOpts o') o (mem_allOpts o)
  rcases h with h | h <;> rcases h' with h' | h'
  · exact u.2.1 (h ▸ h') (h ▸ hn)
  · exact absurd (h'.symm.trans h) u'.2.2
  · exact absurd (h.symm.trans h') u.2.2
  · exact u.1 (h.symm.trans h')

theorem named_shape {o : Opt} {w : Str} (h : Named o w) :
    w.head? = some '-' ∧ w.length ≠ 1 ∧ ¬ (w[1]? ≠ some '-' ∧ 2 < w.length) ∧
      w ≠ "--".toList := by
  obtain ⟨hn, h⟩ := h
  have s := names_shape_all o (mem_allOpts o)
  rcases h with h | h
  · subst h
    obtain ⟨a, b, c⟩ := s.2 hn
    refine ⟨a, by omega, fun x => by omega, ?_⟩
    intro e
    rw [e] at c
    exact c rfl
  · subst h
    obtain ⟨a, b, c⟩ := s.1
    refine ⟨a, by omega, fun x => x.1 b, ?_⟩
    intro e
    rw [e] at c
    simp at c

theorem findOption_iff {c : Cmd} {w : Str} (hw : w ≠ []) (o : Opt) :
    findOption c w = some o ↔ o ∈ actualSupportedOptions c ∧ Named o w := by
  have hN : ∀ o, (shortName o = w || longName o = w) = true ↔ Named o w := by
    intro o
    unfold Named
    rw [Bool.or_eq_true, decide_eq_true_eq, decide_eq_true_eq]
    exact ⟨fun h => ⟨hw, h.imp Eq.symm Eq.symm⟩, fun h => h.2.imp Eq.symm Eq.symm⟩
  constructor
  · intro h
    unfold findOption at h
    exact ⟨List.mem_of_find?_eq_some h, (hN o).1 (by simpa using List.find?_some h)⟩
  · rintro ⟨hm, hn⟩
    cases hf : findOption c w with
    | none =>
      unfold findOption at hf
      have := List.find?_eq_none.1 hf o hm
      exact absurd ((hN o).2 hn) (by simpa using this)
    | some o' =>
      unfold findOption at hf
      have := (hN o').1 (by simpa using List.find?_some hf)
      rw [named_unique this hn]

/-! ### Groups -/

theorem splitGroup_digits (ds cs : Str) (rest : List Str) (h : ∀ d ∈ ds, d.isDigit = true) :
    splitGroup (ds ++ cs) rest = (ds ++ (splitGroup cs rest).1, (splitGroup cs rest).2) := by
  induction ds with
  | nil => rfl
  | cons d ds ih =>
    have ih := ih fun d hd => h d (List.mem_cons_of_mem _ hd)
    have hd := h d List.mem_cons_self
    show groupStep d (splitGroup (ds ++ cs) rest) = _
    rw [ih]
    simp [groupStep, hd]

theorem splitGroup_cons (ch : Char) (cs : Str) (rest : List Str) :
    splitGroup (ch :: cs) rest = groupStep ch (splitGroup cs rest) := rfl

theorem splitGroup_group (l : List (Char × Str)) (rest : List Str)
    (h : ∀ p ∈ l, p.1.isDigit = false ∧ ∀ d ∈ p.2, d.isDigit = true) :
    splitGroup (l.flatMap fun p => p.1 :: p.2) rest = ([], groupWords l ++ rest) := by
  induction l with
  | nil => rfl
  | cons p l ih =>
    have ih := ih fun q hq => h q (List.mem_cons_of_mem _ hq)
    obtain ⟨h1, h2⟩ := h p List.mem_cons_self
    rw [List.flatMap_cons, List.cons_append, splitGroup_cons, splitGroup_digits _ _ _ h2, ih]
    unfold groupStep groupWords
    rw [if_neg (by simp [h1])]
    cases hp : p.2 <;> simp [hp]

theorem splitGroup_shape (cs : Str) (rest : List Str) :
    ∃ ds l, cs = ds ++ (l.flatMap fun p : Char × Str => p.1 :: p.2) ∧
      (∀ d ∈ ds, d.isDigit = true) ∧
      (∀ p ∈ l, p.1.isDigit = false ∧ ∀ d ∈ p.2, d.isDigit = true) ∧
      splitGroup cs rest = (ds, groupWords l ++ rest) := by
  induction cs with
  | nil => exact ⟨[], [], rfl, by simp, by simp, rfl⟩
  | cons ch cs ih =>
    obtain ⟨ds, l, e, hd, hl, hs⟩ := ih
    rw [splitGroup_cons, hs]
    by_cases hc : ch.isDigit = true
    · refine ⟨ch :: ds, l, by rw [e]; rfl, ?_, hl, by simp [groupStep, hc]⟩
      intro d hm
      rcases List.mem_cons.1 hm with rfl | hm
      · exact hc
      · exact hd d hm
    · have hc' : ch.isDigit = false := by simpa using hc
      refine ⟨[], (ch, ds) :: l, by rw [e]; simp, by simp, ?_, ?_⟩
      · intro p hm
        rcases List.mem_cons.1 hm with rfl | hm
        · exact ⟨hc', hd⟩
        · exact hl p hm
      · unfold groupStep groupWords
        rw [if_neg hc]
        cases ds <;> simp

theorem isGroup_word {l : List (Char × Str)} (h : IsGroup l) :
    (groupWord l).head? = some '-' ∧ (groupWord l).length ≠ 1 ∧
      ((groupWord l)[1]? ≠ some '-' ∧ 2 < (groupWord l).length) ∧ groupWord l ≠ "--".toList := by
  have hs := h.size
  refine ⟨rfl, by omega, ⟨?_, hs⟩, ?_⟩
  · cases l with
    | nil => simp [groupWord] at hs
    | cons p l =>
      have := h.noLongName p rfl
      simpa [groupWord] using this
  · intro e
    rw [e] at hs
    simp at hs

theorem group_of_word {w : Str} (rest : List Str) (h0 : w.head? = some '-')
    (h1 : w[1]? ≠ some '-') (h2 : 2 < w.length) (he : (splitGroup w.tail rest).1 = []) :
    ∃ l, IsGroup l ∧ w = groupWord l ∧ (splitGroup w.tail rest).2 = groupWords l ++ rest := by
  obtain ⟨ds, l, e, hd, hl, hs⟩ := splitGroup_shape w.tail rest
  rw [hs] at he
  dsimp only at he
  subst he
  have hw : w = groupWord l := by
    cases w with
    | nil => simp at h0
    | cons c w =>
      simp at h0
      subst h0
      simp at e
      rw [e]; rfl
  refine ⟨l, ⟨hl, by rw [← hw]; exact h2, ?_⟩, hw, by rw [hs]⟩
  intro p hp hc
  cases l with
  | nil => simp at hp
  | cons q l =>
    simp at hp
    subst hp
    rw [hw] at h1
    simp [groupWord, hc] at h1

/-! ### Termination -/

theorem weight_cons (w : Str) (rest : List Str) :
    weight (w :: rest) =
      (if w.head? = some '-' ∧ 2 < w.length then w.length else 1) + weight rest := by
  simp [weight]

theorem weight_cons_lt (w : Str) (rest : List Str) : weight rest < weight (w :: rest) := by
  rw [weight_cons]
  split <;> omega

theorem weight_groupWords (l : List (Char × Str)) (rest : List Str)
    (h : ∀ p ∈ l, p.1.isDigit = false ∧ ∀ d ∈ p.2, d.isDigit = true) :
    weight (groupWords l ++ rest) ≤ (l.flatMap fun p => p.1 :: p.2).length + weight rest := by
  induction l with
  | nil => simp [groupWords]
  | cons p l ih =>
    have ih := ih fun q hq => h q (List.mem_cons_of_mem _ hq)
    obtain ⟨_, h2⟩ := h p List.mem_cons_self
    have e : groupWords (p :: l) = (['-', p.1] :: if p.2 = [] then [] else [p.2]) ++ groupWords l := by
      simp [groupWords]
    rw [e]
    cases hp : p.2 with
    | nil =>
      simp only [if_true, List.cons_append, List.nil_append, List.flatMap_cons, hp,
        List.length_cons, weight_cons]
      simp only [List.length_cons, List.length_nil]
      rw [if_neg (by omega)]
      omega
    | cons d ds =>
      have hd : d ≠ '-' := by
        intro e
        have := h2 d (by rw [hp]; simp)
        rw [e] at this
        exact absurd this (by decide)
      simp only [List.cons_append, List.nil_append, List.flatMap_cons, hp, reduceCtorEq, if_false,
        weight_cons, List.length_append, List.length_cons, List.length_nil, List.head?_cons,
        Option.some.injEq]
      rw [if_neg (by omega), if_neg (fun x => hd x.1)]
      omega

theorem useOption_weight {num : Str → Option Int} {s s' : State} {o : Opt}
    {rest input : List Str} (h : useOption num s o rest = .ok (s', input)) :
    weight input ≤ weight rest := by
  unfold useOption at h
  by_cases ht : takesArgument o = true
  · rw [if_pos ht] at h
    cases rest with
    | nil => cases h
    | cons v rest =>
      dsimp only at h
      by_cases ha : accepts num o v = true
      · rw [if_pos ha] at h
        cases h
        exact Nat.le_of_lt (weight_cons_lt _ _)
      · rw [if_neg ha] at h
        cases h
  · rw [if_neg ht] at h
    cases h
    exact Nat.le_refl _

theorem parseOption_weight {num : Str → Option Int} {c : Cmd} {s s' : State} {w : Str}
    {rest input : List Str} (h0 : w.head? = some '-')
    (h : parseOption num c s w rest = .ok (s', input)) :
    weight input < weight (w :: rest) := by
  unfold parseOption at h
  by_cases h1 : w.length = 1
  · rw [if_pos h1] at h; cases h
  rw [if_neg h1] at h
  by_cases h2 : w[1]? ≠ some '-' ∧ 2 < w.length
  · rw [if_pos h2] at h
    by_cases h3 : (splitGroup w.tail rest).1.isEmpty = true
    · rw [if_pos h3] at h
      obtain ⟨l, hg, hw, hr⟩ := group_of_word rest h0 h2.1 h2.2 (by simpa using h3)
      cases h
      rw [hr]
      have := weight_groupWords l rest hg.letters
      rw [weight_cons, if_pos ⟨h0, h2.2⟩, hw]
      simp only [groupWord, List.length_cons]
      omega
    · rw [if_neg h3] at h; cases h
  · rw [if_neg h2] at h
    have hlt := weight_cons_lt w rest
    cases hf : findOption c w with
    | none => rw [hf] at h; cases h
    | some o =>
      rw [hf] at h
      dsimp only at h
      split at h
      · cases h
      · have := useOption_weight h
        omega

theorem parseNextBase_weight {num : Str → Option Int} {c : Cmd} {s s' : State} {w : Str}
    {rest input : List Str} (h : parseNextBase num c s w rest = .ok (s', input)) :
    weight input < weight (w :: rest) := by
  unfold parseNextBase at h
  by_cases h0 : w.head? = some '-'
  · rw [if_pos h0] at h
    exact parseOption_weight h0 h
  · rw [if_neg h0] at h
    cases hp : parsePropertyAssignment c s w with
    | error e => rw [hp] at h; cases h
    | ok s1 =>
      rw [hp] at h
      cases h
      exact weight_cons_lt _ _

theorem weight_nil_lt (w : Str) (rest : List Str) : weight [] < weight (w :: rest) :=
  Nat.lt_of_le_of_lt (Nat.zero_le _) (weight_cons_lt w rest)

theorem parseNext_weight {num : Str → Option Int} {c : Cmd} {s s' : State} {w : Str}
    {rest input : List Str} (h : parseNext num c s w rest = .ok (s', input)) :
    weight input < weight (w :: rest) := by
  unfold parseNext at h
  cases c <;> dsimp only at h <;>
    first
    | exact parseNextBase_weight h
    | (split at h
       · first
         | exact parseNextBase_weight h
         | (cases h; exact weight_nil_lt _ _)
       · first
         | (cases h; exact weight_nil_lt _ _)
         | cases h)
    | cases h

/-- Enough fuel is enough. -/
theorem parseLoop_fuel (num : Str → Option Int) (c : Cmd) :
    ∀ f f' s input, weight input ≤ f → weight input ≤ f' →
      parseLoop num c f s input = parseLoop num c f' s input := by
  intro f
  induction f with
  | zero =>
    intro f' s input h h'
    cases input with
    | nil => cases f' <;> rfl
    | cons w rest =>
      have := weight_nil_lt w rest
      omega
  | succ f ih =>
    intro f' s input h h'
    cases input with
    | nil => cases f' <;> rfl
    | cons w rest =>
      cases f' with
      | zero =>
        have := weight_nil_lt w rest
        omega
      | succ f' =>
        cases hp : parseNext num c s w rest with
        | error e => simp only [parseLoop, hp]
        | ok r =>
          obtain ⟨s1, i1⟩ := r
          simp only [parseLoop, hp]
          have := parseNext_weight hp
          exact ih f' s1 i1 (by omega) (by omega)

theorem parseLoop_cons (num : Str → Option Int) (c : Cmd) (f : Nat) (s : State) (w : Str)
    (rest : List Str) (hf : weight (w :: rest) ≤ f) :
    parseLoop num c f s (w :: rest) =
      match parseNext num c s w rest with
      | .error e => .error e
      | .ok (s, input) => parseLoop num c (weight input) s input := by
  cases f with
  | zero =>
    have := weight_nil_lt w rest
    omega
  | succ f =>
    cases hp : parseNext num c s w rest with
    | error e => simp only [parseLoop, hp]
    | ok r =>
      obtain ⟨s1, i1⟩ := r
      simp only [parseLoop, hp]
      have := parseNext_weight hp
      exact parseLoop_fuel num c f _ s1 i1 (by omega) (Nat.le_refl _)

end Verif.Cli
