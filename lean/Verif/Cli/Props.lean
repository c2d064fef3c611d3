import Verif.Cli.LemValues
/- C83: the command line means what it says. -/

namespace Verif.Cli

open Spec

theorem parseNext_work {num : Str → Option Int} {c : Cmd} (hc : Works c) (s : State) (w : Str)
    (rest : List Str) (h : c = .run → w ≠ "--".toList) :
    parseNext num c s w rest = parseNextBase num c s w rest := by
  obtain ⟨h1, h2, h3⟩ := hc
  unfold parseNext
  cases c <;> dsimp only <;> first
    | exact absurd rfl h1
    | exact absurd rfl h2
    | exact absurd rfl h3
    | (rw [if_pos (h rfl)])
    | rfl

/-- The state after items have been read. -/
def extend (s : State) (items : List Item) : State :=
  { s with
    uses := s.uses ++ optionsOf items
    assignments := s.assignments ++ assignmentsOf items
    target := s.target ++ targetOf items }

theorem extend_nil (s : State) : extend s [] = s := by
  simp [extend, optionsOf, assignmentsOf, targetOf]

theorem extend_use (s : State) (o : Opt) (a : Option Str) (items : List Item) :
    extend { s with uses := s.uses ++ [(o, a)] } items = extend s (.use o a :: items) := by
  simp [extend, optionsOf, assignmentsOf, targetOf]

theorem extend_assign (s : State) (a : Str) (items : List Item) :
    extend { s with assignments := s.assignments ++ [a] } items = extend s (.assign a :: items) := by
  simp [extend, optionsOf, assignmentsOf, targetOf]

theorem uses_use (o o' : Opt) (a : Option Str) (items : List Item) :
    uses o (.use o' a :: items) = uses o items + if o' = o then 1 else 0 := by
  unfold uses
  rw [List.countP_cons]
  simp

theorem uses_assign (o : Opt) (a : Str) (items : List Item) :
    uses o (.assign a :: items) = uses o items := by
  unfold uses
  rw [List.countP_cons]
  simp

theorem multi_iff (o : Opt) : canAppearMoreThanOnce o = false ↔ o ≠ .verbose ∧ o ≠ .quiet := by
  cases o <;> decide

/-- Options that were used before are not used again. -/
def OnceFrom (s : State) (items : List Item) : Prop :=
  ∀ o, canAppearMoreThanOnce o = false →
    uses o items ≤ 1 ∧ (o ∈ s.uses.map Prod.fst → uses o items = 0)

theorem onceFrom_use {s : State} {o : Opt} {a : Option Str} {items : List Item} :
    OnceFrom s (.use o a :: items) ↔
      ¬ ((s.uses.map Prod.fst).contains o && !canAppearMoreThanOnce o) = true ∧
        OnceFrom { s with uses := s.uses ++ [(o, a)] } items := by
  constructor
  · intro h
    constructor
    · rw [Bool.and_eq_true]
      rintro ⟨h1, h2⟩
      have := (h o (by simpa using h2)).2 (List.contains_iff_mem.1 h1)
      rw [uses_use, if_pos rfl] at this
      omega
    · intro o' ho'
      obtain ⟨h1, h2⟩ := h o' ho'
      rw [uses_use] at h1 h2
      refine ⟨by omega, ?_⟩
      intro hm
      simp only [List.map_append, List.map_cons, List.map_nil, List.mem_append,
        List.mem_singleton] at hm
      rcases hm with hm | hm
      · have := h2 hm; omega
      · rw [if_pos hm.symm] at h1; omega
  · rintro ⟨h1, h2⟩ o' ho'
    obtain ⟨a1, a2⟩ := h2 o' ho'
    rw [uses_use]
    simp only [List.map_append, List.map_cons, List.map_nil, List.mem_append,
      List.mem_singleton] at a2
    by_cases e : o = o'
    · subst e
      have := a2 (.inr rfl)
      rw [if_pos rfl]
      refine ⟨by omega, fun hm => ?_⟩
      exact absurd (by rw [Bool.and_eq_true]; exact ⟨List.contains_iff_mem.2 hm, by simp [ho']⟩) h1
    · rw [if_neg e]
      exact ⟨by omega, fun hm => by have := a2 (.inl hm); omega⟩

theorem onceFrom_assign {s : State} {a : Str} {items : List Item} :
    OnceFrom s (.assign a :: items) ↔
      OnceFrom { s with assignments := s.assignments ++ [a] } items := by
  unfold OnceFrom
  simp only [uses_assign]

theorem proper_use {num : Str → Option Int} {o : Opt} {a : Option Str} {items : List Item} :
    AllProper num (.use o a :: items) ↔
      (∀ v, a = some v → Proper num o v) ∧ AllProper num items := by
  unfold AllProper
  constructor
  · intro h
    exact ⟨fun v e => h o v (by simp [e]), fun o' v hm => h o' v (List.mem_cons_of_mem _ hm)⟩
  · rintro ⟨h1, h2⟩ o' v hm
    rcases List.mem_cons.1 hm with e | hm
    · cases e; exact h1 v rfl
    · exact h2 o' v hm

theorem proper_assign {num : Str → Option Int} {a : Str} {items : List Item} :
    AllProper num (.assign a :: items) ↔ AllProper num items := by
  unfold AllProper
  constructor
  · intro h o v hm; exact h o v (List.mem_cons_of_mem _ hm)
  · intro h o v hm
    rcases List.mem_cons.1 hm with e | hm
    · cases e
    · exact h o v hm

theorem assignment_shape {c : Cmd} {a : Str} (h : Assignment c a) :
    a.head? ≠ some '-' ∧ a ≠ "--".toList := by
  obtain ⟨k, v, rfl, hne, _, hd, _⟩ := h
  cases k with
  | nil => exact absurd rfl hne
  | cons x k =>
    refine ⟨by simpa using hd, ?_⟩
    intro e
    have := (List.cons.inj e).1
    exact hd (by rw [this]; rfl)

theorem parseNext_group {num : Str → Option Int} {c : Cmd} (hc : Works c) (s : State)
    {l : List (Char × Str)} (hg : IsGroup l) (rest : List Str) :
    parseNext num c s (groupWord l) rest = .ok (s, groupWords l ++ rest) := by
  obtain ⟨a, b, d, e⟩ := isGroup_word hg
  rw [parseNext_work hc _ _ _ fun _ => e, parseNextBase, if_pos a, parseOption, if_neg b, if_pos d]
  have : splitGroup (groupWord l).tail rest = ([], groupWords l ++ rest) :=
    splitGroup_group l rest hg.letters
  rw [this]
  rfl

theorem parseNext_named {num : Str → Option Int} {c : Cmd} (hc : Works c) (s : State) {o : Opt}
    {w : Str} (ho : o ∈ actualSupportedOptions c) (hn : Named o w) (rest : List Str) :
    parseNext num c s w rest =
      if (s.uses.map Prod.fst).contains o && !canAppearMoreThanOnce o then .error (.repeated w)
      else useOption num s o rest := by
  obtain ⟨a, b, d, e⟩ := named_shape hn
  rw [parseNext_work hc _ _ _ fun _ => e, parseNextBase, if_pos a, parseOption, if_neg b, if_neg d,
    (findOption_iff hn.1 o).2 ⟨ho, hn⟩]

theorem reads_complete {num : Str → Option Int} {c : Cmd} (hc : Works c) {input : List Str}
    {items : List Item} (h : Reads c input items) :
    ∀ s, s.target = [] → OnceFrom s items → AllProper num items →
      parseLoop num c (weight input) s input = .ok (extend s items) := by
  induction h with
  | done => intro s _ _ _; rw [extend_nil]; cases weight [] <;> rfl
  | @group l rest items hg _ ih =>
    intro s ht ho hp
    rw [parseLoop_cons num c _ s _ _ (Nat.le_refl _), parseNext_group hc s hg]
    exact ih s ht ho hp
  | @flag o w rest items hm hn ha _ ih =>
    intro s ht ho hp
    rw [parseLoop_cons num c _ s _ _ (Nat.le_refl _), parseNext_named hc s hm hn]
    rw [onceFrom_use] at ho
    rw [if_neg ho.1]
    unfold useOption
    rw [if_neg (by simp [ha])]
    dsimp only
    rw [ih { s with uses := s.uses ++ [(o, none)] } ht ho.2 (proper_use.1 hp).2, extend_use]
  | @argument o w v rest items hm hn ha _ ih =>
    intro s ht ho hp
    rw [parseLoop_cons num c _ s _ _ (Nat.le_refl _), parseNext_named hc s hm hn]
    rw [onceFrom_use] at ho
    rw [if_neg ho.1]
    unfold useOption
    rw [if_pos ha]
    dsimp only
    rw [if_pos ((accepts_iff num o v).2 ((proper_use.1 hp).1 v rfl))]
    dsimp only
    rw [ih { s with uses := s.uses ++ [(o, some v)] } ht ho.2 (proper_use.1 hp).2, extend_use]
  | @assign a rest items ha _ ih =>
    intro s ht ho hp
    have hs := assignment_shape ha
    rw [parseLoop_cons num c _ s _ _ (Nat.le_refl _), parseNext_work hc _ _ _ fun _ => hs.2,
      parseNextBase, if_neg hs.1, (assignment_iff c s a _).2 ⟨ha, rfl⟩]
    simp only [Except.map]
    rw [ih { s with assignments := s.assignments ++ [a] } ht (onceFrom_assign.1 ho)
      (proper_assign.1 hp), extend_assign]
  | @target rest hr =>
    intro s ht _ _
    subst hr
    rw [parseLoop_cons num _ _ s _ _ (Nat.le_refl _), parseNext]
    rw [if_neg (fun h => h rfl)]
    dsimp only
    show Except.ok _ = _
    simp [extend, optionsOf, assignmentsOf, targetOf, ht]

theorem reads_sound {num : Str → Option Int} {c : Cmd} (hc : Works c) (n : Nat) :
    ∀ input s s', weight input ≤ n → s.target = [] →
      parseLoop num c (weight input) s input = .ok s' →
      ∃ items, Reads c input items ∧ OnceFrom s items ∧ AllProper num items ∧
        s' = extend s items := by
  induction n with
  | zero =>
    intro input s s' hw ht h
    cases input with
    | nil =>
      cases h
      exact ⟨[], .done, fun o _ => ⟨Nat.zero_le _, fun _ => rfl⟩, fun o v hm => absurd hm (by simp),
        (extend_nil s).symm⟩
    | cons w rest =>
      have := weight_nil_lt w rest
      omega
  | succ n ih =>
    intro input s s' hw ht h
    cases input with
    | nil =>
      cases h
      exact ⟨[], .done, fun o _ => ⟨Nat.zero_le _, fun _ => rfl⟩, fun o v hm => absurd hm (by simp),
        (extend_nil s).symm⟩
    | cons w rest =>
      rw [parseLoop_cons num c _ s _ _ (Nat.le_refl _)] at h
      cases hp : parseNext num c s w rest with
      | error e => rw [hp] at h; cases h
      | ok r =>
        obtain ⟨s1, i1⟩ := r
        rw [hp] at h
        dsimp only at h
        have hlt := parseNext_weight hp
        by_cases hr : c = .run ∧ w = "--".toList
        · obtain ⟨rfl, rfl⟩ := hr
          rw [parseNext, if_neg (fun h => h rfl)] at hp
          cases hp
          cases h
          refine ⟨[.target rest], .target rfl, ?_, ?_, ?_⟩
          · intro o _
            have : uses o [Item.target rest] = 0 := rfl
            rw [this]
            exact ⟨Nat.zero_le _, fun _ => rfl⟩
          · intro o v hm
            simp at hm
          · simp [extend, optionsOf, assignmentsOf, targetOf, ht]
        · rw [parseNext_work hc _ _ _ fun a b => hr ⟨a, b⟩, parseNextBase] at hp
          by_cases h0 : w.head? = some '-'
          · rw [if_pos h0, parseOption] at hp
            by_cases h1 : w.length = 1
            · rw [if_pos h1] at hp; cases hp
            rw [if_neg h1] at hp
            by_cases h2 : w[1]? ≠ some '-' ∧ 2 < w.length
            · rw [if_pos h2] at hp
              by_cases h3 : (splitGroup w.tail rest).1.isEmpty = true
              · rw [if_pos h3] at hp
                obtain ⟨l, hg, he, hs⟩ := group_of_word rest h0 h2.1 h2.2 (by simpa using h3)
                cases hp
                rw [hs] at h hlt
                obtain ⟨items, hi, h1, h2, h3⟩ := ih _ s s' (by omega) ht h
                rw [he]
                exact ⟨items, .group hg hi, h1, h2, h3⟩
              · rw [if_neg h3] at hp; cases hp
            · rw [if_neg h2] at hp
              have hne : w ≠ [] := by rintro rfl; simp at h0
              cases hf : findOption c w with
              | none => rw [hf] at hp; cases hp
              | some o =>
                rw [hf] at hp
                dsimp only at hp
                obtain ⟨hm, hn⟩ := (findOption_iff hne o).1 hf
                by_cases h4 : ((s.uses.map Prod.fst).contains o && !canAppearMoreThanOnce o) = true
                · rw [if_pos h4] at hp; cases hp
                rw [if_neg h4] at hp
                unfold useOption at hp
                by_cases h5 : takesArgument o = true
                · rw [if_pos h5] at hp
                  cases rest with
                  | nil => cases hp
                  | cons v rest =>
                    dsimp only at hp
                    by_cases h6 : accepts num o v = true
                    · rw [if_pos h6] at hp
                      cases hp
                      obtain ⟨items, a, b, d, e⟩ := ih _ _ s' (by omega) (by exact ht) h
                      exact ⟨_, .argument hm hn h5 a, onceFrom_use.2 ⟨h4, b⟩,
                        proper_use.2 ⟨fun v' e => by cases e; exact (accepts_iff num o v).1 h6, d⟩,
                        by rw [e, extend_use]⟩
                    · rw [if_neg h6] at hp; cases hp
                · rw [if_neg h5] at hp
                  cases hp
                  obtain ⟨items, a, b, d, e⟩ := ih _ _ s' (by omega) (by exact ht) h
                  exact ⟨_, .flag hm hn (by simpa using h5) a, onceFrom_use.2 ⟨h4, b⟩,
                    proper_use.2 ⟨(fun v' e => nomatch e), d⟩, by rw [e, extend_use]⟩
          · rw [if_neg h0] at hp
            cases ha : parsePropertyAssignment c s w with
            | error e => rw [ha] at hp; cases hp
            | ok s2 =>
              rw [ha] at hp
              cases hp
              obtain ⟨has, rfl⟩ := (assignment_iff c s w s1).1 ha
              obtain ⟨items, a, b, d, e⟩ := ih _ _ s' (by omega) (by exact ht) h
              exact ⟨_, .assign has a, onceFrom_assign.2 b, proper_assign.2 d,
                by rw [e, extend_assign]⟩

/-- **C83.** A command accepts a line if and only if its words can be read, from left to right, as
options that it supports, with proper arguments, and as assignments, where no option but -v and -q
is repeated; and what it takes from the line is exactly what was read. -/
theorem C83_reads (num : Str → Option Int) (c : Cmd) (hc : Works c) (args : List Str)
    (s : State) :
    parse num c args = .ok s ↔
      ∃ items, Reads c args items ∧ Once items ∧ AllProper num items ∧
        s = { uses := optionsOf items, assignments := assignmentsOf items,
              target := targetOf items } := by
  have e : ∀ items, extend {} items =
      { uses := optionsOf items, assignments := assignmentsOf items,
        target := targetOf items } := by
    intro items
    simp [extend]
  have ho : ∀ items, OnceFrom {} items ↔ Once items := by
    intro items
    constructor
    · intro h o h1 h2
      exact (h o ((multi_iff o).2 ⟨h1, h2⟩)).1
    · intro h o h1
      have := (multi_iff o).1 h1
      exact ⟨h o this.1 this.2, fun hm => by simp at hm⟩
  constructor
  · intro h
    obtain ⟨items, h1, h2, h3, h4⟩ := reads_sound hc _ args {} s (Nat.le_refl _) rfl h
    exact ⟨items, h1, (ho items).1 h2, h3, by rw [h4, e]⟩
  · rintro ⟨items, h1, h2, h3, rfl⟩
    have := reads_complete (num := num) hc h1 {} rfl ((ho items).2 h2) h3
    rw [e] at this
    exact this

/-- **C83.** There is one way to read a line: whatever follows, a word is read in one way. -/
theorem C83_unambiguous (c : Cmd) (args : List Str) (items items' : List Item)
    (h : Reads c args items) (h' : Reads c args items') : items = items' := by
  induction h generalizing items' with
  | done => cases h'; rfl
  | @group l rest items hg _ ih =>
    have sh := isGroup_word hg
    generalize hw : groupWord l = w at h' sh
    cases h' with
    | @group l' _ _ hg' hr =>
      have e1 := splitGroup_group l rest hg.letters
      have e2 := splitGroup_group l' rest hg'.letters
      have e3 : (l.flatMap fun p => p.1 :: p.2) = l'.flatMap fun p => p.1 :: p.2 :=
        (List.cons.inj hw).2
      rw [e3, e2] at e1
      have e4 : groupWords l ++ rest = groupWords l' ++ rest := ((Prod.mk.inj e1).2).symm
      exact ih _ (by rw [e4]; exact hr)
    | flag _ hn => exact absurd sh.2.2.1 (named_shape hn).2.2.1
    | argument _ hn => exact absurd sh.2.2.1 (named_shape hn).2.2.1
    | assign ha => exact absurd sh.1 (assignment_shape ha).1
    | target => exact absurd rfl sh.2.2.2
  | @flag o w rest items hm hn ha _ ih =>
    have sh := named_shape hn
    generalize hw : w = w' at h'
    cases h' with
    | group hg' hr => exact absurd (isGroup_word hg').2.2.1 (hw ▸ sh.2.2.1)
    | flag _ hn' _ hr =>
      rw [hw] at hn
      rw [named_unique hn hn', ih _ hr]
    | argument _ hn' ha' hr =>
      rw [hw] at hn
      rw [named_unique hn hn', ha'] at ha
      cases ha
    | assign ha' => exact absurd (hw ▸ sh.1) (assignment_shape ha').1
    | target => exact absurd hw sh.2.2.2
  | @argument o w v rest items hm hn ha _ ih =>
    have sh := named_shape hn
    generalize hw : w = w' at h'
    cases h' with
    | group hg' hr => exact absurd (isGroup_word hg').2.2.1 (hw ▸ sh.2.2.1)
    | flag _ hn' ha' hr =>
      rw [hw] at hn
      rw [named_unique hn hn', ha'] at ha
      cases ha
    | argument _ hn' ha' hr =>
      rw [hw] at hn
      rw [named_unique hn hn', ih _ hr]
    | assign ha' => exact absurd (hw ▸ sh.1) (assignment_shape ha').1
    | target => exact absurd hw sh.2.2.2
  | @assign a rest items ha _ ih =>
    have sh := assignment_shape ha
    generalize hw : a = w' at h'
    cases h' with
    | group hg' hr => exact absurd (hw ▸ (isGroup_word hg').1) sh.1
    | flag _ hn' ha' hr => exact absurd (hw ▸ (named_shape hn').1) sh.1
    | argument _ hn' ha' hr => exact absurd (hw ▸ (named_shape hn').1) sh.1
    | assign ha' hr => rw [ih _ hr]
    | target => exact absurd hw sh.2
  | @target rest hr =>
    generalize hw : "--".toList = w' at h'
    cases h' with
    | group hg' hr => exact absurd hw.symm (isGroup_word hg').2.2.2
    | flag _ hn' ha' hr => exact absurd hw.symm (named_shape hn').2.2.2
    | argument _ hn' ha' hr => exact absurd hw.symm (named_shape hn').2.2.2
    | assign ha' hr => exact absurd hw.symm (assignment_shape ha').2
    | target => rfl

/-- **C83.** Short options can be grouped: the line means the same, errors included, as with the
options written one by one. -/
theorem C83_group (num : Str → Option Int) (c : Cmd) (hc : Works c) (l : List (Char × Str))
    (hg : IsGroup l) (rest : List Str) :
    parse num c (groupWord l :: rest) = parse num c (groupWords l ++ rest) := by
  unfold parse
  rw [parseLoop_cons num c _ _ _ _ (Nat.le_refl _), parseNext_group hc _ hg]

/-- **C83.** The parser comes to an end for every line. -/
theorem C83_terminates (num : Str → Option Int) (c : Cmd) (args : List Str) :
    parse num c args ≠ .error .outOfFuel := by
  have key : ∀ n s input, weight input ≤ n →
      parseLoop num c (weight input) s input ≠ .error .outOfFuel := by
    intro n
    induction n with
    | zero =>
      intro s input hw h
      cases input with
      | nil => cases h
      | cons w rest =>
        have := weight_nil_lt w rest
        omega
    | succ n ih =>
      intro s input hw h
      cases input with
      | nil => cases h
      | cons w rest =>
        rw [parseLoop_cons num c _ _ _ _ (Nat.le_refl _)] at h
        cases hp : parseNext num c s w rest with
        | error e =>
          rw [hp] at h
          have he : e = .outOfFuel := by simpa using h
          subst he
          unfold parseNext parseNextBase parseOption useOption parsePropertyAssignment at hp
          repeat' (first | cases hp | split at hp)
          all_goals
            simp only [Except.map] at hp
            repeat' (first | cases hp | split at hp)
          all_goals simp_all
        | ok r =>
          obtain ⟨s1, i1⟩ := r
          rw [hp] at h
          have := parseNext_weight hp
          exact ih s1 i1 (by omega) h
  exact key _ _ _ (Nat.le_refl _)

end Verif.Cli
