import Verif.Cli.LemValues
/- C84: the build configurations that a command line asks for. -/

namespace Verif.Cli

open Spec

theorem get_insert_same {α : Type} (k : Str) (v : α) (m : List (Str × α)) :
    get k (insert k v m) = some v := by
  induction m with
  | nil => simp [insert, get]
  | cons e m ih =>
    obtain ⟨k', v'⟩ := e
    unfold insert
    by_cases h1 : k < k'
    · rw [if_pos h1]; simp [get]
    · rw [if_neg h1]
      by_cases h2 : k = k'
      · rw [if_pos h2]; simp [get]
      · rw [if_neg h2, get, if_neg (Ne.symm h2), ih]

theorem get_insert_ne {α : Type} {k k2 : Str} (h : k2 ≠ k) (v : α) (m : List (Str × α)) :
    get k2 (insert k v m) = get k2 m := by
  induction m with
  | nil => simp [insert, get, h.symm]
  | cons e m ih =>
    obtain ⟨k', v'⟩ := e
    unfold insert
    by_cases h1 : k < k'
    · rw [if_pos h1, get, if_neg h.symm]
    · rw [if_neg h1]
      by_cases h2 : k = k'
      · rw [if_pos h2, get, if_neg h.symm, get, if_neg (h2 ▸ h.symm)]
      · rw [if_neg h2, get, get, ih]

theorem get_addGlobals (p : Str) (g m : List (Str × Str)) :
    get p (addGlobals g m) = (get p m).or (get p g) := by
  unfold addGlobals
  induction g generalizing m with
  | nil => simp [get]
  | cons e g ih =>
    obtain ⟨k, v⟩ := e
    rw [List.foldl_cons, ih]
    dsimp only
    by_cases hs : (get k m).isSome = true
    · rw [if_pos hs, get]
      by_cases hk : k = p
      · subst hk
        cases hg : get k m with
        | none => rw [hg] at hs; cases hs
        | some x => simp
      · rw [if_neg hk]
    · rw [if_neg hs, get]
      by_cases hk : k = p
      · subst hk
        have : get k m = none := by simpa using hs
        rw [get_insert_same, if_pos rfl, this]
        simp
      · rw [if_neg hk, get_insert_ne (Ne.symm hk)]

/-! ### Sections -/

/-- The test of the loop. -/
def isCfg (a : Str) : Prop := keyOf a = "config".toList ∨ keyOf a = configurationNameKey

instance (a : Str) : Decidable (isCfg a) := inferInstanceAs (Decidable (_ ∨ _))

theorem isCfg_of_starts {a n : Str} (h : Starts a n) : isCfg a ∧ valueOf a = n := by
  rcases h with rfl | rfl
  · have e : "config:".toList ++ n = "config".toList ++ ':' :: n := rfl
    rw [e]
    exact ⟨.inl (keyOf_eq _ _ (by decide)), valueOf_eq _ _ (by decide)⟩
  · have e : "qbs.configurationName:".toList ++ n = configurationNameKey ++ ':' :: n := rfl
    rw [e]
    exact ⟨.inr (keyOf_eq _ _ (by decide)), valueOf_eq _ _ (by decide)⟩

theorem starts_of_isCfg {a : Str} (hc : ':' ∈ a) (h : isCfg a) : Starts a (valueOf a) := by
  obtain ⟨e, _⟩ := takeWhile_spec a hc
  rcases h with h | h
  · left; rw [h] at e; exact e
  · right; rw [h] at e; exact e

theorem collect_acc (as : List Str) : ∀ name props acc,
    collect as name props acc = acc ++ collect as name props [] := by
  induction as with
  | nil => intro name props acc; simp [collect]
  | cons a as ih =>
    intro name props acc
    unfold collect
    by_cases h : keyOf a = "config".toList ∨ keyOf a = configurationNameKey
    · rw [if_pos h, if_pos h, ih _ _ (acc ++ _), ih _ _ ([] ++ _)]
      simp
    · rw [if_neg h, if_neg h, ih]

theorem collect_cons_cfg {a : Str} (ha : isCfg a) (as : List Str) (name : Str)
    (props : List (Str × Str)) :
    collect (a :: as) name props [] = (name, props) :: collect as (valueOf a) [] [] := by
  have : collect (a :: as) name props [] = collect as (valueOf a) [] [(name, props)] := by
    show (if keyOf a = "config".toList ∨ keyOf a = configurationNameKey then _ else _) = _
    exact if_pos ha
  rw [this, collect_acc]
  rfl

theorem collect_cons_plain {a : Str} (ha : ¬ isCfg a) (as : List Str) (name : Str)
    (props : List (Str × Str)) :
    collect (a :: as) name props [] =
      collect as name (insert (propertyName (keyOf a)) (valueOf a) props) [] := by
  show (if keyOf a = "config".toList ∨ keyOf a = configurationNameKey then _ else _) = _
  exact if_neg ha

theorem collect_cfg (pre : List Str) {a : Str} (ha : isCfg a) (rest : List Str) :
    ∀ name props, collect (pre ++ a :: rest) name props [] =
      collect pre name props [] ++ collect rest (valueOf a) [] [] := by
  induction pre with
  | nil =>
    intro name props
    rw [List.nil_append, collect_cons_cfg ha]
    rfl
  | cons b pre ih =>
    intro name props
    rw [List.cons_append]
    by_cases h : isCfg b
    · rw [collect_cons_cfg h, collect_cons_cfg h, ih]
      rfl
    · rw [collect_cons_plain h, collect_cons_plain h, ih]

/-- The properties of a section. -/
def addAll (props : List (Str × Str)) (sec : List Str) : List (Str × Str) :=
  sec.foldl (fun m a => insert (propertyName (keyOf a)) (valueOf a) m) props

theorem collect_plain (sec : List Str) (h : ∀ a ∈ sec, ¬ isCfg a) : ∀ name props,
    collect sec name props [] = [(name, addAll props sec)] := by
  induction sec with
  | nil => intro name props; rfl
  | cons a sec ih =>
    intro name props
    rw [collect_cons_plain (h a List.mem_cons_self), ih fun x hx => h x (List.mem_cons_of_mem _ hx)]
    rfl

theorem get_addAll {p : Str} {sec : List Str} {r : Option Str} (h : Last p sec r) :
    get p (addAll [] sec) = r := by
  have e : ∀ as k v, ':' ∉ k → addAll [] (as ++ [k ++ ':' :: v]) =
      insert (propertyName k) v (addAll [] as) := by
    intro as k v hk
    unfold addAll
    rw [List.foldl_append]
    simp only [List.foldl_cons, List.foldl_nil]
    rw [keyOf_eq _ _ hk, valueOf_eq _ _ hk]
  induction h with
  | nil => rfl
  | @hit as k v hk hp =>
    have hp' : propertyName k = p := hp
    rw [e as k v hk, hp', get_insert_same]
  | @miss as k v r hk hp _ ih =>
    have hp' : propertyName k ≠ p := hp
    rw [e as k v hk, get_insert_ne (Ne.symm hp'), ih]

/-! ### Configurations -/

abbrev Conf := List (Str × Str)

def confName (m : Conf) : Option Str := get configurationNameKey m

theorem configurations_cons_pos {g : Conf} {n : Str} {ps : Conf} {items : List (Str × Conf)}
    {acc : List Conf}
    (h : (acc.any fun m => get configurationNameKey m = some n) = true) :
    configurations g ((n, ps) :: items) acc = configurations g items acc := by
  show (if (acc.any fun m => get configurationNameKey m = some n) = true then _ else _) = _
  exact if_pos h

theorem configurations_cons_neg {g : Conf} {n : Str} {ps : Conf} {items : List (Str × Conf)}
    {acc : List Conf}
    (h : ¬ (acc.any fun m => get configurationNameKey m = some n) = true) :
    configurations g ((n, ps) :: items) acc = configurations g items
      (acc ++ [insert configurationNameKey n (addGlobals g ps)]) := by
  show (if (acc.any fun m => get configurationNameKey m = some n) = true then _ else _) = _
  exact if_neg h

theorem configurations_append (g : Conf) (i1 : List (Str × Conf)) :
    ∀ i2 acc, configurations g (i1 ++ i2) acc = configurations g i2 (configurations g i1 acc) := by
  induction i1 with
  | nil => intro i2 acc; rfl
  | cons e i1 ih =>
    obtain ⟨n, ps⟩ := e
    intro i2 acc
    rw [List.cons_append]
    by_cases h : (acc.any fun m => get configurationNameKey m = some n) = true
    · rw [configurations_cons_pos h, configurations_cons_pos h, ih]
    · rw [configurations_cons_neg h, configurations_cons_neg h, ih]

theorem configurations_prefix (g : Conf) (items : List (Str × Conf)) :
    ∀ acc, ∃ l, configurations g items acc = acc ++ l := by
  induction items with
  | nil => intro acc; exact ⟨[], by simp [configurations]⟩
  | cons e items ih =>
    obtain ⟨n, ps⟩ := e
    intro acc
    unfold configurations
    split
    · exact ih acc
    · obtain ⟨l, hl⟩ := ih (acc ++ [insert configurationNameKey n (addGlobals g ps)])
      exact ⟨_, by rw [hl, List.append_assoc]⟩

theorem firsts_filter_comm (n : Str) (P : Str → Bool) (l : List Str) :
    (l.filter (· ≠ n)).filter P = (l.filter P).filter (· ≠ n) := by
  rw [List.filter_filter, List.filter_filter]
  congr 1
  funext x
  rw [Bool.and_comm]

theorem configurations_names (g : Conf) (items : List (Str × Conf)) :
    ∀ acc, (configurations g items acc).map confName =
      acc.map confName ++
        ((firsts (items.map Prod.fst)).filter fun n => !(acc.map confName).contains (some n)).map
          some := by
  induction items with
  | nil => intro acc; simp [configurations, firsts]
  | cons e items ih =>
    obtain ⟨n, ps⟩ := e
    intro acc
    have hany : (acc.any fun m => get configurationNameKey m = some n) =
        (acc.map confName).contains (some n) := by
      rw [Bool.eq_iff_iff, List.any_eq_true, List.contains_iff_mem, List.mem_map]
      constructor
      · rintro ⟨m, hm, he⟩; exact ⟨m, hm, by simpa [confName] using he⟩
      · rintro ⟨m, hm, he⟩; exact ⟨m, hm, by simpa [confName] using he⟩
    unfold configurations
    rw [hany, List.map_cons]
    dsimp only
    rw [firsts]
    by_cases h : (acc.map confName).contains (some n) = true
    · rw [if_pos h, ih]
      congr 1
      rw [List.filter_cons, if_neg (by simpa using h), firsts_filter_comm]
      congr 1
      symm
      rw [List.filter_eq_self]
      intro x hx
      have hx' := (List.mem_filter.1 hx).2
      rw [decide_eq_true_eq]
      rintro rfl
      rw [h] at hx'
      cases hx'
    · rw [if_neg h, ih]
      have hn : confName (insert configurationNameKey n (addGlobals g ps)) = some n :=
        get_insert_same _ _ _
      rw [List.map_append, List.map_cons, List.map_nil, hn, List.append_assoc]
      congr 1
      rw [List.filter_cons, if_pos (by simpa using h), List.map_cons, List.singleton_append]
      congr 2
      rw [List.filter_filter]
      congr 1
      funext x
      rw [Bool.eq_iff_iff, Bool.and_eq_true]
      simp only [Bool.not_eq_true', Bool.eq_false_iff, ne_eq, List.contains_iff_mem,
        List.mem_append, List.mem_singleton, Option.some.injEq, decide_eq_true_eq, not_or]

theorem firsts_nodup (l : List Str) : (firsts l).Nodup := by
  induction l with
  | nil => exact List.nodup_nil
  | cons n l ih =>
    unfold firsts
    rw [List.nodup_cons]
    refine ⟨?_, List.Pairwise.filter _ ih⟩
    intro h
    have := (List.mem_filter.1 h).2
    simp at this

theorem collect_names {as ns : List Str} (hw : ∀ a ∈ as, ':' ∈ a) (h : Names as ns) :
    ∀ name props, (collect as name props []).map Prod.fst = name :: ns := by
  induction h with
  | nil => intro name props; rfl
  | @start a n as ns hs _ ih =>
    intro name props
    obtain ⟨h1, h2⟩ := isCfg_of_starts hs
    rw [collect_cons_cfg h1, List.map_cons, ih fun x hx => hw x (List.mem_cons_of_mem _ hx), h2]
  | @skip a as ns hs _ ih =>
    intro name props
    have h1 : ¬ isCfg a := fun hc => hs _ (starts_of_isCfg (hw a List.mem_cons_self) hc)
    rw [collect_cons_plain h1, ih fun x hx => hw x (List.mem_cons_of_mem _ hx)]

/-- The names that setupBuildConfigurations works with. -/
theorem setup_eq (as : List Str) (name0 : Str) (g : Conf) (items : List (Str × Conf))
    (h : collect as [] [] [] = (name0, g) :: items) :
    setupBuildConfigurations as =
      configurations g (if items = [] then [("default".toList, [])] else items) [] := by
  unfold setupBuildConfigurations
  rw [h]
  cases items with
  | nil => rfl
  | cons e items => rfl

/-- **C84.** There is one configuration for each name that is given, in the order in which the
names first appear; without any name there is one configuration, "default". -/
theorem C84_names (as ns : List Str) (hw : ∀ a ∈ as, ':' ∈ a) (h : Names as ns) :
    (setupBuildConfigurations as).map (get configurationNameKey) =
      (if ns = [] then ["default".toList] else firsts ns).map some := by
  have hn := collect_names hw h [] []
  cases hc : collect as [] [] [] with
  | nil => rw [hc] at hn; cases hn
  | cons e items =>
    obtain ⟨n0, g⟩ := e
    rw [hc, List.map_cons] at hn
    have hns : items.map Prod.fst = ns := (List.cons.inj hn).2
    rw [setup_eq as n0 g items hc]
    have := configurations_names g (if items = [] then [("default".toList, [])] else items) []
    have e : (fun m : Conf => get configurationNameKey m) = confName := rfl
    show (configurations g _ []).map confName = _
    rw [this]
    simp only [List.map_nil, List.nil_append, List.contains_nil, Bool.not_false]
    rw [List.filter_eq_self.2 (fun _ _ => rfl)]
    subst hns
    cases items with
    | nil => rfl
    | cons e items => rfl

/-- **C84.** No two configurations have the same name. -/
theorem C84_distinct (as ns : List Str) (hw : ∀ a ∈ as, ':' ∈ a) (h : Names as ns) :
    ((setupBuildConfigurations as).map (get configurationNameKey)).Nodup := by
  rw [C84_names as ns hw h]
  have key : ∀ l : List Str, l.Nodup → (l.map some).Nodup := by
    intro l hl
    exact List.Pairwise.map _ (fun a b hab e => hab (Option.some.inj e)) hl
  apply key
  split
  · exact List.nodup_cons.2 ⟨by simp, List.nodup_nil⟩
  · exact firsts_nodup ns

theorem collect_head (g0 : List Str) (hg : ∀ a ∈ g0, ¬ isCfg a) (post : List Str)
    (hp : ∀ a ∈ post.head?, isCfg a) (name : Str) :
    ∃ tail, collect (g0 ++ post) name [] [] = (name, addAll [] g0) :: tail ∧
      (post = [] → tail = []) := by
  cases post with
  | nil => exact ⟨[], by rw [List.append_nil, collect_plain g0 hg], fun _ => rfl⟩
  | cons b post =>
    refine ⟨collect post (valueOf b) [] [], ?_, fun h => by cases h⟩
    rw [collect_cfg g0 (hp b rfl), collect_plain g0 hg]
    rfl

/-- **C84.** In a configuration, a property has the value that was last given for it in the
section of that configuration; if there is none, the value that was last given before the first
section; otherwise it is not set. Names without a dot are properties of the qbs module. -/
theorem C84_value (as : List Str) (hw : ∀ a ∈ as, ':' ∈ a)
    (globals sections : List Str) (hg : as = globals ++ sections)
    (hg1 : ∀ a ∈ globals, ∀ m, ¬ Starts a m) (hg2 : ∀ a ∈ sections.head?, ∃ m, Starts a m)
    (pre sec post : List Str) (a n : Str) (hs : as = pre ++ a :: (sec ++ post)) (ha : Starts a n)
    (hpre : ∀ x ∈ pre, ¬ Starts x n) (hsec : ∀ x ∈ sec, ∀ m, ¬ Starts x m)
    (hpost : ∀ x ∈ post.head?, ∃ m, Starts x m) :
    ∃ conf ∈ setupBuildConfigurations as,
      get configurationNameKey conf = some n ∧
      ∀ p, p ≠ configurationNameKey → ∀ r r', Last p sec r → Last p globals r' →
        get p conf = r.or r' := by
  have notCfg : ∀ x ∈ as, (∀ m, ¬ Starts x m) → ¬ isCfg x :=
    fun x hx h hc => h _ (starts_of_isCfg (hw x hx) hc)
  have isC : ∀ x, (∃ m, Starts x m) → isCfg x := fun x ⟨m, h⟩ => (isCfg_of_starts h).1
  obtain ⟨t1, ht1, ht1'⟩ := collect_head globals
    (fun x hx => notCfg x (by rw [hg]; exact List.mem_append_left _ hx) (hg1 x hx)) sections
    (fun x hx => isC x (hg2 x hx)) []
  rw [← hg] at ht1
  obtain ⟨t2, ht2, _⟩ := collect_head sec
    (fun x hx => notCfg x (by rw [hs]; simp [hx]) (hsec x hx)) post
    (fun x hx => isC x (hpost x hx)) n
  obtain ⟨hac, hav⟩ := isCfg_of_starts ha
  have hsplit := collect_cfg pre hac (sec ++ post) [] []
  rw [hav, ht2, ← hs] at hsplit
  -- the sections before the one in question
  have hpn : ∀ e ∈ (collect pre [] [] []).tail, e.1 ≠ n := by
    have key : ∀ (l : List Str) name props, (∀ x ∈ l, ':' ∈ x ∧ ¬ Starts x n) →
        ∀ e ∈ (collect l name props []).tail, e.1 ≠ n := by
      intro l
      induction l with
      | nil => intro name props _ e he; simp [collect] at he
      | cons b l ih =>
        intro name props hl e he
        have hl' := fun x hx => hl x (List.mem_cons_of_mem b hx)
        unfold collect at he
        by_cases hb : keyOf b = "config".toList ∨ keyOf b = configurationNameKey
        · rw [if_pos hb, collect_acc] at he
          simp only [List.nil_append, List.cons_append, List.tail_cons] at he
          have hb' := starts_of_isCfg (hl b List.mem_cons_self).1 hb
          have hne : valueOf b ≠ n := fun e => (hl b List.mem_cons_self).2 (e ▸ hb')
          have hh : ∃ ps t, collect l (valueOf b) [] [] = (valueOf b, ps) :: t := by
            clear ih he hl hl' hb hb'
            generalize valueOf b = nm
            generalize ([] : List (Str × Str)) = ps0
            induction l generalizing ps0 with
            | nil => exact ⟨ps0, [], rfl⟩
            | cons c l ih =>
              unfold collect
              split
              · rw [collect_acc]; exact ⟨ps0, _, rfl⟩
              · exact ih _
          obtain ⟨ps, t, ht⟩ := hh
          rw [ht] at he
          rcases List.mem_cons.1 he with rfl | he
          · exact hne
          · exact ih (valueOf b) [] hl' e (by rw [ht]; exact he)
        · rw [if_neg hb] at he
          exact ih _ _ hl' e he
    refine key pre [] [] fun x hx => ⟨hw x (by rw [hs]; exact List.mem_append_left _ hx), hpre x hx⟩
  cases hcp : collect pre [] [] [] with
  | nil =>
    have : collect pre [] [] [] ≠ [] := by
      intro h
      have hc := collect_acc pre [] [] [([], [])]
      cases pre with
      | nil => cases h
      | cons b pre =>
        unfold collect at h
        split at h
        · rw [collect_acc] at h; cases h
        · have key : ∀ (l : List Str) nm ps, collect l nm ps [] ≠ [] := by
            intro l
            induction l with
            | nil => intro nm ps h; cases h
            | cons c l ih =>
              intro nm ps h
              unfold collect at h
              split at h
              · rw [collect_acc] at h; cases h
              · exact ih _ _ h
          exact key _ _ _ h
    exact absurd hcp this
  | cons e i1 =>
    rw [hcp] at hsplit hpn
    rw [ht1] at hsplit
    rw [List.cons_append] at hsplit
    obtain ⟨he, htl⟩ := List.cons.inj hsplit
    have hne : t1 ≠ [] := by rw [htl]; simp
    rw [setup_eq as [] (addAll [] globals) t1 ht1, if_neg hne, htl, configurations_append]
    have hi1 := configurations_names (addAll [] globals) i1 []
    have hnot : ¬ ((configurations (addAll [] globals) i1 []).any fun m =>
        get configurationNameKey m = some n) = true := by
      rw [List.any_eq_true]
      rintro ⟨m, hm, hmn⟩
      have hmn : confName m = some n := by simpa [confName] using hmn
      have : some n ∈ (configurations (addAll [] globals) i1 []).map confName :=
        List.mem_map.2 ⟨m, hm, hmn⟩
      rw [hi1] at this
      simp only [List.map_nil, List.nil_append, List.mem_map, List.mem_filter] at this
      obtain ⟨x, ⟨hx, _⟩, hxe⟩ := this
      have hxn : x = n := Option.some.inj hxe
      subst hxn
      have hmem : ∀ (l : List Str) y, y ∈ firsts l → y ∈ l := by
        intro l
        induction l with
        | nil => intro y hy; cases hy
        | cons b l ih =>
          intro y hy
          unfold firsts at hy
          rcases List.mem_cons.1 hy with rfl | hy
          · exact List.mem_cons_self
          · exact List.mem_cons_of_mem _ (ih y (List.mem_filter.1 hy).1)
      obtain ⟨e', he', hen⟩ := List.mem_map.1 (hmem _ _ hx)
      exact hpn e' he' hen
    unfold configurations
    rw [if_neg hnot]
    obtain ⟨l, hl⟩ := configurations_prefix (addAll [] globals) t2
      (configurations (addAll [] globals) i1 [] ++
        [insert configurationNameKey n (addGlobals (addAll [] globals) (addAll [] sec))])
    rw [hl]
    refine ⟨insert configurationNameKey n (addGlobals (addAll [] globals) (addAll [] sec)), by simp,
      get_insert_same _ _ _, ?_⟩
    intro p hp r r' hr hr'
    rw [get_insert_ne hp, get_addGlobals, get_addAll hr, get_addAll hr']

/-- **C84.** Without a section, the configuration has the values that were last given. -/
theorem C84_default (as : List Str) (hw : ∀ a ∈ as, ':' ∈ a)
    (h : ∀ a ∈ as, ∀ m, ¬ Starts a m) :
    ∃ conf, setupBuildConfigurations as = [conf] ∧
      get configurationNameKey conf = some "default".toList ∧
      ∀ p, p ≠ configurationNameKey → ∀ r, Last p as r → get p conf = r := by
  have hc := collect_plain as (fun a ha hc => h a ha _ (starts_of_isCfg (hw a ha) hc)) [] []
  rw [setup_eq as [] _ _ hc]
  refine ⟨insert configurationNameKey "default".toList (addGlobals (addAll [] as) []), rfl,
    get_insert_same _ _ _, ?_⟩
  intro p hp r hr
  rw [get_insert_ne hp, get_addGlobals, get_addAll hr]
  rfl

/-- **C84 finding.** What is given in a second section for the same configuration is ignored:
the configuration keeps the first value. -/
theorem C84_repeated (n k v v' : Str) (hk : ':' ∉ k) (hc : k ≠ "config".toList)
    (hq : propertyName k ≠ configurationNameKey) :
    (setupBuildConfigurations ["config:".toList ++ n, k ++ ':' :: v, "config:".toList ++ n,
      k ++ ':' :: v']).map (get (propertyName k)) = [some v] := by
  have s : isCfg ("config:".toList ++ n) ∧ valueOf ("config:".toList ++ n) = n :=
    isCfg_of_starts (.inl rfl)
  have hq' : k ≠ configurationNameKey := by
    intro e
    apply hq
    rw [e]
    rfl
  have np : ∀ w, ¬ isCfg (k ++ ':' :: w) := by
    intro w hcfg
    unfold isCfg at hcfg
    rw [keyOf_eq _ _ hk] at hcfg
    exact hcfg.elim hc hq'
  have e1 : collect ["config:".toList ++ n, k ++ ':' :: v, "config:".toList ++ n,
      k ++ ':' :: v'] [] [] [] =
      [([], []), (n, [(propertyName k, v)]), (n, [(propertyName k, v')])] := by
    have c1 := collect_cfg [] s.1 [k ++ ':' :: v, "config:".toList ++ n, k ++ ':' :: v'] [] []
    have c2 := collect_cfg [k ++ ':' :: v] s.1 [k ++ ':' :: v'] n []
    have c3 := collect_plain [k ++ ':' :: v] (by simpa using np v) n []
    have c4 := collect_plain [k ++ ':' :: v'] (by simpa using np v') n []
    rw [List.nil_append, s.2] at c1
    rw [s.2, c3, c4] at c2
    rw [c1]
    rw [List.singleton_append] at c2
    rw [c2]
    unfold addAll
    simp only [List.foldl_cons, List.foldl_nil]
    rw [keyOf_eq _ _ hk, valueOf_eq _ _ hk, keyOf_eq _ _ hk, valueOf_eq _ _ hk]
    rfl
  rw [setup_eq _ _ _ _ e1, if_neg (by simp)]
  unfold configurations
  rw [if_neg (by simp)]
  unfold configurations
  rw [if_pos (by
    rw [List.any_eq_true]
    exact ⟨_, List.mem_append_right _ List.mem_cons_self, by
      rw [decide_eq_true_eq]; exact get_insert_same _ _ _⟩)]
  unfold configurations
  rw [List.nil_append, List.map_cons, List.map_nil, get_insert_ne hq, get_addGlobals]
  simp [get]

/-- **C84 finding.** Although names without a dot are properties of the qbs module, the name of the
configuration cannot be given as "configurationName": the assignment is ignored. -/
theorem C84_undotted_name (n : Str) :
    setupBuildConfigurations ["configurationName:".toList ++ n] =
      [[(configurationNameKey, "default".toList)]] ∧
    fullName "configurationName".toList = configurationNameKey := by
  have hk : ':' ∉ "configurationName".toList := by decide
  have e : "configurationName:".toList ++ n = "configurationName".toList ++ ':' :: n := rfl
  refine ⟨?_, by decide +kernel⟩
  have np : ¬ isCfg ("configurationName:".toList ++ n) := by
    rw [e]
    unfold isCfg
    rw [keyOf_eq _ _ hk]
    decide +kernel
  have c := collect_plain ["configurationName:".toList ++ n] (by simpa using np) [] []
  rw [setup_eq _ _ _ _ c, if_pos rfl]
  have ha : addAll [] ["configurationName:".toList ++ n] = [(configurationNameKey, n)] := by
    rw [e]
    unfold addAll
    simp only [List.foldl_cons, List.foldl_nil]
    rw [keyOf_eq _ _ hk, valueOf_eq _ _ hk]
    have : propertyName "configurationName".toList = configurationNameKey := by decide +kernel
    rw [this]
    rfl
  rw [ha]
  unfold configurations
  rw [if_neg (by simp)]
  unfold configurations addGlobals
  simp [get, insert]

end Verif.Cli
