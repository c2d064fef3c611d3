import Verif.Override.Props
/-
C82: the build configuration of the parameters for setting up a project.
-/

namespace Verif.Override

open Spec

theorem str_lt_total {a b : Str} (h : a ≠ b) (h' : ¬ a < b) : b < a := by
  by_cases h1 : b < a
  · exact h1
  · exact absurd (List.le_antisymm (List.not_lt.1 h1) (List.not_lt.1 h')) h

theorem get_insertSorted_self (k : Str) (v : Val) : ∀ f : Flat, get k (insertSorted k v f) = some v := by
  intro f
  induction f with
  | nil => simp [insertSorted, get]
  | cons e f ih =>
    obtain ⟨k', v'⟩ := e
    rw [insertSorted]
    by_cases h : k' = k
    · simp [h, get]
    · by_cases h' : k < k'
      · simp [h, h', get]
      · simp [h, h', get, ih]

theorem get_insertSorted_ne {k k' : Str} (v : Val) (hne : k ≠ k') : ∀ f : Flat,
    get k' (insertSorted k v f) = get k' f := by
  intro f
  induction f with
  | nil => simp [insertSorted, get, hne]
  | cons e f ih =>
    obtain ⟨k'', v''⟩ := e
    rw [insertSorted]
    by_cases h : k'' = k
    · subst h; simp [get, hne]
    · by_cases h' : k < k''
      · simp [h, h', get, hne]
      · simp [h, h', get, ih]

theorem mem_insertSorted {k : Str} {v : Val} {e : Str × Val} : ∀ {f : Flat},
    e ∈ insertSorted k v f → e = (k, v) ∨ e ∈ f := by
  intro f
  induction f with
  | nil => intro h; simpa [insertSorted] using h
  | cons x f ih =>
    obtain ⟨k', v'⟩ := x
    rw [insertSorted]
    by_cases h : k' = k
    · rw [if_pos h]
      intro he
      rcases List.mem_cons.1 he with he | he
      · exact .inl he
      · exact .inr (by simp [he])
    · rw [if_neg h]
      by_cases h' : k < k'
      · rw [if_pos h']
        intro he
        rcases List.mem_cons.1 he with he | he
        · exact .inl he
        · exact .inr he
      · rw [if_neg h']
        intro he
        rcases List.mem_cons.1 he with he | he
        · exact .inr (by simp [he])
        · rcases ih he with he | he
          · exact .inl he
          · exact .inr (by simp [he])

theorem insertSorted_ordered (k : Str) (v : Val) : ∀ {f : Flat}, Ordered f →
    Ordered (insertSorted k v f) := by
  intro f
  induction f with
  | nil => intro _; simp [insertSorted, Ordered]
  | cons x f ih =>
    obtain ⟨k', v'⟩ := x
    intro ho
    have ho' := List.pairwise_cons.1 ho
    rw [insertSorted]
    by_cases h : k' = k
    · rw [if_pos h]
      subst h
      exact List.pairwise_cons.2 ho'
    · rw [if_neg h]
      by_cases h' : k < k'
      · rw [if_pos h']
        refine List.pairwise_cons.2 ⟨?_, ho⟩
        intro e he
        rcases List.mem_cons.1 he with rfl | he
        · exact h'
        · exact str_lt_trans h' (ho'.1 e he)
      · rw [if_neg h']
        refine List.pairwise_cons.2 ⟨?_, ih ho'.2⟩
        intro e he
        rcases mem_insertSorted he with rfl | he
        · exact str_lt_total (Ne.symm h) h'
        · exact ho'.1 e he

theorem overlay_ordered : ∀ (o c : Flat), Ordered c → Ordered (overlay c o) := by
  intro o
  induction o with
  | nil => intro c h; exact h
  | cons e o ih =>
    obtain ⟨k, v⟩ := e
    intro c h
    exact ih _ (insertSorted_ordered k v h)

theorem get_overlay : ∀ (o : Flat), Ordered o → ∀ (c : Flat) (k : Str),
    get k (overlay c o) = (get k o).or (get k c) := by
  intro o
  induction o with
  | nil => intro _ c k; simp [overlay, get]
  | cons e o ih =>
    obtain ⟨k', v⟩ := e
    intro ho c k
    have ho' := List.pairwise_cons.1 ho
    rw [overlay, ih ho'.2]
    by_cases h : k' = k
    · subst h
      have : get k' o = none := by
        rw [get_none]
        intro x hx he
        have := ho'.1 x hx
        rw [he] at this
        exact str_lt_irrefl _ this
      rw [this, get_insertSorted_self]
      simp [get]
    · rw [get_insertSorted_ne v h, get, if_neg h]

theorem insertAll_ordered : ∀ (l c : Flat), Ordered c → Ordered (insertAll c l) := by
  intro l
  induction l with
  | nil => intro c h; exact h
  | cons e l ih =>
    obtain ⟨k, v⟩ := e
    intro c h
    exact ih _ (insertSorted_ordered k v h)

theorem expandedConfig_ordered {profiles : Profiles} {p n : Str} {c : Flat}
    (h : expandedConfig profiles p n = some c) : Ordered c := by
  unfold expandedConfig at h
  simp only at h
  split at h
  · cases h
  · rename_i c' hc'
    have ho : Ordered c' := by
      split at hc'
      · injection hc' with hc'; subst hc'; simp [Ordered]
      · split at hc'
        · injection hc' with hc'; subst hc'; simp [Ordered]
        · cases hc'
        · injection hc' with hc'; subst hc'
          exact insertAll_ordered _ _ (by simp [Ordered])
    split at h
    · cases h
    · injection h with h
      subst h
      exact insertSorted_ordered _ _ ho

/-- What holds after every history of calls. -/
structure Inv (s : Params) : Prop where
  overridden : Ordered s.overridden
  config : Ordered s.config
  overriddenTree : s.overriddenTree = [] ∨ s.overriddenTree = fillTree [] s.overridden
  configTree : s.configTree = [] ∨ s.configTree = fillTree [] s.config

theorem provide_of {f : Flat} {t : Tree} (h : t = [] ∨ t = fillTree [] f) :
    provideValuesTree f t = fillTree [] f := by
  by_cases ht : t = []
  · rw [ht, provide_nil]
  · rw [provideValuesTree, if_pos (.inl ht)]
    exact h.resolve_left ht

theorem inv_step {s : Params} (h : Inv s) (c : Call) (hc : CallOk c) : Inv (s.step c) := by
  cases c with
  | setTopLevelProfile p => exact ⟨h.1, h.2, h.3, .inl rfl⟩
  | setConfigurationName n => exact ⟨h.1, h.2, h.3, .inl rfl⟩
  | setOverriddenValues v => exact ⟨hc, h.2, .inl rfl, h.4⟩
  | expand profiles =>
    simp only [Params.step]
    cases he : expandedConfig profiles s.profile s.configurationName with
    | none => exact h
    | some c =>
      by_cases hcc : s.config = c
      · simp only [if_pos hcc]; exact h
      · simp only [if_neg hcc]; exact ⟨h.1, expandedConfig_ordered he, h.3, .inl rfl⟩
  | readOverriddenTree => exact ⟨h.1, h.2, .inr (provide_of h.3), h.4⟩
  | readConfigTree => exact ⟨h.1, h.2, h.3, .inr (provide_of h.4)⟩
  | readFinalTree =>
    simp only [Params.step]
    split
    · exact ⟨h.1, h.2, h.3, h.4⟩
    · exact h

theorem inv_run {s : Params} (h : Inv s) (cs : List Call) (hc : ∀ c ∈ cs, CallOk c) :
    Inv (s.run cs) := by
  induction cs generalizing s with
  | nil => exact h
  | cons c cs ih =>
    exact ih (inv_step h c (hc c (by simp))) (fun c' h' => hc c' (by simp [h']))

theorem inv_init : Inv Params.init :=
  ⟨List.Pairwise.nil, List.Pairwise.nil, .inl rfl, .inl rfl⟩

/-- C82: after every history of calls, the tree of overridden values has what was last set. -/
theorem C82_overridden_tree (cs : List Call) (hc : ∀ c ∈ cs, CallOk c) (pre p : Str)
    (hp : PropertyName p) :
    Tree.value (Params.init.run cs).overriddenValuesTree pre p =
      given (Params.init.run cs).overridden (dotted pre p) := by
  have h := inv_run inv_init cs hc
  rw [treeValue_eq, Params.overriddenValuesTree, ← get_eq_given]
  simp only [Params.step]
  rw [provide_of h.3]
  exact fillTree_value _ h.1 pre p hp

/-- C82: and the tree of the build configuration has what the build configuration has. -/
theorem C82_config_tree (cs : List Call) (hc : ∀ c ∈ cs, CallOk c) (pre p : Str)
    (hp : PropertyName p) :
    Tree.value (Params.init.run cs).buildConfigurationTree pre p =
      given (Params.init.run cs).config (dotted pre p) := by
  have h := inv_run inv_init cs hc
  rw [treeValue_eq, Params.buildConfigurationTree, ← get_eq_given]
  simp only [Params.step]
  rw [provide_of h.4]
  exact fillTree_value _ h.2 pre p hp

theorem run_append (s : Params) (a b : List Call) : s.run (a ++ b) = (s.run a).run b := by
  induction a generalizing s with
  | nil => rfl
  | cons c a ih => exact ih _

/-- Nothing has been kept of the final tree. -/
theorem final_cleared {s : Params} {c : Call} (h : IsSetter c) : (s.step c).finalTree = [] := by
  cases c <;> first | rfl | exact absurd h id

theorem final_kept_empty {s : Params} (h : s.finalTree = []) : ∀ cs : List Call,
    (∀ c ∈ cs, ¬ IsFinalRead c) → (s.run cs).finalTree = [] := by
  intro cs
  induction cs generalizing s with
  | nil => intro _; exact h
  | cons c cs ih =>
    intro hc
    refine ih ?_ (fun c' h' => hc c' (by simp [h']))
    cases c with
    | expand profiles =>
      simp only [Params.step]
      cases expandedConfig profiles s.profile s.configurationName with
      | none => exact h
      | some c =>
        simp only
        split <;> exact h
    | readFinalTree => exact absurd trivial (hc .readFinalTree (by simp))
    | _ => first | rfl | exact h

theorem finalTree_value {c o : Flat} (hc : Ordered c) (ho : Ordered o) (pre p : Str)
    (hp : PropertyName p) : Tree.value (finalTree c o) pre p =
      (given o (dotted pre p)).or (given c (dotted pre p)) := by
  rw [treeValue_eq, finalTree, provide_nil, fillTree_value _ (overlay_ordered o c hc) pre p hp,
    get_overlay o ho, get_eq_given, get_eq_given]

/-- C82, part: the final build configuration has the overridden value of a property, and
else the one of the build configuration, when it is asked for the first time after
one of the setters was called. Missing: later expansions, see `C82_final_stale`. -/
theorem C82_final_partial (before after : List Call) (setter : Call) (hs : IsSetter setter)
    (hc : ∀ c ∈ before ++ setter :: after, CallOk c) (hr : ∀ c ∈ after, ¬ IsFinalRead c)
    (pre p : Str) (hp : PropertyName p) :
    let s := Params.init.run (before ++ setter :: after)
    Tree.value s.finalBuildConfigurationTree pre p =
      (given s.overridden (dotted pre p)).or (given s.config (dotted pre p)) := by
  intro s
  have h : Inv s := inv_run inv_init _ hc
  have he : s.finalTree = [] := by
    show (Params.init.run (before ++ setter :: after)).finalTree = []
    rw [run_append]
    exact final_kept_empty (final_cleared hs) after hr
  rw [Params.finalBuildConfigurationTree]
  simp only [Params.step, if_pos he]
  exact finalTree_value h.2 h.1 pre p hp

/-- C82: the same at the very start. -/
theorem C82_final_first (cs : List Call) (hc : ∀ c ∈ cs, CallOk c) (hr : ∀ c ∈ cs, ¬ IsFinalRead c)
    (pre p : Str) (hp : PropertyName p) :
    let s := Params.init.run cs
    Tree.value s.finalBuildConfigurationTree pre p =
      (given s.overridden (dotted pre p)).or (given s.config (dotted pre p)) := by
  intro s
  have h : Inv s := inv_run inv_init _ hc
  have he : s.finalTree = [] := final_kept_empty rfl cs hr
  rw [Params.finalBuildConfigurationTree]
  simp only [Params.step, if_pos he]
  exact finalTree_value h.2 h.1 pre p hp

theorem get_insertAll : ∀ (l : Flat), Distinct l → ∀ (c : Flat) (k : Str),
    get k (insertAll c l) = (get k l).or (get k c) := by
  intro l
  induction l with
  | nil => intro _ c k; simp [insertAll, get]
  | cons e l ih =>
    obtain ⟨k', v⟩ := e
    intro hd c k
    unfold Distinct at hd
    rw [List.pairwise_cons] at hd
    rw [insertAll, ih hd.2]
    by_cases h : k' = k
    · subst h
      have : get k' l = none := get_none.2 (fun x hx he => hd.1 x hx he.symm)
      rw [this, get_insertSorted_self]
      simp [get]
    · rw [get_insertSorted_ne v h, get, if_neg h]

/-- C82: after a successful expansion, the build configuration has the values of the profile
and the name of the configuration, whatever the profile says about the latter. -/
theorem C82_expand (s : Params) (profiles : Profiles) (kv : Flat)
    (hp : profiles s.profile = some kv) (hne : kv ≠ []) (hd : kv.Pairwise (fun a b => a.1 ≠ b.1))
    (hname : s.profile ≠ "none".toList) (hcn : s.configurationName ≠ []) (k : Str) :
    given (s.step (.expand profiles)).config k =
      if k = "qbs.configurationName".toList then some (.str s.configurationName)
      else given kv k := by
  have he : expandedConfig profiles s.profile s.configurationName =
      some (insertSorted configurationNameKey (.str s.configurationName) (insertAll [] kv)) := by
    unfold expandedConfig
    rw [if_neg (show s.profile ≠ fallbackName from hname), hp]
    cases kv with
    | nil => exact absurd rfl hne
    | cons e kv => simp only [if_neg hcn]
  have hcfg : (s.step (.expand profiles)).config =
      insertSorted configurationNameKey (.str s.configurationName) (insertAll [] kv) := by
    simp only [Params.step, he]
    split
    · assumption
    · rfl
  rw [hcfg, ← get_eq_given]
  by_cases hk : k = "qbs.configurationName".toList
  · rw [if_pos hk, hk]
    exact get_insertSorted_self _ _ _
  · rw [if_neg hk, get_insertSorted_ne (k := configurationNameKey) _ (fun h => hk h.symm), get_insertAll kv hd,
      get_eq_given]
    simp [get]

/-- C82: an expansion that fails leaves everything as it was. -/
theorem C82_expand_failed (s : Params) (profiles : Profiles)
    (h : s.configurationName = [] ∨
      (s.profile ≠ "none".toList ∧ profiles s.profile = some [])) :
    s.step (.expand profiles) = s := by
  have : expandedConfig profiles s.profile s.configurationName = none := by
    unfold expandedConfig
    simp only
    rcases h with h | ⟨h1, h2⟩
    · split
      · rfl
      · rw [if_pos h]
    · rw [if_neg (show s.profile ≠ fallbackName from h1), h2]
  simp only [Params.step, this]

end Verif.Override
