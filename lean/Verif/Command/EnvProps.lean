import Verif.Command.Model
import Verif.Command.Spec
/-! # C74: the environment of a process -/

namespace Verif.Command
open Verif.Shell (Os Str)

theorem same_refl (os : Os) (a : Str) : sameVar os a a = true := by cases os <;> simp [sameVar]

theorem same_symm {os : Os} {a b : Str} (h : sameVar os a b = true) : sameVar os b a = true := by
  cases os <;> simp_all [sameVar]

theorem same_congr {os : Os} {a b : Str} (h : sameVar os a b = true) (c : Str) : sameVar os a c = sameVar os b c := by
  cases os <;> simp_all [sameVar]

theorem lookup_congr {os : Os} {a b : Str} (h : sameVar os a b = true) (e : Env) : lookup os e a = lookup os e b := by
  unfold lookup
  have : (fun p : Str × Str => sameVar os a p.1) = fun p => sameVar os b p.1 := by
    funext p; exact same_congr h p.1
  rw [this]

theorem lookup_insert_same {os : Os} {k v : Str} (e : Env) (x : Str) (h : sameVar os v k = true) :
    lookup os (insert os e k x) v = some x := by
  simp [lookup, insert, h]

theorem lookup_insert_other {os : Os} {k v : Str} (e : Env) (x : Str) (h : sameVar os v k = false) :
    lookup os (insert os e k x) v = lookup os e v := by
  unfold lookup insert
  rw [List.find?_cons]
  simp only [h]
  congr 1
  induction e with
  | nil => rfl
  | cons p e ih =>
    by_cases hp : sameVar os k p.1 = true
    · rw [List.filter_cons_of_neg (by simp [hp]), List.find?_cons]
      have : sameVar os v p.1 = false := by
        cases hv : sameVar os v p.1 with
        | false => rfl
        | true =>
          have h1 := same_congr hv k
          rw [h, same_symm hp] at h1
          exact absurd h1 (by decide)
      rw [this]; exact ih
    · rw [List.filter_cons_of_pos (by simpa using hp), List.find?_cons, List.find?_cons]
      split
      · rfl
      · exact ih

theorem mergedValue_congr {os : Os} {a b : Str} (h : sameVar os a b = true) (base add : Env) :
    mergedValue os base add a = mergedValue os base add b := by
  have h1 : ∀ e : Env, value os e a = value os e b := fun e => by unfold value; rw [lookup_congr h]
  have h2 : (pathListVariables.any fun p => sameVar os a p) = pathListVariables.any fun p => sameVar os b p := by
    have : (fun p => sameVar os a p) = fun p => sameVar os b p := by funext p; exact same_congr h p
    rw [this]
  unfold mergedValue
  rw [h1, h1, h2]

theorem merge_keys (os : Os) (base add : Env) (v : Str) (keys : List Str) (env : Env) :
    lookup os (keys.foldl (fun env key => insert os env key (mergedValue os base add key)) env) v =
      if keys.any (fun k => sameVar os v k) then some (mergedValue os base add v) else lookup os env v := by
  induction keys generalizing env with
  | nil => simp
  | cons k ks ih =>
    rw [List.foldl_cons, ih, List.any_cons]
    by_cases hk : sameVar os v k = true
    · rw [hk]
      simp only [Bool.true_or, if_true]
      split
      · rfl
      · rw [lookup_insert_same _ _ hk, mergedValue_congr hk]
    · have hk' : sameVar os v k = false := by simpa using hk
      rw [hk', lookup_insert_other _ _ hk', Bool.false_or]

theorem any_key_iff (os : Os) (e : Env) (v : Str) :
    (e.map (·.1)).any (fun k => sameVar os v k) = (lookup os e v).isSome := by
  unfold lookup
  induction e with
  | nil => rfl
  | cons p e ih =>
    rw [List.map_cons, List.any_cons, List.find?_cons]
    cases h : sameVar os v p.1 with
    | true => rfl
    | false => simpa using ih

theorem merge_lookup (os : Os) (base add : Env) (v : Str) :
    lookup os (mergeEnvironments os base add) v =
      if (lookup os add v).isSome then some (mergedValue os base add v) else lookup os base v := by
  unfold mergeEnvironments
  rw [merge_keys, any_key_iff]

/-! ### The entries -/

theorem span_eq (name val : Str) (h : '=' ∉ name) :
    (name ++ '=' :: val).takeWhile (· != '=') = name ∧ (name ++ '=' :: val).dropWhile (· != '=') = '=' :: val := by
  induction name with
  | nil => simp
  | cons c cs ih =>
    simp only [List.mem_cons, not_or] at h
    have hc : (c != '=') = true := by simpa using Ne.symm h.1
    obtain ⟨h1, h2⟩ := ih h.2
    constructor
    · rw [List.cons_append, List.takeWhile_cons, if_pos hc, h1]
    · rw [List.cons_append, List.dropWhile_cons, if_pos hc, h2]

theorem entry_some_iff (s name val : Str) :
    entry s = some (name, val) ↔ name ≠ [] ∧ '=' ∉ name ∧ val ≠ [] ∧ s = name ++ '=' :: val := by
  constructor
  · intro h
    unfold entry at h
    simp only at h
    split at h
    · exact absurd h (by simp)
    · rename_i hc
      have he := Option.some.inj h
      have h1 : s.takeWhile (· != '=') = name := (Prod.mk.inj he).1
      have h2 : (s.dropWhile (· != '=')).drop 1 = val := (Prod.mk.inj he).2
      have hn : '=' ∉ s.takeWhile (· != '=') := by
        intro hm
        have := List.all_eq_true.mp (List.all_takeWhile (p := (· != '=')) (l := s)) _ hm
        simp at this
      have hs : s = s.takeWhile (· != '=') ++ s.dropWhile (· != '=') := List.takeWhile_append_dropWhile.symm
      have hd : ∃ r, s.dropWhile (· != '=') = '=' :: r := by
        cases hdw : s.dropWhile (· != '=') with
        | nil => rw [hdw] at hc; simp at hc
        | cons x r =>
          have : ¬(x != '=') = true := by
            have := List.head?_dropWhile_not (· != '=') s
            rw [hdw] at this
            simpa using this
          exact ⟨r, by simp at this; rw [this]⟩
      obtain ⟨r, hr⟩ := hd
      rw [hr] at h2 hs hc
      simp only [List.drop_succ_cons, List.drop_zero] at h2
      subst h2 h1
      refine ⟨fun e => hc (.inl e), hn, ?_, hs⟩
      intro e
      exact hc (.inr (by rw [e]; simp))
  · rintro ⟨h1, h2, h3, rfl⟩
    obtain ⟨ht, hd⟩ := span_eq name val h2
    unfold entry
    simp only [ht, hd]
    rw [if_neg]
    · simp
    · rintro (h | h)
      · exact h1 h
      · cases val with
        | nil => exact h3 rfl
        | cons => simp at h

theorem assigns_iff (os : Os) (s v x : Str) :
    Spec.Assigns (sameVar os) s v x ↔ ∃ name, entry s = some (name, x) ∧ sameVar os v name = true := by
  constructor
  · rintro ⟨h1, name, h2, h3, h4, h5⟩
    exact ⟨name, (entry_some_iff _ _ _).mpr ⟨h2, h3, h1, h5⟩, h4⟩
  · rintro ⟨name, h, h4⟩
    obtain ⟨h2, h3, h1, h5⟩ := (entry_some_iff _ _ _).mp h
    exact ⟨h1, name, h2, h3, h4, h5⟩

theorem fromList_last (os : Os) (v : Str) (l : List Str) (e : Env) (h : ∀ s ∈ l, ∀ x, ¬Spec.Assigns (sameVar os) s v x) :
    lookup os (l.foldl (addEntry os) e) v = lookup os e v := by
  induction l generalizing e with
  | nil => rfl
  | cons s l ih =>
    rw [List.foldl_cons, ih _ (fun t ht => h t (List.mem_cons_of_mem _ ht))]
    unfold addEntry
    cases hs : entry s with
    | none => rfl
    | some p =>
      have : sameVar os v p.1 = false := by
        cases hv : sameVar os v p.1 with
        | false => rfl
        | true => exact absurd ((assigns_iff os s v p.2).mpr ⟨p.1, hs, hv⟩) (h s (by simp) p.2)
      exact lookup_insert_other _ _ this

theorem fromList_sets {os : Os} {l : List Str} {v x : Str} (h : Spec.Sets (sameVar os) l v x) :
    lookup os (fromList os l) v = some x := by
  obtain ⟨before, s, after, rfl, ha, hl⟩ := h
  unfold fromList
  rw [List.foldl_append, List.foldl_cons, fromList_last os v after _ hl]
  obtain ⟨name, hs, hv⟩ := (assigns_iff os s v x).mp ha
  unfold addEntry
  rw [hs]
  exact lookup_insert_same _ _ hv

/-- **C74.** A variable that no entry of the command assigns a value to has the value it has in the environment of the build. -/
theorem C74_others_kept (os : Os) (build : Env) (entries : List Str) (v : Str)
    (h : ∀ e ∈ entries, ∀ x, ¬Spec.Assigns (sameVar os) e v x) :
    lookup os (mergeEnvironments os build (fromList os entries)) v = lookup os build v := by
  rw [merge_lookup]
  have : lookup os (fromList os entries) v = none := fromList_last os v entries [] h
  rw [this]; rfl

/-- **C74.** A variable the command assigns a value to has this value, unless it is one of the variables with lists of
directories. -/
theorem C74_value_set (os : Os) (build : Env) (entries : List Str) (v x : Str) (h : Spec.Sets (sameVar os) entries v x)
    (hv : ∀ p ∈ ["PATH".toList, "LD_LIBRARY_PATH".toList, "DYLD_LIBRARY_PATH".toList, "DYLD_FRAMEWORK_PATH".toList],
      sameVar os v p = false) :
    lookup os (mergeEnvironments os build (fromList os entries)) v = some x := by
  rw [merge_lookup, fromList_sets h]
  have : (pathListVariables.any fun p => sameVar os v p) = false := by
    rw [List.any_eq_false]
    intro p hp
    rw [hv p hp]; decide
  simp [mergedValue, this, value, fromList_sets h]

theorem directories_append {sep : Char} {a b : Str} {da db : List Str} (ha : Spec.Directories sep a da)
    (hb : Spec.Directories sep b db) : Spec.Directories sep (a ++ sep :: b) (da ++ db) := by
  obtain ⟨pa, ha1, ha2, rfl, rfl⟩ := ha
  obtain ⟨pb, hb1, hb2, rfl, rfl⟩ := hb
  refine ⟨pa ++ pb, ?_, by simp [ha2], ?_, by simp⟩
  · intro p hp
    rcases List.mem_append.mp hp with h | h
    · exact ha1 p h
    · exact hb1 p h
  · clear ha1 hb1
    induction pa with
    | nil => exact absurd rfl ha2
    | cons p ps ih =>
      cases ps with
      | nil =>
        cases pb with
        | nil => exact absurd rfl hb2
        | cons q qs => simp [List.intersperse]
      | cons p' ps =>
        have := ih (by simp)
        simp only [List.cons_append] at this ⊢
        rw [show List.intersperse [sep] (p :: p' :: ps) = p :: [sep] :: List.intersperse [sep] (p' :: ps) from rfl,
          show List.intersperse [sep] (p :: p' :: (ps ++ pb)) = p :: [sep] :: List.intersperse [sep] (p' :: (ps ++ pb)) from rfl]
        simp only [List.flatten_cons, List.append_assoc, List.cons_append, List.nil_append]
        rw [← this]

/-- **C74.** In a variable with a list of directories, the ones given by the command come first and those of the environment of
the build follow. -/
theorem C74_search_order (os : Os) (build : Env) (entries : List Str) (v x y : Str) (h : Spec.Sets (sameVar os) entries v x)
    (hv : ∃ p ∈ ["PATH".toList, "LD_LIBRARY_PATH".toList, "DYLD_LIBRARY_PATH".toList, "DYLD_FRAMEWORK_PATH".toList],
      sameVar os v p = true)
    (hy : lookup os build v = some y) (dx dy : List Str)
    (hdx : Spec.Directories (if os = .windows then ';' else ':') x dx)
    (hdy : Spec.Directories (if os = .windows then ';' else ':') y dy) :
    ∃ z, lookup os (mergeEnvironments os build (fromList os entries)) v = some z ∧
      Spec.Directories (if os = .windows then ';' else ':') z (dx ++ dy) := by
  rw [merge_lookup, fromList_sets h]
  refine ⟨mergedValue os build (fromList os entries) v, rfl, ?_⟩
  have hp : (pathListVariables.any fun p => sameVar os v p) = true := by
    rw [List.any_eq_true]
    obtain ⟨p, hp, hs⟩ := hv
    exact ⟨p, hp, hs⟩
  have hsep : listSeparator os = if os = .windows then ';' else ':' := by cases os <;> rfl
  have h1 : value os (fromList os entries) v = x := by simp [value, fromList_sets h]
  have h2 : value os build v = y := by simp [value, hy]
  unfold mergedValue
  rw [hp, h1, h2]
  rw [← hsep] at hdx hdy ⊢
  by_cases hyn : y = []
  · subst hyn
    have hd : dy = [] := by
      obtain ⟨parts, hpp, hne, ht, rfl⟩ := hdy
      cases parts with
      | nil => rfl
      | cons p ps =>
        cases ps with
        | nil =>
          simp only [List.intersperse, List.flatten_cons, List.flatten_nil, List.append_nil] at ht
          subst ht; rfl
        | cons q qs =>
          rw [show List.intersperse _ (p :: q :: qs) = p :: _ :: List.intersperse _ (q :: qs) from rfl] at ht
          simp at ht
    subst hd
    simpa using hdx
  · rw [if_pos (by simp [hyn])]
    exact directories_append hdx hdy

/-- **C74.** If the environment of the build does not have such a variable, or it is empty there, it gets just the value given
by the command. -/
theorem C74_new_list (os : Os) (build : Env) (entries : List Str) (v x : Str) (h : Spec.Sets (sameVar os) entries v x)
    (hb : lookup os build v = none ∨ lookup os build v = some []) :
    lookup os (mergeEnvironments os build (fromList os entries)) v = some x := by
  rw [merge_lookup, fromList_sets h]
  have h0 : value os build v = [] := by rcases hb with hb | hb <;> simp [value, hb]
  have h1 : value os (fromList os entries) v = x := by simp [value, fromList_sets h]
  simp [mergedValue, h0, h1]

/-- **C74 finding.** A command cannot empty a variable: an entry with an empty value is ignored, so that the process sees the
value of the environment of the build. -/
theorem C74_not_emptied (os : Os) (build : Env) (before : List Str) (v : Str) (hv : '=' ∉ v)
    (h : ∀ e ∈ before, ∀ x, ¬Spec.Assigns (sameVar os) e v x) :
    lookup os (mergeEnvironments os build (fromList os (before ++ [v ++ ['=']]))) v = lookup os build v := by
  refine C74_others_kept os build _ v ?_
  intro e he x
  rcases List.mem_append.mp he with he | he
  · exact h e he x
  · rw [List.mem_singleton] at he
    subst he
    rintro ⟨h1, name, h2, h3, h4, h5⟩
    have e1 := span_eq v [] hv
    have e2 := span_eq name x h3
    rw [h5] at e1
    have := e1.2.symm.trans e2.2
    simp at this
    exact h1 this

end Verif.Command
