import Verif.Config.Lem1
/-!
# C109: stores
-/
namespace Verif.Config

open Verif.Literal (Str Var)
open Verif.Settings (internalRepresentation externalRepresentation forbidden)
open Verif.Common (isort mem_isort)

/-! ### Single operations -/

theorem get_put (m : Store) (k k' : Str) (v : SVal) (hk : normalizedKey k ≠ []) :
    get (put m k v) k' = if k' = normalizedKey k then some v else get m k' := by
  unfold get put
  rw [if_neg hk]
  by_cases h : k' = normalizedKey k
  · subst h; simp
  · rw [if_neg h, List.find?_cons_of_neg (by simpa using fun h' => h h'.symm)]
    have : (m.filter fun e => !(e.1 == normalizedKey k)).find? (fun e => e.1 == k')
        = m.find? (fun e => e.1 == k') := by
      rw [List.find?_filter]
      congr 1
      funext e
      by_cases he : e.1 = k'
      · simp [he, h]
      · simp [he]
    rw [this]

theorem get_none_iff (m : Store) (k : Str) : get m k = none ↔ k ∉ m.map (·.1) := by
  unfold get
  rw [Option.map_eq_none_iff, List.find?_eq_none]
  constructor
  · intro h hm
    obtain ⟨e, he, rfl⟩ := List.mem_map.1 hm
    exact h e he (by simp)
  · intro h e he hk
    simp only [beq_iff_eq] at hk
    exact h (List.mem_map.2 ⟨e, he, hk⟩)

theorem get_mem {m : Store} {k : Str} {v : SVal} (h : get m k = some v) : (k, v) ∈ m := by
  unfold get at h
  rw [Option.map_eq_some_iff] at h
  obtain ⟨e, he, hv⟩ := h
  have h1 := List.find?_some he
  have h2 := List.mem_of_find?_eq_some he
  simp only [beq_iff_eq] at h1
  rw [← h1, ← hv]
  exact h2

theorem get_of_mem {m : Store} (hn : (m.map (·.1)).Nodup) {k : Str} {v : SVal} (h : (k, v) ∈ m) :
    get m k = some v := by
  induction m with
  | nil => cases h
  | cons e m ih =>
    rw [List.map_cons, List.nodup_cons] at hn
    rcases List.mem_cons.1 h with rfl | h
    · simp [get]
    · have hne : e.1 ≠ k := by
        intro he
        exact hn.1 (by rw [he]; exact List.mem_map.2 ⟨_, h, rfl⟩)
      have := ih hn.2 h
      unfold get at this ⊢
      rw [List.find?_cons_of_neg (by simpa using hne)]
      exact this

theorem internal_external {k : Str} (h : '.' ∉ k) :
    internalRepresentation (externalRepresentation k) = k := Settings.external_internal k h

theorem external_inj {k k' : Str} (h : '.' ∉ k) (h' : '.' ∉ k')
    (he : externalRepresentation k = externalRepresentation k') : k = k' := by
  rw [← internal_external h, ← internal_external h', he]

/-! ### Normalised keys -/

theorem parts_no_slash : ∀ (k : Str), ∀ p ∈ parts k, '/' ∉ p := by
  intro k
  induction k with
  | nil => intro p hp; simp [parts] at hp; simp [hp]
  | cons c k ih =>
    intro p hp
    unfold parts at hp
    split at hp
    · rcases List.mem_cons.1 hp with rfl | hp
      · simp
      · exact ih p hp
    · rename_i hc
      cases hk : parts k with
      | nil =>
        rw [hk] at hp
        simp only [List.mem_singleton] at hp
        subst hp
        simpa using fun e => hc e.symm
      | cons q l =>
        rw [hk] at hp ih
        rcases List.mem_cons.1 hp with rfl | hp
        · have := ih q (by simp)
          simp only [List.mem_cons, not_or]
          exact ⟨fun e => hc e.symm, this⟩
        · exact ih p (by simp [hp])

theorem join_head : ∀ (l : List Str), (∀ p ∈ l, '/' ∉ p ∧ p ≠ []) → (join l).head? ≠ some '/' := by
  intro l h
  cases l with
  | nil => simp [join]
  | cons p l =>
    have hp := h p (by simp)
    obtain ⟨c, r, rfl⟩ := List.exists_cons_of_ne_nil hp.2
    have hc : c ≠ '/' := fun e => hp.1 (by rw [e]; simp)
    cases l with
    | nil => simpa [join] using hc
    | cons q l => simpa [join] using hc

theorem normal_head {k : Str} (h : normalizedKey k = k) : k.head? ≠ some '/' := by
  rw [← h]
  apply join_head
  intro p hp
  rw [List.mem_filter] at hp
  exact ⟨parts_no_slash k p hp.1, by simpa using hp.2⟩

theorem parts_ne_nil (k : Str) : parts k ≠ [] := by
  cases k with
  | nil => simp [parts]
  | cons c k =>
    unfold parts
    split
    · simp
    · split <;> simp

theorem parts_append (a b : Str) : parts (a ++ '/' :: b) = parts a ++ parts b := by
  induction a with
  | nil => simp [parts]
  | cons c a ih =>
    rw [List.cons_append, parts, parts]
    by_cases hc : c = '/'
    · rw [if_pos hc, if_pos hc, ih]; rfl
    · rw [if_neg hc, if_neg hc, ih]
      cases hp : parts a with
      | nil => exact absurd hp (parts_ne_nil a)
      | cons p l => rfl

theorem parts_single {p : Str} (h : '/' ∉ p) : parts p = [p] := by
  induction p with
  | nil => rfl
  | cons c p ih =>
    have hc : c ≠ '/' := fun e => h (by rw [e]; simp)
    rw [parts, if_neg hc, ih (fun e => h (by simp [e]))]

theorem parts_join : ∀ (l : List Str), l ≠ [] → (∀ p ∈ l, '/' ∉ p) → parts (join l) = l
  | [], h, _ => absurd rfl h
  | [p], _, h => by rw [join]; exact parts_single (h p (by simp))
  | p :: q :: l, _, h => by
    rw [join, parts_append, parts_single (h p (by simp)),
      parts_join (q :: l) (by simp) (fun x hx => h x (by simp [hx]))]
    · rfl
    · simp

theorem normalizedKey_idem (k : Str) : normalizedKey (normalizedKey k) = normalizedKey k := by
  unfold normalizedKey
  by_cases h : (parts k).filter (· ≠ []) = []
  · rw [h]; rfl
  · rw [parts_join _ h]
    · rw [List.filter_filter]
      simp
    · intro p hp
      exact parts_no_slash k p (List.mem_filter.1 hp).1

theorem mem_parts : ∀ (k p : Str) (c : Char), p ∈ parts k → c ∈ p → c ∈ k := by
  intro k
  induction k with
  | nil =>
    intro p c hp hc
    simp only [parts, List.mem_singleton] at hp
    subst hp
    cases hc
  | cons x k ih =>
    intro p c hp hc
    unfold parts at hp
    split at hp
    · rcases List.mem_cons.1 hp with rfl | hp
      · cases hc
      · exact List.mem_cons_of_mem _ (ih p c hp hc)
    · cases hk : parts k with
      | nil => exact absurd hk (parts_ne_nil k)
      | cons q l =>
        rw [hk] at hp
        rcases List.mem_cons.1 hp with rfl | hp
        · rcases List.mem_cons.1 hc with rfl | hc
          · simp
          · exact List.mem_cons_of_mem _ (ih q c (by rw [hk]; simp) hc)
        · exact List.mem_cons_of_mem _ (ih p c (by rw [hk]; simp [hp]) hc)

theorem mem_join : ∀ (l : List Str) (c : Char), c ∈ join l → c = '/' ∨ ∃ p ∈ l, c ∈ p
  | [], c, h => by cases h
  | [p], c, h => Or.inr ⟨p, by simp, h⟩
  | p :: q :: l, c, h => by
    rw [join] at h
    · rcases List.mem_append.1 h with h | h
      · exact Or.inr ⟨p, by simp, h⟩
      · rcases List.mem_cons.1 h with h | h
        · exact Or.inl h
        · rcases mem_join (q :: l) c h with h | ⟨x, hx, hc⟩
          · exact Or.inl h
          · exact Or.inr ⟨x, by simp only [List.mem_cons] at hx ⊢; exact Or.inr hx, hc⟩
    · simp

theorem normalizedKey_noDot {k : Str} (h : '.' ∉ k) : '.' ∉ normalizedKey k := by
  intro hm
  rcases mem_join _ _ hm with hc | ⟨p, hp, hc⟩
  · revert hc; decide
  · exact h (mem_parts k p '.' (List.mem_filter.1 hp).1 hc)


theorem join_parts : ∀ (k : Str), join (parts k) = k := by
  intro k
  induction k with
  | nil => rfl
  | cons c k ih =>
    unfold parts
    cases hk : parts k with
    | nil => exact absurd hk (parts_ne_nil k)
    | cons p l =>
      rw [hk] at ih
      split
      · rename_i hc
        subst hc
        rw [join, ih]
        · rfl
        · simp
      · cases l with
        | nil => simp only [join] at ih ⊢; rw [ih]
        | cons q l =>
          rw [join] at ih ⊢
          · rw [List.cons_append, ih]
          · simp
          · simp

/-- A key is normalised if and only if it has no empty parts. -/
theorem normal_iff {k : Str} (hk : k ≠ []) : normalizedKey k = k ↔ ∀ p ∈ parts k, p ≠ [] := by
  constructor
  · intro h p hp
    by_cases hf : (parts k).filter (· ≠ []) = []
    · unfold normalizedKey at h
      rw [hf] at h
      exact absurd h.symm hk
    · have h1 : parts k = (parts k).filter (· ≠ []) := by
        conv => lhs; rw [← h]
        unfold normalizedKey
        exact parts_join _ hf (fun q hq => parts_no_slash k q (List.mem_filter.1 hq).1)
      rw [h1] at hp
      simpa using (List.mem_filter.1 hp).2
  · intro h
    unfold normalizedKey
    rw [List.filter_eq_self.2 (fun p hp => by simpa using h p hp), join_parts]

theorem normal_append {a b : Str} : (∀ p ∈ parts (a ++ '/' :: b), p ≠ []) ↔
    (∀ p ∈ parts a, p ≠ []) ∧ (∀ p ∈ parts b, p ≠ []) := by
  rw [parts_append]
  constructor
  · exact fun h => ⟨fun p hp => h p (by simp [hp]), fun p hp => h p (by simp [hp])⟩
  · intro h p hp
    rcases List.mem_append.1 hp with hp | hp
    · exact h.1 p hp
    · exact h.2 p hp

theorem fileKey_external {x : Str} (hd : '.' ∉ x) (hn : normalizedKey x = x) :
    fileKey (externalRepresentation x) = x := by
  unfold fileKey
  rw [internal_external hd, hn]

/-! ### Setting several values -/

/-- Keys that can be set. -/
def Settable (k : Str) : Prop :=
  ¬ forbidden <+: k ∧ normalizedKey (internalRepresentation k) ≠ []

theorem setValue_ok (m : Store) (k : Str) (v : SVal) (h : Settable k) :
    setValue m k v = some (put m (internalRepresentation k) v) := by
  unfold setValue
  rw [if_neg]
  intro hp
  exact h.1 (List.isPrefixOf_iff_prefix.1 hp)

theorem setValues_ok : ∀ (l : List (Str × SVal)) (m : Store), (∀ e ∈ l, Settable e.1) →
    (setValues m l).2 = true := by
  intro l
  induction l with
  | nil => intro m _; rfl
  | cons e l ih =>
    intro m h
    obtain ⟨k, v⟩ := e
    rw [setValues, setValue_ok m k v (h (k, v) (by simp))]
    exact ih _ (fun e he => h e (by simp [he]))

theorem setValues_other : ∀ (l : List (Str × SVal)) (m : Store) (k : Str), (∀ e ∈ l, Settable e.1) →
    (∀ e ∈ l, fileKey e.1 ≠ k) → get (setValues m l).1 k = get m k := by
  intro l
  induction l with
  | nil => intro m k _ _; rfl
  | cons e l ih =>
    intro m k h hk
    obtain ⟨k', v⟩ := e
    rw [setValues, setValue_ok m k' v (h (k', v) (by simp))]
    rw [ih _ k (fun e he => h e (by simp [he])) (fun e he => hk e (by simp [he]))]
    rw [get_put m _ _ v (h (k', v) (by simp)).2, if_neg]
    exact fun hh => hk (k', v) (by simp) hh.symm

theorem setValues_get : ∀ (l : List (Str × SVal)) (m : Store) (k : Str) (v : SVal),
    (∀ e ∈ l, Settable e.1) → (∀ e ∈ l, ∀ e' ∈ l, fileKey e.1 = fileKey e'.1 → e.2 = e'.2) →
    (k, v) ∈ l → get (setValues m l).1 (fileKey k) = some v := by
  intro l
  induction l with
  | nil => intro m k v _ _ h; cases h
  | cons e l ih =>
    intro m k v h hf hm
    obtain ⟨k', v'⟩ := e
    rw [setValues, setValue_ok m k' v' (h (k', v') (by simp))]
    by_cases hin : ∃ e ∈ l, fileKey e.1 = fileKey k
    · obtain ⟨e, he, hek⟩ := hin
      have h1 := ih (put m (internalRepresentation k') v') e.1 e.2 (fun e he => h e (by simp [he]))
        (fun a ha b hb => hf a (by simp [ha]) b (by simp [hb])) he
      have h2 : e.2 = v := hf e (by simp [he]) (k, v) hm hek
      rw [hek, h2] at h1
      exact h1
    · have hne : ∀ e ∈ l, fileKey e.1 ≠ fileKey k := fun e he hek => hin ⟨e, he, hek⟩
      show get (setValues (put m (internalRepresentation k') v') l).1 (fileKey k) = some v
      rw [setValues_other l _ _ (fun e he => h e (by simp [he])) hne]
      rcases List.mem_cons.1 hm with heq | hm
      · injection heq with e1 e2
        subst e1; subst e2
        rw [get_put m _ _ v (h (k, v) (by simp)).2]
        exact if_pos rfl
      · exact absurd rfl (hne (k, v) hm)

/-! ### Keys -/

/-- The keys of the chosen scopes. -/
def keysOf (s : St) (o : Scopes) : List Str :=
  (if o.hasUser then s.user.map (·.1) else []) ++ (if o.hasSystem then s.system.map (·.1) else [])

theorem mem_fixupKeys (ks : List Str) (k : Str) :
    k ∈ fixupKeys ks ↔ ∃ x ∈ ks, externalRepresentation x = k := by
  unfold fixupKeys
  rw [List.mem_map]
  constructor
  · rintro ⟨x, hx, rfl⟩
    rw [List.mem_eraseDups, mem_isort] at hx
    exact ⟨x, hx, rfl⟩
  · rintro ⟨x, hx, rfl⟩
    exact ⟨x, by rw [List.mem_eraseDups, mem_isort]; exact hx, rfl⟩

theorem mem_allKeys (s : St) (o : Scopes) (k : Str) :
    k ∈ allKeys s o ↔ ∃ x ∈ keysOf s o, externalRepresentation x = k := mem_fixupKeys _ k

theorem value_isSome (s : St) (o : Scopes) (k : Str) :
    value s k o ≠ none ↔ fileKey k ∈ keysOf s o := by
  have hget : ∀ m : Store, get m (fileKey k) ≠ none ↔
      fileKey k ∈ m.map (·.1) := by
    intro m
    rw [ne_eq, get_none_iff, Classical.not_not]
  unfold keysOf value
  rw [List.mem_append]
  cases o <;> simp only [Scopes.hasUser, Scopes.hasSystem, if_true, Bool.false_eq_true, if_false] <;>
    rw [← hget] <;> try rw [← hget]
  · cases hu : get s.user (fileKey k) <;> cases hy : get s.system (fileKey k) <;>
      simp
    rename_i a b
    cases a with
    | plain v => cases v <;> simp
    | hash v => simp
  · cases hu : get s.user (fileKey k) <;> simp
  · cases hy : get s.system (fileKey k) <;> simp

/-- Both stores are tidy. -/
def AllTidy (s : St) : Prop := Tidy s.user ∧ Tidy s.system

theorem keysOf_tidy {s : St} (h : AllTidy s) {o : Scopes} {k : Str} (hk : k ∈ keysOf s o) :
    normalizedKey k = k ∧ k ≠ [] ∧ '.' ∉ k := by
  unfold keysOf at hk
  rcases List.mem_append.1 hk with hk | hk
  · split at hk
    · obtain ⟨e, he, rfl⟩ := List.mem_map.1 hk
      exact ⟨(h.1.normal e he).1, (h.1.normal e he).2, h.1.noDots e he⟩
    · cases hk
  · split at hk
    · obtain ⟨e, he, rfl⟩ := List.mem_map.1 hk
      exact ⟨(h.2.normal e he).1, (h.2.normal e he).2, h.2.noDots e he⟩
    · cases hk

theorem target_keys (s : St) (o : Scopes) (e : Str × SVal) (he : e ∈ target s o) : e.1 ∈ keysOf s o := by
  unfold keysOf
  rw [List.mem_append]
  cases o <;> simp only [target] at he <;> simp only [Scopes.hasUser, Scopes.hasSystem, if_true]
  · exact Or.inl (List.mem_map.2 ⟨e, he, rfl⟩)
  · exact Or.inl (List.mem_map.2 ⟨e, he, rfl⟩)
  · exact Or.inr (List.mem_map.2 ⟨e, he, rfl⟩)

/-! ### Removing everything -/

theorem mem_del {m : Store} {k : Str} {e : Str × SVal} (h : e ∈ del m k) : e ∈ m ∧ e.1 ≠ normalizedKey k := by
  unfold del at h
  split at h
  · cases h
  · rw [List.mem_filter] at h
    refine ⟨h.1, ?_⟩
    intro he
    have := h.2
    simp [below, he] at this

theorem mem_foldl_remove : ∀ (ks : List Str) (m : Store) (e : Str × SVal), e ∈ ks.foldl remove m →
    e ∈ m ∧ ∀ k ∈ ks, e.1 ≠ fileKey k := by
  intro ks
  induction ks with
  | nil => intro m e h; exact ⟨h, by simp⟩
  | cons k ks ih =>
    intro m e h
    rw [List.foldl_cons] at h
    obtain ⟨h1, h2⟩ := ih _ e h
    have h3 := mem_del h1
    refine ⟨h3.1, ?_⟩
    intro k' hk'
    rcases List.mem_cons.1 hk' with rfl | hk'
    · exact h3.2
    · exact h2 k' hk'

theorem cleared_nil {s : St} (h : AllTidy s) (o : Scopes) : cleared s o = [] := by
  cases hc : cleared s o with
  | nil => rfl
  | cons e l =>
    exfalso
    have he : e ∈ cleared s o := by rw [hc]; simp
    obtain ⟨h1, h2⟩ := mem_foldl_remove _ _ e he
    have hk := target_keys s o e h1
    have ht := keysOf_tidy h hk
    have := h2 (externalRepresentation e.1) ((mem_allKeys s o _).2 ⟨e.1, hk, rfl⟩)
    unfold fileKey at this
    rw [internal_external ht.2.2, ht.1] at this
    exact this rfl

theorem target_setTarget (s : St) (m : Store) (o : Scopes) : target (setTarget s m o) o = m := by
  cases o <;> rfl

theorem other_setTarget (s : St) (m : Store) (o : Scopes) : other (setTarget s m o) o = other s o := by
  cases o <;> rfl

/-! ### The text -/

theorem readLines_export (s : St) (o : Scopes) : ∀ (ks : List Str),
    (∀ k ∈ ks, KeyOk k ∧ ∃ v, value s k o = some v ∧ ValOk v) →
    (readLines (ks.flatMap (line s o))).filterMap readLine
      = ks.filterMap (fun k => (value s k o).map (fun v => (k, v))) := by
  intro ks
  induction ks with
  | nil => intro _; rfl
  | cons k ks ih =>
    intro h
    obtain ⟨hk, v, hv, hok⟩ := h k (by simp)
    rw [List.flatMap_cons]
    have hl : line s o k = (k ++ ": ".toList ++ settingsValueToRepresentation v) ++ ['\n'] := by
      unfold line; rw [hv]
    have hb : '\n' ∉ k ++ ": ".toList ++ settingsValueToRepresentation v := by
      have h1 := hk.oneLine
      have h2 := lit_no_break _ (good_of_ok hok).1
      simp [settingsValueToRepresentation, h1, h2]
    rw [hl, List.append_assoc, List.singleton_append, readLines_line _ _ hb,
      List.filterMap_cons_some (readLine_of k v hk hok), ih (fun x hx => h x (by simp [hx])),
      List.filterMap_cons_some (b := (k, v)) (by rw [hv]; rfl)]

end Verif.Config
