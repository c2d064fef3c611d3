import Verif.Common.Sort
/-!
# C41: settings

Model of src/lib/corelib/tools/settings.cpp 105-136, 160-245.

`QSettings` is modelled as a map from keys to values with its documented behaviour: `setValue`
overwrites, `remove` removes the key and everything below it, `clear` removes everything. Its
normalisation of keys (repeated and leading slashes), file errors and other processes writing the
same file are left out. Values are strings, string lists and lists of variants, whose entries are
strings here.
-/
namespace Verif.Settings

open Verif.Common

abbrev Key := List Char

/-- The kinds of `QVariant` that `Settings::value` tells apart. -/
inductive Val where
  | one (s : String)
  | strs (l : List String)
  | vars (l : List String)
deriving DecidableEq, Repr

/-- `QVariant::toStringList`. -/
def Val.toStringList : Val → List String
  | .one s => [s]
  | .strs l => l
  | .vars l => l

/-- `QVariant::toList`: a plain string is no list. -/
def Val.toList : Val → List String
  | .one _ => []
  | .strs l => l
  | .vars l => l

inductive Scope where
  | user | system
deriving DecidableEq, Repr

/-- The two `QSettings` objects and `m_scopeForWriting` (settings.h 100-103). -/
structure St where
  user : List (Key × Val)
  system : List (Key × Val)
  scope : Scope

/-- settings.cpp 229-233 `internalRepresentation`. -/
def internalRepresentation (k : Key) : Key := k.map fun c => if c = '.' then '/' else c

/-- settings.cpp 235-239 `externalRepresentation`. -/
def externalRepresentation (k : Key) : Key := k.map fun c => if c = '/' then '.' else c

/-- `QSettings::value`. -/
def get (m : List (Key × Val)) (k : Key) : Option Val :=
  match m.find? (fun e => e.1 == k) with
  | some e => some e.2
  | none => none

/-- `QSettings::setValue`. -/
def put (m : List (Key × Val)) (k : Key) (v : Val) : List (Key × Val) :=
  (k, v) :: m.filter fun e => !(e.1 == k)

/-- Is `e` the key `k` or below it? -/
def below (k e : Key) : Bool := e == k || (k ++ ['/']).isPrefixOf e

/-- `QSettings::remove`; an empty key means everything. -/
def del (m : List (Key × Val)) (k : Key) : List (Key × Val) :=
  if k = [] then [] else m.filter fun e => !below k e.1

/-- settings.cpp 105-126 `Settings::value`; the two flags are the scopes, `none` is the default
value. -/
def value (s : St) (k : Key) (useUser useSystem : Bool) : Option Val :=
  let userValue := if useUser then get s.user (internalRepresentation k) else none
  let systemValue := if useSystem then get s.system (internalRepresentation k) else none
  match userValue with
  | none => systemValue
  | some u =>
    match systemValue with
    | none => some u
    | some w =>
      match u with
      | .strs _ => some (.strs (u.toStringList ++ w.toStringList))
      | .vars _ => some (.vars (u.toList ++ w.toList))
      | .one _ => some u

/-- settings.cpp 241-247 `fixupKeys`: sorted, duplicates removed, then translated. -/
def fixupKeys (ks : List Key) : List Key :=
  ((isort (fun a b => decide (a ≤ b)) ks).eraseDups).map externalRepresentation

/-- settings.cpp 128-136 `allKeys`. -/
def allKeys (s : St) (useUser useSystem : Bool) : List Key :=
  fixupKeys ((if useUser then s.user.map (·.1) else []) ++
    (if useSystem then s.system.map (·.1) else []))

/-- What the API offers for changing settings (settings.cpp 175-197, settings.h 78). -/
inductive Op where
  | setValue (k : Key) (v : Val)
  | remove (k : Key)
  | clear
  | setScope (s : Scope)

/-- settings.cpp 249-257 `targetForWriting`. -/
def modify (s : St) (f : List (Key × Val) → List (Key × Val)) : St :=
  match s.scope with
  | .user => { s with user := f s.user }
  | .system => { s with system := f s.system }

/-- stringconstants.h 249 and profile.h 76: "profiles." followed by "none". -/
def forbidden : Key := "profiles.none".toList

/-- One call. A rejected `setValue` throws and changes nothing. -/
def apply (s : St) : Op → St
  | .setValue k v =>
    if forbidden.isPrefixOf k then s
    else modify s fun m => put m (internalRepresentation k) v
  | .remove k => modify s fun m => del m (internalRepresentation k)
  | .clear => modify s fun _ => []
  | .setScope sc => { s with scope := sc }

/-! ### Specification: the last write counts -/

/-- The value of `k` in scope `sc` after a history (latest operation first), together with the
scope written to at the end. `k` and the keys of the operations are compared with dots and
slashes identified. -/
def Last (sc : Scope) (k : Key) (v0 : Option Val) (start : Scope) : List Op → Scope × Option Val
  | [] => (start, v0)
  | op :: earlier =>
    let p := Last sc k v0 start earlier
    match op with
    | .setScope s => (s, p.2)
    | .clear => (p.1, if p.1 = sc then none else p.2)
    | .remove k' =>
      (p.1, if p.1 = sc ∧ (internalRepresentation k' = [] ∨
              internalRepresentation k = internalRepresentation k' ∨
              internalRepresentation k' ++ ['/'] <+: internalRepresentation k)
            then none else p.2)
    | .setValue k' v =>
      (p.1, if p.1 = sc ∧ internalRepresentation k = internalRepresentation k' ∧
              ¬ forbidden <+: k' then some v else p.2)

/-! ### Proofs -/

theorem get_put (m : List (Key × Val)) (k k' : Key) (v : Val) :
    get (put m k v) k' = if k' = k then some v else get m k' := by
  unfold get put
  by_cases h : k' = k
  · subst h; simp
  · rw [if_neg h, List.find?_cons_of_neg (by simpa using fun h' => h h'.symm)]
    have : (m.filter fun e => !(e.1 == k)).find? (fun e => e.1 == k')
        = m.find? (fun e => e.1 == k') := by
      rw [List.find?_filter]
      congr 1
      funext e
      by_cases he : e.1 = k'
      · simp [he, h]
      · simp [he]
    rw [this]

theorem get_filter (m : List (Key × Val)) (P : Key → Bool) (k : Key) :
    get (m.filter fun e => P e.1) k = if P k then get m k else none := by
  unfold get
  by_cases h : P k = true
  · rw [if_pos h]
    have : (m.filter fun e => P e.1).find? (fun e => e.1 == k)
        = m.find? (fun e => e.1 == k) := by
      rw [List.find?_filter]
      congr 1
      funext e
      by_cases he : e.1 = k
      · simp [he, h]
      · simp [he]
    rw [this]
  · rw [if_neg h]
    have : (m.filter fun e => P e.1).find? (fun e => e.1 == k) = none := by
      rw [List.find?_eq_none]
      intro e he hk
      simp only [List.mem_filter] at he
      simp only [beq_iff_eq] at hk
      rw [hk] at he
      exact h he.2
    rw [this]

theorem get_del (m : List (Key × Val)) (k k' : Key) :
    get (del m k) k' = if k = [] ∨ k' = k ∨ k ++ ['/'] <+: k' then none else get m k' := by
  unfold del
  by_cases hk : k = []
  · simp [hk, get]
  · rw [if_neg hk, get_filter m (fun x => !below k x) k']
    by_cases hb : k' = k ∨ k ++ ['/'] <+: k'
    · rw [if_pos (Or.inr hb), if_neg]
      intro hn
      have hn' : below k k' = false := by simpa using hn
      unfold below at hn'
      rw [Bool.or_eq_false_iff] at hn'
      rcases hb with hb | hb
      · rw [hb] at hn'; simp at hn'
      · rw [List.isPrefixOf_iff_prefix.2 hb] at hn'; simp at hn'
    · have h1 : (k' == k) = false := by simpa using fun h => hb (Or.inl h)
      have h2 : (k ++ ['/']).isPrefixOf k' = false := by
        cases hp : (k ++ ['/']).isPrefixOf k' with
        | false => rfl
        | true => exact absurd (Or.inr (List.isPrefixOf_iff_prefix.1 hp)) hb
      have h3 : below k k' = false := by
        unfold below
        rw [Bool.or_eq_false_iff]
        exact ⟨h1, h2⟩
      have h4 : ¬ (k = [] ∨ k' = k ∨ k ++ ['/'] <+: k') := fun h => h.elim hk hb
      rw [if_neg h4, h3]
      rfl

/-- The store of a scope. -/
def St.of (s : St) : Scope → List (Key × Val)
  | .user => s.user
  | .system => s.system

theorem of_modify (s : St) (f : List (Key × Val) → List (Key × Val)) (sc : Scope) :
    (modify s f).of sc = (if s.scope = sc then f (s.of sc) else s.of sc) ∧
    (modify s f).scope = s.scope := by
  obtain ⟨u, y, w⟩ := s
  cases w <;> cases sc <;> simp [modify, St.of]

theorem last_correct (s : St) (k : Key) (sc : Scope) : ∀ (hist : List Op),
    Last sc k (get (s.of sc) (internalRepresentation k)) s.scope hist
      = ((hist.reverse.foldl apply s).scope,
         get ((hist.reverse.foldl apply s).of sc) (internalRepresentation k)) := by
  intro hist
  induction hist with
  | nil => rfl
  | cons op hist ih =>
    rw [List.reverse_cons, List.foldl_append, List.foldl_cons, List.foldl_nil]
    generalize hist.reverse.foldl apply s = t at ih
    simp only [Last, ih]
    cases op with
    | setScope x => cases sc <;> rfl
    | clear =>
      simp only [apply, (of_modify t (fun _ => []) sc).1, (of_modify t (fun _ => []) sc).2]
      by_cases h : t.scope = sc
      · rw [if_pos h, if_pos h]; rfl
      · rw [if_neg h, if_neg h]
    | remove k' =>
      have hm := of_modify t (fun m => del m (internalRepresentation k')) sc
      simp only [apply, hm.1, hm.2]
      by_cases h : t.scope = sc
      · rw [if_pos h, get_del]
        simp only [h, true_and]
      · rw [if_neg h, if_neg (by simp [h])]
    | setValue k' v =>
      by_cases hf : forbidden.isPrefixOf k' = true
      · have hf' : forbidden <+: k' := List.isPrefixOf_iff_prefix.1 hf
        simp only [apply, if_pos hf]
        rw [if_neg (by simp [hf'])]
      · have hf' : ¬ forbidden <+: k' := fun h => hf (List.isPrefixOf_iff_prefix.2 h)
        have hm := of_modify t (fun m => put m (internalRepresentation k') v) sc
        simp only [apply, if_neg hf, hm.1, hm.2]
        by_cases h : t.scope = sc
        · rw [if_pos h, get_put]
          simp [h, hf']
        · rw [if_neg h, if_neg (by simp [h])]

/-- **C41 (last write).** After any history of changes, reading a key from one scope gives the
value written last to that scope and not removed since. `hist` lists the latest change first. -/
theorem C41_reads_last_write (s : St) (hist : List Op) (k : Key) :
    value (hist.reverse.foldl apply s) k true false
      = (Last .user k (value s k true false) s.scope hist).2 ∧
    value (hist.reverse.foldl apply s) k false true
      = (Last .system k (value s k false true) s.scope hist).2 := by
  have huser : ∀ t : St, value t k true false = get t.user (internalRepresentation k) := by
    intro t
    unfold value
    cases h : get t.user (internalRepresentation k) <;> simp [h]
  have hsys : ∀ t : St, value t k false true = get t.system (internalRepresentation k) := by
    intro t; simp [value]
  rw [huser, huser, hsys, hsys]
  have h1 := last_correct s k .user hist
  have h2 := last_correct s k .system hist
  simp only [St.of] at h1 h2
  rw [h1, h2]
  exact ⟨rfl, rfl⟩

/-- **C41 (both scopes).** Reading from both scopes: the value of the only scope that has one;
if both have one, the user's, except that lists are concatenated, the user's entries first. -/
theorem C41_scopes_merge (s : St) (k : Key) :
    (∀ w, value s k true false = none → value s k false true = w → value s k true true = w) ∧
    (∀ u, value s k true false = some u → value s k false true = none →
      value s k true true = some u) ∧
    (∀ x w, value s k true false = some (.one x) → value s k false true = some w →
      value s k true true = some (.one x)) ∧
    (∀ l l', value s k true false = some (.strs l) → value s k false true = some (.strs l') →
      value s k true true = some (.strs (l ++ l'))) ∧
    (∀ l x, value s k true false = some (.strs l) → value s k false true = some (.one x) →
      value s k true true = some (.strs (l ++ [x]))) ∧
    (∀ l l', value s k true false = some (.vars l) → value s k false true = some (.vars l') →
      value s k true true = some (.vars (l ++ l'))) := by
  have huser : ∀ t : St, value t k true false = get t.user (internalRepresentation k) := by
    intro t
    unfold value
    cases h : get t.user (internalRepresentation k) <;> simp [h]
  have hsys : ∀ t : St, value t k false true = get t.system (internalRepresentation k) := by
    intro t; simp [value]
  rw [huser, hsys]
  refine ⟨?_, ?_, ?_, ?_, ?_, ?_⟩
  · intro w h1 h2; simp [value, h1, h2]
  · intro u h1 h2; simp [value, h1, h2]
  · intro x w h1 h2; simp [value, h1, h2]
  · intro l l' h1 h2; simp [value, h1, h2, Val.toStringList]
  · intro l l' h1 h2; simp [value, h1, h2, Val.toStringList]
  · intro l l' h1 h2; simp [value, h1, h2, Val.toList]

/-! ### Listing the keys -/

/-- No stored key contains a dot. -/
def NoDots (s : St) : Prop := ∀ e ∈ s.user ++ s.system, '.' ∉ e.1

theorem internal_noDot (k : Key) : '.' ∉ internalRepresentation k := by
  intro h
  obtain ⟨c, _, hc⟩ := List.mem_map.1 h
  by_cases h' : c = '.'
  · rw [if_pos h'] at hc; revert hc; decide
  · rw [if_neg h'] at hc; exact h' hc

theorem external_internal (k : Key) (h : '.' ∉ k) :
    internalRepresentation (externalRepresentation k) = k := by
  unfold internalRepresentation externalRepresentation
  rw [List.map_map]
  conv => rhs; rw [← List.map_id k]
  apply List.map_congr_left
  intro c hc
  have hne : c ≠ '.' := by rintro rfl; exact h hc
  simp only [Function.comp, id]
  by_cases hs : c = '/'
  · subst hs; rfl
  · rw [if_neg hs, if_neg hne]

theorem nodup_eraseDups : ∀ (n : Nat) (l : List Key), l.length ≤ n → l.eraseDups.Nodup := by
  intro n
  induction n with
  | zero =>
    intro l hl
    have : l = [] := by simpa using hl
    subst this; simp
  | succ n ih =>
    intro l hl
    cases l with
    | nil => simp
    | cons a l =>
      rw [List.eraseDups_cons, List.nodup_cons]
      refine ⟨?_, ih _ ?_⟩
      · rw [List.mem_eraseDups]; simp
      · have := List.length_filter_le (fun b => !b == a) l
        simp only [List.length_cons] at hl
        omega

theorem get_some_iff (m : List (Key × Val)) (k : Key) :
    get m k ≠ none ↔ k ∈ m.map (·.1) := by
  unfold get
  cases hf : m.find? (fun e => e.1 == k) with
  | none =>
    simp only [ne_eq, not_true, false_iff]
    intro h
    obtain ⟨e, he, rfl⟩ := List.mem_map.1 h
    have := List.find?_eq_none.1 hf e he
    simp at this
  | some e =>
    have h1 := List.find?_some hf
    have h2 := List.mem_of_find?_eq_some hf
    simp only [beq_iff_eq] at h1
    simp only [ne_eq, reduceCtorEq, not_false_eq_true, true_iff]
    exact List.mem_map.2 ⟨e, h2, h1⟩

theorem mem_put (m : List (Key × Val)) (k : Key) (v : Val) (e : Key × Val)
    (h : e ∈ put m k v) : e.1 = k ∨ e ∈ m := by
  unfold put at h
  rcases List.mem_cons.1 h with h | h
  · left; rw [h]
  · exact Or.inr (List.mem_filter.1 h).1

theorem noDots_apply (s : St) (op : Op) (h : NoDots s) : NoDots (apply s op) := by
  have hmod : ∀ f : List (Key × Val) → List (Key × Val),
      (∀ m, (∀ e ∈ m, '.' ∉ e.1) → ∀ e ∈ f m, '.' ∉ e.1) → NoDots (modify s f) := by
    intro f hf
    obtain ⟨u, y, w⟩ := s
    have hu : ∀ e ∈ u, '.' ∉ e.1 := fun e he => h e (by simp [he])
    have hy : ∀ e ∈ y, '.' ∉ e.1 := fun e he => h e (by simp [he])
    intro e he
    cases w <;> simp only [modify, List.mem_append] at he
    · rcases he with he | he
      · exact hf u hu e he
      · exact hy e he
    · rcases he with he | he
      · exact hu e he
      · exact hf y hy e he
  cases op with
  | setScope x => exact h
  | clear => exact hmod _ (fun m _ e he => by cases he)
  | remove k =>
    refine hmod _ (fun m hm e he => ?_)
    unfold del at he
    split at he
    · cases he
    · exact hm e (List.mem_filter.1 he).1
  | setValue k v =>
    simp only [apply]
    split
    · exact h
    · refine hmod _ (fun m hm e he => ?_)
      rcases mem_put m _ v e he with he | he
      · rw [he]; exact internal_noDot k
      · exact hm e he

/-- **C41 (keys).** If no key in the files contains a dot to begin with, then after any history
`allKeys` lists exactly the keys that have a value in the given scopes, each of them once. -/
theorem C41_all_keys_partial (s : St) (h : NoDots s) (hist : List Op) (u y : Bool) :
    let t := hist.foldl apply s
    (allKeys t u y).Nodup ∧
    (∀ k ∈ allKeys t u y, value t k u y ≠ none) ∧
    (∀ k, '/' ∉ k → value t k u y ≠ none → k ∈ allKeys t u y) := by
  intro t
  have ht : NoDots t := by
    have : ∀ (hist : List Op) (s : St), NoDots s → NoDots (hist.foldl apply s) := by
      intro hist
      induction hist with
      | nil => intro s hs; exact hs
      | cons op hist ih => intro s hs; exact ih _ (noDots_apply s op hs)
    exact this hist s h
  -- the keys before the translation
  have hmem : ∀ x, x ∈ ((isort (fun a b => decide (a ≤ b)) ((if u then t.user.map (·.1) else []) ++
      (if y then t.system.map (·.1) else []))).eraseDups) ↔
      (u = true ∧ x ∈ t.user.map (·.1)) ∨ (y = true ∧ x ∈ t.system.map (·.1)) := by
    intro x
    rw [List.mem_eraseDups, mem_isort, List.mem_append]
    cases u <;> cases y <;> simp
  have hdots : ∀ x, ((u = true ∧ x ∈ t.user.map (·.1)) ∨ (y = true ∧ x ∈ t.system.map (·.1))) →
      '.' ∉ x := by
    intro x hx
    rcases hx with ⟨_, hx⟩ | ⟨_, hx⟩
    · obtain ⟨e, he, rfl⟩ := List.mem_map.1 hx; exact ht e (by simp [he])
    · obtain ⟨e, he, rfl⟩ := List.mem_map.1 hx; exact ht e (by simp [he])
  have hval : ∀ k, value t k u y ≠ none ↔
      (u = true ∧ internalRepresentation k ∈ t.user.map (·.1)) ∨
      (y = true ∧ internalRepresentation k ∈ t.system.map (·.1)) := by
    intro k
    rw [← get_some_iff, ← get_some_iff]
    unfold value
    cases u <;> cases y <;> cases hu : get t.user (internalRepresentation k) <;>
      cases hy : get t.system (internalRepresentation k) <;> simp
    all_goals (rename_i v w; cases v <;> simp)
  unfold allKeys fixupKeys
  refine ⟨?_, ?_, ?_⟩
  · have aux : ∀ l : List Key, (∀ x ∈ l, '.' ∉ x) → l.Nodup →
        (l.map externalRepresentation).Nodup := by
      intro l
      induction l with
      | nil => intro _ _; simp
      | cons a l ih =>
        intro hd hn
        rw [List.nodup_cons] at hn
        rw [List.map_cons, List.nodup_cons]
        refine ⟨?_, ih (fun x hx => hd x (by simp [hx])) hn.2⟩
        intro hm
        obtain ⟨b, hb, he⟩ := List.mem_map.1 hm
        have h1 := external_internal a (hd a (by simp))
        have h2 := external_internal b (hd b (by simp [hb]))
        rw [← he, h2] at h1
        rw [h1] at hb
        exact hn.1 hb
    exact aux _ (fun x hx => hdots x ((hmem x).1 hx)) (nodup_eraseDups _ _ (Nat.le_refl _))
  · intro k hk
    obtain ⟨x, hx, rfl⟩ := List.mem_map.1 hk
    have hx' := (hmem x).1 hx
    rw [hval, external_internal x (hdots x hx')]
    exact hx'
  · intro k hs hv
    rw [hval] at hv
    refine List.mem_map.2 ⟨internalRepresentation k, (hmem _).2 hv, ?_⟩
    unfold internalRepresentation externalRepresentation
    rw [List.map_map]
    conv => rhs; rw [← List.map_id k]
    apply List.map_congr_left
    intro c hc
    have hne : c ≠ '/' := by rintro rfl; exact hs hc
    simp only [Function.comp, id]
    by_cases hd : c = '.'
    · subst hd; rfl
    · rw [if_neg hd, if_neg hne]

/-! ### Examples and findings -/

def exS : St := { user := [], system := [("a/b".toList, .strs ["s"])], scope := .user }

def exHist : List Op :=
  [.setValue "a.b".toList (.strs ["u"]), .setValue "c".toList (.one "x"), .setScope .system,
   .setValue "d.e".toList (.one "y"), .remove "d".toList]

example : NoDots exS := by unfold NoDots; decide
example : value (exHist.foldl apply exS) "a.b".toList true true = some (.strs ["u", "s"]) := by
  decide +kernel
example : allKeys (exHist.foldl apply exS) true true = ["a.b".toList, "c".toList] := by
  decide +kernel

/-- **C41 (finding).** Duplicates are removed before the keys are translated, so a key written
with a dot by hand into one of the files is listed twice. -/
theorem C41_key_listed_twice :
    ∃ s, allKeys s true true = ["a.b".toList, "a.b".toList] :=
  ⟨{ user := [("a.b".toList, .one "1")], system := [("a/b".toList, .one "2")], scope := .user },
    by decide +kernel⟩

/-- **C41 (finding).** Only the profile named `none` is meant to be protected, but writing to any
profile whose name begins with "none" is rejected. -/
theorem C41_innocent_profile_rejected (s : St) (v : Val) :
    apply s (.setValue "profiles.nonesuch.qbs.architecture".toList v) = s := by
  have h : forbidden.isPrefixOf "profiles.nonesuch.qbs.architecture".toList = true := by
    decide +kernel
  simp only [apply, h, if_true]

end Verif.Settings
