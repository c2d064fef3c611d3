import Verif.Config.Lem4
/-!
# C109, C110: `qbs config`
-/
namespace Verif.Config

open Verif.Literal (Str Var)
open Verif.Settings (internalRepresentation externalRepresentation forbidden)

/-- The scope that is written (`--user` unless `--system` is given). -/
def Scopes.written : Scopes → Scopes
  | .system => .system
  | _ => .user

theorem value_written (s : St) (o : Scopes) (k : Str) :
    value s k o.written = get (target s o) (fileKey k) := by
  cases o <;> simp only [Scopes.written, value, target, Scopes.hasUser, Scopes.hasSystem, if_true,
    Bool.false_eq_true, if_false]
  · cases get s.user (fileKey k) <;> rfl
  · cases get s.user (fileKey k) <;> rfl

theorem settable_key {s : St} (hs : AllTidy s) {o : Scopes} {x : Str} (hx : x ∈ keysOf s o)
    (ha : ¬ forbidden <+: externalRepresentation x) :
    Settable (externalRepresentation x) ∧ fileKey (externalRepresentation x) = x := by
  have h := keysOf_tidy hs hx
  have hf : fileKey (externalRepresentation x) = x := by
    unfold fileKey
    rw [internal_external h.2.2, h.1]
  exact ⟨⟨ha, by show fileKey _ ≠ []; rw [hf]; exact h.2.1⟩, hf⟩

/-- What importing into any settings gives, if the calls of `setValue` are the exported settings. -/
theorem imported (s t : St) (o : Scopes) (hs : AllTidy s) (ht : AllTidy t) (l : List (Str × SVal))
    (ha : ∀ x ∈ keysOf s o, ¬ forbidden <+: externalRepresentation x)
    (hl : ∀ k v, (k, v) ∈ l ↔ ∃ x ∈ keysOf s o, k = externalRepresentation x ∧ lookup s o x = some v) :
    (setValues (cleared t o) l).2 = true ∧
    ∀ k, get (setValues (cleared t o) l).1 (fileKey k) = value s k o := by
  have hset : ∀ e ∈ l, Settable e.1 := by
    intro e he
    obtain ⟨x, hx, hk, _⟩ := (hl e.1 e.2).1 he
    rw [hk]
    exact (settable_key hs hx (ha x hx)).1
  have hfun : ∀ e ∈ l, ∀ e' ∈ l, fileKey e.1 = fileKey e'.1 → e.2 = e'.2 := by
    intro e he e' he' hf
    obtain ⟨x, hx, hk, hv⟩ := (hl e.1 e.2).1 he
    obtain ⟨x', hx', hk', hv'⟩ := (hl e'.1 e'.2).1 he'
    rw [hk, hk', (settable_key hs hx (ha x hx)).2, (settable_key hs hx' (ha x' hx')).2] at hf
    subst hf
    rw [hv] at hv'
    simpa using hv'
  refine ⟨setValues_ok l _ hset, ?_⟩
  intro k
  by_cases hk : fileKey k ∈ keysOf s o
  · obtain ⟨v, hv⟩ := Option.ne_none_iff_exists'.1 ((value_isSome s o k).2 hk)
    have htidy := keysOf_tidy hs hk
    have hlk : lookup s o (fileKey k) = some v := by
      unfold lookup value at *
      rw [fileKey_external htidy.2.2 htidy.1]
      exact hv
    have hm : (externalRepresentation (fileKey k), v) ∈ l :=
      (hl _ v).2 ⟨_, hk, rfl, hlk⟩
    have := setValues_get l (cleared t o) _ v hset hfun hm
    rw [(settable_key hs hk (ha _ hk)).2] at this
    rw [this, hv]
  · have hv : value s k o = none := by
      cases hn : value s k o with
      | none => rfl
      | some v => exact absurd ((value_isSome s o k).1 (by rw [hn]; simp)) hk
    rw [hv, setValues_other l _ _ hset]
    · rw [cleared_nil ht]; rfl
    · intro e he hek
      obtain ⟨x, hx, hke, _⟩ := (hl e.1 e.2).1 he
      rw [hke, (settable_key hs hx (ha x hx)).2] at hek
      exact hk (hek ▸ hx)

/-- **C109 (states).** Whatever `qbs config` was called with before, each time with its own options and
also if it failed: the settings are as the theorems below assume. -/
theorem C109_states (l : List (Scopes × Cmd)) :
    AllTidy (l.foldl (fun s p => run s p.1 p.2) ⟨[], []⟩) := tidy_history l

/-- **C109 (text).** Settings that are exported to a text file and imported from it, here or into any other
settings, have the same values as before: exactly those that were exported, whatever there was. The
settings of the scope that is not written are not touched. What is missing: keys with colons or ends of
lines, that look like comments or have white space at the ends, and strings with ends of lines;
`C109_line_break`, `C109_comment` and `C109_colon` show what becomes of them. -/
theorem C109_text_partial (s t : St) (o : Scopes) (hs : AllTidy s) (ht : AllTidy t)
    (h : ∀ k ∈ allKeys s o, KeyOk k ∧ ∀ v, value s k o = some v → ValOk v) :
    (importText t o (exportText s o)).2 = true ∧
    (∀ k, value (importText t o (exportText s o)).1 k o.written = value s k o) ∧
    other (importText t o (exportText s o)).1 o = other t o := by
  have hval : ∀ k ∈ allKeys s o, ∃ v, value s k o = some v := by
    intro k hk
    obtain ⟨x, hx, rfl⟩ := (mem_allKeys s o k).1 hk
    have := (value_isSome s o (externalRepresentation x)).2
      (by rw [fileKey_external (keysOf_tidy hs hx).2.2 (keysOf_tidy hs hx).1]; exact hx)
    exact Option.ne_none_iff_exists'.1 this
  have hr := readLines_export s o (allKeys s o) (fun k hk => ⟨(h k hk).1, by
    obtain ⟨v, hv⟩ := hval k hk
    exact ⟨v, hv, (h k hk).2 v hv⟩⟩)
  have hi := imported s t o hs ht
    ((allKeys s o).filterMap (fun k => (value s k o).map (fun v => (k, v))))
    (fun x hx => (h _ ((mem_allKeys s o _).2 ⟨x, hx, rfl⟩)).1.allowed)
    (by
      intro k v
      rw [List.mem_filterMap]
      constructor
      · rintro ⟨k', hk', he⟩
        rw [Option.map_eq_some_iff] at he
        obtain ⟨w, hw, he⟩ := he
        injection he with e1 e2
        subst e1; subst e2
        obtain ⟨x, hx, rfl⟩ := (mem_allKeys s o k').1 hk'
        exact ⟨x, hx, rfl, hw⟩
      · rintro ⟨x, hx, rfl, hv⟩
        refine ⟨_, (mem_allKeys s o _).2 ⟨x, hx, rfl⟩, ?_⟩
        unfold lookup at hv
        rw [hv]
        rfl)
  unfold importText exportText
  rw [hr]
  refine ⟨hi.1, ?_, other_setTarget _ _ _⟩
  intro k
  rw [value_written, target_setTarget]
  exact hi.2 k

theorem longest_le : ∀ (m : Store) (e : Str × SVal), e ∈ m → e.1.length ≤ longest m := by
  intro m
  induction m with
  | nil => intro e h; cases h
  | cons a m ih =>
    intro e h
    unfold longest
    rcases List.mem_cons.1 h with rfl | h
    · exact Nat.le_max_left _ _
    · exact Nat.le_trans (ih e h) (Nat.le_max_right _ _)

theorem keysOf_length {s : St} {o : Scopes} {k : Str} (h : k ∈ keysOf s o) :
    k.length ≤ max (longest s.user) (longest s.system) := by
  unfold keysOf at h
  rcases List.mem_append.1 h with h | h
  · split at h
    · obtain ⟨e, he, rfl⟩ := List.mem_map.1 h
      exact Nat.le_trans (longest_le _ e he) (Nat.le_max_left _ _)
    · cases h
  · split at h
    · obtain ⟨e, he, rfl⟩ := List.mem_map.1 h
      exact Nat.le_trans (longest_le _ e he) (Nat.le_max_right _ _)
    · cases h

/-- **C109 (JSON).** The same for JSON files. What is missing: a setting that is also a group of settings,
booleans, integers and maps; `C109_json_group`, `C109_json_type` and `C109_json_map` show what becomes of
them. -/
theorem C109_json_partial (s t : St) (o : Scopes) (hs : AllTidy s) (ht : AllTidy t)
    (ha : ∀ k ∈ allKeys s o, ¬ forbidden <+: k)
    (hv : ∀ k v, value s k o = some v → JsonOk v)
    (hf : ∀ k ∈ allKeys s o, ∀ k' ∈ allKeys s o, ¬ k ++ ['.'] <+: k') :
    (importJson t o (some (exportJson s o))).2 = true ∧
    (∀ k, value (importJson t o (some (exportJson s o))).1 k o.written = value s k o) ∧
    other (importJson t o (some (exportJson s o))).1 o = other t o := by
  have hf' : NoKeyInKey s o := by
    intro k hk k' hk' hp
    refine hf _ ((mem_allKeys s o _).2 ⟨k, hk, rfl⟩) _ ((mem_allKeys s o _).2 ⟨k', hk', rfl⟩) ?_
    obtain ⟨r, hr⟩ := hp
    refine ⟨externalRepresentation r, ?_⟩
    rw [← hr, external_append, external_append]
    rfl
  have hc := calls_toJson s o hs hf' (fun k _ v h => hv _ v h)
    (max (longest s.user) (longest s.system) + 1) [] (by simp)
  have he : externalRepresentation ([] : Str) = [] := rfl
  have hsub : ∀ r : Str, sub [] r = r := fun r => by simp [sub]
  have hi := imported s t o hs ht (calls [] (exportJson s o))
    (fun x hx => ha _ ((mem_allKeys s o _).2 ⟨x, hx, rfl⟩))
    (by
      intro k v
      constructor
      · intro h
        obtain ⟨r, h1, h2, h3⟩ := hc.1 k v h
        rw [hsub] at h1 h2 h3
        exact ⟨r, h1, h2, h3⟩
      · rintro ⟨x, hx, rfl, hl⟩
        have := hc.2 x v (by rw [hsub]; exact hx)
          (by rw [hsub]; have := keysOf_length hx; simp only [List.length_nil]; omega)
          (by rw [hsub]; exact hl)
        rw [hsub] at this
        exact this)
  unfold importJson
  refine ⟨hi.1, ?_, other_setTarget _ _ _⟩
  intro k
  rw [value_written, target_setTarget]
  exact hi.2 k

/-- **C109 (both scopes).** Exporting without `--user` and `--system` and importing again on the same
machine leaves what qbs sees as it was, as long as no list of the user's comes together with a value for
the whole system (see `C109_lists_grow`). -/
theorem C109_both_partial (s : St) (hs : AllTidy s)
    (h : ∀ k ∈ allKeys s .both, KeyOk k ∧ ∀ v, value s k .both = some v → ValOk v)
    (hl : ∀ k l, value s k .both = some (.plain (.list l)) → value s k .system = none) (k : Str) :
    value (importText s .both (exportText s .both)).1 k .both = value s k .both := by
  obtain ⟨_, h2, h3⟩ := C109_text_partial s s .both hs hs h
  have hu := h2 k
  generalize importText s .both (exportText s .both) = r at *
  have hsys : ∀ t : St, value t k .system = get t.system (fileKey k) := by
    intro t; simp [value, Scopes.hasUser, Scopes.hasSystem]
  have huser : value r.1 k .user = get r.1.user (fileKey k) := value_written r.1 .user k
  simp only [Scopes.written] at hu
  rw [huser] at hu
  simp only [other] at h3
  have hl' := hl k
  rw [hsys] at hl'
  have hb : value r.1 k .both = (match value s k .both with
      | none => get s.system (fileKey k)
      | some u => match get s.system (fileKey k) with
        | none => some u
        | some w => match u with
          | .plain (.list l) => some (.plain (.list (l ++ listOf w)))
          | _ => some u) := by
    conv => lhs; unfold value
    simp only [Scopes.hasUser, Scopes.hasSystem, if_true, hu, h3]
    cases value s k .both <;> rfl
  rw [hb]
  cases hv : value s k .both with
  | none =>
    have : ¬ (get s.system (fileKey k) ≠ none) := by
      intro hn
      have h1 := (value_isSome s .system k).1 (by rw [hsys]; exact hn)
      refine (value_isSome s .both k).2 ?_ hv
      simp only [keysOf, Scopes.hasUser, Scopes.hasSystem, if_true, Bool.false_eq_true, if_false,
        List.nil_append] at h1 ⊢
      exact List.mem_append.2 (Or.inr h1)
    exact Classical.not_not.1 this
  | some u =>
    cases hy : get s.system (fileKey k) with
    | none => rfl
    | some w =>
      cases u with
      | hash v => rfl
      | plain v =>
        cases v with
        | list l => rw [hl' l hv] at hy; cases hy
        | _ => rfl

/-! ### C110 -/

theorem internal_append (a b : Str) :
    internalRepresentation (a ++ b) = internalRepresentation a ++ internalRepresentation b := by
  simp [internalRepresentation]

theorem internal_self {a : Str} (h : '.' ∉ a) : internalRepresentation a = a := by
  unfold internalRepresentation
  induction a with
  | nil => rfl
  | cons c a ih =>
    have hc : c ≠ '.' := fun e => h (by rw [e]; simp)
    rw [List.map_cons, if_neg hc, ih (fun e => h (by simp [e]))]

/-- The key of a profile in the file. -/
def profileKey (name : Str) : Str := "profiles/".toList ++ name

theorem profileKey_ne (name : Str) : profileKey name ≠ [] :=
  fun h => absurd (List.append_eq_nil_iff.1 h).1 (by decide)

theorem profileKey_parts {name : Str} (hs : '/' ∉ name) (h0 : name ≠ []) :
    ∀ p ∈ parts (profileKey name), p ≠ [] := by
  have : profileKey name = "profiles".toList ++ '/' :: name := rfl
  rw [this, normal_append, parts_single hs, parts_single (p := "profiles".toList) (by decide)]
  refine ⟨by simp, by simpa using h0⟩

theorem fileKey_profile {name : Str} (hd : '.' ∉ name) (hs : '/' ∉ name) (h0 : name ≠ []) :
    fileKey ("profiles.".toList ++ name) = profileKey name := by
  unfold fileKey
  rw [internal_append, internal_self hd]
  exact (normal_iff (profileKey_ne name)).2 (profileKey_parts hs h0)

theorem fileKey_property {name : Str} (hd : '.' ∉ name) (hs : '/' ∉ name) (h0 : name ≠ []) (k : Str)
    (hk : fileKey k = internalRepresentation k) (hk0 : k ≠ []) :
    fileKey ("profiles.".toList ++ name ++ '.' :: k) = profileKey name ++ '/' :: fileKey k := by
  have hi : internalRepresentation ("profiles.".toList ++ name ++ '.' :: k)
      = profileKey name ++ '/' :: internalRepresentation k := by
    rw [internal_append, internal_append, internal_self hd]
    rfl
  have hn : internalRepresentation k ≠ [] := by
    unfold internalRepresentation
    simpa using hk0
  unfold fileKey at hk
  unfold fileKey
  rw [hi, hk]
  exact (normal_iff (by simp)).2 (normal_append.2 ⟨profileKey_parts hs h0, (normal_iff hn).1 hk⟩)

/-- The name of a profile: not empty, without dots and slashes, not beginning with "none". -/
structure NameOk (name : Str) : Prop where
  noDot : '.' ∉ name
  noSlash : '/' ∉ name
  notEmpty : name ≠ []
  notNone : ¬ "none".toList <+: name

/-- The name of a property of a profile: parts separated by dots, none of them empty. -/
def PropertyOk (k : Str) : Prop := fileKey k = internalRepresentation k ∧ k ≠ []

theorem notForbidden {name r : Str} (h : NameOk name) (hr : r = [] ∨ r.head? = some '.') :
    ¬ forbidden <+: "profiles.".toList ++ name ++ r := by
  intro hp
  have h1 : forbidden = "profiles.".toList ++ "none".toList := by decide
  rw [h1, List.append_assoc, List.prefix_append_right_inj] at hp
  -- either the name is long enough, or it has a dot
  by_cases hl : "none".toList.length ≤ name.length
  · exact h.notNone (List.prefix_of_prefix_length_le hp (List.prefix_append _ _) hl)
  · rcases hr with rfl | hr
    · rw [List.append_nil] at hp
      exact hl hp.length_le
    · obtain ⟨c, r', rfl⟩ : ∃ c r', r = c :: r' := by
        cases r with
        | nil => cases hr
        | cons c r' => exact ⟨c, r', rfl⟩
      simp only [List.head?_cons, Option.some.injEq] at hr
      subst hr
      have h2 : (name ++ ['.']) <+: "none".toList := by
        refine List.prefix_of_prefix_length_le (l₃ := name ++ '.' :: r') ⟨r', by simp⟩ hp ?_
        simp only [List.length_append, List.length_singleton]
        omega
      have h3 : '.' ∈ "none".toList := h2.subset (by simp)
      revert h3
      decide

theorem get_remove (m : Store) (k x : Str) (hk : fileKey k ≠ []) :
    get (remove m k) x = if x = fileKey k ∨ fileKey k ++ ['/'] <+: x then none else get m x := by
  have hb : below (fileKey k) x = true ↔ (x = fileKey k ∨ fileKey k ++ ['/'] <+: x) := by
    unfold below
    rw [Bool.or_eq_true, beq_iff_eq, List.isPrefixOf_iff_prefix]
  unfold remove del
  show get (if fileKey k = [] then [] else m.filter fun e => !below (fileKey k) e.1) x = _
  rw [if_neg hk]
  by_cases h : x = fileKey k ∨ fileKey k ++ ['/'] <+: x
  · rw [if_pos h, get_none_iff]
    intro hm
    obtain ⟨e, he, rfl⟩ := List.mem_map.1 hm
    have := (List.mem_filter.1 he).2
    rw [hb.2 h] at this
    cases this
  · rw [if_neg h]
    unfold get
    congr 1
    rw [List.find?_filter]
    congr 1
    funext e
    by_cases he : e.1 = x
    · rw [he]
      have : below (fileKey k) x = false := by
        cases hx : below (fileKey k) x with
        | false => rfl
        | true => exact absurd (hb.1 hx) h
      simp [this]
    · simp [he]

theorem setValues_append : ∀ (l l' : List (Str × SVal)) (m : Store), (∀ e ∈ l, Settable e.1) →
    setValues m (l ++ l') = setValues (setValues m l).1 l' := by
  intro l
  induction l with
  | nil => intro l' m _; rfl
  | cons e l ih =>
    intro l' m h
    obtain ⟨k, v⟩ := e
    rw [List.cons_append, setValues, setValues, setValue_ok m k v (h (k, v) (by simp))]
    exact ih l' _ (fun e he => h e (by simp [he]))

/-- **C110 (profiles).** `qbs config --add-profile name key value ...` makes a profile that has exactly the
given properties, the last value for each of them, whatever was in a profile of that name; nothing else
changes. What is missing: names that begin with "none" or have a dot, see `C110_none` and `C110_dot`. -/
theorem C110_add_profile_partial (s : St) (o : Scopes) (name : Str) (properties : List (Str × Str))
    (hn : NameOk name) (hp : ∀ p ∈ properties, PropertyOk p.1) :
    (addProfile s o name properties).2 = true ∧
    (∀ before p after, properties = before ++ p :: after → (∀ q ∈ after, q.1 ≠ p.1) →
      '/' ∉ p.1 → (∀ q ∈ after, '/' ∉ q.1) →
      value (addProfile s o name properties).1 ("profiles.".toList ++ name ++ '.' :: p.1) o.written
        = some (representationToSettingsValue p.2)) ∧
    (∀ k, PropertyOk k → (∀ p ∈ properties, fileKey p.1 ≠ fileKey k) →
      value (addProfile s o name properties).1 ("profiles.".toList ++ name ++ '.' :: k) o.written = none) ∧
    (∀ k, ¬ profileKey name ++ ['/'] <+: fileKey k → fileKey k ≠ profileKey name →
      value (addProfile s o name properties).1 k o.written = value s k o.written) ∧
    other (addProfile s o name properties).1 o = other s o := by
  have hfile := fun k (hk : PropertyOk k) => fileKey_property hn.noDot hn.noSlash hn.notEmpty k hk.1 hk.2
  have hname := fileKey_profile hn.noDot hn.noSlash hn.notEmpty
  have hset : ∀ p ∈ properties, Settable ("profiles.".toList ++ name ++ '.' :: p.1) := by
    intro p h
    refine ⟨notForbidden hn (Or.inr rfl), ?_⟩
    show fileKey _ ≠ []
    rw [hfile p.1 (hp p h)]
    simp
  have hset' : ∀ l : List (Str × Str), (∀ p ∈ l, p ∈ properties) →
      ∀ e ∈ l.map (fun p => ("profiles.".toList ++ name ++ '.' :: p.1, representationToSettingsValue p.2)),
      Settable e.1 := by
    intro l hl e he
    obtain ⟨p, hpm, rfl⟩ := List.mem_map.1 he
    exact hset p (hl p hpm)
  have hvalue : ∀ k, value (addProfile s o name properties).1 k o.written
      = get (setValues (remove (target s o) ("profiles.".toList ++ name))
          (properties.map (fun p => ("profiles.".toList ++ name ++ '.' :: p.1, representationToSettingsValue p.2)))).1
          (fileKey k) := by
    intro k
    rw [value_written]
    unfold addProfile
    rw [target_setTarget]
  refine ⟨?_, ?_, ?_, ?_, ?_⟩
  · exact setValues_ok _ _ (hset' _ (fun p h => h))
  · intro before p after he hlast hsl hsl'
    rw [hvalue, he, List.map_append, List.map_cons,
      setValues_append _ _ _ (hset' before (fun q h => by rw [he]; simp [h])), setValues,
      setValue_ok _ _ _ (hset p (by rw [he]; simp))]
    show get (setValues (put _ _ _) _).1 _ = _
    rw [setValues_other _ _ _ (hset' after (fun q h => by rw [he]; simp [h])),
      get_put _ _ _ _ (hset p (by rw [he]; simp)).2]
    · exact if_pos rfl
    · intro e hem
      obtain ⟨q, hq, rfl⟩ := List.mem_map.1 hem
      have hqp : PropertyOk q.1 := hp q (by rw [he]; simp [hq])
      have hpp : PropertyOk p.1 := hp p (by rw [he]; simp)
      simp only
      rw [hfile _ hqp, hfile _ hpp]
      intro h
      have h' := List.append_cancel_left h
      simp only [List.cons.injEq, true_and] at h'
      rw [hqp.1, hpp.1] at h'
      apply hlast q hq
      have hex : ∀ a : Str, '/' ∉ a → externalRepresentation (internalRepresentation a) = a := by
        intro a ha
        unfold externalRepresentation internalRepresentation
        rw [List.map_map]
        conv => rhs; rw [← List.map_id a]
        apply List.map_congr_left
        intro c hc
        have hne : c ≠ '/' := by rintro rfl; exact ha hc
        simp only [Function.comp, id]
        by_cases hs : c = '.'
        · subst hs; rfl
        · rw [if_neg hs, if_neg hne]
      rw [← hex q.1 (hsl' q hq), ← hex p.1 hsl, h']
  · intro k hk hno
    rw [hvalue, setValues_other _ _ _ (hset' _ (fun p h => h)), get_remove _ _ _ (by rw [hname]; exact profileKey_ne name),
      if_pos]
    · right
      rw [hname, hfile k hk]
      exact ⟨fileKey k, by simp⟩
    · intro e hem
      obtain ⟨q, hq, rfl⟩ := List.mem_map.1 hem
      simp only
      rw [hfile _ (hp q hq), hfile _ hk]
      intro h
      have h' := List.append_cancel_left h
      simp only [List.cons.injEq, true_and] at h'
      exact hno q hq h'
  · intro k hk1 hk2
    rw [hvalue, value_written, setValues_other _ _ _ (hset' _ (fun p h => h)),
      get_remove _ _ _ (by rw [hname]; exact profileKey_ne name), if_neg]
    · rw [hname]
      rintro (h | h)
      · exact hk2 h
      · exact hk1 h
    · intro e hem
      obtain ⟨q, hq, rfl⟩ := List.mem_map.1 hem
      simp only
      rw [hfile _ (hp q hq)]
      intro h
      exact hk1 (by rw [← h]; exact ⟨fileKey q.1, by simp⟩)
  · unfold addProfile
    exact other_setTarget _ _ _

/-- **C110 (removing).** `qbs config --unset` removes the given settings and those below them from the
scope that is written, and no others. What is missing: an empty name, see `C110_unset_nothing`. -/
theorem C110_unset_partial (s : St) (o : Scopes) (names : List Str) (h : ∀ n ∈ names, fileKey n ≠ []) (k : Str) :
    value (unset s o names) k o.written
      = (if ∃ n ∈ names, fileKey k = fileKey n ∨ fileKey n ++ ['/'] <+: fileKey k then none
         else value s k o.written) ∧
    other (unset s o names) o = other s o := by
  refine ⟨?_, by unfold unset; exact other_setTarget _ _ _⟩
  rw [value_written, value_written]
  unfold unset
  rw [target_setTarget]
  generalize target s o = m
  induction names generalizing m with
  | nil => simp
  | cons n names ih =>
    rw [List.foldl_cons, ih (fun x hx => h x (by simp [hx])), get_remove _ _ _ (h n (by simp))]
    by_cases h1 : ∃ n ∈ names, fileKey k = fileKey n ∨ fileKey n ++ ['/'] <+: fileKey k
    · obtain ⟨x, hx, hc⟩ := h1
      rw [if_pos ⟨x, hx, hc⟩, if_pos ⟨x, by simp [hx], hc⟩]
    · rw [if_neg h1]
      by_cases h2 : fileKey k = fileKey n ∨ fileKey n ++ ['/'] <+: fileKey k
      · rw [if_pos h2, if_pos ⟨n, by simp, h2⟩]
      · rw [if_neg h2, if_neg]
        rintro ⟨x, hx, hc⟩
        rcases List.mem_cons.1 hx with rfl | hx
        · exact h2 hc
        · exact h1 ⟨x, hx, hc⟩

/-- **C110 (setting).** `qbs config key value` sets that key in the scope that is written and changes no
other setting. -/
theorem C110_set (s : St) (o : Scopes) (key raw : Str) (hk : fileKey key ≠ []) (hf : ¬ forbidden <+: key) (k : Str) :
    (set s o key raw).2 = true ∧
    value (set s o key raw).1 k o.written
      = (if fileKey k = fileKey key then some (representationToSettingsValue raw) else value s k o.written) ∧
    other (set s o key raw).1 o = other s o := by
  have hset : Settable key := ⟨hf, hk⟩
  refine ⟨?_, ?_, by unfold set; exact other_setTarget _ _ _⟩
  · unfold set
    exact setValues_ok _ _ (by simpa using hset)
  · rw [value_written, value_written]
    unfold set
    rw [target_setTarget]
    show get (setValues (target s o) [(key, representationToSettingsValue raw)]).1 (fileKey k) = _
    rw [setValues, setValue_ok _ _ _ hset]
    exact get_put _ _ _ _ hk

end Verif.Config
