import Verif.Provider.Spec
/-! # Theorems: C98, C99 -/
namespace Verif.Provider

variable {V : Type}

/-! ## Files and names of providers -/

theorem foldl_join (n : List String) : ∀ (a b : String),
    join (n.foldl join (join a b)) "provider.qbs" =
      "/".intercalate (a :: b :: n ++ ["provider.qbs"]) := by
  have key : ∀ (n : List String) (a : String), join (n.foldl join a) "provider.qbs" =
      "/".intercalate (a :: n ++ ["provider.qbs"]) := by
    intro n
    induction n with
    | nil => intro a; simp [join]
    | cons c n ih =>
      intro a
      rw [List.foldl_cons, ih]
      cases n <;> simp [join, String.append_assoc]
  intro a b
  rw [key]
  cases n <;> simp [join, String.append_assoc]

theorem candidate_iff (w : World V) (n : Name) (l : Lookup) (path f : String) :
    candidate w n l path = some f ↔ FileIn w n l path f := by
  have h1 : join (join path "module-providers") (".".intercalate n ++ ".qbs") = fileOne path n := by
    unfold join fileOne
    rw [String.intercalate_cons_cons, String.intercalate_cons_cons, String.intercalate_singleton]
    simp only [String.append_assoc]
  have h2 : join (n.foldl join (join path "module-providers")) "provider.qbs" = fileTwo path n :=
    foldl_join n path "module-providers"
  unfold candidate FileIn
  simp only
  rw [h1, h2]
  by_cases hc : l = .named ∧ w.fileExists (fileOne path n) = true
  · rw [if_pos hc]
    constructor
    · intro h; cases h; exact ⟨hc.2, Or.inl ⟨hc.1, rfl⟩⟩
    · rintro ⟨_, h | h⟩
      · rw [h.2]
      · exact absurd hc h.1
  · rw [if_neg hc]
    by_cases he : w.fileExists (fileTwo path n) = true
    · rw [if_pos he]
      constructor
      · intro h; cases h; exact ⟨he, Or.inr ⟨hc, rfl⟩⟩
      · rintro ⟨hf, h | h⟩
        · exact absurd ⟨h.1, h.2 ▸ hf⟩ hc
        · rw [h.2]
    · rw [if_neg he]
      constructor
      · intro h; cases h
      · rintro ⟨hf, h | h⟩
        · exact absurd ⟨h.1, h.2 ▸ hf⟩ hc
        · exact absurd (h.2 ▸ hf) he

theorem candidate_none (w : World V) (n : Name) (l : Lookup) (path : String) :
    candidate w n l path = none ↔ ∀ f, ¬ FileIn w n l path f := by
  constructor
  · intro h f hf
    rw [← candidate_iff, h] at hf
    cases hf
  · intro h
    cases hc : candidate w n l path with
    | none => rfl
    | some f => exact absurd ((candidate_iff w n l path f).1 hc) (h f)

theorem findFile_iff (w : World V) (n : Name) (l : Lookup) : ∀ (paths : List String) (f : String),
    findFile w paths n l = some f ↔ IsFile w paths n l f := by
  intro paths f
  unfold findFile IsFile
  rw [List.findSome?_eq_some_iff]
  constructor
  · rintro ⟨a, x, b, h1, h2, h3⟩
    exact ⟨a, x, b, h1, fun y hy => (candidate_none w n l y).1 (h3 y hy), (candidate_iff w n l x f).1 h2⟩
  · rintro ⟨a, x, b, h1, h2, h3⟩
    exact ⟨a, x, b, h1, (candidate_iff w n l x f).2 h3, fun y hy => (candidate_none w n l y).2 (h2 y hy)⟩

theorem findFile_none (w : World V) (n : Name) (l : Lookup) (paths : List String)
    (h : findFile w paths n l = none) : ∀ f, ¬ IsFile w paths n l f := by
  intro f hf
  rw [← findFile_iff, h] at hf
  cases hf

theorem scopes_length (m : Name) : (scopes m).length = m.length := by simp [scopes]

theorem scopes_get (m : Name) (i : Nat) (h : i < m.length) :
    (scopes m)[i]? = some (m.take (m.length - i)) := by
  unfold scopes
  rw [List.getElem?_reverse (by simpa using h)]
  simp only [List.length_map, List.length_range, List.getElem?_map]
  rw [List.getElem?_range (by omega)]
  simp only [Option.map_some]
  congr 2
  omega

/-- **C98.** The providers that are asked. -/
theorem C98_asked (p : Prod V) (m : Name) : Asked p m (providersToRun p m) := by
  unfold providersToRun getModuleProviders Asked
  cases h : p.providers.findSome? id with
  | some ns =>
    left
    rw [List.findSome?_eq_some_iff] at h
    obtain ⟨a, x, b, h1, h2, h3⟩ := h
    simp only [id] at h2
    subst h2
    exact ⟨a, ns, b, h1, fun y hy => h3 y hy, rfl⟩
  | none =>
    right
    rw [List.findSome?_eq_none_iff] at h
    refine ⟨fun b hb => h b hb, by simp [scopes_length], ?_⟩
    intro i hi
    rw [List.getElem?_map, scopes_get m i hi]
    rfl

/-! ## The configuration -/

theorem lookup_insert (k k' : String) (v : V) : ∀ m : Map V,
    lookupKV k' (insertKV k v m) = if k' = k then some v else lookupKV k' m := by
  intro m
  unfold lookupKV
  induction m with
  | nil =>
    simp only [insertKV, List.find?_cons, List.find?_nil]
    by_cases h : k' = k
    · subst h; simp
    · have : (k == k') = false := by simpa using fun h' => h h'.symm
      rw [this, if_neg h]
  | cons a m ih =>
    rcases a with ⟨k2, v2⟩
    simp only [insertKV]
    by_cases h1 : k = k2
    · subst h1
      rw [if_pos rfl]
      simp only [List.find?_cons]
      by_cases h : k' = k
      · subst h; simp
      · have : (k == k') = false := by simpa using fun h' => h h'.symm
        rw [this, if_neg h]
    · rw [if_neg h1]
      by_cases h2 : k < k2
      · rw [if_pos h2]
        rw [List.find?_cons]
        by_cases h : k' = k
        · subst h; simp
        · have : (k == k') = false := by simpa using fun h' => h h'.symm
          rw [this, if_neg h]
      · rw [if_neg h2, List.find?_cons, List.find?_cons]
        by_cases h3 : k2 = k'
        · subst h3
          have : ¬ k2 = k := fun h => h1 h.symm
          simp [this]
        · have : (k2 == k') = false := by simpa using h3
          rw [this]
          exact ih

/-- **C98.** A provider is configured with the values of the profile and the command line, and
otherwise with those that the product sets. -/
theorem C98_config (p : Prod V) (n : Name) (k : String)
    (hn : ((mapFor n p.build).map (·.1)).Nodup) :
    lookupKV k (configOf p n) =
      match lookupKV k (mapFor n p.build) with
      | some v => some v
      | none => lookupKV k (mapFor n p.own) := by
  unfold configOf
  generalize mapFor n p.own = o
  generalize hb : mapFor n p.build = b at hn
  clear hb
  induction b generalizing o with
  | nil => simp [lookupKV]
  | cons a b ih =>
    rw [List.map_cons, List.nodup_cons] at hn
    rw [List.foldl_cons, ih _ hn.2, lookup_insert]
    unfold lookupKV
    rw [List.find?_cons]
    by_cases h : k = a.1
    · subst h
      have hnone : b.find? (·.1 == a.1) = none := by
        rw [List.find?_eq_none]
        intro x hx h'
        apply hn.1
        rw [List.mem_map]
        exact ⟨x, hx, by simpa using h'⟩
      rw [hnone]
      simp
    · have : (a.1 == k) = false := by simpa using fun h' => h h'.symm
      rw [this, if_neg h]

/-! ## The cache -/

variable [DecidableEq V]

theorem lookup_some {k : Key V} {c : Cache V} {i : Info V} (h : lookupKey k c = some i) :
    (k, i) ∈ c := by
  unfold lookupKey at h
  rw [Option.map_eq_some_iff] at h
  obtain ⟨x, h1, h2⟩ := h
  have h3 := List.find?_some h1
  have h4 := List.mem_of_find?_eq_some h1
  rcases x with ⟨k', i'⟩
  simp only [beq_iff_eq] at h3
  simp only at h2
  subst h3 h2
  exact h4

theorem mem_addKey {k : Key V} {i : Info V} {c : Cache V} {e : Key V × Info V}
    (h : e ∈ addKey k i c) : e = (k, i) ∨ e ∈ c := by
  unfold addKey at h
  rcases List.mem_cons.1 h with h | h
  · exact Or.inl h
  · exact Or.inr (List.mem_filter.1 h).1

theorem lookup_addKey (k k' : Key V) (i : Info V) (c : Cache V) :
    lookupKey k' (addKey k i c) = if k' = k then some i else lookupKey k' c := by
  unfold lookupKey addKey
  rw [List.find?_cons]
  by_cases h : k' = k
  · subst h; simp
  · have : (k == k') = false := by simpa using fun h' => h h'.symm
    rw [this, if_neg h]
    show Option.map _ (List.find? _ (c.filter _)) = Option.map _ (List.find? _ c)
    clear this
    congr 1
    induction c with
    | nil => rfl
    | cons a c ih =>
      rw [List.filter_cons]
      by_cases hk : a.1 = k
      · rw [if_neg (by simp [hk]), List.find?_cons, ih]
        have : (a.1 == k') = false := by rw [hk]; simpa using fun h' => h h'.symm
        rw [this]
      · rw [if_pos (by simpa using hk), List.find?_cons, List.find?_cons, ih]

/-- An entry says what the provider gives. -/
def EntryOk (w : World V) (F : Name → Lookup → Option String) (e : Key V × Info V) : Prop :=
  match F e.1.name e.1.lookup with
  | none => e.2.file = none ∧ e.1.module ≠ none
  | some f => e.2.file = some f ∧
      (e.1.module = none ↔ w.eager f e.1.config e.1.qbs = true) ∧
      ∃ rel, w.eval f e.1.name e.1.module e.1.config e.1.qbs = some rel ∧
        e.2.paths = rel.map fun r =>
          outputDir w e.1.name ++ "/" ++ w.hash e.1.config e.1.qbs ++ "/" ++ r

def Consistent (w : World V) (F : Name → Lookup → Option String) (c : Cache V) : Prop :=
  ∀ e ∈ c, EntryOk w F e

omit [DecidableEq V] in
theorem entry_gives {w : World V} {F : Name → Lookup → Option String} {p : Prod V} {m n : Name}
    {l : Lookup} {mo : Option Name} {i : Info V} (hF : F n l = findFile w p.searchPaths n l)
    (hmo : mo = none ∨ mo = some m)
    (h : EntryOk w F (⟨n, mo, configOf p n, p.qbs, l⟩, i)) :
    (i.file = none → Gives w p m (n, l) none) ∧
    (∀ f, i.file = some f → Gives w p m (n, l) (some i.paths)) := by
  unfold EntryOk at h
  simp only at h
  rw [hF] at h
  cases hf : findFile w p.searchPaths n l with
  | none =>
    rw [hf] at h
    simp only at h
    refine ⟨fun _ => .missing (findFile_none w n l _ hf), ?_⟩
    intro f h'
    rw [h.1] at h'
    cases h'
  | some f =>
    rw [hf] at h
    simp only at h
    obtain ⟨h1, h2, rel, h3, h4⟩ := h
    refine ⟨fun h' => (by rw [h1] at h'; cases h'), ?_⟩
    intro f' _
    rw [h4]
    refine .runs ((findFile_iff w n l _ _).1 hf) ?_
    rw [← h3]
    congr 1
    rcases hmo with rfl | rfl
    · rw [if_pos (h2.1 rfl)]
    · rw [if_neg]
      intro he
      have := h2.2 he
      cases this

theorem findOrCreate_spec (w : World V) (dry : Bool) (F : Name → Lookup → Option String)
    (p : Prod V) (m n : Name) (l : Lookup) (c : Cache V) (hc : Consistent w F c)
    (hF : ∀ n l, F n l = findFile w p.searchPaths n l) (x : Found V)
    (hx : findOrCreate w dry p m n l c = x) :
    Consistent w F x.cache ∧ (x.info = none → Fails w p m n l) ∧
    (∀ i, x.info = some i → (i.file = none → Gives w p m (n, l) none) ∧
      (∀ f, i.file = some f → Gives w p m (n, l) (some i.paths))) := by
  subst hx
  unfold findOrCreate
  simp only
  cases h1 : lookupKey ⟨n, none, configOf p n, p.qbs, l⟩ c with
  | some i =>
    refine ⟨hc, by simp, ?_⟩
    intro j hj
    cases hj
    exact entry_gives (hF n l) (Or.inl rfl) (hc _ (lookup_some h1))
  | none =>
    simp only
    cases h2 : lookupKey ⟨n, some m, configOf p n, p.qbs, l⟩ c with
    | some i =>
      refine ⟨hc, by simp, ?_⟩
      intro j hj
      cases hj
      exact entry_gives (hF n l) (Or.inr rfl) (hc _ (lookup_some h2))
    | none =>
      simp only
      cases h3 : findFile w p.searchPaths n l with
      | none =>
        have he : EntryOk w F (⟨n, some m, configOf p n, p.qbs, l⟩,
            ⟨n, configOf p n, none, [], false⟩) := by
          unfold EntryOk; simp only; rw [hF, h3]; simp
        refine ⟨?_, by simp, ?_⟩
        · intro e hm
          rcases mem_addKey hm with rfl | hm
          · exact he
          · exact hc e hm
        · intro j hj
          cases hj
          exact entry_gives (hF n l) (Or.inr rfl) he
      | some f =>
        simp only
        cases h4 : w.eval f n (if w.eager f (configOf p n) p.qbs then none else some m)
            (configOf p n) p.qbs with
        | none =>
          have hev : evaluate w m n f (configOf p n) p.qbs = none := by
            unfold evaluate; simp only [h4]
          rw [hev]
          refine ⟨hc, ?_, by simp⟩
          intro _
          exact ⟨f, (findFile_iff w n l _ _).1 h3, h4⟩
        | some rel =>
          have hev : evaluate w m n f (configOf p n) p.qbs = some
              (rel.map (fun r => outputDir w n ++ "/" ++ w.hash (configOf p n) p.qbs ++ "/" ++ r),
                w.eager f (configOf p n) p.qbs) := by
            unfold evaluate; simp only [h4]
          rw [hev]
          simp only
          have he : EntryOk w F (⟨n, (if w.eager f (configOf p n) p.qbs then none else some m),
              configOf p n, p.qbs, l⟩, ⟨n, configOf p n, some f,
                rel.map (fun r => outputDir w n ++ "/" ++ w.hash (configOf p n) p.qbs ++ "/" ++ r),
                dry⟩) := by
            unfold EntryOk
            simp only
            rw [hF, h3]
            refine ⟨rfl, ?_, rel, h4, rfl⟩
            by_cases hg : w.eager f (configOf p n) p.qbs = true
            · simp [hg]
            · simp [hg]
          refine ⟨?_, by simp, ?_⟩
          · intro e hm
            rcases mem_addKey hm with rfl | hm
            · exact he
            · exact hc e hm
          · intro j hj
            cases hj
            refine entry_gives (hF n l) ?_ he
            split
            · exact Or.inl rfl
            · exact Or.inr rfl

/-! ## Threads -/

/-- Put together what has been collected and the answer for the rest. -/
def combine (found : Bool) (paths : List String) : Outcome → Outcome
  | .ok f qs => .ok (found || f) (paths ++ qs)
  | x => x

/-- What is known about a thread. -/
structure ThreadOk (w : World V) (ps : List (Prod V)) (t : Thread V) : Prop where
  prods : (∀ r ∈ t.todo, r.prod ∈ ps) ∧ (∀ x, t.cur = some x → x.1.prod ∈ ps)
  cur : ∀ r rest found paths, t.cur = some (r, rest, found, paths) → ∀ o,
    Answer w r.prod r.module rest o →
    Answer w r.prod r.module (providersToRun r.prod r.module) (combine found paths o)
  done : ∀ x ∈ t.done, Answer w x.1.prod x.1.module (providersToRun x.1.prod x.1.module) x.2

theorem next_ok (w : World V) (dry : Bool) (ps : List (Prod V))
    (F : Name → Lookup → Option String)
    (hF : ∀ p ∈ ps, ∀ n l, F n l = findFile w p.searchPaths n l) (c : Cache V)
    (hc : Consistent w F c) (t : Thread V) (ht : ThreadOk w ps t) :
    Consistent w F (t.next w dry c).1 ∧ ThreadOk w ps (t.next w dry c).2.2 := by
  rcases t with ⟨todo, cur, done⟩
  unfold Thread.next
  cases cur with
  | none =>
    cases todo with
    | nil => exact ⟨hc, ht⟩
    | cons r rs =>
      refine ⟨hc, ⟨fun x hx => ht.prods.1 x (List.mem_cons_of_mem _ hx), ?_⟩, ?_, ht.done⟩
      · intro x hx
        cases hx
        exact ht.prods.1 r List.mem_cons_self
      · intro r' rest found paths h o ho
        cases h
        have : combine false [] o = o := by cases o <;> rfl
        rw [this]
        exact ho
  | some x =>
    rcases x with ⟨r, rest, found, paths⟩
    have hr : r.prod ∈ ps := ht.prods.2 _ rfl
    have hcur := ht.cur r rest found paths rfl
    cases rest with
    | nil =>
      refine ⟨hc, ⟨ht.prods.1, by simp⟩, by simp, ?_⟩
      intro x hx
      rcases List.mem_append.1 hx with hx | hx
      · exact ht.done x hx
      · rw [List.mem_singleton] at hx
        subst hx
        have := hcur _ .nil
        simpa [combine] using this
    | cons a rest =>
      rcases a with ⟨n, l⟩
      simp only
      obtain ⟨s1, s2, s3⟩ := findOrCreate_spec w dry F r.prod r.module n l c hc (hF r.prod hr) _ rfl
      generalize hx : findOrCreate w dry r.prod r.module n l c = x at s1 s2 s3
      cases hi : x.info with
      | none =>
        refine ⟨s1, ⟨ht.prods.1, by simp⟩, by simp, ?_⟩
        intro y hy
        rcases List.mem_append.1 hy with hy | hy
        · exact ht.done y hy
        · rw [List.mem_singleton] at hy
          subst hy
          exact hcur _ (.failed (s2 hi))
      | some i =>
        obtain ⟨g1, g2⟩ := s3 i hi
        simp only
        cases hf : i.file with
        | none =>
          cases l with
          | named =>
            refine ⟨s1, ⟨ht.prods.1, by simp⟩, by simp, ?_⟩
            intro y hy
            rcases List.mem_append.1 hy with hy | hy
            · exact ht.done y hy
            · rw [List.mem_singleton] at hy
              subst hy
              exact hcur _ (.unknown (g1 hf))
          | «scoped» =>
            refine ⟨s1, ⟨ht.prods.1, ?_⟩, ?_, ht.done⟩
            · intro y hy
              cases hy
              exact hr
            · intro r' rest' found' paths' h o ho
              cases h
              exact hcur _ (.skip (g1 hf) ho)
        | some f =>
          refine ⟨s1, ⟨ht.prods.1, ?_⟩, ?_, ht.done⟩
          · intro y hy
            cases hy
            exact hr
          · intro r' rest' found' paths' h o ho
            cases h
            have hg := g2 f hf
            cases o with
            | ok f2 qs =>
              have := hcur _ (.runs hg ho)
              simpa [combine] using this
            | unknown y => exact hcur _ (.error hg ho (by simp))
            | failed y => exact hcur _ (.error hg ho (by simp))

/-- What is known about all threads and the cache. -/
structure StateOk (w : World V) (ps : List (Prod V)) (F : Name → Lookup → Option String)
    (s : State V) : Prop where
  cache : Consistent w F s.cache
  threads : ∀ t ∈ s.threads, ThreadOk w ps t

theorem step_ok (w : World V) (dry : Bool) (ps : List (Prod V))
    (F : Name → Lookup → Option String)
    (hF : ∀ p ∈ ps, ∀ n l, F n l = findFile w p.searchPaths n l) (s : State V) (i : Nat)
    (h : StateOk w ps F s) : StateOk w ps F (s.step w dry i) := by
  unfold State.step
  cases ht : s.threads[i]? with
  | none => exact h
  | some t =>
    obtain ⟨a, b⟩ := next_ok w dry ps F hF s.cache h.cache t
      (h.threads t (List.mem_of_getElem? ht))
    refine ⟨a, ?_⟩
    intro t' ht'
    rcases List.mem_or_eq_of_mem_set ht' with h' | rfl
    · exact h.threads t' h'
    · exact b

theorem exec_ok (w : World V) (dry : Bool) (ps : List (Prod V))
    (F : Name → Lookup → Option String)
    (hF : ∀ p ∈ ps, ∀ n l, F n l = findFile w p.searchPaths n l) (sched : List Nat) :
    ∀ s : State V, StateOk w ps F s → StateOk w ps F (s.exec w dry sched) := by
  induction sched with
  | nil => intro s h; exact h
  | cons i sched ih => intro s h; exact ih _ (step_ok w dry ps F hF s i h)

omit [DecidableEq V] in
theorem start_ok (w : World V) (ps : List (Prod V)) (F : Name → Lookup → Option String)
    (c : Cache V) (hc : Consistent w F c) (ts : List (Thread V)) (h : Of ps ts) :
    StateOk w ps F { cache := c, threads := ts } := by
  refine ⟨hc, ?_⟩
  intro t ht
  obtain ⟨h1, h2, h3⟩ := h t ht
  refine ⟨⟨h3, ?_⟩, ?_, ?_⟩
  · intro x hx; rw [h1] at hx; cases hx
  · intro r rest f p hx; rw [h1] at hx; cases hx
  · intro x hx; rw [h2] at hx; simp at hx

omit [DecidableEq V] in
theorem consistent_reset (w : World V) (F : Name → Lookup → Option String) (c : Cache V)
    (hc : Consistent w F c) :
    Consistent w F (c.map fun e => (e.1, { e.2 with transient := false })) := by
  intro e he
  obtain ⟨x, hx, rfl⟩ := List.mem_map.1 he
  have := hc x hx
  unfold EntryOk at this ⊢
  exact this

omit [DecidableEq V] in
theorem agree_F (w : World V) (ps : List (Prod V)) (h : Agree w ps) :
    ∃ F : Name → Lookup → Option String,
      ∀ p ∈ ps, ∀ n l, F n l = findFile w p.searchPaths n l := by
  cases ps with
  | nil => exact ⟨fun _ _ => none, by simp⟩
  | cons q ps =>
    refine ⟨fun n l => findFile w q.searchPaths n l, ?_⟩
    intro p hp n l
    cases h1 : findFile w p.searchPaths n l with
    | some f =>
      rw [findFile_iff]
      exact (h p hp q List.mem_cons_self n l f).1 ((findFile_iff w n l _ _).1 h1)
    | none =>
      cases h2 : findFile w q.searchPaths n l with
      | none => exact h2
      | some f =>
        exfalso
        exact findFile_none w n l _ h1 f
          ((h q List.mem_cons_self p hp n l f).1 ((findFile_iff w n l _ _).1 h2))

omit [DecidableEq V] in
theorem session_start (w : World V) (F : Name → Lookup → Option String) (force : Bool)
    (d : Disk V) (hd : Consistent w F d.stored) : Consistent w F
      (if force then [] else d.stored.map fun e => (e.1, { e.2 with transient := false })) := by
  cases force with
  | true => intro e he; simp at he
  | false => exact consistent_reset w F _ hd

theorem reach_consistent (w : World V) (ps : List (Prod V)) (F : Name → Lookup → Option String)
    (hF : ∀ p ∈ ps, ∀ n l, F n l = findFile w p.searchPaths n l) (d : Disk V)
    (h : Reach w ps d) : Consistent w F d.stored := by
  induction h with
  | empty => intro e he; simp at he
  | @session d dry force ts sched _ hof ih =>
    have hs := exec_ok w dry ps F hF sched _ (start_ok w ps F _ (session_start w F force d ih) ts hof)
    unfold session
    simp only
    cases dry with
    | true => exact ih
    | false => exact consistent_reset w F _ hs.cache

/-- **C98, part.** In every session, after any number of earlier sessions with the same files, with
or without cache and dry runs, and with any interleaving of the threads, every request gets the
answer it would get if its product were alone.  Missing: products that find different files for a
provider (see `C98_search_paths`), and providers that were changed between sessions (see
`C98_stale`). -/
theorem C98_answers_partial (w : World V) (ps : List (Prod V)) (ha : Agree w ps) (d : Disk V)
    (hd : Reach w ps d) (dry force : Bool) (ts : List (Thread V)) (hts : Of ps ts)
    (sched : List Nat) (t : Thread V) (ht : t ∈ (session w dry force ts sched d).2.threads)
    (r : Request V) (o : Outcome) (h : (r, o) ∈ t.done) :
    ∃ l, Asked r.prod r.module l ∧ Answer w r.prod r.module l o := by
  obtain ⟨F, hF⟩ := agree_F w ps ha
  have hc := reach_consistent w ps F hF d hd
  have hs := exec_ok w dry ps F hF sched _
    (start_ok w ps F _ (session_start w F force d hc) ts hts)
  have ht' : t ∈ (State.exec w dry { cache := (if force then [] else d.stored.map fun e => (e.1, { e.2 with transient := false })), threads := ts } sched).threads := by
    unfold session at ht
    simp only at ht
    cases dry with
    | true => exact ht
    | false => exact ht
  exact ⟨_, C98_asked _ _, (hs.threads t ht').done (r, o) h⟩

/-! ## No request is lost -/

/-- The requests of a thread: done, current and to come. -/
def Thread.all (t : Thread V) : List (Request V) :=
  t.done.map (·.1) ++ (t.cur.map (·.1)).toList ++ t.todo

theorem next_all (w : World V) (dry : Bool) (c : Cache V) (t : Thread V) :
    (t.next w dry c).2.2.all = t.all := by
  rcases t with ⟨todo, cur, done⟩
  unfold Thread.next Thread.all
  cases cur with
  | none =>
    cases todo with
    | nil => rfl
    | cons r rs => simp
  | some x =>
    rcases x with ⟨r, rest, found, paths⟩
    cases rest with
    | nil => simp
    | cons a rest =>
      rcases a with ⟨n, l⟩
      simp only
      generalize findOrCreate w dry r.prod r.module n l c = x
      cases x.info with
      | none => simp
      | some i =>
        simp only
        cases i.file with
        | none => cases l <;> simp
        | some f => simp

/-- **C98.** Each thread answers its requests in order, each once, whatever the schedule. -/
theorem C98_complete (w : World V) (dry : Bool) (sched : List Nat) : ∀ (s : State V) (i : Nat),
    ((s.exec w dry sched).threads[i]?).map Thread.all = (s.threads[i]?).map Thread.all := by
  induction sched with
  | nil => intro s i; rfl
  | cons j sched ih =>
    intro s i
    show ((State.exec w dry (s.step w dry j) sched).threads[i]?).map Thread.all = _
    rw [ih]
    unfold State.step
    cases ht : s.threads[j]? with
    | none => rfl
    | some t =>
      simp only
      by_cases h : j = i
      · subst h
        have hlt : j < s.threads.length := by
          rw [List.getElem?_eq_some_iff] at ht; exact ht.1
        rw [List.getElem?_set_self hlt, ht]
        simp only [Option.map_some]
        rw [next_all]
      · rw [List.getElem?_set_ne h]

/-! ## Providers run once -/

theorem findOrCreate_ran (w : World V) (dry : Bool) (p : Prod V) (m n : Name) (l : Lookup)
    (c : Cache V) :
    (∀ k, lookupKey k c ≠ none → lookupKey k (findOrCreate w dry p m n l c).cache ≠ none) ∧
    (∀ k, (findOrCreate w dry p m n l c).ran = some k → lookupKey k c = none ∧
      lookupKey k (findOrCreate w dry p m n l c).cache ≠ none) := by
  have hadd : ∀ (k k' : Key V) (i : Info V), lookupKey k c ≠ none →
      lookupKey k (addKey k' i c) ≠ none := by
    intro k k' i h
    rw [lookup_addKey]
    split
    · simp
    · exact h
  unfold findOrCreate
  simp only
  cases h1 : lookupKey ⟨n, none, configOf p n, p.qbs, l⟩ c with
  | some i => exact ⟨fun k h => h, by simp⟩
  | none =>
    simp only
    cases h2 : lookupKey ⟨n, some m, configOf p n, p.qbs, l⟩ c with
    | some i => exact ⟨fun k h => h, by simp⟩
    | none =>
      simp only
      cases h3 : findFile w p.searchPaths n l with
      | none => exact ⟨fun k h => hadd k _ _ h, by simp⟩
      | some f =>
        simp only
        cases h4 : evaluate w m n f (configOf p n) p.qbs with
        | none => exact ⟨fun k h => h, by simp⟩
        | some x =>
          rcases x with ⟨paths, eager⟩
          simp only
          refine ⟨fun k h => hadd k _ _ h, ?_⟩
          intro k hk
          simp only [Option.some.injEq] at hk
          subst hk
          refine ⟨?_, ?_⟩
          · cases eager with
            | true => exact h1
            | false => exact h2
          · rw [lookup_addKey, if_pos rfl]; simp

theorem next_ran (w : World V) (dry : Bool) (c : Cache V) (t : Thread V) :
    (∀ k, lookupKey k c ≠ none → lookupKey k (t.next w dry c).1 ≠ none) ∧
    (∀ k, (t.next w dry c).2.1 = some k → lookupKey k c = none ∧
      lookupKey k (t.next w dry c).1 ≠ none) := by
  rcases t with ⟨todo, cur, done⟩
  unfold Thread.next
  cases cur with
  | none => cases todo <;> exact ⟨fun k h => h, by simp⟩
  | some x =>
    rcases x with ⟨r, rest, found, paths⟩
    cases rest with
    | nil => exact ⟨fun k h => h, by simp⟩
    | cons a rest =>
      rcases a with ⟨n, l⟩
      simp only
      have := findOrCreate_ran w dry r.prod r.module n l c
      generalize findOrCreate w dry r.prod r.module n l c = x at this
      cases x.info with
      | none => exact this
      | some i =>
        simp only
        cases i.file with
        | none => cases l <;> exact this
        | some f => exact this

/-- **C98.** No provider is run twice in a session for the same configuration, not even by threads
that run at the same time: once for each module, or once altogether if it is an eager one. -/
theorem C98_once (w : World V) (dry : Bool) (c : Cache V) (ts : List (Thread V))
    (sched : List Nat) :
    ((State.exec w dry { cache := c, threads := ts } sched).runs).Nodup ∧
    ∀ k ∈ (State.exec w dry { cache := c, threads := ts } sched).runs, lookupKey k c = none := by
  have key : ∀ (sched : List Nat) (s : State V), s.runs.Nodup →
      (∀ k ∈ s.runs, lookupKey k s.cache ≠ none ∧ lookupKey k c = none) →
      (∀ k, lookupKey k c ≠ none → lookupKey k s.cache ≠ none) →
      (s.exec w dry sched).runs.Nodup ∧
      ∀ k ∈ (s.exec w dry sched).runs, lookupKey k c = none := by
    intro sched
    induction sched with
    | nil => intro s h1 h2 _; exact ⟨h1, fun k hk => (h2 k hk).2⟩
    | cons j sched ih =>
      intro s h1 h2 h3
      have hex : s.exec w dry (j :: sched) = (s.step w dry j).exec w dry sched := rfl
      rw [hex]
      cases ht : s.threads[j]? with
      | none =>
        have : s.step w dry j = s := by unfold State.step; rw [ht]
        rw [this]
        exact ih s h1 h2 h3
      | some t =>
      obtain ⟨m1, m2⟩ := next_ran w dry s.cache t
      have hst : s.step w dry j =
          { s with cache := (t.next w dry s.cache).1,
                   runs := s.runs ++ (t.next w dry s.cache).2.1.toList,
                   threads := s.threads.set j (t.next w dry s.cache).2.2 } := by
        unfold State.step; rw [ht]
      rw [hst]
      refine ih _ ?_ ?_ ?_
      · cases hr : (t.next w dry s.cache).2.1 with
        | none => simpa using h1
        | some k =>
          simp only [Option.toList_some]
          rw [List.nodup_append]
          refine ⟨h1, by simp, ?_⟩
          intro a ha b hb
          rw [List.mem_singleton] at hb
          subst hb
          intro he
          subst he
          exact (h2 a ha).1 (m2 a hr).1
      · intro k hk
        rcases List.mem_append.1 hk with hk | hk
        · exact ⟨m1 k (h2 k hk).1, (h2 k hk).2⟩
        · rw [Option.mem_toList] at hk
          obtain ⟨a, b⟩ := m2 k hk
          refine ⟨b, ?_⟩
          cases hl : lookupKey k c with
          | none => rfl
          | some i => exact absurd a (h3 k (by rw [hl]; simp))
      · intro k hk
        exact m1 k (h3 k hk)
  exact key sched _ (by simp) (by simp) (fun k h => h)

/-! ## Directories -/

theorem findOrCreate_file (w : World V) (dry : Bool) (p : Prod V) (m n : Name) (l : Lookup)
    (c : Cache V) : ∀ e ∈ (findOrCreate w dry p m n l c).cache,
    e ∈ c ∨ (e.2.file = none ∧ e.2.transient = false) ∨
      ((findOrCreate w dry p m n l c).ran = some e.1 ∧ e.2.transient = dry) := by
  unfold findOrCreate
  simp only
  cases h1 : lookupKey ⟨n, none, configOf p n, p.qbs, l⟩ c with
  | some i => exact fun e h => Or.inl h
  | none =>
    simp only
    cases h2 : lookupKey ⟨n, some m, configOf p n, p.qbs, l⟩ c with
    | some i => exact fun e h => Or.inl h
    | none =>
      simp only
      cases h3 : findFile w p.searchPaths n l with
      | none =>
        intro e he
        rcases mem_addKey he with rfl | he
        · exact Or.inr (Or.inl ⟨rfl, rfl⟩)
        · exact Or.inl he
      | some f =>
        simp only
        cases h4 : evaluate w m n f (configOf p n) p.qbs with
        | none => exact fun e h => Or.inl h
        | some x =>
          rcases x with ⟨paths, eager⟩
          intro e he
          rcases mem_addKey he with rfl | he
          · exact Or.inr (Or.inr ⟨rfl, rfl⟩)
          · exact Or.inl he

theorem findOrCreate_new (w : World V) (dry : Bool) (p : Prod V) (m n : Name) (l : Lookup)
    (c : Cache V) (k : Key V) (h : (findOrCreate w dry p m n l c).ran = some k) :
    ∃ i, (k, i) ∈ (findOrCreate w dry p m n l c).cache ∧ i.transient = dry := by
  unfold findOrCreate at h ⊢
  simp only at h ⊢
  cases h1 : lookupKey ⟨n, none, configOf p n, p.qbs, l⟩ c with
  | some i => rw [h1] at h; simp at h
  | none =>
    rw [h1] at h
    simp only at h ⊢
    cases h2 : lookupKey ⟨n, some m, configOf p n, p.qbs, l⟩ c with
    | some i => rw [h2] at h; simp at h
    | none =>
      rw [h2] at h
      simp only at h ⊢
      cases h3 : findFile w p.searchPaths n l with
      | none => rw [h3] at h; simp at h
      | some f =>
        rw [h3] at h
        simp only at h ⊢
        cases h4 : evaluate w m n f (configOf p n) p.qbs with
        | none => rw [h4] at h; simp at h
        | some x =>
          rcases x with ⟨paths, eager⟩
          rw [h4] at h
          simp only [Option.some.injEq] at h ⊢
          subst h
          exact ⟨_, List.mem_cons_self, rfl⟩

theorem addKey_keep {k : Key V} {i : Info V} {c : Cache V} {e : Key V × Info V}
    (h : e ∈ c) (hk : lookupKey k c = none) : e ∈ addKey k i c := by
  unfold addKey
  refine List.mem_cons_of_mem _ (List.mem_filter.2 ⟨h, ?_⟩)
  unfold lookupKey at hk
  simp only [Option.map_eq_none_iff] at hk
  rw [List.find?_eq_none] at hk
  have := hk e h
  simpa using this

theorem findOrCreate_keep (w : World V) (dry : Bool) (p : Prod V) (m n : Name) (l : Lookup)
    (c : Cache V) : ∀ e ∈ c, e ∈ (findOrCreate w dry p m n l c).cache := by
  intro e he
  unfold findOrCreate
  simp only
  cases h1 : lookupKey ⟨n, none, configOf p n, p.qbs, l⟩ c with
  | some i => exact he
  | none =>
    simp only
    cases h2 : lookupKey ⟨n, some m, configOf p n, p.qbs, l⟩ c with
    | some i => exact he
    | none =>
      simp only
      cases h3 : findFile w p.searchPaths n l with
      | none => exact addKey_keep he h2
      | some f =>
        simp only
        cases h4 : evaluate w m n f (configOf p n) p.qbs with
        | none => exact he
        | some x =>
          rcases x with ⟨paths, eager⟩
          simp only
          cases eager with
          | true => exact addKey_keep he h1
          | false => exact addKey_keep he h2

theorem next_file (w : World V) (dry : Bool) (c : Cache V) (t : Thread V) :
    (∀ e ∈ (t.next w dry c).1, e ∈ c ∨ (e.2.file = none ∧ e.2.transient = false) ∨
      ((t.next w dry c).2.1 = some e.1 ∧ e.2.transient = dry)) ∧
    (∀ k, (t.next w dry c).2.1 = some k → ∃ i, (k, i) ∈ (t.next w dry c).1 ∧ i.transient = dry) ∧
    (∀ e ∈ c, e ∈ (t.next w dry c).1) := by
  have triv : (∀ e ∈ c, e ∈ c ∨ (e.2.file = none ∧ e.2.transient = false) ∨
      ((none : Option (Key V)) = some e.1 ∧ e.2.transient = dry)) ∧
      (∀ k, (none : Option (Key V)) = some k → ∃ i, (k, i) ∈ c ∧ i.transient = dry) ∧
      (∀ e ∈ c, e ∈ c) := ⟨fun e h => Or.inl h, by simp, fun e h => h⟩
  rcases t with ⟨todo, cur, done⟩
  unfold Thread.next
  cases cur with
  | none => cases todo <;> exact triv
  | some x =>
    rcases x with ⟨r, rest, found, paths⟩
    cases rest with
    | nil => exact triv
    | cons a rest =>
      rcases a with ⟨n, l⟩
      simp only
      have h1 := findOrCreate_file w dry r.prod r.module n l c
      have h2 := findOrCreate_new w dry r.prod r.module n l c
      have h3 := findOrCreate_keep w dry r.prod r.module n l c
      generalize findOrCreate w dry r.prod r.module n l c = x at h1 h2 h3
      have h := And.intro h1 (And.intro h2 h3)
      cases x.info with
      | none => exact h
      | some i =>
        simp only
        cases i.file with
        | none => cases l <;> exact h
        | some f => exact h

/-- The entries and the runs of a session. -/
theorem exec_file (w : World V) (dry : Bool) (c : Cache V) (ts : List (Thread V))
    (sched : List Nat) (s : State V)
    (hs : State.exec w dry { cache := c, threads := ts } sched = s) :
    (∀ e ∈ s.cache, e ∈ c ∨ (e.2.file = none ∧ e.2.transient = false) ∨
      (e.1 ∈ s.runs ∧ e.2.transient = dry)) ∧
    (∀ k ∈ s.runs, ∃ i, (k, i) ∈ s.cache ∧ i.transient = dry) := by
  subst hs
  have key : ∀ (sched : List Nat) (s : State V),
      (∀ e ∈ s.cache, e ∈ c ∨ (e.2.file = none ∧ e.2.transient = false) ∨
        (e.1 ∈ s.runs ∧ e.2.transient = dry)) →
      (∀ k ∈ s.runs, ∃ i, (k, i) ∈ s.cache ∧ i.transient = dry) →
      (∀ e ∈ (s.exec w dry sched).cache, e ∈ c ∨ (e.2.file = none ∧ e.2.transient = false) ∨
        (e.1 ∈ (s.exec w dry sched).runs ∧ e.2.transient = dry)) ∧
      (∀ k ∈ (s.exec w dry sched).runs,
        ∃ i, (k, i) ∈ (s.exec w dry sched).cache ∧ i.transient = dry) := by
    intro sched
    induction sched with
    | nil => intro s h1 h2; exact ⟨h1, h2⟩
    | cons j sched ih =>
      intro s h1 h2
      have hex : s.exec w dry (j :: sched) = (s.step w dry j).exec w dry sched := rfl
      rw [hex]
      cases ht : s.threads[j]? with
      | none =>
        have : s.step w dry j = s := by unfold State.step; rw [ht]
        rw [this]
        exact ih s h1 h2
      | some t =>
      obtain ⟨m1, m2, m3⟩ := next_file w dry s.cache t
      have hst : s.step w dry j =
          { s with cache := (t.next w dry s.cache).1,
                   runs := s.runs ++ (t.next w dry s.cache).2.1.toList,
                   threads := s.threads.set j (t.next w dry s.cache).2.2 } := by
        unfold State.step; rw [ht]
      rw [hst]
      refine ih _ ?_ ?_
      · intro e he
        rcases m1 e he with h | h | ⟨h, h'⟩
        · rcases h1 e h with h | h | ⟨h, h'⟩
          · exact Or.inl h
          · exact Or.inr (Or.inl h)
          · exact Or.inr (Or.inr ⟨List.mem_append_left _ h, h'⟩)
        · exact Or.inr (Or.inl h)
        · exact Or.inr (Or.inr ⟨List.mem_append_right _ (by rw [h]; simp), h'⟩)
      · intro k hk
        rcases List.mem_append.1 hk with hk | hk
        · obtain ⟨i, hi, hh⟩ := h2 k hk
          exact ⟨i, m3 _ hi, hh⟩
        · rw [Option.mem_toList] at hk
          exact m2 k hk
  exact key sched _ (fun e h => Or.inl h) (by simp)

omit [DecidableEq V] in
theorem mem_cleanup {c : Cache V} {dirs : List (Name × String)} {x : Name × String} :
    x ∈ cleanup c dirs ↔ x ∈ dirs ∧ ∀ e ∈ c, e.2.transient = true → e.1.name ≠ x.1 := by
  unfold cleanup
  rw [List.mem_filter]
  constructor
  · rintro ⟨h1, h2⟩
    refine ⟨h1, ?_⟩
    intro e he ht hn
    rw [Bool.not_eq_true', ← Bool.not_eq_true] at h2
    apply h2
    rw [List.any_eq_true]
    exact ⟨e, he, by simp [ht, hn]⟩
  · rintro ⟨h1, h2⟩
    refine ⟨h1, ?_⟩
    rw [Bool.not_eq_true', ← Bool.not_eq_true]
    intro h
    rw [List.any_eq_true] at h
    obtain ⟨e, he, h⟩ := h
    rw [Bool.and_eq_true] at h
    exact h2 e he h.1 (by simpa using h.2)

theorem mem_dirs {w : World V} {d : List (Name × String)} {runs : List (Key V)}
    {x : Name × String} : x ∈ d ++ (runs.map (dirOf w)).filter (fun y => !d.contains y) ↔
      x ∈ d ∨ ∃ k ∈ runs, dirOf w k = x := by
  rw [List.mem_append, List.mem_filter, List.mem_map]
  constructor
  · rintro (h | ⟨h, _⟩)
    · exact Or.inl h
    · exact Or.inr h
  · rintro (h | h)
    · exact Or.inl h
    · by_cases hx : x ∈ d
      · exact Or.inl hx
      · exact Or.inr ⟨h, by simpa using hx⟩

/-- **C99, part.** After a session that is not a dry run, every result in the stored build graph
still has the directory with the modules that the provider made.  Missing: dry runs (see
`C99_dry_removes`). -/
theorem C99_stored_partial (w : World V) (force : Bool) (ts : List (Thread V)) (sched : List Nat)
    (d : Disk V) (hd : DirsOk w d) : DirsOk w (session w false force ts sched d).1 := by
  unfold session
  simp only [Bool.false_eq_true, if_false]
  generalize hs : State.exec w false { cache := (if force = true then [] else d.stored.map fun e => (e.1, { e.2 with transient := false })), threads := ts } sched = s
  obtain ⟨h1, _⟩ := exec_file w false _ ts sched s hs
  intro e he hf
  obtain ⟨e0, he0, rfl⟩ := List.mem_map.1 he
  simp only at hf ⊢
  rw [mem_cleanup]
  refine ⟨?_, ?_⟩
  · rw [mem_dirs]
    rcases h1 e0 he0 with h | h | ⟨h, _⟩
    · left
      cases force with
      | true => simp at h
      | false =>
        simp only [Bool.false_eq_true, if_false] at h
        obtain ⟨e1, he1, rfl⟩ := List.mem_map.1 h
        exact hd e1 he1 hf
    · exact absurd h.1 hf
    · exact Or.inr ⟨e0.1, h, rfl⟩
  · intro x hx ht
    obtain ⟨y, _, rfl⟩ := List.mem_map.1 hx
    simp at ht

/-- **C99.** A session that is not a dry run removes no directory of a provider. -/
theorem C99_real_keeps (w : World V) (force : Bool) (ts : List (Thread V)) (sched : List Nat)
    (d : Disk V) : ∀ x ∈ d.dirs, x ∈ (session w false force ts sched d).1.dirs := by
  intro x hx
  unfold session
  simp only [Bool.false_eq_true, if_false]
  rw [mem_cleanup]
  refine ⟨mem_dirs.2 (Or.inl hx), ?_⟩
  intro y hy ht
  obtain ⟨z, _, rfl⟩ := List.mem_map.1 hy
  simp at ht

/-- **C99, part.** A dry run does not change the stored build graph, leaves nothing behind of what
providers made, and removes nothing of providers that it did not run.  Missing: it should remove
nothing else at all (see `C99_dry_removes`). -/
theorem C99_dry_partial (w : World V) (force : Bool) (ts : List (Thread V)) (sched : List Nat)
    (d d' : Disk V) (s : State V) (h : session w true force ts sched d = (d', s)) :
    d'.stored = d.stored ∧ (∀ x ∈ d'.dirs, x ∈ d.dirs) ∧
    (∀ k ∈ s.runs, dirOf w k ∉ d'.dirs) ∧
    (∀ x ∈ d.dirs, x ∉ d'.dirs → ∃ k ∈ s.runs, k.name = x.1) := by
  unfold session at h
  simp only [if_true] at h
  generalize hs : State.exec w true { cache := (if force = true then [] else d.stored.map fun e => (e.1, { e.2 with transient := false })), threads := ts } sched = s0 at h
  obtain ⟨h1, h2⟩ := exec_file w true _ ts sched s0 hs
  simp only [_root_.Prod.mk.injEq] at h
  obtain ⟨rfl, rfl⟩ := h
  have hrun : ∀ k ∈ s0.runs, dirOf w k ∉ cleanup s0.cache
      (d.dirs ++ (s0.runs.map (dirOf w)).filter (fun x => !d.dirs.contains x)) := by
    intro k hk hm
    obtain ⟨i, hi, ht⟩ := h2 k hk
    exact (mem_cleanup.1 hm).2 (k, i) hi ht rfl
  refine ⟨rfl, ?_, hrun, ?_⟩
  · intro x hx
    rcases mem_dirs.1 (mem_cleanup.1 hx).1 with h | ⟨k, hk, rfl⟩
    · exact h
    · exact absurd hx (hrun k hk)
  · intro x hx hn
    rw [mem_cleanup] at hn
    have : ¬ ∀ e ∈ s0.cache, e.2.transient = true → e.1.name ≠ x.1 :=
      fun h' => hn ⟨mem_dirs.2 (Or.inl hx), h'⟩
    obtain ⟨e, he⟩ := Classical.not_forall.1 this
    simp only [Classical.not_imp, ne_eq, Classical.not_not] at he
    obtain ⟨hm, ht, hname⟩ := he
    rcases h1 e hm with h | h | ⟨h, _⟩
    · exfalso
      cases force with
      | true => simp at h
      | false =>
        simp only [Bool.false_eq_true, if_false] at h
        obtain ⟨e1, _, rfl⟩ := List.mem_map.1 h
        simp at ht
    · rw [h.2] at ht; cases ht
    · exact ⟨e.1, h, hname⟩

end Verif.Provider
