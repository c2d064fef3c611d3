import Verif.PathProbe.Spec

/-! # Lemmas -/

namespace Verif.PathProbe

theorem suitable_iff (w : World) (i : Input) (f : Text) : suitable w i f = true ↔ Accepted w i f := by
  unfold suitable Accepted
  cases i.candidateFilter with
  | none => simp
  | some g => simp

/-! ## Paths -/

theorem splitOn_ne (sep : Char) (s : Text) : ∃ w ws, splitOn sep s = w :: ws := by
  cases s with
  | nil => exact ⟨[], [], rfl⟩
  | cons c s =>
    rw [splitOn]
    split
    · exact ⟨_, _, rfl⟩
    · split <;> exact ⟨_, _, rfl⟩

theorem splitOn_sep (sep : Char) (s : Text) : splitOn sep (sep :: s) = [] :: splitOn sep s := by
  rw [splitOn, if_pos rfl]

theorem splitOn_append (sep : Char) (a b : Text) : splitOn sep (a ++ sep :: b) = splitOn sep a ++ splitOn sep b := by
  induction a with
  | nil => rw [List.nil_append, splitOn_sep]; rfl
  | cons c a ih =>
    rw [List.cons_append, splitOn, splitOn, ih]
    split
    · rfl
    · obtain ⟨w, ws, h⟩ := splitOn_ne sep a
      rw [h]
      rfl

theorem comps_append (a b : Text) : comps (a ++ '/' :: b) = comps a ++ comps b := by
  unfold comps
  rw [splitOn_append, List.filter_append]

theorem splitOn_cons {c : Char} (h : c ≠ '/') {s w : Text} {ws : List Text} (hs : splitOn '/' s = w :: ws) :
    splitOn '/' (c :: s) = (c :: w) :: ws := by
  rw [splitOn, if_neg h, hs]

/-- The first part is the same, and the others are the same but for empty ones. -/
theorem splitOn_unique (s : Text) : ∃ w ws ws', splitOn '/' (unique s) = w :: ws ∧ splitOn '/' s = w :: ws' ∧
    ws.filter (fun c => !c.isEmpty) = ws'.filter (fun c => !c.isEmpty) := by
  fun_induction unique s with
  | case1 => exact ⟨[], [], [], rfl, rfl, rfl⟩
  | case2 c =>
    obtain ⟨w, ws, h⟩ := splitOn_ne '/' [c]
    exact ⟨w, ws, ws, h, h, rfl⟩
  | case3 c d s h ih =>
    obtain ⟨rfl, rfl⟩ := h
    obtain ⟨w, ws, ws', h1, h2, h3⟩ := ih
    have hw : w = [] := by
      rw [splitOn_sep] at h2
      injection h2 with h2 _
      exact h2.symm
    subst hw
    exact ⟨[], ws, [] :: ws', h1, by rw [splitOn_sep, h2], by simpa using h3⟩
  | case4 c d s h ih =>
    obtain ⟨w, ws, ws', h1, h2, h3⟩ := ih
    by_cases hc : c = '/'
    · subst hc
      refine ⟨[], w :: ws, w :: ws', by rw [splitOn_sep, h1], by rw [splitOn_sep, h2], ?_⟩
      simp only [List.filter_cons]
      rw [h3]
    · exact ⟨c :: w, ws, ws', splitOn_cons hc h1, splitOn_cons hc h2, h3⟩

theorem comps_unique (s : Text) : comps (unique s) = comps s := by
  obtain ⟨w, ws, ws', h1, h2, h3⟩ := splitOn_unique s
  unfold comps
  rw [h1, h2, List.filter_cons, List.filter_cons, h3]

theorem comps_join (ps : List Text) : comps (joinSlash ps) = ps.flatMap comps := by
  fun_induction joinSlash ps with
  | case1 => rfl
  | case2 p => simp
  | case3 p ps h ih => rw [comps_append, ih]; rfl

theorem comps_nil : comps [] = [] := rfl

theorem flatMap_filter (ps : List Text) : (ps.filter (fun p => !p.isEmpty)).flatMap comps = ps.flatMap comps := by
  induction ps with
  | nil => rfl
  | cons p ps ih =>
    cases p with
    | nil => simpa [comps_nil] using ih
    | cons c p => simp [ih]

theorem unique_head (s : Text) : (unique s).head? = s.head? := by
  fun_induction unique s with
  | case1 => rfl
  | case2 => rfl
  | case3 c d s h ih => rw [ih, h.1, h.2]; rfl
  | case4 => rfl

theorem join_head {p : Text} {ps : List Text} (h : p ≠ []) : (joinSlash (p :: ps)).head? = p.head? := by
  cases p with
  | nil => exact absurd rfl h
  | cons c p => cases ps <;> rfl

/-- No two separators in a row -/
def Clean (s : Text) : Prop := ∀ a b, s ≠ a ++ '/' :: '/' :: b

theorem clean_unique (s : Text) : Clean (unique s) := by
  fun_induction unique s with
  | case1 => intro a b h; simp at h
  | case2 c =>
    intro a b h
    have := congrArg List.length h
    simp at this
    omega
  | case3 c d s h ih => exact ih
  | case4 c d s h ih =>
    intro a b e
    cases a with
    | nil =>
      injection e with e1 e2
      have := unique_head (d :: s)
      rw [e2] at this
      injection this with this
      exact h ⟨e1, this.symm⟩
    | cons x a =>
      injection e with _ e2
      exact ih a b e2

theorem unique_clean {s : Text} (h : Clean s) : unique s = s := by
  fun_induction unique s with
  | case1 => rfl
  | case2 => rfl
  | case3 c d s h' ih =>
    obtain ⟨rfl, rfl⟩ := h'
    exact absurd rfl (h [] s)
  | case4 c d s h' ih =>
    rw [ih]
    intro a b e
    exact h (c :: a) b (by rw [e]; rfl)

/-- Separators can be removed before or after something is appended. -/
theorem unique_append (a b : Text) : unique (unique a ++ b) = unique (a ++ b) := by
  fun_induction unique a with
  | case1 => rfl
  | case2 => rfl
  | case3 c d s h ih =>
    rw [ih]
    rw [List.cons_append, List.cons_append, List.cons_append, unique, if_pos h]
  | case4 c d s h ih =>
    have hh := unique_head (d :: s)
    cases hu : unique (d :: s) with
    | nil => rw [hu] at hh; cases hh
    | cons x t =>
      rw [hu] at hh ih
      injection hh with hx
      subst hx
      rw [List.cons_append, List.cons_append, unique, if_neg h, List.cons_append, List.cons_append, unique, if_neg h]
      rw [List.cons_append, List.cons_append] at ih
      rw [ih]

/-! ## Loops -/

theorem loopK_spec (w : World) (i : Input) (n p : Text) (ss cands : List Text) :
    (loopK w i n p ss cands = .go (cands ++ (ss.map fun s => (n, p, s)).map Cand.file) ∧
      ∀ t ∈ ss.map (fun s => ((n, p, s) : Cand)), ¬ Accepted w i (Cand.file t)) ∨
    ∃ a t b, ss.map (fun s => ((n, p, s) : Cand)) = a ++ t :: b ∧ (∀ x ∈ a, ¬ Accepted w i (Cand.file x)) ∧ Accepted w i (Cand.file t) ∧
      loopK w i n p ss cands = .done ⟨true, cands ++ (a ++ [t]).map Cand.file, some (Cand.file t), some t.1, some (Cand.dir t)⟩ := by
  induction ss generalizing cands with
  | nil => left; simp [loopK]
  | cons s ss ih =>
    rw [loopK]
    by_cases h : suitable w i (joinPaths [p, s, n]) = true
    · right
      refine ⟨[], (n, p, s), ss.map fun s => (n, p, s), rfl, by simp, (suitable_iff _ _ _).1 h, ?_⟩
      simp only [h, if_true]
      rfl
    · simp only [h, Bool.false_eq_true, if_false]
      have h' : ¬ Accepted w i (Cand.file (n, p, s)) := fun e => h ((suitable_iff _ _ _).2 e)
      rcases ih (cands ++ [joinPaths [p, s, n]]) with ⟨h1, h2⟩ | ⟨a, t, b, h1, h2, h3, h4⟩
      · left
        refine ⟨by rw [h1]; simp [Cand.file], ?_⟩
        intro t ht
        rcases List.mem_cons.1 ht with rfl | ht
        · exact h'
        · exact h2 t ht
      · right
        refine ⟨(n, p, s) :: a, t, b, by rw [List.map_cons, h1]; rfl, ?_, h3, by rw [h4]; simp [Cand.file]⟩
        intro x hx
        rcases List.mem_cons.1 hx with rfl | hx
        · exact h'
        · exact h2 x hx

/-- What a loop over candidates does -/
def Does (w : World) (i : Input) (ts : List Cand) (cands : List Text) (r : Step) : Prop :=
  (r = .go (cands ++ ts.map Cand.file) ∧ ∀ t ∈ ts, ¬ Accepted w i (Cand.file t)) ∨
  ∃ a t b, ts = a ++ t :: b ∧ (∀ x ∈ a, ¬ Accepted w i (Cand.file x)) ∧ Accepted w i (Cand.file t) ∧
    r = .done ⟨true, cands ++ (a ++ [t]).map Cand.file, some (Cand.file t), some t.1, some (Cand.dir t)⟩

theorem does_seq {w : World} {i : Input} {ts us : List Cand} {cands : List Text} {r r' : Step}
    (h : Does w i ts cands r) (h' : ∀ c, r = .go c → Does w i us c r') (hd : ∀ f, r = .done f → r' = .done f) :
    Does w i (ts ++ us) cands r' := by
  rcases h with ⟨h1, h2⟩ | ⟨a, t, b, h1, h2, h3, h4⟩
  · rcases h' _ h1 with ⟨h5, h6⟩ | ⟨a, t, b, h5, h6, h7, h8⟩
    · left
      refine ⟨by rw [h5]; simp, fun t ht => ?_⟩
      rcases List.mem_append.1 ht with ht | ht
      · exact h2 t ht
      · exact h6 t ht
    · right
      refine ⟨ts ++ a, t, b, by rw [h5]; simp, fun x hx => ?_, h7, by rw [h8]; simp⟩
      rcases List.mem_append.1 hx with hx | hx
      · exact h2 x hx
      · exact h6 x hx
  · right
    exact ⟨a, t, b ++ us, by rw [h1]; simp, h2, h3, hd _ h4⟩

theorem loopJ_spec (w : World) (i : Input) (n : Text) (ps cands : List Text) :
    Does w i (ps.flatMap fun p => (suffixes i).map fun s => (n, p, s)) cands (loopJ w i n ps cands) := by
  induction ps generalizing cands with
  | nil => left; simp [loopJ]
  | cons p ps ih =>
    rw [List.flatMap_cons]
    refine does_seq (r := loopK w i n p (suffixes i) cands) (loopK_spec w i n p (suffixes i) cands) (fun c hc => ?_) (fun f hf => ?_)
    · rw [loopJ, hc]; exact ih c
    · rw [loopJ, hf]

theorem loopI_spec (w : World) (i : Input) (ns cands : List Text) :
    Does w i (order ns (paths w i) (suffixes i)) cands (loopI w i ns cands) := by
  induction ns generalizing cands with
  | nil => left; simp [loopI, order]
  | cons n ns ih =>
    unfold order
    rw [List.flatMap_cons]
    refine does_seq (r := loopJ w i n (paths w i) cands) (loopJ_spec w i n (paths w i) cands) (fun c hc => ?_) (fun f hf => ?_)
    · rw [loopI, hc]; exact ih c
    · rw [loopI, hf]

theorem mem_envs (w : World) (envs : List Text) (p : Text) :
    p ∈ pathsFromEnvs w envs ↔ ∃ e ∈ envs, ∃ v, w.getEnv e = some v ∧ v ≠ [] ∧ p ∈ splitOn ':' v := by
  have : ∀ (l acc : List Text), p ∈ l.foldl (fun result e =>
      let value := (w.getEnv e).getD []
      if value ≠ [] then result ++ splitOn ':' value else result) acc ↔
      p ∈ acc ∨ ∃ e ∈ l, ∃ v, w.getEnv e = some v ∧ v ≠ [] ∧ p ∈ splitOn ':' v := by
    intro l
    induction l with
    | nil => intro acc; simp
    | cons e l ih =>
      intro acc
      rw [List.foldl_cons, ih]
      cases hv : w.getEnv e with
      | none => simp [hv]
      | some v =>
        by_cases hn : v = []
        · subst hn; simp [hv]
        · simp [hv, hn, or_assoc]
  have h := this envs []
  simpa [pathsFromEnvs] using h

theorem mem_paths (w : World) (i : Input) (p : Text) : p ∈ paths w i ↔ Dir w i p := by
  unfold paths
  simp only [List.mem_append, mem_envs]
  constructor
  · rintro (((⟨e, h1, v, h2, h3, h4⟩ | h) | ⟨e, h1, v, h2, h3, h4⟩) | h)
    · exact .env (.inl h1) h2 h3 h4
    · exact .search h
    · exact .env (.inr h1) h2 h3 h4
    · exact .platform h
  · intro h
    cases h with
    | search h => exact .inl (.inl (.inr h))
    | platform h => exact .inr h
    | env h1 h2 h3 h4 =>
      rcases h1 with h1 | h1
      · exact .inl (.inl (.inl ⟨_, h1, _, h2, h3, h4⟩))
      · exact .inl (.inr ⟨_, h1, _, h2, h3, h4⟩)

theorem mem_names (i : Input) (c : Canonical) (n : Text) : n ∈ fullNames i c ↔ NameOf i c n := by
  unfold fullNames
  simp only [List.mem_flatMap, List.mem_map]
  constructor
  · rintro ⟨m, hm, s, hs, rfl⟩
    have h2 : c.nameSuffixes = none ∧ s = [] ∨ ∃ l, c.nameSuffixes = some l ∧ s ∈ l := by
      cases h : c.nameSuffixes with
      | none => rw [h] at hs; simp at hs; exact .inl ⟨rfl, hs⟩
      | some l => rw [h] at hs; exact .inr ⟨l, rfl, hs⟩
    cases hf : i.nameFilter with
    | none =>
      rw [hf] at hm
      exact .mk hm (.inl ⟨hf, rfl⟩) h2
    | some f =>
      rw [hf] at hm
      obtain ⟨n, h3, h4⟩ := List.mem_flatMap.1 hm
      exact .mk h3 (.inr ⟨f, hf, h4⟩) h2
  · rintro ⟨hn, hf, hs⟩
    rename_i n m s
    refine ⟨m, ?_, s, ?_, rfl⟩
    · rcases hf with ⟨hf, rfl⟩ | ⟨f, hf, hm⟩
      · rw [hf]; exact hn
      · rw [hf]; exact List.mem_flatMap.2 ⟨n, hn, hm⟩
    · rcases hs with ⟨hs, rfl⟩ | ⟨l, hs, hm⟩
      · rw [hs]; simp
      · rw [hs]; exact hm

theorem mem_order {ns ds ss : List Text} {t : Cand} : t ∈ order ns ds ss ↔ t.1 ∈ ns ∧ t.2.1 ∈ ds ∧ t.2.2 ∈ ss := by
  obtain ⟨n, d, s⟩ := t
  simp only [order, List.mem_flatMap, List.mem_map]
  constructor
  · rintro ⟨a, h1, b, h2, c, h3, e⟩
    cases e
    exact ⟨h1, h2, h3⟩
  · rintro ⟨h1, h2, h3⟩
    exact ⟨n, h1, d, h2, s, h3, rfl⟩

end Verif.PathProbe
