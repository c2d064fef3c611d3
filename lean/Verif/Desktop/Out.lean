import Verif.Desktop.Inv

/-! # Lemmas: writing files -/

namespace Verif.Desktop

/-- The lines of a section -/
def sectLines (s : Text × Obj) : List Line := .sect s.1 :: s.2.map (fun e => .entry e.1 (text e.2)) ++ [.blank]

def outLines (file : List (Text × Obj)) : List Line := file.flatMap sectLines

theorem written_self (l : Line) : Written l.body l := ⟨[], [], by simp, by simp, by simp⟩

theorem allWritten_append {rs rs' : List Text} {ls ls' : List Line} (h : AllWritten rs ls) (h' : AllWritten rs' ls') :
    AllWritten (rs ++ rs') (ls ++ ls') := by
  induction h with
  | nil => exact h'
  | cons h1 _ ih => exact .cons h1 ih

theorem allWritten_map (ls : List Line) : AllWritten (ls.map Line.body) ls := by
  induction ls with
  | nil => exact .nil
  | cons l ls ih => exact .cons (written_self l) ih

theorem dump_eq (file : List (Text × Obj)) : dump file = (outLines file).map Line.body := by
  unfold dump outLines
  rw [List.map_flatMap]
  congr 1
  funext s
  simp [sectLines, Line.body]

theorem cur_entries (L : List Line) (n : Text) (es : Obj) (s : Text) :
    Cur (L ++ .sect n :: es.map (fun e => .entry e.1 (text e.2))) s ↔ s = n := by
  induction es using snoc_induction with
  | nil => exact cur_sect L n s
  | append_singleton es e ih =>
    rw [List.map_append, ← List.cons_append, ← List.append_assoc, List.map_cons, List.map_nil, cur_other (by simp)]
    exact ih

theorem has_entries (L : List Line) (n : Text) (es : Obj) (s k v : Text) :
    Has (L ++ .sect n :: es.map (fun e => .entry e.1 (text e.2))) s k v ↔
      Has L s k v ∨ (s = n ∧ ∃ e ∈ es, e.1 = k ∧ text e.2 = v) := by
  induction es using snoc_induction with
  | nil => rw [List.map_nil, has_snoc]; simp
  | append_singleton es e ih =>
    rw [List.map_append, ← List.cons_append, ← List.append_assoc, List.map_cons, List.map_nil, has_snoc, ih, cur_entries]
    constructor
    · rintro ((h | ⟨h1, x, hx, h2⟩) | ⟨h1, h2⟩)
      · exact .inl h
      · exact .inr ⟨h1, x, by simp [hx], h2⟩
      · injection h1 with h3 h4
        exact .inr ⟨h2, e, by simp, h3, h4⟩
    · rintro (h | ⟨h1, x, hx, h2, h3⟩)
      · exact .inl (.inl h)
      · rcases List.mem_append.1 hx with hx | hx
        · exact .inl (.inr ⟨h1, x, hx, h2, h3⟩)
        · have : x = e := by simpa using hx
          subst this
          exact .inr ⟨by rw [h2, h3], h1⟩

theorem has_out (file : List (Text × Obj)) (s k v : Text) :
    Has (outLines file) s k v ↔ ∃ o, (s, o) ∈ file ∧ ∃ e ∈ o, e.1 = k ∧ text e.2 = v := by
  induction file using snoc_induction with
  | nil =>
    constructor
    · rintro ⟨x, b, c, h, -⟩; simp [outLines] at h
    · rintro ⟨o, h, -⟩; cases h
  | append_singleton file p ih =>
    have e : outLines (file ++ [p]) = (outLines file ++ .sect p.1 :: p.2.map (fun e => .entry e.1 (text e.2))) ++ [.blank] := by
      simp [outLines, sectLines]
    rw [e, has_snoc, has_entries, ih]
    constructor
    · rintro ((⟨o, h1, h2⟩ | ⟨h1, h2⟩) | ⟨h1, -⟩)
      · exact ⟨o, by simp [h1], h2⟩
      · exact ⟨p.2, by simp [h1], h2⟩
      · cases h1
    · rintro ⟨o, h1, h2⟩
      rcases List.mem_append.1 h1 with h | h
      · exact .inl (.inl ⟨o, h, h2⟩)
      · have : (s, o) = p := by simpa using h
        subst this
        exact .inl (.inr ⟨rfl, h2⟩)

theorem sect_out (file : List (Text × Obj)) (s : Text) : Line.sect s ∈ outLines file ↔ s ∈ file.map Prod.fst := by
  unfold outLines
  rw [List.mem_flatMap, List.mem_map]
  constructor
  · rintro ⟨p, hp, h⟩
    refine ⟨p, hp, ?_⟩
    simp [sectLines] at h
    exact h.symm
  · rintro ⟨p, hp, rfl⟩
    exact ⟨p, hp, by simp [sectLines]⟩

theorem entry_out {file : List (Text × Obj)} {k v : Text} (h : Line.entry k v ∈ outLines file) : ∃ s, Has (outLines file) s k v := by
  unfold outLines at h
  obtain ⟨p, hp, h⟩ := List.mem_flatMap.1 h
  refine ⟨p.1, (has_out file p.1 k v).2 ⟨p.2, hp, ?_⟩⟩
  simp [sectLines] at h
  obtain ⟨a, b, h1, h2, h3⟩ := h
  exact ⟨(a, b), h1, h2, h3⟩

/-! ## Merging -/

theorem get_override {keys : List (Text × Text)} (hn : (keys.map Prod.fst).Nodup) (o : Obj) (k : Text) :
    (∀ v, (k, v) ∈ keys → get k (override keys o) = some (some v)) ∧
    ((∀ v, (k, v) ∉ keys) → get k (override keys o) = get k o) := by
  induction keys generalizing o with
  | nil => exact ⟨fun v h => (by cases h), fun _ => rfl⟩
  | cons p keys ih =>
    rw [List.map_cons, List.nodup_cons] at hn
    have e : override (p :: keys) o = override keys (set p.1 (some p.2) o) := rfl
    obtain ⟨h1, h2⟩ := ih hn.2 (set p.1 (some p.2) o)
    refine ⟨fun v h => ?_, fun h => ?_⟩
    · rw [e]
      rcases List.mem_cons.1 h with h | h
      · rw [h2, get_set, if_pos (by rw [← h]), ← h]
        intro w hw
        apply hn.1
        rw [← h]
        exact List.mem_map.2 ⟨_, hw, rfl⟩
      · exact h1 v h
    · rw [e, h2 (fun v hv => h v (by simp [hv])), get_set, if_neg]
      intro hk
      exact h p.2 (by rw [hk]; simp)

theorem get_defaults {ds : List (Text × Text)} (hn : (ds.map Prod.fst).Nodup) (o : Obj) (k : Text) :
    (∀ w, get k o = some w → get k (addDefaults ds o) = some w) ∧
    (get k o = none → (∀ v, (k, v) ∈ ds → get k (addDefaults ds o) = some (some v)) ∧
      ((∀ v, (k, v) ∉ ds) → get k (addDefaults ds o) = none)) := by
  induction ds generalizing o with
  | nil => exact ⟨fun w h => h, fun h => ⟨fun v h => (by cases h), fun _ => h⟩⟩
  | cons p ds ih =>
    rw [List.map_cons, List.nodup_cons] at hn
    have e : addDefaults (p :: ds) o = addDefaults ds (if (get p.1 o).isSome then o else set p.1 (some p.2) o) := rfl
    rw [e]
    by_cases hp : (get p.1 o).isSome = true
    · rw [if_pos hp]
      obtain ⟨h1, h2⟩ := ih hn.2 o
      refine ⟨h1, fun hk => ⟨fun v hv => ?_, fun hv => (h2 hk).2 (fun v hm => hv v (by simp [hm]))⟩⟩
      rcases List.mem_cons.1 hv with h | h
      · rw [← h, hk] at hp; cases hp
      · exact (h2 hk).1 v h
    · rw [if_neg hp]
      obtain ⟨h1, h2⟩ := ih hn.2 (set p.1 (some p.2) o)
      refine ⟨fun w hw => ?_, fun hk => ⟨fun v hv => ?_, fun hv => ?_⟩⟩
      · apply h1
        rw [get_set, if_neg]
        · exact hw
        · intro hk; rw [← hk, hw] at hp; exact hp rfl
      · rcases List.mem_cons.1 hv with h | h
        · apply h1
          rw [get_set, if_pos (by rw [← h]), ← h]
        · have : k ≠ p.1 := by
            intro hk'
            apply hn.1
            rw [← hk']
            exact List.mem_map.2 ⟨_, h, rfl⟩
          exact (h2 (by rw [get_set, if_neg this]; exact hk)).1 v h
      · have : k ≠ p.1 := by
          intro hk'
          exact hv p.2 (by rw [hk']; simp)
        exact (h2 (by rw [get_set, if_neg this]; exact hk)).2 (fun v hm => hv v (by simp [hm]))

theorem nodup_override (keys : List (Text × Text)) {o : Obj} (h : (o.map Prod.fst).Nodup) : ((override keys o).map Prod.fst).Nodup := by
  induction keys generalizing o with
  | nil => exact h
  | cons p keys ih => exact ih (nodup_set _ _ h)

theorem nodup_defaults (ds : List (Text × Text)) {o : Obj} (h : (o.map Prod.fst).Nodup) : ((addDefaults ds o).map Prod.fst).Nodup := by
  induction ds generalizing o with
  | nil => exact h
  | cons p ds ih =>
    show ((addDefaults ds (if (get p.1 o).isSome then o else set p.1 (some p.2) o)).map Prod.fst).Nodup
    split
    · exact ih h
    · exact ih (nodup_set _ _ h)

theorem keys_get {α : Type} (o : List (Text × α)) (k : Text) : k ∈ o.map Prod.fst ↔ ∃ v, get k o = some v := by
  induction o with
  | nil => simp [get]
  | cons p o ih =>
    rw [List.map_cons, List.mem_cons, ih, get]
    by_cases h : p.1 = k
    · simp [h]
    · rw [if_neg h]
      constructor
      · rintro (e | e)
        · exact absurd e.symm h
        · exact e
      · exact .inr

end Verif.Desktop
