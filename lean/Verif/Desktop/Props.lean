import Verif.Desktop.Out

/-! # C129: desktop files are merged with the keys of the product -/

namespace Verif.Desktop

theorem hyp_of {ls : List Line} (h1 : Valid ls) (h2 : Simple ls) : Hyp ls :=
  ⟨h1.ok, h1.first, h1.sections, h1.keys, h2.values, h2.nonempty⟩

/-- **C129** (`_partial`: values with an equals sign and empty sections in front of others are not dealt with, see the findings).
The output is a desktop file with the sections of the input. In the main section it has the keys that the user gave, the entries
of the input with other keys, and the default values for all other keys. The other sections are as they were. -/
theorem C129_merge_partial {rs : List Text} {ls : List Line} {keys defaults : List (Text × Text)}
    (hw : AllWritten rs ls) (hv : Valid ls) (hs : Simple ls) (hk : KeysOk keys) (hd : KeysOk defaults) :
    ∃ out ls', generate rs keys defaults = some out ∧ AllWritten out ls' ∧ (∀ l ∈ ls', l.Ok) ∧
      (∀ s, Line.sect s ∈ ls' ↔ Line.sect s ∈ ls) ∧
      (∀ s k v, s ≠ mainSection → (Has ls' s k v ↔ Has ls s k v)) ∧
      (∀ k v, Has ls' mainSection k v ↔
        (k, v) ∈ keys ∨
        ((∀ w, (k, w) ∉ keys) ∧ Has ls mainSection k v) ∨
        ((∀ w, (k, w) ∉ keys) ∧ (∀ w, ¬ Has ls mainSection k w) ∧ (k, v) ∈ defaults)) := by
  have inv := inv_parse hw (hyp_of hv hs)
  have hfile : parse rs = (rs.foldl parseLine ⟨[], none, false⟩).file := rfl
  generalize rs.foldl parseLine ⟨[], none, false⟩ = st at inv hfile
  obtain ⟨o, ho⟩ := (inv.sects mainSection).2 hv.main
  have hgen : generate rs keys defaults = some (dump (set mainSection (addDefaults defaults (override keys o)) st.file)) := by
    unfold generate
    simp only [hfile, ho]
  have hnf : ((set mainSection (addDefaults defaults (override keys o)) st.file).map Prod.fst).Nodup := nodup_set _ _ inv.nodup
  have hno : ((addDefaults defaults (override keys o)).map Prod.fst).Nodup :=
    nodup_defaults _ (nodup_override _ (inv.nodups _ _ ho))
  -- the values of the merged object
  have hmain : ∀ k w, get k (addDefaults defaults (override keys o)) = some w ↔ ∃ v, w = some v ∧
      ((k, v) ∈ keys ∨ ((∀ w, (k, w) ∉ keys) ∧ Has ls mainSection k v) ∨
        ((∀ w, (k, w) ∉ keys) ∧ (∀ w, ¬ Has ls mainSection k w) ∧ (k, v) ∈ defaults)) := by
    intro k w
    obtain ⟨a1, a2⟩ := get_override hk.nodup o k
    obtain ⟨b1, b2⟩ := get_defaults hd.nodup (override keys o) k
    have hold : ∀ v, Has ls mainSection k v ↔ get k o = some (some v) := by
      intro v
      rw [← inv.has]
      constructor
      · rintro ⟨o', h1, h2⟩
        rw [ho] at h1
        cases h1
        exact h2
      · exact fun h => ⟨o, ho, h⟩
    by_cases hin : ∃ v, (k, v) ∈ keys
    · obtain ⟨v, hin⟩ := hin
      rw [b1 _ (a1 v hin)]
      constructor
      · intro e
        cases e
        exact ⟨v, rfl, .inl hin⟩
      · rintro ⟨v', rfl, h | ⟨h, -⟩ | ⟨h, -⟩⟩
        · rw [← a1 v hin, a1 v' h]
        · exact absurd hin (h v)
        · exact absurd hin (h v)
    · have hin' : ∀ v, (k, v) ∉ keys := fun v h => hin ⟨v, h⟩
      have a := a2 hin'
      cases hg : get k o with
      | some w' =>
        obtain ⟨v, rfl⟩ := inv.defined _ _ _ _ ho hg
        rw [hg] at a
        rw [b1 _ a]
        constructor
        · intro e
          cases e
          exact ⟨v, rfl, .inr (.inl ⟨hin', (hold v).2 hg⟩)⟩
        · rintro ⟨v', rfl, h | ⟨-, h⟩ | ⟨-, h, -⟩⟩
          · exact absurd h (hin' v')
          · rw [hold, hg] at h; exact h
          · exact absurd ((hold v).2 hg) (h v)
      | none =>
        rw [hg] at a
        have hno' : ∀ v, ¬ Has ls mainSection k v := by
          intro v h
          rw [hold, hg] at h
          cases h
        by_cases hdin : ∃ v, (k, v) ∈ defaults
        · obtain ⟨v, hdin⟩ := hdin
          rw [(b2 a).1 v hdin]
          constructor
          · intro e
            cases e
            exact ⟨v, rfl, .inr (.inr ⟨hin', hno', hdin⟩)⟩
          · rintro ⟨v', rfl, h | ⟨-, h⟩ | ⟨-, -, h⟩⟩
            · exact absurd h (hin' v')
            · exact absurd h (hno' v')
            · rw [← (b2 a).1 v hdin, (b2 a).1 v' h]
        · rw [(b2 a).2 (fun v h => hdin ⟨v, h⟩)]
          constructor
          · intro e; cases e
          · rintro ⟨v', rfl, h | ⟨-, h⟩ | ⟨-, -, h⟩⟩
            · exact absurd h (hin' v')
            · exact absurd h (hno' v')
            · exact absurd ⟨v', h⟩ hdin
  have hsect : ∀ s, Line.sect s ∈ outLines (set mainSection (addDefaults defaults (override keys o)) st.file) ↔ Line.sect s ∈ ls := by
    intro s
    rw [sect_out, mem_keys_set, keys_get, inv.sects]
    constructor
    · rintro (rfl | h)
      · exact hv.main
      · exact h
    · exact .inr
  have hother : ∀ s k v, s ≠ mainSection →
      (Has (outLines (set mainSection (addDefaults defaults (override keys o)) st.file)) s k v ↔ Has ls s k v) := by
    intro s k v hsm
    rw [has_out, ← inv.has]
    constructor
    · rintro ⟨o', h1, e, h2, rfl, rfl⟩
      rw [mem_iff_get hnf, get_set, if_neg hsm] at h1
      have h3 := (mem_iff_get (inv.nodups _ _ h1) e.1 e.2).1 h2
      obtain ⟨v, hv'⟩ := inv.defined _ _ _ _ h1 h3
      exact ⟨o', h1, by rw [h3, hv']; rfl⟩
    · rintro ⟨o', h1, h2⟩
      refine ⟨o', ?_, (k, some v), ?_, rfl, rfl⟩
      · rw [mem_iff_get hnf, get_set, if_neg hsm]; exact h1
      · rw [mem_iff_get (inv.nodups _ _ h1)]; exact h2
  have hmainHas : ∀ k v, Has (outLines (set mainSection (addDefaults defaults (override keys o)) st.file)) mainSection k v ↔
      ((k, v) ∈ keys ∨ ((∀ w, (k, w) ∉ keys) ∧ Has ls mainSection k v) ∨
        ((∀ w, (k, w) ∉ keys) ∧ (∀ w, ¬ Has ls mainSection k w) ∧ (k, v) ∈ defaults)) := by
    intro k v
    rw [has_out]
    constructor
    · rintro ⟨o', h1, e, h2, rfl, rfl⟩
      rw [mem_iff_get hnf, get_set, if_pos rfl] at h1
      cases h1
      have h3 := (mem_iff_get hno e.1 e.2).1 h2
      obtain ⟨v, h4, h5⟩ := (hmain _ _).1 h3
      rw [h4]
      exact h5
    · intro h
      refine ⟨_, (mem_iff_get hnf _ _).2 (by rw [get_set, if_pos rfl]), (k, some v), ?_, rfl, rfl⟩
      rw [mem_iff_get hno, hmain]
      exact ⟨v, rfl, h⟩
  refine ⟨_, outLines (set mainSection (addDefaults defaults (override keys o)) st.file), hgen, by rw [dump_eq]; exact allWritten_map _,
    ?_, hsect, hother, hmainHas⟩
  intro l hl
  have hin : ∀ s k v, Has ls s k v → (Line.entry k v).Ok := by
    rintro s k v ⟨a, b, c, e, -⟩
    exact hv.ok _ (by rw [e]; simp)
  cases l with
  | blank => trivial
  | comment t => trivial
  | sect n => exact hv.ok _ ((hsect n).1 hl)
  | entry k v =>
    obtain ⟨s, h⟩ := entry_out hl
    by_cases e : s = mainSection
    · rw [e] at h
      rcases (hmainHas k v).1 h with h | ⟨-, h⟩ | ⟨-, -, h⟩
      · exact hk.ok _ h
      · exact hin _ _ _ h
      · exact hd.ok _ h
    · exact hin _ _ _ ((hother s k v e).1 h)

theorem get_self {α : Type} (k : Text) (v : α) : get k [(k, v)] = some v := by simp [get]
theorem set_self {α : Type} (k : Text) (v w : α) : set k w [(k, v)] = [(k, w)] := by simp [set]
theorem set_nil {α : Type} (k : Text) (w : α) : set k w [] = [(k, w)] := rfl

theorem generate_main {rs : List Text} {o : Obj} (h : parse rs = [(mainSection, o)]) (keys defaults : List (Text × Text)) :
    generate rs keys defaults =
      some (('[' :: mainSection ++ [']']) :: (addDefaults defaults (override keys o)).map (fun e => e.1 ++ '=' :: text e.2) ++ [[]]) := by
  unfold generate
  simp only [h, get_self, set_self]
  generalize mainSection = m
  simp [dump]

theorem parse_two {r : Text} {o : Obj}
    (h : ∀ m, parseLine { file := [(m, [])], cur := some m, again := true } r = { file := [(m, o)], cur := some m, again := false }) :
    parse ['[' :: mainSection ++ [']'], r] = [(mainSection, o)] := by
  have h1 := parse_sect (n := mainSection) (written_self _) (by decide) ⟨[], none, false⟩ rfl
  rw [Line.body] at h1
  unfold parse
  rw [List.foldl_cons, List.foldl_cons, List.foldl_nil, h1, set_nil, h]

/-- **C129 finding.** A value ends at its first equals sign: the rest is lost, although nobody asked for a change of the entry. -/
theorem C129_equals {k v w : Text} (h : (Line.entry k (v ++ '=' :: w)).Ok) (hv : '=' ∉ v) :
    generate ['[' :: mainSection ++ [']'], k ++ '=' :: (v ++ '=' :: w)] [] [] =
      some ['[' :: mainSection ++ [']'], k ++ '=' :: v, []] := by
  have h2 : parse ['[' :: mainSection ++ [']'], k ++ '=' :: (v ++ '=' :: w)] = [(mainSection, [(k, some v)])] := by
    apply parse_two
    intro m
    have h2 := parse_entry (s := m) (written_self _) h { file := [(m, [])], cur := some m, again := true } rfl
    rw [takeWhile_key hv] at h2
    rw [Line.body] at h2
    rw [h2, get_self, set_self]
    rfl
  rw [generate_main h2]
  rfl

/-- **C129 finding.** A section that directly follows the beginning of another one is not recognized: it becomes an entry of the
first one, with the value `undefined`. (The regular expression remembers where the last match ended.) -/
theorem C129_empty_section {n : Text} (hn : n ≠ []) (he : '=' ∉ n) :
    generate ['[' :: mainSection ++ [']'], '[' :: n ++ [']']] [] [] =
      some ['[' :: mainSection ++ [']'], ('[' :: n ++ [']']) ++ "=undefined".toList, []] := by
  have hs : split2 ('[' :: n ++ [']']) = ('[' :: n ++ [']'], none) := split2_none (by simp [he])
  have ht := trim_written (a := []) (b := []) (s := '[' :: n ++ [']']) (by simp) (by simp) (body_space (l := .sect n) hn (by simp))
  rw [List.nil_append, List.append_nil] at ht
  have h2 : parse ['[' :: mainSection ++ [']'], '[' :: n ++ [']']] = [(mainSection, [('[' :: n ++ [']'], none)])] := by
    apply parse_two
    intro m
    unfold parseLine
    simp only [ht]
    rw [if_neg (by simp), if_neg (by simp)]
    simp only [if_true, hs, get_self, set_self, Option.getD_some, set_nil]
  rw [generate_main h2]
  rfl

/-- **C129 finding.** Spaces in front of the equals sign become part of the key, although they mean nothing in desktop files: the
user's value does not replace the entry but is written in addition. -/
theorem C129_space {k v w : Text} (h : (Line.entry k v).Ok) (hv : '=' ∉ v) :
    generate ['[' :: mainSection ++ [']'], (k ++ [' ']) ++ '=' :: v] [(k, w)] [] =
      some ['[' :: mainSection ++ [']'], (k ++ [' ']) ++ '=' :: v, k ++ '=' :: w, []] := by
  obtain ⟨h1, h2, h3, h4, h5, h6⟩ := h
  have hns : NoSpaceAround ((k ++ [' ']) ++ '=' :: v) := by
    have := body_space (l := .entry k v) ⟨h1, h2, h3, h4, h5, h6⟩ (by simp)
    refine ⟨fun c hc => this.1 c ?_, fun c hc => this.2 c ?_⟩
    · cases k with
      | nil => exact absurd rfl h1
      | cons x k => exact hc
    · rw [List.getLast?_append, List.getLast?_cons] at hc
      simp only [Line.body, List.getLast?_append, List.getLast?_cons]
      exact hc
  have ht := trim_written (a := []) (b := []) (by simp) (by simp) hns
  rw [List.nil_append, List.append_nil] at ht
  have hsp := split2_entry (k := k ++ [' ']) (by simp [h4]) v
  have hk1 : k ++ [' '] ≠ [] := by simp
  have hk2 : (k ++ [' ']).head? ≠ some '[' := by
    cases k with
    | nil => exact absurd rfl h1
    | cons c k => exact h3
  have h7 : parse ['[' :: mainSection ++ [']'], (k ++ [' ']) ++ '=' :: v] = [(mainSection, [(k ++ [' '], some v)])] := by
    apply parse_two
    intro m
    unfold parseLine
    simp only [ht]
    rw [if_neg (by simp), if_neg (by cases k with | nil => exact absurd rfl h1 | cons c k => exact h2)]
    simp only [if_true, hsp, takeWhile_all hv, get_self, set_self, Option.getD_some, set_nil]
  rw [generate_main h7]
  have hne : k ++ [' '] ≠ k := by
    intro e
    have := congrArg List.length e
    simp at this
  have ho : addDefaults [] (override [(k, w)] [(k ++ [' '], some v)]) = [(k ++ [' '], some v), (k, some w)] := by
    show set k (some w) [(k ++ [' '], some v)] = _
    rw [set, if_neg hne]
    rfl
  rw [ho]
  rfl

/-- **C129 finding.** A fragment without the main section cannot be merged: as there are default values, the command always fails. -/
theorem C129_fragment {k v : Text} (h : (Line.entry k v).Ok) {keys defaults : List (Text × Text)} (hd : defaults ≠ []) :
    generate [k ++ '=' :: v] keys defaults = none := by
  obtain ⟨h1, h2, h3, h4, h5, h6⟩ := h
  have h7 : parse [k ++ '=' :: v] = [] := by
    unfold parse
    rw [List.foldl_cons, List.foldl_nil]
    unfold parseLine
    have ht := trim_written (a := []) (b := []) (by simp) (by simp) (body_space (l := .entry k v) ⟨h1, h2, h3, h4, h5, h6⟩ (by simp))
    simp only [List.nil_append, List.append_nil, Line.body] at ht
    simp only [ht]
    rw [if_neg (by simp), if_neg (by cases k with | nil => exact absurd rfl h1 | cons c k => exact h2)]
    simp [section_entry h1 h3]
  unfold generate
  simp only [h7, get]
  rw [if_neg (fun e => hd e.2)]

end Verif.Desktop
