import Verif.Desktop.Lem

/-! # Lemmas: reading files -/

namespace Verif.Desktop

theorem get_set {α : Type} (k k' : Text) (v : α) (o : List (Text × α)) : get k' (set k v o) = if k' = k then some v else get k' o := by
  induction o with
  | nil =>
    simp only [set, get]
    by_cases h : k' = k
    · rw [if_pos h, if_pos h.symm]
    · rw [if_neg h, if_neg (fun e => h e.symm)]
  | cons p o ih =>
    simp only [set]
    by_cases hp : p.1 = k
    · simp only [if_pos hp, get]
      by_cases h : k' = k
      · rw [if_pos h, if_pos h.symm]
      · rw [if_neg h, if_neg (fun e => h e.symm), if_neg (fun e => h (by rw [← e, hp]))]
    · simp only [if_neg hp, get, ih]
      by_cases h : k' = k
      · rw [if_pos h, if_pos h, if_neg (fun e => hp (by rw [e, h]))]
      · rw [if_neg h, if_neg h]

theorem mem_keys_set {α : Type} (k x : Text) (v : α) (o : List (Text × α)) :
    x ∈ (set k v o).map Prod.fst ↔ x = k ∨ x ∈ o.map Prod.fst := by
  induction o with
  | nil => simp [set]
  | cons p o ih =>
    rw [set]
    split
    · rename_i h
      simp [h]
    · simp only [List.map_cons, List.mem_cons, ih]
      grind

theorem nodup_set {α : Type} (k : Text) (v : α) {o : List (Text × α)} (h : (o.map Prod.fst).Nodup) :
    ((set k v o).map Prod.fst).Nodup := by
  induction o with
  | nil => simp [set]
  | cons p o ih =>
    rw [List.map_cons, List.nodup_cons] at h
    rw [set]
    split
    · rename_i hp
      rw [List.map_cons, List.nodup_cons]
      exact ⟨by rw [← hp]; exact h.1, h.2⟩
    · rename_i hp
      rw [List.map_cons, List.nodup_cons, mem_keys_set]
      exact ⟨fun e => e.elim hp h.1, ih h.2⟩

theorem mem_iff_get {α : Type} {o : List (Text × α)} (h : (o.map Prod.fst).Nodup) (k : Text) (v : α) :
    (k, v) ∈ o ↔ get k o = some v := by
  induction o with
  | nil => simp [get]
  | cons p o ih =>
    rw [List.map_cons, List.nodup_cons] at h
    rw [get, List.mem_cons, ih h.2]
    by_cases hp : p.1 = k
    · rw [if_pos hp]
      constructor
      · rintro (e | e)
        · rw [← e]
        · exfalso
          apply h.1
          rw [hp]
          exact List.mem_map.2 ⟨(k, v), (ih h.2).2 e, rfl⟩
      · intro e
        injection e with e
        left
        rw [← hp, ← e]
    · rw [if_neg hp]
      constructor
      · rintro (e | e)
        · exact absurd (by rw [← e]) hp
        · exact e
      · exact .inr

/-- The section at the end -/
def Cur (a : List Line) (s : Text) : Prop := ∃ x y, a = x ++ .sect s :: y ∧ ∀ n, Line.sect n ∉ y

theorem snoc_split {α : Type} {a x y : List α} {l m : α} (h : a ++ [l] = x ++ m :: y) :
    (a = x ∧ l = m ∧ y = []) ∨ ∃ y', y = y' ++ [l] ∧ a = x ++ m :: y' := by
  rcases List.eq_nil_or_concat y with rfl | ⟨y', z, rfl⟩
  · have := List.append_inj' h rfl
    left
    exact ⟨this.1, by injection this.2, rfl⟩
  · right
    rw [List.concat_eq_append] at h ⊢
    have h' : a ++ [l] = (x ++ m :: y') ++ [z] := by rw [h]; simp
    have := List.append_inj' h' rfl
    exact ⟨y', by injection this.2 with e; rw [e], this.1⟩

theorem cur_sect (a : List Line) (n s : Text) : Cur (a ++ [.sect n]) s ↔ s = n := by
  constructor
  · rintro ⟨x, y, h, hy⟩
    rcases snoc_split h with ⟨-, h, -⟩ | ⟨y', h, -⟩
    · injection h with h; exact h.symm
    · exact absurd (by rw [h]; simp) (hy n)
  · rintro rfl
    exact ⟨a, [], rfl, by simp⟩

theorem cur_other {l : Line} (hl : ∀ n, l ≠ .sect n) (a : List Line) (s : Text) : Cur (a ++ [l]) s ↔ Cur a s := by
  constructor
  · rintro ⟨x, y, h, hy⟩
    rcases snoc_split h with ⟨-, h, -⟩ | ⟨y', h, h'⟩
    · exact absurd h (hl s)
    · exact ⟨x, y', h', fun n hn => hy n (by rw [h]; simp [hn])⟩
  · rintro ⟨x, y, rfl, hy⟩
    refine ⟨x, y ++ [l], by simp, fun n hn => ?_⟩
    rcases List.mem_append.1 hn with h | h
    · exact hy n h
    · exact hl n (by simpa using h : Line.sect n = l).symm

theorem has_snoc (a : List Line) (l : Line) (s k v : Text) :
    Has (a ++ [l]) s k v ↔ Has a s k v ∨ (l = .entry k v ∧ Cur a s) := by
  constructor
  · rintro ⟨x, b, c, h, hb⟩
    rw [← List.cons_append, ← List.append_assoc] at h
    rcases snoc_split h with ⟨h1, h2, -⟩ | ⟨c', -, h2⟩
    · exact .inr ⟨h2, x, b, h1, hb⟩
    · exact .inl ⟨x, b, c', by rw [h2]; simp, hb⟩
  · rintro (⟨x, b, c, rfl, hb⟩ | ⟨rfl, x, y, rfl, hy⟩)
    · exact ⟨x, b, c ++ [l], by simp, hb⟩
    · exact ⟨x, y, [], by simp, hy⟩

/-- What is assumed of a beginning of a file -/
structure Hyp (ls : List Line) : Prop where
  ok : ∀ l ∈ ls, l.Ok
  first : ∀ a k v b, ls = a ++ .entry k v :: b → ∃ s, Line.sect s ∈ a
  sections : ∀ a s b, ls = a ++ .sect s :: b → Line.sect s ∉ b
  keys : ∀ a k v b v' c, ls = a ++ .entry k v :: (b ++ .entry k v' :: c) → ∃ n, Line.sect n ∈ b
  values : ∀ k v, Line.entry k v ∈ ls → '=' ∉ v
  nonempty : ∀ a s b s' c, ls = a ++ .sect s :: (b ++ .sect s' :: c) → ∃ k v, Line.entry k v ∈ b

theorem hyp_snoc {a : List Line} {l : Line} (h : Hyp (a ++ [l])) : Hyp a where
  ok x hx := h.ok x (by simp [hx])
  first x k v b e := h.first x k v (b ++ [l]) (by rw [e]; simp)
  sections x s b e hs := h.sections x s (b ++ [l]) (by rw [e]; simp) (by simp [hs])
  keys x k v b v' c e := h.keys x k v b v' (c ++ [l]) (by rw [e]; simp)
  values k v hm := h.values k v (by simp [hm])
  nonempty x s b s' c e := h.nonempty x s b s' (c ++ [l]) (by rw [e]; simp)

/-- The sections are in the object, with their entries. -/
structure Inv (a : List Line) (st : PState) : Prop where
  cur : ∀ s, st.cur = some s ↔ Cur a s
  again : st.again = true → ∃ x s y, a = x ++ .sect s :: y ∧ ∀ k v, Line.entry k v ∉ y
  sects : ∀ s, (∃ o, get s st.file = some o) ↔ Line.sect s ∈ a
  has : ∀ s k v, (∃ o, get s st.file = some o ∧ get k o = some (some v)) ↔ Has a s k v
  defined : ∀ s o k w, get s st.file = some o → get k o = some w → ∃ v, w = some v
  nodup : (st.file.map Prod.fst).Nodup
  nodups : ∀ s o, get s st.file = some o → (o.map Prod.fst).Nodup

theorem inv_nil : Inv [] ⟨[], none, false⟩ where
  cur s := ⟨fun h => (by cases h), fun ⟨x, y, h, _⟩ => (by simp at h)⟩
  again h := by cases h
  sects s := ⟨fun ⟨o, h⟩ => (by cases h), fun h => (by cases h)⟩
  has s k v := ⟨fun ⟨o, h, _⟩ => (by cases h), fun ⟨x, b, c, h, _⟩ => (by simp at h)⟩
  defined s o k w h := by cases h
  nodup := by simp
  nodups s o h := by cases h

theorem inv_skip {a : List Line} {l : Line} {st : PState} (h : Inv a st) (h1 : ∀ n, l ≠ .sect n) (h2 : ∀ k v, l ≠ .entry k v) :
    Inv (a ++ [l]) st where
  cur s := by rw [cur_other h1]; exact h.cur s
  again e := by
    obtain ⟨x, s, y, h3, h4⟩ := h.again e
    refine ⟨x, s, y ++ [l], by rw [h3]; simp, fun k v hm => ?_⟩
    rcases List.mem_append.1 hm with hm | hm
    · exact h4 k v hm
    · exact h2 k v (by simpa using hm : Line.entry k v = l).symm
  sects s := by
    rw [h.sects s]
    constructor
    · intro hm; simp [hm]
    · intro hm
      rcases List.mem_append.1 hm with hm | hm
      · exact hm
      · exact absurd (by simpa using hm : Line.sect s = l).symm (h1 s)
  has s k v := by
    rw [h.has, has_snoc]
    constructor
    · exact .inl
    · rintro (hh | ⟨hh, -⟩)
      · exact hh
      · exact absurd hh (h2 k v)
  defined := h.defined
  nodup := h.nodup
  nodups := h.nodups

theorem inv_sect {a : List Line} {n : Text} {st : PState} (h : Inv a st) (hy : Hyp (a ++ [.sect n])) :
    Inv (a ++ [.sect n]) { file := set n [] st.file, cur := some n, again := true } := by
  have hn : Line.sect n ∉ a := by
    intro hm
    obtain ⟨x, y, rfl⟩ := List.append_of_mem hm
    exact hy.sections x n (y ++ [.sect n]) (by simp) (by simp)
  have hno : ∀ k v, ¬ Has a n k v := by
    rintro k v ⟨x, b, c, rfl, -⟩
    exact hn (by simp)
  refine ⟨fun s => ?_, fun _ => ⟨a, n, [], rfl, by simp⟩, fun s => ?_, fun s k v => ?_, fun s o k w => ?_, nodup_set n _ h.nodup, fun s o => ?_⟩
  · rw [cur_sect]
    constructor
    · intro e; injection e with e; exact e.symm
    · intro e; rw [e]
  · simp only [get_set]
    by_cases hs : s = n
    · rw [if_pos hs, hs]; simp
    · rw [if_neg hs, h.sects]; simp [hs]
  · simp only [get_set]
    rw [has_snoc]
    by_cases hs : s = n
    · rw [if_pos hs, hs]
      constructor
      · rintro ⟨o, e, h'⟩
        cases e
        cases h'
      · rintro (h' | ⟨h', -⟩)
        · exact absurd h' (hno k v)
        · cases h'
    · rw [if_neg hs, h.has]
      simp
  · simp only [get_set]
    by_cases hs : s = n
    · rw [if_pos hs]
      intro e h'
      cases e
      cases h'
    · rw [if_neg hs]; exact h.defined s o k w
  · simp only [get_set]
    by_cases hs : s = n
    · rw [if_pos hs]; intro e; cases e; simp
    · rw [if_neg hs]; exact h.nodups s o

theorem inv_entry {a : List Line} {k v s : Text} {st : PState} (h : Inv a st) (hy : Hyp (a ++ [.entry k v])) (hs : st.cur = some s) :
    Inv (a ++ [.entry k v])
      { file := set s (set k (some v) ((get s st.file).getD [])) st.file, cur := some s, again := false } := by
  have hc : Cur a s := (h.cur s).1 hs
  have hin : Line.sect s ∈ a := by
    obtain ⟨x, y, rfl, -⟩ := hc
    simp
  obtain ⟨o, ho⟩ := (h.sects s).2 hin
  rw [ho, Option.getD_some]
  have hfresh : ∀ w, get k o ≠ some w := by
    intro w hw
    obtain ⟨v', rfl⟩ := h.defined s o k w ho hw
    obtain ⟨x, b, c, e, hb⟩ := (h.has s k v').1 ⟨o, ho, hw⟩
    obtain ⟨x', y, e', hy'⟩ := hc
    have : x = x' ∧ b ++ .entry k v' :: c = y := by
      have hu := (hyp_snoc hy).sections
      rw [e] at e'
      rcases List.append_eq_append_iff.1 e' with ⟨z, h1, h2⟩ | ⟨z, h1, h2⟩
      · cases z with
        | nil => simp at h1 h2; exact ⟨h1.symm, h2⟩
        | cons q z =>
          injection h2 with h3 h4
          exact absurd (show Line.sect s ∈ b ++ Line.entry k v' :: c by rw [h4]; simp) (hu x s _ e)
      · cases z with
        | nil => simp at h1 h2; exact ⟨h1, h2.symm⟩
        | cons q z =>
          injection h2 with h3 h4
          exact absurd (show Line.sect s ∈ y by rw [h4]; simp) (hu x' s _ (by rw [e, e']))
    obtain ⟨rfl, rfl⟩ := this
    obtain ⟨n, hn⟩ := hy.keys (x ++ .sect s :: b) k v' c v [] (by rw [e]; simp)
    exact hy' n (by simp [hn])
  refine ⟨fun s' => ?_, fun e => (by cases e), fun s' => ?_, fun s' k' v' => ?_, fun s' o' k' w => ?_, nodup_set _ _ h.nodup, fun s' o' => ?_⟩
  · rw [cur_other (by simp), ← h.cur, hs]
  · simp only [get_set]
    by_cases e : s' = s
    · rw [if_pos e, e]; simp [hin]
    · rw [if_neg e, h.sects]; simp
  · simp only [get_set]
    rw [has_snoc]
    by_cases e : s' = s
    · rw [if_pos e, e, ← h.has]
      constructor
      · rintro ⟨o', e1, e2⟩
        cases e1
        rw [get_set] at e2
        by_cases ek : k' = k
        · rw [if_pos ek] at e2
          cases e2
          exact .inr ⟨by rw [ek], hc⟩
        · rw [if_neg ek] at e2
          exact .inl ⟨o, ho, e2⟩
      · rintro (⟨o', e1, e2⟩ | ⟨e1, -⟩)
        · rw [ho] at e1
          cases e1
          refine ⟨_, rfl, ?_⟩
          rw [get_set, if_neg]
          · exact e2
          · intro ek
            rw [ek] at e2
            exact hfresh _ e2
        · cases e1
          exact ⟨_, rfl, by rw [get_set, if_pos rfl]⟩
    · rw [if_neg e, h.has]
      constructor
      · exact .inl
      · rintro (h' | ⟨-, h'⟩)
        · exact h'
        · have := (h.cur s').2 h'
          rw [hs] at this
          injection this with this
          exact absurd this.symm e
  · simp only [get_set]
    by_cases e : s' = s
    · rw [if_pos e]
      intro e1 e2
      cases e1
      rw [get_set] at e2
      split at e2
      · cases e2; exact ⟨_, rfl⟩
      · exact h.defined s o k' w ho e2
    · rw [if_neg e]; exact h.defined s' o' k' w
  · simp only [get_set]
    by_cases e : s' = s
    · rw [if_pos e]; intro e1; cases e1; exact nodup_set _ _ (h.nodups s o ho)
    · rw [if_neg e]; exact h.nodups s' o'

theorem written_snoc {rs : List Text} {a : List Line} {l : Line} (h : AllWritten rs (a ++ [l])) :
    ∃ rs' r, rs = rs' ++ [r] ∧ AllWritten rs' a ∧ Written r l := by
  induction a generalizing rs with
  | nil =>
    cases h with
    | cons h1 h2 => cases h2; exact ⟨[], _, rfl, .nil, h1⟩
  | cons x a ih =>
    cases h with
    | cons h1 h2 =>
      obtain ⟨rs', r, rfl, h3, h4⟩ := ih h2
      exact ⟨_ :: rs', r, rfl, .cons h1 h3, h4⟩

theorem sect_cur {a : List Line} (h : ∃ s, Line.sect s ∈ a) : ∃ s, Cur a s := by
  induction a using snoc_induction with
  | nil => obtain ⟨s, h⟩ := h; cases h
  | append_singleton a l ih =>
    by_cases hl : ∃ n, l = .sect n
    · obtain ⟨n, rfl⟩ := hl
      exact ⟨n, (cur_sect a n n).2 rfl⟩
    · obtain ⟨s, hs⟩ := h
      have : ∃ s, Line.sect s ∈ a := by
        refine ⟨s, ?_⟩
        rcases List.mem_append.1 hs with h | h
        · exact h
        · exact absurd ⟨s, (by simpa using h : Line.sect s = l).symm⟩ hl
      obtain ⟨s', h'⟩ := ih this
      exact ⟨s', (cur_other (fun n e => hl ⟨n, e⟩) a s').2 h'⟩

theorem inv_parse {a : List Line} {rs : List Text} (hw : AllWritten rs a) (hy : Hyp a) :
    Inv a (rs.foldl parseLine ⟨[], none, false⟩) := by
  induction a using snoc_induction generalizing rs with
  | nil => cases hw; exact inv_nil
  | append_singleton a l ih =>
    obtain ⟨rs', r, rfl, h1, h2⟩ := written_snoc hw
    have hi := ih h1 (hyp_snoc hy)
    rw [List.foldl_append, List.foldl_cons, List.foldl_nil]
    generalize rs'.foldl parseLine ⟨[], none, false⟩ = st at hi
    cases l with
    | blank => rw [parse_blank h2]; exact inv_skip hi (by simp) (by simp)
    | comment t => rw [parse_comment h2]; exact inv_skip hi (by simp) (by simp)
    | sect n =>
      have ha : st.again = false := by
        cases e : st.again with
        | false => rfl
        | true =>
          obtain ⟨x, s, y, rfl, h4⟩ := hi.again e
          obtain ⟨k, v, h5⟩ := hy.nonempty x s y n [] (by simp)
          exact absurd h5 (h4 k v)
      rw [parse_sect h2 (hy.ok _ (by simp) : (Line.sect n).Ok) st ha]
      exact inv_sect hi hy
    | entry k v =>
      obtain ⟨s, hs⟩ := sect_cur (hy.first a k v [] rfl)
      have hc := (hi.cur s).2 hs
      rw [parse_entry h2 (hy.ok _ (by simp)) st hc, takeWhile_all (hy.values k v (by simp))]
      exact inv_entry hi hy hc

end Verif.Desktop
