import Verif.Desktop.Spec

/-! # Lemmas: reading lines -/

namespace Verif.Desktop

theorem trimStart_space {a s : Text} (h : ∀ c ∈ a, isSpace c = true) : trimStart (a ++ s) = trimStart s := by
  induction a with
  | nil => rfl
  | cons c a ih =>
    rw [List.cons_append, trimStart, if_pos (h c (by simp)), ih (fun x hx => h x (by simp [hx]))]

theorem trimStart_id {s : Text} (h : ∀ c, s.head? = some c → isSpace c = false) : trimStart s = s := by
  cases s with
  | nil => rfl
  | cons c s => rw [trimStart, if_neg (by rw [h c rfl]; decide)]

theorem trim_written {a b s : Text} (ha : ∀ c ∈ a, isSpace c = true) (hb : ∀ c ∈ b, isSpace c = true) (h : NoSpaceAround s) :
    trim (a ++ s ++ b) = s := by
  unfold trim
  rw [List.append_assoc, trimStart_space ha]
  cases s with
  | nil =>
    have e : trimStart ([] ++ b) = [] := by
      have := trimStart_space (s := []) hb
      rw [List.append_nil] at this
      rw [List.nil_append, this]
      rfl
    rw [e]
    rfl
  | cons c s =>
    have e : trimStart (c :: s ++ b) = c :: s ++ b := trimStart_id (by intro x hx; exact h.1 x hx)
    rw [e, List.reverse_append, trimStart_space (by intro x hx; exact hb x (by simpa using hx)), trimStart_id, List.reverse_reverse]
    intro x hx
    apply h.2
    rwa [List.head?_reverse] at hx

theorem body_space {l : Line} (h : l.Ok) (hc : ∀ t, l ≠ .comment t) : NoSpaceAround l.body := by
  cases l with
  | blank => exact ⟨fun c h => (by cases h), fun c h => (by cases h)⟩
  | comment t => exact absurd rfl (hc t)
  | sect n =>
    refine ⟨fun c h => ?_, fun c h => ?_⟩
    · have : c = '[' := by injection h with h; exact h.symm
      rw [this]; decide
    · have : c = ']' := by
        simp only [Line.body, List.getLast?_append] at h
        simp at h
        exact h.symm
      rw [this]; decide
  | entry k v =>
    obtain ⟨h1, -, -, -, h5, h6⟩ := h
    refine ⟨fun c h => ?_, fun c h => ?_⟩
    · cases k with
      | nil => exact absurd rfl h1
      | cons x k => exact h5.1 c h
    · simp only [Line.body, List.getLast?_append, List.getLast?_cons] at h
      cases hv : v.getLast? with
      | none =>
        rw [hv] at h
        have : c = '=' := by simp at h; exact h.symm
        rw [this]; decide
      | some x =>
        rw [hv] at h
        have : x = c := by simpa using h
        exact h6.2 c (by rw [hv, this])

theorem takeWhile_key {k : Text} (h : '=' ∉ k) (r : Text) : (k ++ '=' :: r).takeWhile (· != '=') = k := by
  induction k with
  | nil => simp
  | cons c k ih =>
    simp only [List.mem_cons, not_or] at h
    have : (c != '=') = true := by simp; exact fun e => h.1 e.symm
    simp [this, ih h.2]

theorem takeWhile_all {v : Text} (h : '=' ∉ v) : v.takeWhile (· != '=') = v := by
  induction v with
  | nil => rfl
  | cons c k ih =>
    simp only [List.mem_cons, not_or] at h
    have : (c != '=') = true := by simp; exact fun e => h.1 e.symm
    simp [this, ih h.2]

/-- The value ends at the second equals sign. -/
theorem split2_entry {k : Text} (h : '=' ∉ k) (r : Text) : split2 (k ++ '=' :: r) = (k, some (r.takeWhile (· != '='))) := by
  unfold split2
  simp only [takeWhile_key h, List.drop_left]

theorem split2_none {k : Text} (h : '=' ∉ k) : split2 k = (k, none) := by
  unfold split2
  simp only [takeWhile_all h, List.drop_length]

theorem section_name {n : Text} (h : n ≠ []) : sectionName ('[' :: n ++ [']']) = some n := by
  unfold sectionName
  have hl : 0 < n.length := by cases n with | nil => exact absurd rfl h | cons => simp
  rw [if_pos ⟨by simp; omega, rfl, by rw [List.getLast?_append]; rfl⟩]
  simp

theorem section_entry {k : Text} (h1 : k ≠ []) (h2 : k.head? ≠ some '[') (r : Text) : sectionName (k ++ r) = none := by
  unfold sectionName
  rw [if_neg]
  rintro ⟨-, h, -⟩
  cases k with
  | nil => exact h1 rfl
  | cons c k => exact h2 h

theorem comment_trim {raw t : Text} (h : Written raw (.comment t)) : ∃ u, trim raw = '#' :: u := by
  obtain ⟨a, b, rfl, ha, hb⟩ := h
  unfold trim
  rw [List.append_assoc, trimStart_space ha]
  have e : trimStart (Line.body (.comment t) ++ b) = '#' :: (t ++ b) := by
    rw [Line.body, List.cons_append, trimStart, if_neg (by decide)]
  rw [e, List.reverse_cons]
  generalize (t ++ b).reverse = w
  have : ∃ u, trimStart (w ++ ['#']) = u ++ ['#'] := by
    induction w with
    | nil => exact ⟨[], by rw [List.nil_append, trimStart, if_neg (by decide)]⟩
    | cons c w ih =>
      rw [List.cons_append, trimStart]
      split
      · exact ih
      · exact ⟨c :: w, rfl⟩
  obtain ⟨u, hu⟩ := this
  exact ⟨u.reverse, by rw [hu]; simp⟩

/-! ## One line -/

theorem parse_blank {raw : Text} (h : Written raw .blank) (st : PState) : parseLine st raw = st := by
  obtain ⟨a, b, rfl, ha, hb⟩ := h
  unfold parseLine
  simp only [trim_written ha hb (body_space (l := .blank) trivial (by simp))]
  rfl

theorem parse_comment {raw t : Text} (h : Written raw (.comment t)) (st : PState) : parseLine st raw = st := by
  obtain ⟨u, hu⟩ := comment_trim h
  unfold parseLine
  simp only [hu]
  rfl

theorem parse_sect {raw n : Text} (h : Written raw (.sect n)) (hn : n ≠ []) (st : PState) (ha : st.again = false) :
    parseLine st raw = { file := set n [] st.file, cur := some n, again := true } := by
  obtain ⟨a, b, rfl, ha', hb⟩ := h
  unfold parseLine
  simp only [trim_written ha' hb (body_space (l := .sect n) hn (by simp)), ha]
  rw [if_neg (by simp [Line.body]), if_neg (by simp [Line.body])]
  simp only [Line.body, Bool.false_eq_true, if_false, section_name hn]

theorem parse_entry {raw k v s : Text} (h : Written raw (.entry k v)) (hok : (Line.entry k v).Ok) (st : PState) (hs : st.cur = some s) :
    parseLine st raw =
      { file := set s (set k (some (v.takeWhile (· != '='))) ((get s st.file).getD [])) st.file, cur := some s, again := false } := by
  obtain ⟨a, b, rfl, ha', hb⟩ := h
  unfold parseLine
  simp only [trim_written ha' hb (body_space (l := .entry k v) hok (by simp))]
  obtain ⟨h1, h2, h3, h4, -, -⟩ := hok
  rw [if_neg (by simp [Line.body]), if_neg (by cases k with | nil => exact absurd rfl h1 | cons c k => exact h2)]
  have : (if st.again = true then none else sectionName (Line.entry k v).body) = none := by
    split
    · rfl
    · exact section_entry h1 h3 _
  rw [this]
  simp only [hs, Line.body, split2_entry h4]

end Verif.Desktop
