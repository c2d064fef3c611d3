import Verif.Lexer.Spec
/-!
# What is left of the text after a token
-/
namespace Verif.Lexer

theorem suffix_cons {a b : Str} (c : Char) (h : a <:+ b) : a <:+ c :: b :=
  h.trans (List.suffix_cons c b)

theorem blockComment_suffix : ∀ s, (blockComment s).2 <:+ s := by
  intro s
  fun_induction blockComment s
  case case1 => exact List.suffix_rfl
  case case2 => exact List.suffix_rfl
  case case3 r _ => exact suffix_cons _ (suffix_cons _ List.suffix_rfl)
  case case4 => rename_i ih; exact suffix_cons _ ih
  case case5 => rename_i ih; exact suffix_cons _ ih

theorem lineComment_suffix : ∀ s, lineComment s <:+ s := by
  intro s
  induction s with
  | nil => exact List.suffix_rfl
  | cons c r ih =>
    simp only [lineComment]
    split
    · exact suffix_cons _ ih
    · exact List.suffix_rfl

theorem digits_eq (u : Uni) : ∀ s, s = (digits u s).1 ++ (digits u s).2 := by
  intro s
  induction s with
  | nil => rfl
  | cons c r ih =>
    simp only [digits]
    split
    · simp [← ih]
    · rfl

theorem digits_suffix (u : Uni) (s : Str) : (digits u s).2 <:+ s :=
  ⟨(digits u s).1, (digits_eq u s).symm⟩

theorem exponent_suffix (u : Uni) (s : Str) : (exponent u s).2 <:+ s := by
  unfold exponent
  split
  · exact List.suffix_rfl
  · split
    · split
      · exact suffix_cons _ (digits_suffix u _)
      · split
        · split
          · exact suffix_cons _ (suffix_cons _ (digits_suffix u _))
          · exact List.suffix_rfl
        · exact List.suffix_rfl
    · exact List.suffix_rfl

theorem hexDigits_suffix : ∀ s, hexDigits s <:+ s := by
  intro s
  induction s with
  | nil => exact List.suffix_rfl
  | cons c r ih =>
    simp only [hexDigits]
    split
    · exact suffix_cons _ ih
    · exact List.suffix_rfl

theorem strPlain_eq (q : Char) : ∀ s, s = (strPlain q s).1 ++ (strPlain q s).2 := by
  intro s
  induction s with
  | nil => rfl
  | cons c r ih =>
    simp only [strPlain]
    split
    · rfl
    · simp [← ih]

theorem strPlain_suffix (q : Char) (s : Str) : (strPlain q s).2 <:+ s :=
  ⟨(strPlain q s).1, (strPlain_eq q s).symm⟩

theorem decodeUnicode_suffix (s : Str) (x : Char) (r : Str) (h : decodeUnicode s = some (x, r)) :
    r <:+ s ∧ r.length < s.length := by
  unfold decodeUnicode at h
  split at h
  · split at h
    · cases h
      exact ⟨⟨[_, _, _, _, _], rfl⟩, by simp only [List.length_cons]; omega⟩
    · cases h
  · cases h

theorem escape_suffix (u : Uni) (s : Str) (x : Char) (r : Str) (h : escape u s = some (x, r)) :
    r <:+ s := by
  unfold escape at h
  split at h
  · cases h
  · rename_i c s'
    split at h
    · split at h
      · rename_i y hy
        cases h
        exact (decodeUnicode_suffix _ _ _ hy).1
      · cases h; exact List.suffix_rfl
    split at h
    · split at h
      · split at h
        · cases h; exact suffix_cons _ (suffix_cons _ (suffix_cons _ List.suffix_rfl))
        · cases h; exact List.suffix_rfl
      · cases h; exact List.suffix_rfl
    split at h
    · cases h; exact List.suffix_cons _ _
    split at h
    · cases h; exact List.suffix_cons _ _
    split at h
    · cases h; exact List.suffix_cons _ _
    split at h
    · cases h; exact List.suffix_cons _ _
    split at h
    · cases h; exact List.suffix_cons _ _
    split at h
    · cases h; exact List.suffix_cons _ _
    split at h
    · split at h
      · cases h
      · split at h
        · cases h; exact List.suffix_cons _ _
        · cases h; exact List.suffix_rfl
    split at h
    · have hd := List.dropWhile_suffix (fun x : Char => x == '\r') (l := s')
      split at h
      · rename_i r' he
        cases h
        rw [he] at hd
        exact suffix_cons _ ((List.suffix_cons _ _).trans hd)
      · cases h
        exact suffix_cons _ hd
    · cases h; exact List.suffix_cons _ _

/-- The result of reading leaves an end of the text. -/
def Body.Leaves (s : Str) : Body → Prop
  | .tok _ _ r => r <:+ s
  | .comment _ r => r <:+ s
  | .oob => True

theorem Body.Leaves.mono {s t : Str} {b : Body} (h : b.Leaves s) (hs : s <:+ t) : b.Leaves t := by
  cases b with
  | tok k x r => exact List.IsSuffix.trans h hs
  | comment n r => exact List.IsSuffix.trans h hs
  | oob => trivial

theorem strLoop_leaves (u : Uni) (q : Char) : ∀ n multi acc s, (strLoop u q n multi acc s).Leaves s := by
  intro n
  induction n with
  | zero => intro multi acc s; trivial
  | succ n ih =>
    intro multi acc s
    unfold strLoop
    split
    · exact List.suffix_rfl
    · split
      · exact List.suffix_rfl
      split
      · exact (ih _ _ _).mono (List.suffix_cons _ _)
      split
      · exact List.suffix_cons _ _
      split
      · split
        · trivial
        · rename_i x r' he
          exact (ih _ _ _).mono (suffix_cons _ (escape_suffix u _ _ _ he))
      · exact (ih _ _ _).mono (List.suffix_cons _ _)

theorem scanString_leaves (u : Uni) (q : Char) (s : Str) : (scanString u q s).Leaves s := by
  unfold scanString
  simp only
  split
  · exact (List.tail_suffix _).trans (strPlain_suffix q s)
  · exact (strLoop_leaves u q _ _ _ _).mono (strPlain_suffix q s)

theorem decimal_leaves (u : Uni) (c r s : Str) (h : r <:+ s) : (decimal u c r).Leaves s := by
  unfold decimal
  split <;> exact h

theorem scanNumber_leaves (u : Uni) (ch : Char) (s : Str) : (scanNumber u ch s).Leaves s := by
  unfold scanNumber
  simp only
  split
  · exact digits_suffix u s
  split
  · exact (hexDigits_suffix _).trans (List.tail_suffix _)
  have hd := digits_suffix u s
  split
  · rename_i r he
    rw [he] at hd
    exact decimal_leaves u _ _ _ ((exponent_suffix u _).trans ((digits_suffix u r).trans
      ((List.suffix_cons _ _).trans hd)))
  · split
    · exact (exponent_suffix u _).trans hd
    · exact decimal_leaves u _ _ _ ((exponent_suffix u _).trans hd)

theorem pointNumber_leaves (u : Uni) (s : Str) : (pointNumber u s).Leaves s :=
  decimal_leaves u _ _ _ ((exponent_suffix u _).trans (digits_suffix u s))

theorem endOfWord_leaves (u : Uni) (qml esc : Bool) (text r s : Str) (h : r <:+ s) :
    (identLoop.endOfWord qml esc text r).Leaves s := by
  unfold identLoop.endOfWord
  split
  · exact h
  · split <;> exact h

theorem identLoop_leaves (u : Uni) (qml : Bool) : ∀ esc text s,
    (identLoop u qml esc text s).Leaves s := by
  intro esc text s
  fun_induction identLoop u qml esc text s
  case case1 => trivial
  case case2 => rename_i ih; exact ih.mono ⟨[_, _, _, _, _, _], rfl⟩
  case case3 => exact List.suffix_cons _ _
  case case4 => exact List.suffix_cons _ _
  case case5 => exact endOfWord_leaves u qml _ _ _ _ List.suffix_rfl
  case case6 => rename_i ih; exact ih.mono (List.suffix_cons _ _)
  case case7 => exact endOfWord_leaves u qml _ _ _ _ List.suffix_rfl

theorem scanWord_leaves (u : Uni) (qml : Bool) (ch : Char) (s : Str) :
    (scanWord u qml ch s).Leaves s := by
  unfold scanWord
  split
  · split
    · rename_i x r he
      exact (identLoop_leaves u qml _ _ _).mono (decodeUnicode_suffix _ _ _ he).1
    · exact List.suffix_rfl
  · exact identLoop_leaves u qml _ _ _

theorem body_leaves (u : Uni) (qml : Bool) (ch : Char) (s : Str) : (body u qml ch s).Leaves s := by
  unfold body
  simp only
  split <;> (repeat' split) <;>
    first
    | exact scanString_leaves u _ s
    | exact scanNumber_leaves u _ s
    | exact scanWord_leaves u qml _ s
    | exact pointNumber_leaves u s
    | exact List.suffix_rfl
    | exact List.suffix_cons _ _
    | exact suffix_cons _ (List.suffix_cons _ _)
    | exact suffix_cons _ (suffix_cons _ (List.suffix_cons _ _))
    | exact lineComment_suffix _
    | (rename_i r _ r' he
       have := blockComment_suffix r
       rw [he] at this
       exact suffix_cons _ this)
    | trivial

end Verif.Lexer
