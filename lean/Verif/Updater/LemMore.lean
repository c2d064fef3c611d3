import Verif.Updater.Lem

namespace Verif.Updater

theorem lastObjectEnd_some {off : Nat} {ms : List (Member × Str)} {e : Nat}
    (h : lastObjectEnd off ms = some e) : ∃ a m g b, ms = a ++ (m, g) :: b ∧ m.kind = .object ∧
      e = off + (membersText a).length + m.text.length := by
  induction ms generalizing off with
  | nil => simp [lastObjectEnd] at h
  | cons p ms ih =>
    obtain ⟨m, g⟩ := p
    simp only [lastObjectEnd] at h
    cases h1 : lastObjectEnd (off + m.text.length + g.length) ms with
    | some e' =>
      simp only [h1, Option.some.injEq] at h
      subst h
      obtain ⟨a, m', g', b, h2, h3, h4⟩ := ih h1
      refine ⟨(m, g) :: a, m', g', b, by simp [h2], h3, ?_⟩
      simp only [membersText, List.length_append]
      omega
    | none =>
      simp only [h1] at h
      by_cases hk : m.kind = .object
      · rw [if_pos hk] at h
        refine ⟨[], m, g, ms, rfl, hk, ?_⟩
        simp only [membersText, List.length_nil, Nat.add_zero]
        exact (Option.some.inj h).symm
      · rw [if_neg hk] at h; cases h

theorem addObjects_eq (d : Doc) (contents : List Str) :
    ∃ u v sep, ItemPlace d u v ∧ White sep ∧ '\n' ∈ sep ∧
      edit (contents.map (fun c => addObject c d)) d =
        u ++ (contents.map (fun c => sep ++ c)).flatten ++ v := by
  cases h : lastObjectEnd (d.pre.length + 1 + d.gap.length) d.members with
  | none =>
    refine ⟨d.pre ++ ['{'], d.gap ++ membersText d.members ++ '}' :: d.post, ['\n'],
      ⟨by simp [Doc.text], Or.inl rfl⟩, by simp [White, Literal.isSpace, Literal.isLineEnd], by simp, ?_⟩
    have e : contents.map (fun c => addObject c d) =
        inserts (d.pre ++ ['{']).length (contents.map (fun c => ['\n'] ++ c)) := by
      unfold inserts
      rw [List.map_map]
      apply List.map_congr_left
      intro c _
      simp [addObject, h]
    unfold edit
    rw [e]
    exact edit_inserts _ _ _ _ (by simp [Doc.text])
  | some p =>
    obtain ⟨a, m, g, b, h1, h2, h3⟩ := lastObjectEnd_some h
    refine ⟨d.pre ++ '{' :: d.gap ++ membersText a ++ m.text,
      g ++ membersText b ++ '}' :: d.post, ['\n', '\n'],
      ⟨by simp [Doc.text, h1, membersText_append, membersText], Or.inr ⟨a, m, g, b, h1, h2, rfl⟩⟩,
      by simp [White, Literal.isSpace, Literal.isLineEnd], by simp, ?_⟩
    have e : contents.map (fun c => addObject c d) =
        inserts (d.pre ++ '{' :: d.gap ++ membersText a ++ m.text).length
          (contents.map (fun c => ['\n', '\n'] ++ c)) := by
      unfold inserts
      rw [List.map_map]
      apply List.map_congr_left
      intro c _
      have : p = (d.pre ++ '{' :: d.gap ++ membersText a ++ m.text).length := by simp; omega
      simp only [addObject, h, Function.comp]
      rw [← this]
      simp
    unfold edit
    rw [e]
    exact edit_inserts _ _ _ _ (by simp [Doc.text, h1, membersText_append, membersText])

theorem white_indent (n : Nat) : White (indent n) := indent_space n

theorem white_append {a b : Str} (ha : White a) (hb : White b) : White (a ++ b) := by
  intro c hc
  rcases List.mem_append.1 hc with h | h
  · exact ha c h
  · exact hb c h

theorem white_nl : White ['\n'] := by simp [White, Literal.isSpace, Literal.isLineEnd]

theorem groupText_group (ind : Nat) (name : Str) (h : Plain name) : IsGroup name (groupText ind name) := by
  refine ⟨indent (ind + 4), ['\n'] ++ indent (ind + 4) ++ indent (ind + 4),
    ['\n'] ++ indent (ind + 4) ++ indent (ind + 4), ['\n'] ++ indent (ind + 4), '"' :: name ++ ['"'],
    white_indent _, white_append (white_append white_nl (white_indent _)) (white_indent _),
    white_append (white_append white_nl (white_indent _)) (white_indent _),
    white_append white_nl (white_indent _), by simp, ?_, plain_eval name h⟩
  simp [groupText, List.append_assoc]

theorem dependsText_depends (ind : Nat) (name : Str) (h : Plain name) :
    IsDepends name (dependsText ind name) := by
  refine ⟨indent (ind + 4), '"' :: name ++ ['"'], white_indent _, ?_, plain_eval name h⟩
  simp [dependsText, List.append_assoc]

end Verif.Updater
