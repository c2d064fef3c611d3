import Verif.Makefile.Lem2
/-!
# Lines and blocks
-/
namespace Verif.Makefile

open Verif.Makefile.Spec

/-! ### Names -/

theorem pathTarget_eq (s : Str) : pathTarget s = s.flatMap fun c => if c = ' ' then ['\\', ' '] else [c] :=
  replaceAll_char ' ' _ s

theorem pathTarget_append (a b : Str) : pathTarget (a ++ b) = pathTarget a ++ pathTarget b := by
  simp only [pathTarget_eq, List.flatMap_append]

theorem pathTarget_cons (c : Char) (s : Str) :
    pathTarget (c :: s) = (if c = ' ' then ['\\', ' '] else [c]) ++ pathTarget s := by
  simp only [pathTarget_eq, List.flatMap_cons]

theorem pathTarget_spaceless (s : Str) (h : ' ' ∉ s) : pathTarget s = s := by
  induction s with
  | nil => rfl
  | cons c s ih =>
    rw [pathTarget_cons, if_neg (fun hh => h (by simp [hh])), ih (fun hh => h (by simp [hh]))]; rfl

theorem mem_pathTarget (s : Str) (c : Char) (h : c ∈ pathTarget s) : c = '\\' ∨ c ∈ s := by
  induction s with
  | nil => exact .inr h
  | cons e s ih =>
    rw [pathTarget_cons] at h
    rcases List.mem_append.mp h with h1 | h1
    · by_cases he : e = ' '
      · rw [if_pos he] at h1
        simp only [List.mem_cons, List.not_mem_nil, or_false] at h1
        rcases h1 with h1 | h1
        · exact .inl h1
        · exact .inr (by rw [he, h1]; simp)
      · rw [if_neg he] at h1
        exact .inr (by rw [List.mem_singleton.mp h1]; simp)
    · rcases ih h1 with h | h
      · exact .inl h
      · exact .inr (by simp [h])

theorem names_some (s rest w : Str) (h : ∀ c ∈ s, c ∉ nameSpecial) :
    namesAt false (some w) (pathTarget s ++ rest) = namesAt false (some (w ++ s)) rest := by
  induction s generalizing w with
  | nil => rw [show pathTarget [] = [] from rfl]; simp
  | cons c s ih =>
    have hc := h c (by simp)
    have ih := fun w => ih w (fun c hc => h c (by simp [hc]))
    rw [pathTarget_cons]
    split
    · rename_i he
      subst he
      show namesAt false (some w) ('\\' :: ' ' :: (pathTarget s ++ rest)) = _
      rw [namesAt, if_neg (by decide), if_pos rfl, namesAt, if_pos rfl, Option.getD_some, ih]
      simp
    · rename_i he
      have hb : c ≠ '\\' := by rintro rfl; exact hc (by decide)
      rw [List.append_assoc, List.singleton_append, namesAt, if_neg he, if_neg hb, if_neg hc, Option.getD_some, ih]
      simp

theorem names_none (s rest : Str) (h : PlainName s) :
    namesAt false none (pathTarget s ++ rest) = namesAt false (some s) rest := by
  have e := names_some s rest [] h.2.2
  rw [List.nil_append] at e
  rw [← e]
  obtain ⟨hne, -, h3⟩ := h
  cases s with
  | nil => exact absurd rfl hne
  | cons c s =>
    rw [pathTarget_cons]
    split
    · show namesAt false none ('\\' :: ' ' :: (pathTarget s ++ rest)) = namesAt false (some []) ('\\' :: ' ' :: (pathTarget s ++ rest))
      simp [namesAt]
    · rename_i hc
      rw [List.append_assoc, List.singleton_append, namesAt, namesAt, if_neg hc, if_neg hc]
      split
      · rename_i hb; exact absurd hb (by rintro rfl; exact h3 '\\' (by simp) (by decide))
      · rfl

theorem spaced_cons (w : Str) (l : List Str) : spaced (w :: l) = ' ' :: (w ++ spaced l) := by
  simp [spaced]

theorem names_spaced_some (w : Str) (l : List Str) (h : ∀ s ∈ l, PlainName s) :
    namesAt false (some w) (spaced (l.map pathTarget)) = some (w :: l) := by
  induction l generalizing w with
  | nil => rfl
  | cons a l ih =>
    rw [List.map_cons, spaced_cons, namesAt, if_pos rfl, names_none _ _ (h a (by simp)),
      ih _ (fun s hs => h s (by simp [hs]))]
    rfl

theorem names_spaced (l : List Str) (h : ∀ s ∈ l, PlainName s) :
    namesAt false none (spaced (l.map pathTarget)) = some l := by
  cases l with
  | nil => rfl
  | cons a l =>
    rw [List.map_cons, spaced_cons, namesAt, if_pos rfl, names_none _ _ (h a (by simp)),
      names_spaced_some _ _ (fun s hs => h s (by simp [hs]))]
    rfl

theorem colon_pathTarget (s : Str) (h : PlainName s) : ':' ∉ pathTarget s := by
  intro hc
  rcases mem_pathTarget s _ hc with h' | h'
  · exact absurd h' (by decide)
  · exact h.2.2 _ h' (by decide)

theorem takeWhile_stop (a : Str) (c : Char) (r : Str) (h : c ∉ a) :
    (a ++ c :: r).takeWhile (· ≠ c) = a := by
  induction a with
  | nil => simp
  | cons d a ih =>
    have hd : d ≠ c := fun hh => h (by simp [hh])
    simp only [List.cons_append, List.takeWhile_cons]
    rw [if_pos (by simpa using hd), ih (fun hh => h (by simp [hh]))]

theorem rule_line (vars : List (Str × Str)) (line t : Str) (needs : List Str) (ht : PlainName t)
    (hn : ∀ s ∈ needs, PlainName s)
    (he : expandAt vars .text line = some (pathTarget t ++ ':' :: spaced (needs.map pathTarget))) :
    ruleLine vars line = some ⟨t, needs, []⟩ := by
  unfold ruleLine expand
  rw [he]
  simp only [Option.bind_some]
  rw [takeWhile_stop _ _ _ (colon_pathTarget t ht), List.drop_left]
  have h1 := names_none t [] ht
  rw [List.append_nil] at h1
  have h2 : names (pathTarget t) = some [t] := h1
  have h3 : names (spaced (needs.map pathTarget)) = some needs := names_spaced _ hn
  simp only [h2, h3]

/-! ### Expansion of paths -/

theorem prefix_cases (path dir : Str) (v : Var) :
    replacePrefix path dir v.name = path ∨ ∃ t, path = dir ++ t ∧ replacePrefix path dir v.name = v.ref ++ t := by
  unfold replacePrefix
  split
  · rename_i h
    obtain ⟨h, -⟩ := h
    rw [List.isPrefixOf_iff_prefix] at h
    obtain ⟨t, rfl⟩ := h
    refine .inr ⟨t, rfl, ?_⟩
    simp [Var.ref, Var.tail]
  · exact .inl rfl

theorem expand_prefix (vars : List (Str × Str)) (v : Var) (path dir rest : Str)
    (hv : vars.lookup v.name = some dir) (h : '$' ∉ path) (h' : '\n' ∉ path) :
    expandAt vars .text (replacePrefix path dir v.name ++ rest) = (expandAt vars .text rest).map (path ++ ·) := by
  rcases prefix_cases path dir v with e | ⟨t, e1, e2⟩
  · rw [e]; exact expand_plain _ _ _ h h'
  · rw [e2, List.append_assoc, expand_ref _ _ _ _ hv, expand_plain _ t _ (fun hh => h (by simp [e1, hh])) (fun hh => h' (by simp [e1, hh])), e1]
    simp [Option.map_map, Function.comp_def]

theorem space_ref (v : Var) : ' ' ∉ v.ref := by cases v <;> decide

theorem pathTarget_mem_ne (s : Str) (c : Char) (hc : c ≠ '\\') (h : c ∉ s) : c ∉ pathTarget s := by
  intro hm
  rcases mem_pathTarget s c hm with h' | h'
  · exact hc h'
  · exact h h'

theorem expand_target (vars : List (Str × Str)) (v : Var) (path dir rest : Str)
    (hv : vars.lookup v.name = some dir) (hd : ' ' ∉ dir) (h : PlainName path) :
    expandAt vars .text (pathTarget (replacePrefix path dir v.name) ++ rest) =
      (expandAt vars .text rest).map (pathTarget path ++ ·) := by
  have hnl : '\n' ∉ path := fun hh => h.2.2 _ hh (by decide)
  rcases prefix_cases path dir v with e | ⟨t, e1, e2⟩
  · rw [e]
    exact expand_plain _ _ _ (pathTarget_mem_ne _ _ (by decide) h.2.1) (pathTarget_mem_ne _ _ (by decide) hnl)
  · rw [e2, pathTarget_append, pathTarget_spaceless _ (space_ref v), List.append_assoc, expand_ref _ _ _ _ hv,
      expand_plain _ (pathTarget t) _ (pathTarget_mem_ne _ _ (by decide) fun hh => h.2.1 (by simp [e1, hh]))
        (pathTarget_mem_ne _ _ (by decide) fun hh => hnl (by simp [e1, hh])), e1, pathTarget_append,
      pathTarget_spaceless _ hd]
    simp [Option.map_map, Function.comp_def]

theorem expand_spaced {α : Type} (vars : List (Str × Str)) (f g : α → Str) (l : List α)
    (h : ∀ a ∈ l, ∀ rest, expandAt vars .text (f a ++ rest) = (expandAt vars .text rest).map (g a ++ ·)) :
    expandAt vars .text (spaced (l.map f)) = some (spaced (l.map g)) := by
  induction l with
  | nil => rfl
  | cons a l ih =>
    rw [List.map_cons, List.map_cons, spaced_cons, spaced_cons, expand_char _ _ _ (by decide) (by decide),
      h a (by simp), ih fun a ha => h a (by simp [ha])]
    rfl

/-! ### Definitions -/

def upper (c : Char) : Bool := c.isUpper || c = '_'

theorem definition_some (name v : Str) (h1 : ∀ c ∈ name, upper c = true) (h2 : name ≠ []) (h3 : v ≠ [])
    (h4 : v.head? ≠ some ' ') (h5 : ∀ c ∈ v, c ∉ ['$', '#', '\\', '\n', '\t']) :
    definition (name ++ ' ' :: '=' :: ' ' :: v) = some (name, v) := by
  have ht : (name ++ ' ' :: '=' :: ' ' :: v).takeWhile (fun c => c.isUpper || c = '_') = name := by
    clear h2
    induction name with
    | nil => rw [List.nil_append, List.takeWhile_cons, if_neg (by decide)]
    | cons c name ih =>
      rw [List.cons_append, List.takeWhile_cons, if_pos (by have := h1 c (by simp); unfold upper at this; exact this), ih fun c hc => h1 c (by simp [hc])]
  have ha : v.any (fun c => c ∈ ['$', '#', '\\', '\n', '\t']) = false := by
    rw [List.any_eq_false]
    intro c hc
    simpa using h5 c hc
  unfold definition
  rw [ht]
  simp only [List.drop_left]
  rw [if_neg]
  rintro (h | h | h | h)
  · exact h2 h
  · exact h3 h
  · exact h4 h
  · rw [ha] at h; exact absurd h (by decide)

theorem definition_colon (t r : Str) (h : ' ' ∉ t) : definition (t ++ ':' :: r) = none := by
  have key : ((t ++ ':' :: r).drop ((t ++ ':' :: r).takeWhile fun c => c.isUpper || c = '_').length).head? ≠ some ' ' := by
    induction t with
    | nil => rw [List.nil_append, List.takeWhile_cons, if_neg (by decide)]; simp
    | cons c t ih =>
      rw [List.cons_append, List.takeWhile_cons]
      split
      · rw [List.length_cons, List.drop_succ_cons]
        exact ih fun hh => h (by simp [hh])
      · simp only [List.length_nil, List.drop_zero, List.head?_cons]
        exact fun hh => h (by simp [Option.some.inj hh])
  unfold definition
  simp only []
  split
  · rename_i v hv
    simp only [hv] at key
    exact absurd rfl key
  · rfl

theorem definition_head (c : Char) (s : Str) (h : upper c = false) (hs : c ≠ ' ') : definition (c :: s) = none := by
  unfold definition
  rw [List.takeWhile_cons, if_neg (by unfold upper at h; rw [h]; decide)]
  simp only [List.length_nil, List.drop_zero]
  split
  · rename_i v hv
    injection hv with hv _
    exact absurd hv hs
  · rfl

/-! ### Blocks -/

/-- These lines are commands. -/
def Recs (vars : List (Str × Str)) (lines : List Str) (cs : List (List Str)) : Prop :=
  ∀ r rs, readLines ⟨vars, r :: rs⟩ lines = some ⟨vars, { r with recipe := r.recipe ++ cs } :: rs⟩

/-- These lines are rules. -/
def Rules (vars : List (Str × Str)) (lines : List Str) (rules : List Rule) : Prop :=
  ∀ rs, readLines ⟨vars, rs⟩ lines = some ⟨vars, rules.reverse ++ rs⟩

theorem readLines_append (m : Read) (a b : List Str) :
    readLines m (a ++ b) = (readLines m a).bind fun m => readLines m b := by
  induction a generalizing m with
  | nil => rfl
  | cons l a ih =>
    rw [List.cons_append, readLines, readLines]
    cases readLine m l with
    | none => rfl
    | some m => exact ih m

theorem recs_nil (vars : List (Str × Str)) : Recs vars [] [] := by
  intro r rs
  simp [readLines]

theorem recs_append {vars : List (Str × Str)} {a b : List Str} {c d : List (List Str)} (h1 : Recs vars a c)
    (h2 : Recs vars b d) : Recs vars (a ++ b) (c ++ d) := by
  intro r rs
  rw [readLines_append, h1 r rs, Option.bind_some, h2]
  simp

theorem recs_one {vars : List (Str × Str)} {s : Str} {c : List Str} (h : recipeLine vars s = some c) :
    Recs vars ['\t' :: s] [c] := by
  intro r rs
  rw [readLines, readLine]
  simp only [h]
  rfl

theorem recs_map {α : Type} {vars : List (Str × Str)} (f : α → Str) (g : α → List Str) (l : List α)
    (h : ∀ a ∈ l, Recs vars [f a] [g a]) : Recs vars (l.map f) (l.map g) := by
  induction l with
  | nil => exact recs_nil _
  | cons a l ih =>
    exact recs_append (h a (by simp)) (ih fun a ha => h a (by simp [ha]))

theorem rules_nil (vars : List (Str × Str)) : Rules vars [] [] := by intro rs; rfl

theorem rules_append {vars : List (Str × Str)} {a b : List Str} {c d : List Rule} (h1 : Rules vars a c)
    (h2 : Rules vars b d) : Rules vars (a ++ b) (c ++ d) := by
  intro rs
  rw [readLines_append, h1 rs, Option.bind_some, h2]
  simp

theorem rules_flatMap {α : Type} {vars : List (Str × Str)} (f : α → List Str) (g : α → List Rule) (l : List α)
    (h : ∀ a ∈ l, Rules vars (f a) (g a)) : Rules vars (l.flatMap f) (l.flatMap g) := by
  induction l with
  | nil => exact rules_nil _
  | cons a l ih =>
    rw [List.flatMap_cons, List.flatMap_cons]
    exact rules_append (h a (by simp)) (ih fun a ha => h a (by simp [ha]))

/-- A line that is not a comment, a command or a definition. -/
theorem block {vars : List (Str × Str)} {line : Str} {recs : List Str} {t : Str} {needs : List Str}
    {cs : List (List Str)} (h0 : ∃ c s, line = c :: s ∧ c ≠ '#' ∧ c ≠ '\t') (hd : definition line = none)
    (hr : ruleLine vars line = some ⟨t, needs, []⟩) (hc : Recs vars recs cs) :
    Rules vars (line :: recs) [⟨t, needs, cs⟩] := by
  obtain ⟨c, s, rfl, h1, h2⟩ := h0
  intro rs
  rw [readLines]
  have : readLine ⟨vars, rs⟩ (c :: s) = some ⟨vars, ⟨t, needs, []⟩ :: rs⟩ := by
    unfold readLine
    split
    · rename_i h; exact absurd h (by simp)
    · rename_i h; injection h with h; exact absurd h h1
    · rename_i h; injection h with h; exact absurd h h2
    · simp only [hd, hr]; rfl
  rw [this, Option.bind_some, hc]
  simp

end Verif.Makefile
