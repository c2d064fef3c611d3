import Verif.Updater.LemQuote
import Verif.Updater.LemRemove
import Verif.Updater.LemLines

namespace Verif.Updater

/-! ### Adding files -/

/-- **C89 (adding to a list).** If `files` is an array literal, adding files replaces just the value of
this property. The new value is an array literal with the old elements, in the old order, and the new
files all in one place between them; the statement is properly ended. -/
theorem C89_add_to_array (ind : Nat) (files : List Str) (hf : files ≠ [])
    (hl : ∀ f ∈ files, Literal.OneLine f) (d : Doc) (a b : List (Member × Str)) (head g src : Str)
    (s : Stmt) (h : FilesBinding d a head s g b) (elems : List Elem)
    (hs : s.expr = some (src, .array elems)) :
    ∃ rhs semicolon before new after order,
      addFiles ind files d = some (textWith d a (head ++ rhs ++ semicolon) g b) ∧
      Ends semicolon g b ∧ ArrayLit (before ++ new ++ after) rhs ∧
      elems.map (·.source) = before ++ after ∧ StringLits new order ∧ order.Perm files := by
  obtain ⟨p, q, h1, h2⟩ := mergeReprs_split (Literal.litStr ((sortFiles files).headD []))
    ((sortFiles files).map Literal.litStr) (elems.map (·.source))
  refine ⟨_, _, p, (sortFiles files).map Literal.litStr, q, sortFiles files, ?_, ends_change g b,
    filesRepr_lit (ind + 8) (ind + 4) _, h1,
    litStr_lits _ (fun f hf' => hl f ((sortFiles_perm files).mem_iff.1 hf')), sortFiles_perm files⟩
  simp only [addFiles, hf, if_false, findFiles_eq h, addedRhs, hs, Option.map_some]
  rw [changeBinding_eq h, h2]

/-- **C89 (adding to a single file).** If `files` is a string literal, the new value is an array literal
of string literals: the old one and the new files. -/
theorem C89_add_to_string (ind : Nat) (files : List Str) (hf : files ≠ [])
    (hl : ∀ f ∈ files, Literal.OneLine f) (d : Doc) (a b : List (Member × Str)) (head g src v : Str)
    (s : Stmt) (h : FilesBinding d a head s g b) (hs : s.expr = some (src, .str v))
    (hv : Literal.OneLine v) :
    ∃ rhs semicolon es order,
      addFiles ind files d = some (textWith d a (head ++ rhs ++ semicolon) g b) ∧
      Ends semicolon g b ∧ ArrayLit es rhs ∧ StringLits es order ∧ order.Perm (v :: files) := by
  have hp : (sortFiles (sortFiles files ++ [v])).Perm (v :: files) :=
    (sortFiles_perm _).trans ((List.perm_append_comm).trans ((sortFiles_perm files).cons v))
  refine ⟨_, _, _, sortFiles (sortFiles files ++ [v]), ?_, ends_change g b,
    filesRepr_lit (ind + 8) (ind + 4) _, litStr_lits _ ?_, hp⟩
  · simp only [addFiles, hf, if_false, findFiles_eq h, addedRhs, hs, Option.map_some]
    rw [changeBinding_eq h]
  · intro f hf'
    rcases List.mem_cons.1 (hp.mem_iff.1 hf') with e | e
    · subst e; exact hv
    · exact hl f e

/-- **C89 (adding to an expression).** If `files` is any other expression, the new value is an array
literal of the new files, with the old expression as the argument of its `concat` function. -/
theorem C89_add_to_expression (ind : Nat) (files : List Str) (hf : files ≠ [])
    (hl : ∀ f ∈ files, Literal.OneLine f) (d : Doc) (a b : List (Member × Str)) (head g src : Str)
    (s : Stmt) (h : FilesBinding d a head s g b) (hs : s.expr = some (src, .other)) :
    ∃ lit semicolon es order,
      addFiles ind files d =
        some (textWith d a (head ++ (lit ++ ".concat(".toList ++ src ++ [')']) ++ semicolon) g b) ∧
      Ends semicolon g b ∧ ArrayLit es lit ∧ StringLits es order ∧ order.Perm files := by
  refine ⟨filesRepr (ind + 8) (ind + 4) ((sortFiles files).map Literal.litStr), _, _, sortFiles files,
    ?_, ends_change g b, filesRepr_lit (ind + 8) (ind + 4) _,
    litStr_lits _ (fun f hf' => hl f ((sortFiles_perm files).mem_iff.1 hf')), sortFiles_perm files⟩
  simp only [addFiles, hf, if_false, findFiles_eq h, addedRhs, hs, Option.map_some]
  rw [changeBinding_eq h]

/-- **C89 (adding the property).** If there is no property `files`, it becomes the first member of the
item, with an array literal of the new files; the statement is properly ended. -/
theorem C89_add_property (ind : Nat) (files : List Str) (hf : files ≠ [])
    (hl : ∀ f ∈ files, Literal.OneLine f) (d : Doc) (h : ∀ p ∈ d.members, ¬ NamedFiles p.1) :
    ∃ w rhs semicolon es order, White w ∧
      addFiles ind files d = some (d.pre ++ '{' :: w ++ "files: ".toList ++ rhs ++ semicolon ++ d.gap ++
        membersText d.members ++ '}' :: d.post) ∧
      Ends semicolon d.gap d.members ∧ ArrayLit es rhs ∧ StringLits es order ∧ order.Perm files := by
  have key : ∀ t : Str, edit [.insert (d.pre.length + 1 : Nat) t] d =
      d.pre ++ '{' :: t ++ d.gap ++ membersText d.members ++ '}' :: d.post := by
    intro t
    have := edit_insert d.text (d.pre ++ ['{']) (d.gap ++ membersText d.members ++ '}' :: d.post) t
      (by simp [Doc.text])
    unfold edit
    rw [show d.pre.length + 1 = (d.pre ++ ['{']).length by simp, this]
    simp
  by_cases ho : '\n' ∈ d.gap
  · refine ⟨'\n' :: indent (ind + 4), filesRepr (ind + 8) (ind + 4) ((sortFiles files).map Literal.litStr),
      [], _, sortFiles files, ?_, ?_, Or.inr ⟨rfl, Or.inl ho⟩, filesRepr_lit (ind + 8) (ind + 4) _,
      litStr_lits _ (fun f hf' => hl f ((sortFiles_perm files).mem_iff.1 hf')), sortFiles_perm files⟩
    · exact white_append white_nl (white_indent _)
    · simp only [addFiles, hf, if_false, findFiles_none h, addBinding]
      rw [if_neg (by simpa using ho), key]
      simp [filesName]
  · refine ⟨' ' :: indent (ind + 4), filesRepr (ind + 8) (ind + 4) ((sortFiles files).map Literal.litStr),
      (if d.members ≠ [] then [';'] else []), _, sortFiles files, ?_, ?_, ?_,
      filesRepr_lit (ind + 8) (ind + 4) _,
      litStr_lits _ (fun f hf' => hl f ((sortFiles_perm files).mem_iff.1 hf')), sortFiles_perm files⟩
    · intro c hc
      rcases List.mem_cons.1 hc with e | e
      · subst e; rfl
      · exact indent_space _ c e
    · simp only [addFiles, hf, if_false, findFiles_none h, addBinding]
      rw [if_pos ho, key]
      simp [filesName]
    · by_cases hm : d.members = []
      · rw [if_neg (by simpa using hm)]
        exact Or.inr ⟨rfl, Or.inr hm⟩
      · rw [if_pos hm]
        exact Or.inl rfl

/-! ### Removing files -/

/-- **C89 (removing from a list).** If `files` is an array literal of string literals, removing files
that are all in it replaces just the value of this property. The new value is an array literal of the
other files, in the old order. Missing from the full property: file names with quotes or backslashes,
see `C89_removing_changes_others`. -/
theorem C89_remove_partial (ind : Nat) (files : List Str) (hf : files ≠ []) (d : Doc)
    (a b : List (Member × Str)) (head g src : Str) (s : Stmt) (h : FilesBinding d a head s g b)
    (elems : List Elem) (hs : s.expr = some (src, .array elems)) (values : List Str)
    (hv : elems.map (·.literal) = values.map some) (hplain : ∀ v ∈ values, Plain v)
    (hin : ∃ rest, values.Perm (files ++ rest)) :
    ∃ rhs semicolon es stay,
      removeFiles ind files d = some (textWith d a (head ++ rhs ++ semicolon) g b) ∧
      Ends semicolon g b ∧ ArrayLit es rhs ∧ StringLits es stay ∧ stay.Sublist values ∧
      values.Perm (files ++ stay) := by
  obtain ⟨stay, left, h1, h2, h3, h4⟩ := removeLoop_ok values elems hv files
  have hleft : left = [] := by
    cases left with
    | nil => rfl
    | cons x left =>
      exfalso
      obtain ⟨rest, hr⟩ := hin
      have c1 := h3.count_eq x
      have c2 := hr.count_eq x
      have c3 : stay.count x = 0 := List.count_eq_zero.2 (h4 x (by simp))
      simp only [List.count_append, List.count_cons_self] at c1 c2
      omega
  subst hleft
  refine ⟨_, _, stay.map (fun f => '"' :: f ++ ['"']), stay, ?_, ends_change g b,
    filesRepr_lit (ind + 8) (ind + 4) _, ?_, h2, by simpa using h3⟩
  · simp only [removeFiles, hf, if_false, findFiles_eq h, removedRhs, hs, h1, Option.map_some]
    rw [changeBinding_eq h]
  · unfold StringLits
    rw [List.map_map]
    exact List.map_congr_left (fun f hf' => plain_eval f (hplain f (h2.subset hf')))

/-- **C89 (removing files that are not there).** If one of the files is not in the array literal, or not
as often as it is to be removed, nothing is changed, and there is an error. -/
theorem C89_remove_missing (ind : Nat) (files : List Str) (hf : files ≠ []) (d : Doc)
    (a b : List (Member × Str)) (head g src : Str) (s : Stmt) (h : FilesBinding d a head s g b)
    (elems : List Elem) (hs : s.expr = some (src, .array elems)) (values : List Str)
    (hv : elems.map (·.literal) = values.map some) (hin : ¬ ∃ rest, values.Perm (files ++ rest)) :
    removeFiles ind files d = none := by
  obtain ⟨stay, left, h1, _, h3, _⟩ := removeLoop_ok values elems hv files
  cases left with
  | nil => exact absurd ⟨stay, by simpa using h3⟩ hin
  | cons x left =>
    simp only [removeFiles, hf, if_false, findFiles_eq h, removedRhs, hs, h1, Option.map_none]

/-- **C89 (removing the only file).** If `files` is a string literal, it can be removed, and nothing
else; the new value is an empty list. -/
theorem C89_remove_only (ind : Nat) (files : List Str) (hf : files ≠ []) (d : Doc)
    (a b : List (Member × Str)) (head g src v : Str) (s : Stmt) (h : FilesBinding d a head s g b)
    (hs : s.expr = some (src, .str v)) :
    (files = [v] → ∃ semicolon, Ends semicolon g b ∧
      removeFiles ind files d = some (textWith d a (head ++ "[]".toList ++ semicolon) g b)) ∧
    (files ≠ [v] → removeFiles ind files d = none) := by
  constructor
  · intro e
    refine ⟨_, ends_change g b, ?_⟩
    simp only [removeFiles, hf, if_false, findFiles_eq h, removedRhs, hs]
    rw [if_pos e, Option.map_some, changeBinding_eq h]
  · intro e
    simp only [removeFiles, hf, if_false, findFiles_eq h, removedRhs, hs, e, Option.map_none]

/-! ### New items -/

/-- **C89 (adding a group).** Adding a group changes nothing but adding an item of this kind. Missing
from the full property: names with quotes, backslashes or ends of lines, see `C89_group_name`. -/
theorem C89_add_group_partial (ind : Nat) (name : Str) (hn : Plain name) (d : Doc) :
    ∃ u v w t, ItemPlace d u v ∧ White w ∧ IsGroup name t ∧ addGroup ind name d = u ++ w ++ t ++ v := by
  obtain ⟨u, v, sep, h1, h2, _, h4⟩ := addObjects_eq d [groupText ind name]
  refine ⟨u, v, sep, groupText ind name, h1, h2, groupText_group ind name hn, ?_⟩
  simpa [addGroup] using h4

/-- **C89 (adding dependencies).** Adding dependencies changes nothing but adding one item of this kind
for each of them. -/
theorem C89_add_depends_partial (ind : Nat) (names : List Str) (hn : ∀ n ∈ names, Plain n) (d : Doc) :
    ∃ (u v w : Str) (ts order : List Str), ItemPlace d u v ∧ White w ∧ order.Perm names ∧ ts.length = order.length ∧
      (∀ p ∈ order.zip ts, IsDepends p.1 p.2) ∧
      addDepends ind names d = u ++ (ts.map (w ++ ·)).flatten ++ v := by
  obtain ⟨u, v, sep, h1, h2, _, h4⟩ := addObjects_eq d ((sortFiles names).map (dependsText ind))
  refine ⟨u, v, sep, (sortFiles names).map (dependsText ind), sortFiles names, h1, h2,
    sortFiles_perm names, by simp, ?_, ?_⟩
  · intro p hp
    rw [List.zip_map_right, List.mem_map] at hp
    obtain ⟨q, hq, rfl⟩ := hp
    have hm := (List.of_mem_zip hq).1
    have heq : q.2 = q.1 := by
      have : ∀ (l : List Str) (q : Str × Str), q ∈ l.zip l → q.2 = q.1 := by
        intro l
        induction l with
        | nil => intro q hq; simp at hq
        | cons x l ih =>
          intro q hq
          rcases List.mem_cons.1 hq with e | e
          · subst e; rfl
          · exact ih q e
      exact this _ q hq
    simp only [Prod.map, id, heq]
    exact dependsText_depends ind q.1 (hn q.1 ((sortFiles_perm names).mem_iff.1 hm))
  · unfold addDepends
    by_cases hnil : names = []
    · subst hnil
      rw [if_pos rfl]
      simp only [sortFiles, Common.isort, List.map_nil, List.flatten_nil, List.append_nil]
      exact h1.1
    · rw [if_neg hnil]
      rw [List.map_map] at h4
      exact h4

/-! ### Findings about C89 -/

/-- **C89 finding.** When files are removed, the other ones are written between quotes as they are: each
one that has a quote, a backslash or the end of a line in it gets a text that is not a literal of it. So
removing a file changes the names of others, or breaks the project file. -/
theorem C89_removing_changes_others (ind : Nat) (files : List Str) (hf : files ≠ []) (d : Doc)
    (a b : List (Member × Str)) (head g src : Str) (s : Stmt) (h : FilesBinding d a head s g b)
    (elems : List Elem) (hs : s.expr = some (src, .array elems)) (values : List Str)
    (hv : elems.map (·.literal) = values.map some) (hin : ∃ rest, values.Perm (files ++ rest)) :
    ∃ (rhs semicolon : Str) (es stay : List Str),
      removeFiles ind files d = some (textWith d a (head ++ rhs ++ semicolon) g b) ∧
      Ends semicolon g b ∧ ArrayLit es rhs ∧ stay.Sublist values ∧ values.Perm (files ++ stay) ∧
      es.length = stay.length ∧
      ∀ p ∈ stay.zip es, (Literal.evaluate p.2 = some (.str p.1) ↔ Plain p.1) := by
  obtain ⟨stay, left, h1, h2, h3, h4⟩ := removeLoop_ok values elems hv files
  have hleft : left = [] := by
    cases left with
    | nil => rfl
    | cons x left =>
      exfalso
      obtain ⟨rest, hr⟩ := hin
      have c1 := h3.count_eq x
      have c2 := hr.count_eq x
      have c3 : stay.count x = 0 := List.count_eq_zero.2 (h4 x (by simp))
      simp only [List.count_append, List.count_cons_self] at c1 c2
      omega
  subst hleft
  refine ⟨filesRepr (ind + 8) (ind + 4) (stay.map (fun f => '"' :: f ++ ['"'])), _,
    stay.map (fun f => '"' :: f ++ ['"']), stay, ?_, ends_change g b,
    filesRepr_lit (ind + 8) (ind + 4) _, h2, by simpa using h3, by simp, ?_⟩
  · simp only [removeFiles, hf, if_false, findFiles_eq h, removedRhs, hs, h1, Option.map_some]
    rw [changeBinding_eq h]
  · intro p hp
    rw [List.zip_map_right, List.mem_map] at hp
    obtain ⟨q, hq, rfl⟩ := hp
    have : ∀ (l : List Str) (q : Str × Str), q ∈ l.zip l → q.2 = q.1 := by
      intro l
      induction l with
      | nil => intro q hq; simp at hq
      | cons x l ih =>
        intro q hq
        rcases List.mem_cons.1 hq with e | e
        · subst e; rfl
        · exact ih q e
    have heq := this _ q hq
    simp only [Prod.map, id, heq]
    exact quoted_iff q.1

/-- **C89 finding.** The name of a new group is written between quotes as it is: with a quote, a
backslash or the end of a line in it, the text is not a literal of the name. -/
theorem C89_group_name (ind : Nat) (name : Str) (d : Doc) :
    ∃ u v w1 w2 lit w3, ItemPlace d u v ∧ White w1 ∧ White w2 ∧
      addGroup ind name d = u ++ w1 ++ "Group {".toList ++ w2 ++ "name: ".toList ++ lit ++ w3 ++ v ∧
      (Literal.evaluate lit = some (.str name) ↔ Plain name) := by
  obtain ⟨u, v, sep, h1, h2, _, h4⟩ := addObjects_eq d [groupText ind name]
  refine ⟨u, v, sep ++ indent (ind + 4), ['\n'] ++ indent (ind + 4) ++ indent (ind + 4), '"' :: name ++ ['"'],
    ['\n'] ++ indent (ind + 4) ++ indent (ind + 4) ++ "files: []\n".toList ++ indent (ind + 4) ++ ['}'],
    h1, white_append h2 (white_indent _),
    white_append (white_append white_nl (white_indent _)) (white_indent _), ?_, quoted_iff name⟩
  have : addGroup ind name d = u ++ (sep ++ groupText ind name) ++ v := by simpa [addGroup] using h4
  rw [this]
  simp [groupText, List.append_assoc]

/-- **C89 finding.** Whether a file is in the project already is looked up in the data from when the
project was resolved, which edits do not change. If a file was added before, adding it again succeeds,
and the list has it twice. -/
theorem C89_added_twice (known : List Str) (ind : Nat) (f : Str) (hk : f ∉ known) (d : Doc)
    (a b : List (Member × Str)) (head g src : Str) (s : Stmt) (h : FilesBinding d a head s g b)
    (elems : List Elem) (hs : s.expr = some (src, .array elems))
    (hin : Literal.litStr f ∈ elems.map (·.source)) :
    ∃ rhs semicolon es, apiAddFiles known ind [f] d = some (textWith d a (head ++ rhs ++ semicolon) g b) ∧
      Ends semicolon g b ∧ ArrayLit es rhs ∧ 2 ≤ es.count (Literal.litStr f) := by
  obtain ⟨p, q, h1, h2⟩ := mergeReprs_split (Literal.litStr ((sortFiles [f]).headD []))
    ((sortFiles [f]).map Literal.litStr) (elems.map (·.source))
  refine ⟨filesRepr (ind + 8) (ind + 4) (p ++ (sortFiles [f]).map Literal.litStr ++ q), _,
    p ++ (sortFiles [f]).map Literal.litStr ++ q, ?_, ends_change g b, filesRepr_lit (ind + 8) (ind + 4) _, ?_⟩
  · unfold apiAddFiles
    rw [if_neg (by simpa using hk)]
    simp only [addFiles, findFiles_eq h, addedRhs, hs, Option.map_some]
    rw [if_neg (by simp), changeBinding_eq h, h2]
  · have hm : 0 < (elems.map (·.source)).count (Literal.litStr f) := List.count_pos_iff.2 hin
    rw [h1] at hm
    have hs1 : (sortFiles [f]).map Literal.litStr = [Literal.litStr f] := rfl
    rw [hs1]
    simp only [List.count_append, List.count_cons_self, List.count_nil] at hm ⊢
    omega

/-- **C89 finding.** Likewise, a file that was added before cannot be removed again. -/
theorem C89_added_not_removed (known : List Str) (ind : Nat) (f : Str) (hk : f ∉ known) (d : Doc) :
    apiRemoveFiles known ind [f] d = none := by
  unfold apiRemoveFiles
  rw [if_neg (by simpa using hk)]

/-- **C89 finding.** Comments in the list get lost: the result is the same for two project files that
differ only in what is between the elements of the list. -/
theorem C89_comments_lost (ind : Nat) (files : List Str) (d : Doc) (a b : List (Member × Str))
    (head g src src' : Str) (s s' : Stmt) (h : FilesBinding d a head s g b) (elems : List Elem)
    (hs : s.expr = some (src, .array elems)) (hs' : s'.expr = some (src', .array elems)) (hf : files ≠ []) :
    addFiles ind files { d with members := a ++ (⟨.binding [filesName] s', head⟩, g) :: b } =
      addFiles ind files d := by
  have h' : FilesBinding { d with members := a ++ (⟨.binding [filesName] s', head⟩, g) :: b } a head s' g b :=
    ⟨rfl, h.before, h.after⟩
  simp only [addFiles, hf, if_false, findFiles_eq h, findFiles_eq h', addedRhs, hs, hs', Option.map_some]
  rw [changeBinding_eq h, changeBinding_eq h']
  rfl

/-! ### Removing groups -/

theorem reverse_getLast {p : Str} : p.reverse.head? = p.getLast? := by simp

/-- What the code of `removeItem` does to the text before the item, in two steps. -/
theorem removeItem_eq (u v : Str) : ∃ u1 w1 w2 v0 keep, u = u1 ++ w1 ∧ v = w2 ++ v0 ∧
    (∀ c ∈ w1, SpaceChar c) ∧ (∀ c ∈ w2, SpaceChar c) ∧ '\n' ∉ w1 ∧
    removeItem u v = (leadingEmptyLine u1.reverse).reverse ++ keep ++ v0 ∧
    ((keep = [] ∧ ('\n' ∈ w2 → u1.getLast? = some '\n')) ∨ keep = ['\n'] ∧ '\n' ∈ w2) := by
  obtain ⟨w2, e1, e2, e3, e4, _⟩ := spanEnd_eq v
  obtain ⟨w1, s1, s2, s3, s4, _⟩ := spanStart_eq u.reverse
  have hsp : ∀ (w : Str), (∀ c ∈ w, isSpace c = true) → ∀ c ∈ w, SpaceChar c :=
    fun w h c hc => (isSpace_iff c).1 (h c hc)
  unfold removeItem surrounding
  simp only
  by_cases he : (spanEnd v).2 = true
  · rw [if_pos he]
    have hu : u = (spanStart u.reverse).1.reverse ++ w1.reverse := by
      have := congrArg List.reverse s1
      simpa using this
    by_cases hs : (spanStart u.reverse).2 = true
    · rw [if_pos hs]
      refine ⟨(spanStart u.reverse).1.reverse, w1.reverse, w2, (spanEnd v).1, [], hu, e1,
        fun c hc => hsp w1 s2 c (by simpa using hc), hsp w2 e2, by simpa using s3, by simp, Or.inl ⟨rfl, ?_⟩⟩
      intro _
      rw [← reverse_getLast, List.reverse_reverse]
      exact s4 hs
    · rw [if_neg hs]
      refine ⟨(spanStart u.reverse).1.reverse, w1.reverse, w2, (spanEnd v).1, ['\n'], hu, e1,
        fun c hc => hsp w1 s2 c (by simpa using hc), hsp w2 e2, by simpa using s3, by simp,
        Or.inr ⟨rfl, e3 he⟩⟩
  · rw [if_neg he]
    refine ⟨u, [], w2, (spanEnd v).1, [], by simp, e1, by simp, hsp w2 e2, by simp, by simp,
      Or.inl ⟨rfl, ?_⟩⟩
    intro h
    exact absurd h (e4 (by simpa using he))

/-- **C90 (removing a group).** Removing an item that is the first one in its line, or whose line does
not come after an empty one, takes away the item and white space around it, nothing else; items that
were in different lines still are. Missing from the full property: items after others in the line, see
`C90_line_removed`. -/
theorem C90_remove_partial (u v : Str) (h : FirstInLine u ∨ ¬ ∃ p q, AfterBlank u p q) :
    Joined u v (removeItem u v) := by
  obtain ⟨u1, w1, w2, v0, keep, h1, h2, h3, h4, h5, h6, h7⟩ := removeItem_eq u v
  rcases leadingEmptyLine_eq u1.reverse with hl | ⟨q, blank, l1, l2, l3, l4, l5⟩
  · rw [hl, List.reverse_reverse] at h6
    refine ⟨u1, w1, w2, v0, h1, h2, h3, h4, ?_⟩
    rcases h7 with ⟨k1, k2⟩ | ⟨k1, k2⟩
    · left
      subst k1
      refine ⟨by simpa using h6, fun hm => ?_⟩
      rcases List.mem_append.1 hm with e | e
      · exact absurd e h5
      · exact Or.inr (k2 e)
    · right
      subst k1
      exact ⟨by simpa using h6, k2⟩
  · -- an empty line is removed
    have l1' : u1 = (leadingEmptyLine u1.reverse).reverse ++ blank.reverse ++ '\n' :: q.reverse := by
      have := congrArg List.reverse l1
      simpa using this
    generalize hL : (leadingEmptyLine u1.reverse).reverse = L at l1' h6
    have hstart : AtLineStart L := by
      rcases l5 with e | e
      · left; rw [← hL, e]; rfl
      · right; rw [← hL, ← reverse_getLast, List.reverse_reverse]; exact e
    have hbl : ∀ c ∈ blank.reverse, SpaceChar c :=
      fun c hc => (isSpace_iff c).1 (l4 c (by simpa using hc))
    have hnl : SpaceChar '\n' := Or.inr ⟨by decide, by decide⟩
    -- the rest of the line is white space
    have hq : ∀ c ∈ q.reverse ++ w1, SpaceChar c := by
      rcases h with hf | hf
      · obtain ⟨p, w, f1, f2, f3, f4⟩ := hf
        have hno : '\n' ∉ q.reverse ++ w1 := by
          simp only [List.mem_append, List.mem_reverse, not_or]
          exact ⟨l2, h5⟩
        have hu : L ++ blank.reverse ++ '\n' :: (q.reverse ++ w1) = p ++ w := by
          rw [← f1, h1, l1']; simp
        -- both are the part after the last line end
        have key : ∀ (x y : Str), '\n' ∉ y → ∀ (p w : Str), AtLineStart p → '\n' ∉ w →
            x ++ '\n' :: y = p ++ w → w = y := by
          intro x y hy p w hp hw e
          have e' := congrArg List.reverse e
          simp only [List.reverse_append, List.reverse_cons, List.append_assoc] at e'
          rcases hp with hp | hp
          · subst hp
            simp at e
            exact absurd (by rw [← e]; simp) hw
          · obtain ⟨p', hp'⟩ := List.getLast?_eq_some_iff.1 hp
            subst hp'
            simp only [List.reverse_append, List.reverse_cons, List.reverse_nil, List.nil_append,
              List.cons_append] at e'
            have t1 := (takeWhile_nl y.reverse x.reverse (by simpa using hy)).1
            have t2 := (takeWhile_nl w.reverse p'.reverse (by simpa using hw)).1
            rw [e', t2] at t1
            simpa using t1
        have := key _ _ hno p w f2 f3 hu
        rw [← this]; exact f4
      · exfalso
        by_cases hne : L ++ blank.reverse = []
        · -- then nothing is removed
          simp at hne
          obtain ⟨n1, n2⟩ := hne
          have : leadingEmptyLine u1.reverse = u1.reverse := by
            have : u1.reverse = q ++ '\n' :: [] := by
              rw [l1', n1, n2]; simp
            rw [this]
            unfold leadingEmptyLine
            rw [(takeWhile_nl q [] l2).2]
            simp
          rw [this, List.reverse_reverse] at hL
          rw [hL, n1] at l1'
          simp at l1'
        · refine hf ⟨L, q.reverse ++ w1, hstart, ?_, blank.reverse, ?_, by simpa using l3, hbl, hne⟩
          · simp only [List.mem_append, List.mem_reverse, not_or]
            exact ⟨l2, h5⟩
          · rw [h1, l1']; simp
    refine ⟨L, blank.reverse ++ '\n' :: (q.reverse ++ w1), w2, v0, ?_, h2, ?_, h4, ?_⟩
    · rw [h1, l1']; simp
    · intro c hc
      rcases List.mem_append.1 hc with e | e
      · exact hbl c e
      · rcases List.mem_cons.1 e with e | e
        · subst e; exact hnl
        · exact hq c e
    · rcases h7 with ⟨k1, k2⟩ | ⟨k1, k2⟩
      · left
        subst k1
        exact ⟨by simpa using h6, fun _ => hstart⟩
      · right
        subst k1
        exact ⟨by simpa using h6, k2⟩

/-- **C90 finding.** If there is something else before the item in its line, `q`, and the line before is
empty, then `q` is removed as well: only `p` remains, the text up to the empty line. -/
theorem C90_line_removed (u v p q : Str) (h : AfterBlank u p q) (hq : ∃ c ∈ q, ¬ SpaceChar c) :
    ∃ w2 v0 keep, v = w2 ++ v0 ∧ (∀ c ∈ w2, SpaceChar c) ∧ (keep = [] ∨ keep = ['\n']) ∧
      removeItem u v = p ++ keep ++ v0 := by
  obtain ⟨u1, w1, w2, v0, keep, h1, h2, h3, h4, h5, h6, h7⟩ := removeItem_eq u v
  obtain ⟨w, b1, b2, b3, b4⟩ := h.blank
  -- the white space before the item is in its line
  have hsuf : ∃ q1, q = q1 ++ w1 := by
    have e : u1 ++ w1 = (p ++ w ++ ['\n']) ++ q := by rw [← h1, b1]; simp
    rcases List.append_eq_append_iff.1 e with ⟨as, e1, e2⟩ | ⟨bs, e1, e2⟩
    · exact absurd e2 (by
        intro e2
        obtain ⟨c, hc, hn⟩ := hq
        exact hn (h3 c (by rw [e2]; simp [hc])))
    · exact ⟨bs, e2⟩
  obtain ⟨q1, rfl⟩ := hsuf
  have hu1 : u1 = p ++ w ++ '\n' :: q1 := by
    have : u1 ++ w1 = (p ++ w ++ '\n' :: q1) ++ w1 := by rw [← h1, b1]; simp
    exact List.append_cancel_right this
  have hlead : leadingEmptyLine u1.reverse = p.reverse := by
    have : u1.reverse = q1.reverse ++ '\n' :: (w.reverse ++ p.reverse) := by rw [hu1]; simp
    rw [this]
    refine leadingEmptyLine_blank _ _ _ ?_ (by simpa using b2)
      (fun c hc => (isSpace_iff c).2 (b3 c (by simpa using hc))) ?_ ?_
    · have := h.line
      simp only [List.mem_append, not_or] at this
      simpa using this.1
    · rcases h.start with e | e
      · left; simp [e]
      · right; simpa using e
    · intro e
      have := congrArg List.reverse e
      simp at this
      exact b4 (by simp [this.1, this.2])
  rw [hlead, List.reverse_reverse] at h6
  exact ⟨w2, v0, keep, h2, h4, h7.imp (·.1) (·.1), h6⟩

/-! ### Writing the file -/

/-- **C91 (what is not edited stays).** If all lines of the file end in the same way, an edit that
replaces a part of the text replaces just the corresponding part of the file, and the new text gets the
line ends of the file. -/
theorem C91_outside (host : Bool) (s : Str) (h : UnixText s ∨ WindowsText s) (f : Str → Str)
    (A B C t : Str) (hs : toUnix (guess s) s = A ++ B ++ C) (hf : f (A ++ B ++ C) = A ++ t ++ C) :
    ∃ a b c t', s = a ++ b ++ c ∧ LineEndsOnly A a ∧ LineEndsOnly B b ∧ LineEndsOnly C c ∧
      LineEndsOnly t t' ∧ applyFile host f s .fine = (a ++ t' ++ c, some true) ∧
      ('\n' ∈ s → UnixText s → t' = t) ∧ ('\n' ∈ s → WindowsText s → ∀ x y, t' = x ++ '\n' :: y →
        x.getLast? = some '\r') := by
  obtain ⟨g1, g2, g3⟩ := guess_eq s
  by_cases hn : '\n' ∈ s
  · by_cases hx : UnixText s
    · have hg := g2.2 ⟨hn, hx⟩
      have hto : toUnix (guess s) s = s := by simp [toUnix, hg]
      refine ⟨A, B, C, t, by rw [← hto, hs], lines_refl A, lines_refl B, lines_refl C, lines_refl t, ?_,
        fun _ _ => rfl, ?_⟩
      · simp only [applyFile, hs, hf]
        rw [fromUnix, if_neg (by simp [hg])]
      · intro _ hw
        exfalso
        obtain ⟨a, b, e⟩ := List.append_of_mem hn
        have := hw a b e
        obtain ⟨a', ha'⟩ := List.getLast?_eq_some_iff.1 this
        exact hx a' b (by rw [e, ha']; simp)
    · have hw : WindowsText s := h.resolve_left hx
      have hg := g3.2 ⟨hn, hw⟩
      have hto : toUnix (guess s) s = toLf s := by simp [toUnix, hg]
      have hback := toCrLf_toLf _ s (Nat.le_refl _) hw
      rw [hto] at hs
      refine ⟨toCrLf A, toCrLf B, toCrLf C, toCrLf t, ?_, toCrLf_lines A, toCrLf_lines B, toCrLf_lines C,
        toCrLf_lines t, ?_, fun _ hu => absurd hu hx, fun _ _ => toCrLf_windows t⟩
      · rw [← toCrLf_append, ← toCrLf_append, ← hs, hback]
      · simp only [applyFile, hto, hs, hf]
        rw [fromUnix, if_pos (by simp [hg]), toCrLf_append, toCrLf_append]
  · have hg := g1.2 hn
    have hto : toUnix (guess s) s = s := by
      rw [toUnix, if_neg (by simp [hg]), toLf_none s hn]
    have hABC : s = A ++ B ++ C := by rw [← hs, hto]
    have hA : '\n' ∉ A := fun e => hn (by rw [hABC]; simp [e])
    have hC : '\n' ∉ C := fun e => hn (by rw [hABC]; simp [e])
    cases host with
    | true =>
      refine ⟨A, B, C, toCrLf t, hABC, lines_refl A, lines_refl B, lines_refl C, toCrLf_lines t, ?_,
        fun e => absurd e hn, fun e => absurd e hn⟩
      simp only [applyFile, hs, hf]
      rw [fromUnix, if_pos (by simp [hg]), toCrLf_append, toCrLf_append, toCrLf_none A hA, toCrLf_none C hC]
    | false =>
      refine ⟨A, B, C, t, hABC, lines_refl A, lines_refl B, lines_refl C, lines_refl t, ?_,
        fun e => absurd e hn, fun e => absurd e hn⟩
      simp only [applyFile, hs, hf]
      rw [fromUnix, if_neg (by simp [hg])]

/-- **C91 finding.** If some lines end with a carriage return and others do not, the line ends in parts
of the file that were not edited change, on all systems: even an edit that does nothing gives another
file. -/
theorem C91_mixed (host : Bool) (s : Str) (h1 : ¬ UnixText s) (h2 : ¬ WindowsText s) :
    (applyFile host id s .fine).1 ≠ s := by
  obtain ⟨g1, g2, g3⟩ := guess_eq s
  have hk1 : guess s ≠ .unix := fun e => h1 (g2.1 e).2
  have hk2 : guess s ≠ .windows := fun e => h2 (g3.1 e).2
  have e1 : toUnix (guess s) s = toLf s := by rw [toUnix, if_neg hk1]
  simp only [applyFile, e1, id]
  cases host with
  | true =>
    rw [fromUnix, if_pos (Or.inr ⟨hk1, rfl⟩)]
    intro e
    exact h2 (by rw [← e]; exact toCrLf_windows _)
  | false =>
    rw [fromUnix, if_neg (by simp [hk2])]
    intro e
    exact h1 (unix_of_toLf s e)

/-- **C91 finding.** The file is made empty before the new content is written, and whether this works is
not looked at. If the disk is full, any part of the content may be lost, including all of it, and success
is reported; if the process is killed, it is the same. -/
theorem C91_lost (host : Bool) (f : Str → Str) (old : Str) (n : Nat) :
    ∃ new, applyFile host f old .fine = (new, some true) ∧
      applyFile host f old (.full n) = (new.take n, some true) ∧
      applyFile host f old (.killed n) = (new.take n, none) ∧
      (new ≠ [] → old ≠ [] → (applyFile host f old (.full 0)).1 ≠ old ∧
        (applyFile host f old (.full 0)).1 ≠ new) := by
  refine ⟨fromUnix host (guess old) (f (toUnix (guess old) old)), rfl, rfl, rfl, fun h1 h2 => ?_⟩
  simp only [applyFile, List.take_zero]
  exact ⟨fun e => h2 e.symm, fun e => h1 e.symm⟩

/-- **C91 (an undisturbed edit), partial.** If nothing goes wrong, the file has its new content, and
success is reported. Missing: that there is either the old or the new content otherwise, see
`C91_lost`. -/
theorem C91_written_partial (host : Bool) (f : Str → Str) (s : Str) (h : '\n' ∈ s) (hu : UnixText s) :
    applyFile host f s .fine = (f s, some true) := by
  have hg := (guess_eq s).2.1.2 ⟨h, hu⟩
  simp [applyFile, toUnix, fromUnix, hg]

end Verif.Updater
