import Verif.Updater.Props
/-
Concrete cases for the theorems.
-/

namespace Verif.Updater

def chars (s : String) : Str := s.toList

/-- `Product { name: "p" … files: ["b.cpp", "d.cpp"] … Group { } }` over several lines. -/
def filesStmt : Stmt :=
  ⟨chars "[\"b.cpp\", \"d.cpp\"]", some (chars "[\"b.cpp\", \"d.cpp\"]",
    .array [⟨chars "\"b.cpp\"", some (chars "b.cpp")⟩, ⟨chars "\"d.cpp\"", some (chars "d.cpp")⟩])⟩

def nameMember : Member × Str :=
  (⟨.binding [chars "name"] ⟨chars "\"p\"", some (chars "\"p\"", .str (chars "p"))⟩, chars "name: "⟩, chars "\n    ")

def groupMember : Member × Str := (⟨.object, chars "Group { name: \"g\" }"⟩, chars "\n")

def filesMember (s : Stmt) : Member × Str := (⟨.binding [filesName] s, chars "files: "⟩, chars "\n    ")

def product (s : Stmt) : Doc :=
  ⟨chars "Product ", chars "\n    ", [nameMember, filesMember s, groupMember], chars "\n"⟩

theorem notFiles_name : ¬ NamedFiles nameMember.1 := by
  rintro ⟨name, s, h, e⟩
  cases h
  revert e
  decide

theorem notFiles_group : ¬ NamedFiles groupMember.1 := by
  rintro ⟨name, s, h, e⟩
  cases h

theorem product_files (s : Stmt) :
    FilesBinding (product s) [nameMember] (chars "files: ") s (chars "\n    ") [groupMember] := by
  refine ⟨rfl, ?_, ?_⟩
  · intro p hp
    simp at hp
    subst hp
    exact notFiles_name
  · intro p hp
    simp at hp
    subst hp
    exact notFiles_group

example : addFiles 0 [chars "c.cpp", chars "a.cpp"] (product filesStmt) = some (chars
    "Product {\n    name: \"p\"\n    files: [\n        \"a.cpp\",\n        \"c.cpp\",\n        \"b.cpp\",\n        \"d.cpp\",\n    ]\n    Group { name: \"g\" }\n}\n") := by
  decide +kernel

/-- `C89_add_to_array` is not vacuous. -/
example := C89_add_to_array 0 [chars "c.cpp", chars "a.cpp"] (by simp) (by unfold Literal.OneLine; decide) (product filesStmt) _ _ _ _ _ _
  (product_files filesStmt) _ rfl

def oneStmt : Stmt := ⟨chars "\"b.cpp\"", some (chars "\"b.cpp\"", .str (chars "b.cpp"))⟩

example : addFiles 0 [chars "a.cpp"] (product oneStmt) = some (chars
    "Product {\n    name: \"p\"\n    files: [\n        \"a.cpp\",\n        \"b.cpp\",\n    ]\n    Group { name: \"g\" }\n}\n") := by
  decide +kernel

example := C89_add_to_string 0 [chars "a.cpp"] (by simp) (by unfold Literal.OneLine; decide) (product oneStmt) _ _ _ _ _ _ _
  (product_files oneStmt) rfl (by unfold Literal.OneLine; decide)

def varStmt : Stmt := ⟨chars "all;", some (chars "all", .other)⟩

example : addFiles 0 [chars "a.cpp"] (product varStmt) = some (chars
    "Product {\n    name: \"p\"\n    files: [\n        \"a.cpp\",\n    ].concat(all)\n    Group { name: \"g\" }\n}\n") := by
  decide +kernel

example := C89_add_to_expression 0 [chars "a.cpp"] (by simp) (by unfold Literal.OneLine; decide) (product varStmt) _ _ _ _ _ _
  (product_files varStmt) rfl

/-- `Product { Group { name: "g" } }` in one line. -/
def line : Doc := ⟨chars "Product ", chars " ", [(groupMember.1, chars " ")], []⟩

theorem line_files : ∀ p ∈ line.members, ¬ NamedFiles p.1 := by
  intro p hp
  simp [line] at hp
  subst hp
  exact notFiles_group

example : addFiles 0 [chars "a.cpp"] line = some (chars
    "Product {     files: [\n        \"a.cpp\",\n    ]; Group { name: \"g\" } }") := by
  decide +kernel

example := C89_add_property 0 [chars "a.cpp"] (by simp) (by unfold Literal.OneLine; decide) line line_files

example : removeFiles 0 [chars "b.cpp"] (product filesStmt) = some (chars
    "Product {\n    name: \"p\"\n    files: [\n        \"d.cpp\",\n    ]\n    Group { name: \"g\" }\n}\n") := by
  decide +kernel

example := C89_remove_partial 0 [chars "b.cpp"] (by simp) (product filesStmt) _ _ _ _ _ _
  (product_files filesStmt) _ rfl [chars "b.cpp", chars "d.cpp"] rfl
  (by unfold Plain; decide) ⟨[chars "d.cpp"], .refl _⟩

theorem not_there : ¬ ∃ rest : List Str,
    [chars "b.cpp", chars "d.cpp"].Perm ([chars "x.cpp"] ++ rest) := by
  rintro ⟨rest, h⟩
  have := h.mem_iff (a := chars "x.cpp")
  revert this
  simp [chars]

example := C89_remove_missing 0 [chars "x.cpp"] (by simp) (product filesStmt) _ _ _ _ _ _
  (product_files filesStmt) _ rfl [chars "b.cpp", chars "d.cpp"] rfl not_there

example : removeFiles 0 [chars "x.cpp"] (product filesStmt) = none := by decide +kernel

example := C89_remove_only 0 [chars "b.cpp"] (by simp) (product oneStmt) _ _ _ _ _ _ _
  (product_files oneStmt) rfl

example : removeFiles 0 [chars "b.cpp"] (product oneStmt) = some (chars
    "Product {\n    name: \"p\"\n    files: []\n    Group { name: \"g\" }\n}\n") := by decide +kernel
example : removeFiles 0 [chars "a.cpp"] (product oneStmt) = none := by decide +kernel

example : addGroup 0 (chars "new") (product oneStmt) = chars
    "Product {\n    name: \"p\"\n    files: \"b.cpp\"\n    Group { name: \"g\" }\n\n    Group {\n        name: \"new\"\n        files: []\n    }\n}\n" := by
  decide +kernel

example := C89_add_group_partial 0 (chars "new") (by unfold Plain; decide) (product oneStmt)
example := C89_add_depends_partial 0 [chars "cpp", chars "Qt.core"] (by unfold Plain; decide) (product oneStmt)

/-! ### Findings -/

/-- The file `a\b` and another one: the list is `["a\\b", "c"]`. -/
def backslashStmt : Stmt :=
  ⟨chars "[\"a\\\\b\", \"c\"]", some (chars "[\"a\\\\b\", \"c\"]",
    .array [⟨chars "\"a\\\\b\"", some (chars "a\\b")⟩, ⟨chars "\"c\"", some (chars "c")⟩])⟩

/-- Without `c`, it is `["a\b"]`, with a backspace. -/
example : removeFiles 0 [chars "c"] (product backslashStmt) = some (chars
    "Product {\n    name: \"p\"\n    files: [\n        \"a\\b\",\n    ]\n    Group { name: \"g\" }\n}\n") := by
  decide +kernel
example : Literal.evaluate (chars "\"a\\b\"") = some (.str ['a', '\x08']) := by rfl

example := C89_removing_changes_others 0 [chars "c"] (by simp) (product backslashStmt) _ _ _ _ _ _
  (product_files backslashStmt) _ rfl [chars "a\\b", chars "c"] rfl
  ⟨[chars "a\\b"], List.Perm.swap _ _ _⟩

example : ¬ Plain (chars "a\\b") := by unfold Plain; decide
example := C89_group_name 0 (chars "a\"b") (product oneStmt)

/-- Adding `b.cpp` to the file above, which was added before, but was not known when the project was
resolved. -/
example : apiAddFiles [chars "d.cpp"] 0 [chars "b.cpp"] (product filesStmt) = some (chars
    "Product {\n    name: \"p\"\n    files: [\n        \"b.cpp\",\n        \"b.cpp\",\n        \"d.cpp\",\n    ]\n    Group { name: \"g\" }\n}\n") := by
  decide +kernel
example := C89_added_twice [chars "d.cpp"] 0 (chars "b.cpp") (by decide) (product filesStmt) _ _ _ _ _ _
  (product_files filesStmt) _ rfl (by decide)
example := C89_added_not_removed [chars "d.cpp"] 0 (chars "b.cpp") (by decide) (product filesStmt)

/-- The same list, with a comment. -/
def commentStmt : Stmt :=
  ⟨chars "[\"b.cpp\", // important\n\"d.cpp\"]", some (chars "[\"b.cpp\", // important\n\"d.cpp\"]",
    .array [⟨chars "\"b.cpp\"", some (chars "b.cpp")⟩, ⟨chars "\"d.cpp\"", some (chars "d.cpp")⟩])⟩

example : addFiles 0 [chars "a.cpp"] (product commentStmt) = addFiles 0 [chars "a.cpp"] (product filesStmt) :=
  C89_comments_lost 0 [chars "a.cpp"] (product filesStmt) _ _ _ _ _ _ filesStmt commentStmt
    (product_files filesStmt) _ rfl rfl (by simp)

/-! ### Removing groups -/

example : removeItem (chars "Product {\n    name: \"p\"\n\n    ") (chars "\n    files: []\n}\n") =
    chars "Product {\n    name: \"p\"\n    files: []\n}\n" := by decide +kernel
example : removeItem (chars "Product { name: \"p\"; ") (chars " }\n") = chars "Product { name: \"p\"; }\n" := by
  decide +kernel

/-- An item after an empty line, the first one in its own. -/
theorem first_ex : FirstInLine (chars "Product {\n    name: \"p\"\n\n    ") := by
  refine ⟨chars "Product {\n    name: \"p\"\n\n", chars "    ", by decide, Or.inr (by decide), by decide, ?_⟩
  unfold SpaceChar
  decide

example := C90_remove_partial _ (chars "\n    files: []\n}\n") (Or.inl first_ex)

/-- In the first line of the file, after `import`. -/
theorem blank_ex : AfterBlank (chars "import qbs\n\nProduct { name: \"a\"; ") (chars "import qbs\n")
    (chars "Product { name: \"a\"; ") := by
  refine ⟨Or.inr (by decide), by decide, [], by decide, by simp, by simp, by decide⟩

example : removeItem (chars "import qbs\n\nProduct { name: \"a\"; ") (chars " }\n") = chars "import qbs\n}\n" := by
  decide +kernel

example := C90_line_removed _ (chars " }\n") _ _ blank_ex ⟨'P', by decide, by unfold SpaceChar; decide⟩

/-! ### Writing -/

theorem windows_ex : WindowsText (chars "A {\r\n}\r\n") := by
  rw [← bare_windows]
  decide

theorem unix_ex : UnixText (chars "A {\n}\n") := by
  rw [← ret_unix]
  decide

def insertB (s : Str) : Str := s.take 4 ++ chars "b\n" ++ s.drop 4

example : applyFile false insertB (chars "A {\r\n}\r\n") .fine = (chars "A {\r\nb\r\n}\r\n", some true) := by
  decide +kernel

example := C91_outside false (chars "A {\r\n}\r\n") (Or.inr windows_ex) insertB (chars "A {\n") [] (chars "}\n")
  (chars "b\n") (by decide +kernel) (by decide +kernel)
example := C91_outside true (chars "A {\n}\n") (Or.inl unix_ex) insertB (chars "A {\n") [] (chars "}\n")
  (chars "b\n") (by decide +kernel) (by decide +kernel)

theorem mixed_ex : ¬ UnixText (chars "A {\r\n}\n") ∧ ¬ WindowsText (chars "A {\r\n}\n") := by
  rw [← ret_unix, ← bare_windows]
  decide

example := C91_mixed false _ mixed_ex.1 mixed_ex.2
example : applyFile false insertB (chars "A {\r\n}\n") .fine = (chars "A {\nb\n}\n", some true) := by
  decide +kernel
example : applyFile false insertB (chars "A {\n}\n") (.full 0) = ([], some true) := by decide +kernel
example := C91_lost false insertB (chars "A {\n}\n") 0
example := C91_written_partial false insertB (chars "A {\n}\n") (by decide) unix_ex

end Verif.Updater
