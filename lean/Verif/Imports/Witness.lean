import Verif.Imports.Props
/-
Examples for Verif.Imports.Props.
-/

namespace Verif.Imports

/-- Two search paths; `imports/Foo` is a directory in the second one. -/
def exampleWorld (ownTypes : List (Name × File)) : World where
  own := "src"
  searchDirs := ["a/imports", "b/imports"]
  sub := fun d p =>
    if d = "b/imports" ∧ p = ["Foo"] then some "b/imports/Foo"
    else if d = "b/imports" ∧ p = ["qbs", "base"] then some "base" else none
  comps := fun d =>
    if d = "src" then ownTypes
    else if d = "a/imports" then [("Lib", "a/imports/Lib.qbs")]
    else if d = "b/imports" then [("Lib", "b/imports/Lib.qbs")]
    else if d = "b/imports/Foo" then [("Bar", "b/imports/Foo/Bar.qbs")]
    else if d = "base" then [("CppApplication", "base/CppApplication.qbs"), ("Lib", "base/Lib.qbs")]
    else []
  jsFiles := fun d => if d = "b/imports/Foo" then ["b/imports/Foo/f.js"] else []
  file := fun n => if n = "x.qbs" then some (.qbs "src/x.qbs") else if n = "y.js" then some (.js "src/y.js") else none
  hasExtension := fun n => n == "File"

def w0 : World := exampleWorld [("Other", "src/Other.qbs")]

/-- `import Foo`, `import "x.qbs" as Mine`, `import "y.js" as Y`, `import qbs.File`. -/
def imports0 : List Stmt :=
  [{ target := .uri ["Foo"] }, { target := .file "x.qbs", importId := some "Mine" },
    { target := .file "y.js", importId := some "Y" }, { target := .uri ["qbs", "File"] }]

def st0 : St where
  types := [(["CppApplication"], "base/CppApplication.qbs"), (["Mine"], "src/x.qbs"),
    (["Foo", "Bar"], "b/imports/Foo/Bar.qbs"), (["Other"], "src/Other.qbs"), (["Lib"], "a/imports/Lib.qbs")]
  js := [(some "Y", ["src/y.js"]), (some "Foo", ["b/imports/Foo/f.js"])]
  exts := ["File"]
  names := ["Foo", "Mine", "Y"]
  baseImported := true

theorem st0_eq : handleImports w0 imports0 = .ok st0 := by rfl

theorem known0 : ∀ p, Known w0 imports0 p → meaning w0 imports0 p = none := by
  rintro p (⟨s, hs, hp, he⟩ | rfl)
  · simp only [imports0, List.mem_cons, List.not_mem_nil, or_false] at hs
    rcases hs with rfl | rfl | rfl | rfl
    · simp only at hp; cases hp; rfl
    · cases hp
    · cases hp
    · simp only at hp; cases hp; rfl
  · rfl

example : meaning w0 imports0 ["Lib"] = some "a/imports/Lib.qbs" := by
  rw [← C94_types_partial w0 imports0 st0 st0_eq known0]; rfl
example : meaning w0 imports0 ["Foo", "Bar"] = some "b/imports/Foo/Bar.qbs" := by
  rw [← C94_types_partial w0 imports0 st0 st0_eq known0]; rfl
example : (lookup st0.js (some "Foo")).getD [] = ["b/imports/Foo/f.js"] := by
  rw [C94_scripts_partial w0 imports0 st0 st0_eq known0]; rfl
example := C94_names w0 imports0 st0 st0_eq
example : (∃ x, ["Foo"] = ["qbs", x] ∧ w0.hasExtension x = true) ∨ (w0.importDir ["Foo"]).isSome = true ∨
    (lookup st0.types ["Foo"]).isSome = true :=
  C94_found w0 imports0 st0 st0_eq { target := .uri ["Foo"] } (by simp [imports0]) ["Foo"] rfl (by simp) (by simp)
example := (C94_unnamed w0 { target := .uri ["qbs", "File"] } ["qbs", "File"] rfl (by simp)).2
  (Or.inr (Or.inr ⟨"File", rfl, rfl⟩))
example := (C94_unnamed w0 { target := .uri ["Foo"] } ["Foo"] rfl (by simp))

theorem st0_rev : ∃ st, handleImports w0 imports0.reverse = .ok st := ⟨_, rfl⟩

example : ∃ st, handleImports w0 imports0.reverse = .ok st ∧ ∀ p, lookup st0.types p = lookup st.types p := by
  obtain ⟨st, h⟩ := st0_rev
  exact ⟨st, h, C94_order_partial w0 imports0 _ (List.reverse_perm _).symm st0 st st0_eq h known0⟩

example : handleImports w0 [{ target := .uri ["Foo"] }, { target := .file "x.qbs", importId := some "Foo" }] =
    .error .twice := by rfl
example : handleImports w0 [{ target := .uri ["Nothing"] }] = .error .notFound := by rfl
example : handleImports w0 [{ target := .file "x.qbs" }] = .error .needsAs := by rfl
example : handleImports w0 [{ target := .file "x.qbs", importId := some "File" }] = .error .extensionName := by rfl
example : handleImports w0 [{ target := .uri ["qbs"], version := some false }] = .error .version := by rfl

/-- **C94 finding.** If a file named qbs.qbs is in the directory of a project file, or in a search path, the
types that come with qbs, such as CppApplication, are not known there: `qbs` is a type already, and
nothing is imported for it. -/
theorem C94_no_base (w : World)
    (h : ((w.searchDirs ++ [w.own]).findSome? (w.typeIn "qbs")).isSome = true) :
    ∃ st, handleImports w [] = .ok st ∧
      ∀ n, lookup st.types [n] = (w.searchDirs ++ [w.own]).findSome? (w.typeIn n) := by
  have hs := fun p => lookup_start w p (w.searchDirs ++ [w.own]) {}
  have hb : (start w).baseImported = false := (hs []).2.2.2.2
  have hl : ∀ n, lookup (start w).types [n] = (w.searchDirs ++ [w.own]).findSome? (w.typeIn n) := by
    intro n
    have := (hs [n]).1
    exact this.trans (by simp only [lookup, Option.none_or])
  refine ⟨{ start w with baseImported := true }, ?_, hl⟩
  unfold handleImports
  rw [handleAll]
  simp only [hb, Bool.false_eq_true, if_false]
  unfold handleImport
  simp only
  rw [if_pos (by decide), if_neg (by simp), if_neg (by simp)]
  unfold importUri
  simp only
  rw [if_pos (by rw [hl]; exact h)]

example : meaning (exampleWorld [("qbs", "src/qbs.qbs")]) [] ["CppApplication"] = some "base/CppApplication.qbs" ∧
    ∃ st, handleImports (exampleWorld [("qbs", "src/qbs.qbs")]) [] = .ok st ∧
      lookup st.types ["CppApplication"] = none := by
  refine ⟨rfl, ?_⟩
  obtain ⟨st, h, h'⟩ := C94_no_base (exampleWorld [("qbs", "src/qbs.qbs")]) rfl
  exact ⟨st, h, by rw [h']; rfl⟩

/-- **C94 finding.** `import Lib as L` is accepted if there is a type Lib, and does nothing: there is no type
named L, and nothing in it. -/
theorem C94_no_name :
    ∃ (w : World) (s : Stmt) (st : St), s.target = .uri ["Lib"] ∧ s.importId = some "L" ∧
      handleImports w [s] = .ok st ∧ (lookup st.types ["Lib"]).isSome = true ∧
      lookup st.types ["L"] = none ∧ (∀ n, lookup st.types ["L", n] = none) ∧ lookup st.js (some "L") = none := by
  refine ⟨w0, { target := .uri ["Lib"], importId := some "L" },
    { types := [(["CppApplication"], "base/CppApplication.qbs"), (["Other"], "src/Other.qbs"),
        (["Lib"], "a/imports/Lib.qbs")], names := ["L"], baseImported := true }, rfl, rfl, rfl, rfl, rfl, ?_, rfl⟩
  intro n
  simp [lookup]

/-- **C94 finding.** The order of imports matters: with `import "x.qbs" as Foo` before `import Foo as L`, the
types in the directory Foo are not there, in the other order they are. -/
theorem C94_order_matters :
    ∃ (w : World) (s t : Stmt) (st st' : St), handleImports w [s, t] = .ok st ∧ handleImports w [t, s] = .ok st' ∧
      (lookup st.types ["L", "Bar"]).isSome = true ∧ lookup st'.types ["L", "Bar"] = none := by
  have h : ∃ st st', handleImports w0 [{ target := .uri ["Foo"], importId := some "L" },
        { target := .file "x.qbs", importId := some "Foo" }] = .ok st ∧
      handleImports w0 [{ target := .file "x.qbs", importId := some "Foo" },
        { target := .uri ["Foo"], importId := some "L" }] = .ok st' ∧
      (lookup st.types ["L", "Bar"]).isSome = true ∧ lookup st'.types ["L", "Bar"] = none := ⟨_, _, rfl, rfl, rfl, rfl⟩
  obtain ⟨st, st', h⟩ := h
  exact ⟨w0, _, _, st, st', h⟩

end Verif.Imports
