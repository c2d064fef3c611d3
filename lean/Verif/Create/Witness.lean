import Verif.Create.Props
/-!
# C107 and C108: examples, and what goes wrong
-/
namespace Verif.Create

/-- An order of strings: by the codes of the characters. -/
def leStr : Str → Str → Bool
  | [], _ => true
  | _ :: _, [] => false
  | a :: s, b :: t => if a = b then leStr s t else decide (a.toNat < b.toNat)

theorem leStr_order : Order leStr where
  total := by
    intro a
    induction a with
    | nil => intro b; left; rfl
    | cons x a ih =>
      intro b
      cases b with
      | nil => right; rfl
      | cons y b =>
        simp only [leStr]
        by_cases h : x = y
        · subst h; simpa using ih b
        · rw [if_neg h, if_neg (Ne.symm h)]
          have : x.toNat ≠ y.toNat := fun hh => h (Char.toNat_inj.mp hh)
          simp only [decide_eq_true_eq]
          omega
  trans := by
    intro a
    induction a with
    | nil => intros; rfl
    | cons x a ih =>
      intro b c h1 h2
      cases b with
      | nil => cases h1
      | cons y b =>
        cases c with
        | nil => cases h2
        | cons z c =>
          simp only [leStr] at h1 h2 ⊢
          by_cases hxy : x = y
          · subst hxy
            rw [if_pos rfl] at h1
            by_cases hxz : x = z
            · subst hxz
              rw [if_pos rfl] at h2 ⊢
              exact ih b c h1 h2
            · rw [if_neg hxz] at h2 ⊢
              exact h2
          · rw [if_neg hxy] at h1
            by_cases hyz : y = z
            · subst hyz
              rw [if_neg hxy]
              exact h1
            · rw [if_neg hyz] at h2
              simp only [decide_eq_true_eq] at h1 h2
              have hxz : x ≠ z := by rintro rfl; omega
              rw [if_neg hxz]
              simp only [decide_eq_true_eq]
              omega
  antisymm := by
    intro a
    induction a with
    | nil =>
      intro b _ h
      cases b with
      | nil => rfl
      | cons => cases h
    | cons x a ih =>
      intro b h1 h2
      cases b with
      | nil => cases h1
      | cons y b =>
        simp only [leStr] at h1 h2
        by_cases h : x = y
        · subst h
          rw [if_pos rfl] at h1 h2
          rw [ih b h1 h2]
        · rw [if_neg h] at h1
          rw [if_neg (Ne.symm h)] at h2
          simp only [decide_eq_true_eq] at h1 h2
          omega

def plainCfg : Cfg := { le := leStr, black := [fun s => "~".toList.isSuffixOf s] }

def f (n : String) (t : String := "") : File := ⟨n.toList, some t.toList⟩

/-- Two products; one of them with a sub-directory. -/
def tree : Dir := .mk "all".toList [f "x~"] [
  .mk "tool".toList [f "main.cpp" "#include <QtCore>", f "a b.h"] [.mk "empty".toList [] [], .mk "sub".toList [f "z.c", f "y.c~"] []],
  .mk "lib".toList [f "l.c"] []]

def treeOut : Out := (create plainCfg ["p".toList, "all".toList] tree).getD []

theorem tree_good : tree.Good := by
  simp only [tree, Dir.Good, GoodAll, Literal.OneLine]
  decide +kernel

example : (create plainCfg ["p".toList, "all".toList] tree).isSome = true ∧
    load treeOut (fun _ => []) 3 ["p".toList, "all".toList] "all.qbs".toList = some [
      ⟨"lib".toList, ["/p/all/lib/l.c".toList]⟩,
      ⟨"tool".toList, ["/p/all/tool/a b.h".toList, "/p/all/tool/main.cpp".toList, "/p/all/tool/sub/z.c".toList]⟩] := by
  refine ⟨by decide +kernel, by decide +kernel⟩

example : treeOut.map (fun x => match x.2 with | .product a d _ _ => (a, d) | _ => (false, none)) =
    [(false, none), (false, some "cpp".toList), (true, some "Qt".toList)] := by decide +kernel

example : tree.baseNames.Nodup := by decide +kernel

/-- The same tree, listed in another order. -/
example : Reorder tree (.mk "all".toList [f "x~"] [
  .mk "lib".toList [f "l.c"] [],
  .mk "tool".toList [f "a b.h", f "main.cpp" "#include <QtCore>"]
    [.mk "empty".toList [] [], .mk "sub".toList [f "z.c", f "y.c~"] []]]) :=
  .trans (.child (a := []) (.perm (.swap _ _ _) (.refl _))) (.perm (.refl _) (.swap _ _ _))

/-! ## What goes wrong -/

def top : List Str := ["p".toList]

/-- Nothing was written that can be read. -/
def Broken (d : Dir) (dirs : List Str → List Str) : Prop :=
  ∃ out, create plainCfg top d = some out ∧ ∀ n, load out dirs n top (baseName d.name ++ ".qbs".toList) = none

/-- **C107 finding.**  A source file whose name has brackets is taken for a pattern. -/
theorem C107_pattern : Broken (.mk "p".toList [f "a[1].c"] []) (fun _ => []) ∧
    create plainCfg top (.mk "p".toList [f "a[1].c"] []) =
      some [((top, "p.qbs".toList), .product false (some "cpp".toList) ["\"a[1].c\"".toList] [])] := by
  refine ⟨⟨_, by with_unfolding_all rfl, ?_⟩, by with_unfolding_all rfl⟩
  intro n
  cases n with
  | zero => rfl
  | succ n => with_unfolding_all rfl

/-- **C107 finding.**  A file name with the end of a line in it makes the project file invalid. -/
theorem C107_line_break : Broken (.mk "p".toList [f "a\nb.c"] []) (fun _ => []) := by
  refine ⟨_, by with_unfolding_all rfl, ?_⟩
  intro n
  cases n with
  | zero => rfl
  | succ n => with_unfolding_all rfl

/-- **C107 finding.**  If a directory has a sub-directory whose name ends in ".qbs", qbs finds two project files in it. -/
theorem C107_qbs_directory :
    Broken (.mk "p".toList [] [.mk "a".toList [f "x.c"] [.mk "y.qbs".toList [f "z.c"] []]])
      (fun q => if q = top then ["a".toList] else if q = top ++ ["a".toList] then ["y.qbs".toList] else []) := by
  refine ⟨_, by with_unfolding_all rfl, ?_⟩
  intro n
  cases n with
  | zero => rfl
  | succ n => with_unfolding_all rfl

/-- The names of the products that are read. -/
def namesOf (d : Dir) : Option (List Str) :=
  match create plainCfg top d with
  | none => none
  | some out => (load out (fun _ => []) 9 top (baseName d.name ++ ".qbs".toList)).map (·.map Product.name)

/-- **C107 finding.**  Directories with the same name in different places give products with the same name, and qbs
refuses the project that was made. -/
theorem C107_same_names : namesOf (.mk "p".toList [] [
      .mk "client".toList [] [.mk "src".toList [f "a.c"] []],
      .mk "server".toList [] [.mk "src".toList [f "b.c"] []]]) = some ["src".toList, "src".toList] := by
  decide +kernel

/-- **C107 finding.**  The same with names that differ after a dot only. -/
theorem C107_same_base_names : namesOf (.mk "p".toList [] [
      .mk "lib.1".toList [f "a.c"] [], .mk "lib.2".toList [f "b.c"] []]) = some ["lib".toList, "lib".toList] := by
  decide +kernel

/-- **C107 finding.**  In a directory whose name begins with a dot, the project file is called ".qbs"; the product has no
name (an internal error when it is read, productscollector.cpp 307). -/
theorem C107_hidden_directory : namesOf (.mk ".p".toList [f "a.c"] []) = some [[]] ∧
    create plainCfg top (.mk ".p".toList [f "a.c"] []) =
      some [((top, ".qbs".toList), .product false (some "cpp".toList) ["\"a.c\"".toList] [])] :=
  ⟨by decide +kernel, by with_unfolding_all rfl⟩

/-- **C108 finding.**  A header with the name "main" makes an application just if there is a file for a compiler whose name
comes before it. -/
theorem C108_main_header :
    (getFlags (.mk [] [f "a.c", f "main.h"] [])).app = true ∧ (getFlags (.mk [] [f "main.h", f "z.c"] [])).app = false := by
  decide +kernel

/-- Both theorems for C108 apply to the example. -/
example : let p : Proj := .mk [] [f "a.h" "#include <QtCore>", f "x.c" "int main()"] []
    (getFlags p).app = true ∧ (getFlags p).dep = some "Qt".toList := by decide +kernel

end Verif.Create
