import Verif.Override.ParamsProps
/-
Findings for C81 and C82, and concrete cases for the hypotheses of their theorems.
-/

namespace Verif.Override

open Spec

/-- QVariant::convert, as far as it is needed: a string becomes a list with one
element, and an int does not become a list. -/
def qtConvert : PType → Val → Option Val
  | .pathList, .str s => some (.list [s])
  | .string, .str s => some (.str s)
  | .path, .str s => some (.str s)
  | .stringList, .list l => some (.list l)
  | .pathList, .list l => some (.list l)
  | .integer, .other n => some (.other n)
  | _, _ => none

def strict : Mode := ⟨qtConvert, true⟩
def relaxed : Mode := ⟨qtConvert, false⟩

/-- An item that declares the given properties. -/
def itemWith (ds : List (Str × PType)) : Item := ⟨fun p => get p ds, fun _ => none⟩

def cppItem : Item :=
  itemWith [("defines".toList, .stringList), ("includePaths".toList, .pathList),
    ("optimization".toList, .string)]
def qbsItem : Item := itemWith [("buildVariant".toList, .string), ("sysroot".toList, .path)]
def productItem : Item :=
  itemWith [("name".toList, .string), ("files".toList, .pathList), ("x".toList, .string)]
def projectItem : Item := itemWith [("name".toList, .string), ("withTests".toList, .string)]

def app : Product := ⟨"app".toList, productItem, [("qbs".toList, qbsItem), ("cpp".toList, cppItem)]⟩
def tool : Product :=
  ⟨"tool".toList, productItem, [("qbs".toList, qbsItem), ("cpp".toList, cppItem)]⟩
def top : Project := ⟨"top".toList, projectItem⟩

/-- The error, if there is one. -/
def errorOf {α : Type} : Except Err α → Option Err
  | .error e => some e
  | .ok _ => none

/-- The values that a loaded project has for some properties. -/
def view (r : Except Err (List Project × List Product)) (ps : List Str) :
    Except Err (List (List (Option Cell)) × List (Str × List (List (Option Cell)))) :=
  match r with
  | .error e => .error e
  | .ok (pjs, pds) =>
    .ok (pjs.map (fun p => ps.map p.item.cell),
      pds.map (fun p => (p.name, ps.map p.item.cell :: p.modules.map (fun m => ps.map m.2.cell))))

def values : Flat :=
  [("modules.cpp.optimization".toList, .str "fast".toList),
   ("modules.qbs.buildVariant".toList, .str "release".toList),
   ("products.app.cpp.defines".toList, .str "A,B=1".toList),
   ("products.app.cpp.optimization".toList, .str "none".toList),
   ("products.app.x".toList, .str "1".toList),
   ("project.withTests".toList, .str "yes".toList),
   ("projects.top.withTests".toList, .str "no".toList),
   ("qbs.buildVariant".toList, .str "debug".toList)]

theorem values_ordered : Ordered values := by
  unfold Ordered values
  decide +kernel

/-- All kinds of keys at once. -/
example : (load strict values [top] [app, tool]).toOption.isSome = true ∧
    (view (load strict values [top] [app, tool])
      ["optimization".toList, "defines".toList, "x".toList, "buildVariant".toList,
        "withTests".toList]).toOption =
    some ([[none, none, none, none, some ⟨.str "no".toList, true⟩]],
      [("app".toList,
        [[none, none, some ⟨.str "1".toList, true⟩, none, none],
         [none, none, none, some ⟨.str "debug".toList, true⟩, none],
         [some ⟨.str "none".toList, true⟩, some ⟨.list ["A".toList, "B=1".toList], true⟩,
          none, none, none]]),
       ("tool".toList,
        [[none, none, none, none, none],
         [none, none, none, some ⟨.str "debug".toList, true⟩, none],
         [some ⟨.str "fast".toList, true⟩, none, none, none, none]])]) := by
  decide +kernel

/-- The reasons for errors do occur. -/
example :
    (load strict [("app.x".toList, .null)] [top] [app]).isOk = false ∧
    (load strict [("products.app.y".toList, .null)] [top] [app]).isOk = false ∧
    (load strict [("products.appp.x".toList, .null)] [top] [app]).isOk = false ∧
    (load strict [("projects.to.withTests".toList, .null)] [top] [app]).isOk = false ∧
    (load relaxed [("products.appp.y".toList, .null)] [top] [app]).isOk = true ∧
    (load relaxed [("products.app.files".toList, .other 3)] [top] [app]).isOk = false := by
  decide +kernel

/-- **C81 finding.** A product whose name has a dot cannot be addressed: although it
exists and has the property, there is an error about an unknown product, namely the
part of the name before the dot. The code means to avoid this, but it asks only
products with exactly that name. -/
theorem C81_dotted_name :
    let p : Product := { app with name := "my.app".toList }
    productItem.decl "x".toList = some .string ∧
    errorOf (load strict [("products.my.app.x".toList, .str "1".toList)] [top] [p]) =
      some (.unknownProduct "my".toList) := by
  decide +kernel

/-- **C81 finding.** A value for a property of a product whose name has a dot also goes to
the module of that name in another product. -/
theorem C81_ambiguous_key :
    let p : Product := ⟨"app.cpp".toList, itemWith [("defines".toList, .stringList)], []⟩
    (view (load strict [("products.app.cpp.defines".toList, .str "A".toList)] [top] [app, p])
      ["defines".toList]).toOption =
    some ([[none]],
      [("app".toList, [[none], [none], [some ⟨.list ["A".toList], true⟩]]),
       ("app.cpp".toList, [[some ⟨.list ["A".toList], true⟩]])]) := by
  decide +kernel

/-- **C81 finding.** While unknown products, projects and properties are reported, a
value for a module that no product has is ignored without a word, even in strict mode. -/
theorem C81_unknown_module_ignored :
    (view (load strict [("modules.ccp.optimization".toList, .str "fast".toList),
        ("products.app.ccp.defines".toList, .str "A".toList)] [top] [app])
      ["optimization".toList, "defines".toList]).toOption =
    (view (load strict [] [top] [app]) ["optimization".toList, "defines".toList]).toOption ∧
    (load strict [] [top] [app]).isOk = true := by
  decide +kernel

/-- **C81 finding.** So is a key that has the name of a product or of a module, but no
property. -/
theorem C81_no_property_ignored :
    (view (load strict [("modules.cpp".toList, .str "fast".toList),
        ("products.app".toList, .str "A".toList)] [top] [app])
      ["optimization".toList, "defines".toList, "x".toList]).toOption =
    (view (load strict [] [top] [app]) ["optimization".toList, "defines".toList, "x".toList]).toOption ∧
    (load strict [] [top] [app]).isOk = true := by
  decide +kernel

/-- **C81 finding.** A list of paths cannot be given like a list of strings: the whole
text becomes one path. -/
theorem C81_path_list (qt : PType → Val → Option Val)
    (hqt : ∀ s, qt .pathList (.str s) = some (.list [s])) (s : Str) :
    convert qt .pathList (.str s) = some (.list [s]) := by
  simp [convert, hqt]

/-- **C81 finding.** The name of a product cannot be overridden: the override itself is
then said to be for an unknown product. -/
theorem C81_rename :
    productItem.decl "name".toList = some .string ∧
    errorOf (load strict [("products.app.name".toList, .str "app2".toList)] [top] [app]) =
      some (.unknownProduct "app".toList) := by
  decide +kernel

/-- **C81 finding.** In relaxed mode, where a product does get another name, the values for its
modules are not found under the name that was used to change it. -/
theorem C81_rename_modules :
    (view (load relaxed [("products.app.cpp.optimization".toList, .str "fast".toList),
        ("products.app.name".toList, .str "app2".toList)] [top] [app])
      ["optimization".toList]).toOption =
    some ([[none]], [("app2".toList, [[none], [none], [none]])]) := by
  decide +kernel

/-! ### The parameters -/

def profilesA : Profiles := fun p =>
  if p = "gcc".toList then some [("cpp.compilerName".toList, .str "gcc".toList)] else none
def profilesB : Profiles := fun p =>
  if p = "gcc".toList then some [("cpp.compilerName".toList, .str "gcc-14".toList)] else none

def history : List Call :=
  [.setTopLevelProfile "gcc".toList, .setConfigurationName "debug".toList, .expand profilesA,
   .readFinalTree, .expand profilesB]

/-- **C82 finding.** If the profile has changed when the build configuration is expanded again,
the build configuration and its tree are new, but the final build configuration is
still the old one. -/
theorem C82_final_stale :
    let s := Params.init.run history
    Tree.value s.buildConfigurationTree "cpp".toList "compilerName".toList =
      some (.str "gcc-14".toList) ∧
    Tree.value s.finalBuildConfigurationTree "cpp".toList "compilerName".toList =
      some (.str "gcc".toList) ∧
    given s.overridden "cpp.compilerName".toList = none := by
  decide +kernel

example : (∀ c ∈ history, CallOk c) := by
  intro c hc
  simp only [history, List.mem_cons, List.not_mem_nil, or_false] at hc
  rcases hc with rfl | rfl | rfl | rfl | rfl <;> trivial

/-- A history that `C82_final_partial` covers. -/
example :
    let s := Params.init.run (history ++
      [.setOverriddenValues [("cpp.compilerName".toList, .str "clang".toList)], .expand profilesA])
    Tree.value s.finalBuildConfigurationTree "cpp".toList "compilerName".toList =
      some (.str "clang".toList) ∧
    Tree.value s.finalBuildConfigurationTree "qbs".toList "configurationName".toList =
      some (.str "debug".toList) := by
  decide +kernel

/-- **C82 finding.** A key without a dot is lost if there is another one that starts with it
and a dot. -/
theorem C82_undotted_lost :
    let f : Flat := [("a".toList, .str "1".toList), ("a.b".toList, .str "2".toList)]
    Ordered f ∧ given f "a".toList = some (.str "1".toList) ∧
      provideValuesTree f [] = [("a".toList, .map [("b".toList, .str "2".toList)])] := by
  refine ⟨?_, ?_, ?_⟩
  · unfold Ordered; decide +kernel
  · decide +kernel
  · decide +kernel

end Verif.Override
