import Verif.Read.Props
/-
Examples for Verif.Read.Props.
-/

namespace Verif.Read

/-- A built-in type with a property and a read-only one. -/
def exampleWorld (content : File → Option Obj) (typeFile : File → Path → Option File) : World where
  content := content
  typeFile := typeFile
  builtin := fun n => if n = "Product" then some "product" else if n = "Group" then some "group" else none
  builtins := fun k =>
    if k = "product" then [("name", ⟨0, false⟩), ("multiplexed", ⟨1, true⟩)] else []
  allowed := fun p c => p == "product" && c == "group"

/-- `Product { property string x; cpp.a: 1; Group {} }`. -/
def lib : Obj :=
  .mk ["Product"] (.decl "x" ⟨0, false⟩ none (.bind ["cpp", "a"] 1 (.child (.mk ["Group"] .nil) .nil)))

/-- `Lib { x: 2; cpp.a: 3; name: 4; Group {} }`. -/
def app : Obj :=
  .mk ["Lib"] (.bind ["x"] 2 (.bind ["cpp", "a"] 3 (.bind ["name"] 4 (.child (.mk ["Group"] .nil) .nil))))

/-- `app.qbs` has the item `a`, `Lib.qbs` the item `b`. -/
def two (a b : Obj) : World :=
  exampleWorld (fun f => if f = "app.qbs" then some a else if f = "Lib.qbs" then some b else none)
    (fun _ t => if t = ["Lib"] then some "Lib.qbs" else none)

/-- With `Base.qbs` in addition. -/
def three (a b c : Obj) : World :=
  exampleWorld (fun f => if f = "app.qbs" then some a else if f = "Lib.qbs" then some b
      else if f = "Base.qbs" then some c else none)
    (fun _ t => if t = ["Lib"] then some "Lib.qbs" else if t = ["Base"] then some "Base.qbs" else none)

def appItem : Item :=
  .mk "product" [("name", ⟨0, false⟩), ("multiplexed", ⟨1, true⟩), ("x", ⟨0, false⟩)]
    [(["x"], [.code 2, .empty]), (["cpp", "a"], [.code 3, .code 1]), (["name"], [.code 4, .default "name"]),
      (["multiplexed"], [.default "multiplexed"])]
    [.mk "group" [] [] [], .mk "group" [] [] []]

theorem two_reads : readFile (two app lib) 3 [] "app.qbs" = .ok appItem := by rfl

theorem two_chain : Chain (two app lib) "app.qbs" app [("app.qbs", app), ("Lib.qbs", lib)] "product" :=
  .derived _ "Lib.qbs" _ _ lib _ _ rfl rfl (.builtin _ _ _ _ rfl rfl)

theorem two_obj : ReadsObj (two app lib) "app.qbs" app appItem := ⟨2, ["app.qbs"], rfl⟩

example : ∃ l, Chain (two app lib) "app.qbs" app l "product" := C92_chain _ _ _ _ two_obj

example : get appItem.props ["cpp", "a"] = [.code 3, .code 1] := by
  rw [C92_values_partial _ _ _ _ _ _ two_obj two_chain ["cpp", "a"] ?_]
  · rfl
  · constructor
    · intro x hx e he
      have h1 : e.1 = ["x"] ∨ e.1 = ["cpp", "a"] ∨ e.1 = ["name"] := by
        simp only [List.mem_cons, List.not_mem_nil, or_false] at hx
        rcases hx with rfl | rfl <;>
          simp [app, lib, Obj.members, Members.settings] at he <;> grind
      rintro ⟨hne, r, hr⟩
      rcases h1 with h | h | h <;> rw [h] at hr hne <;> simp at hr hne
    · intro e he
      have h1 : e.1 = "name" ∨ e.1 = "multiplexed" := by
        have : e ∈ [("name", (⟨0, false⟩ : Decl)), ("multiplexed", ⟨1, true⟩)] := he
        simp at this
        grind
      rintro ⟨hne, r, hr⟩
      rcases h1 with h | h <;> rw [h] at hr <;> simp at hr

example : Matched (fun (x : File × Obj) c => ReadsObj (two app lib) x.1 x.2 c)
    [("Lib.qbs", .mk ["Group"] .nil), ("app.qbs", .mk ["Group"] .nil)] appItem.children :=
  C92_children _ _ _ _ _ _ two_obj two_chain

example : (two app lib).allowed "product" "group" = true :=
  C92_allowed _ "app.qbs" appItem ⟨3, two_reads⟩ appItem (.mk "group" [] [] []) .self (by simp [appItem, Item.children])

example : appItem.decls.find? (fun e => e.1 = "x") = some ("x", ⟨0, false⟩) :=
  C92_declared _ _ _ _ [("app.qbs", app)] [] ("Lib.qbs", lib) _ two_obj two_chain "x" ⟨0, false⟩ rfl
    (by intro e he; have : e ∈ [("name", (⟨0, false⟩ : Decl)), ("multiplexed", ⟨1, true⟩)] := he; simp at this; grind)
    (by simp [app, Obj.declares, Obj.members, Members.decls])

/-- `Lib { property stringList x }`: the type stays that of the base item. -/
def appRedeclares : Obj := .mk ["Lib"] (.decl "x" ⟨7, false⟩ none .nil)

example : ∃ i, ReadsObj (two appRedeclares lib) "app.qbs" appRedeclares i ∧
    i.decls.find? (fun e => e.1 = "x") = some ("x", ⟨0, false⟩) := by
  have h : ReadsObj (two appRedeclares lib) "app.qbs" appRedeclares
      (.mk "product" [("name", ⟨0, false⟩), ("multiplexed", ⟨1, true⟩), ("x", ⟨0, false⟩)]
        [(["x"], [.empty, .empty]), (["cpp", "a"], [.code 1]), (["multiplexed"], [.default "multiplexed"]),
          (["name"], [.default "name"])] [.mk "group" [] [] []]) := ⟨2, ["app.qbs"], rfl⟩
  refine ⟨_, h, C92_first_declaration _ _ _ _ [("app.qbs", appRedeclares)] [] ("Lib.qbs", lib) _ h
    (.derived _ "Lib.qbs" _ _ lib _ _ rfl rfl (.builtin _ _ _ _ rfl rfl)) "x" ⟨0, false⟩ rfl ?_ (by simp)⟩
  intro e he
  have : e ∈ [("name", (⟨0, false⟩ : Decl)), ("multiplexed", ⟨1, true⟩)] := he
  simp at this
  grind

/-! ### Read-only properties -/

/-- `Product { readonly property string x: 1 }`. -/
def libReadonly : Obj := .mk ["Product"] (.decl "x" ⟨0, true⟩ (some 1) .nil)

/-- `Lib { name: 2 }`. -/
def appPlain : Obj := .mk ["Lib"] (.bind ["name"] 2 .nil)

/-- `Lib { x: 2 }`. -/
def appSets : Obj := .mk ["Lib"] (.bind ["x"] 2 .nil)

example : ¬ appPlain.sets "x" := by
  have h : ReadsObj (two appPlain libReadonly) "app.qbs" appPlain
      (.mk "product" [("name", ⟨0, false⟩), ("multiplexed", ⟨1, true⟩), ("x", ⟨0, true⟩)]
        [(["name"], [.code 2, .default "name"]), (["x"], [.code 1]),
          (["multiplexed"], [.default "multiplexed"])] []) := ⟨2, ["app.qbs"], rfl⟩
  refine C92_readonly_partial _ _ _ _ [] [] [] ("app.qbs", appPlain) ("Lib.qbs", libReadonly) _ h
    (.derived _ "Lib.qbs" _ _ libReadonly _ _ rfl rfl (.builtin _ _ _ _ rfl rfl)) "x" ⟨0, true⟩ rfl rfl ?_ (by simp)
  intro e he
  have : e ∈ [("name", (⟨0, false⟩ : Decl)), ("multiplexed", ⟨1, true⟩)] := he
  simp at this
  grind

example : readFile (two appSets libReadonly) 3 [] "app.qbs" = .error .readOnly := by rfl

example : ¬ app.sets "multiplexed" :=
  C92_readonly_derived _ _ _ _ [] [("Lib.qbs", lib)] ("app.qbs", app) _ two_obj two_chain (by simp) "multiplexed"
    ⟨1, true⟩ rfl rfl

example : readFile (two (.mk ["Lib"] (.bind ["multiplexed"] 2 .nil)) lib) 3 [] "app.qbs" = .error .readOnly := by
  rfl

/-- **C92 finding.** A base item declares a read-only property, and an item derived from it sets it: this is
accepted if the base item of the base item has declared the property, too. -/
theorem C92_readonly_lost :
    ∃ (w : World) (o : Obj) (i : Item) (l : List (File × Obj)) (y x z : File × Obj) (d : Decl),
      Reads w "app.qbs" i ∧ Chain w "app.qbs" o l "product" ∧ l = [y, x, z] ∧ x.2.declares "x" = some d ∧
      d.readOnly = true ∧ y.2.sets "x" ∧ get i.props ["x"] = [.code 2, .code 1, .empty] := by
  let mid : Obj := .mk ["Base"] (.decl "x" ⟨0, true⟩ (some 1) .nil)
  let base : Obj := .mk ["Product"] (.decl "x" ⟨0, false⟩ none .nil)
  have h : readFile (three appSets mid base) 4 [] "app.qbs" =
      .ok (.mk "product" [("x", ⟨0, false⟩), ("multiplexed", ⟨1, true⟩), ("name", ⟨0, false⟩)]
        [(["x"], [.code 2, .code 1, .empty]), (["multiplexed"], [.default "multiplexed"]),
          (["name"], [.default "name"])] []) := by rfl
  exact ⟨three appSets mid base, appSets, _, [("app.qbs", appSets), ("Lib.qbs", mid), ("Base.qbs", base)],
    _, _, _, ⟨0, true⟩, ⟨4, h⟩,
    .derived _ "Lib.qbs" _ _ mid _ _ rfl rfl (.derived _ "Base.qbs" _ _ base _ _ rfl rfl (.builtin _ _ _ _ rfl rfl)),
    rfl, rfl, rfl, ⟨(["x"], .code 2), by simp [appSets, Obj.members, Members.settings], rfl⟩, rfl⟩

/-- **C92 finding.** An item of a built-in type can set the read-only properties of this type:
`Product { multiplexed: true }` is accepted, `CppApplication { multiplexed: true }` is not. -/
theorem C92_readonly_builtin :
    ∃ (w : World) (o : Obj) (i : Item) (d : Decl), w.content "app.qbs" = some o ∧ Reads w "app.qbs" i ∧
      (w.builtins i.kind).find? (fun e => e.1 = "multiplexed") = some ("multiplexed", d) ∧ d.readOnly = true ∧
      o.sets "multiplexed" ∧ get i.props ["multiplexed"] = [.code 1] := by
  let o : Obj := .mk ["Product"] (.bind ["multiplexed"] 1 .nil)
  have h : readFile (two o lib) 4 [] "app.qbs" =
      .ok (.mk "product" [("multiplexed", ⟨1, true⟩), ("name", ⟨0, false⟩)]
        [(["multiplexed"], [.code 1]), (["name"], [.default "name"])] []) := by rfl
  exact ⟨two o lib, o, _, ⟨1, true⟩, rfl, ⟨4, h⟩, rfl, rfl,
    ⟨(["multiplexed"], .code 1), by simp [o, Obj.members, Members.settings], rfl⟩, rfl⟩

/-! ### Settings above and below each other -/

example : ¬ ["x"] <+: ["cpp", "a"] ∧ ¬ ["cpp", "a"] <+: ["x"] :=
  C92_once _ _ _ _ two_obj (by simp [app, Obj.members, Members.settings]) [] [] [(["name"], .code 4)]
    ["x"] ["cpp", "a"] (.code 2) 3 rfl

example : readFile (two (.mk ["Lib"] (.bind ["x"] 1 (.bind ["x"] 2 .nil))) lib) 3 [] "app.qbs" =
    .error .duplicate := by rfl

/-- **C92 finding.** `x: 1` followed by `property var x` is accepted, and the value is lost; the other way
round, it is an error. -/
theorem C92_order :
    ∃ (w1 w2 : World) (i : Item),
      w1.content "app.qbs" = some (.mk ["Product"] (.bind ["x"] 1 (.decl "x" ⟨0, false⟩ none .nil))) ∧
      w2.content "app.qbs" = some (.mk ["Product"] (.decl "x" ⟨0, false⟩ none (.bind ["x"] 1 .nil))) ∧
      Reads w1 "app.qbs" i ∧ get i.props ["x"] = [.empty] ∧ Fails w2 "app.qbs" .duplicate := by
  have h : readFile (two (.mk ["Product"] (.bind ["x"] 1 (.decl "x" ⟨0, false⟩ none .nil))) lib) 3 [] "app.qbs" =
      .ok (.mk "product" [("x", ⟨0, false⟩), ("multiplexed", ⟨1, true⟩), ("name", ⟨0, false⟩)]
        [(["x"], [.empty]), (["multiplexed"], [.default "multiplexed"]), (["name"], [.default "name"])] []) := by rfl
  exact ⟨_, two (.mk ["Product"] (.decl "x" ⟨0, false⟩ none (.bind ["x"] 1 .nil))) lib, _, rfl, rfl, ⟨3, h⟩, rfl,
    3, rfl, by simp⟩

/-- **C92 finding.** A derived item sets `cpp`, the base item has set `cpp.a`: this is accepted, and the
value of the base item is lost. If the derived item sets `cpp.a` and the base item has set `cpp`, it is
an error. -/
theorem C92_hidden :
    ∃ (w1 w2 : World) (i : Item),
      w1.content "app.qbs" = some (.mk ["Lib"] (.bind ["cpp"] 2 .nil)) ∧
      w1.content "Lib.qbs" = some (.mk ["Product"] (.bind ["cpp", "a"] 1 .nil)) ∧
      w2.content "app.qbs" = some (.mk ["Lib"] (.bind ["cpp", "a"] 2 .nil)) ∧
      w2.content "Lib.qbs" = some (.mk ["Product"] (.bind ["cpp"] 1 .nil)) ∧
      Reads w1 "app.qbs" i ∧ get i.props ["cpp", "a"] = [] ∧ Fails w2 "app.qbs" .nonItem := by
  have h : readFile (two (.mk ["Lib"] (.bind ["cpp"] 2 .nil)) (.mk ["Product"] (.bind ["cpp", "a"] 1 .nil))) 3 []
      "app.qbs" = .ok (.mk "product" [("name", ⟨0, false⟩), ("multiplexed", ⟨1, true⟩)]
        [(["cpp"], [.code 2]), (["multiplexed"], [.default "multiplexed"]), (["name"], [.default "name"])] []) := by
    rfl
  exact ⟨_, two (.mk ["Lib"] (.bind ["cpp", "a"] 2 .nil)) (.mk ["Product"] (.bind ["cpp"] 1 .nil)), _, rfl, rfl,
    rfl, rfl, ⟨3, h⟩, rfl, 3, rfl, by simp⟩

/-! ### Loops -/

theorem two_uses (a b : Obj) (f g : File) (h : Uses (two a b) f g) : g = "Lib.qbs" := by
  obtain ⟨_, _, t, _, h⟩ := h
  have h' : (if t = ["Lib"] then some "Lib.qbs" else none) = some g := h
  split at h'
  · cases h'; rfl
  · cases h'

example : ∃ r, r ≠ .error .fuel ∧ ∀ n, 2 < n → readFile (two app lib) n [] "app.qbs" = r :=
  C93_terminates _ ["app.qbs", "Lib.qbs"] (fun f _ g h => by rw [two_uses _ _ f g h]; simp) "app.qbs" (by simp)

example : ((∃ i, Reads (two app app) "app.qbs" i) ∨ ∃ e, Fails (two app app) "app.qbs" e) ∧
    ∀ i e, Reads (two app app) "app.qbs" i → ¬ Fails (two app app) "app.qbs" e :=
  C93_result _ ["app.qbs", "Lib.qbs"] (fun f _ g h => by rw [two_uses _ _ f g h]; simp) "app.qbs" (by simp)

theorem two_needs : Needs (two app lib) "app.qbs" "Lib.qbs" :=
  .one _ _ ⟨app, rfl, ["Lib"], by simp [app, Obj.types], rfl⟩

example : ¬ Needs (two app lib) "Lib.qbs" "Lib.qbs" :=
  (C93_no_loop _ "app.qbs" appItem ⟨3, two_reads⟩).2 _ two_needs

/-- `Lib.qbs` has an item in it that has the type `Lib`. -/
def libLoop : Obj := .mk ["Product"] (.child (.mk ["Lib"] .nil) .nil)

theorem libLoop_fails : Fails (two app libLoop) "app.qbs" .loop := ⟨5, rfl, by simp⟩

example : ∃ g, (g = "app.qbs" ∨ Needs (two app libLoop) "app.qbs" g) ∧ Needs (two app libLoop) g g :=
  C93_loop _ _ libLoop_fails

example : readFile (two app (.mk ["Product"] (.child (.mk ["Product"] .nil) .nil))) 5 [] "app.qbs" =
    .error .childType := by rfl

end Verif.Read
