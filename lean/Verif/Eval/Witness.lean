import Verif.Eval.BlockProps
import Verif.Eval.Typed
/-!
# Examples and findings for the values of properties (C60, C61, C62)
-/
namespace Verif.Eval

def str (s : String) : Js := .atom (.str s)
def strs (l : List String) : Js := .arr (l.map .str)

/-- A binding -/
def bind (id : Nat) (c : Code) : Head := { id := id, code := c }
def plainValue (id : Nat) (c : Code) : Value := .source (bind id c) .none .nil .nil
def const (id : Nat) (j : Js) : Value := plainValue id (.ret (some j))

/-- Properties are in the items themselves. -/
def mkWorld (t : Ty) (vals : List ((Item × Name) × Value)) : World :=
  { protos := fun i => [i], parent := fun _ => none, scopes := fun _ => [], outer := fun _ => none, inst := fun _ => false,
    swallow := fun _ => false, value := fun i n => vals.lookup (i, n), ty := fun _ _ => t, resolve := fun s => s }

theorem mkWorld_own (t : Ty) (vals : List ((Item × Name) × Value)) : Own (mkWorld t vals) := by
  intro i n obj owner v h
  unfold World.find mkWorld at h
  simp only [List.findSome?_cons, List.findSome?_nil] at h
  cases hl : vals.lookup (i, n) with
  | none => rw [hl] at h; simp at h
  | some v' =>
    rw [hl] at h
    simp only [Option.map_some, Option.some.injEq, Prod.mk.injEq] at h
    exact h.2.1.symm

theorem mkWorld_decls (t : Ty) (vals : List ((Item × Name) × Value)) : Declarations (mkWorld t vals) (vals.map (·.1)) := by
  intro i n obj owner v h
  have := mkWorld_own t vals i n obj owner v h
  subst this
  unfold World.find mkWorld at h
  simp only [List.findSome?_cons, List.findSome?_nil] at h
  cases hl : vals.lookup (owner, n) with
  | none => rw [hl] at h; simp at h
  | some v' => exact List.mem_map.mpr ⟨_, mem_of_lookup hl, rfl⟩

theorem mkWorld_plain (t : Ty) (vals : List ((Item × Name) × Value)) (h : ∀ e ∈ vals, e.2.Plain false) : (mkWorld t vals).Plain := by
  intro i n v hv
  exact h _ (mem_of_lookup hv)

deriving instance DecidableEq for St

def anything : Reader Cache := fun _ _ => pure .missing

/-! ## Values that are needed for others -/

/-- `a: b + "x"`, `b: c`, `c: "y"` -/
def chain : List ((Item × Name) × Value) :=
  [((0, "a"), plainValue 0 (.read "b" (fun r => .ret (match r with
      | some (.atom (.str s)) => some (str (s ++ "x"))
      | _ => some undef)))),
   ((0, "b"), plainValue 1 (.read "c" .ret)),
   ((0, "c"), const 2 (str "y"))]

def chainWorld : World := mkWorld .string chain

theorem chain_plain : chainWorld.Plain := by
  apply mkWorld_plain
  intro e he
  simp only [chain, List.mem_cons, List.not_mem_nil, or_false] at he
  rcases he with rfl | rfl | rfl <;> exact ⟨trivial, trivial, trivial⟩

example : (evaluateAll chainWorld true anything 4 [(0, "c"), (0, "a"), (0, "b"), (0, "a")] [] []).1 =
    [some (some (str "y")), some (some (str "yx")), some (some (str "y")), some (some (str "yx"))] := by decide +kernel

/-- The hypotheses of `C61_any_order_partial` -/
example : ∃ f : Item × Name → Res, (evaluateAll chainWorld true anything 4 [(0, "c"), (0, "b"), (0, "a")] [] []).1 =
      [(0, "c"), (0, "b"), (0, "a")].map (fun p => some (f p)) ∧
      (evaluateAll chainWorld false anything 7 [(0, "a"), (0, "b"), (0, "a")] [] []).1 =
      [(0, "a"), (0, "b"), (0, "a")].map (fun p => some (f p)) :=
  C61_any_order_partial chain_plain (mkWorld_own _ _) (mkWorld_decls _ _) anything anything (by decide) (by decide) _ _
    (by decide +kernel) (by decide)

/-- Of `C61_terminates` -/
example : evaluate chainWorld true anything 4 0 "a" [] [] =
    evaluate chainWorld true (fun _ _ => pure .exc) 100 0 "a" [] [] :=
  C61_terminates (mkWorld_decls _ _) _ _ _ _ (by decide) (by decide) _ _ _ _

theorem chain_a : HasValue chainWorld 0 "a" (some (str "yx")) :=
  C61_right_partial (on := true) chain_plain (mkWorld_decls _ _) anything (k := 4) (by decide) [(0, "b")] (by decide +kernel) 0 "a"
    (by decide +kernel)

example (r : Res) (h : HasValue chainWorld 0 "a" r) : r = some (str "yx") := C61_unique chain_plain h chain_a

/-- Of `C61_found_partial` -/
example : (evaluate chainWorld true anything 4 0 "a" (evaluateAll chainWorld true anything 4 [(0, "b")] [] []).2.1
    (evaluateAll chainWorld true anything 4 [(0, "b")] [] []).2.2).1 = some (some (str "yx")) :=
  C61_found_partial chain_plain (mkWorld_decls _ _) anything (by decide) [(0, "b")] (by decide +kernel) 0 "a"
    (hasLayeredValue_of_own chain_plain (mkWorld_own _ _) chain_a)

/-- Of `C61_same_partial`, with and without caching -/
example (r r' : Res)
    (h : (evaluate chainWorld true anything 4 0 "a" (evaluateAll chainWorld true anything 4 [(0, "c")] [] []).2.1
      (evaluateAll chainWorld true anything 4 [(0, "c")] [] []).2.2).1 = some r)
    (h' : (evaluate chainWorld false anything 5 0 "a" (evaluateAll chainWorld false anything 5 [] [] []).2.1
      (evaluateAll chainWorld false anything 5 [] [] []).2.2).1 = some r') : r = r' :=
  C61_same_partial chain_plain (mkWorld_decls _ _) true false anything anything (by decide) (by decide) [(0, "c")] []
    (by decide +kernel) (by decide +kernel) 0 "a" h h'

/-- `a: b`, `b: a` -/
def loop : List ((Item × Name) × Value) := [((0, "a"), plainValue 0 (.read "b" .ret)), ((0, "b"), plainValue 1 (.read "a" .ret))]
def loopWorld : World := mkWorld .string loop

theorem loop_plain : loopWorld.Plain := by
  apply mkWorld_plain
  intro e he
  simp only [loop, List.mem_cons, List.not_mem_nil, or_false] at he
  rcases he with rfl | rfl <;> exact ⟨trivial, trivial, trivial⟩

/-- Properties that need each other have no value. -/
theorem loop_none (r : Res) : ¬ HasValue loopWorld 0 "a" r := by
  intro h
  have := C61_found_partial (on := true) loop_plain (mkWorld_decls _ _) anything (k := 3) (by decide) [] (by decide +kernel) 0 "a"
    (hasLayeredValue_of_own loop_plain (mkWorld_own _ _) h)
  have h0 : (evaluate loopWorld true anything 3 0 "a" (evaluateAll loopWorld true anything 3 [] [] []).2.1
    (evaluateAll loopWorld true anything 3 [] [] []).2.2).1 = none := by decide +kernel
  have h1 := h0.symm.trans this
  simp at h1

/-- Of `C61_cycle_partial` -/
example : (evaluate loopWorld true anything 3 0 "a" (evaluateAll loopWorld true anything 3 [] [] []).2.1
    (evaluateAll loopWorld true anything 3 [] [] []).2.2).1 = none :=
  C61_cycle_partial loop_plain (mkWorld_decls _ _) anything (by decide) [] (by decide +kernel) 0 "a" loop_none

/-! ## Findings about evaluation -/

/-- A module with `p: q` and `q: "x"` in a product (1), and in a Group (2) of this product with `M.q: product.M.p`
    (groupshandler.cpp 139-165: the module instance in the Group has that in the product as prototype). -/
def group : World :=
  { mkWorld .string [((1, "p"), plainValue 0 (.read "q" .ret)), ((1, "q"), const 1 (str "x")),
      ((2, "q"), plainValue 2 (.member 1 "p" .ret))] with
    protos := fun i => if i = 2 then [2, 1] else [i] }

theorem group_decls : Declarations group [(1, "p"), (1, "q"), (2, "q")] := by
  intro i n obj owner v h
  unfold World.find at h
  dsimp only at h
  have key : ∀ o v, group.value o n = some v → (o, n) ∈ [((1 : Item), "p"), (1, "q"), (2, "q")] := by
    intro o v hv
    have := mem_of_lookup (l := [(((1 : Item), "p"), plainValue 0 (.read "q" .ret)), ((1, "q"), const 1 (str "x")),
      ((2, "q"), plainValue 2 (.member 1 "p" .ret))]) hv
    simp only [List.mem_cons, Prod.mk.injEq, List.not_mem_nil, or_false] at this ⊢
    rcases this with ⟨h, _⟩ | ⟨h, _⟩ | ⟨h, _⟩ <;> simp [h]
  cases hf : (group.protos i).findSome? (fun o => (group.value o n).map (fun v => (o, v))) with
  | none => rw [hf] at h; simp [group, mkWorld] at h
  | some x =>
    obtain ⟨o, v'⟩ := x
    rw [hf] at h
    obtain ⟨o', _, ho'⟩ := List.exists_of_findSome?_eq_some hf
    cases hv : group.value o' n with
    | none => rw [hv] at ho'; simp at ho'
    | some v2 =>
      rw [hv] at ho'
      simp only [Option.map_some, Option.some.injEq, Prod.mk.injEq] at ho' h
      rw [← h.2.1, ← ho'.1]
      exact key o' v2 hv

theorem group_plain : group.Plain := by
  intro i n v h
  have := mem_of_lookup (l := [(((1 : Item), "p"), plainValue 0 (.read "q" .ret)), ((1, "q"), const 1 (str "x")),
      ((2, "q"), plainValue 2 (.member 1 "p" .ret))]) h
  simp only [List.mem_cons, Prod.mk.injEq, List.not_mem_nil, or_false] at this
  rcases this with ⟨_, rfl⟩ | ⟨_, rfl⟩ | ⟨_, rfl⟩ <;> exact ⟨trivial, trivial, trivial⟩

/-- **C61 finding.** Evaluations are told apart by the item that declares the property, not by the item that it is evaluated
    for. A property of a module in a Group that makes use of the same property in the product has a value, but there is an
    error about a cyclic dependency. -/
theorem C61_false_cycle : HasValue group 2 "p" (some (str "x")) ∧
    ∀ (bot : Reader Cache) (k : Nat), 4 ≤ k → (evaluate group true bot k 2 "p" [] []).1 = none := by
  constructor
  · refine ⟨[((1, "q"), some (str "x")), ((1, "p"), some (str "x")), ((2, "q"), some (str "x")), ((2, "p"), some (str "x"))], ?_,
      .inl (by decide +kernel)⟩
    have h1 : Established group [((1, "q"), some (str "x"))] :=
      .snoc .nil ⟨by decide, 1, 1, _, rfl, by decide +kernel, by decide +kernel⟩
    have h2 : Established group [((1, "q"), some (str "x")), ((1, "p"), some (str "x"))] :=
      .snoc h1 ⟨by decide, 1, 1, _, rfl, by decide +kernel, by decide +kernel⟩
    have h3 : Established group [((1, "q"), some (str "x")), ((1, "p"), some (str "x")), ((2, "q"), some (str "x"))] :=
      .snoc h2 ⟨by decide, 2, 2, _, rfl, by decide +kernel, by decide +kernel⟩
    exact .snoc h3 ⟨by decide, 2, 1, _, rfl, by decide +kernel, by decide +kernel⟩
  · intro bot k hk
    rw [C61_terminates group_decls bot anything k 4 hk (by decide)]
    decide +kernel

/-- **C61 finding.** In the same project, whether the property can be evaluated depends on what has been evaluated before. -/
theorem C61_order_dependent :
    (evaluateAll group true anything 4 [(2, "p")] [] []).1 = [none] ∧
    (evaluateAll group true anything 4 [(2, "q"), (2, "p")] [] []).1 = [some (some (str "x")), some (some (str "x"))] := by
  decide +kernel

/-- `a` fails, `b: a || c`, `c: "y"` -/
def failingWorld : World := mkWorld .string
  [((0, "a"), plainValue 0 .fail), ((0, "b"), plainValue 1 (.read "a" (fun _ => .read "c" .ret))), ((0, "c"), const 2 (str "y"))]

/-- **C61 finding.** A property whose evaluation fails is undefined from then on: the second evaluation succeeds. -/
theorem C61_failure_forgotten :
    (evaluateAll failingWorld true anything 4 [(0, "a"), (0, "a")] [] []).1 = [none, some (some undef)] := by decide +kernel

/-- **C61 finding.** After an error, other properties that are read by the same code are taken to be undefined, although there
    is nothing wrong with them: their right values are not found any more. -/
theorem C61_failure_spreads :
    (evaluateAll failingWorld true anything 4 [(0, "c")] [] []).1 = [some (some (str "y"))] ∧
    (evaluateAll failingWorld true anything 4 [(0, "b"), (0, "c")] [] []).1 = [none, some (some undef)] := by decide +kernel

/-- A list of the product (1) with `overrideListProperties` in a Properties item whose condition is `c`, a module has a value
    for it as well; in a Group (2) of the product, `c` is false. -/
def sticky : World :=
  { mkWorld .strings [((1, "l"), .source (bind 0 (.ret (some (strs ["o"])))) .none
        (.cons (.read "c" .ret) (.ret (some (.atom (.bool true)))) (bind 1 (.ret (some (strs ["a"])))) .none .nil)
        (.cons (const 2 (strs ["m"])) .nil)),
      ((1, "c"), const 3 (.atom (.bool true))), ((2, "c"), const 4 (.atom (.bool false)))] with
    protos := fun i => if i = 2 then [2, 1] else [i]
    ty := fun _ n => if n = "l" then .strings else .bool }

/-- **C61 finding.** That a list overrides the values from modules is recorded in the value for good: where the condition is
    false, the values from modules are missing if the property has been evaluated before where it is true. -/
theorem C61_override_remains :
    (evaluateAll sticky true anything 5 [(2, "l")] [] []).1 = [some (some (strs ["o", "m"]))] ∧
    (evaluateAll sticky true anything 5 [(1, "l"), (2, "l")] [] []).1 =
      [some (some (strs ["a", "o"])), some (some (strs ["o"]))] := by decide +kernel

/-- A property in a Group with an impossible condition -/
def ignoring : World :=
  { mkWorld .string [((2, "p"), .source (bind 0 (.ret (some (str "o")))) .none
        (.cons .fail (.ret (some (.atom (.bool false)))) (bind 1 (.ret (some (str "a")))) .none .nil) .nil)] with
    swallow := fun i => i = 2 }

/-- **C61 finding.** In items that are placeholders for modules, as those in Groups are, a condition that cannot be evaluated
    is no error: the property is undefined, even if it is bound outside of Properties items. -/
theorem C61_error_ignored : (evaluate ignoring true anything 2 2 "p" [] []).1 = some (some undef) := by decide +kernel

/-- A property of the project (0) with a relative path, as it is when a product in a certain directory is resolved -/
def relative (dir : String) : World :=
  { mkWorld .path [((0, "dir"), const 0 (str "data"))] with resolve := fun s => dir ++ "/" ++ s }

/-- **C61 finding.** Paths are resolved in the directory of the product at hand, but values are kept: a path of the project that
    has been read for one product is in the directory of this product for all others, too. -/
theorem C61_path_of_other_product :
    (evaluate (relative "/b") true anything 2 0 "dir" [] []).1 = some (some (str "/b/data")) ∧
    (evaluate (relative "/b") true anything 2 0 "dir" (evaluate (relative "/a") true anything 2 0 "dir" [] []).2.1
      (evaluate (relative "/a") true anything 2 0 "dir" [] []).2.2).1 = some (some (str "/a/data")) := by decide +kernel

/-! ## Properties items -/

def yes : Code := .ret (some (.atom (.bool true)))
def no : Code := .ret (some (.atom (.bool false)))

/-- `Properties { condition: c; p: outer.concat(["a"]) }`, one whose condition is false, and a fallback -/
def blocks1 : List Block :=
  [⟨none, no, bind 5 (.ret (some (strs ["fallback"])))⟩,
   ⟨some (.read "c" .ret), no, { bind 6 (.read "outer" (fun r => .ret (match r with
      | some (.arr l) => some (.arr (l ++ [.str "a"]))
      | r => r))) with usesOuter := true }⟩,
   ⟨some no, yes, bind 7 .fail⟩,
   ⟨some yes, no, bind 8 (.ret (some (str "b")))⟩]
def outside1 : Head := bind 1 (.ret (some (strs ["o"])))
def modules1 : List Head := [bind 2 (.ret (some (strs ["m"]))), bind 3 (.ret (some undef)), bind 4 (.ret (some (str "n")))]

def value1 : Value := (propertyOf 0 (some outside1) blocks1 modules1).getD (.variant undef)

def world1 : World :=
  { mkWorld .strings [((0, "p"), value1), ((0, "c"), const 9 (.atom (.bool true)))] with
    ty := fun _ n => if n = "p" then .strings else .bool }

def table1 : Table := [((0, "c"), some (.atom (.bool true)))]

theorem table1_established : Established world1 table1 :=
  .snoc .nil ⟨by decide, 0, 0, _, rfl, by decide +kernel, by decide +kernel⟩

def outcomes1 : List Outcome :=
  [⟨true, false, false, strs ["fallback"]⟩, ⟨false, true, false, strs ["o", "a"]⟩, ⟨false, false, true, undef⟩,
   ⟨false, true, false, str "b"⟩]

/-- The hypotheses of `C60_list_partial` -/
theorem world1_p : Follows world1 table1 0 "p" (some (strs ["o", "a", "b", "o", "m", "n"])) := by
  have := C60_list_partial (w := world1) (t := table1) (i := 0) (n := "p") (obj := 0) (owner := 0) (v := value1) (by decide) rfl
    (id := 0) (outside := some outside1) (blocks := blocks1) (modules := modules1) rfl rfl rfl (by unfold OneFallback; decide +kernel)
    (os := outcomes1) (jo := some (strs ["o"])) (ms := [strs ["m"], undef, str "n"])
    (.cons ⟨⟨rfl, rfl, rfl⟩, rfl, fun _ h => absurd h (by simp), fun _ => ⟨_, rfl, rfl, rfl⟩⟩
      (.cons ⟨⟨rfl, rfl, rfl⟩, rfl, fun c h => ⟨some (.atom (.bool true)), by
          simp only [Option.some.injEq] at h
          subst h
          unfold Gives
          decide +kernel, rfl⟩, fun _ => ⟨some (.atom (.bool false)), rfl, rfl, by unfold Gives; decide +kernel⟩⟩
        (.cons ⟨⟨rfl, rfl, rfl⟩, rfl, fun c h => ⟨some (.atom (.bool false)), by
            simp only [Option.some.injEq] at h
            subst h
            rfl, rfl⟩, fun h => absurd h (by decide)⟩
          (.cons ⟨⟨rfl, rfl, rfl⟩, rfl, fun c h => ⟨some (.atom (.bool true)), by
            simp only [Option.some.injEq] at h
            subst h
            rfl, rfl⟩, fun _ => ⟨_, rfl, rfl, rfl⟩⟩ .nil))))
    ⟨⟨rfl, rfl, rfl⟩, rfl, rfl, rfl⟩
    (.cons ⟨⟨rfl, rfl, rfl⟩, rfl, rfl, rfl⟩ (.cons ⟨⟨rfl, rfl, rfl⟩, rfl, rfl, rfl⟩ (.cons ⟨⟨rfl, rfl, rfl⟩, rfl, rfl, rfl⟩ .nil)))
    (values := fun o => if o.value = str "b" then ["b"] else ["o", "a"])
    (by
      intro o ho
      have : o = ⟨false, true, false, strs ["o", "a"]⟩ ∨ o = ⟨false, true, false, str "b"⟩ := by
        simpa [applying, outcomes1] using ho
      rcases this with rfl | rfl
      · exact .list ["o", "a"]
      · exact .one "b")
    (lo := some ["o"]) (fun j h => ⟨_, rfl, by
      simp only [Option.some.injEq] at h
      subst h
      exact .list ["o"]⟩) (by simp)
    (ml := [["m"], [], ["n"]]) (.cons (.inl (.list ["m"])) (.cons (.inr ⟨rfl, rfl⟩) (.cons (.inl (.one "n")) .nil)))
  exact this

/-- Of `C60_evaluated_partial`: so it evaluates to this. -/
example : (evaluate world1 true anything 3 0 "p" [] []).1 = some (some (strs ["o", "a", "b", "o", "m", "n"])) := by decide +kernel

/-- `Properties { condition: true; overrideListProperties: true; p: ["a"] }` -/
example : (evaluate (mkWorld .strings [((0, "p"), (propertyOf 0 (some outside1)
    [⟨some yes, yes, bind 8 (.ret (some (strs ["a"])))⟩] modules1).getD (.variant undef))]) true anything 3 0 "p" [] []).1 =
    some (some (strs ["a", "o"])) := by decide +kernel

/-- A scalar property that is set in a Properties item only, with a default value in the module -/
def scalar (t : Ty) (c : Code) : World := mkWorld t [((0, "p"), (propertyOf 0 none
    [⟨some c, no, bind 8 (.ret (some (str "a")))⟩] [bind 1 (.ret (some (str "m")))]).getD (.variant undef))]

/-- The hypotheses of `C60_scalar_partial` -/
example : Follows (scalar .string no) [] 0 "p" (some (str "m")) :=
  C60_scalar_partial (w := scalar .string no) (obj := 0) (owner := 0) (by decide) rfl (id := 0) (outside := none)
    (blocks := [⟨some no, no, bind 8 (.ret (some (str "a")))⟩]) (modules := [bind 1 (.ret (some (str "m")))]) rfl rfl rfl
    (by unfold OneFallback; decide +kernel) (by intro _; decide +kernel) (os := [⟨false, false, false, undef⟩]) (jo := none) (ms := [str "m"])
    (.cons ⟨⟨rfl, rfl, rfl⟩, rfl, fun c h => ⟨some (.atom (.bool false)), by
            simp only [Option.some.injEq] at h
            subst h
            rfl, rfl⟩, fun h => absurd h (by decide)⟩ .nil)
    trivial (.cons ⟨⟨rfl, rfl, rfl⟩, rfl, rfl, rfl⟩ .nil) rfl

example : (evaluate (scalar .string yes) true anything 3 0 "p" [] []).1 = some (some (str "a")) := by decide +kernel
example : (evaluate (scalar .string no) true anything 3 0 "p" [] []).1 = some (some (str "m")) := by decide +kernel

/-- **C60 finding.** A property of type `var` that is set in a Properties item only becomes an empty list if the condition is
    false. The default value from the module, which other scalar properties get, is lost. -/
theorem C60_var_lost : (evaluate (scalar .var no) true anything 3 0 "p" [] []).1 = some (some (.arr [])) ∧
    scalarValue [⟨false, false, false, undef⟩] none [str "m"] = some (str "m") := by decide +kernel

/-- **C60 finding.** For lists, the fallback applies although the condition of another Properties item is true, if the value
    there is undefined. -/
theorem C60_fallback_applies : (evaluate (mkWorld .strings [((0, "p"), (propertyOf 0 none
    [⟨some yes, no, bind 7 (.ret (some undef))⟩, ⟨none, no, bind 8 (.ret (some (strs ["fallback"])))⟩] []).getD (.variant undef))])
      true anything 3 0 "p" [] []).1 = some (some (strs ["fallback"])) ∧
    applying [⟨false, true, false, undef⟩, ⟨true, false, false, strs ["fallback"]⟩] = [⟨false, true, false, undef⟩] := by
  constructor
  · decide +kernel
  · rfl

/-- **C60 finding.** Two fallbacks for the same property make the program fail with an internal error (value.cpp 175). -/
theorem C60_two_fallbacks (id : Nat) (outside : Option Head) (modules : List Head) (h h' : Head) (o o' : Code) :
    propertyOf id outside [⟨none, o, h⟩, ⟨none, o', h'⟩] modules = none := rfl

/-- Of `C60_accepted` -/
example : propertyOf 0 (some outside1) blocks1 modules1 ≠ none :=
  C60_accepted 0 _ _ _ (by unfold OneFallback; decide +kernel) (by
    intro b hb
    simp only [blocks1, List.mem_cons, List.not_mem_nil, or_false] at hb
    rcases hb with rfl | rfl | rfl | rfl <;> rfl)

/-- Of `C60_names`: `x` is imported, although the item has a property of this name; `y` is in the scope of the item. -/
def namesWorld : World :=
  { mkWorld .string [((0, "a"), .source { id := 0, code := .read "x" .ret, imports := [("x", some (str "imported"))] } .none .nil .nil),
      ((0, "b"), plainValue 1 (.read "y" .ret)), ((0, "x"), const 2 (str "own")), ((1, "y"), const 3 (str "in scope"))] with
    scopes := fun _ => [.item 1] }

example : (evaluate namesWorld true anything 5 0 "a" [] []).1 = some (some (str "imported")) ∧
    (evaluate namesWorld true anything 5 0 "b" [] []).1 = some (some (str "in scope")) := by decide +kernel

/-! ## Types -/

/-- Paths, one of them given on the command line, and a property that fails. -/
def typedWorld : World :=
  { mkWorld .paths [((0, "a"), .variant (str "x")), ((0, "b"), plainValue 1 (.read "a" .ret)), ((0, "c"), plainValue 2 .fail)] with
    resolve := fun s => "/dir/" ++ s }

theorem typedWorld_decls : Declarations typedWorld [(0, "a"), (0, "b"), (0, "c")] :=
  mkWorld_decls .paths [((0, "a"), .variant (str "x")), ((0, "b"), plainValue 1 (.read "a" .ret)), ((0, "c"), plainValue 2 .fail)]

/-- Of `C62_type`: after `a` has been evaluated in another directory and `c` has failed. -/
example : HasType .paths (.arr [.str "/dir//other/x"]) :=
  C62_type (w := typedWorld) typedWorld_decls true anything (k := 4) (by decide)
    [(fun s => "/other/" ++ s, true, 0, "a"), (fun s => s, true, 0, "c")] (i := 0) (n := "b") (by decide)
    (obj := 0) (owner := 0) (v := plainValue 1 (.read "a" .ret)) rfl (by decide +kernel)

/-- Of `C62_constant` -/
example : (evaluate typedWorld true anything 4 0 "a" [] []).1 = some (some (.arr [.str "/dir/x"])) :=
  (C62_constant (w := typedWorld) typedWorld_decls true anything (k := 4) (by decide) (by decide) (obj := 0) (owner := 0)
    (j := str "x") (by decide) rfl _).mpr (.onePath "x")

end Verif.Eval
