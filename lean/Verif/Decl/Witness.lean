import Verif.Decl.Props

/-! Examples for C121. -/
namespace Verif.Decl

/-- An item of type `t`. -/
def mk (t : Ty) (props : List (Str × Val)) (children : List Nat) : Item :=
  { type := t, props := props, decls := [['n','a','m','e'], ['f','i','l','e','s']], children := children,
    present := true, disabled := false, ids := [['m','e']] }

/-- A product with a typo in a group, one in a module, and uses of modules that do not exist, one of
them with two parts. -/
def prod : Heap :=
  [ mk .product [(['A'], .item 2 false), (['c','p','p'], .item 1 false), (['m','e'], .item 7 false),
      (['n','a','m','e'], .js false), (['x'], .js true)] [4, 5],
    mk .moduleInstance [(['d','e','f'], .js false)] [6],
    mk .modulePrefix [(['b'], .item 3 false), (['c'], .item 1 false)] [],
    mk .placeholder [(['u'], .js false)] [],
    mk .group [(['c','p','p'], .item 1 false), (['f','i','l','e','s'], .js false), (['n','o'], .item 3 false), (['o','t'], .js false)] [],
    mk .artifact [(['n','o'], .item 3 false), (['y'], .js false)] [],
    mk .group [(['z'], .js false)] [],
    mk .other [(['w'], .js false)] [] ]

/-- A test for the shape of the items. -/
def shapeB (h : Heap) : Bool :=
  h.all (fun it => decide (it.props.map (·.1)).Nodup &&
    it.children.all (fun c => ((h[c]?).map (·.type)) != some .modulePrefix)) &&
  (h.zipIdx).all (fun a => (h.zipIdx).all (fun b => a.1.props.all (fun p => b.1.props.all (fun q =>
    match p.2, q.2 with
    | .item j _, .item j' _ =>
      decide (j = j' → ((h[j]?).map (·.type)) = some .modulePrefix → a.2 = b.2)
    | _, _ => true))))

theorem shape_of (h : Heap) (e : shapeB h = true) : Shape h := by
  unfold shapeB at e
  rw [Bool.and_eq_true, List.all_eq_true, List.all_eq_true] at e
  obtain ⟨e1, e2⟩ := e
  refine ⟨?_, ?_, ?_⟩
  · intro it hm
    have := e1 it hm
    rw [Bool.and_eq_true, decide_eq_true_eq] at this
    exact this.1
  · rintro i i' n n' j b b' ⟨a, ha, hm, _⟩ ⟨a', ha', hm', _⟩ ⟨t, ht, hty⟩
    have z : (a, i) ∈ h.zipIdx := by rw [List.mem_zipIdx_iff_getElem?]; exact ha
    have z' : (a', i') ∈ h.zipIdx := by rw [List.mem_zipIdx_iff_getElem?]; exact ha'
    have := e2 _ z
    rw [List.all_eq_true] at this
    have := this _ z'
    rw [List.all_eq_true] at this
    have := this _ hm
    rw [List.all_eq_true] at this
    have := this _ hm'
    simp only [decide_eq_true_eq] at this
    exact this trivial (by rw [ht]; simp [hty])
  · intro it hm c hc
    have := e1 it hm
    rw [Bool.and_eq_true, List.all_eq_true] at this
    have := this.2 c hc
    rintro ⟨t, ht, hty⟩
    rw [ht] at this
    simp [hty] at this

theorem prod_shape : Shape prod := shape_of _ (by decide +kernel)

theorem prod_root : ¬ HasType prod 0 .modulePrefix := by
  rintro ⟨t, ht, e⟩
  simp [prod, mk] at ht
  subst ht
  cases e

/-- What is reported, with the names in the messages. -/
example : (check prod 0).map (fun r => (r.item, r.isItem, r.path)) =
    [(2, true, [['A'], ['b']]), (1, false, [['d','e','f']]), (7, false, [['w']]), (4, false, [['o','t']]),
     (5, false, [['y']])] := by
  decide +kernel

/-- With strict checking it is the first of these. -/
example : (checkStrict prod 0).map (·.path) = some [['A'], ['b']] := by decide +kernel

/-- The hypotheses of the theorems about undeclared properties and modules are met. -/
example : Inside prod 0 4 ∧ Sets prod 4 ['o','t'] (.js false) ∧ Reported prod 0 4 ['o','t'] := by
  have r : Inside prod 0 0 := .root (it := prod[0]) rfl (by decide) (by decide) (by decide) (by decide)
    (by decide) rfl
  have i : Inside prod 0 4 := .child (it := prod[0]) (t := prod[4]) r rfl (by decide) rfl (by decide)
    (by decide) (by decide) rfl
  have s : Sets prod 4 ['o','t'] (.js false) := ⟨prod[4], rfl, by decide, by decide⟩
  exact ⟨i, s, C121_undeclared_partial prod_shape prod_root i s⟩

example : Inside prod 0 1 ∧ Reported prod 0 1 ['d','e','f'] := by
  have r : Inside prod 0 0 := .root (it := prod[0]) rfl (by decide) (by decide) (by decide) (by decide)
    (by decide) rfl
  have i : Inside prod 0 1 := .module (it := prod[0]) (t := prod[1]) (n := ['c','p','p']) (b := false) r rfl
    (by decide) (by decide) (by decide) (by decide) rfl (by decide) rfl
  exact ⟨i, C121_undeclared_partial prod_shape prod_root i ⟨prod[1], rfl, by decide, by decide⟩⟩

example : Inside prod 0 2 ∧ Reported prod 0 2 ['b'] := by
  have r : Inside prod 0 0 := .root (it := prod[0]) rfl (by decide) (by decide) (by decide) (by decide)
    (by decide) rfl
  have i : Inside prod 0 2 := .module (it := prod[0]) (t := prod[2]) (n := ['A']) (b := false) r rfl
    (by decide) (by decide) (by decide) (by decide) rfl (by decide) rfl
  have s0 : Sets prod 0 ['A'] (.item 2 false) := ⟨prod[0], rfl, by decide, by decide⟩
  have t2 : HasType prod 2 .modulePrefix := ⟨prod[2], rfl, rfl⟩
  refine ⟨i, C121_no_module_partial prod_shape prod_root (j := 3) i ⟨prod[2], rfl, by decide, by decide⟩
    ⟨prod[3], rfl, rfl⟩ ?_ ?_ ?_ ?_⟩
  · intro it e; cases e; decide
  · rintro ⟨it, e, h1, _⟩; cases e; cases h1
  · rintro ⟨it, e, h1⟩; cases e; cases h1
  · intro g
    cases g with
    | group g => obtain ⟨it, e, h1⟩ := g; cases e; cases h1
    | pre g s _ =>
      have := prod_shape.owner _ _ _ _ _ _ _ s s0 t2
      subst this
      cases g with
      | group g => obtain ⟨it, e, h1⟩ := g; cases e; cases h1
      | pre _ _ g => obtain ⟨it, e, h1⟩ := g; cases e; cases h1

/-- The declared property `name` is not reported, and neither is `x`, which is set in a `Properties`
item only. -/
example : ¬ Reported prod 0 0 ['n','a','m','e'] ∧ ¬ Reported prod 0 0 ['x'] :=
  ⟨C121_declared prod_shape prod_root (it := prod[0]) rfl (by decide),
   C121_finding_block prod_shape prod_root ⟨prod[0], rfl, by decide, by decide⟩⟩

/-- Neither the artifact nor the group are reported for their use of the module that does not exist. -/
example : ¬ Reported prod 0 5 ['n','o'] ∧ ¬ Reported prod 0 4 ['n','o'] :=
  ⟨C121_finding_artifact prod_shape prod_root (j := 3) (b := false) ⟨prod[5], rfl, rfl⟩
     ⟨prod[5], rfl, by decide, by decide⟩,
   C121_finding_group prod_shape prod_root (j := 3) (b := false) ⟨prod[4], rfl, rfl⟩
     ⟨prod[4], rfl, by decide, by decide⟩ ⟨prod[3], rfl, rfl⟩⟩

/-- **C121 finding.** What is set in a group of a module is not checked: the group sets `z`, which is
not declared. -/
theorem C121_finding_module_group :
    Sets prod 6 ['z'] (.js false) ∧ ¬ Reported prod 0 6 ['z'] := by
  refine ⟨⟨prod[6], rfl, by decide, by decide⟩, ?_⟩
  rintro ⟨r, hm, e1, e2⟩
  have : ∀ r ∈ check prod 0, r.item ≠ 6 := by decide +kernel
  exact this r hm e1

/-- **C121 finding.** A whole use of a module that does not exist goes unnoticed if it is made in a
`Properties` item: neither the module nor the property in it are reported. -/
theorem C121_finding_block_whole :
    check [mk .product [(['n','o'], .item 1 true)] [], mk .placeholder [(['y'], .js true)] []] 0 = [] ∧
    check [mk .product [(['n','o'], .item 1 false)] [], mk .placeholder [(['y'], .js true)] []] 0 ≠ [] := by
  decide +kernel

end Verif.Decl
