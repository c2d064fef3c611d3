import Verif.Decl.Spec

namespace Verif.Decl

theorem skipped_iff (it : Item) : skipped it = false ↔ it.disabled = false ∧
    it.type ∉ [Ty.module, .export, .properties, .propertiesInSubProject] ∧
    (it.type = .moduleInstance → it.present = true) := by
  unfold skipped
  cases it.type <;> cases it.disabled <;> cases it.present <;> simp

theorem childOk_iff (it t : Item) : childOk it t = true ↔
    t.type ∉ [Ty.export, .depends, .parameter, .parameters] ∧
    (t.type = .group → it.type ≠ .module ∧ it.type ≠ .moduleInstance) := by
  unfold childOk
  cases t.type <;> cases it.type <;> simp

theorem looked_iff {h : Heap} {i : Nat} : Looked h i ↔ ∃ it, h[i]? = some it ∧ skipped it = false := by
  unfold Looked
  simp only [skipped_iff]

theorem hasType_iff {h : Heap} {i : Nat} {it : Item} (hi : h[i]? = some it) (t : Ty) :
    HasType h i t ↔ it.type = t := by
  constructor
  · rintro ⟨x, hx, e⟩; rw [hi] at hx; cases hx; exact e
  · intro e; exact ⟨it, hi, e⟩

theorem inGroup_cons (h : Heap) (i : Nat) (st : List Nat) :
    inGroup h (i :: st) = true ↔
      HasType h i .group ∨ (HasType h i .modulePrefix ∧ inGroup h st = true) := by
  cases hi : h[i]? with
  | none =>
    simp [inGroup, hi, HasType]
  | some it =>
    rw [hasType_iff hi, hasType_iff hi]
    cases ht : it.type <;> simp [inGroup, hi, ht]

/-- The stack agrees with the specification for the item that is about to be handled. -/
structure CtxOk (h : Heap) (st : List Nat) (m : List Str) (i : Nat) : Prop where
  group : inGroup h (i :: st) = true ↔ InGroup h i
  path : ∀ it, h[i]? = some it → PathTo h i (if it.type = .modulePrefix then m else [])

theorem ctx_plain {h : Heap} {st : List Nat} {m : List Str} {i : Nat}
    (hi : ¬ HasType h i .modulePrefix) : CtxOk h st m i := by
  refine ⟨?_, ?_⟩
  · rw [inGroup_cons]
    constructor
    · rintro (h' | h')
      · exact .group h'
      · exact absurd h'.1 hi
    · intro h'
      cases h' with
      | group h' => exact .inl h'
      | pre _ _ h' => exact absurd h' hi
  · intro it e
    have : it.type ≠ .modulePrefix := fun e' => hi ⟨it, e, e'⟩
    simp only [this, if_false]; exact .start hi

theorem ctx_value {h : Heap} (wf : Shape h) {st : List Nat} {m : List Str} {i j : Nat} {it : Item}
    {n : Str} {b : Bool} (hit : h[i]? = some it) (c : CtxOk h st m i) (hs : Sets h i n (.item j b)) :
    CtxOk h (i :: st) ((if it.type = .modulePrefix then m else []) ++ [n]) j := by
  by_cases hj : HasType h j .modulePrefix
  · refine ⟨?_, ?_⟩
    · rw [inGroup_cons]
      constructor
      · rintro (h' | h')
        · exact .group h'
        · exact .pre (c.group.mp h'.2) hs hj
      · intro h'
        cases h' with
        | group h' => exact .inl h'
        | pre g s' h' =>
          have := wf.owner _ _ _ _ _ _ _ hs s' h'
          subst this
          exact .inr ⟨hj, c.group.mpr g⟩
    · intro t e
      have := (hasType_iff e _).mp hj
      simp only [this, if_true]
      exact .next (c.path it hit) hs hj
  · exact ctx_plain hj

/-- What `checkItem` says, in terms of the specification. -/
theorem checkItem_spec {h : Heap} {i j : Nat} {it t : Item} {n : Str} {b q : Bool}
    (hi : h[i]? = some it) (hj : h[j]? = some t) (hq : q = true ↔ InGroup h i) :
    (checkItem it t n b q = .stop ↔ Unchecked h i j) ∧
    (checkItem it t n b q = .error ↔ ¬ Unchecked h i j ∧ NoModule h i n j b) ∧
    (checkItem it t n b q = .descend ↔ ¬ Unchecked h i j ∧ ¬ NoModule h i n j b) := by
  have hids : (∀ x, h[i]? = some x → n ∉ x.ids) ↔ n ∉ it.ids := by
    constructor
    · intro f; exact f it hi
    · intro f x e; rw [hi] at e; cases e; exact f
  unfold Unchecked NoModule
  rw [hids, hasType_iff hi, hasType_iff hi, hasType_iff hj, hasType_iff hj, hasType_iff hj, ← hq]
  unfold checkItem
  split
  · simp_all
  split
  · simp_all
  split
  · simp_all
  split
  · simp_all
  · rename_i a b' c' d
    refine ⟨⟨fun e => (by cases e), fun e => ?_⟩, ⟨fun e => (by cases e), fun e => absurd e.2 d⟩,
      ⟨fun _ => ⟨?_, d⟩, fun _ => rfl⟩⟩
    · rcases e with e | e | e
      · exact absurd e a
      · exact absurd e b'
      · exact absurd e c'
    · rintro (e | e | e)
      · exact absurd e a
      · exact absurd e b'
      · exact absurd e c'

end Verif.Decl
