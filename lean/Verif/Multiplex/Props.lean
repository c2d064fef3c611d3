/-!
# C42: multiplexing

Model of src/lib/corelib/loader/productitemmultiplexer.cpp 97-250. The values of the evaluated
JavaScript properties are a parameter: an axis is the key in `multiplexByQbsProperties`, the name
it is mapped to by `qbs.multiplexMap` and the list of values of the property (`none`: undefined).
Errors (no entry in the map, not an array) end the evaluation and are left out. A `Val` is a
`QVariant`, compared with `==`.
-/
namespace Verif.Multiplex

variable {Val : Type} [DecidableEq Val]

abbrev Row (Val : Type) := List Val
abbrev Table (Val : Type) := List (List Val)

/-- One entry of `multiplexByQbsProperties` after evaluation. -/
structure Axis (Val : Type) where
  mapped : String
  values : Option (List Val)

/-- productitemmultiplexer.cpp 197-204: values occurring again are skipped. -/
def distinct (seen : List Val) : List Val → List Val
  | [] => []
  | v :: vs => if v ∈ seen then distinct seen vs else v :: distinct (seen ++ [v]) vs

/-- productitemmultiplexer.cpp 212-235 `combine`. -/
def combine (table : Table Val) (values : Row Val) : Table Val :=
  if table = [] then values.map fun v => [v]
  else table.flatMap fun row => values.map fun v => row ++ [v]

/-- `MultiplexInfo` (productitemmultiplexer.cpp 60-80). -/
structure Info (Val : Type) where
  properties : List String
  table : Table Val

/-- productitemmultiplexer.cpp 174-208: the loop over the axes; `seen` is
`uniqueMultiplexByQbsProperties`. -/
def extract : List String → Info Val → List (Axis Val) → Info Val
  | _, info, [] => info
  | seen, info, a :: as =>
    if a.mapped ∈ seen then extract seen info as
    else match a.values with
      | none => extract (a.mapped :: seen) info as
      | some vs =>
        if vs.length = 0 then extract (a.mapped :: seen) info as
        else extract (a.mapped :: seen)
          { properties := info.properties ++ [a.mapped]
            table := combine info.table (distinct [] vs) } as

/-- `extractMultiplexInfo`. -/
def multiplexInfo (axes : List (Axis Val)) : Info Val :=
  extract [] { properties := [], table := [] } axes

/-- productitemmultiplexer.cpp 238-246: the configuration of a row, name by name. -/
def configuration (info : Info Val) (row : Row Val) : List (String × Val) :=
  info.properties.zip row

/-- productitemmultiplexer.cpp 97-140: the instances made of the product, in order, with their
configurations; the first one reuses the item, the others are clones. Without a table the product
is left alone. -/
def instances (info : Info Val) : List (Bool × List (String × Val)) :=
  if info.table = [] then [(true, [])]
  else info.table.mapIdx fun i row => (i = 0, configuration info row)

/-! ### Specification -/

/-- The axes that count: those with at least one value, the first one for each mapped name. -/
def Effective : List String → List (Axis Val) → List (String × List Val)
  | _, [] => []
  | seen, a :: as =>
    if a.mapped ∈ seen then Effective seen as
    else match a.values with
      | some (v :: vs) => (a.mapped, v :: vs) :: Effective (a.mapped :: seen) as
      | _ => Effective (a.mapped :: seen) as

/-- `row` chooses one of the values of every axis. -/
def Chooses : List (String × List Val) → Row Val → Prop
  | [], [] => True
  | e :: es, v :: vs => v ∈ e.2 ∧ Chooses es vs
  | _, _ => False

/-- The number of combinations. -/
def combinations : List (String × List Val) → Nat
  | [] => 1
  | e :: es => e.2.eraseDups.length * combinations es

/-! ### Lemmas -/

theorem mem_distinct (vs : List Val) : ∀ (seen : List Val) (v : Val),
    v ∈ distinct seen vs ↔ v ∈ vs ∧ v ∉ seen := by
  induction vs with
  | nil => intro seen v; simp [distinct]
  | cons x xs ih =>
    intro seen v
    simp only [distinct]
    by_cases hx : x ∈ seen
    · rw [if_pos hx, ih]
      constructor
      · rintro ⟨h1, h2⟩; exact ⟨by simp [h1], h2⟩
      · rintro ⟨h1, h2⟩
        rcases List.mem_cons.1 h1 with rfl | h1
        · exact absurd hx h2
        · exact ⟨h1, h2⟩
    · rw [if_neg hx, List.mem_cons, ih]
      by_cases hv : v = x
      · subst hv; simp [hx]
      · simp [hv]

theorem nodup_distinct (vs : List Val) : ∀ (seen : List Val), (distinct seen vs).Nodup := by
  induction vs with
  | nil => intro seen; simp [distinct]
  | cons x xs ih =>
    intro seen
    simp only [distinct]
    by_cases hx : x ∈ seen
    · rw [if_pos hx]; exact ih seen
    · rw [if_neg hx, List.nodup_cons]
      refine ⟨?_, ih _⟩
      rw [mem_distinct]
      simp

theorem distinct_ne_nil (v : Val) (vs : List Val) : distinct [] (v :: vs) ≠ [] := by
  intro h
  have : v ∈ distinct [] (v :: vs) := (mem_distinct _ _ _).2 ⟨by simp, by simp⟩
  rw [h] at this
  cases this

theorem chooses_snoc (e : String × List Val) : ∀ (es : List (String × List Val)) (row : Row Val),
    Chooses (es ++ [e]) row ↔ ∃ r v, row = r ++ [v] ∧ Chooses es r ∧ v ∈ e.2 := by
  intro es
  induction es with
  | nil =>
    intro row
    cases row with
    | nil => simp [Chooses]
    | cons v vs =>
      cases vs with
      | nil =>
        simp only [List.nil_append, Chooses, and_true]
        constructor
        · intro h; exact ⟨[], v, rfl, trivial, h⟩
        · rintro ⟨r, w, h1, h2, h3⟩
          cases r with
          | nil => simp at h1; rw [h1]; exact h3
          | cons a r => simp [Chooses] at h2
      | cons w ws =>
        simp only [List.nil_append, Chooses, and_false, false_iff]
        rintro ⟨r, x, h1, h2, h3⟩
        cases r with
        | nil => simp at h1
        | cons a r => simp [Chooses] at h2
  | cons e' es ih =>
    intro row
    cases row with
    | nil =>
      simp only [List.cons_append, Chooses, false_iff]
      rintro ⟨r, v, h, _⟩
      simp at h
    | cons v vs =>
      simp only [List.cons_append, Chooses, ih]
      constructor
      · rintro ⟨h1, r, w, rfl, h2, h3⟩
        exact ⟨v :: r, w, rfl, ⟨h1, h2⟩, h3⟩
      · rintro ⟨r, w, h1, h2, h3⟩
        cases r with
        | nil => simp [Chooses] at h2
        | cons a r =>
          simp only [List.cons_append, List.cons.injEq] at h1
          obtain ⟨rfl, rfl⟩ := h1
          exact ⟨h2.1, r, w, rfl, h2.2, h3⟩

theorem nodup_map_append (row : Row Val) (vs : List Val) (h : vs.Nodup) :
    (vs.map fun v => row ++ [v]).Nodup := by
  induction vs with
  | nil => simp
  | cons v vs ih =>
    rw [List.nodup_cons] at h
    rw [List.map_cons, List.nodup_cons]
    refine ⟨?_, ih h.2⟩
    simp only [List.mem_map, List.append_cancel_left_eq, List.cons.injEq, and_true]
    rintro ⟨w, hw, rfl⟩
    exact h.1 hw

theorem nodup_flatMap (t : Table Val) (vs : List Val) (ht : t.Nodup) (h : vs.Nodup) :
    (t.flatMap fun row => vs.map fun v => row ++ [v]).Nodup := by
  induction t with
  | nil => simp
  | cons r t ih =>
    rw [List.nodup_cons] at ht
    rw [List.flatMap_cons, List.nodup_append]
    refine ⟨nodup_map_append r vs h, ih ht.2, ?_⟩
    intro a ha b hb hab
    subst hab
    simp only [List.mem_map] at ha
    simp only [List.mem_flatMap, List.mem_map] at hb
    obtain ⟨v, _, rfl⟩ := ha
    obtain ⟨r', hr', w, _, he⟩ := hb
    have := List.append_inj_left' he (by simp)
    subst this
    exact ht.1 hr'

theorem length_flatMap (t : Table Val) (vs : List Val) :
    (t.flatMap fun row => vs.map fun v => row ++ [v]).length = t.length * vs.length := by
  induction t with
  | nil => simp
  | cons r t ih => rw [List.flatMap_cons, List.length_append, ih]; simp [Nat.add_mul, Nat.add_comm]

/-- The state of the loop over the axes. -/
structure Good (es : List (String × List Val)) (info : Info Val) : Prop where
  props : info.properties = es.map (·.1)
  empty : info.table = [] ↔ es = []
  nodup : info.table.Nodup
  rows : es ≠ [] → ∀ row, row ∈ info.table ↔ Chooses es row
  count : es ≠ [] → info.table.length = combinations es

theorem distinct_eq_eraseDups (vs : List Val) : ∀ (seen : List Val),
    distinct seen vs = (vs.filter fun v => !decide (v ∈ seen)).eraseDups := by
  induction vs with
  | nil => intro seen; simp [distinct]
  | cons x xs ih =>
    intro seen
    simp only [distinct]
    by_cases hx : x ∈ seen
    · rw [if_pos hx, ih, List.filter_cons_of_neg (by simpa using hx)]
    · rw [if_neg hx, ih, List.filter_cons_of_pos (by simpa using hx), List.eraseDups_cons,
        List.filter_filter]
      congr 2
      apply List.filter_congr
      intro v _
      by_cases h1 : v ∈ seen <;> by_cases h2 : v = x <;> simp [h1, h2, hx]

theorem length_distinct (vs : List Val) : (distinct [] vs).length = vs.eraseDups.length := by
  rw [distinct_eq_eraseDups]
  congr 2
  simp

theorem combinations_snoc (es : List (String × List Val)) (e : String × List Val) :
    combinations (es ++ [e]) = combinations es * (distinct [] e.2).length := by
  induction es with
  | nil => simp [combinations, length_distinct]
  | cons a es ih => simp only [List.cons_append, combinations, ih, Nat.mul_assoc]

theorem good_step (es : List (String × List Val)) (info : Info Val) (m : String) (v : Val)
    (vs : List Val) (hg : Good es info) :
    Good (es ++ [(m, v :: vs)])
      { properties := info.properties ++ [m]
        table := combine info.table (distinct [] (v :: vs)) } := by
  have hd := distinct_ne_nil v vs
  have hnd := nodup_distinct (v :: vs) []
  have hmem : ∀ x, x ∈ distinct [] (v :: vs) ↔ x ∈ v :: vs := by
    intro x; rw [mem_distinct]; simp
  by_cases he : es = []
  · subst he
    have ht : info.table = [] := hg.empty.2 rfl
    have hc : combine info.table (distinct [] (v :: vs))
        = (distinct [] (v :: vs)).map fun v => [v] := by
      unfold combine; rw [if_pos ht]
    rw [hc]
    refine ⟨?_, ?_, ?_, ?_, ?_⟩
    · simp [hg.props]
    · simpa using hd
    · simpa using nodup_map_append [] _ hnd
    · intro _ row
      rw [chooses_snoc]
      simp only [List.mem_map]
      constructor
      · rintro ⟨x, hx, rfl⟩
        exact ⟨[], x, rfl, trivial, (hmem x).1 hx⟩
      · rintro ⟨r, x, rfl, h1, h2⟩
        cases r with
        | nil => exact ⟨x, (hmem x).2 h2, rfl⟩
        | cons a r => simp [Chooses] at h1
    · intro _; simp [combinations, length_distinct]
  · have ht : info.table ≠ [] := fun h => he (hg.empty.1 h)
    have hc : combine info.table (distinct [] (v :: vs))
        = info.table.flatMap fun row => (distinct [] (v :: vs)).map fun v => row ++ [v] := by
      unfold combine; rw [if_neg ht]
    rw [hc]
    refine ⟨?_, ?_, ?_, ?_, ?_⟩
    · simp [hg.props]
    · constructor
      · intro h
        exfalso
        have hl := length_flatMap info.table (distinct [] (v :: vs))
        simp only at h
        rw [h] at hl
        simp only [List.length_nil] at hl
        have h1 : info.table.length ≠ 0 := by simpa using ht
        have h2 : (distinct [] (v :: vs)).length ≠ 0 := by simpa using hd
        have := Nat.mul_ne_zero h1 h2
        omega
      · intro h; simp at h
    · exact nodup_flatMap _ _ hg.nodup hnd
    · intro _ row
      rw [chooses_snoc]
      simp only [List.mem_flatMap, List.mem_map]
      constructor
      · rintro ⟨r, hr, x, hx, rfl⟩
        exact ⟨r, x, rfl, (hg.rows he r).1 hr, (hmem x).1 hx⟩
      · rintro ⟨r, x, rfl, h1, h2⟩
        exact ⟨r, (hg.rows he r).2 h1, x, (hmem x).2 h2, rfl⟩
    · intro _
      rw [length_flatMap, hg.count he, combinations_snoc]

theorem good_extract (axes : List (Axis Val)) : ∀ (seen : List String) (info : Info Val)
    (es : List (String × List Val)), Good es info →
    Good (es ++ Effective seen axes) (extract seen info axes) := by
  induction axes with
  | nil => intro seen info es h; simpa [Effective, extract] using h
  | cons a as ih =>
    intro seen info es h
    by_cases hs : a.mapped ∈ seen
    · simp only [Effective, extract, if_pos hs]; exact ih seen info es h
    · simp only [Effective, extract, if_neg hs]
      cases hv : a.values with
      | none => simp only; exact ih _ info es h
      | some vs =>
        cases vs with
        | nil => simp only [List.length_nil, if_true]; exact ih _ info es h
        | cons v vs =>
          simp only [List.length_cons]
          rw [if_neg (by omega)]
          have := ih (a.mapped :: seen) _ _ (good_step es info a.mapped v vs h)
          simpa using this

theorem effective_fresh (axes : List (Axis Val)) : ∀ (seen : List String),
    ((Effective seen axes).map (·.1)).Nodup ∧ ∀ m ∈ (Effective seen axes).map (·.1), m ∉ seen := by
  induction axes with
  | nil => intro seen; simp [Effective]
  | cons a as ih =>
    intro seen
    by_cases hs : a.mapped ∈ seen
    · simp only [Effective, if_pos hs]; exact ih seen
    · simp only [Effective, if_neg hs]
      have h := ih (a.mapped :: seen)
      have hrest : ((Effective (a.mapped :: seen) as).map (·.1)).Nodup ∧
          ∀ m ∈ (Effective (a.mapped :: seen) as).map (·.1), m ∉ seen :=
        ⟨h.1, fun m hm hms => h.2 m hm (by simp [hms])⟩
      cases hv : a.values with
      | none => exact hrest
      | some vs =>
        cases vs with
        | nil => exact hrest
        | cons v vs =>
          simp only [List.map_cons, List.nodup_cons]
          refine ⟨⟨fun hm => h.2 _ hm (by simp), h.1⟩, ?_⟩
          intro m hm
          rcases List.mem_cons.1 hm with rfl | hm
          · exact hs
          · exact hrest.2 m hm

theorem zip_inj (ps : List String) : ∀ (r r' : Row Val), r.length = ps.length →
    r'.length = ps.length → ps.zip r = ps.zip r' → r = r' := by
  induction ps with
  | nil => intro r r' h h' _; simp at h h'; rw [h, h']
  | cons p ps ih =>
    intro r r' h h' he
    cases r with
    | nil => simp at h
    | cons v vs =>
      cases r' with
      | nil => simp at h'
      | cons w ws =>
        simp only [List.zip_cons_cons, List.cons.injEq, Prod.mk.injEq, true_and] at he
        simp only [List.length_cons, Nat.add_right_cancel_iff] at h h'
        rw [he.1, ih vs ws h h' he.2]

theorem chooses_length : ∀ (es : List (String × List Val)) (row : Row Val), Chooses es row →
    row.length = es.length := by
  intro es
  induction es with
  | nil => intro row h; cases row with
    | nil => rfl
    | cons => simp [Chooses] at h
  | cons e es ih =>
    intro row h
    cases row with
    | nil => simp [Chooses] at h
    | cons v vs => simp [ih vs h.2]

/-- **C42.** Let `es` be the axes that count. If there are none, the product is left alone.
Otherwise the instances are exactly the combinations of one value per axis, as many as the
product of the numbers of distinct values; no two instances have the same configuration, each
configuration gives every property once, and only the first instance reuses the product item. -/
theorem C42_cartesian_product (axes : List (Axis Val)) :
    let es := Effective [] axes
    let inst := instances (multiplexInfo axes)
    (es = [] → inst = [(true, [])]) ∧
    (es.map (·.1)).Nodup ∧
    (es ≠ [] →
      inst.length = combinations es ∧
      (inst.map (·.2)).Nodup ∧
      (∀ conf, conf ∈ inst.map (·.2) ↔
        ∃ row, Chooses es row ∧ conf = (es.map (·.1)).zip row) ∧
      (∀ (i : Nat) (x : Bool × List (String × Val)), inst[i]? = some x →
        (x.1 = true ↔ i = 0))) := by
  intro es inst
  have hg : Good es (multiplexInfo axes) := by
    have := good_extract axes [] { properties := [], table := [] } [] (by
      refine ⟨rfl, by simp, by simp, ?_, ?_⟩
      · intro h; exact absurd rfl h
      · intro h; exact absurd rfl h)
    simp only [List.nil_append] at this
    exact this
  refine ⟨?_, (effective_fresh axes []).1, ?_⟩
  · intro he
    simp only [inst, instances]
    rw [if_pos (hg.empty.2 he)]
  · intro he
    have ht : (multiplexInfo axes).table ≠ [] := fun h => he (hg.empty.1 h)
    have hi : inst = (multiplexInfo axes).table.mapIdx fun i row =>
        (decide (i = 0), configuration (multiplexInfo axes) row) := by
      simp only [inst, instances]; rw [if_neg ht]
    have hconf : inst.map (·.2)
        = (multiplexInfo axes).table.map (configuration (multiplexInfo axes)) := by
      rw [hi]
      apply List.ext_getElem?
      intro i
      simp [List.getElem?_mapIdx]
      rfl
    have hlen : ∀ row ∈ (multiplexInfo axes).table,
        row.length = (multiplexInfo axes).properties.length := by
      intro row hr
      rw [chooses_length es row ((hg.rows he row).1 hr), hg.props]; simp
    refine ⟨?_, ?_, ?_, ?_⟩
    · rw [hi, List.length_mapIdx, hg.count he]
    · rw [hconf]
      have aux : ∀ t : Table Val,
          (∀ row ∈ t, row.length = (multiplexInfo axes).properties.length) → t.Nodup →
          (t.map (configuration (multiplexInfo axes))).Nodup := by
        intro t
        induction t with
        | nil => intro _ _; simp
        | cons r t ih =>
          intro hl hn
          rw [List.nodup_cons] at hn
          rw [List.map_cons, List.nodup_cons]
          refine ⟨?_, ih (fun row h => hl row (by simp [h])) hn.2⟩
          intro hm
          obtain ⟨r', hr', he'⟩ := List.mem_map.1 hm
          have := zip_inj _ r' r (hl r' (by simp [hr'])) (hl r (by simp)) he'
          subst this
          exact hn.1 hr'
      exact aux _ hlen hg.nodup
    · intro conf
      rw [hconf, List.mem_map]
      constructor
      · rintro ⟨row, hr, rfl⟩
        exact ⟨row, (hg.rows he row).1 hr, by simp [configuration, hg.props]⟩
      · rintro ⟨row, hr, rfl⟩
        exact ⟨row, (hg.rows he row).2 hr, by simp [configuration, hg.props]⟩
    · intro i x hx
      rw [hi, List.getElem?_mapIdx] at hx
      cases hr : (multiplexInfo axes).table[i]? with
      | none => rw [hr] at hx; cases hx
      | some row =>
        rw [hr] at hx
        simp only [Option.map_some, Option.some.injEq] at hx
        rw [← hx]; simp

/-- Two axes, one with a repeated value, one axis mapped to a name seen before, one undefined. -/
example :
    instances (multiplexInfo
      [⟨"architecture", some [1, 2, 1]⟩, ⟨"buildVariant", some [7, 8]⟩,
       ⟨"architecture", some [5]⟩, ⟨"profile", none⟩])
    = [(true, [("architecture", 1), ("buildVariant", 7)]),
       (false, [("architecture", 1), ("buildVariant", 8)]),
       (false, [("architecture", 2), ("buildVariant", 7)]),
       (false, [("architecture", 2), ("buildVariant", 8)])] := by decide +kernel

end Verif.Multiplex
