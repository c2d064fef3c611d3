import Verif.Override.Lem
/-
C81: values given on the command line.
-/

namespace Verif.Override

open Spec

theorem given_mem {f : Flat} {k : Str} {v : Val} (h : given f k = some v) : (k, v) ∈ f := by
  rw [given, Option.map_eq_some_iff] at h
  obtain ⟨e, h1, rfl⟩ := h
  have h2 := List.find?_some h1
  rw [decide_eq_true_eq] at h2
  subst h2
  exact List.mem_of_find?_eq_some h1

theorem given_of_mem {f : Flat} (ho : Ordered f) {k : Str} {v : Val} (h : (k, v) ∈ f) :
    given f k = some v := by
  rw [← get_eq_given]
  induction f with
  | nil => cases h
  | cons e f ih =>
    obtain ⟨k', v'⟩ := e
    have ho' := List.pairwise_cons.1 ho
    rcases List.mem_cons.1 h with h | h
    · obtain ⟨rfl, rfl⟩ := Prod.mk.inj h
      simp [get]
    · have : k' ≠ k := by
        rintro rfl
        exact str_lt_irrefl _ (ho'.1 (k', v) h)
      rw [get, if_neg this]
      exact ih ho'.2 h

/-- C81: the tree that the loader works with has for every property what the user
gave for it. -/
theorem C81_tree {f : Flat} (ho : Ordered f) (pre p : Str) (hp : PropertyName p) :
    Tree.value (provideValuesTree f []) pre p = given f (dotted pre p) := by
  rw [treeValue_eq, provide_nil, fillTree_value f ho pre p hp, get_eq_given]

theorem effective_trans {md : Mode} {v w : Option Val} {a b c : Item} {p : Str} {t : PType}
    (h : Effective md v a b p t) (h' : Effective md w b c p t) :
    Effective md (w.or v) a c p t := by
  cases w with
  | none =>
    have h' : c.cell p = b.cell p := h'
    cases v with
    | none =>
      have h : b.cell p = a.cell p := h
      show c.cell p = a.cell p
      rw [h', h]
    | some v =>
      obtain ⟨x, hx, hb⟩ := h
      exact ⟨x, hx, by rw [h', hb]⟩
  | some w => exact h'

theorem loadProduct_ok {md : Mode} {t : Tree} {p p' : Product} (h : loadProduct md t p = .ok p') :
    overrideItem md t (productsPrefix ++ p.name) p.item = .ok p'.item ∧
      p'.name = nameOf p.name p'.item ∧ p'.modules = p.modules := by
  obtain ⟨it, h1, h⟩ := bind_ok h
  injection h with h
  subst h
  exact ⟨h1, rfl, rfl⟩

theorem loadModules_ok {md : Mode} {t : Tree} {p p' : Product} (h : loadModules md t p = .ok p') :
    mapE (loadModule md t p.name) p.modules = .ok p'.modules ∧ p'.name = p.name ∧
      p'.item = p.item := by
  obtain ⟨ms, h1, h⟩ := bind_ok h
  injection h with h
  subst h
  exact ⟨h1, rfl, rfl⟩

theorem getElem?_of_length {α β : Type} {l : List α} {l' : List β} (h : l.length = l'.length)
    {i : Nat} {a : α} (ha : l[i]? = some a) : ∃ b, l'[i]? = some b := by
  have := (List.getElem?_eq_some_iff.1 ha).1
  exact ⟨l'[i]'(by omega), List.getElem?_eq_getElem (by omega)⟩

/-- A product before and after, and in between. -/
theorem load_product {md : Mode} {f : Flat} {pjs pjs' : List Project} {pds pds' : List Product}
    (h : load md f pjs pds = .ok (pjs', pds')) {i : Nat} {p p' : Product}
    (hp : pds[i]? = some p) (hp' : pds'[i]? = some p') :
    ∃ q, loadProduct md (provideValuesTree f []) p = .ok q ∧
      loadModules md (provideValuesTree f []) q = .ok p' := by
  obtain ⟨mid, _, _, h3, _, _, h6⟩ := load_ok h
  obtain ⟨l3, m3⟩ := mapE_ok h3
  obtain ⟨_, m6⟩ := mapE_ok h6
  obtain ⟨q, hq⟩ := getElem?_of_length l3 hp
  exact ⟨q, m3 i p q hp hq, m6 i q p' hq hp'⟩

/-- C81: a declared property of a product has the value that was given for it, or is as
in the project file if none was given. -/
theorem C81_product_value {md : Mode} {f : Flat} (ho : Ordered f) {pjs pjs' : List Project}
    {pds pds' : List Product} (h : load md f pjs pds = .ok (pjs', pds')) (i : Nat)
    (p p' : Product) (hp : pds[i]? = some p) (hp' : pds'[i]? = some p') (x : Str) (t : PType)
    (hx : PropertyName x) (hd : p.item.decl x = some t) :
    Effective md (firstGiven f (productKeys p.name x)) p.item p'.item x t := by
  obtain ⟨q, h1, h2⟩ := load_product h hp hp'
  obtain ⟨h1, _, _⟩ := loadProduct_ok h1
  obtain ⟨_, _, h2⟩ := loadModules_ok h2
  rw [h2]
  have := (overrideItem_ok ho h1).2.2.2 x t hx hd
  rw [productKeys, firstGiven]
  revert this
  show Effective md (given f (dotted ("products.".toList ++ p.name) x)) _ _ _ _ → _
  cases given f (dotted ("products.".toList ++ p.name) x) <;> exact fun h => h

theorem overrideModule_ok {md : Mode} {t : Tree} {product m : Str} {it it' : Item}
    (h : overrideModule md t product m it = .ok it') :
    ∃ a b, overrideItem md t (modulesPrefix ++ m) it = .ok a ∧
      overrideQbs md t m a = .ok b ∧
      overrideItem md t (productsPrefix ++ product ++ dot ++ m) b = .ok it' := by
  obtain ⟨a, h1, h⟩ := bind_ok h
  obtain ⟨b, h2, h⟩ := bind_ok h
  exact ⟨a, b, h1, h2, h⟩

theorem perProductKey (product m : Str) :
    productsPrefix ++ product ++ dot ++ m = dotted ("products.".toList ++ product) m := by
  rw [dotted, show productsPrefix = "products.".toList from rfl, show dot = ['.'] from rfl,
    List.append_assoc ("products.".toList ++ product)]
  rfl

theorem firstGiven_cons (f : Flat) (k : Str) (ks : List Str) :
    firstGiven f (k :: ks) = (given f k).or (firstGiven f ks) := by
  rw [firstGiven]
  cases given f k <;> rfl

theorem effective_module {md : Mode} {f : Flat} (ho : Ordered f) {product m : Str} {it it' : Item}
    (h : overrideModule md (provideValuesTree f []) product m it = .ok it') :
    (∀ (x : Str) (t : PType), PropertyName x → it.decl x = some t →
      Effective md (firstGiven f (moduleKeys product m x)) it it' x t) ∧
    (md.strict = true → ∀ x, PropertyName x → ∀ k ∈ moduleKeys product m x,
      given f k ≠ none → it.decl x ≠ none) ∧
    (∀ x, it.decl x = none → it'.cell x = it.cell x) := by
  obtain ⟨a, b, h1, h2, h3⟩ := overrideModule_ok h
  obtain ⟨d1, u1, s1, e1⟩ := overrideItem_ok ho h1
  obtain ⟨d3, u3, s3, e3⟩ := overrideItem_ok ho h3
  rw [perProductKey] at s3 e3
  by_cases hm : m = qbsName
  · rw [overrideQbs, if_pos hm] at h2
    obtain ⟨d2, u2, s2, e2⟩ := overrideItem_ok ho h2
    have hm' : m = "qbs".toList := hm
    refine ⟨?_, ?_, ?_⟩
    · intro x t hx hd
      have e1 := e1 x t hx hd
      have e2 := e2 x t hx (by rw [d1]; exact hd)
      have e3 := e3 x t hx (by rw [d2, d1]; exact hd)
      have := effective_trans (effective_trans e1 e2) e3
      rw [moduleKeys, if_pos hm', firstGiven_cons, List.singleton_append, firstGiven_cons,
        firstGiven_cons, firstGiven, Option.or_none]
      rw [hm'] at this ⊢
      exact this
    · intro hs x hx k hk hg
      rw [moduleKeys, if_pos hm'] at hk
      simp only [List.singleton_append, List.mem_cons, List.not_mem_nil, or_false] at hk
      rcases hk with rfl | rfl | rfl
      · rw [← d1, ← d2]; exact s3 hs x hx hg
      · rw [← d1]; exact s2 hs x hx (by rw [hm']; exact hg)
      · exact s1 hs x hx hg
    · intro x hd
      rw [u3 x (by rw [d2, d1]; exact hd), u2 x (by rw [d1]; exact hd), u1 x hd]
  · rw [overrideQbs, if_neg hm] at h2
    injection h2 with h2
    subst h2
    have hm' : ¬ m = "qbs".toList := hm
    refine ⟨?_, ?_, ?_⟩
    · intro x t hx hd
      have e1 := e1 x t hx hd
      have e3 := e3 x t hx (by rw [d1]; exact hd)
      have := effective_trans e1 e3
      rw [moduleKeys, if_neg hm', firstGiven_cons, List.nil_append, firstGiven_cons,
        firstGiven, Option.or_none]
      exact this
    · intro hs x hx k hk hg
      rw [moduleKeys, if_neg hm'] at hk
      simp only [List.nil_append, List.mem_cons, List.not_mem_nil, or_false] at hk
      rcases hk with rfl | rfl
      · rw [← d1]; exact s3 hs x hx hg
      · exact s1 hs x hx hg
    · intro x hd
      rw [u3 x (by rw [d1]; exact hd), u1 x hd]

theorem load_module {md : Mode} {f : Flat} {pjs pjs' : List Project} {pds pds' : List Product}
    (h : load md f pjs pds = .ok (pjs', pds')) {i : Nat} {p p' : Product}
    (hp : pds[i]? = some p) (hp' : pds'[i]? = some p') {j : Nat} {m m' : Str × Item}
    (hm : p.modules[j]? = some m) (hm' : p'.modules[j]? = some m') :
    m'.1 = m.1 ∧ overrideModule md (provideValuesTree f []) p'.name m.1 m.2 = .ok m'.2 := by
  obtain ⟨q, h1, h2⟩ := load_product h hp hp'
  obtain ⟨_, _, h1⟩ := loadProduct_ok h1
  obtain ⟨h2, hn, _⟩ := loadModules_ok h2
  rw [h1] at h2
  obtain ⟨_, h3⟩ := mapE_ok h2
  obtain ⟨it, h4, h5⟩ := bind_ok (h3 j m m' hm hm')
  injection h5 with h5
  subst h5
  rw [hn]
  exact ⟨rfl, h4⟩

/-- C81: a declared property of a module in a product has the value that was given for
this module in this product; else, for qbs, the one given in the short form; else the one given for
the module; else it is as before. -/
theorem C81_module_value {md : Mode} {f : Flat} (ho : Ordered f) {pjs pjs' : List Project}
    {pds pds' : List Product} (h : load md f pjs pds = .ok (pjs', pds')) (i j : Nat)
    (p p' : Product) (hp : pds[i]? = some p) (hp' : pds'[i]? = some p') (m m' : Str × Item)
    (hm : p.modules[j]? = some m) (hm' : p'.modules[j]? = some m') (x : Str) (t : PType)
    (hx : PropertyName x) (hd : m.2.decl x = some t) :
    m'.1 = m.1 ∧ Effective md (firstGiven f (moduleKeys p'.name m.1 x)) m.2 m'.2 x t := by
  obtain ⟨h1, h2⟩ := load_module h hp hp' hm hm'
  exact ⟨h1, (effective_module ho h2).1 x t hx hd⟩

/-- C81: a product has the name of the project file, unless its name was overridden. -/
theorem C81_product_name {md : Mode} {f : Flat} (ho : Ordered f) {pjs pjs' : List Project}
    {pds pds' : List Product} (h : load md f pjs pds = .ok (pjs', pds')) (i : Nat)
    (p p' : Product) (hp : pds[i]? = some p) (hp' : pds'[i]? = some p')
    (hfile : ∀ c, p.item.cell "name".toList = some c → c.fromCommandLine = false)
    (hg : given f (dotted ("products.".toList ++ p.name) "name".toList) = none) :
    p'.name = p.name := by
  obtain ⟨q, h1, h2⟩ := load_product h hp hp'
  obtain ⟨h1, hn, _⟩ := loadProduct_ok h1
  obtain ⟨_, hn', _⟩ := loadModules_ok h2
  obtain ⟨_, u, _, e⟩ := overrideItem_ok ho h1
  have hcell : q.item.cell "name".toList = p.item.cell "name".toList := by
    cases hd : p.item.decl "name".toList with
    | none => exact u _ hd
    | some t =>
      have := e "name".toList t (by unfold PropertyName; decide) hd
      rw [show productsPrefix = "products.".toList from rfl, hg] at this
      exact this
  rw [hn', hn, nameOf]
  show (match q.item.cell "name".toList with
    | some ⟨.str s, true⟩ => s
    | _ => p.name) = p.name
  rw [hcell]
  split
  · rename_i s hs
    have := hfile _ hs
    cases this
  · rfl

theorem load_project {md : Mode} {f : Flat} {pjs pjs' : List Project} {pds pds' : List Product}
    (h : load md f pjs pds = .ok (pjs', pds')) {i : Nat} {p p' : Project}
    (hp : pjs[i]? = some p) (hp' : pjs'[i]? = some p') :
    ∃ a, overrideItem md (provideValuesTree f []) projectKey p.item = .ok a ∧
      p'.name = nameOf p.name a ∧
      overrideItem md (provideValuesTree f []) (projectsPrefix ++ p'.name) a = .ok p'.item := by
  obtain ⟨_, _, h2, _⟩ := load_ok h
  have := (mapE_ok h2).2 i p p' hp hp'
  obtain ⟨a, h3, h4⟩ := bind_ok this
  obtain ⟨b, h5, h6⟩ := bind_ok h4
  injection h6 with h6
  subst h6
  exact ⟨a, h3, rfl, h5⟩

/-- C81: a declared property of a project has the value that was given for this project, else
the one given for all projects, else it is as before. -/
theorem C81_project_value {md : Mode} {f : Flat} (ho : Ordered f) {pjs pjs' : List Project}
    {pds pds' : List Product} (h : load md f pjs pds = .ok (pjs', pds')) (i : Nat)
    (p p' : Project) (hp : pjs[i]? = some p) (hp' : pjs'[i]? = some p') (x : Str) (t : PType)
    (hx : PropertyName x) (hd : p.item.decl x = some t) :
    Effective md (firstGiven f (projectKeys p'.name x)) p.item p'.item x t := by
  obtain ⟨a, h1, _, h2⟩ := load_project h hp hp'
  obtain ⟨d1, _, _, e1⟩ := overrideItem_ok ho h1
  obtain ⟨_, _, _, e2⟩ := overrideItem_ok ho h2
  have := effective_trans (e1 x t hx hd) (e2 x t hx (by rw [d1]; exact hd))
  rw [projectKeys, firstGiven_cons, firstGiven_cons, firstGiven, Option.or_none]
  exact this

/-- C81: unless property errors are ignored, a value for a property that a product, a
module or a project does not declare is an error. -/
theorem C81_unknown_property {md : Mode} {f : Flat} (ho : Ordered f) {pjs pjs' : List Project}
    {pds pds' : List Product} (h : load md f pjs pds = .ok (pjs', pds')) (hs : md.strict = true)
    (x : Str) (hx : PropertyName x) :
    (∀ (i : Nat) (p p' : Product), pds[i]? = some p → pds'[i]? = some p' →
      (∀ k ∈ productKeys p.name x, given f k ≠ none → p.item.decl x ≠ none) ∧
      (∀ (j : Nat) (m m' : Str × Item), p.modules[j]? = some m → p'.modules[j]? = some m' →
        ∀ k ∈ moduleKeys p'.name m.1 x, given f k ≠ none → m.2.decl x ≠ none)) ∧
    (∀ (i : Nat) (p p' : Project), pjs[i]? = some p → pjs'[i]? = some p' →
      ∀ k ∈ projectKeys p'.name x, given f k ≠ none → p.item.decl x ≠ none) := by
  refine ⟨?_, ?_⟩
  · intro i p p' hp hp'
    refine ⟨?_, ?_⟩
    · intro k hk hg
      obtain ⟨q, h1, h2⟩ := load_product h hp hp'
      obtain ⟨h1, _, _⟩ := loadProduct_ok h1
      rw [productKeys, List.mem_singleton] at hk
      subst hk
      exact (overrideItem_ok ho h1).2.2.1 hs x hx hg
    · intro j m m' hm hm' k hk hg
      obtain ⟨_, h2⟩ := load_module h hp hp' hm hm'
      exact (effective_module ho h2).2.1 hs x hx k hk hg
  · intro i p p' hp hp' k hk hg
    obtain ⟨a, h1, _, h2⟩ := load_project h hp hp'
    obtain ⟨d1, _, s1, _⟩ := overrideItem_ok ho h1
    obtain ⟨_, _, s2, _⟩ := overrideItem_ok ho h2
    simp only [projectKeys, List.mem_cons, List.not_mem_nil, or_false] at hk
    rcases hk with rfl | rfl
    · rw [← d1]; exact s2 hs x hx hg
    · exact s1 hs x hx hg

/-- C81: what an item does not declare is never set. -/
theorem C81_undeclared_untouched {md : Mode} {f : Flat} (ho : Ordered f)
    {pjs pjs' : List Project} {pds pds' : List Product}
    (h : load md f pjs pds = .ok (pjs', pds')) (x : Str) :
    (∀ (i : Nat) (p p' : Product), pds[i]? = some p → pds'[i]? = some p' →
      (p.item.decl x = none → p'.item.cell x = p.item.cell x) ∧
      (∀ (j : Nat) (m m' : Str × Item), p.modules[j]? = some m → p'.modules[j]? = some m' →
        m.2.decl x = none → m'.2.cell x = m.2.cell x)) ∧
    (∀ (i : Nat) (p p' : Project), pjs[i]? = some p → pjs'[i]? = some p' →
      p.item.decl x = none → p'.item.cell x = p.item.cell x) := by
  refine ⟨?_, ?_⟩
  · intro i p p' hp hp'
    refine ⟨?_, ?_⟩
    · intro hd
      obtain ⟨q, h1, h2⟩ := load_product h hp hp'
      obtain ⟨h1, _, _⟩ := loadProduct_ok h1
      obtain ⟨_, _, h2⟩ := loadModules_ok h2
      rw [h2]
      exact (overrideItem_ok ho h1).2.1 x hd
    · intro j m m' hm hm' hd
      obtain ⟨_, h2⟩ := load_module h hp hp' hm hm'
      exact (effective_module ho h2).2.2 x hd
  · intro i p p' hp hp' hd
    obtain ⟨a, h1, _, h2⟩ := load_project h hp hp'
    obtain ⟨d1, u1, _, _⟩ := overrideItem_ok ho h1
    obtain ⟨_, u2, _, _⟩ := overrideItem_ok ho h2
    rw [u2 x (by rw [d1]; exact hd), u1 x hd]

/-! ### Keys and names -/

theorem startsWith_iff {s pre : Str} : startsWith s pre = true ↔ ∃ r, s = pre ++ r := by
  rw [startsWith, List.isPrefixOf_iff_prefix]
  constructor
  · rintro ⟨r, h⟩; exact ⟨r, h.symm⟩
  · rintro ⟨r, h⟩; exact ⟨r, h.symm⟩

theorem matchesPrefix_iff (k : Str) : matchesPrefix k = true ↔ Understood k := by
  simp only [matchesPrefix, List.any_cons, List.any_nil, Bool.or_false, Bool.or_eq_true,
    startsWith_iff, Understood]
  constructor
  · rintro (⟨r, h⟩ | ⟨r, h⟩ | ⟨r, h⟩ | ⟨r, h⟩ | ⟨r, h⟩ | ⟨r, h⟩) <;> exact ⟨r, by simp [h]⟩
  · rintro ⟨r, h | h | h | h | h | h⟩
    · exact .inl ⟨r, h⟩
    · exact .inr (.inl ⟨r, h⟩)
    · exact .inr (.inr (.inl ⟨r, h⟩))
    · exact .inr (.inr (.inr (.inl ⟨r, h⟩)))
    · exact .inr (.inr (.inr (.inr (.inl ⟨r, h⟩))))
    · exact .inr (.inr (.inr (.inr (.inr ⟨r, h⟩))))

theorem checkOverriddenValues_ok {md : Mode} (hs : md.strict = true) : ∀ {f : Flat},
    checkOverriddenValues md f = .ok () → ∀ e ∈ f, matchesPrefix e.1 = true := by
  intro f
  induction f with
  | nil => simp
  | cons e f ih =>
    obtain ⟨k, v⟩ := e
    intro h
    rw [checkOverriddenValues] at h
    by_cases hk : matchesPrefix k = true
    · rw [if_pos hk] at h
      intro e he
      rcases List.mem_cons.1 he with rfl | he
      · exact hk
      · exact ih h e he
    · simp [hk, hs] at h

/-- C81: unless property errors are ignored, a key that has none of the documented forms is
an error. -/
theorem C81_key_understood {md : Mode} {f : Flat} {pjs pjs' : List Project}
    {pds pds' : List Product} (h : load md f pjs pds = .ok (pjs', pds')) (hs : md.strict = true)
    (k : Str) (v : Val) (hk : (k, v) ∈ f) : Understood k := by
  obtain ⟨_, h1, _⟩ := load_ok h
  exact (matchesPrefix_iff k).1 (checkOverriddenValues_ok hs h1 (k, v) hk)

theorem beforeFirstDot_append (n r : Str) (hn : '.' ∉ n) : beforeFirstDot (n ++ '.' :: r) = n := by
  induction n with
  | nil => simp [beforeFirstDot]
  | cons c n ih =>
    simp only [List.mem_cons, not_or] at hn
    rw [List.cons_append, beforeFirstDot, if_neg (Ne.symm hn.1), ih hn.2]

theorem beforeFirstDot_of_not_mem (n : Str) (hn : '.' ∉ n) : beforeFirstDot n = n := by
  induction n with
  | nil => rfl
  | cons c n ih =>
    simp only [List.mem_cons, not_or] at hn
    rw [beforeFirstDot, if_neg (Ne.symm hn.1), ih hn.2]

theorem extract_dotted (pre n p : Str) (hp : PropertyName p) :
    extract (pre ++ dotted n p) pre = n := by
  have hl : Path.lastIndexOf '.' (pre ++ dotted n p) = some (pre ++ n).length := by
    rw [dotted, ← List.append_assoc]
    exact Path.lastIndexOf_append (pre ++ n) p hp
  rw [extract, if_pos (startsWith_iff.2 ⟨_, rfl⟩), hl]
  simp only [List.length_append]
  rw [if_neg (by omega), List.drop_left, dotted, Nat.add_sub_cancel_left, List.take_left]

theorem productWith_some {products : List Product} {n : Str} {c : Product → Bool} {p : Product}
    (h : productWithNameAndConstraint products n c = some p) : p ∈ products ∧ p.name = n := by
  have := List.mem_of_find?_eq_some h
  rw [List.mem_filter, decide_eq_true_eq] at this
  exact this

theorem checkProductNames_ok {md : Mode} (hs : md.strict = true) {products : List Product} :
    ∀ {f : Flat}, checkProductNames md products f = .ok () → ∀ e ∈ f, ∀ n,
      productNameInOverride e.1 = some n → ∃ p ∈ products, p.name = n := by
  intro f
  induction f with
  | nil => simp
  | cons e f ih =>
    obtain ⟨k, v⟩ := e
    intro h
    rw [checkProductNames] at h
    have hrest : checkProductNames md products f = .ok () := by
      cases hk : productNameInOverride k with
      | none => simpa [hk] using h
      | some n =>
        simp only [hk] at h
        split at h
        · exact h
        · simp [hs] at h
    intro e he n hn
    rcases List.mem_cons.1 he with rfl | he
    · simp only at hn
      rw [hn] at h
      simp only at h
      split at h
      · rename_i p hp
        exact ⟨p, productWith_some hp⟩
      · simp [hs] at h
    · exact ih hrest e he n hn

theorem checkProjectNames_ok {md : Mode} (hs : md.strict = true) {projects : List Project} :
    ∀ {f : Flat}, checkProjectNames md projects f = .ok () → ∀ e ∈ f, ∀ n,
      projectNameInOverride e.1 = some n → ∃ p ∈ projects, p.name = n := by
  intro f
  induction f with
  | nil => simp
  | cons e f ih =>
    obtain ⟨k, v⟩ := e
    intro h
    rw [checkProjectNames] at h
    have hrest : checkProjectNames md projects f = .ok () := by
      cases hk : projectNameInOverride k with
      | none => simpa [hk] using h
      | some n =>
        simp only [hk] at h
        split at h
        · exact h
        · simp [hs] at h
    intro e he n hn
    rcases List.mem_cons.1 he with rfl | he
    · simp only at hn
      rw [hn] at h
      simp only at h
      split at h
      · rename_i hp
        simpa using hp
      · simp [hs] at h
    · exact ih hrest e he n hn

theorem names_kept {md : Mode} {t : Tree} {mid pds : List Product}
    (h : mapE (loadModules md t) mid = .ok pds) {p : Product} (hp : p ∈ mid) :
    ∃ p' ∈ pds, p'.name = p.name := by
  obtain ⟨hl, hm⟩ := mapE_ok h
  obtain ⟨i, hi⟩ := List.mem_iff_getElem?.1 hp
  obtain ⟨p', hp'⟩ := getElem?_of_length hl hi
  exact ⟨p', List.mem_of_getElem? hp', (loadModules_ok (hm i p p' hi hp')).2.1⟩

/-- C81: unless property errors are ignored, a value for a project or a product that does not
exist is an error. For products, the name that counts is everything up to the first dot. -/
theorem C81_unknown_names {md : Mode} {f : Flat} {pjs pjs' : List Project}
    {pds pds' : List Product} (h : load md f pjs pds = .ok (pjs', pds')) (hs : md.strict = true)
    (n p : Str) (v : Val) (hn : n ≠ []) (hp : PropertyName p) :
    (("projects.".toList ++ dotted n p, v) ∈ f → ∃ q ∈ pjs', q.name = n) ∧
    (∀ a r, n = a ++ r → '.' ∉ a → a ≠ [] → (r = [] ∨ r.head? = some '.') →
      ("products.".toList ++ dotted n p, v) ∈ f → ∃ q ∈ pds', q.name = a) := by
  obtain ⟨mid, _, _, _, h4, h5, h6⟩ := load_ok h
  refine ⟨?_, ?_⟩
  · intro hk
    apply checkProjectNames_ok hs h4 _ hk
    have : extract ("projects.".toList ++ dotted n p) projectsPrefix = n := extract_dotted _ n p hp
    simp only [projectNameInOverride, this, if_neg hn]
  · intro a r hr ha hane hrr hk
    have hx : extract ("products.".toList ++ dotted n p) productsPrefix = n := extract_dotted _ n p hp
    have hy : extract ("products.".toList ++ dotted n p) projectsPrefix = [] := by
      have : startsWith ("products.".toList ++ dotted n p) projectsPrefix = false := rfl
      rw [extract, this]
      rfl
    have hfd : beforeFirstDot n = a := by
      rcases hrr with rfl | hr'
      · rw [List.append_nil] at hr
        rw [hr]
        exact beforeFirstDot_of_not_mem a ha
      · cases r with
        | nil => cases hr'
        | cons c r =>
          simp only [List.head?_cons, Option.some.injEq] at hr'
          subst hr'
          rw [hr]
          exact beforeFirstDot_append a r ha
    have := checkProductNames_ok hs h5 _ hk a (by
      simp only [productNameInOverride, projectNameInOverride, hy, if_true, ne_eq,
        not_true_eq_false, if_false, hx, if_neg hn, hfd])
    obtain ⟨q, hq, hqn⟩ := this
    obtain ⟨q', hq', hqn'⟩ := names_kept h6 hq
    exact ⟨q', hq', by rw [hqn', hqn]⟩

/-! ### Nothing is rejected for another reason -/

theorem mem_toMap_fillTree {f : Flat} : ∀ (t : Tree) (g : Flat), (∀ e ∈ g, e ∈ f) →
    (∀ k, ∀ e ∈ toMap (get k t), (dotted k e.1, e.2) ∈ f) →
    ∀ k, ∀ e ∈ toMap (get k (fillTree t g)), (dotted k e.1, e.2) ∈ f := by
  intro t g
  induction g generalizing t with
  | nil => intro _ h; exact h
  | cons e g ih =>
    obtain ⟨k', v⟩ := e
    intro hg h
    apply ih
    · exact fun e he => hg e (by simp [he])
    · intro k
      have hkv := hg (k', v) (by simp)
      rcases splitName_spec k' with ⟨hs, _⟩ | ⟨a, q, hq, hk', hs⟩
      · rw [hs]
        simp only [setConfigProperty]
        by_cases hk : k' = k
        · subst hk; rw [get_put_self]; simp [toMap]
        · rw [get_put_ne _ _ hk]; exact h k
      · rw [hs]
        simp only [setConfigProperty]
        by_cases hk : a = k
        · subst hk
          rw [get_put_self]
          intro e he
          simp only [toMap] at he
          have hput : ∀ {m : Flat}, e ∈ put q v m → e = (q, v) ∨ e ∈ m := by
            intro m
            induction m with
            | nil => intro h; simpa [put] using h
            | cons x m ihm =>
              obtain ⟨k'', v''⟩ := x
              rw [put]
              by_cases hx : k'' = q
              · rw [if_pos hx]
                intro h
                rcases List.mem_cons.1 h with h | h
                · exact .inl h
                · exact .inr (by simp [h])
              · rw [if_neg hx]
                intro h
                rcases List.mem_cons.1 h with h | h
                · exact .inr (by simp [h])
                · rcases ihm h with h | h
                  · exact .inl h
                  · exact .inr (by simp [h])
          rcases hput he with rfl | he
          · simp only; rw [← hk']; exact hkv
          · exact h a e he
        · rw [get_put_ne _ _ hk]; exact h k

/-- What is in the tree was given. -/
theorem mem_tree {f : Flat} {k : Str} {e : Str × Val}
    (h : e ∈ toMap (get k (provideValuesTree f []))) : (dotted k e.1, e.2) ∈ f := by
  rw [provide_nil] at h
  exact mem_toMap_fillTree [] f (fun _ h => h) (by intro k e he; simp [get, toMap] at he) k e h

theorem overrideMap_error {md : Mode} : ∀ {m : Flat} {it : Item} {e : Err},
    overrideMap md m it = .error e →
    (∃ p v, (p, v) ∈ m ∧ e = .unknownProperty p ∧ it.decl p = none) ∨
    (∃ p v t, (p, v) ∈ m ∧ e = .badType p ∧ it.decl p = some t ∧ convert md.qt t v = none) := by
  intro m
  induction m with
  | nil => intro it e h; cases h
  | cons x m ih =>
    obtain ⟨q, v⟩ := x
    intro it e h
    rw [overrideMap_cons] at h
    have lift : ∀ {it' : Item}, it'.decl = it.decl →
        ((∃ p v, (p, v) ∈ m ∧ e = .unknownProperty p ∧ it'.decl p = none) ∨
        (∃ p v t, (p, v) ∈ m ∧ e = .badType p ∧ it'.decl p = some t ∧
          convert md.qt t v = none)) →
        ((∃ p w, (p, w) ∈ (q, v) :: m ∧ e = .unknownProperty p ∧ it.decl p = none) ∨
        (∃ p w t, (p, w) ∈ (q, v) :: m ∧ e = .badType p ∧ it.decl p = some t ∧
          convert md.qt t w = none)) := by
      intro it' hd h
      rw [hd] at h
      rcases h with ⟨p, w, h1, h2⟩ | ⟨p, w, t, h1, h2⟩
      · exact .inl ⟨p, w, by simp [h1], h2⟩
      · exact .inr ⟨p, w, t, by simp [h1], h2⟩
    cases hq : it.decl q with
    | none =>
      rw [hq] at h
      by_cases hs : md.strict = true
      · simp only [hs, if_true] at h
        injection h with h
        exact .inl ⟨q, v, by simp, h.symm, hq⟩
      · simp only [hs] at h
        exact lift rfl (ih h)
    | some t =>
      rw [hq] at h
      cases hc : convert md.qt t v with
      | none =>
        simp only [hc] at h
        injection h with h
        exact .inr ⟨q, v, t, by simp, h.symm, hq, hc⟩
      | some c =>
        simp only [hc] at h
        exact lift (it' := it.setFromCommandLine q c) rfl (ih h)

theorem overrideItem_error {md : Mode} {f : Flat} {k : Str} {it it₀ : Item} {e : Err}
    {pjs : List Project} {pds : List Product} (hi : IsItem pjs pds it₀) (hd : it.decl = it₀.decl)
    (h : overrideItem md (provideValuesTree f []) k it = .error e) : Reason md f pjs pds e := by
  rw [overrideItem_eq] at h
  rcases overrideMap_error h with ⟨p, v, h1, rfl, h2⟩ | ⟨p, v, t, h1, rfl, h2, h3⟩
  · exact .property k p v it₀ (mem_tree h1) hi (by rw [← hd]; exact h2)
  · exact .type k p v it₀ t (mem_tree h1) hi (by rw [← hd]; exact h2) h3

theorem bind_error {α β : Type} {x : Except Err α} {f : α → Except Err β} {e : Err}
    (h : x.bind f = .error e) : x = .error e ∨ ∃ a, x = .ok a ∧ f a = .error e := by
  cases x with
  | error e' => exact .inl (by injection h with h; rw [h])
  | ok a => exact .inr ⟨a, rfl, h⟩

theorem mapE_error {α β : Type} {f : α → Except Err β} {e : Err} : ∀ {l : List α},
    mapE f l = .error e → ∃ a ∈ l, f a = .error e := by
  intro l
  induction l with
  | nil => intro h; cases h
  | cons a l ih =>
    intro h
    rw [mapE] at h
    cases hf : f a with
    | error e' =>
      simp only [hf] at h
      injection h with h
      exact ⟨a, by simp, by rw [hf, h]⟩
    | ok b =>
      simp only [hf] at h
      cases hm : mapE f l with
      | error e' =>
        simp only [hm] at h
        injection h with h
        obtain ⟨a', h1, h2⟩ := ih (by rw [hm, h])
        exact ⟨a', by simp [h1], h2⟩
      | ok bs => simp [hm] at h

theorem overrideItem_decl {md : Mode} {f : Flat} {k : Str} {it it' : Item}
    (h : overrideItem md (provideValuesTree f []) k it = .ok it') : it'.decl = it.decl := by
  rw [overrideItem_eq] at h
  exact (overrideMap_ok (tree_distinct f k) h).1

theorem checkOverriddenValues_error {md : Mode} : ∀ {f : Flat} {e : Err},
    checkOverriddenValues md f = .error e →
    md.strict = true ∧ ∃ k v, (k, v) ∈ f ∧ e = .keyNotUnderstood k ∧ matchesPrefix k = false := by
  intro f
  induction f with
  | nil => intro e h; cases h
  | cons x f ih =>
    obtain ⟨k, v⟩ := x
    intro e h
    rw [checkOverriddenValues] at h
    by_cases hk : matchesPrefix k = true
    · rw [if_pos hk] at h
      obtain ⟨hs, k', v', h1, h2⟩ := ih h
      exact ⟨hs, k', v', by simp [h1], h2⟩
    · rw [if_neg hk] at h
      by_cases hs : md.strict = true
      · rw [if_pos hs] at h
        injection h with h
        exact ⟨hs, k, v, by simp, h.symm, by simpa using hk⟩
      · rw [if_neg hs] at h
        obtain ⟨hs, k', v', h1, h2⟩ := ih h
        exact ⟨hs, k', v', by simp [h1], h2⟩

theorem extract_prefix (s pre : Str) (h : extract s pre ≠ []) :
    ∃ r, s = pre ++ extract s pre ++ r := by
  by_cases hs : startsWith s pre = true
  · obtain ⟨r, hr⟩ := startsWith_iff.1 hs
    rw [extract, if_pos hs] at h ⊢
    cases hl : Path.lastIndexOf '.' s with
    | none => simp [hl] at h
    | some i =>
      simp only [hl] at h ⊢
      by_cases hi : i < pre.length
      · rw [if_pos hi]
        refine ⟨[], ?_⟩
        rw [hr, List.drop_left, List.append_nil]
      · rw [if_neg hi, hr, List.drop_left]
        exact ⟨r.drop (i - pre.length), by rw [List.append_assoc, List.take_append_drop]⟩
  · simp [extract, hs] at h

theorem beforeFirstDot_prefix (n : Str) : ∃ r, n = beforeFirstDot n ++ r := by
  induction n with
  | nil => exact ⟨[], rfl⟩
  | cons c n ih =>
    by_cases h : c = '.'
    · exact ⟨c :: n, by rw [beforeFirstDot, if_pos h]; rfl⟩
    · obtain ⟨r, hr⟩ := ih
      exact ⟨r, by rw [beforeFirstDot, if_neg h, List.cons_append, ← hr]⟩

theorem checkProjectNames_error {md : Mode} {projects : List Project} : ∀ {f : Flat} {e : Err},
    checkProjectNames md projects f = .error e →
    md.strict = true ∧ ∃ k v n, (k, v) ∈ f ∧ e = .unknownProject n ∧
      projectNameInOverride k = some n ∧ ∀ p ∈ projects, p.name ≠ n := by
  intro f
  induction f with
  | nil => intro e h; cases h
  | cons x f ih =>
    obtain ⟨k, v⟩ := x
    intro e h
    have lift : checkProjectNames md projects f = .error e →
        md.strict = true ∧ ∃ k' v' n, (k', v') ∈ (k, v) :: f ∧ e = .unknownProject n ∧
          projectNameInOverride k' = some n ∧ ∀ p ∈ projects, p.name ≠ n := by
      intro h
      obtain ⟨hs, k', v', n, h1, h2⟩ := ih h
      exact ⟨hs, k', v', n, by simp [h1], h2⟩
    rw [checkProjectNames] at h
    cases hk : projectNameInOverride k with
    | none => simp only [hk] at h; exact lift h
    | some n =>
      simp only [hk] at h
      by_cases hany : projects.any (fun p => decide (p.name = n)) = true
      · rw [if_pos hany] at h; exact lift h
      · rw [if_neg hany] at h
        by_cases hs : md.strict = true
        · rw [if_pos hs] at h
          injection h with h
          refine ⟨hs, k, v, n, by simp, h.symm, hk, ?_⟩
          intro p hp hn
          exact hany (List.any_eq_true.2 ⟨p, hp, by simpa using hn⟩)
        · rw [if_neg hs] at h; exact lift h

theorem checkProductNames_error {md : Mode} {products : List Product} : ∀ {f : Flat} {e : Err},
    checkProductNames md products f = .error e →
    md.strict = true ∧ ∃ k v n, (k, v) ∈ f ∧ e = .unknownProduct n ∧
      productNameInOverride k = some n ∧ ∀ p ∈ products, p.name ≠ n := by
  intro f
  induction f with
  | nil => intro e h; cases h
  | cons x f ih =>
    obtain ⟨k, v⟩ := x
    intro e h
    have lift : checkProductNames md products f = .error e →
        md.strict = true ∧ ∃ k' v' n, (k', v') ∈ (k, v) :: f ∧ e = .unknownProduct n ∧
          productNameInOverride k' = some n ∧ ∀ p ∈ products, p.name ≠ n := by
      intro h
      obtain ⟨hs, k', v', n, h1, h2⟩ := ih h
      exact ⟨hs, k', v', n, by simp [h1], h2⟩
    rw [checkProductNames] at h
    cases hk : productNameInOverride k with
    | none => simp only [hk] at h; exact lift h
    | some n =>
      simp only [hk] at h
      cases hf : productWithNameAndConstraint products n
          (fun p => decide (p.name = n) || startsWith p.name (n ++ dot)) with
      | some p => simp only [hf] at h; exact lift h
      | none =>
        simp only [hf] at h
        by_cases hs : md.strict = true
        · rw [if_pos hs] at h
          injection h with h
          refine ⟨hs, k, v, n, by simp, h.symm, hk, ?_⟩
          intro p hp hn
          have := List.find?_eq_none.1 hf p (List.mem_filter.2 ⟨hp, by simpa using hn⟩)
          simp [hn] at this
        · rw [if_neg hs] at h; exact lift h

theorem productName_prefix {k n : Str} (h : productNameInOverride k = some n) :
    ∃ r, k = "products.".toList ++ n ++ r := by
  unfold productNameInOverride at h
  by_cases hpj : projectNameInOverride k ≠ none
  · rw [if_pos hpj] at h; cases h
  · rw [if_neg hpj] at h
    by_cases hne : extract k productsPrefix = []
    · simp [hne] at h
    · simp only [if_neg hne] at h
      injection h with h
      subst h
      obtain ⟨r, hr⟩ := extract_prefix k productsPrefix hne
      obtain ⟨r', hr'⟩ := beforeFirstDot_prefix (extract k productsPrefix)
      refine ⟨r' ++ r, ?_⟩
      rw [List.append_assoc, ← List.append_assoc _ r' r, ← hr', ← List.append_assoc]
      exact hr

theorem projectName_prefix {k n : Str} (h : projectNameInOverride k = some n) :
    ∃ r, k = "projects.".toList ++ n ++ r := by
  unfold projectNameInOverride at h
  by_cases hne : extract k projectsPrefix = []
  · simp [hne] at h
  · simp only [if_neg hne] at h
    injection h with h
    subst h
    exact extract_prefix k projectsPrefix hne

/-- C81: a project is only rejected because of the command line if there is something to
report: a key of unknown form, a property that is not declared, a value of the wrong
type, or a name that no project or product has. -/
theorem C81_error_reason {md : Mode} {f : Flat} {pjs : List Project} {pds : List Product}
    {e : Err} (h : load md f pjs pds = .error e) : Reason md f pjs pds e := by
  rcases bind_error h with h | ⟨_, _, h⟩
  · obtain ⟨_, k, v, h1, rfl, h2⟩ := checkOverriddenValues_error h
    exact .key k v h1 (fun hu => by rw [(matchesPrefix_iff k).2 hu] at h2; cases h2)
  rcases bind_error h with h | ⟨pjs', hpj, h⟩
  · obtain ⟨p, hp, h⟩ := mapE_error h
    rcases bind_error h with h | ⟨a, ha, h⟩
    · exact overrideItem_error (.project p hp) rfl h
    rcases bind_error h with h | ⟨b, _, h⟩
    · exact overrideItem_error (.project p hp) (overrideItem_decl ha) h
    · cases h
  rcases bind_error h with h | ⟨mid, hmid, h⟩
  · obtain ⟨p, hp, h⟩ := mapE_error h
    rcases bind_error h with h | ⟨a, ha, h⟩
    · exact overrideItem_error (.product p hp) rfl h
    · cases h
  rcases bind_error h with h | ⟨_, _, h⟩
  · obtain ⟨_, k, v, n, h1, rfl, h2, _⟩ := checkProjectNames_error h
    obtain ⟨r, rfl⟩ := projectName_prefix h2
    exact .project n r v h1
  rcases bind_error h with h | ⟨_, _, h⟩
  · obtain ⟨_, k, v, n, h1, rfl, h2, _⟩ := checkProductNames_error h
    obtain ⟨r, rfl⟩ := productName_prefix h2
    exact .product n r v h1
  rcases bind_error h with h | ⟨_, _, h⟩
  · obtain ⟨q, hq, h⟩ := mapE_error h
    obtain ⟨hl, hm⟩ := mapE_ok hmid
    obtain ⟨i, hi⟩ := List.mem_iff_getElem?.1 hq
    obtain ⟨p, hp⟩ := getElem?_of_length hl.symm hi
    obtain ⟨_, _, hmods⟩ := loadProduct_ok (hm i p q hp hi)
    have hp' := List.mem_of_getElem? hp
    rcases bind_error h with h | ⟨ms, _, h⟩
    · obtain ⟨m, hmem, h⟩ := mapE_error h
      rw [hmods] at hmem
      have hitem := IsItem.module (pjs := pjs) p m hp' hmem
      rcases bind_error h with h | ⟨_, _, h⟩
      · rcases bind_error h with h | ⟨a, ha, h⟩
        · exact overrideItem_error hitem rfl h
        rcases bind_error h with h | ⟨b, hb, h⟩
        · by_cases hq : m.1 = qbsName
          · rw [overrideQbs, if_pos hq] at h
            exact overrideItem_error hitem (overrideItem_decl ha) h
          · rw [overrideQbs, if_neg hq] at h
            cases h
        · refine overrideItem_error hitem ?_ h
          by_cases hq : m.1 = qbsName
          · rw [overrideQbs, if_pos hq] at hb
            rw [overrideItem_decl hb, overrideItem_decl ha]
          · rw [overrideQbs, if_neg hq] at hb
            injection hb with hb
            rw [← hb, overrideItem_decl ha]
      · cases h
    · cases h
  · cases h

/-- C81: if property errors are to be ignored, only a value of the wrong type can keep a project
from being loaded. -/
theorem C81_relaxed {md : Mode} {f : Flat} {pjs : List Project} {pds : List Product} {e : Err}
    (hs : md.strict = false) (h : load md f pjs pds = .error e) : ∃ p, e = .badType p := by
  have relaxed : ∀ {m : Flat} {it : Item} {e : Err}, overrideMap md m it = .error e →
      ∃ p, e = .badType p := by
    intro m
    induction m with
    | nil => intro it e h; cases h
    | cons x m ih =>
      obtain ⟨q, v⟩ := x
      intro it e h
      rw [overrideMap_cons] at h
      cases hq : it.decl q with
      | none => simp only [hq, hs] at h; exact ih h
      | some t =>
        rw [hq] at h
        cases hc : convert md.qt t v with
        | none => simp only [hc] at h; injection h with h; exact ⟨q, h.symm⟩
        | some c => simp only [hc] at h; exact ih h
  have relaxed' : ∀ {t : Tree} {k : Str} {it : Item} {e : Err},
      overrideItem md t k it = .error e → ∃ p, e = .badType p := by
    intro t k it e h
    rw [overrideItem_eq] at h
    exact relaxed h
  rcases bind_error h with h | ⟨_, _, h⟩
  · have := (checkOverriddenValues_error h).1
    rw [hs] at this; cases this
  rcases bind_error h with h | ⟨pjs', hpj, h⟩
  · obtain ⟨p, hp, h⟩ := mapE_error h
    rcases bind_error h with h | ⟨a, ha, h⟩
    · exact relaxed' h
    rcases bind_error h with h | ⟨b, _, h⟩
    · exact relaxed' h
    · cases h
  rcases bind_error h with h | ⟨mid, hmid, h⟩
  · obtain ⟨p, hp, h⟩ := mapE_error h
    rcases bind_error h with h | ⟨a, ha, h⟩
    · exact relaxed' h
    · cases h
  rcases bind_error h with h | ⟨_, _, h⟩
  · have := (checkProjectNames_error h).1
    rw [hs] at this; cases this
  rcases bind_error h with h | ⟨_, _, h⟩
  · have := (checkProductNames_error h).1
    rw [hs] at this; cases this
  rcases bind_error h with h | ⟨_, _, h⟩
  · obtain ⟨q, hq, h⟩ := mapE_error h
    rcases bind_error h with h | ⟨ms, _, h⟩
    · obtain ⟨m, hmem, h⟩ := mapE_error h
      rcases bind_error h with h | ⟨_, _, h⟩
      · rcases bind_error h with h | ⟨a, ha, h⟩
        · exact relaxed' h
        rcases bind_error h with h | ⟨b, hb, h⟩
        · by_cases hq : m.1 = qbsName
          · rw [overrideQbs, if_pos hq] at h; exact relaxed' h
          · rw [overrideQbs, if_neg hq] at h; cases h
        · exact relaxed' h
      · cases h
    · cases h
  · cases h

/-- The words of a text between commas. -/
theorem splitCommas_spec (s : Str) : splitCommas s ≠ [] ∧ (∀ w ∈ splitCommas s, ',' ∉ w) ∧
    List.intercalate [','] (splitCommas s) = s := by
  induction s with
  | nil => simp [splitCommas, List.intercalate]
  | cons c s ih =>
    obtain ⟨h1, h2, h3⟩ := ih
    rw [splitCommas]
    by_cases hc : c = ','
    · rw [if_pos hc]
      refine ⟨by simp, ?_, ?_⟩
      · intro w hw
        rcases List.mem_cons.1 hw with rfl | hw
        · simp
        · exact h2 w hw
      · cases hs : splitCommas s with
        | nil => exact absurd hs h1
        | cons w ws =>
          rw [hs] at h3
          rw [hc, ← h3]
          simp [List.intercalate]
    · rw [if_neg hc]
      cases hs : splitCommas s with
      | nil => exact absurd hs h1
      | cons w ws =>
        rw [hs] at h2 h3
        refine ⟨by simp, ?_, ?_⟩
        · intro x hx
          rcases List.mem_cons.1 hx with rfl | hx
          · simp only [List.mem_cons, not_or]
            exact ⟨fun h => hc h.symm, h2 w (by simp)⟩
          · exact h2 x (by simp [hx])
        · simp only
          rw [← h3]
          cases ws <;> simp [List.intercalate]

/-- C81: a text given for a list of strings becomes the list of what is between its
commas. -/
theorem C81_string_list (qt : PType → Val → Option Val) (s : Str) : ∃ ws,
    convert qt .stringList (.str s) = some (.list ws) ∧ ws ≠ [] ∧ (∀ w ∈ ws, ',' ∉ w) ∧
      List.intercalate [','] ws = s :=
  ⟨splitCommas s, by simp [convert], splitCommas_spec s⟩

/-- C81: "undefined" is a value for a property of any type, and a property that can have any value
gets the value as it was given. -/
theorem C81_kept (qt : PType → Val → Option Val) (t : PType) (v : Val)
    (h : v = .null ∨ t = .variant) : convert qt t v = some v := by
  unfold convert
  rcases h with h | h
  · rw [if_pos h]
  · by_cases hv : v = .null
    · rw [if_pos hv]
    · rw [if_neg hv, if_pos (.inl h)]

example : convert (fun _ _ => none) .stringList .null = some .null ∧
    convert (fun _ _ => none) .variant (.other 3) = some (.other 3) := by decide

end Verif.Override
