import Verif.Override.Spec
import Verif.Common.Snoc
/-
Lemmas about flat maps, trees and the overriding of values.
-/

namespace Verif.Override

open Spec

theorem get_eq_given (f : Flat) (k : Str) : get k f = given f k := by
  induction f with
  | nil => rfl
  | cons e f ih =>
    obtain ⟨k', v⟩ := e
    by_cases h : k' = k
    · simp [get, given, h]
    · have : given ((k', v) :: f) k = given f k := by simp [given, h]
      rw [this, ← ih, get, if_neg h]

theorem get_eq_find {α : Type} (t : List (Str × α)) (k : Str) :
    get k t = (t.find? (fun e => decide (e.1 = k))).map (·.2) := by
  induction t with
  | nil => rfl
  | cons e f ih =>
    obtain ⟨k', v⟩ := e
    by_cases h : k' = k
    · simp [get, h]
    · rw [get, if_neg h, ih, List.find?_cons_of_neg (by simpa using h)]

theorem treeValue_eq (t : Tree) (pre p : Str) : Tree.value t pre p = get p (toMap (get pre t)) := by
  rw [Tree.value, get_eq_find t]
  cases t.find? (fun e => decide (e.1 = pre)) with
  | none => rfl
  | some e =>
    obtain ⟨k, n⟩ := e
    cases n with
    | leaf v => rfl
    | map m => simp only [Option.map_some, toMap, get_eq_given]

theorem get_put_self {α : Type} (k : Str) (v : α) (l : List (Str × α)) : get k (put k v l) = some v := by
  induction l with
  | nil => simp [put, get]
  | cons e l ih =>
    obtain ⟨k', v'⟩ := e
    by_cases h : k' = k
    · simp [put, get, h]
    · simp [put, get, h, ih]

theorem get_put_ne {α : Type} {k k' : Str} (v : α) (l : List (Str × α)) (h : k' ≠ k) :
    get k (put k' v l) = get k l := by
  induction l with
  | nil => simp [put, get, h]
  | cons e l ih =>
    obtain ⟨k'', v''⟩ := e
    by_cases h' : k'' = k'
    · subst h'; simp [put, get, h]
    · simp [put, get, h', ih]

theorem get_none {α : Type} {k : Str} {l : List (Str × α)} : get k l = none ↔ ∀ e ∈ l, e.1 ≠ k := by
  induction l with
  | nil => simp [get]
  | cons e l ih =>
    obtain ⟨k', v⟩ := e
    by_cases h : k' = k
    · simp [get, h]
    · simp [get, h, ih]

theorem get_append {α : Type} (k : Str) (l l' : List (Str × α)) :
    get k (l ++ l') = (get k l).or (get k l') := by
  induction l with
  | nil => simp [get]
  | cons e l ih =>
    obtain ⟨k', v⟩ := e
    by_cases h : k' = k
    · simp [get, h]
    · simp [get, h, ih]

theorem splitName_dotted {pre p : Str} (h : PropertyName p) :
    splitName (dotted pre p) = (some pre, p) := by
  rw [splitName, dotted, Path.lastIndexOf_append pre p h]
  simp only [List.take_left, Prod.mk.injEq, true_and]
  rw [List.drop_append]
  simp

theorem splitName_spec (k : Str) :
    (splitName k = (none, k) ∧ '.' ∉ k) ∨
      ∃ pre p, PropertyName p ∧ k = dotted pre p ∧ splitName k = (some pre, p) := by
  rcases h : Path.lastIndexOf '.' k with _ | i
  · left
    exact ⟨by rw [splitName, h], Path.lastIndexOf_none.1 h⟩
  · right
    obtain ⟨h1, h2⟩ := Path.lastIndexOf_some h
    exact ⟨k.take i, k.drop (i + 1), h2, h1, by rw [splitName, h]⟩

theorem dotted_inj {a p b q : Str} (hp : PropertyName p) (hq : PropertyName q)
    (h : dotted a p = dotted b q) : a = b ∧ p = q := by
  have h1 := splitName_dotted (pre := a) hp
  rw [h, splitName_dotted hq] at h1
  exact ⟨(Option.some.inj (Prod.mk.inj h1).1).symm, (Prod.mk.inj h1).2.symm⟩

theorem fillTree_append (t : Tree) (a b : Flat) :
    fillTree t (a ++ b) = fillTree (fillTree t a) b := by
  induction a generalizing t with
  | nil => rfl
  | cons e a ih => obtain ⟨k, v⟩ := e; exact ih _

theorem provide_nil (f : Flat) : provideValuesTree f [] = fillTree [] f := by
  rw [provideValuesTree]
  by_cases h : f = []
  · simp [h, fillTree]
  · simp [h]

theorem str_lt_append (a : Str) (c : Char) (b : Str) : a < a ++ c :: b := by
  induction a with
  | nil => exact List.Lex.nil
  | cons x a ih => exact List.Lex.cons ih

theorem str_lt_irrefl (a : Str) : ¬ a < a := List.lt_irrefl a

theorem str_lt_trans {a b c : Str} (h : a < b) (h' : b < c) : a < c := List.lt_trans h h'

/-- A tree has for every dotted name what the flat map has. -/
theorem fillTree_value : ∀ (f : Flat), Ordered f → ∀ (pre p : Str), PropertyName p →
    get p (toMap (get pre (fillTree [] f))) = get (dotted pre p) f := by
  intro f
  induction f using Verif.snoc_induction with
  | nil => intro _ pre p _; rfl
  | append_singleton f e ih =>
    intro ho pre p hp
    obtain ⟨k, v⟩ := e
    have ho' := List.pairwise_append.1 ho
    have hlt : ∀ x ∈ f, x.1 < k := fun x hx => ho'.2.2 x hx (k, v) (by simp)
    rw [fillTree_append, get_append]
    have ih := ih ho'.1
    simp only [fillTree]
    rcases splitName_spec k with ⟨hs, hk⟩ | ⟨a, q, hq, hk, hs⟩
    · rw [hs]
      simp only [setConfigProperty]
      have hne : k ≠ dotted pre p := by
        rintro rfl
        exact hk (by simp [dotted])
      have h2 : get (dotted pre p) [(k, v)] = none := by simp [get, hne]
      rw [h2, Option.or_none]
      by_cases hkp : k = pre
      · subst hkp
        rw [get_put_self]
        simp only [toMap, get]
        symm
        rw [get_none]
        intro x hx he
        have h1 := hlt x hx
        rw [he] at h1
        exact str_lt_irrefl _ (str_lt_trans h1 (str_lt_append k '.' p))
      · rw [get_put_ne _ _ hkp]
        exact ih pre p hp
    · rw [hs]
      simp only [setConfigProperty]
      by_cases hap : a = pre
      · subst hap
        rw [get_put_self]
        simp only [toMap]
        by_cases hqp : q = p
        · subst hqp
          rw [get_put_self]
          have h1 : get (dotted a q) f = none := by
            rw [get_none]
            intro x hx he
            have h1 := hlt x hx
            rw [he, hk] at h1
            exact str_lt_irrefl _ h1
          rw [h1, hk]
          simp [get]
        · rw [get_put_ne _ _ hqp]
          have hne : k ≠ dotted a p := by
            rw [hk]
            intro h
            exact hqp (dotted_inj hq hp h).2
          have h2 : get (dotted a p) [(k, v)] = none := by simp [get, hne]
          rw [h2, Option.or_none]
          exact ih a p hp
      · rw [get_put_ne _ _ hap]
        have hne : k ≠ dotted pre p := by
          rw [hk]
          intro h
          exact hap (dotted_inj hq hp h).1
        have h2 : get (dotted pre p) [(k, v)] = none := by simp [get, hne]
        rw [h2, Option.or_none]
        exact ih pre p hp

/-- The keys of a map in a tree are distinct. -/
def Distinct {α : Type} (m : List (Str × α)) : Prop := m.Pairwise (fun a b => a.1 ≠ b.1)

theorem put_mem {α : Type} {k : Str} {v : α} {m : List (Str × α)} {e : Str × α}
    (h : e ∈ put k v m) : e.1 = k ∨ e ∈ m := by
  induction m with
  | nil => simp [put] at h; simp [h]
  | cons x m ih =>
    obtain ⟨k', v'⟩ := x
    rw [put] at h
    by_cases hk : k' = k
    · rw [if_pos hk] at h
      rcases List.mem_cons.1 h with rfl | h
      · exact .inl rfl
      · exact .inr (by simp [h])
    · rw [if_neg hk] at h
      rcases List.mem_cons.1 h with rfl | h
      · exact .inr (by simp)
      · rcases ih h with h | h
        · exact .inl h
        · exact .inr (by simp [h])

theorem put_distinct {α : Type} {k : Str} {v : α} {m : List (Str × α)} (h : Distinct m) :
    Distinct (put k v m) := by
  induction m with
  | nil => simp [put, Distinct]
  | cons x m ih =>
    obtain ⟨k', v'⟩ := x
    unfold Distinct at h ih ⊢
    rw [List.pairwise_cons] at h
    rw [put]
    by_cases hk : k' = k
    · rw [if_pos hk, List.pairwise_cons]
      subst hk
      exact ⟨h.1, h.2⟩
    · rw [if_neg hk, List.pairwise_cons]
      refine ⟨?_, ih h.2⟩
      intro e he
      rcases put_mem he with h' | h'
      · rw [h']; exact hk
      · exact h.1 e h'

theorem fillTree_distinct : ∀ (f : Flat) (t : Tree), (∀ k, Distinct (toMap (get k t))) →
    ∀ k, Distinct (toMap (get k (fillTree t f))) := by
  intro f
  induction f with
  | nil => intro t h; exact h
  | cons e f ih =>
    obtain ⟨k', v⟩ := e
    intro t h
    apply ih
    intro k
    rcases splitName k' with ⟨o, n⟩
    cases o with
    | none =>
      simp only [setConfigProperty]
      by_cases hk : n = k
      · subst hk; rw [get_put_self]; simp [toMap, Distinct]
      · rw [get_put_ne _ _ hk]; exact h k
    | some a =>
      simp only [setConfigProperty]
      by_cases hk : a = k
      · subst hk; rw [get_put_self]; exact put_distinct (h a)
      · rw [get_put_ne _ _ hk]; exact h k

theorem tree_distinct (f : Flat) (k : Str) : Distinct (toMap (get k (provideValuesTree f []))) := by
  rw [provide_nil]
  exact fillTree_distinct f [] (by intro k; simp [get, toMap, Distinct]) k

/-- The names in the maps of a tree have no dots. -/
theorem fillTree_names : ∀ (f : Flat) (t : Tree),
    (∀ k, ∀ e ∈ toMap (get k t), PropertyName e.1) →
    ∀ k, ∀ e ∈ toMap (get k (fillTree t f)), PropertyName e.1 := by
  intro f
  induction f with
  | nil => intro t h; exact h
  | cons e f ih =>
    obtain ⟨k', v⟩ := e
    intro t h
    apply ih
    intro k
    rcases splitName_spec k' with ⟨hs, _⟩ | ⟨a, q, hq, _, hs⟩
    · rw [hs]
      simp only [setConfigProperty]
      by_cases hk : k' = k
      · subst hk; rw [get_put_self]; simp [toMap]
      · rw [get_put_ne _ _ hk]; exact h k
    · rw [hs]
      simp only [setConfigProperty]
      by_cases hk : a = k
      · subst hk
        rw [get_put_self]
        intro e he
        rcases put_mem he with h' | h'
        · rw [h']; exact hq
        · exact h a e h'
      · rw [get_put_ne _ _ hk]; exact h k

theorem overrideMap_cons (md : Mode) (p : Str) (v : Val) (m : Flat) (it : Item) :
    overrideMap md ((p, v) :: m) it =
    match it.decl p with
    | none => if md.strict then .error (.unknownProperty p) else overrideMap md m it
    | some t =>
      match convert md.qt t v with
      | none => .error (.badType p)
      | some c => overrideMap md m (it.setFromCommandLine p c) := rfl

/-- What overriding with one map does. -/
theorem overrideMap_ok {md : Mode} : ∀ {m : Flat} {it it' : Item}, Distinct m →
    overrideMap md m it = .ok it' →
    it'.decl = it.decl ∧
      (∀ p, it.decl p = none → it'.cell p = it.cell p) ∧
      (md.strict = true → ∀ e ∈ m, it.decl e.1 ≠ none) ∧
      (∀ p t, it.decl p = some t → Effective md (get p m) it it' p t) := by
  intro m
  induction m with
  | nil =>
    intro it it' _ h
    injection h with h
    subst h
    exact ⟨rfl, fun _ _ => rfl, by simp, fun p t _ => by simp [Effective, get]⟩
  | cons e m ih =>
    obtain ⟨q, v⟩ := e
    intro it it' hd h
    unfold Distinct at hd
    rw [List.pairwise_cons] at hd
    rw [overrideMap_cons] at h
    cases hq : it.decl q with
    | none =>
      rw [hq] at h
      by_cases hs : md.strict = true
      · simp [hs] at h
      · simp only [hs] at h
        obtain ⟨h1, h2, h3, h4⟩ := ih hd.2 h
        refine ⟨h1, h2, fun hs' => absurd hs' hs, ?_⟩
        intro p t hp
        have hqp : q ≠ p := by rintro rfl; rw [hq] at hp; cases hp
        rw [get, if_neg hqp]
        exact h4 p t hp
    | some t =>
      rw [hq] at h
      cases hc : convert md.qt t v with
      | none => simp [hc] at h
      | some c =>
        simp only [hc] at h
        obtain ⟨h1, h2, h3, h4⟩ := ih hd.2 h
        refine ⟨h1, ?_, ?_, ?_⟩
        · intro p hp
          rw [h2 p hp]
          have hqp : p ≠ q := by rintro rfl; rw [hq] at hp; cases hp
          simp [Item.setFromCommandLine, hqp]
        · intro hs e he
          rcases List.mem_cons.1 he with rfl | he
          · rw [hq]; simp
          · exact h3 hs e he
        · intro p t' hp
          by_cases hqp : q = p
          · subst hqp
            rw [hq] at hp
            injection hp with hp
            subst hp
            have hnone : get q m = none := get_none.2 (fun e he h => hd.1 e he h.symm)
            have h5 := h4 q t hq
            rw [hnone] at h5
            rw [get, if_pos rfl]
            refine ⟨c, hc, ?_⟩
            rw [show it'.cell q = _ from h5]
            simp [Item.setFromCommandLine]
          · rw [get, if_neg hqp]
            have h5 := h4 p t' hp
            revert h5
            cases get p m with
            | none =>
              intro h5
              have h5 : it'.cell p = _ := h5
              show it'.cell p = it.cell p
              rw [h5]
              simp [Item.setFromCommandLine, Ne.symm hqp]
            | some w => exact fun h5 => h5

theorem overrideItem_eq (md : Mode) (t : Tree) (k : Str) (it : Item) :
    overrideItem md t k it = overrideMap md (toMap (get k t)) it := by
  rw [overrideItem]
  cases get k t with
  | none => rfl
  | some n => cases n <;> rfl

/-- What overriding with one key does, in terms of the values that were given. -/
theorem overrideItem_ok {md : Mode} {f : Flat} (ho : Ordered f) {k : Str} {it it' : Item}
    (h : overrideItem md (provideValuesTree f []) k it = .ok it') :
    it'.decl = it.decl ∧
      (∀ p, it.decl p = none → it'.cell p = it.cell p) ∧
      (md.strict = true → ∀ p, PropertyName p → given f (dotted k p) ≠ none → it.decl p ≠ none) ∧
      (∀ p t, PropertyName p → it.decl p = some t →
        Effective md (given f (dotted k p)) it it' p t) := by
  rw [overrideItem_eq] at h
  obtain ⟨h1, h2, h3, h4⟩ := overrideMap_ok (tree_distinct f k) h
  refine ⟨h1, h2, ?_, ?_⟩
  · intro hs p hp hg
    rw [← get_eq_given, ← fillTree_value f ho k p hp, ← provide_nil] at hg
    cases hd : it.decl p with
    | some t => simp
    | none =>
      exfalso
      apply hg
      rw [get_none]
      intro e he hep
      exact h3 hs e he (by rw [hep]; exact hd)
  · intro p t hp ht
    have := h4 p t ht
    rw [provide_nil, fillTree_value f ho k p hp, get_eq_given] at this
    exact this

theorem mapE_ok {α β : Type} {f : α → Except Err β} : ∀ {l : List α} {l' : List β},
    mapE f l = .ok l' → l.length = l'.length ∧
      ∀ (i : Nat) a b, l[i]? = some a → l'[i]? = some b → f a = .ok b := by
  intro l
  induction l with
  | nil =>
    intro l' h
    injection h with h
    subst h
    exact ⟨rfl, by simp⟩
  | cons a l ih =>
    intro l' h
    rw [mapE] at h
    cases hf : f a with
    | error e => simp [hf] at h
    | ok b =>
      simp only [hf] at h
      cases hm : mapE f l with
      | error e => simp [hm] at h
      | ok bs =>
        simp only [hm] at h
        injection h with h
        subst h
        obtain ⟨h1, h2⟩ := ih hm
        refine ⟨by simp [h1], ?_⟩
        intro i a' b' ha hb
        cases i with
        | zero => simp at ha hb; subst ha; subst hb; exact hf
        | succ i => exact h2 i a' b' (by simpa using ha) (by simpa using hb)

theorem bind_ok {α β : Type} {x : Except Err α} {f : α → Except Err β} {b : β}
    (h : x.bind f = .ok b) : ∃ a, x = .ok a ∧ f a = .ok b := by
  cases x with
  | error e => cases h
  | ok a => exact ⟨a, rfl, h⟩

/-- The steps of a successful load. -/
theorem load_ok {md : Mode} {f : Flat} {pjs : List Project} {pds : List Product}
    {pjs' : List Project} {pds' : List Product} (h : load md f pjs pds = .ok (pjs', pds')) :
    ∃ mid, checkOverriddenValues md f = .ok () ∧
      mapE (loadProject md (provideValuesTree f [])) pjs = .ok pjs' ∧
      mapE (loadProduct md (provideValuesTree f [])) pds = .ok mid ∧
      checkProjectNames md pjs' f = .ok () ∧ checkProductNames md mid f = .ok () ∧
      mapE (loadModules md (provideValuesTree f [])) mid = .ok pds' := by
  obtain ⟨_, h1, h⟩ := bind_ok h
  obtain ⟨a, h2, h⟩ := bind_ok h
  obtain ⟨b, h3, h⟩ := bind_ok h
  obtain ⟨_, h4, h⟩ := bind_ok h
  obtain ⟨_, h5, h⟩ := bind_ok h
  obtain ⟨c, h6, h⟩ := bind_ok h
  injection h with h
  obtain ⟨rfl, rfl⟩ := Prod.mk.inj h
  exact ⟨b, h1, h2, h3, h4, h5, h6⟩

end Verif.Override
