import Verif.Eval.Sim
/-!
# Lemmas about evaluating properties
-/
namespace Verif.Eval

variable {on : Bool}

theorem mem_of_lookup {α β : Type} [BEq α] [LawfulBEq α] {l : List (α × β)} {k : α} {v : β} (h : l.lookup k = some v) :
    (k, v) ∈ l := by
  induction l with
  | nil => simp at h
  | cons a l ih =>
    obtain ⟨a1, a2⟩ := a
    rw [List.lookup_cons] at h
    cases hk : k == a1 with
    | true =>
      rw [hk] at h
      simp only [Option.some.injEq] at h
      have := eq_of_beq hk
      subst this; subst h
      exact List.mem_cons_self ..
    | false =>
      rw [hk] at h
      exact List.mem_cons_of_mem _ (ih h)

theorem lookup_of_mem {α β : Type} [BEq α] [LawfulBEq α] {l : List (α × β)} {k : α} {v : β} (h : (k, v) ∈ l) :
    ∃ v', l.lookup k = some v' := by
  induction l with
  | nil => simp at h
  | cons a l ih =>
    obtain ⟨a1, a2⟩ := a
    rw [List.lookup_cons]
    cases hk : k == a1 with
    | true => exact ⟨a2, rfl⟩
    | false =>
      rcases List.mem_cons.mp h with h | h
      · simp only [Prod.mk.injEq] at h
        obtain ⟨rfl, rfl⟩ := h
        simp at hk
      · exact ih h

theorem lookup_prefix {α β : Type} [BEq α] [LawfulBEq α] {l m : List (α × β)} {k : α} {v : β} (h : l <+: m)
    (hl : l.lookup k = some v) : m.lookup k = some v := by
  obtain ⟨x, rfl⟩ := h
  rw [List.lookup_append, hl]
  rfl

/-! ## Tables -/

/-- Equal states without errors -/
def eqRel : Rel Unit Unit where
  R s t := s = t
  Fin s := s.err = false
  fin_err _ h := h
  r_err _ _ h := by rw [h]
  r_excl _ _ h := by rw [h]

def Sub (t u : Table) : Prop := ∀ k r, t.lookup k = some r → u.lookup k = some r

theorem sim_known {w : World} {t u : Table} (h : Sub t u) : SimReader eqRel (known w t) (known w u) := by
  intro i n
  unfold known
  refine Sim.ite (fun _ => Sim.pure _ _) (fun _ => ?_)
  cases w.find i n with
  | none => exact Sim.pure _ _
  | some x =>
    dsimp only
    cases ht : t.lookup (i, n) with
    | some r =>
      rw [h _ _ ht]
      exact Sim.pure _ _
    | none =>
      constructor
      · intro s hs
        exact absurd hs (by simp [eqRel, setErr, Bind.bind, M.bind, Pure.pure, M.pure])
      · intro s _ _ hs
        exact absurd hs (by simp [eqRel, setErr, Bind.bind, M.bind, Pure.pure, M.pure])

theorem find_plain {w : World} (hw : w.Plain) {i : Item} {n : Name} {obj owner : Item} {v : Value}
    (h : w.find i n = some (obj, owner, v)) : v.Plain (w.swallow owner) := by
  unfold World.find at h
  dsimp only at h
  split at h
  · rename_i o v' hf
    obtain ⟨a, _, ha⟩ := List.exists_of_findSome?_eq_some hf
    cases hv : w.value a n with
    | none => rw [hv] at ha; simp at ha
    | some x =>
      rw [hv] at ha
      simp only [Option.map_some, Option.some.injEq, Prod.mk.injEq] at ha h
      rw [← h.2.2, ← h.2.1, ← ha.2, ← ha.1]
      exact hw _ _ _ hv
  · split at h
    · simp at h
    · rename_i p _
      cases hf : (w.protos p).findSome? (fun o => (w.value o n).map (fun v => (o, v))) with
      | none => rw [hf] at h; simp at h
      | some y =>
        rw [hf] at h
        obtain ⟨a, _, ha⟩ := List.exists_of_findSome?_eq_some hf
        cases hv : w.value a n with
        | none => rw [hv] at ha; simp at ha
        | some x =>
          rw [hv] at ha
          simp only [Option.map_some, Option.some.injEq, Prod.mk.injEq] at ha h
          rw [← h.2.2, ← h.2.1, ← ha]
          exact hw _ _ _ hv

theorem Follows.mono {w : World} (hw : w.Plain) {t u : Table} (h : Sub t u) {i : Item} {n : Name} {r : Res}
    (hf : Follows w t i n r) : Follows w u i n r := by
  obtain ⟨hn, obj, owner, v, hv, h1, h2⟩ := hf
  have hs := sim_evalTop (sim_known (w := w) h) w ⟨obj, i, owner, n, w.ty owner n⟩ v (find_plain hw hv)
  have := hs.2 (fresh ()) (fresh ()) rfl h2
  refine ⟨hn, obj, owner, v, hv, by rw [this.1, h1], ?_⟩
  rw [← (this.2 : _ = _), h2]

theorem Follows.unique {w : World} {t : Table} {i : Item} {n : Name} {r1 r2 : Res}
    (h1 : Follows w t i n r1) (h2 : Follows w t i n r2) : r1 = r2 := by
  obtain ⟨_, obj, owner, v, hv, h, _⟩ := h1
  obtain ⟨_, obj', owner', v', hv', h', _⟩ := h2
  rw [hv] at hv'
  simp only [Option.some.injEq, Prod.mk.injEq] at hv'
  obtain ⟨rfl, rfl, rfl⟩ := hv'
  rw [← h, ← h']

def Agree (t u : Table) : Prop := ∀ k r1 r2, (k, r1) ∈ t → (k, r2) ∈ u → r1 = r2

theorem Agree.symm {t u : Table} (h : Agree t u) : Agree u t := fun k r1 r2 h1 h2 => (h k r2 r1 h2 h1).symm

theorem sub_append_left (t u : Table) : Sub t (t ++ u) := by
  intro k r h
  rw [List.lookup_append, h]
  rfl

theorem sub_append_right {t u : Table} (h : Agree t u) : Sub u (t ++ u) := by
  intro k r hr
  rw [List.lookup_append]
  cases ht : t.lookup k with
  | none => exact hr
  | some r' =>
    rw [h k r' r (mem_of_lookup ht) (mem_of_lookup hr)]
    rfl

theorem established_agree_aux {w : World} (hw : w.Plain) : ∀ N t u, t.length + u.length ≤ N → Established w t →
    Established w u → Agree t u := by
  intro N
  induction N with
  | zero =>
    intro t u hN _ _ k r1 r2 h1 _
    have : t = [] := List.length_eq_zero_iff.mp (by omega)
    rw [this] at h1
    simp at h1
  | succ N ih =>
    intro t u hN ht hu k r1 r2 h1 h2
    cases ht with
    | nil => simp at h1
    | @snoc t' i n r ht' hf =>
      cases hu with
      | nil => simp at h2
      | @snoc u' i' n' r' hu' hf' =>
        simp only [List.length_append, List.length_cons, List.length_nil] at hN
        rcases List.mem_append.mp h1 with h1 | h1
        · exact ih t' _ (by simp; omega) ht' (.snoc hu' hf') k r1 r2 h1 h2
        · rcases List.mem_append.mp h2 with h2 | h2
          · exact ih _ u' (by simp; omega) (.snoc ht' hf) hu' k r1 r2 (List.mem_append_right _ h1) h2
          · simp only [List.mem_singleton, Prod.mk.injEq] at h1 h2
            obtain ⟨rfl, rfl⟩ := h1
            obtain ⟨h3, rfl⟩ := h2
            simp only [Prod.mk.injEq] at h3
            obtain ⟨rfl, rfl⟩ := h3
            have hag := ih t' u' (by omega) ht' hu'
            exact (hf.mono hw (sub_append_left t' u')).unique (hf'.mono hw (sub_append_right hag))

theorem established_agree {w : World} (hw : w.Plain) {t u : Table} (ht : Established w t) (hu : Established w u) : Agree t u :=
  established_agree_aux hw _ t u (Nat.le_refl _) ht hu

theorem Established.lookup {w : World} (hw : w.Plain) {t : Table} (ht : Established w t) {k : Item × Name} {r : Res}
    (h : (k, r) ∈ t) : t.lookup k = some r := by
  obtain ⟨r', hr'⟩ := lookup_of_mem h
  rw [hr', established_agree hw ht ht k r' r (mem_of_lookup hr') h]

/-! ## The evaluator -/

abbrev env (w : World) (i : Item) (n : Name) (obj owner : Item) : Env := ⟨obj, i, owner, n, w.ty owner n⟩

theorem getProperty_parent (w : World) (on : Bool) (bot : Reader Cache) (k : Nat) (stack : List (Item × Name)) (i : Item) {n : Name}
    (hn : n = "parent") (s : St Cache) : getProperty w on bot (k + 1) stack i n s =
      (.val (some (.atom (match w.parent i with | some p => .item p | none => .undef))), s) := by
  simp only [getProperty]
  rw [if_pos hn]
  rfl

theorem getProperty_missing (w : World) (on : Bool) (bot : Reader Cache) (k : Nat) (stack : List (Item × Name)) (i : Item) {n : Name}
    (hn : n ≠ "parent") (hf : w.find i n = none) (s : St Cache) : getProperty w on bot (k + 1) stack i n s = (.missing, s) := by
  simp only [getProperty]
  rw [if_neg hn, hf]
  rfl

theorem getProperty_cycle (w : World) (on : Bool) (bot : Reader Cache) (k : Nat) (stack : List (Item × Name)) (i : Item) {n : Name}
    (hn : n ≠ "parent") {obj owner : Item} {v : Value} (hf : w.find i n = some (obj, owner, v))
    (hs : stack.contains (owner, n) = true) (s : St Cache) :
    getProperty w on bot (k + 1) stack i n s = (.exc, { s with err := true }) := by
  simp only [getProperty]
  rw [if_neg hn, hf]
  dsimp only
  rw [if_pos hs]
  rfl

theorem getProperty_hit (w : World) (on : Bool) (bot : Reader Cache) (k : Nat) (stack : List (Item × Name)) (i : Item) {n : Name}
    (hn : n ≠ "parent") {obj owner : Item} {v : Value} (hf : w.find i n = some (obj, owner, v))
    (hs : stack.contains (owner, n) = false) (s : St Cache) {r : Res}
    (hc : (if on then s.more.lookup (i, n) else none) = some r) :
    getProperty w on bot (k + 1) stack i n s = (.val r, s) := by
  simp only [getProperty]
  rw [if_neg hn, hf]
  dsimp only
  rw [if_neg (by rw [hs]; simp)]
  show (match (if on then s.more.lookup (i, n) else none) with
    | some r => (pure (.val r) : M Cache Found)
    | none => _) s = _
  rw [hc]
  rfl

theorem getProperty_miss (w : World) (on : Bool) (bot : Reader Cache) (k : Nat) (stack : List (Item × Name)) (i : Item) {n : Name}
    (hn : n ≠ "parent") {obj owner : Item} {v : Value} (hf : w.find i n = some (obj, owner, v))
    (hs : stack.contains (owner, n) = false) (s : St Cache)
    (hc : (if on then s.more.lookup (i, n) else none) = none) :
    getProperty w on bot (k + 1) stack i n s =
      (.val (evalTop w (getProperty w on bot k ((owner, n) :: stack)) (env w i n obj owner) v s).1,
       { (evalTop w (getProperty w on bot k ((owner, n) :: stack)) (env w i n obj owner) v s).2 with
         more := ((i, n), (evalTop w (getProperty w on bot k ((owner, n) :: stack)) (env w i n obj owner) v s).1) ::
           (evalTop w (getProperty w on bot k ((owner, n) :: stack)) (env w i n obj owner) v s).2.more }) := by
  simp only [getProperty]
  rw [if_neg hn, hf]
  dsimp only
  rw [if_neg (by rw [hs]; simp)]
  show (match (if on then s.more.lookup (i, n) else none) with
    | some r => (pure (.val r) : M Cache Found)
    | none => _) s = _
  rw [hc]
  rfl

theorem known_find (w : World) (t : Table) (i : Item) {n : Name} (hn : n ≠ "parent") {x : Item × Item × Value}
    (hf : w.find i n = some x) {r : Res} (ht : t.lookup (i, n) = some r) (s : St Unit) :
    known w t i n s = (.val r, s) := by
  unfold known
  rw [if_neg hn, hf]
  dsimp only
  rw [ht]
  rfl

theorem known_none (w : World) (t : Table) (i : Item) {n : Name} (hn : n ≠ "parent") {x : Item × Item × Value}
    (hf : w.find i n = some x) (ht : t.lookup (i, n) = none) (s : St Unit) :
    known w t i n s = (.exc, { s with err := true }) := by
  unfold known
  rw [if_neg hn, hf]
  dsimp only
  rw [ht]
  rfl

theorem known_parent (w : World) (t : Table) (i : Item) {n : Name} (hn : n = "parent") (s : St Unit) :
    known w t i n s = (.val (some (.atom (match w.parent i with | some p => .item p | none => .undef))), s) := by
  unfold known
  rw [if_pos hn]
  rfl

theorem known_missing (w : World) (t : Table) (i : Item) {n : Name} (hn : n ≠ "parent") (hf : w.find i n = none)
    (s : St Unit) : known w t i n s = (.missing, s) := by
  unfold known
  rw [if_neg hn, hf]
  rfl

/-- Nesting too deep -/
def failing : Reader Cache := fun _ _ s => (.exc, { s with err := true })

/-- States of the evaluator whose cache is established and part of the table in the end -/
def cacheRel (w : World) (T : Table) : Rel Cache Unit where
  R s t := s.err = t.err ∧ s.excl = [] ∧ t.excl = [] ∧ Established w s.more.reverse
  Fin s := s.err = false ∧ s.more.reverse <+: T
  fin_err _ h := h.1
  r_err _ _ h := h.1
  r_excl _ _ h := by rw [h.2.1, h.2.2.1]

theorem sim_getProperty {w : World} (hw : w.Plain) : ∀ k stack T,
    SimReader (cacheRel w T) (getProperty w on failing k stack) (known w T) := by
  intro k
  induction k with
  | zero =>
    intro stack T i n
    constructor
    · intro s h
      exact absurd h.1 (by simp [getProperty, failing])
    · intro s t _ h
      exact absurd h.1 (by simp [getProperty, failing])
  | succ k ih =>
    intro stack T i n
    by_cases hn : n = "parent"
    · constructor
      · intro s h
        rwa [getProperty_parent _ _ _ _ _ _ hn] at h
      · intro s t hr h
        rw [getProperty_parent _ _ _ _ _ _ hn, known_parent _ _ _ hn]
        exact ⟨rfl, hr⟩
    · cases hf : w.find i n with
      | none =>
        constructor
        · intro s h
          rwa [getProperty_missing _ _ _ _ _ _ hn hf] at h
        · intro s t hr h
          rw [getProperty_missing _ _ _ _ _ _ hn hf, known_missing _ _ _ hn hf]
          exact ⟨rfl, hr⟩
      | some x =>
        obtain ⟨obj, owner, v⟩ := x
        cases hs : stack.contains (owner, n) with
        | true =>
          constructor
          · intro s h
            rw [getProperty_cycle _ _ _ _ _ _ hn hf hs] at h
            exact absurd h.1 (by simp)
          · intro s t hr h
            rw [getProperty_cycle _ _ _ _ _ _ hn hf hs] at h
            exact absurd h.1 (by simp)
        | false =>
          have hE := fun T => sim_evalTop (ih ((owner, n) :: stack) T) w (env w i n obj owner) v (find_plain hw hf)
          constructor
          · intro s h
            cases hc : (if on then s.more.lookup (i, n) else none) with
            | some r => rwa [getProperty_hit _ _ _ _ _ _ hn hf hs _ hc] at h
            | none =>
              rw [getProperty_miss _ _ _ _ _ _ hn hf hs _ hc] at h
              refine (hE T).1 s ⟨h.1, ?_⟩
              have h2 := h.2
              simp only [List.reverse_cons] at h2
              exact (List.prefix_append _ _).trans h2
          · intro s t hr h
            cases hc : (if on then s.more.lookup (i, n) else none) with
            | some r =>
              rw [getProperty_hit _ _ _ _ _ _ hn hf hs _ hc] at h ⊢
              have hl : s.more.lookup (i, n) = some r := by
                cases hca : on with
                | true => rw [hca] at hc; simpa using hc
                | false => rw [hca] at hc; simp at hc
              have hm : ((i, n), r) ∈ s.more.reverse := List.mem_reverse.mpr (mem_of_lookup hl)
              rw [known_find _ _ _ hn hf (lookup_prefix h.2 (hr.2.2.2.lookup hw hm))]
              exact ⟨rfl, hr⟩
            | none =>
              rw [getProperty_miss _ _ _ _ _ _ hn hf hs _ hc] at h ⊢
              generalize hx : evalTop w (getProperty w on failing k ((owner, n) :: stack)) (env w i n obj owner) v s = x at h ⊢
              obtain ⟨r, s1⟩ := x
              simp only at h ⊢
              have herr : s1.err = false := h.1
              have hpre := h.2
              simp only [List.reverse_cons] at hpre
              have hp1 : s1.more.reverse <+: T := (List.prefix_append _ _).trans hpre
              have h0 : s.err = false := ((hE T).1 s (by rw [hx]; exact ⟨herr, hp1⟩)).1
              have hR := (hE T).2 s t hr (by rw [hx]; exact ⟨herr, hp1⟩)
              rw [hx] at hR
              have hR2 := (hE s1.more.reverse).2 s (fresh ()) ⟨by rw [h0]; rfl, hr.2.1, rfl, hr.2.2.2⟩
                (by rw [hx]; exact ⟨herr, List.prefix_rfl⟩)
              rw [hx] at hR2
              have hest : Established w (s1.more.reverse ++ [((i, n), r)]) := by
                refine .snoc hR.2.2.2.2 ⟨hn, obj, owner, v, hf, hR2.1, ?_⟩
                rw [← hR2.2.1, herr]
              have hl := hest.lookup hw (k := (i, n)) (r := r) (by simp)
              rw [known_find _ _ _ hn hf (lookup_prefix hpre hl)]
              refine ⟨rfl, ?_, hR.2.2.1, hr.2.2.1, ?_⟩
              · show s1.err = t.err
                rw [herr, ← hr.1, h0]
              · simp only [List.reverse_cons]
                exact hest

end Verif.Eval
