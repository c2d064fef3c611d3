import Verif.Eval.BlockProps
/-!
# Values have the types of their properties (C62)
-/
namespace Verif.Eval

/-! ## Specification -/

/-- A value of a certain type, or undefined -/
inductive HasType : Ty → Js → Prop
  | undef (t : Ty) : HasType t undef
  | bool (b : Bool) : HasType .bool (.atom (.bool b))
  | int (n : Int) : HasType .int (.atom (.num n))
  | string (s : String) : HasType .string (.atom (.str s))
  | path (s : String) : HasType .path (.atom (.str s))
  | strings (l : List String) : HasType .strings (.arr (l.map .str))
  | paths (l : List String) : HasType .paths (.arr (l.map .str))
  | vars (l : List Atom) : HasType .vars (.arr l)
  | var (j : Js) : HasType .var j
  | unknown (j : Js) : HasType .unknown j

/-- Values that count as false, other than undefined -/
def falsy : List Js := [.atom .null, .atom (.bool false), .atom (.num 0), .atom (.str "")]

/-- What becomes of a value when it is assigned to a property: paths are resolved, single values become lists. -/
inductive Becomes (resolve : String → String) : Ty → Js → Js → Prop
  | undef (t : Ty) : Becomes resolve t undef undef
  | yes {j : Js} (hu : j ≠ Eval.undef) (h : j ∉ falsy) : Becomes resolve .bool j (.atom (.bool true))
  | no {j : Js} (h : j ∈ falsy) : Becomes resolve .bool j (.atom (.bool false))
  | int (n : Int) : Becomes resolve .int (.atom (.num n)) (.atom (.num n))
  | string (s : String) : Becomes resolve .string (.atom (.str s)) (.atom (.str s))
  | path (s : String) : Becomes resolve .path (.atom (.str s)) (.atom (.str (resolve s)))
  | oneString (s : String) : Becomes resolve .strings (.atom (.str s)) (.arr [.str s])
  | onePath (s : String) : Becomes resolve .paths (.atom (.str s)) (.arr [.str (resolve s)])
  | oneVar {a : Atom} (h : a ≠ .undef) : Becomes resolve .vars (.atom a) (.arr [a])
  | strings (l : List String) : Becomes resolve .strings (.arr (l.map .str)) (.arr (l.map .str))
  | paths (l : List String) : Becomes resolve .paths (.arr (l.map .str)) (.arr (l.map (fun s => .str (resolve s))))
  | vars (l : List Atom) : Becomes resolve .vars (.arr l) (.arr l)
  | var (j : Js) : Becomes resolve .var j j
  | unknown (j : Js) : Becomes resolve .unknown j j

/-- Evaluating properties one after the other, with and without caching, in a project that may change: its paths may be
    resolved in another directory each time. -/
def evaluateEach (w : World) (bot : Reader Cache) (k : Nat) :
    List ((String → String) × Bool × Item × Name) → List Nat → Cache → List (Option Res) × List Nat × Cache
  | [], x, c => ([], x, c)
  | (f, on, i, n) :: more, x, c =>
    let r := evaluate { w with resolve := f } on bot k i n x c
    let rs := evaluateEach w bot k more r.2.1 r.2.2
    (r.1 :: rs.1, rs.2)

/-! ## What is kept -/

variable {σ : Type} {α β : Type}

def Keeps (I : σ → Prop) (m : M σ α) : Prop := ∀ s, I s.more → I (m s).2.more

theorem Keeps.pure (I : σ → Prop) (a : α) : Keeps I (Pure.pure a) := fun _ h => h

theorem Keeps.bind {I : σ → Prop} {m : M σ α} {f : α → M σ β} (hm : Keeps I m) (hf : ∀ a, Keeps I (f a)) :
    Keeps I (Bind.bind m f) := fun s h => hf _ _ (hm s h)

theorem Keeps.ite {I : σ → Prop} {c : Prop} [Decidable c] {a b : M σ α} (ha : c → Keeps I a) (hb : ¬ c → Keeps I b) :
    Keeps I (if c then a else b) := by
  by_cases h : c
  · rw [if_pos h]; exact ha h
  · rw [if_neg h]; exact hb h

theorem Keeps.setErr (I : σ → Prop) : Keeps I setErr := fun _ h => h
theorem Keeps.clearErr (I : σ → Prop) : Keeps I clearErr := fun _ h => h
theorem Keeps.getErr (I : σ → Prop) : Keeps I getErr := fun _ h => h
theorem Keeps.getExcl (I : σ → Prop) (n : Nat) : Keeps I (getExcl n) := fun _ h => h
theorem Keeps.setExcl (I : σ → Prop) (n : Nat) : Keeps I (setExcl n) := fun _ h => h

def KeepsReader (I : σ → Prop) (rd : Reader σ) : Prop := ∀ i n, Keeps I (rd i n)

def KeepsOpt (I : σ → Prop) : Option (M σ α) → Prop
  | none => True
  | some a => Keeps I a

/-- Takes programs apart into their steps. -/
macro "keep_steps" : tactic => `(tactic| repeat (first
  | assumption
  | exact Keeps.pure _ _
  | exact Keeps.setErr _
  | exact Keeps.clearErr _
  | exact Keeps.getErr _
  | exact Keeps.getExcl _ _
  | exact Keeps.setExcl _ _
  | refine Keeps.ite (fun _ => ?_) (fun _ => ?_)
  | refine Keeps.bind ?_ (fun _ => ?_)
  | (dsimp only)))

section
variable {I : σ → Prop} {rd : Reader σ} (hrd : KeepsReader I rd)
include hrd

theorem keep_lookup (n : Name) (l : List Scope) : Keeps I (lookup rd n l) := by
  induction l with
  | nil => exact Keeps.pure I _
  | cons sc l ih =>
    cases sc with
    | vars v =>
      simp only [lookup]
      cases v.lookup n with
      | none => exact ih
      | some r => exact Keeps.pure I _
    | item i =>
      simp only [lookup]
      refine Keeps.bind (hrd i n) (fun f => ?_)
      cases f with
      | missing => exact ih
      | val r => exact Keeps.pure I _
      | exc => exact Keeps.pure I _

theorem keep_run (scopes : List Scope) (c : Code) : Keeps I (run rd scopes c) := by
  induction c with
  | ret r => exact Keeps.pure I _
  | fail => exact Keeps.bind (Keeps.setErr I) (fun _ => Keeps.pure I _)
  | read n k ih =>
    simp only [run]
    refine Keeps.bind (keep_lookup hrd n scopes) (fun f => ?_)
    cases f with
    | val r => exact ih r
    | missing => exact Keeps.bind (Keeps.setErr I) (fun _ => Keeps.pure I _)
    | exc => exact Keeps.bind (Keeps.setErr I) (fun _ => Keeps.pure I _)
  | member i n k ih =>
    simp only [run]
    refine Keeps.bind (hrd i n) (fun f => ?_)
    cases f with
    | val r => exact ih r
    | missing => exact ih _
    | exc => exact Keeps.bind (Keeps.setErr I) (fun _ => Keeps.pure I _)

theorem keep_extraScope (w : World) (e : Env) (h : Head) {b : M σ Res} (hb : Keeps I b)
    {o : Option (M σ Res)} (ho : KeepsOpt I o) (outerItem : Option Item) (ov : Option Res) :
    Keeps I (extraScope w rd e h b o outerItem ov) := by
  unfold extraScope
  refine Keeps.bind ?_ (fun v1 => Keeps.bind ?_ (fun v2 => ?_))
  · unfold baseVars
    keep_steps
  · unfold outerVars
    refine Keeps.ite (fun _ => ?_) (fun _ => Keeps.pure I _)
    cases outerItem with
    | some o =>
      refine Keeps.bind (hrd o e.name) (fun f => ?_)
      cases f <;> keep_steps
    | none => cases ov <;> keep_steps
  · cases v2 with
    | none => keep_steps
    | some l =>
      refine Keeps.bind ?_ (fun _ => Keeps.pure I _)
      unfold originalVars
      refine Keeps.ite (fun _ => Keeps.ite (fun _ => Keeps.ite (fun _ => ?_) (fun _ => by keep_steps)) (fun _ => by keep_steps))
        (fun _ => by keep_steps)
      cases o
      · keep_steps
      · exact Keeps.bind ho (fun _ => Keeps.pure I _)

theorem keep_evalSource (w : World) (e : Env) (h : Head) {b : M σ Res} (hb : Keeps I b)
    {o : Option (M σ Res)} (ho : KeepsOpt I o) (outerItem : Option Item) :
    Keeps I (evalSource w rd e h b o outerItem) := by
  unfold evalSource
  exact Keeps.bind (keep_extraScope hrd w e h hb ho outerItem none) (fun _ => Keeps.bind (Keeps.getErr I) (fun _ =>
    Keeps.ite (fun _ => Keeps.pure I _) (fun _ => keep_run hrd _ _)))

theorem keep_evalAlt (w : World) (e : Env) (top : Nat) (cond over : Code) (h : Head)
    {b : M σ Res} (hb : Keeps I b) {o : Option (M σ Res)} (ho : KeepsOpt I o)
    (ov : Res) : Keeps I (evalAlt w rd e top cond over h b o ov) := by
  unfold evalAlt
  refine Keeps.bind (keep_extraScope hrd w e h hb ho _ _) (fun x => Keeps.bind (Keeps.getErr I) (fun _ =>
    Keeps.ite (fun _ => Keeps.pure I _) (fun _ => ?_)))
  refine Keeps.bind ?_ (fun c => ?_)
  · unfold condValue
    exact Keeps.ite (fun _ => Keeps.pure I _) (fun _ => keep_run hrd _ _)
  · refine Keeps.bind (Keeps.getErr I) (fun _ => Keeps.ite (fun _ => Keeps.ite (fun _ => by keep_steps) (fun _ => Keeps.pure I _))
      (fun _ => Keeps.ite (fun _ => Keeps.pure I _) (fun _ => ?_)))
    refine Keeps.bind (keep_run hrd _ _) (fun o => Keeps.bind (Keeps.getErr I) (fun _ => Keeps.ite (fun _ => Keeps.pure I _)
      (fun _ => Keeps.bind ?_ (fun _ => keep_run hrd _ _))))
    unfold markExclusive
    keep_steps

end

theorem keep_finishAlts {I : σ → Prop} (e : Env) (bb : Bool) {a : M σ Res} (h : Keeps I a) (l : List Js) :
    Keeps I (finishAlts e bb a l) := by
  unfold finishAlts
  keep_steps

theorem keep_nextOuter {I : σ → Prop} (w : World) (e : Env) (h : Head) {a : M σ Res} (ha : Keeps I a) (ov : Res) :
    Keeps I (nextOuter w e h a ov) := by
  unfold nextOuter
  keep_steps

theorem keep_pickOrig {I : σ → Prop} {o : Orig σ} (ho : ∀ a, o = .given a → KeepsOpt I a) {a : Option (M σ Res)}
    (h : KeepsOpt I a) : KeepsOpt I (pickOrig o a) := by
  cases o with
  | own => exact h
  | given x => exact ho x rfl

theorem keep_conv {I : σ → Prop} (f : Res → Option Res) (r : Res) : Keeps I (conv f r) := by
  unfold conv
  cases f r <;> keep_steps

theorem keep_finish {I : σ → Prop} (w : World) (e : Env) (b : Bool) (r : Res) : Keeps I (finish w e b r) := by
  unfold finish
  exact Keeps.bind (Keeps.getErr I) (fun _ => Keeps.ite (fun _ => Keeps.pure I _) (fun _ => Keeps.ite (fun _ => Keeps.pure I _)
    (fun _ => keep_conv _ _)))

section
variable {I : σ → Prop} {rd : Reader σ} (hrd : KeepsReader I rd) (w : World) (e : Env)
include hrd

mutual
theorem keep_handle (o : Orig σ) (ho : ∀ a, o = .given a → KeepsOpt I a) : (v : Value) → Keeps I (handle w rd e o v)
  | .variant j => by simp only [handle]; exact Keeps.pure I _
  | .item i => by simp only [handle]; exact Keeps.pure I _
  | .source h base alts cands => by
    have hbase := keep_evalBase base
    have horig := keep_pickOrig ho (keep_originalOf cands)
    simp only [handle]
    refine Keeps.bind (keep_handleAlts _ horig h.id _ (keep_evalSource hrd w e h hbase horig none) _ _ alts) (fun x => ?_)
    refine Keeps.bind ?_ (fun r => ?_)
    · cases x with
      | done r => exact Keeps.pure I _
      | list l => exact keep_finishAlts e _ (keep_evalSource hrd w e h hbase horig _) l
    refine Keeps.bind (Keeps.getErr I) (fun _ => Keeps.ite (fun _ => Keeps.pure I _) (fun _ => ?_))
    refine Keeps.bind (Keeps.getExcl I _) (fun ex => Keeps.ite (fun _ => Keeps.pure I _) (fun _ => ?_))
    refine Keeps.ite (fun _ => Keeps.ite (fun _ => Keeps.pure I _) (fun _ => keep_firstCandidate _ horig cands)) (fun _ => ?_)
    · cases cands with
      | nil => exact Keeps.pure I _
      | cons v more =>
        refine Keeps.bind (keep_mergeCandidates _ horig _ _) (fun y => ?_)
        cases y with
        | none => exact Keeps.pure I _
        | some l => cases l <;> exact Keeps.pure I _

theorem keep_evalBase : (b : Base) → Keeps I (evalBase w rd e b)
  | .none => by simp only [evalBase]; exact Keeps.pure I _
  | .some v => by
    simp only [evalBase]
    exact Keeps.bind (keep_handle .own (by simp) v) (fun _ => keep_finish w e _ _)

theorem keep_handleAlts (o : Option (M σ Res)) (ho : KeepsOpt I o) (top : Nat) (a : M σ Res)
    (ha : Keeps I a) (ov : Res) (lst : List Js) : (alts : Alts) → Keeps I (handleAlts w rd e o top a ov lst alts)
  | .nil => by simp only [handleAlts]; exact Keeps.pure I _
  | .cons cond over h base more => by
    have hbase := keep_evalBase base
    have hmore := fun ov lst => keep_handleAlts o ho top a ha ov lst more
    simp only [handleAlts]
    refine Keeps.ite (fun _ => Keeps.pure I _) (fun _ => Keeps.bind (keep_nextOuter w e h ha _) (fun ov' =>
      Keeps.bind (Keeps.getErr I) (fun _ => Keeps.ite (fun _ => Keeps.pure I _) (fun _ => Keeps.bind
        (keep_evalAlt hrd w e top cond over h hbase ho ov') (fun v => Keeps.bind (Keeps.getErr I) (fun _ =>
          Keeps.ite (fun _ => Keeps.pure I _) (fun _ => ?_)))))))
    cases v with
    | none => exact hmore _ _
    | some j => exact Keeps.ite (fun _ => Keeps.pure I _) (fun _ => hmore _ _)

theorem keep_firstCandidate (o : Option (M σ Res)) (ho : KeepsOpt I o) : (vs : Values) → Keeps I (firstCandidate w rd e o vs)
  | .nil => by simp only [firstCandidate]; exact Keeps.pure I _
  | .cons v more => by
    simp only [firstCandidate]
    exact Keeps.bind (keep_handle (.given o) (by intro a h; cases h; exact ho) v) (fun r => Keeps.ite (fun _ => Keeps.pure I _)
      (fun _ => keep_firstCandidate o ho more))

theorem keep_mergeCandidates (o : Option (M σ Res)) (ho : KeepsOpt I o) (lst : List Js) :
    (vs : Values) → Keeps I (mergeCandidates w rd e o lst vs)
  | .nil => by simp only [mergeCandidates]; exact Keeps.pure I _
  | .cons v more => by
    have hmore := fun lst => keep_mergeCandidates o ho lst more
    simp only [mergeCandidates]
    refine Keeps.bind (keep_handle (.given o) (by intro a h; cases h; exact ho) v) (fun r => Keeps.bind (Keeps.getErr I) (fun _ =>
      Keeps.ite (fun _ => Keeps.pure I _) (fun _ => ?_)))
    cases r with
    | none => exact hmore _
    | some j => exact Keeps.ite (fun _ => hmore _) (fun _ => Keeps.bind (keep_conv _ _) (fun _ => hmore _))

theorem keep_originalOf : (vs : Values) → KeepsOpt I (originalOf w rd e vs)
  | .nil => by simp only [originalOf, KeepsOpt]
  | .cons v more => by
    have hmore := keep_originalOf more
    simp only [originalOf]
    cases v.hasScope with
    | true => exact hmore
    | false => exact Keeps.bind (keep_handle .own (by simp) v) (fun _ => keep_finish w e _ _)
end

theorem keep_evalTop (v : Value) : Keeps I (evalTop w rd e v) := by
  unfold evalTop
  exact Keeps.bind (keep_handle hrd w e .own (by simp) v) (fun _ => keep_finish w e _ _)

end

/-! ## Types -/

/-- There is no value, after an error, or it has the type. -/
def ResType (t : Ty) (r : Res) : Prop := ∀ j, r = some j → HasType t j

theorem elems_type (f : String → String) : ∀ (l m : List Atom), elems f l = some m → ∃ s : List String, m = s.map .str
  | [], m, h => by
    simp only [elems, Option.some.injEq] at h
    exact ⟨[], by rw [← h]; rfl⟩
  | a :: l, m, h => by
    cases a with
    | str s =>
      simp only [elems, Option.map_eq_some_iff] at h
      obtain ⟨m', h1, h2⟩ := h
      obtain ⟨t, ht⟩ := elems_type f l m' h1
      exact ⟨f s :: t, by rw [← h2, ht]; rfl⟩
    | _ => simp [elems] at h

theorem convert_type {f : String → String} {t : Ty} {r r' : Res} (h : convert f t r = some r') : ResType t r' := by
  intro j hj
  subst hj
  unfold convert at h
  split at h
  · simp at h
  · rename_i j0
    split at h
    · rename_i hu
      simp only [Option.some.injEq] at h
      rw [← h, hu]
      exact .undef _
    · cases t with
      | unknown => exact .unknown _
      | var => exact .var _
      | bool =>
        simp only [Option.some.injEq] at h
        rw [← h]
        exact .bool _
      | int =>
        simp only at h
        split at h <;> simp only [Option.some.injEq, reduceCtorEq] at h
        rw [← h]
        exact .int _
      | string =>
        simp only at h
        split at h <;> simp only [Option.some.injEq, reduceCtorEq] at h
        rw [← h]
        exact .string _
      | path =>
        simp only at h
        split at h <;> simp only [Option.some.injEq, reduceCtorEq] at h
        rw [← h]
        exact .path _
      | strings =>
        simp only [Option.map_eq_some_iff, Option.some.injEq] at h
        obtain ⟨l, h1, h2⟩ := h
        obtain ⟨s, hs⟩ := elems_type _ _ _ h1
        rw [← h2, hs]
        exact .strings s
      | paths =>
        simp only [Option.map_eq_some_iff, Option.some.injEq] at h
        obtain ⟨l, h1, h2⟩ := h
        obtain ⟨s, hs⟩ := elems_type _ _ _ h1
        rw [← h2, hs]
        exact .paths s
      | vars =>
        simp only [Option.some.injEq] at h
        rw [← h]
        exact .vars _

theorem empty_type {t : Ty} (h : t.scalar = false) : HasType t (.arr []) := by
  cases t <;> simp [Ty.scalar] at h
  · exact .paths []
  · exact .strings []
  · exact .vars []

theorem finish_type (w : World) (e : Env) (b : Bool) (r : Res) (s : St σ) : ResType e.ty (finish w e b r s).1 := by
  unfold finish
  show ResType e.ty ((if (getErr s).1 = true then _ else _ : M σ Res) (getErr s).2).1
  split
  · intro j hj
    have : some undef = some j := hj
    simp only [Option.some.injEq] at this
    rw [← this]
    exact .undef _
  · have key : ∀ r' : Res, ResType e.ty ((if b = true ∧ r' = some undef ∧ e.ty.scalar = false then Pure.pure (some (.arr []))
        else conv (convert w.resolve e.ty) r' : M σ Res) s).1 := by
      intro r'
      split
      · rename_i h
        intro j hj
        have : some (Js.arr []) = some j := hj
        simp only [Option.some.injEq] at this
        rw [← this]
        exact empty_type h.2.2
      · unfold conv
        cases h : convert w.resolve e.ty r' with
        | some r1 => exact convert_type h
        | none =>
          intro j hj
          have : none = some j := hj
          simp at this
    exact key _

theorem evalTop_type (w : World) (rd : Reader σ) (e : Env) (v : Value) (s : St σ) : ResType e.ty (evalTop w rd e v s).1 := by
  unfold evalTop
  exact finish_type w e _ _ _

/-- All values in the cache have the types of their properties. -/
def TypedCache (w : World) (c : Cache) : Prop :=
  ∀ i n r, ((i, n), r) ∈ c → ∀ obj owner v, w.find i n = some (obj, owner, v) → ResType (w.ty owner n) r

/-- What is found has the type of the property. -/
def TypedReader (w : World) (rd : Reader Cache) : Prop :=
  ∀ i n s r, TypedCache w s.more → (rd i n s).1 = .val r → n ≠ "parent" → ∀ obj owner v, w.find i n = some (obj, owner, v) →
    ResType (w.ty owner n) r

theorem cached_type {w : World} {c : Cache} (h : TypedCache w c) {i : Item} {n : Name} {r : Res} (hl : c.lookup (i, n) = some r)
    {obj owner : Item} {v : Value} (hf : w.find i n = some (obj, owner, v)) : ResType (w.ty owner n) r := by
  refine h i n r ?_ obj owner v hf
  clear h hf
  induction c with
  | nil => simp at hl
  | cons a c ih =>
    obtain ⟨k, v⟩ := a
    rw [List.lookup_cons] at hl
    by_cases e : (i, n) = k
    · subst e
      simp only [beq_self_eq_true, Option.some.injEq] at hl
      rw [hl]
      exact List.mem_cons_self
    · rw [beq_eq_false_iff_ne.mpr e] at hl
      exact List.mem_cons_of_mem _ (ih hl)

theorem getProperty_typed (w : World) (on : Bool) (bot : Reader Cache) (hb : KeepsReader (TypedCache w) bot)
    (hb' : TypedReader w bot) : ∀ k stack, KeepsReader (TypedCache w) (getProperty w on bot k stack) ∧
    TypedReader w (getProperty w on bot k stack) := by
  intro k
  induction k with
  | zero => intro stack; exact ⟨hb, hb'⟩
  | succ k ih =>
    intro stack
    constructor
    · intro i n
      simp only [getProperty]
      refine Keeps.ite (fun _ => Keeps.pure _ _) (fun hn => ?_)
      cases hf : w.find i n with
      | none => exact Keeps.pure _ _
      | some x =>
        obtain ⟨obj, owner, v⟩ := x
        refine Keeps.ite (fun _ => Keeps.bind (Keeps.setErr _) (fun _ => Keeps.pure _ _)) (fun _ => ?_)
        refine Keeps.bind (fun _ h => h) (fun c => ?_)
        cases c with
        | some r => exact Keeps.pure _ _
        | none =>
          dsimp only
          intro s hs
          have h1 := keep_evalTop (ih ((owner, n) :: stack)).1 w ⟨obj, i, owner, n, w.ty owner n⟩ v s hs
          have h2 := evalTop_type w (getProperty w on bot k ((owner, n) :: stack)) ⟨obj, i, owner, n, w.ty owner n⟩ v s
          intro i' n' r' hm obj' owner' v' hf'
          rcases List.mem_cons.mp hm with hm | hm
          · simp only [Prod.mk.injEq] at hm
            obtain ⟨⟨rfl, rfl⟩, rfl⟩ := hm
            rw [hf] at hf'
            simp only [Option.some.injEq, Prod.mk.injEq] at hf'
            rw [← hf'.2.1]
            exact h2
          · exact h1 i' n' r' hm obj' owner' v' hf'
    · intro i n s r hs hr hn obj owner v hf
      simp only [getProperty] at hr
      rw [if_neg hn, hf] at hr
      dsimp only at hr
      by_cases hst : stack.contains (owner, n) = true
      · rw [if_pos hst] at hr
        have : Found.exc = .val r := hr
        simp at this
      · rw [if_neg hst] at hr
        have hr' : ((match (getCache on i n s).1 with
          | some r => Pure.pure (Found.val r)
          | none => do
            let r ← evalTop w (getProperty w on bot k ((owner, n) :: stack)) ⟨obj, i, owner, n, w.ty owner n⟩ v
            setCache i n r
            Pure.pure (.val r) : M Cache Found) s).1 = .val r := hr
        unfold getCache at hr'
        dsimp only at hr'
        cases hc : (if on = true then s.more.lookup (i, n) else none) with
        | some r0 =>
          rw [hc] at hr'
          have : Found.val r0 = .val r := hr'
          simp only [Found.val.injEq] at this
          subst this
          split at hc
          · exact cached_type hs hc hf
          · simp at hc
        | none =>
          rw [hc] at hr'
          have : Found.val (evalTop w (getProperty w on bot k ((owner, n) :: stack)) ⟨obj, i, owner, n, w.ty owner n⟩ v s).1 =
            .val r := hr'
          simp only [Found.val.injEq] at this
          rw [← this]
          exact evalTop_type w _ ⟨obj, i, owner, n, w.ty owner n⟩ v s

theorem typed_resolve {w : World} {c : Cache} (f : String → String) : TypedCache { w with resolve := f } c ↔ TypedCache w c :=
  Iff.rfl

theorem evaluate_typed {w : World} {keys : List (Item × Name)} (hk : Declarations w keys) (on : Bool) (bot : Reader Cache) {k : Nat}
    (hd : keys.length + 1 ≤ k) (i : Item) (n : Name) (x : List Nat) {c : Cache} (hc : TypedCache w c) :
    TypedCache w (evaluate w on bot k i n x c).2.2 ∧ ∀ r, (evaluate w on bot k i n x c).1 = some r → n ≠ "parent" →
      ∀ obj owner v, w.find i n = some (obj, owner, v) → ResType (w.ty owner n) r := by
  rw [C61_terminates (on := on) hk bot (fun _ _ => Pure.pure .missing) k k hd hd]
  have h := getProperty_typed w on (fun _ _ => Pure.pure .missing) (fun _ _ => Keeps.pure _ _)
    (fun i n s r _ h => by have : Found.missing = .val r := h; simp at this) k []
  refine ⟨h.1 i n ⟨false, x, c⟩ hc, ?_⟩
  intro r hr hn obj owner v hf
  unfold evaluate at hr
  dsimp only at hr
  split at hr
  · simp at hr
  · split at hr
    · rename_i he
      simp only [Option.some.injEq] at hr
      subst hr
      exact h.2 i n ⟨false, x, c⟩ _ hc he hn obj owner v hf
    · simp only [Option.some.injEq] at hr
      intro j hj
      rw [← hr] at hj
      simp only [Option.some.injEq] at hj
      rw [← hj]
      exact .undef _
    · simp at hr

theorem evaluateEach_typed {w : World} {keys : List (Item × Name)} (hk : Declarations w keys) (bot : Reader Cache) {k : Nat}
    (hd : keys.length + 1 ≤ k) : ∀ (l : List ((String → String) × Bool × Item × Name)) (x : List Nat) (c : Cache), TypedCache w c →
    TypedCache w (evaluateEach w bot k l x c).2.2
  | [], _, _, hc => hc
  | (f, on, i, n) :: more, x, c, hc => by
    simp only [evaluateEach]
    exact evaluateEach_typed hk bot hd more _ _ (evaluate_typed (w := { w with resolve := f }) hk on bot hd i n x hc).1

/-- Whatever has been evaluated before, with or without errors, with or without caching: the value of a property has the type
    that it has been declared with. -/
theorem C62_type {w : World} {keys : List (Item × Name)} (hk : Declarations w keys) (on : Bool) (bot : Reader Cache) {k : Nat}
    (hd : keys.length + 1 ≤ k) (before : List ((String → String) × Bool × Item × Name)) {i : Item} {n : Name}
    (hn : n ≠ "parent") {obj owner : Item} {v : Value} (hf : w.find i n = some (obj, owner, v)) {j : Js}
    (h : (evaluate w on bot k i n (evaluateEach w bot k before [] []).2.1 (evaluateEach w bot k before [] []).2.2).1 =
      some (some j)) : HasType (w.ty owner n) j :=
  (evaluate_typed hk on bot hd i n _ (evaluateEach_typed hk bot hd before [] [] (by intro i n r h; simp at h))).2 _ h hn _ _ _ hf j rfl

theorem truthy_iff {j : Js} (hu : j ≠ undef) : truthy (some j) = true ↔ j ∉ falsy := by
  cases j with
  | arr l => simp [truthy, falsy]
  | atom a => cases a <;> simp_all [truthy, falsy, undef]

theorem elems_inv (f : String → String) : ∀ (l m : List Atom), elems f l = some m →
    ∃ s : List String, l = s.map .str ∧ m = s.map (fun s => .str (f s))
  | [], m, h => by
    simp only [elems, Option.some.injEq] at h
    exact ⟨[], rfl, by rw [← h]; rfl⟩
  | a :: l, m, h => by
    cases a with
    | str s =>
      simp only [elems, Option.map_eq_some_iff] at h
      obtain ⟨m', h1, h2⟩ := h
      obtain ⟨t, ht, ht'⟩ := elems_inv f l m' h1
      exact ⟨s :: t, by rw [ht]; rfl, by rw [← h2, ht']; rfl⟩
    | _ => simp [elems] at h

theorem becomes_iff (f : String → String) (t : Ty) (j j' : Js) : convert f t (some j) = some (some j') ↔ Becomes f t j j' := by
  constructor
  · intro h
    unfold convert at h
    dsimp only at h
    split at h
    · rename_i hu
      simp only [Option.some.injEq] at h
      rw [← h, hu]
      exact .undef _
    · rename_i hu
      cases t with
      | unknown => simp only [Option.some.injEq] at h; rw [h]; exact .unknown _
      | var => simp only [Option.some.injEq] at h; rw [h]; exact .var _
      | bool =>
        simp only [Option.some.injEq] at h
        rw [← h]
        cases hb : truthy (some j) with
        | true => exact .yes hu ((truthy_iff hu).mp hb)
        | false =>
          refine .no (Decidable.byContradiction (fun h => ?_))
          rw [(truthy_iff hu).mpr h] at hb
          simp at hb
      | int =>
        simp only at h
        split at h <;> simp only [Option.some.injEq, reduceCtorEq] at h
        rw [← h]
        exact .int _
      | string =>
        simp only at h
        split at h <;> simp only [Option.some.injEq, reduceCtorEq] at h
        rw [← h]
        exact .string _
      | path =>
        simp only at h
        split at h <;> simp only [Option.some.injEq, reduceCtorEq] at h
        rw [← h]
        exact .path _
      | strings =>
        simp only [Option.map_eq_some_iff, Option.some.injEq] at h
        obtain ⟨l, h1, h2⟩ := h
        rw [← h2]
        cases j with
        | atom a =>
          cases a <;> simp [toArr, elems] at h1
          rw [← h1]
          exact .oneString _
        | arr m =>
          obtain ⟨s, hs, hs'⟩ := elems_inv _ _ _ h1
          have : m = s.map .str := hs
          rw [this, hs']
          exact .strings s
      | paths =>
        simp only [Option.map_eq_some_iff, Option.some.injEq] at h
        obtain ⟨l, h1, h2⟩ := h
        rw [← h2]
        cases j with
        | atom a =>
          cases a <;> simp [toArr, elems] at h1
          rw [← h1]
          exact .onePath _
        | arr m =>
          obtain ⟨s, hs, hs'⟩ := elems_inv _ _ _ h1
          have : m = s.map .str := hs
          rw [this, hs']
          exact .paths s
      | vars =>
        simp only [Option.some.injEq] at h
        rw [← h]
        cases j with
        | atom a => exact .oneVar (fun h => hu (by rw [h]))
        | arr l => exact .vars l
  · intro h
    cases h with
    | undef t => rfl
    | yes hu h =>
      unfold convert
      simp [hu, (truthy_iff hu).mpr h]
    | no h =>
      simp only [falsy, List.mem_cons, List.not_mem_nil, or_false] at h
      rcases h with h | h | h | h <;> subst h <;> rfl
    | oneVar h =>
      unfold convert
      simp [undef, h, toArr]
    | strings l =>
      have := elems_strings id l
      simp [convert, undef, toArr, this]
    | paths l =>
      have := elems_strings f l
      simp [convert, undef, toArr, this]
    | var j => unfold convert; simp
    | unknown j => unfold convert; simp
    | _ => rfl

/-- A property with a constant value, that of the command line for example: it evaluates to what the type makes of it. -/
theorem C62_constant {w : World} {keys : List (Item × Name)} (hk : Declarations w keys) (on : Bool) (bot : Reader Cache) {k : Nat}
    (hd : keys.length + 1 ≤ k) {i : Item} {n : Name} (hn : n ≠ "parent") {obj owner : Item} {j : Js} (hu : j ≠ undef)
    (hf : w.find i n = some (obj, owner, .variant j)) (j' : Js) :
    (evaluate w on bot k i n [] []).1 = some (some j') ↔ Becomes w.resolve (w.ty owner n) j j' := by
  rw [← becomes_iff]
  obtain ⟨k, rfl⟩ : ∃ m, k = m + 1 := ⟨k - 1, by omega⟩
  have hrun : getProperty w on bot (k + 1) [] i n ⟨false, [], []⟩ =
      (let r := conv (convert w.resolve (w.ty owner n)) (some j) (⟨false, [], []⟩ : St Cache)
       (.val r.1, ⟨r.2.err, r.2.excl, ((i, n), r.1) :: r.2.more⟩)) := by
    have h1 : ∀ rd : Reader Cache, evalTop w rd ⟨obj, i, owner, n, w.ty owner n⟩ (.variant j) ⟨false, [], []⟩ =
        conv (convert w.resolve (w.ty owner n)) (some j) ⟨false, [], []⟩ := by
      intro rd
      unfold evalTop
      simp only [handle]
      rw [bind_eq (pure_eq _ _)]
      unfold finish
      show (if _ then _ else _ : M Cache Res) _ = _
      rw [if_neg (by simp [hu])]
      rfl
    simp only [getProperty]
    rw [if_neg hn, hf]
    show (if _ then _ else _ : M Cache Found) _ = _
    rw [if_neg (by simp)]
    have h2 : getCache on i n (⟨false, [], []⟩ : St Cache) = (none, ⟨false, [], []⟩) := by
      unfold getCache; cases on <;> rfl
    rw [bind_eq h2]
    dsimp only
    rw [bind_eq (h1 _)]
    rfl
  unfold evaluate
  rw [hrun]
  dsimp only
  unfold conv
  cases hc : convert w.resolve (w.ty owner n) (some j) with
  | none =>
    constructor
    · intro h
      have : (none : Option Res) = some (some j') := h
      simp at this
    · simp
  | some r =>
    constructor
    · intro h
      have : some r = some (some j') := h
      exact this
    · intro h
      exact h

end Verif.Eval
