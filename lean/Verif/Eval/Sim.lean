import Verif.Eval.Spec
/-!
# Two ways of evaluating properties that correspond

Whatever holds between two ways of looking up properties also holds between the evaluations of values that use them.
-/
namespace Verif.Eval

/-- States that correspond, and states that the first evaluation may end in. -/
structure Rel (σ τ : Type) where
  R : St σ → St τ → Prop
  Fin : St σ → Prop
  fin_err : ∀ s, Fin s → s.err = false
  r_err : ∀ s t, R s t → s.err = t.err
  r_excl : ∀ s t, R s t → s.excl = t.excl

variable {σ τ : Type} {α β : Type}

def Sim (ρ : Rel σ τ) (m1 : M σ α) (m2 : M τ α) : Prop :=
  (∀ s, ρ.Fin (m1 s).2 → ρ.Fin s) ∧
  ∀ s t, ρ.R s t → ρ.Fin (m1 s).2 → (m2 t).1 = (m1 s).1 ∧ ρ.R (m1 s).2 (m2 t).2

theorem Sim.pure (ρ : Rel σ τ) (a : α) : Sim ρ (Pure.pure a) (Pure.pure a) :=
  ⟨fun _ h => h, fun _ _ h _ => ⟨rfl, h⟩⟩

theorem Sim.bind {ρ : Rel σ τ} {m1 : M σ α} {m2 : M τ α} {f1 : α → M σ β} {f2 : α → M τ β}
    (hm : Sim ρ m1 m2) (hf : ∀ a, Sim ρ (f1 a) (f2 a)) : Sim ρ (Bind.bind m1 f1) (Bind.bind m2 f2) := by
  constructor
  · intro s h
    exact hm.1 s ((hf _).1 _ h)
  · intro s t hr h
    have h' : ρ.Fin (f1 (m1 s).1 (m1 s).2).2 := h
    obtain ⟨h1, h2⟩ := hm.2 s t hr ((hf _).1 _ h')
    obtain ⟨h3, h4⟩ := (hf (m1 s).1).2 _ _ h2 h'
    show (f2 (m2 t).1 (m2 t).2).1 = (f1 (m1 s).1 (m1 s).2).1 ∧ ρ.R (f1 (m1 s).1 (m1 s).2).2 (f2 (m2 t).1 (m2 t).2).2
    rw [h1]
    exact ⟨h3, h4⟩

theorem Sim.ite {ρ : Rel σ τ} {c : Prop} [Decidable c] {a1 b1 : M σ α} {a2 b2 : M τ α}
    (ha : c → Sim ρ a1 a2) (hb : ¬ c → Sim ρ b1 b2) : Sim ρ (if c then a1 else b1) (if c then a2 else b2) := by
  by_cases h : c
  · rw [if_pos h, if_pos h]; exact ha h
  · rw [if_neg h, if_neg h]; exact hb h

theorem Sim.setErr (ρ : Rel σ τ) : Sim ρ setErr setErr := by
  constructor
  · intro s h
    exact absurd (ρ.fin_err _ h) (by simp [Eval.setErr])
  · intro s t _ h
    exact absurd (ρ.fin_err _ h) (by simp [Eval.setErr])

theorem Sim.getErr (ρ : Rel σ τ) : Sim ρ getErr getErr :=
  ⟨fun _ h => h, fun s t h _ => ⟨(ρ.r_err s t h).symm, h⟩⟩

theorem Sim.getExcl (ρ : Rel σ τ) (n : Nat) : Sim ρ (getExcl n) (getExcl n) :=
  ⟨fun _ h => h, fun s t h _ => ⟨by simp [Eval.getExcl, ρ.r_excl s t h], h⟩⟩

/-- Reading a property corresponds. -/
def SimReader (ρ : Rel σ τ) (rd1 : Reader σ) (rd2 : Reader τ) : Prop := ∀ i n, Sim ρ (rd1 i n) (rd2 i n)

def SimOpt (ρ : Rel σ τ) : Option (M σ α) → Option (M τ α) → Prop
  | none, none => True
  | some a, some b => Sim ρ a b
  | _, _ => False

def SimOrig (ρ : Rel σ τ) : Orig σ → Orig τ → Prop
  | .own, .own => True
  | .given a, .given b => SimOpt ρ a b
  | _, _ => False

/-- Takes programs apart into their steps. -/
macro "sim_steps" : tactic => `(tactic| repeat (first
  | assumption
  | exact Sim.pure _ _
  | exact Sim.setErr _
  | exact Sim.getErr _
  | exact Sim.getExcl _ _
  | refine Sim.ite (fun _ => ?_) (fun _ => ?_)
  | refine Sim.bind ?_ (fun _ => ?_)
  | (dsimp only)))

section
variable {ρ : Rel σ τ} {rd1 : Reader σ} {rd2 : Reader τ} (hrd : SimReader ρ rd1 rd2)
include hrd

theorem sim_lookup (n : Name) (l : List Scope) : Sim ρ (lookup rd1 n l) (lookup rd2 n l) := by
  induction l with
  | nil => exact Sim.pure ρ _
  | cons sc l ih =>
    cases sc with
    | vars v =>
      simp only [lookup]
      cases v.lookup n with
      | none => exact ih
      | some r => exact Sim.pure ρ _
    | item i =>
      simp only [lookup]
      refine Sim.bind (hrd i n) (fun f => ?_)
      cases f with
      | missing => exact ih
      | val r => exact Sim.pure ρ _
      | exc => exact Sim.pure ρ _

theorem sim_run (scopes : List Scope) (c : Code) : Sim ρ (run rd1 scopes c) (run rd2 scopes c) := by
  induction c with
  | ret r => exact Sim.pure ρ _
  | fail => exact Sim.bind (Sim.setErr ρ) (fun _ => Sim.pure ρ _)
  | read n k ih =>
    simp only [run]
    refine Sim.bind (sim_lookup hrd n scopes) (fun f => ?_)
    cases f with
    | val r => exact ih r
    | missing => exact Sim.bind (Sim.setErr ρ) (fun _ => Sim.pure ρ _)
    | exc => exact Sim.bind (Sim.setErr ρ) (fun _ => Sim.pure ρ _)
  | member i n k ih =>
    simp only [run]
    refine Sim.bind (hrd i n) (fun f => ?_)
    cases f with
    | val r => exact ih r
    | missing => exact ih _
    | exc => exact Sim.bind (Sim.setErr ρ) (fun _ => Sim.pure ρ _)

theorem sim_extraScope (w : World) (e : Env) (h : Head) {b1 : M σ Res} {b2 : M τ Res} (hb : Sim ρ b1 b2)
    {o1 : Option (M σ Res)} {o2 : Option (M τ Res)} (ho : SimOpt ρ o1 o2) (outerItem : Option Item) (ov : Option Res) :
    Sim ρ (extraScope w rd1 e h b1 o1 outerItem ov) (extraScope w rd2 e h b2 o2 outerItem ov) := by
  unfold extraScope
  refine Sim.bind ?_ (fun v1 => Sim.bind ?_ (fun v2 => ?_))
  · unfold baseVars
    sim_steps
  · unfold outerVars
    refine Sim.ite (fun _ => ?_) (fun _ => Sim.pure ρ _)
    cases outerItem with
    | some o =>
      refine Sim.bind (hrd o e.name) (fun f => ?_)
      cases f <;> sim_steps
    | none => cases ov <;> sim_steps
  · cases v2 with
    | none => sim_steps
    | some l =>
      refine Sim.bind ?_ (fun _ => Sim.pure ρ _)
      unfold originalVars
      refine Sim.ite (fun _ => Sim.ite (fun _ => Sim.ite (fun _ => ?_) (fun _ => by sim_steps)) (fun _ => by sim_steps))
        (fun _ => by sim_steps)
      cases o1 <;> cases o2
      · sim_steps
      · exact absurd ho (by simp [SimOpt])
      · exact absurd ho (by simp [SimOpt])
      · exact Sim.bind ho (fun _ => Sim.pure ρ _)

theorem sim_evalSource (w : World) (e : Env) (h : Head) {b1 : M σ Res} {b2 : M τ Res} (hb : Sim ρ b1 b2)
    {o1 : Option (M σ Res)} {o2 : Option (M τ Res)} (ho : SimOpt ρ o1 o2) (outerItem : Option Item) :
    Sim ρ (evalSource w rd1 e h b1 o1 outerItem) (evalSource w rd2 e h b2 o2 outerItem) := by
  unfold evalSource
  exact Sim.bind (sim_extraScope hrd w e h hb ho outerItem none) (fun _ => Sim.bind (Sim.getErr ρ) (fun _ =>
    Sim.ite (fun _ => Sim.pure ρ _) (fun _ => sim_run hrd _ _)))

theorem sim_evalAlt (w : World) (e : Env) (hw : w.swallow e.owner = false) (top : Nat) (cond over : Code) (h : Head)
    (hover : over = .ret (some (.atom (.bool false))))
    {b1 : M σ Res} {b2 : M τ Res} (hb : Sim ρ b1 b2) {o1 : Option (M σ Res)} {o2 : Option (M τ Res)} (ho : SimOpt ρ o1 o2)
    (ov : Res) : Sim ρ (evalAlt w rd1 e top cond over h b1 o1 ov) (evalAlt w rd2 e top cond over h b2 o2 ov) := by
  unfold evalAlt
  rw [hw]
  refine Sim.bind (sim_extraScope hrd w e h hb ho _ _) (fun x => Sim.bind (Sim.getErr ρ) (fun _ =>
    Sim.ite (fun _ => Sim.pure ρ _) (fun _ => ?_)))
  refine Sim.bind ?_ (fun c => ?_)
  · unfold condValue
    exact Sim.ite (fun _ => Sim.pure ρ _) (fun _ => sim_run hrd _ _)
  · refine Sim.bind (Sim.getErr ρ) (fun _ => Sim.ite (fun _ => Sim.ite (fun h' => ?_) (fun _ => Sim.pure ρ _)) (fun _ => ?_))
    · exact absurd h' (by simp)
    · refine Sim.ite (fun _ => Sim.pure ρ _) (fun _ => ?_)
      subst hover
      show Sim ρ (do
          let b ← getErr
          if b = true then Pure.pure none else do
            markExclusive top (some (.atom (.bool false)))
            run rd1 (scopeChain w e h x) h.code)
        (do
          let b ← getErr
          if b = true then Pure.pure none else do
            markExclusive top (some (.atom (.bool false)))
            run rd2 (scopeChain w e h x) h.code)
      refine Sim.bind (Sim.getErr ρ) (fun _ => Sim.ite (fun _ => Sim.pure ρ _) (fun _ => ?_))
      exact Sim.bind (Sim.pure ρ ()) (fun _ => sim_run hrd _ _)

end

theorem sim_finishAlts {ρ : Rel σ τ} (e : Env) (bb : Bool) {a : M σ Res} {b : M τ Res} (h : Sim ρ a b) (l : List Js) :
    Sim ρ (finishAlts e bb a l) (finishAlts e bb b l) := by
  unfold finishAlts
  refine Sim.ite (fun _ => Sim.bind h (fun v => Sim.bind (Sim.getErr ρ) (fun _ => Sim.ite (fun _ => Sim.pure ρ _)
    (fun _ => Sim.ite (fun _ => Sim.pure ρ _) (fun _ => Sim.pure ρ _))))) (fun _ => Sim.pure ρ _)

theorem sim_nextOuter {ρ : Rel σ τ} (w : World) (e : Env) (h : Head) {a : M σ Res} {b : M τ Res} (hab : Sim ρ a b)
    (ov : Res) : Sim ρ (nextOuter w e h a ov) (nextOuter w e h b ov) := by
  unfold nextOuter
  exact Sim.ite (fun _ => hab) (fun _ => Sim.pure ρ _)

theorem sim_pickOrig {ρ : Rel σ τ} {o1 : Orig σ} {o2 : Orig τ} (ho : SimOrig ρ o1 o2) {a : Option (M σ Res)}
    {b : Option (M τ Res)} (h : SimOpt ρ a b) : SimOpt ρ (pickOrig o1 a) (pickOrig o2 b) := by
  cases o1 <;> cases o2
  · exact h
  · exact absurd ho (by simp [SimOrig])
  · exact absurd ho (by simp [SimOrig])
  · exact ho

theorem sim_conv {ρ : Rel σ τ} (f : Res → Option Res) (r : Res) : Sim ρ (conv f r) (conv f r) := by
  unfold conv
  cases f r with
  | some r' => exact Sim.pure ρ _
  | none => exact Sim.bind (Sim.setErr ρ) (fun _ => Sim.pure ρ _)

theorem sim_finish {ρ : Rel σ τ} (w : World) (e : Env) (b : Bool) (r : Res) : Sim ρ (finish w e b r) (finish w e b r) := by
  unfold finish
  exact Sim.bind (Sim.getErr ρ) (fun _ => Sim.ite (fun _ => Sim.pure ρ _) (fun _ => Sim.ite (fun _ => Sim.pure ρ _)
    (fun _ => sim_conv _ _)))

section
variable {ρ : Rel σ τ} {rd1 : Reader σ} {rd2 : Reader τ} (hrd : SimReader ρ rd1 rd2) (w : World) (e : Env)
include hrd

mutual
theorem sim_handle (o1 : Orig σ) (o2 : Orig τ) (ho : SimOrig ρ o1 o2) :
    (v : Value) → v.Plain (w.swallow e.owner) → Sim ρ (handle w rd1 e o1 v) (handle w rd2 e o2 v)
  | .variant j, _ => by simp only [handle]; exact Sim.pure ρ _
  | .item i, _ => by simp only [handle]; exact Sim.pure ρ _
  | .source h base alts cands, hp => by
    simp only [Value.Plain] at hp
    obtain ⟨hp1, hp2, hp3⟩ := hp
    have hbase := sim_evalBase base hp1
    have horig := sim_pickOrig ho (sim_originalOf cands hp3)
    simp only [handle]
    refine Sim.bind (sim_handleAlts _ _ horig h.id _ _ (sim_evalSource hrd w e h hbase horig none) _ _ alts hp2) (fun x => ?_)
    refine Sim.bind ?_ (fun r => ?_)
    · cases x with
      | done r => exact Sim.pure ρ _
      | list l => exact sim_finishAlts e _ (sim_evalSource hrd w e h hbase horig _) l
    refine Sim.bind (Sim.getErr ρ) (fun _ => Sim.ite (fun _ => Sim.pure ρ _) (fun _ => ?_))
    refine Sim.bind (Sim.getExcl ρ _) (fun ex => Sim.ite (fun _ => Sim.pure ρ _) (fun _ => ?_))
    refine Sim.ite (fun _ => Sim.ite (fun _ => Sim.pure ρ _) (fun _ => sim_firstCandidate _ _ horig cands hp3)) (fun _ => ?_)
    · cases cands with
      | nil => exact Sim.pure ρ _
      | cons v more =>
        refine Sim.bind (sim_mergeCandidates _ _ horig _ _ hp3) (fun y => ?_)
        cases y with
        | none => exact Sim.pure ρ _
        | some l => cases l <;> exact Sim.pure ρ _

theorem sim_evalBase : (b : Base) → b.Plain (w.swallow e.owner) → Sim ρ (evalBase w rd1 e b) (evalBase w rd2 e b)
  | .none, _ => by simp only [evalBase]; exact Sim.pure ρ _
  | .some v, hp => by
    simp only [Base.Plain] at hp
    simp only [evalBase]
    exact Sim.bind (sim_handle .own .own trivial v hp) (fun _ => sim_finish w e _ _)

theorem sim_handleAlts (o1 : Option (M σ Res)) (o2 : Option (M τ Res)) (ho : SimOpt ρ o1 o2) (top : Nat) (a : M σ Res)
    (b : M τ Res) (hab : Sim ρ a b) (ov : Res) (lst : List Js) :
    (alts : Alts) → alts.Plain (w.swallow e.owner) → Sim ρ (handleAlts w rd1 e o1 top a ov lst alts) (handleAlts w rd2 e o2 top b ov lst alts)
  | .nil, _ => by simp only [handleAlts]; exact Sim.pure ρ _
  | .cons cond over h base more, hp => by
    simp only [Alts.Plain] at hp
    obtain ⟨hw, hp1, hp2, hp3⟩ := hp
    have hbase := sim_evalBase base hp2
    have hmore := fun ov lst => sim_handleAlts o1 o2 ho top a b hab ov lst more hp3
    simp only [handleAlts]
    refine Sim.ite (fun _ => Sim.pure ρ _) (fun _ => Sim.bind (sim_nextOuter w e h hab _) (fun ov' =>
      Sim.bind (Sim.getErr ρ) (fun _ => Sim.ite (fun _ => Sim.pure ρ _) (fun _ => Sim.bind
        (sim_evalAlt hrd w e hw top cond over h hp1 hbase ho ov') (fun v => Sim.bind (Sim.getErr ρ) (fun _ =>
          Sim.ite (fun _ => Sim.pure ρ _) (fun _ => ?_)))))))
    cases v with
    | none => exact hmore _ _
    | some j => exact Sim.ite (fun _ => Sim.pure ρ _) (fun _ => hmore _ _)

theorem sim_firstCandidate (o1 : Option (M σ Res)) (o2 : Option (M τ Res)) (ho : SimOpt ρ o1 o2) :
    (vs : Values) → vs.Plain (w.swallow e.owner) → Sim ρ (firstCandidate w rd1 e o1 vs) (firstCandidate w rd2 e o2 vs)
  | .nil, _ => by simp only [firstCandidate]; exact Sim.pure ρ _
  | .cons v more, hp => by
    simp only [Values.Plain] at hp
    obtain ⟨hp1, hp2⟩ := hp
    simp only [firstCandidate]
    exact Sim.bind (sim_handle (.given o1) (.given o2) ho v hp1) (fun r => Sim.ite (fun _ => Sim.pure ρ _)
      (fun _ => sim_firstCandidate o1 o2 ho more hp2))

theorem sim_mergeCandidates (o1 : Option (M σ Res)) (o2 : Option (M τ Res)) (ho : SimOpt ρ o1 o2) (lst : List Js) :
    (vs : Values) → vs.Plain (w.swallow e.owner) → Sim ρ (mergeCandidates w rd1 e o1 lst vs) (mergeCandidates w rd2 e o2 lst vs)
  | .nil, _ => by simp only [mergeCandidates]; exact Sim.pure ρ _
  | .cons v more, hp => by
    simp only [Values.Plain] at hp
    obtain ⟨hp1, hp2⟩ := hp
    have hmore := fun lst => sim_mergeCandidates o1 o2 ho lst more hp2
    simp only [mergeCandidates]
    refine Sim.bind (sim_handle (.given o1) (.given o2) ho v hp1) (fun r => Sim.bind (Sim.getErr ρ) (fun _ =>
      Sim.ite (fun _ => Sim.pure ρ _) (fun _ => ?_)))
    cases r with
    | none => exact hmore _
    | some j => exact Sim.ite (fun _ => hmore _) (fun _ => Sim.bind (sim_conv _ _) (fun _ => hmore _))

theorem sim_originalOf : (vs : Values) → vs.Plain (w.swallow e.owner) → SimOpt ρ (originalOf w rd1 e vs) (originalOf w rd2 e vs)
  | .nil, _ => by simp only [originalOf, SimOpt]
  | .cons v more, hp => by
    simp only [Values.Plain] at hp
    obtain ⟨hp1, hp2⟩ := hp
    have hmore := sim_originalOf more hp2
    simp only [originalOf]
    cases v.hasScope with
    | true => exact hmore
    | false => exact Sim.bind (sim_handle .own .own trivial v hp1) (fun _ => sim_finish w e _ _)
end

theorem sim_evalTop (v : Value) (hp : v.Plain (w.swallow e.owner)) : Sim ρ (evalTop w rd1 e v) (evalTop w rd2 e v) := by
  unfold evalTop
  exact Sim.bind (sim_handle hrd w e .own .own trivial v hp) (fun _ => sim_finish w e _ _)

end

end Verif.Eval
