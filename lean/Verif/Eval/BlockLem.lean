import Verif.Eval.BlockSpec
/-!
# Lemmas about Properties items
-/
namespace Verif.Eval

/-! ## Collecting alternatives -/

theorem addAll_eq : ∀ (bs : List Block) (n f : List Alt), (∀ b ∈ bs, b.head.fallback = false) →
    (∀ a ∈ n, a.head.fallback = false) → (∀ a ∈ f, a.head.fallback = true) →
    f.length + (bs.filter (fun b => b.cond.isNone)).length ≤ 1 →
    addAll (n ++ f) bs = some (n ++ (bs.filter (fun b => b.cond.isSome)).map Block.alt ++ f ++
      (bs.filter (fun b => b.cond.isNone)).map Block.alt) := by
  intro bs
  induction bs with
  | nil => intro n f _ _ _ _; simp [addAll]
  | cons b bs ih =>
    intro n f hb hn hf hl
    have hb' : ∀ b ∈ bs, b.head.fallback = false := fun x hx => hb x (List.mem_cons_of_mem _ hx)
    have hb0 := hb b (by simp)
    simp only [addAll]
    cases hc : b.cond with
    | none =>
      have hfb : b.alt.head.fallback = true := by simp [Block.alt, hc]
      rw [List.filter_cons_of_pos (by simp [hc])] at hl
      simp only [List.length_cons] at hl
      have hf0 : f = [] := List.length_eq_zero_iff.mp (by omega)
      subst hf0
      have hadd : addAlternative (n ++ []) b.alt = some (n ++ [b.alt]) := by
        simp only [List.append_nil]
        unfold addAlternative
        cases hl : n.getLast? with
        | none =>
          rw [List.getLast?_eq_none_iff] at hl
          subst hl
          rfl
        | some a =>
          dsimp only
          rw [hn a (List.mem_of_getLast? hl)]
          rfl
      rw [hadd]
      simp only [Option.bind_some]
      rw [ih n [b.alt] hb' hn (by simpa using hfb) (by simp only [List.length_cons, List.length_nil]; omega)]
      rw [List.filter_cons_of_neg (by simp [hc]), List.filter_cons_of_pos (by simp [hc])]
      simp
    | some c =>
      have hfb : b.alt.head.fallback = false := by simp [Block.alt, hc, hb0]
      rw [List.filter_cons_of_neg (by simp [hc])] at hl
      have hadd : addAlternative (n ++ f) b.alt = some (n ++ [b.alt] ++ f) := by
        unfold addAlternative
        match f, hf, hl with
        | [], _, _ =>
          simp only [List.append_nil]
          cases hl : n.getLast? with
          | none =>
            rw [List.getLast?_eq_none_iff] at hl
            subst hl
            rfl
          | some a =>
            dsimp only
            rw [hn a (List.mem_of_getLast? hl)]
            rfl
        | [x], hf, _ =>
          simp only [List.getLast?_append, List.getLast?_singleton, Option.some_or]
          rw [hf x (by simp), hfb]
          simp
        | x :: y :: f, _, hl =>
          simp only [List.length_cons] at hl
          omega
      rw [hadd]
      simp only [Option.bind_some]
      rw [ih (n ++ [b.alt]) f hb' (by
        intro a ha
        rcases List.mem_append.mp ha with ha | ha
        · exact hn a ha
        · simp only [List.mem_singleton] at ha; subst ha; exact hfb) hf hl]
      rw [List.filter_cons_of_pos (by simp [hc]), List.filter_cons_of_neg (by simp [hc])]
      simp

/-! ## Reading does not change anything -/

theorem known_cases (w : World) (t : Table) (i : Item) (n : Name) :
    (∃ f, ∀ s, known w t i n s = (f, s)) ∨ ∀ s, known w t i n s = (.exc, { s with err := true }) := by
  by_cases hn : n = "parent"
  · exact .inl ⟨_, known_parent w t i hn⟩
  · cases hf : w.find i n with
    | none => exact .inl ⟨_, known_missing w t i hn hf⟩
    | some x =>
      cases hl : t.lookup (i, n) with
      | some r => exact .inl ⟨_, known_find w t i hn hf hl⟩
      | none => exact .inr (known_none w t i hn hf hl)

theorem lookup_cases (w : World) (t : Table) (n : Name) (l : List Scope) :
    (∃ f, ∀ s, lookup (known w t) n l s = (f, s)) ∨ ∀ s, lookup (known w t) n l s = (.exc, { s with err := true }) := by
  induction l with
  | nil => exact .inl ⟨.missing, fun _ => rfl⟩
  | cons sc l ih =>
    cases sc with
    | vars v =>
      simp only [lookup]
      cases v.lookup n with
      | some r => exact .inl ⟨.val r, fun _ => rfl⟩
      | none => exact ih
    | item i =>
      simp only [lookup]
      rcases known_cases w t i n with ⟨f, hf⟩ | hf
      · cases f with
        | val r =>
          refine .inl ⟨.val r, fun s => ?_⟩
          simp only [Bind.bind, M.bind, hf]
          rfl
        | exc =>
          refine .inl ⟨.exc, fun s => ?_⟩
          simp only [Bind.bind, M.bind, hf]
          rfl
        | missing =>
          rcases ih with ⟨g, hg⟩ | hg
          · refine .inl ⟨g, fun s => ?_⟩
            simp only [Bind.bind, M.bind, hf]
            exact hg s
          · refine .inr (fun s => ?_)
            simp only [Bind.bind, M.bind, hf]
            exact hg s
      · refine .inr (fun s => ?_)
        simp only [Bind.bind, M.bind, hf]
        rfl

theorem run_cases (w : World) (t : Table) (sc : List Scope) (c : Code) :
    (∃ r, ∀ s, run (known w t) sc c s = (r, s)) ∨ ∀ s, (run (known w t) sc c s).2.err = true := by
  induction c with
  | ret r => exact .inl ⟨r, fun _ => rfl⟩
  | fail => exact .inr (fun _ => rfl)
  | read n k ih =>
    simp only [run]
    rcases lookup_cases w t n sc with ⟨f, hf⟩ | hf
    · cases f with
      | val r =>
        rcases ih r with ⟨r', h⟩ | h
        · refine .inl ⟨r', fun s => ?_⟩
          simp only [Bind.bind, M.bind, hf]
          exact h s
        · refine .inr (fun s => ?_)
          simp only [Bind.bind, M.bind, hf]
          exact h s
      | missing =>
        refine .inr (fun s => ?_)
        simp only [Bind.bind, M.bind, hf]
        rfl
      | exc =>
        refine .inr (fun s => ?_)
        simp only [Bind.bind, M.bind, hf]
        rfl
    · refine .inr (fun s => ?_)
      simp only [Bind.bind, M.bind, hf]
      rfl
  | member i n k ih =>
    simp only [run]
    rcases known_cases w t i n with ⟨f, hf⟩ | hf
    · cases f with
      | val r =>
        rcases ih r with ⟨r', h⟩ | h
        · refine .inl ⟨r', fun s => ?_⟩
          simp only [Bind.bind, M.bind, hf]
          exact h s
        · refine .inr (fun s => ?_)
          simp only [Bind.bind, M.bind, hf]
          exact h s
      | missing =>
        rcases ih (some undef) with ⟨r', h⟩ | h
        · refine .inl ⟨r', fun s => ?_⟩
          simp only [Bind.bind, M.bind, hf]
          exact h s
        · refine .inr (fun s => ?_)
          simp only [Bind.bind, M.bind, hf]
          exact h s
      | exc =>
        refine .inr (fun s => ?_)
        simp only [Bind.bind, M.bind, hf]
        rfl
    · refine .inr (fun s => ?_)
      simp only [Bind.bind, M.bind, hf]
      rfl

theorem Gives.run {w : World} {t : Table} {sc : List Scope} {c : Code} {r : Res} (h : Gives w t sc c r) (s : St Unit) :
    run (known w t) sc c s = (r, s) := by
  unfold Gives at h
  rcases run_cases w t sc c with ⟨r', hr⟩ | hr
  · rw [hr] at h ⊢
    simp only [Prod.mk.injEq, and_true] at h
    rw [h]
  · have := hr (fresh ())
    rw [h] at this
    simp [fresh] at this

/-! ## Alternatives -/

theorem bind_eq {σ α β : Type} {m : M σ α} {f : α → M σ β} {s s' : St σ} {x : α} (h : m s = (x, s')) :
    (m >>= f) s = f x s' := by
  show (M.bind m f) s = _
  unfold M.bind
  rw [h]

theorem getErr_eq {σ : Type} {s : St σ} (h : s.err = false) : (getErr : M σ Bool) s = (false, s) := by
  unfold getErr
  rw [h]

section
variable {w : World} {t : Table} {e : Env} (hout : w.outer e.owner = none)

theorem extraScope_simple {h : Head} (hb : h.usesBase = false) (ho : h.usesOriginal = false) (base : M Unit Res)
    (orig : Option (M Unit Res)) (ov : Option Res) (s : St Unit) :
    extraScope w (known w t) e h base orig none ov s =
      (if h.usesOuter = true then (match ov with
        | some r => [("outer", convenience e.ty r)]
        | none => []) else [], s) := by
  unfold extraScope baseVars outerVars originalVars
  rw [hb, ho]
  cases h.usesOuter <;> cases ov <;> rfl

include hout

theorem evalAlt_eq {b : Block} {o : Outcome} {outer ov : Res} (h : b.Gives w t e outer o) (hov : b.head.usesOuter = true → ov = outer)
    (top : Nat) (base : M Unit Res) (orig : Option (M Unit Res)) (s : St Unit) (hs : s.err = false) :
    evalAlt w (known w t) e top b.alt.cond b.alt.over b.alt.head base orig ov s =
      if (o.fallback || o.holds) = true then (some o.value, { s with excl := if o.over then top :: s.excl else s.excl })
      else (none, s) := by
  obtain ⟨⟨hb, ho, hf⟩, hfb, hc, hv⟩ := h
  generalize hx : (if b.head.usesOuter = true then [("outer", convenience e.ty outer)] else []) = extra at hc hv
  have hex : extraScope w (known w t) e b.alt.head base orig (w.outer e.owner) (some ov) s = (extra, s) := by
    rw [hout, extraScope_simple (by exact hb) (by exact ho), ← hx]
    show (if b.head.usesOuter = true then _ else _, s) = _
    cases hu : b.head.usesOuter with
    | true => rw [hov hu]
    | false => rfl
  have hsc : scopeChain w e b.alt.head extra = scopeChain w e b.head extra := rfl
  unfold evalAlt
  rw [bind_eq hex, bind_eq (getErr_eq hs), if_neg (by decide), hsc]
  have hcond : ∃ c, condValue (known w t) (scopeChain w e b.head extra) b.alt.head b.alt.cond s = (c, s) ∧
      truthy c = (o.fallback || o.holds) := by
    unfold condValue
    cases hbc : b.cond with
    | none =>
      refine ⟨some (.atom (.bool true)), ?_, ?_⟩
      · have : b.alt.head.fallback = true := by simp [Block.alt, hbc]
        rw [this]
        rfl
      · rw [hfb, hbc]; rfl
    | some c =>
      obtain ⟨r', h1, h2⟩ := hc c hbc
      refine ⟨r', ?_, ?_⟩
      · have h3 : b.alt.head.fallback = false := by simp [Block.alt, hbc, hf]
        have h4 : b.alt.cond = c := by simp [Block.alt, hbc]
        rw [h3, h4]
        exact h1.run s
      · rw [hfb, hbc, h2]; rfl
  obtain ⟨c, hc1, hc2⟩ := hcond
  rw [bind_eq hc1, bind_eq (getErr_eq hs), if_neg (by decide), hc2]
  cases hm : (o.fallback || o.holds) with
  | false =>
    rw [if_pos rfl, if_neg (by decide)]
    rfl
  | true =>
    rw [if_neg (by decide), if_pos rfl]
    have hvr : b.alt.over = b.over := rfl
    obtain ⟨r, hov', hover, hval⟩ := hv hm
    rw [hvr, bind_eq (hov'.run s), bind_eq (getErr_eq hs), if_neg (by decide)]
    have hmk : markExclusive top r s = ((), { s with excl := if o.over then top :: s.excl else s.excl }) := by
      unfold markExclusive
      rw [hover]
      cases truthy r <;> rfl
    rw [bind_eq hmk]
    exact hval.run _

theorem nextOuter_eq (h : Head) (own : M Unit Res) (res ov : Res) (hown : ∀ s, s.err = false → own s = (res, s))
    (hov : ov = some undef ∨ ov = res) (s : St Unit) (hs : s.err = false) :
    ∃ ov', nextOuter w e h own ov s = (ov', s) ∧ (ov' = some undef ∨ ov' = res) ∧ (h.usesOuter = true → ov' = res) := by
  unfold nextOuter
  rw [hout]
  cases hu : h.usesOuter with
  | false => exact ⟨ov, rfl, hov, fun h => absurd h (by decide)⟩
  | true =>
    by_cases ho : ov = some undef
    · refine ⟨res, ?_, .inr rfl, fun _ => rfl⟩
      rw [if_pos (by simpa using ho)]
      exact hown s hs
    · refine ⟨ov, ?_, hov, fun _ => hov.resolve_left ho⟩
      rw [if_neg (by simpa using ho)]
      rfl

/-- The Properties items for a scalar property -/
theorem handleAlts_scalar (hsc : e.ty.scalar = true) (orig : Option (M Unit Res)) (top : Nat) (own : M Unit Res) (res : Res)
    (hown : ∀ s, s.err = false → own s = (res, s)) : ∀ {bs : List Block} {os : List Outcome}, Each (Block.Gives w t e res) bs os →
    ∀ (ov : Res), (ov = some undef ∨ ov = res) → ∀ (s : St Unit), s.err = false →
    ∃ s', s'.err = false ∧ handleAlts w (known w t) e orig top own ov [] (.of (bs.map Block.alt)) s =
      ((match os.find? (fun o => o.fallback || o.holds) with
        | some o => .done (some o.value)
        | none => .list []), s') := by
  intro bs os h
  induction h with
  | nil => intro ov _ s hs; exact ⟨s, hs, rfl⟩
  | @cons b o bs os hb _ ih =>
    intro ov hov s hs
    obtain ⟨ov', h1, h2, h3⟩ := nextOuter_eq hout b.alt.head own res ov hown hov s hs
    have h4 := evalAlt_eq hout hb (ov := ov') h3 top (evalBase w (known w t) e .none) orig s hs
    simp only [List.map_cons, Alts.of, handleAlts]
    rw [if_neg (by simp), bind_eq h1, bind_eq (getErr_eq hs), if_neg (by decide)]
    cases hm : (o.fallback || o.holds) with
    | true =>
      rw [hm, if_pos rfl] at h4
      refine ⟨{ s with excl := if o.over then top :: s.excl else s.excl }, hs, ?_⟩
      rw [bind_eq h4, bind_eq (getErr_eq (s := { s with excl := if o.over then top :: s.excl else s.excl }) hs), if_neg (by decide), List.find?_cons_of_pos (by exact hm)]
      dsimp only
      rw [hsc, if_pos rfl]
      rfl
    | false =>
      rw [hm, if_neg (by decide)] at h4
      rw [bind_eq h4, bind_eq (getErr_eq hs), if_neg (by decide), List.find?_cons_of_neg (by simpa using hm)]
      exact ih ov' h2 s hs

/-- The Properties items with a condition for a list property -/
theorem handleAlts_list (hsc : e.ty.scalar = false) (orig : Option (M Unit Res)) (top : Nat) (own : M Unit Res) (res : Res)
    (hown : ∀ s, s.err = false → own s = (res, s)) (more : List Alt) : ∀ {bs : List Block} {os : List Outcome}, Each (Block.Gives w t e res) bs os →
    (∀ o ∈ os, o.holds = true → o.value ≠ undef) → (∀ o ∈ os, o.fallback = false) →
    ∀ (ov : Res), (ov = some undef ∨ ov = res) → ∀ (lst : List Js) (s : St Unit), s.err = false →
    ∃ ov' s', (ov' = some undef ∨ ov' = res) ∧ s'.err = false ∧
      s'.excl.contains top = (s.excl.contains top || (os.filter (·.holds)).any (·.over)) ∧
      handleAlts w (known w t) e orig top own ov lst (.of (bs.map Block.alt ++ more)) s =
      handleAlts w (known w t) e orig top own ov' (lst ++ (os.filter (·.holds)).map (·.value)) (.of more) s' := by
  intro bs os h
  induction h with
  | nil => intro _ _ ov hov lst s hs; exact ⟨ov, s, hov, hs, by simp, by simp⟩
  | @cons b o bs os hb _ ih =>
    intro hu hf ov hov lst s hs
    have hu' : ∀ o ∈ os, o.holds = true → o.value ≠ undef := fun x hx => hu x (List.mem_cons_of_mem _ hx)
    have hf' : ∀ o ∈ os, o.fallback = false := fun x hx => hf x (List.mem_cons_of_mem _ hx)
    have hfo := hf o (by simp)
    have hfb : b.alt.head.fallback = false := by
      have h1 := hb.1.2.2
      have h2 := hb.2.1
      rw [hfo] at h2
      simp [Block.alt, ← h2, h1]
    obtain ⟨ov', h1, h2, h3⟩ := nextOuter_eq hout b.alt.head own res ov hown hov s hs
    have h4 := evalAlt_eq hout hb (ov := ov') h3 top (evalBase w (known w t) e .none) orig s hs
    rw [hfo, Bool.false_or] at h4
    simp only [List.map_cons, List.cons_append, Alts.of, handleAlts]
    rw [if_neg (by simp [hfb]), bind_eq h1, bind_eq (getErr_eq hs), if_neg (by decide)]
    cases hm : o.holds with
    | true =>
      rw [hm, if_pos rfl] at h4
      obtain ⟨ov2, s2, g1, g2, g3, g4⟩ := ih hu' hf' ov' h2 (lst ++ [o.value])
        { s with excl := if o.over then top :: s.excl else s.excl } hs
      refine ⟨ov2, s2, g1, g2, ?_, ?_⟩
      · rw [g3, List.filter_cons_of_pos (by simpa using hm)]
        simp only [List.any_cons]
        cases o.over <;> simp [Bool.or_assoc]
      · rw [bind_eq h4, bind_eq (getErr_eq (s := { s with excl := if o.over then top :: s.excl else s.excl }) hs), if_neg (by decide)]
        dsimp only
        rw [hsc, if_neg (by decide), if_neg (hu o (by simp) hm), g4, List.filter_cons_of_pos (by simpa using hm)]
        simp
    | false =>
      rw [hm, if_neg (by decide)] at h4
      obtain ⟨ov2, s2, g1, g2, g3, g4⟩ := ih hu' hf' ov' h2 lst s hs
      refine ⟨ov2, s2, g1, g2, ?_, ?_⟩
      · rw [g3, List.filter_cons_of_neg (by simp [hm])]
      · rw [bind_eq h4, bind_eq (getErr_eq hs), if_neg (by decide), List.filter_cons_of_neg (by simp [hm])]
        exact g4

end

end Verif.Eval
