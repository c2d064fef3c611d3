import Verif.JsImport.Spec

namespace Verif.JsImport

theorem mem_declares (p : Node) : ∀ (t : Bool) (n : Str), n ∈ declares t p ↔ Declares t p n := by
  induction p with
  | nil => intro t n; simp only [declares, List.not_mem_nil, false_iff]; intro h; cases h
  | fdecl m b nx _ ih =>
    intro t n
    simp only [declares, List.mem_cons, ih]
    constructor
    · rintro (rfl | h)
      · exact .fdecl
      · exact .fdecl_next h
    · intro h
      cases h with
      | fdecl => exact .inl rfl
      | fdecl_next h => exact .inr h
  | fexpr b nx _ ih =>
    intro t n
    simp only [declares, ih]
    constructor
    · exact .fexpr_next
    · intro h
      cases h with
      | fexpr_next h => exact h
  | var lex m i nx _ ih =>
    intro t n
    simp only [declares]
    cases lex
    · simp only [Bool.false_and, Bool.false_eq_true, if_false, List.mem_cons, ih]
      constructor
      · rintro (rfl | h)
        · exact .var
        · exact .var_next h
      · intro h
        cases h with
        | var => exact .inl rfl
        | var_next h => exact .inr h
    · cases t
      · simp only [Bool.true_and, Bool.not_false, if_true, ih]
        constructor
        · exact .var_next
        · intro h
          cases h with
          | var_next h => exact h
      · simp only [Bool.true_and, Bool.not_true, Bool.false_eq_true, if_false, List.mem_cons, ih]
        constructor
        · rintro (rfl | h)
          · exact .const
          · exact .var_next h
        · intro h
          cases h with
          | const => exact .inl rfl
          | var_next h => exact .inr h
  | block x nx ihx ih =>
    intro t n
    simp only [declares, List.mem_append, ihx, ih]
    constructor
    · rintro (h | h)
      · exact .block h
      · exact .block_next h
    · intro h
      cases h with
      | block h => exact .inl h
      | block_next h => exact .inr h

theorem visit_mem (p : Node) : ∀ (t b : Bool) (n : Str), n ∈ declares t p → n ∈ (visit p b).2 := by
  induction p with
  | nil => intro t b n h; cases h
  | fdecl m x nx _ ih =>
    intro t b n h
    simp only [declares, visit, List.mem_cons] at h ⊢
    exact h.imp_right (ih t b n)
  | fexpr x nx _ ih =>
    intro t b n h
    simp only [declares, visit] at h ⊢
    split
    · exact ih t b n h
    · split
      · exact ih t false n h
      · exact List.mem_append_right _ (ih t false n h)
  | var lex m i nx _ ih =>
    intro t b n h
    simp only [declares, visit, List.mem_cons] at h ⊢
    split at h
    · exact .inr (ih t b n h)
    · rcases List.mem_cons.mp h with h | h
      · exact .inl h
      · exact .inr (ih t b n h)
  | block x nx ihx ih =>
    intro t b n h
    simp only [declares, visit, List.mem_append] at h ⊢
    rcases h with h | h
    · exact .inl (ihx false b n h)
    · exact .inr (ih t _ n h)

theorem isNil_iff (x : Node) : x.isNil = true ↔ x = .nil := by cases x <;> simp [Node.isNil]

theorem visit_zero (p : Node) : ∀ (t b : Bool), loose p = 0 → NoBlockConst t p →
    visit p b = (b, declares t p) := by
  induction p with
  | nil => intro t b _ _; rfl
  | fdecl m x nx _ ih =>
    intro t b h1 h2
    simp only [visit, declares, ih t b h1 h2]
  | fexpr x nx _ ih =>
    intro t b h1 h2
    simp only [loose] at h1
    have hx : x = .nil := by
      by_cases h : x = .nil
      · exact h
      · rw [if_neg h] at h1; omega
    subst hx
    simp only [visit, declares, Node.isNil, if_true]
    exact ih t b (by simpa using h1) h2
  | var lex m i nx _ ih =>
    intro t b h1 h2
    simp only [NoBlockConst] at h2
    simp only [visit, declares, ih t b h1 h2.2]
    have : (lex && !t) = false := by
      cases lex
      · rfl
      · rw [h2.1 rfl]; rfl
    simp [this]
  | block x nx ihx ih =>
    intro t b h1 h2
    simp only [loose] at h1
    simp only [NoBlockConst] at h2
    simp only [visit, declares, ihx false b (by omega) h2.1, ih t b (by omega) h2.2]

theorem visit_one (p : Node) : ∀ (t : Bool), loose p ≤ 1 → NoBlockConst t p →
    (visit p true).2 = declares t p := by
  induction p with
  | nil => intro t _ _; rfl
  | fdecl m x nx _ ih =>
    intro t h1 h2
    simp only [visit, declares, ih t h1 h2]
  | fexpr x nx _ ih =>
    intro t h1 h2
    simp only [loose] at h1
    simp only [visit, declares]
    by_cases h : x = .nil
    · subst h
      simp only [Node.isNil, if_true]
      exact ih t (by simpa using h1) h2
    · rw [if_neg h] at h1
      rw [if_neg (fun e => h ((isNil_iff x).mp e))]
      simp only [if_true]
      rw [visit_zero nx t false (by omega) h2]
  | var lex m i nx _ ih =>
    intro t h1 h2
    simp only [NoBlockConst] at h2
    simp only [visit, declares, ih t h1 h2.2]
    have : (lex && !t) = false := by
      cases lex
      · rfl
      · rw [h2.1 rfl]; rfl
    simp [this]
  | block x nx ihx ih =>
    intro t h1 h2
    simp only [loose] at h1
    simp only [NoBlockConst] at h2
    simp only [visit, declares]
    by_cases h : loose x = 0
    · rw [visit_zero x false true h h2.1]
      simp only
      rw [ih t (by omega) h2.2]
    · rw [ihx false (by omega) h2.1, visit_zero nx t _ (by omega) h2.2]

/-! Requiring files. -/

variable {w : World}

/-- What evaluating adds to the records and to the cache. -/
def Adds (w : World) (Q : Nat → Prop) (s s' : St) : Prop :=
  ∃ ws rs, s'.starts = s.starts ++ ws ∧ s'.reqs = s.reqs ++ rs ∧ (∀ r ∈ rs, Resolved w r) ∧
    (∀ x ∈ ws, Q x) ∧ ws.Nodup ∧ (∀ x ∈ ws, x ∉ s.cache) ∧ (∀ x ∈ s.cache, x ∈ s'.cache)

theorem adds_refl (Q : Nat → Prop) (s : St) : Adds w Q s s :=
  ⟨[], [], by simp, by simp, by simp, by simp, by simp, by simp, fun _ h => h⟩

/-- After success everything that was evaluated is in the cache and the stack is as before. -/
def Done (s s' : St) : Prop := s'.stack = s.stack ∧ ∀ x ∈ s'.starts, x ∈ s.starts ∨ x ∈ s'.cache

theorem done_refl (s : St) : Done s s := ⟨rfl, fun _ h => .inl h⟩

theorem adds_trans {Q : Nat → Prop} {s s1 s2 : St} (a : Adds w Q s s1) (d : Done s s1) (b : Adds w Q s1 s2)
    (hd : ∀ ws, s1.starts = s.starts ++ ws → ∀ x ∈ ws, x ∈ s1.cache) : Adds w Q s s2 := by
  obtain ⟨ws, rs, e1, e2, e3, e4, e5, e6, e7⟩ := a
  obtain ⟨vs, qs, f1, f2, f3, f4, f5, f6, f7⟩ := b
  refine ⟨ws ++ vs, rs ++ qs, by rw [f1, e1, List.append_assoc], by rw [f2, e2, List.append_assoc], ?_, ?_, ?_,
    ?_, fun x hx => f7 x (e7 x hx)⟩
  · intro r hr
    rcases List.mem_append.mp hr with h | h
    · exact e3 r h
    · exact f3 r h
  · intro x hx
    rcases List.mem_append.mp hx with h | h
    · exact e4 x h
    · exact f4 x h
  · rw [List.nodup_append]
    refine ⟨e5, f5, ?_⟩
    intro x hx y hy e
    subst e
    exact f6 x hy (hd ws e1 x hx)
  · intro x hx
    rcases List.mem_append.mp hx with h | h
    · exact e6 x h
    · exact fun h' => f6 x h (e7 x h')

/-- What is known about importing a file. -/
structure Good (w : World) (Q : Nat → Prop) (s : St) (r : Out × St) : Prop where
  adds : Adds w Q s r.2
  stack : r.1 = .ok → r.2.stack = s.stack
  cached : r.1 = .ok → ∀ ws, r.2.starts = s.starts ++ ws → ∀ x ∈ ws, x ∈ r.2.cache
  noOverflow : r.1 ≠ .overflow

theorem Good.start {Q : Nat → Prop} {s : St} {r : Out × St} (q : Nat × Str × Nat) (hq : Resolved w q)
    (g : Good w Q { s with reqs := s.reqs ++ [q] } r) : Good w Q s r := by
  obtain ⟨⟨ws, rs, e1, e2, e3, e4, e5, e6, e7⟩, h2, h3, h4⟩ := g
  refine ⟨⟨ws, q :: rs, e1, ?_, ?_, e4, e5, e6, e7⟩, h2, h3, h4⟩
  · rw [e2]; simp
  · intro r hr
    rcases List.mem_cons.mp hr with h | h
    · rw [h]; exact hq
    · exact e3 r h

theorem runSteps_good (Q : Nat → Prop) (imp : St → Nat → Out × St) (me : Nat) (c : File)
    (hc : w.files[me]? = some c) : ∀ (l : List Step) (s : St) (rest : List Nat),
    s.stack = c.dir :: rest →
    (∀ p b, Step.require p b ∈ l → b = false) →
    (∀ p b, Step.require p b ∈ l → ∀ s', s'.stack = c.dir :: rest → Good w Q s' (imp s' (w.resolve c.dir p))) →
    Good w Q s (runSteps w imp me s l) := by
  intro l
  induction l with
  | nil =>
    intro s rest _ _ _
    refine ⟨adds_refl _ _, fun _ => rfl, ?_, by simp [runSteps]⟩
    intro _ ws h x hx
    have : ws = [] := by simpa [runSteps] using h
    subst this; cases hx
  | cons a l ih =>
    intro s rest hs hb hg
    cases a with
    | throw =>
      refine ⟨adds_refl _ _, by simp [runSteps], by simp [runSteps], by simp [runSteps]⟩
    | require p b =>
      have hbf : b = false := hb p b (by simp)
      subst hbf
      obtain ⟨ca, st, sts, rq⟩ := s
      simp only at hs
      subst hs
      have hq : Resolved w (me, p, w.resolve c.dir p) := ⟨c, hc, rfl⟩
      have g := hg p false (by simp) ⟨ca, c.dir :: rest, sts, rq ++ [(me, p, w.resolve c.dir p)]⟩ rfl
      have g' := Good.start (s := ⟨ca, c.dir :: rest, sts, rq⟩) _ hq g
      simp only [runSteps]
      generalize imp ⟨ca, c.dir :: rest, sts, rq ++ [(me, p, w.resolve c.dir p)]⟩ (w.resolve c.dir p) = r at g g' ⊢
      rcases r with ⟨o, s1⟩
      rcases o with _ | _ | _
      · simp only
        have hst : s1.stack = c.dir :: rest := g'.stack rfl
        have k := ih s1 rest hst (fun p b h => hb p b (List.mem_cons_of_mem _ h))
          (fun p b h => hg p b (List.mem_cons_of_mem _ h))
        have hcached := g'.cached rfl
        have hadds := g'.adds
        refine ⟨adds_trans hadds ⟨g'.stack rfl, ?_⟩ k.adds hcached, ?_, ?_, k.noOverflow⟩
        · intro x hx
          obtain ⟨ws, _, e1, _⟩ := hadds
          simp only at e1 hx ⊢
          rw [e1] at hx
          rcases List.mem_append.mp hx with h | h
          · exact .inl h
          · exact .inr (hcached ws e1 x h)
        · intro h; rw [k.stack h, hst]
        · intro h vs hvs x hx
          obtain ⟨ws, _, e1, _⟩ := hadds
          obtain ⟨us, _, f1, _, _, _, _, _, f7⟩ := k.adds
          simp only at e1
          rw [f1, e1, List.append_assoc] at hvs
          have hvs' := List.append_cancel_left hvs
          rw [← hvs'] at hx
          rcases List.mem_append.mp hx with hx | hx
          · exact f7 x (hcached ws e1 x hx)
          · exact k.cached h us f1 x hx
      · simp only [Bool.false_eq_true, if_false]
        exact ⟨g'.adds, by simp, by simp, by simp⟩
      · exact absurd rfl g'.noOverflow

theorem importFile_good (rank : Nat → Nat) (hr : Ranked w rank) (hn : NoCatch w) :
    ∀ (k : Nat) (s : St) (f : Nat), rank f < k →
      Good w (fun x => rank x ≤ rank f) s (importFile w k s f) := by
  intro k
  induction k with
  | zero => intro s f h; omega
  | succ k ih =>
    intro s f hk
    simp only [importFile]
    by_cases hc : f ∈ s.cache
    · rw [if_pos hc]
      refine ⟨adds_refl _ _, fun _ => rfl, ?_, by simp⟩
      intro _ ws h x hx
      have : ws = [] := by simpa using h
      subst this; cases hx
    · rw [if_neg hc]
      cases hf : w.files[f]? with
      | none => exact ⟨adds_refl _ _, by simp, by simp, by simp⟩
      | some c =>
        have g := runSteps_good (w := w) (fun x => rank x < rank f) (importFile w k) f c hf c.steps
          { s with stack := c.dir :: s.stack, starts := s.starts ++ [f] } s.stack rfl
          (fun p b h => hn c (List.mem_of_getElem? hf) p b h)
          (fun p b h s' _ => by
            have hlt := hr f c hf p b h
            have := ih s' (w.resolve c.dir p) (by omega)
            obtain ⟨⟨ws, rs, e1, e2, e3, e4, e5⟩, h2, h3, h4⟩ := this
            exact ⟨⟨ws, rs, e1, e2, e3, fun x hx => by have := e4 x hx; simp only at this; omega, e5⟩, h2, h3, h4⟩)
        simp only
        generalize runSteps w (importFile w k) f
          { s with stack := c.dir :: s.stack, starts := s.starts ++ [f] } c.steps = r at g
        rcases r with ⟨o, s1⟩
        obtain ⟨⟨ws, rs, e1, e2, e3, e4, e5, e6, e7⟩, h2, h3, h4⟩ := g
        simp only at e1 e2 e6 e7 h2 h3
        have hadds : ∀ cache', (∀ x ∈ s1.cache, x ∈ cache') → ∀ st,
            Adds w (fun x => rank x ≤ rank f) s { s1 with cache := cache', stack := st } := by
          intro cache' hsub st
          refine ⟨f :: ws, rs, by simp [e1], e2, e3, ?_, ?_, ?_, fun x hx => hsub x (e7 x hx)⟩
          · intro x hx
            rcases List.mem_cons.mp hx with h | h
            · rw [h]; exact Nat.le_refl _
            · exact Nat.le_of_lt (e4 x h)
          · rw [List.nodup_cons]
            exact ⟨fun h => absurd (e4 f h) (Nat.lt_irrefl _), e5⟩
          · intro x hx
            rcases List.mem_cons.mp hx with h | h
            · rw [h]; exact hc
            · exact e6 x h
        rcases o with _ | _ | _
        · refine ⟨hadds (f :: s1.cache) (fun x hx => List.mem_cons_of_mem _ hx) _, ?_, ?_, by simp⟩
          · intro _; simp [h2 rfl]
          · intro _ vs hvs x hx
            simp only at hvs
            rw [e1, List.append_assoc] at hvs
            have hvs' := List.append_cancel_left hvs
            rw [← hvs'] at hx
            rcases List.mem_cons.mp hx with h | h
            · rw [h]; simp
            · exact List.mem_cons_of_mem _ (h3 rfl ws e1 x h)
        · exact ⟨hadds s1.cache (fun _ h => h) s1.stack, by simp, by simp, by simp⟩
        · exact absurd rfl h4

end Verif.JsImport
