import Verif.Deps.StepLem

/-! # Deferring -/

namespace Verif.Deps
open Verif.Version

variable {P : Now → Prop}

def Res.withStack (st : List Frame) : Res → Res
  | .defer p => .defer p
  | .ignore s => .ignore { s with stack := st }
  | .use i ds s => .use i ds { s with stack := st }
  | .error e => .error e

theorem onStack_congr {l : Loader} {a b : List Frame} (h : a.map (·.loading) = b.map (·.loading)) : onStack l a = onStack l b := by
  rw [Bool.eq_iff_iff, onStack_iff, onStack_iff, h]

theorem chainTo_congr {l : Loader} : ∀ {a b : List Frame}, a.map (·.loading) = b.map (·.loading) → chainTo l a = chainTo l b
  | [], [], _ => rfl
  | [], _ :: _, h => by simp at h
  | _ :: _, [], h => by simp at h
  | f :: a, g :: b, h => by
    simp only [List.map_cons, List.cons.injEq] at h
    simp only [chainTo, h.1, chainTo_congr h.2]

theorem addLocal_withStack {w : World} {l : Loader} {d : RDep} {i : Nat} {p : Option Nat} {s : St} {st : List Frame} :
    addLocal w l d i p { s with stack := st } = (addLocal w l d i p s).map (fun x => { x with stack := st }) := by
  unfold addLocal
  split
  · rfl
  · dsimp only
    split <;> rfl

theorem addNew_withStack {w : World} {l : Loader} {d : RDep} {p : Option Nat} {ds : List Dep} {b : Bool} {s : St} {st : List Frame} :
    addNew w l d p ds b { s with stack := st } = (addNew w l d p ds b s).withStack st := by
  unfold addNew
  dsimp only
  split
  · rfl
  · have := @addLocal_withStack w l d s.nextId p
      { s with modules := s.modules ++ [addLoader d l { id := s.nextId, name := d.name, product := p, depends := ds, present := b, required := d.requiredG, range := d.range, loaders := [], locals := [] }], nextId := s.nextId + 1 } st
    dsimp only at this
    rw [this]
    cases addLocal w l d s.nextId p
      { s with modules := s.modules ++ [addLoader d l { id := s.nextId, name := d.name, product := p, depends := ds, present := b, required := d.requiredG, range := d.range, loaders := [], locals := [] }], nextId := s.nextId + 1 } <;> rfl

theorem loadExisting_withStack {w : World} {l : Loader} {d : RDep} {i : Nat} {s : St} {st : List Frame}
    (h : st.map (·.loading) = s.stack.map (·.loading)) :
    loadExisting w l d i { s with stack := st } = (loadExisting w l d i s).withStack st := by
  unfold loadExisting
  dsimp only
  rw [onStack_congr h, chainTo_congr h]
  split
  · rfl
  · split
    · rfl
    · have := @addLocal_withStack w l d i none
        { s with modules := modify i (fun m => addLoader d l (if m.name = ["qbs"] then m else updateMod d m)) s.modules } st
      dsimp only at this
      rw [this]
      cases addLocal w l d i none
        { s with modules := modify i (fun m => addLoader d l (if m.name = ["qbs"] then m else updateMod d m)) s.modules } <;> rfl

theorem loadProduct_withStack {w : World} {now : Now} {l : Loader} {d : RDep} {p : Nat} {s : St} {st : List Frame}
    (h : st.map (·.loading) = s.stack.map (·.loading)) :
    loadProduct w now l d p { s with stack := st } = (loadProduct w now l d p s).withStack st := by
  unfold loadProduct
  split
  · rfl
  · rfl
  · rfl
  · dsimp only
    rw [chainTo_congr h]
    split
    · rfl
    · exact addNew_withStack

theorem load_withStack {w : World} {now : Now} {l : Loader} {d : RDep} {s : St} {st : List Frame}
    (h : st.map (·.loading) = s.stack.map (·.loading)) :
    load w now l d { s with stack := st } = (load w now l d s).withStack st := by
  unfold load
  dsimp only
  split
  · rfl
  · exact loadExisting_withStack h
  · split
    · exact loadProduct_withStack h
    · split
      · exact loadProduct_withStack h
      · unfold loadFile
        split
        · split <;> rfl
        · split
          · exact addNew_withStack
          · rfl
          · split
            · rfl
            · exact addNew_withStack

/-- If the product is known already, nothing is different, except that a local entry without a product leads to a failing
check. -/
theorem findExisting_known {w : World} {d : RDep} (p : Nat) (hd : d.product = none) {ks : List (Name × Option Nat × Nat)} :
    findExisting w { d with product := some p } ks = .clash ∨ findExisting w { d with product := some p } ks = findExisting w d ks := by
  induction ks with
  | nil => exact Or.inr rfl
  | cons x l ih =>
    obtain ⟨n, q, i⟩ := x
    unfold findExisting
    dsimp only
    split
    · exact ih
    · cases q with
      | none => simp
      | some q =>
        dsimp only
        split
        · exact ih
        · split
          · exact Or.inr rfl
          · exact ih

theorem addLocal_known {w : World} {l : Loader} {d : RDep} {i p : Nat} {q : Option Nat} {s : St} (hd : d.product = none) :
    addLocal w l { d with product := some p } i q s = none ∨ addLocal w l { d with product := some p } i q s = addLocal w l d i q s := by
  unfold addLocal
  split
  · exact Or.inr rfl
  · dsimp only
    rcases findExisting_known p hd (w := w) (ks := (localsOf (.module _) s.modules).map Local.key) with h | h
    · rw [h]; exact Or.inl rfl
    · rw [h]; exact Or.inr rfl

theorem addNew_known {w : World} {l : Loader} {d : RDep} {p : Nat} {q : Option Nat} {ds : List Dep} {b : Bool} {s : St} (hd : d.product = none) :
    addNew w l { d with product := some p } q ds b s = .error .internal ∨ addNew w l { d with product := some p } q ds b s = addNew w l d q ds b s := by
  unfold addNew
  dsimp only
  split
  · exact Or.inr rfl
  · rcases addLocal_known hd (w := w) (l := l) (i := s.nextId) (p := p) (q := q)
      (s := { s with modules := s.modules ++ [addLoader d l { id := s.nextId, name := d.name, product := q, depends := ds, present := b, required := d.requiredG, range := d.range, loaders := [], locals := [] }], nextId := s.nextId + 1 }) with h | h
    · refine Or.inl ?_
      rw [show addLoader { d with product := some p } l = addLoader d l from rfl, h]
    · refine Or.inr ?_
      rw [show addLoader { d with product := some p } l = addLoader d l from rfl, h]

theorem load_known {w : World} {now : Now} {l : Loader} {d : RDep} {p : Nat} {s : St} (hd : d.product = none)
    (he : findExisting w d (s.modules.map Mod.key) = .none) (hp : findProduct w d = some p) :
    load w now l { d with product := some p } s = .error .internal ∨ load w now l { d with product := some p } s = load w now l d s := by
  unfold load
  rw [he, hp, hd]
  rcases findExisting_known p hd (w := w) (ks := s.modules.map Mod.key) with h | h
  · rw [h]; exact Or.inl rfl
  · rw [h, he]
    dsimp only
    unfold loadProduct
    rw [show checkProd w now { d with product := some p } p = checkProd w now d p from rfl]
    split
    · exact Or.inr rfl
    · exact Or.inr rfl
    · exact Or.inr rfl
    · split
      · exact Or.inr rfl
      · exact addNew_known hd

/-- The state after deferring because of a product -/
structure Resumed (w : World) (s0 s : St) (f : Frame) (fs : List Frame) (d : RDep) (rest : List RDep) (p : Nat) : Prop where
  stack : s0.stack = f :: fs
  pending : f.pending = d :: rest
  product : d.product = none
  missing : findExisting w d (s0.modules.map Mod.key) = .none
  found : findProduct w d = some p
  eq : s = { s0 with stack := { f with pending := { d with product := some p } :: rest } :: fs }

theorem step_errors {w : World} {now : Now} {s s' : St} (h : step w now s = .next s') (he : s'.errors = []) : s.errors = [] := by
  unfold step at h
  have hle : ∀ {l : Loader} {d : RDep} {i : Nat} {x : St}, loadExisting w l d i s = .ignore x → x.errors = s.errors :=
    fun hx => (loadExisting_ignore hx).2.1
  have hl : ∀ {l : Loader} {d : RDep} {x : St}, load w now l d s = .ignore x → x.errors = s.errors := by
    intro l d x hx
    have hlp : ∀ {p}, loadProduct w now l d p s = .ignore x → x.errors = s.errors := by
      intro p hx
      unfold loadProduct at hx
      split at hx
      · cases hx
      · cases hx
      · cases hx; rfl
      · split at hx
        · cases hx
        · exact absurd hx addNew_ignore
    unfold load at hx
    split at hx
    · cases hx
    · exact hle hx
    · split at hx
      · exact hlp hx
      · split at hx
        · exact hlp hx
        · unfold loadFile at hx
          split at hx
          · split at hx
            · cases hx
            · cases hx; rfl
          · split at hx
            · exact absurd hx addNew_ignore
            · cases hx
            · split at hx
              · cases hx
              · exact absurd hx addNew_ignore
  split at h
  · cases h
  · split at h
    · split at h
      · cases h
      · rename_i s1 hl1
        cases h
        rw [← hl hl1]; exact he
      · rename_i hl1
        have := (load_use hl1).2.2.2.1
        split at h <;> cases h <;> rw [← this] <;> exact he
      · split at h
        · cases h
        · cases h; simp at he
    · split at h
      · split at h
        · cases h
        · cases h; exact he
      · split at h
        · split at h
          · cases h
          · split at h
            · cases h
            · cases h; exact he
        · cases h; exact he

/-- What happens after deferring is what would have happened without, or a check fails. -/
theorem step_resumed {w : World} {s0 s : St} {f : Frame} {fs : List Frame} {d : RDep} {rest : List RDep} {p : Nat}
    (h : Resumed w s0 s f fs d rest p) (now : Now) :
    step w now s = .aborted .internal ∨ (∃ s', step w now s = .next s' ∧ s'.errors = s0.errors ++ [.internal]) ∨ step w now s = step w now s0 := by
  obtain ⟨hst, hpd, hpr, hm, hf, rfl⟩ := h
  unfold step
  rw [hst]
  dsimp only
  rw [hpd]
  dsimp only
  rw [load_withStack (by rw [hst]; simp)]
  rcases load_known hpr hm hf (now := now) (l := f.loading) with h | h
  · rw [h]
    dsimp only [Res.withStack]
    split
    · exact Or.inl rfl
    · exact Or.inr (Or.inl ⟨_, rfl, rfl⟩)
  · rw [h]
    refine Or.inr (Or.inr ?_)
    cases hl : load w now f.loading d s0 with
    | defer q =>
      have hq : q = p := by
        unfold load at hl
        rw [hm, hpr, hf] at hl
        dsimp only at hl
        unfold loadProduct at hl
        split at hl
        · cases hl; rfl
        · cases hl
        · cases hl
        · split at hl
          · cases hl
          · exact absurd hl addNew_defer
      subst hq
      rfl
    | ignore x => rfl
    | use i ds x => rfl
    | error e => rfl

/-- The step that defers -/
theorem step_deferred {w : World} {now : Now} {s s' : St} (h : step w now s = .deferred s') :
    s' = s ∨ ∃ f fs d rest p, s.stack = f :: fs ∧ f.pending = d :: rest ∧ d.checkProduct = true ∧
      findExisting w d (s.modules.map Mod.key) = .none ∧ (d.product = some p ∨ (d.product = none ∧ findProduct w d = some p)) ∧
      s' = { s with stack := { f with pending := { d with product := some p } :: rest } :: fs } := by
  unfold step at h
  split at h
  · cases h
  · rename_i f fs hst
    split at h
    · rename_i d rest hpd
      split at h
      · rename_i p hl
        cases h
        refine Or.inr ⟨f, fs, d, rest, p, hst, hpd, ?_⟩
        have key : ∀ {q}, loadProduct w now f.loading d q s = .defer p → d.checkProduct = true ∧ q = p := by
          intro q hx
          unfold loadProduct at hx
          split at hx
          · rename_i hc
            cases hx
            refine ⟨?_, rfl⟩
            unfold checkProd at hc
            split at hc
            · cases hc
            · rename_i hn; simpa using hn
          · cases hx
          · cases hx
          · split at hx
            · cases hx
            · exact absurd hx addNew_defer
        unfold load at hl
        split at hl
        · cases hl
        · exact absurd hl loadExisting_defer
        · rename_i hm
          split at hl
          · rename_i q hq
            obtain ⟨a, rfl⟩ := key hl
            exact ⟨a, hm, Or.inl hq, rfl⟩
          · rename_i hq
            split at hl
            · rename_i q hq'
              obtain ⟨a, rfl⟩ := key hl
              exact ⟨a, hm, Or.inr ⟨hq, hq'⟩, rfl⟩
            · unfold loadFile at hl
              split at hl
              · split at hl <;> cases hl
              · split at hl
                · exact absurd hl addNew_defer
                · cases hl
                · split at hl
                  · cases hl
                  · exact absurd hl addNew_defer
      · cases h
      · split at h <;> cases h
      · split at h <;> cases h
    · split at h
      · split at h
        · cases h; exact Or.inl rfl
        · cases h
      · split at h
        · split at h
          · cases h
          · split at h <;> cases h
        · cases h

/-- States without an error so far, also between deferring and resuming -/
def Good (P : Now → Prop) (w : World) (s : St) : Prop := Inv P w s ∨ ∃ s0 f fs d rest p, Inv P w s0 ∧ Resumed w s0 s f fs d rest p

theorem inv_product {w : World} {s : St} (hi : Inv P w s) {f : Frame} {fs : List Frame} {d : RDep} {rest : List RDep}
    (h1 : s.stack = f :: fs) (h2 : f.pending = d :: rest) : d.checkProduct = false ∨ d.product = none := by
  obtain ⟨ds, _, hf⟩ := hi.frames f (by rw [h1]; simp)
  rcases hf.pending d (by rw [h2]; simp) with rfl | ⟨_, _, h⟩
  · exact Or.inr rfl
  · exact prov_product h

theorem good_deferred {w : World} {now : Now} {s s' : St} (hg : Good P w s) (h : step w now s = .deferred s') : Good P w s' := by
  have key : ∀ {s0 : St}, Inv P w s0 → step w now s0 = .deferred s' → Good P w s' := by
    intro s0 hi h
    rcases step_deferred h with rfl | ⟨f, fs, d, rest, p, h1, h2, h3, h4, h5, h6⟩
    · exact Or.inl hi
    · rcases inv_product hi h1 h2 with h7 | h7
      · rw [h7] at h3; cases h3
      · rcases h5 with h5 | ⟨_, h5⟩
        · rw [h7] at h5; cases h5
        · exact Or.inr ⟨s0, f, fs, d, rest, p, hi, ⟨h1, h2, h7, h4, h5, h6⟩⟩
  rcases hg with hi | ⟨s0, f, fs, d, rest, p, hi, hr⟩
  · exact key hi h
  · rcases step_resumed hr now with h1 | ⟨_, h1, _⟩ | h1
    · rw [h1] at h; cases h
    · rw [h1] at h; cases h
    · rw [h1] at h; exact key hi h

theorem good_next {w : World} (hself : (prodAt w w.self).isSome) {now : Now} (hP : P now) {s s' : St} (hg : Good P w s) (h : step w now s = .next s')
    (he : s'.errors = []) : Good P w s' := by
  rcases hg with hi | ⟨s0, f, fs, d, rest, p, hi, hr⟩
  · exact Or.inl (inv_step hself hP hi h he).1
  · rcases step_resumed hr now with h1 | ⟨x, h1, h2⟩ | h1
    · rw [h1] at h; cases h
    · rw [h1] at h; cases h; rw [h2] at he; simp at he
    · rw [h1] at h; exact Or.inl (inv_step hself hP hi h he).1

theorem deferred_errors {w : World} {now : Now} {s s' : St} (h : step w now s = .deferred s') : s'.errors = s.errors := by
  rcases step_deferred h with rfl | ⟨_, _, _, _, _, _, _, _, _, _, rfl⟩ <;> rfl

theorem good {w : World} (hself : (prodAt w w.self).isSome) {s : St} (h : Reach P w s) (he : s.errors = []) : Good P w s := by
  induction h with
  | initial => exact Or.inl (inv_initial w)
  | next _ hP h ih => exact good_next hself hP (ih (step_errors h he)) h he
  | deferred _ _ h ih => exact good_deferred (ih (by rw [← deferred_errors h]; exact he)) h

theorem success_inv {w : World} (hself : (prodAt w w.self).isSome) {s : St} (h : Success P w s) : Inv P w s := by
  rcases good hself h.1 h.2.2 with hi | ⟨s0, f, fs, d, rest, p, _, hr⟩
  · exact hi
  · have := h.2.1
    rw [hr.eq] at this
    simp at this

end Verif.Deps
