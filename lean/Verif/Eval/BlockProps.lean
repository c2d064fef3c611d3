import Verif.Eval.BlockLem
import Verif.Eval.Props
/-!
# What Properties items mean: proofs (C60)
-/
namespace Verif.Eval

theorem Each.filter {α β : Type} {p : α → β → Prop} {f : α → Bool} {g : β → Bool} {l : List α} {m : List β} (h : Each p l m)
    (hfg : ∀ a b, p a b → f a = g b) : Each p (l.filter f) (m.filter g) := by
  induction h with
  | nil => exact .nil
  | @cons a b l m hab _ ih =>
    have := hfg a b hab
    cases hg : g b with
    | true =>
      rw [hg] at this
      rw [List.filter_cons_of_pos this, List.filter_cons_of_pos hg]
      exact .cons hab ih
    | false =>
      rw [hg] at this
      rw [List.filter_cons_of_neg (by simp [this]), List.filter_cons_of_neg (by simp [hg])]
      exact ih

theorem Each.append {α β : Type} {p : α → β → Prop} {l l' : List α} {m m' : List β} (h : Each p l m) (h' : Each p l' m') :
    Each p (l ++ l') (m ++ m') := by
  induction h with
  | nil => exact h'
  | cons hab _ ih => exact .cons hab ih

theorem Each.mem {α β : Type} {p : α → β → Prop} {l : List α} {m : List β} (h : Each p l m) {a : α} (ha : a ∈ l) :
    ∃ b ∈ m, p a b := by
  induction h with
  | nil => simp at ha
  | @cons x y l m hab _ ih =>
    rcases List.mem_cons.mp ha with rfl | ha
    · exact ⟨y, by simp, hab⟩
    · obtain ⟨b, hb, h⟩ := ih ha
      exact ⟨b, by simp [hb], h⟩

/-- At most one Properties item is a fallback. -/
def OneFallback (blocks : List Block) : Prop := (blocks.filter (fun b => b.cond.isNone)).length ≤ 1

theorem addAll_some {w : World} {t : Table} {e : Env} {outer : Res} {blocks : List Block} {os : List Outcome}
    (hb : Each (Block.Gives w t e outer) blocks os) (h1 : OneFallback blocks) :
    addAll [] blocks = some ((blocks.filter (fun b => b.cond.isSome)).map Block.alt ++
      (blocks.filter (fun b => b.cond.isNone)).map Block.alt) := by
  have := addAll_eq blocks [] [] (fun b hb' => by
    obtain ⟨o, _, h⟩ := hb.mem hb'
    exact h.1.2.2) (by simp) (by simp) (by simpa [OneFallback] using h1)
  simpa using this

theorem find_applying (os : List Outcome) :
    (os.filter (fun o => !o.fallback) ++ os.filter (·.fallback)).find? (fun o => o.fallback || o.holds) =
      (applying os).head? := by
  rw [← List.head?_filter, List.filter_append, List.filter_filter, List.filter_filter]
  have h1 : os.filter (fun o => (o.fallback || o.holds) && !o.fallback) = os.filter (fun o => !o.fallback && o.holds) := by
    apply List.filter_congr
    intro o _
    cases o.fallback <;> cases o.holds <;> rfl
  have h2 : os.filter (fun o => (o.fallback || o.holds) && o.fallback) = os.filter (·.fallback) := by
    apply List.filter_congr
    intro o _
    cases o.fallback <;> cases o.holds <;> rfl
  rw [h1, h2]
  unfold applying
  cases os.filter (fun o => !o.fallback && o.holds) <;> rfl

theorem pure_eq {σ α : Type} (x : α) (s : St σ) : (pure x : M σ α) s = (x, s) := rfl

theorem getExcl_eq {σ : Type} (top : Nat) (s : St σ) : (getExcl top : M σ Bool) s = (s.excl.contains top, s) := rfl

theorem altsResult_done {σ : Type} (e : Env) (b : Bool) (own : M σ Res) (r : Res) (s : St σ) :
    altsResult e b own (.done r) s = (r, s) := rfl

section
variable {w : World} {t : Table} {e : Env}

theorem own_eq {id : Nat} {outside : Option Head} {j : Option Js} (h : OutsideGives w t e outside j)
    (orig : Option (M Unit Res)) (s : St Unit) (hs : s.err = false) :
    evalSource w (known w t) e (topHead id outside) (evalBase w (known w t) e .none) orig none s = (outerOf e.ty j, s) := by
  unfold evalSource
  match outside, j, h with
  | some h, some j, hg =>
    obtain ⟨⟨h1, h2, h3⟩, h4, h5, h6⟩ := hg
    have hex := extraScope_simple (w := w) (t := t) (e := e) h1 h2 (evalBase w (known w t) e .none) orig none s
    rw [h4, if_neg (by decide)] at hex
    show (extraScope w (known w t) e h _ orig none none >>= _) s = _
    rw [bind_eq hex, bind_eq (getErr_eq hs), if_neg (by decide)]
    exact h6.run s
  | none, none, _ =>
    have hex : extraScope w (known w t) e (topHead id none) (evalBase w (known w t) e .none) orig none none s =
        ([("base", convenience e.ty none)], s) := by
      rw [evalBase]
      rfl
    rw [bind_eq hex, bind_eq (getErr_eq hs), if_neg (by decide)]
    have : convenience e.ty none = outerOf e.ty none := by
      unfold convenience outerOf
      by_cases h : e.ty = .strings ∨ e.ty = .paths ∨ e.ty = .var ∨ e.ty = .vars
      · rw [if_pos ⟨h, .inl rfl⟩]
        simp only []
        rw [if_pos h]
      · rw [if_neg (fun h' => h h'.1)]
        simp only []
        rw [if_neg h]
    rw [← this]
    have hl : lookup (known w t) "base" (scopeChain w e (topHead id none) [("base", convenience e.ty none)]) s =
        (.val (convenience e.ty none), s) := by
      simp [scopeChain, lookup, topHead, List.lookup, pure_eq]
    show run (known w t) _ (.read "base" .ret) s = _
    rw [run, bind_eq hl]
    rfl

theorem handle_simple (hout : w.outer e.owner = none) {h : Head} {j : Js} (hg : h.Gives w t e j) (orig : Option (M Unit Res))
    (s : St Unit) (hs : s.err = false) :
    handle w (known w t) e (.given orig) (.source h .none .nil .nil) s =
      (if e.ty.scalar then some j else if j = undef then none else some (.arr (toArr j)), s) := by
  have hb := hg.2.2.1
  have hown := own_eq (id := 0) (outside := some h) (j := some j) hg orig s hs
  simp only [handle, handleAlts, hout]
  rw [bind_eq (pure_eq _ _)]
  have hres : altsResult e h.byBlock (evalSource w (known w t) e h (evalBase w (known w t) e .none) orig none) (.list []) s =
      (if e.ty.scalar then some j else if j = undef then none else some (.arr (toArr j)), s) := by
    show finishAlts e h.byBlock _ [] s = _
    unfold finishAlts
    rw [if_pos (by rfl)]
    have hown' : evalSource w (known w t) e h (evalBase w (known w t) e .none) orig none s = (some j, s) := hown
    rw [bind_eq hown', bind_eq (getErr_eq hs), if_neg (by decide)]
    by_cases hsc : e.ty.scalar = true
    · rw [if_pos hsc, if_pos hsc]
      rfl
    · rw [if_neg hsc, if_neg hsc]
      by_cases hj : j = undef
      · simp [hj, pure_eq]
      · simp [hj, pure_eq, mergeValues]
  simp only [pickOrig]
  rw [bind_eq hres, bind_eq (getErr_eq hs), if_neg (by decide)]
  rw [bind_eq (getExcl_eq _ _)]
  by_cases hsc : e.ty.scalar = true
  · rw [if_pos hsc, if_pos hsc]
    split
    · rfl
    · rw [if_pos (by rfl)]
      rfl
  · rw [if_neg hsc, if_neg hsc]
    split
    · rfl
    · split <;> rfl

theorem finish_source {x r : Res} {s : St Unit} (hs : s.err = false)
    (hr : convert w.resolve e.ty (some (x.getD undef)) = some r) : finish w e false x s = (r, s) := by
  unfold finish
  rw [bind_eq (getErr_eq hs), if_neg (by decide)]
  cases x <;> simp_all [conv, pure_eq]

theorem C60_scalar_lem (hout : w.outer e.owner = none) (hsc : e.ty.scalar = true) {id : Nat} {outside : Option Head}
    {blocks : List Block} {modules : List Head} {os : List Outcome} {jo : Option Js} {ms : List Js}
    (h1 : OneFallback blocks) (hvar : outside = none → e.ty ≠ .var) (hb : Each (Block.Gives w t e (outerOf e.ty jo)) blocks os)
    (ho : OutsideGives w t e outside jo) (hm : Each (Head.Gives w t e) modules ms) :
    ∃ v, propertyOf id outside blocks modules = some v ∧ ∀ r,
      convert w.resolve e.ty (some ((scalarValue os jo ms).getD undef)) = some r →
      (evalTop w (known w t) e v (fresh ())).1 = r ∧ (evalTop w (known w t) e v (fresh ())).2.err = false := by
  refine ⟨.source (topHead id outside) .none (.of ((blocks.filter (fun b => b.cond.isSome)).map Block.alt ++
      (blocks.filter (fun b => b.cond.isNone)).map Block.alt)) (.of modules), ?_, ?_⟩
  · unfold propertyOf
    rw [addAll_some hb h1]
    rfl
  · intro r hr
    have hE : Each (Block.Gives w t e (outerOf e.ty jo))
        (blocks.filter (fun b => b.cond.isSome) ++ blocks.filter (fun b => b.cond.isNone))
        (os.filter (fun o => !o.fallback) ++ os.filter (·.fallback)) := by
      apply Each.append
      · apply hb.filter
        intro b o hbo
        rw [hbo.2.1]
        cases b.cond <;> rfl
      · apply hb.filter
        intro b o hbo
        exact hbo.2.1.symm
    have hh : ∃ s', s'.err = false ∧ handle w (known w t) e .own (.source (topHead id outside) .none
        (.of ((blocks.filter (fun b => b.cond.isSome)).map Block.alt ++ (blocks.filter (fun b => b.cond.isNone)).map Block.alt))
        (.of modules)) (fresh ()) = (scalarValue os jo ms, s') := by
      simp only [handle, hout]
      generalize pickOrig Orig.own (originalOf w (known w t) e (Values.of modules)) = orig
      obtain ⟨s1, hs1, hA⟩ := handleAlts_scalar hout hsc orig (topHead id outside).id _ _ (own_eq (id := id) ho orig) hE
        (some undef) (.inl rfl) (fresh ()) rfl
      rw [List.map_append, find_applying] at hA
      rw [bind_eq hA]
      cases ha : (applying os).head? with
      | some o =>
        refine ⟨s1, hs1, ?_⟩
        dsimp only
        rw [bind_eq (altsResult_done _ _ _ _ _), bind_eq (getErr_eq hs1), if_neg (by decide),
          bind_eq (getExcl_eq _ _)]
        have hv : scalarValue os jo ms = some o.value := by
          unfold scalarValue
          rw [ha]
          rfl
        rw [hv]
        split
        · rfl
        · rw [if_pos (by rfl)]
          rfl
      | none =>
        refine ⟨s1, hs1, ?_⟩
        dsimp only
        have hF : altsResult e (topHead id outside).byBlock (evalSource w (known w t) e (topHead id outside)
            (evalBase w (known w t) e .none) orig none) (.list []) s1 = (outerOf e.ty jo, s1) := by
          show finishAlts e _ _ [] s1 = _
          unfold finishAlts
          rw [if_pos (by rfl), bind_eq (own_eq (id := id) ho orig s1 hs1), bind_eq (getErr_eq hs1), if_neg (by decide), if_pos hsc]
          rfl
        rw [bind_eq hF, bind_eq (getErr_eq hs1), if_neg (by decide),
          bind_eq (getExcl_eq _ _)]
        have hv : scalarValue os jo ms = jo.or ms.head? := by
          unfold scalarValue
          rw [ha]
          rfl
        rw [hv]
        match outside, jo, ho, hvar with
        | some h, some j, _, _ =>
          show (if _ then _ else _ : M Unit Res) s1 = (some j, s1)
          split
          · rfl
          · rw [if_pos (by rfl)]
            rfl
        | none, none, _, hvar =>
          have hn : outerOf e.ty none = none := by
            have := hvar rfl
            unfold outerOf
            dsimp only
            rw [if_neg]
            rintro (h | h | h | h)
            · rw [h] at hsc; exact absurd hsc (by decide)
            · rw [h] at hsc; exact absurd hsc (by decide)
            · exact this h
            · rw [h] at hsc; exact absurd hsc (by decide)
          rw [hn]
          rw [if_neg (by simp), if_pos hsc, if_neg (by simp [topHead])]
          cases hm with
          | nil => rfl
          | @cons h j l m hg _ =>
            simp only [Values.of, firstCandidate]
            rw [bind_eq (handle_simple hout hg orig s1 hs1), if_pos hsc]
            rfl
    obtain ⟨s', hs', hh⟩ := hh
    have : evalTop w (known w t) e (.source (topHead id outside) .none
        (.of ((blocks.filter (fun b => b.cond.isSome)).map Block.alt ++ (blocks.filter (fun b => b.cond.isNone)).map Block.alt))
        (.of modules)) (fresh ()) = (r, s') := by
      unfold evalTop
      rw [bind_eq hh]
      exact finish_source hs' hr
    rw [this]
    exact ⟨rfl, hs'⟩

theorem Strings.ne_undef {j : Js} {l : List String} (h : Strings j l) : j ≠ undef := by
  cases h <;> simp [undef]

theorem Strings.toArr {j : Js} {l : List String} (h : Strings j l) : Eval.toArr j = l.map .str := by
  cases h <;> rfl

theorem elems_strings (f : String → String) (l : List String) : elems f (l.map .str) = some (l.map (fun s => .str (f s))) := by
  induction l with
  | nil => rfl
  | cons a l ih => simp [elems, ih]

theorem convert_strings (l : List String) :
    convert w.resolve .strings (some (.arr (l.map .str))) = some (some (.arr (l.map .str))) := by
  unfold convert
  simp [undef, elems_strings, Eval.toArr]

/-- The values collected: their strings one after another -/
theorem merge_strings {α : Type} (os : List α) (value : α → Js) (values : α → List String)
    (h : ∀ o ∈ os, Strings (value o) (values o)) :
    (os.map value).flatMap toArr = ((os.map values).flatten).map .str := by
  induction os with
  | nil => rfl
  | cons o os ih =>
    simp only [List.map_cons, List.flatMap_cons, List.flatten_cons, List.map_append]
    rw [(h o (by simp)).toArr, ih (fun x hx => h x (List.mem_cons_of_mem _ hx))]

theorem mergeCandidates_eq (hout : w.outer e.owner = none) (hty : e.ty = .strings) (orig : Option (M Unit Res)) (s : St Unit)
    (hs : s.err = false) : ∀ {modules : List Head} {ms : List Js}, Each (Head.Gives w t e) modules ms →
    ∀ {ml : List (List String)}, Each ModuleStrings ms ml → ∀ (lst : List Js), ∃ lst',
    mergeCandidates w (known w t) e orig lst (.of modules) s = (some (lst ++ lst'), s) ∧
    lst'.flatMap toArr = ml.flatten.map .str := by
  intro modules ms h
  induction h with
  | nil =>
    intro ml hml lst
    cases hml
    exact ⟨[], by simp [Values.of, mergeCandidates, pure_eq], rfl⟩
  | @cons h j l m hg _ ih =>
    intro ml hml lst
    cases hml with
    | @cons _ q _ ml hj hml =>
      have h1 := handle_simple hout hg orig s hs
      have hsc : e.ty.scalar = false := by rw [hty]; rfl
      rw [hsc, if_neg (by decide)] at h1
      simp only [Values.of, mergeCandidates]
      rw [bind_eq h1, bind_eq (getErr_eq hs), if_neg (by decide)]
      rcases hj with hj | ⟨hj, hq⟩
      · rw [if_neg hj.ne_undef]
        dsimp only
        rw [if_neg (by simp [undef])]
        have hc : conv (convertElems w.resolve e.ty) (some (Js.arr (Eval.toArr j))) s = (some (.arr (q.map .str)), s) := by
          unfold conv convertElems
          rw [hj.toArr, hty, convert_strings]
          rfl
        rw [bind_eq hc]
        obtain ⟨lst', g1, g2⟩ := ih hml (lst ++ [.arr (q.map .str)])
        refine ⟨.arr (q.map .str) :: lst', ?_, ?_⟩
        · simp only [Option.toList]
          rw [g1]
          simp
        · simp [g2, Eval.toArr]
      · rw [if_pos hj]
        obtain ⟨lst', g1, g2⟩ := ih hml lst
        exact ⟨lst', g1, by rw [g2, hq]; rfl⟩

theorem C60_list_lem (hout : w.outer e.owner = none) (hty : e.ty = .strings) {id : Nat} {outside : Option Head}
    {blocks : List Block} {modules : List Head} {os : List Outcome} {jo : Option Js} {ms : List Js}
    (h1 : OneFallback blocks) (hb : Each (Block.Gives w t e (outerOf e.ty jo)) blocks os)
    (ho : OutsideGives w t e outside jo) (hm : Each (Head.Gives w t e) modules ms)
    {values : Outcome → List String} (hv : ∀ o ∈ applying os, Strings o.value (values o))
    {lo : Option (List String)} (hlo : ∀ j, jo = some j → ∃ l, lo = some l ∧ Strings j l) (hlo' : jo = none → lo = none)
    {ml : List (List String)} (hml : Each ModuleStrings ms ml) :
    ∃ v, propertyOf id outside blocks modules = some v ∧
      (evalTop w (known w t) e v (fresh ())).1 = some (.arr ((listValue os values lo ml).map .str)) ∧
      (evalTop w (known w t) e v (fresh ())).2.err = false := by
  refine ⟨.source (topHead id outside) .none (.of ((blocks.filter (fun b => b.cond.isSome)).map Block.alt ++
      (blocks.filter (fun b => b.cond.isNone)).map Block.alt)) (.of modules), ?_, ?_⟩
  · unfold propertyOf
    rw [addAll_some hb h1]
    rfl
  · have hsc : e.ty.scalar = false := by rw [hty]; rfl
    have hN : Each (Block.Gives w t e (outerOf e.ty jo)) (blocks.filter (fun b => b.cond.isSome)) (os.filter (fun o => !o.fallback)) := by
      apply hb.filter
      intro b o hbo
      rw [hbo.2.1]
      cases b.cond <;> rfl
    have hF : Each (Block.Gives w t e (outerOf e.ty jo)) (blocks.filter (fun b => b.cond.isNone)) (os.filter (·.fallback)) := by
      apply hb.filter
      intro b o hbo
      exact hbo.2.1.symm
    have hff : (os.filter (fun o => !o.fallback)).filter (·.holds) = os.filter (fun o => !o.fallback && o.holds) := by
      rw [List.filter_filter]
      apply List.filter_congr
      intro o _
      cases o.fallback <;> cases o.holds <;> rfl
    have hh : ∃ s', s'.err = false ∧ handle w (known w t) e .own (.source (topHead id outside) .none
        (.of ((blocks.filter (fun b => b.cond.isSome)).map Block.alt ++ (blocks.filter (fun b => b.cond.isNone)).map Block.alt))
        (.of modules)) (fresh ()) = (some (.arr ((listValue os values lo ml).map .str)), s') := by
      simp only [handle, hout]
      generalize pickOrig Orig.own (originalOf w (known w t) e (Values.of modules)) = orig
      have hA : ∃ s1, s1.err = false ∧ s1.excl.contains (topHead id outside).id = (applying os).any (·.over) ∧
          handleAlts w (known w t) e orig (topHead id outside).id (evalSource w (known w t) e (topHead id outside)
            (evalBase w (known w t) e .none) orig none) (some undef) [] (.of ((blocks.filter (fun b => b.cond.isSome)).map Block.alt
            ++ (blocks.filter (fun b => b.cond.isNone)).map Block.alt)) (fresh ()) =
          (.list ((applying os).map (·.value)), s1) := by
        obtain ⟨ov, s1, g1, g2, g3, g4⟩ := handleAlts_list hout hsc orig (topHead id outside).id _ _ (own_eq (id := id) ho orig)
          ((blocks.filter (fun b => b.cond.isNone)).map Block.alt) hN (by
            intro o hm hh
            have hm' := List.mem_filter.mp hm
            apply (hv o _).ne_undef
            have hmem : o ∈ os.filter (fun o => !o.fallback && o.holds) := by
              rw [List.mem_filter]
              exact ⟨hm'.1, by rw [hh, hm'.2]; rfl⟩
            unfold applying
            rw [if_neg (by
              rw [List.isEmpty_iff]
              intro h0
              rw [h0] at hmem
              simp at hmem)]
            exact hmem) (by
            intro o hm
            simpa using (List.mem_filter.mp hm).2) (some undef) (.inl rfl) [] (fresh ()) rfl
        rw [g4, hff, List.nil_append]
        rw [hff] at g3
        unfold applying at hv ⊢
        by_cases hemp : (os.filter (fun o => !o.fallback && o.holds)).isEmpty = true
        · rw [if_pos hemp] at hv ⊢
          have hnil := List.isEmpty_iff.mp hemp
          rw [hnil] at g3 ⊢
          have h1' : (os.filter (·.fallback)).length ≤ 1 := by
            have : ∀ {l : List Block} {m : List Outcome}, Each (Block.Gives w t e (outerOf e.ty jo)) l m → l.length = m.length := by
              intro l m h
              induction h with
              | nil => rfl
              | cons _ _ ih => simp [ih]
            rw [← this hF]
            exact h1
          generalize hos : os.filter (·.fallback) = fos at hF h1' hv ⊢
          generalize blocks.filter (fun b => b.cond.isNone) = fbs at hF
          cases hF with
          | nil => exact ⟨s1, g2, by simpa [fresh] using g3, rfl⟩
          | @cons b o l m hbo hl =>
            cases hl with
            | cons _ _ => simp only [List.length_cons] at h1'; omega
            | nil =>
              have hofb : o.fallback = true := (List.mem_filter.mp (hos ▸ List.mem_singleton.mpr rfl : o ∈ os.filter (·.fallback))).2
              obtain ⟨ov', k1, k2, k3⟩ := nextOuter_eq hout b.alt.head _ _ ov (own_eq (id := id) ho orig) g1 s1 g2
              have k4 := evalAlt_eq hout hbo (ov := ov') k3 (topHead id outside).id (evalBase w (known w t) e .none) orig s1 g2
              rw [hofb, if_pos (by rfl)] at k4
              refine ⟨{ s1 with excl := if o.over then (topHead id outside).id :: s1.excl else s1.excl }, g2, ?_, ?_⟩
              · have g3' : s1.excl.contains (topHead id outside).id = false := by simpa [fresh] using g3
                dsimp only
                cases hov : o.over with
                | true => simp [hov]
                | false => rw [if_neg (by decide), g3']; simp [hov]
              · simp only [List.map_cons, List.map_nil, Alts.of, handleAlts]
                rw [if_neg (by simp), bind_eq k1, bind_eq (getErr_eq g2), if_neg (by decide), bind_eq k4,
                  bind_eq (getErr_eq (s := { s1 with excl := if o.over then (topHead id outside).id :: s1.excl else s1.excl }) g2),
                  if_neg (by decide)]
                dsimp only
                rw [hsc, if_neg (by decide), if_neg (hv o (by simp)).ne_undef]
                rfl
        · rw [if_neg hemp]
          refine ⟨s1, g2, by simpa [fresh] using g3, ?_⟩
          have hne : (os.filter (fun o => !o.fallback && o.holds)).map (·.value) ≠ [] := by
            intro h0
            exact hemp (List.isEmpty_iff.mpr (List.map_eq_nil_iff.mp h0))
          generalize hos : os.filter (·.fallback) = fos at hF
          generalize blocks.filter (fun b => b.cond.isNone) = fbs at hF
          cases hF with
          | nil => rfl
          | @cons b o l m hbo hl =>
            have hofb : o.fallback = true := (List.mem_filter.mp (hos ▸ List.mem_cons_self : o ∈ os.filter (·.fallback))).2
            have hfb : b.alt.head.fallback = true := by
              have := hbo.2.1
              rw [hofb] at this
              simp [Block.alt, ← this]
            simp only [List.map_cons, Alts.of, handleAlts]
            rw [if_pos (by
              rw [hfb, Bool.true_and, Bool.not_eq_true', List.isEmpty_eq_false_iff]
              exact hne)]
            rfl
      obtain ⟨s1, hs1, hex, hA⟩ := hA
      rw [bind_eq hA]
      have hR : altsResult e (topHead id outside).byBlock (evalSource w (known w t) e (topHead id outside)
            (evalBase w (known w t) e .none) orig none) (.list ((applying os).map (·.value))) s1 =
          (some (.arr ((((applying os).map values).flatten ++ lo.getD []).map .str)), s1) := by
        show finishAlts e _ _ _ s1 = _
        unfold finishAlts
        have hmg := merge_strings (applying os) (·.value) values hv
        match outside, jo, ho, hlo, hlo' with
        | some h, some j, ho, hlo, _ =>
          obtain ⟨l, hl1, hl2⟩ := hlo j rfl
          rw [if_pos (by
            show (_ || !h.byBlock) = true
            have : h.byBlock = false := ho.2.2.1
            rw [this]
            simp)]
          rw [bind_eq (own_eq (id := id) (outside := some h) (j := some j) ho orig s1 hs1), bind_eq (getErr_eq hs1), if_neg (by decide), hsc,
            if_neg (by decide)]
          simp [outerOf, hl2.ne_undef, pure_eq, mergeValues, hmg, hl1, hl2.toArr]
        | none, none, ho, _, hlo' =>
          rw [hlo' rfl]
          simp only [Option.getD_none, List.append_nil]
          have hbb : (topHead id none).byBlock = true := rfl
          rw [hbb]
          simp only [Bool.not_true, Bool.or_false]
          by_cases hemp : ((applying os).map (·.value)).isEmpty = true
          · rw [if_pos hemp, bind_eq (own_eq (id := id) (outside := none) (j := none) trivial orig s1 hs1), bind_eq (getErr_eq hs1),
              if_neg (by decide), hsc, if_neg (by decide)]
            have hnil : applying os = [] := List.map_eq_nil_iff.mp (List.isEmpty_iff.mp hemp)
            have hou : outerOf e.ty none = some (.arr []) := by rw [hty]; rfl
            simp [hou, hnil, undef, pure_eq, mergeValues, Eval.toArr]
          · rw [if_neg hemp, if_neg hemp]
            simp only [pure_eq, mergeValues, hmg]
      rw [bind_eq hR, bind_eq (getErr_eq hs1), if_neg (by decide), bind_eq (getExcl_eq _ _), hex]
      unfold listValue
      cases hov : (applying os).any (·.over) with
      | true =>
        refine ⟨s1, hs1, ?_⟩
        rw [if_pos (by rfl), if_pos rfl, List.append_nil]
        rfl
      | false =>
        refine ⟨s1, hs1, ?_⟩
        rw [if_neg (by simp), if_neg (by simp [hsc]), if_neg (by decide)]
        obtain ⟨lst', m1, m2⟩ := mergeCandidates_eq hout hty orig s1 hs1 hm hml
          [.arr ((((applying os).map values).flatten ++ lo.getD []).map .str)]
        cases hm with
        | nil =>
          cases hml
          simp [Values.of, pure_eq]
        | cons _ _ =>
          simp only [Values.of] at m1 ⊢
          rw [if_neg (by simp [undef]), bind_eq m1]
          simp only [List.cons_append, List.nil_append, pure_eq, mergeValues, List.flatMap_cons, m2, Eval.toArr, List.map_append]
    obtain ⟨s', hs', hh⟩ := hh
    have : evalTop w (known w t) e (.source (topHead id outside) .none
        (.of ((blocks.filter (fun b => b.cond.isSome)).map Block.alt ++ (blocks.filter (fun b => b.cond.isNone)).map Block.alt))
        (.of modules)) (fresh ()) = (some (.arr ((listValue os values lo ml).map .str)), s') := by
      unfold evalTop
      rw [bind_eq hh]
      apply finish_source hs'
      rw [hty]
      exact convert_strings _
    rw [this]
    exact ⟨rfl, hs'⟩

end

/-- A property that is no list: its value is that of the first Properties item that applies, otherwise the one outside of
    Properties items, otherwise the one from the module. If nothing is bound outside, its type is not `var`. -/
theorem C60_scalar_partial {w : World} {t : Table} {i : Item} {n : Name} {obj owner : Item} {v : Value} (hn : n ≠ "parent")
    (hf : w.find i n = some (obj, owner, v)) {id : Nat} {outside : Option Head} {blocks : List Block} {modules : List Head}
    (hv : propertyOf id outside blocks modules = some v) (hout : w.outer owner = none) (hsc : (w.ty owner n).scalar = true)
    (h1 : OneFallback blocks) (hvar : outside = none → w.ty owner n ≠ .var) {os : List Outcome} {jo : Option Js} {ms : List Js}
    (hb : Each (Block.Gives w t ⟨obj, i, owner, n, w.ty owner n⟩ (outerOf (w.ty owner n) jo)) blocks os)
    (ho : OutsideGives w t ⟨obj, i, owner, n, w.ty owner n⟩ outside jo)
    (hm : Each (Head.Gives w t ⟨obj, i, owner, n, w.ty owner n⟩) modules ms) {r : Res}
    (hr : convert w.resolve (w.ty owner n) (some ((scalarValue os jo ms).getD undef)) = some r) : Follows w t i n r := by
  obtain ⟨v', hv', h⟩ := C60_scalar_lem (w := w) (t := t) (e := ⟨obj, i, owner, n, w.ty owner n⟩) (id := id) hout hsc h1 hvar hb ho hm
  rw [hv] at hv'
  simp only [Option.some.injEq] at hv'
  subst hv'
  exact ⟨hn, obj, owner, v, hf, (h r hr).1, (h r hr).2⟩

/-- A list of strings: its value is made up of those of all Properties items that apply, the one outside of Properties items,
    and those from modules unless they are overridden. The bindings that apply are not undefined. -/
theorem C60_list_partial {w : World} {t : Table} {i : Item} {n : Name} {obj owner : Item} {v : Value} (hn : n ≠ "parent")
    (hf : w.find i n = some (obj, owner, v)) {id : Nat} {outside : Option Head} {blocks : List Block} {modules : List Head}
    (hv : propertyOf id outside blocks modules = some v) (hout : w.outer owner = none) (hty : w.ty owner n = .strings)
    (h1 : OneFallback blocks) {os : List Outcome} {jo : Option Js} {ms : List Js}
    (hb : Each (Block.Gives w t ⟨obj, i, owner, n, w.ty owner n⟩ (outerOf (w.ty owner n) jo)) blocks os)
    (ho : OutsideGives w t ⟨obj, i, owner, n, w.ty owner n⟩ outside jo)
    (hm : Each (Head.Gives w t ⟨obj, i, owner, n, w.ty owner n⟩) modules ms)
    {values : Outcome → List String} (hs : ∀ o ∈ applying os, Strings o.value (values o))
    {lo : Option (List String)} (hlo : ∀ j, jo = some j → ∃ l, lo = some l ∧ Strings j l) (hlo' : jo = none → lo = none)
    {ml : List (List String)} (hml : Each ModuleStrings ms ml) :
    Follows w t i n (some (.arr ((listValue os values lo ml).map .str))) := by
  obtain ⟨v', hv', h⟩ := C60_list_lem (w := w) (t := t) (e := ⟨obj, i, owner, n, w.ty owner n⟩) (id := id) hout hty h1 hb ho hm hs
    hlo hlo' hml
  rw [hv] at hv'
  simp only [Option.some.injEq] at hv'
  subst hv'
  exact ⟨hn, obj, owner, v, hf, h.1, h.2⟩

/-- Unless there are two fallbacks, the bindings make up a value. -/
theorem C60_accepted (id : Nat) (outside : Option Head) (blocks : List Block) (modules : List Head) (h1 : OneFallback blocks)
    (hs : ∀ b ∈ blocks, b.head.fallback = false) : propertyOf id outside blocks modules ≠ none := by
  have := addAll_eq blocks [] [] hs (by simp) (by simp) (by simpa [OneFallback] using h1)
  unfold propertyOf
  rw [List.append_nil] at this
  rw [this]
  simp

/-- What follows from established values is what the property evaluates to, if it evaluates to anything, whatever has been
    evaluated before without errors. -/
theorem C60_evaluated_partial {w : World} (hw : w.Plain) {keys : List (Item × Name)} (hk : Declarations w keys) (on : Bool)
    (bot : Reader Cache) {k : Nat} (hd : keys.length + 1 ≤ k) (before : List (Item × Name))
    (hb : ∀ r ∈ (evaluateAll w on bot k before [] []).1, r ≠ none) {t : Table} (ht : Established w t) {i : Item} {n : Name}
    {r r' : Res} (hf : Follows w t i n r)
    (h : (evaluate w on bot k i n (evaluateAll w on bot k before [] []).2.1 (evaluateAll w on bot k before [] []).2.2).1 = some r') :
    r' = r := by
  refine C61_unique hw (C61_right_partial hw hk bot hd before hb i n h) ⟨t ++ [((i, n), r)], .snoc ht hf, .inl ?_⟩
  obtain ⟨hn, obj, owner, v, hv, _⟩ := id hf
  rw [known_find w _ i hn hv ((Established.snoc ht hf).lookup hw (k := (i, n)) (r := r) (by simp))]

theorem lookup_append {σ : Type} (rd : Reader σ) (n : Name) (l m : List Scope) (s : St σ) :
    lookup rd n (l ++ m) s = (match lookup rd n l s with
      | (.missing, s') => lookup rd n m s'
      | r => r) := by
  induction l generalizing s with
  | nil => rfl
  | cons sc l ih =>
    cases sc with
    | vars v =>
      simp only [List.cons_append, lookup]
      cases v.lookup n with
      | some r => rfl
      | none => exact ih s
    | item i =>
      simp only [List.cons_append, lookup]
      cases hr : rd i n s with
      | mk f s' =>
        rw [bind_eq hr, bind_eq hr]
        cases f with
        | val r => rfl
        | exc => rfl
        | missing => exact ih s'

/-- What a name in a binding stands for: something imported; if there is nothing of this name, a special value; if there is
    none, something in the scopes of the value, the innermost first; then a property of the item itself; then something in the
    scopes of the item, the innermost first; then something in the file's scope. The item itself is left out for values with a
    scope in modules. -/
theorem C60_names {σ : Type} (rd : Reader σ) (w : World) (e : Env) (h : Head) (extra : List (Name × Res)) (n : Name) (s : St σ) :
    (∀ r, h.imports.lookup n = some r → lookup rd n (scopeChain w e h extra) s = (.val r, s)) ∧
    (∀ r, h.imports.lookup n = none → extra.lookup n = some r → lookup rd n (scopeChain w e h extra) s = (.val r, s)) ∧
    (h.imports.lookup n = none → extra.lookup n = none →
      (∀ outer sc r s', h.scopes = outer ++ [sc] → lookup rd n [sc] s = (.val r, s') →
        lookup rd n (scopeChain w e h extra) s = (.val r, s')) ∧
      (h.scopes = [] → (w.inst e.owner = false ∨ h.hasScope = false) →
        (∀ r s', rd e.obj n s = (.val r, s') → lookup rd n (scopeChain w e h extra) s = (.val r, s')) ∧
        (∀ s', rd e.obj n s = (.missing, s') →
          (∀ outer sc r s'', w.scopes e.item = outer ++ [sc] → lookup rd n [sc] s' = (.val r, s'') →
            lookup rd n (scopeChain w e h extra) s = (.val r, s'')) ∧
          (∀ outer sc r s'', w.scopes e.item = [] → h.fileScope = outer ++ [sc] → lookup rd n [sc] s' = (.val r, s'') →
            lookup rd n (scopeChain w e h extra) s = (.val r, s'')) ∧
          (∀ f, w.scopes e.item = [f] → ∀ outer sc r s'' s3, lookup rd n [f] s' = (.missing, s'') → h.fileScope = outer ++ [sc] →
            lookup rd n [sc] s'' = (.val r, s3) → lookup rd n (scopeChain w e h extra) s = (.val r, s3)))) ∧
      (h.scopes = [] → w.inst e.owner = true → h.hasScope = true → ∀ outer sc r s', w.scopes e.item = outer ++ [sc] →
        lookup rd n [sc] s = (.val r, s') → lookup rd n (scopeChain w e h extra) s = (.val r, s'))) := by
  have cons : ∀ (sc : Scope) (l : List Scope) (s : St σ), lookup rd n (sc :: l) s = (match lookup rd n [sc] s with
      | (.missing, s') => lookup rd n l s'
      | r => r) := fun sc l s => lookup_append rd n [sc] l s
  refine ⟨fun r h1 => ?_, fun r h1 h2 => ?_, fun h1 h2 => ?_⟩
  · simp only [scopeChain, lookup, h1]
    rfl
  · simp only [scopeChain, lookup, h1, h2]
    rfl
  · have h0 : lookup rd n (scopeChain w e h extra) = lookup rd n (h.scopes.reverse ++
      (if w.inst e.owner = false ∨ h.hasScope = false then [.item e.obj] else []) ++
      (w.scopes e.item).reverse ++ h.fileScope.reverse) := by
      simp only [scopeChain, lookup, h1, h2]
    rw [h0]
    have item : ∀ (s s' : St σ) (f : Found), rd e.obj n s = (f, s') → lookup rd n [.item e.obj] s = (f, s') := by
      intro s s' f hf
      simp only [lookup]
      rw [bind_eq hf]
      cases f <;> rfl
    refine ⟨fun outer sc r s' h3 h4 => ?_, fun h3 h4 => ⟨fun r s' h5 => ?_, fun s' h5 => ⟨fun outer sc r s'' h6 h7 => ?_,
      fun outer sc r s'' h6 h7 h8 => ?_, fun f h6 outer sc r s'' s3 h7 h8 h9 => ?_⟩⟩, fun h3 h4 h5 outer sc r s' h6 h7 => ?_⟩
    · rw [h3]
      simp only [List.reverse_append, List.reverse_cons, List.reverse_nil, List.nil_append, List.cons_append]
      rw [cons, h4]
    · rw [h3, if_pos h4]
      simp only [List.reverse_nil, List.nil_append, List.cons_append]
      rw [cons, item _ _ _ h5]
    · rw [h3, if_pos h4, h6]
      simp only [List.reverse_nil, List.nil_append, List.cons_append, List.reverse_append, List.reverse_cons]
      rw [cons, item _ _ _ h5]
      simp only []
      rw [cons, h7]
    · rw [h3, if_pos h4, h6, h7]
      simp only [List.reverse_nil, List.nil_append, List.cons_append, List.reverse_append, List.reverse_cons]
      rw [cons, item _ _ _ h5]
      simp only []
      rw [cons, h8]
    · rw [h3, if_pos h4, h6, h8]
      simp only [List.reverse_nil, List.nil_append, List.cons_append, List.reverse_append, List.reverse_cons]
      rw [cons, item _ _ _ h5]
      simp only []
      rw [cons, h7]
      simp only []
      rw [cons, h9]
    · rw [h3, if_neg (by simp [h4, h5]), h6]
      simp only [List.reverse_nil, List.nil_append, List.cons_append, List.reverse_append, List.reverse_cons]
      rw [cons, h7]

end Verif.Eval
