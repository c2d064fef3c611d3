import Verif.Cpp.Main
/-!
# C58, C59: lines that have to do with modules
-/
namespace Verif.Cpp

/-! ## The loop at such a line -/

/-- The token is first in its line and this word. -/
structure At (s : St) (w : String) : Prop where
  newline : s.tk.newline = true
  kind : s.tk.kind = .ident
  text : s.tk.text = w.toList

theorem loop_module (o : Opts) (hd : o.deps = true) (n : Nat) (s : St) (res : Result) (h : At s "module") :
    loop o (n + 1) s res =
      if (s.step o).tk.kind = .ident then
        match parseModule o n (s.step o) res with
        | none => none
        | some (s2, res') => loop o n s2 res'
      else loop o n (s.step o) res := by
  rw [loop, if_neg (by rw [h.kind]; exact Kind.noConfusion), if_pos ⟨hd, h.newline, h.kind, .inl h.text⟩]
  simp only
  rw [if_pos h.text]
  rfl

theorem loop_import (o : Opts) (hd : o.deps = true) (n : Nat) (s : St) (res : Result) (h : At s "import") :
    loop o (n + 1) s res =
        match parseImport o n (s.step o) res with
        | none => none
        | some (s2, res') => loop o n s2 res' := by
  rw [loop, if_neg (by rw [h.kind]; exact Kind.noConfusion), if_pos ⟨hd, h.newline, h.kind, .inr (.inl h.text)⟩]
  simp only
  rw [if_neg (by rw [h.text]; decide), if_pos h.text]
  rfl

theorem loop_export (o : Opts) (hd : o.deps = true) (n : Nat) (s : St) (res : Result) (h : At s "export") :
    loop o (n + 1) s res =
      if (s.step o).tk.text = "module".toList then
        match parseModule o n ((s.step o).step o) res with
        | none => none
        | some (s2, res') => loop o n s2 { res' with isInterface := true }
      else if (s.step o).tk.text = "import".toList then
        match parseImport o n ((s.step o).step o) res with
        | none => none
        | some (s2, res') => loop o n s2 res'
      else
        if (rest o (s.step o) res).2.2 then some (rest o (s.step o) res).2.1
        else loop o n (rest o (s.step o) res).1 (rest o (s.step o) res).2.1 := by
  rw [loop, if_neg (by rw [h.kind]; exact Kind.noConfusion), if_pos ⟨hd, h.newline, h.kind, .inr (.inr h.text)⟩]
  simp only
  rw [if_neg (by rw [h.text]; decide), if_neg (by rw [h.text]; decide)]
  rfl

/-! ## Names -/

theorem moduleText_eq (w : List Cp) (ss : List Step) (part : Option Step) :
    bytes w ++ stepsName ss ++ partName part = fullName (moduleText w ss) (part.map (fun s => bytes s.word)) := by
  cases part with
  | none => simp [fullName, moduleText, stepsName, partName]
  | some p => simp [fullName, moduleText, stepsName, partName]

theorem no_colon {w : List Cp} (h : WordOk w) : ':' ∉ bytes w := by
  obtain ⟨-, h2, -, -, h5⟩ := h
  intro hm
  simp only [bytes, List.mem_flatMap, List.mem_cons] at hm
  obtain ⟨u, hu, he | he⟩ := hm
  · have := h2 u hu
    unfold identChar at this
    rw [← he] at this
    exact absurd this (by decide)
  · exact absurd (h5 u hu _ he) (by decide)

theorem no_colon_name {w : List Cp} {ss : List Step} (h : WordOk w) (hs : ∀ s ∈ ss, s.Ok) : ':' ∉ moduleText w ss := by
  unfold moduleText
  intro hm
  rcases List.mem_append.1 hm with hm | hm
  · exact no_colon h hm
  · obtain ⟨s, h1, h2⟩ := List.mem_flatMap.1 hm
    rcases List.mem_cons.1 h2 with e | h2
    · exact absurd e (by decide)
    · exact no_colon (hs s h1).2.2 h2

theorem bytes_ne {w : List Cp} (h : w ≠ []) : bytes w ≠ [] := by
  obtain ⟨u, w', rfl⟩ := List.exists_cons_of_ne_nil h
  simp [bytes]

theorem takeWhile_colon (a : Str) (part : Option Str) (ha : ':' ∉ a) : (fullName a part).takeWhile (· ≠ ':') = a := by
  have key : ∀ (a t : Str), ':' ∉ a → (t = [] ∨ ∃ r, t = ':' :: r) → (a ++ t).takeWhile (· ≠ ':') = a := by
    intro a t
    induction a with
    | nil => intro _ ht; rcases ht with rfl | ⟨r, rfl⟩ <;> simp
    | cons c a ih =>
      intro h ht
      have hc : c ≠ ':' := fun e => h (by simp [e])
      have := ih (fun hh => h (by simp [hh])) ht
      rw [List.cons_append, List.takeWhile_cons_of_pos (by simp [hc]), this]
  cases part with
  | none => simpa [fullName] using key a [] ha (.inl rfl)
  | some p => exact key a _ ha (.inr ⟨_, rfl⟩)

/-! ## A declaration -/

theorem parseModule_found (o : Opts) (hn : Nat) (w : List Cp) (hw : WordOk w) (ss : List Step) (hss : ∀ t ∈ ss, t.Ok) (part : Option Step)
    (hp : ∀ s, part = some s → s.Ok) (g' : List Gap) (hg' : GapsOk g') (es : List Elem) (A : List Cp) (hok : Ok A none es)
    (ex : Bool) (s s' : St) (res res' : Result) (incs : List (Bool × Str)) (m : Modules) (l : Line)
    (hl : l.declares = some (ex, moduleText w ss, part.map (fun s => bytes s.word)))
    (h1 : s.tk.kind ≠ .eof) (h2 : s.tk.kind ≠ .semicolon) (h3 : s.tk.text = bytes w)
    (hr : s.rest = stepsText ss ++ (partText part ++ (gapsText g' ++ ch ';' :: (elemsText es ++ A)))) (hR : R res incs m)
    (h : parseModule o hn s res = some (s', res')) :
    R { res' with isInterface := res'.isInterface || ex } incs (m.add o.cppm l) ∧
    ∃ es' p', Dull s'.tk ∧ s'.rest = elemsText es' ++ A ∧ Ok A p' es' := by
  unfold parseModule at h
  cases hmn : moduleName o hn s s.tk.text with
  | none => rw [hmn] at h; cases h
  | some x =>
    obtain ⟨nm, s2⟩ := x
    rw [hmn] at h
    simp only [Option.some.injEq, Prod.mk.injEq] at h
    obtain ⟨e1, e2⟩ := h
    subst e1 e2
    obtain ⟨i1, i2, i3, i4⟩ := moduleName_found o part hp g' hg' _ hn ss s s2 _ nm hss h1 h2 hr hmn
    rw [h3, moduleText_eq] at i1
    have hne : fullName (moduleText w ss) (part.map (fun s => bytes s.word)) ≠ [] := by
      have := bytes_ne hw.1
      cases part with
      | none => simp [fullName, moduleText, this]
      | some p => simp [fullName]
    refine ⟨?_, ?_⟩
    · unfold Modules.add
      rw [hl]
      simp only
      cases hc : o.cppm with
      | true =>
        refine ⟨hR.includes, i1, i1, by simp [hR.isInterface], hR.needs, by simp, ?_⟩
        intro x hx
        obtain rfl := Option.some.inj hx
        exact ⟨hne, takeWhile_colon _ _ (no_colon_name hw hss)⟩
      | false =>
        refine ⟨hR.includes, i1, hR.provides, by simp [hR.isInterface], by simp [hR.needs, i1], by simp, ?_⟩
        intro x hx
        obtain rfl := Option.some.inj hx
        exact ⟨hne, takeWhile_colon _ _ (no_colon_name hw hss)⟩
    · cases part with
      | none => exact ⟨es, none, dull_mid i3 i2, i4, hok⟩
      | some p =>
        refine ⟨g'.map .gap ++ .plain (ch ';') :: es, none, dull_mid i3 i2, ?_, ?_⟩
        · rw [gaps_text, i4]; simp [elemsText, Elem.text]
        · refine ok_gaps g' none hg' (fun p => ⟨by unfold Plain; decide, fun e => absurd e (by decide), ?_⟩)
          exact ok_sep (by unfold Sep; decide) hok

/-! ## An import -/

theorem R_needs {res : Result} {incs : List (Bool × Str)} {m : Modules} (hR : R res incs m) (x : Str) :
    R { res with requiresModules := res.requiresModules ++ [x] } incs { m with needs := m.needs ++ [x] } :=
  ⟨hR.includes, hR.part, hR.provides, hR.isInterface, by simp [hR.needs], hR.noOwn, hR.own⟩

theorem semi_parts {g' : List Gap} (hg' : GapsOk g') {es : List Elem} {A : List Cp} (hok : Ok A none es) :
    ∃ es', gapsText g' ++ ch ';' :: (elemsText es ++ A) = elemsText es' ++ A ∧ Ok A none es' := by
  refine ⟨g'.map .gap ++ .plain (ch ';') :: es, ?_, ?_⟩
  · rw [gaps_text]; simp [elemsText, Elem.text]
  · refine ok_gaps g' none hg' (fun p => ⟨by unfold Plain; decide, fun e => absurd e (by decide), ?_⟩)
    exact ok_sep (by unfold Sep; decide) hok

theorem add_import {cppm : Bool} {m : Modules} {l : Line} (h1 : l.declares = none) :
    m.add cppm l = { m with needs := m.needs ++ (l.imports m.own).toList } := by
  unfold Modules.add
  rw [h1]

theorem parseImport_found (o : Opts) (hn : Nat) (lead : List Gap) (ex : Option (List Gap)) (g : List Gap) (hg : GapsOk g) (t : Target) (ht : t.Ok o.reserved g)
    (g' : List Gap) (hg' : GapsOk g') (es : List Elem) (c : Option (List Part)) (A : List Cp) (hok : Ok A none es)
    (s s' : St) (res res' : Result) (incs : List (Bool × Str)) (m : Modules)
    (hr : s.rest = gapsText g ++ (t.text ++ (gapsText g' ++ ch ';' :: (elemsText es ++ A)))) (hR : R res incs m)
    (h : parseImport o hn (s.step o) res = some (s', res')) :
    R res' incs (m.add o.cppm (.imported lead ex g t g' es c)) ∧
    ∃ es' p', Dull s'.tk ∧ s'.rest = elemsText es' ++ A ∧ Ok A p' es' := by
  rw [add_import (l := .imported lead ex g t g' es c) rfl]
  obtain ⟨es1, hs1, hs2⟩ := semi_parts hg' hok
  cases t with
  | partition g2 w =>
    obtain ⟨hg2, hw⟩ := ht
    simp only [Target.text, List.cons_append, List.append_assoc] at hr
    have hb := begin_word hg2 hw (gapsText g' ++ ch ';' :: (elemsText es ++ A))
    obtain ⟨k1, k2, k3⟩ := step_punct (f := o.reserved) hg (c := ':') (k := .colon)
      (t := gapsText g2 ++ (w ++ (gapsText g' ++ ch ';' :: (elemsText es ++ A))))
      (.inr (.inl ⟨rfl, rfl, fun e => hb.1 (by rw [e]; decide), fun e => hb.1 (by rw [e]; decide)⟩))
    rw [← hr] at k1 k2 k3
    change (s.step o).tk.kind = _ at k2
    change (s.step o).rest = _ at k3
    obtain ⟨j1, j2, j3, j4⟩ := step_word (f := o.reserved) hg2 hw (t := gapsText g' ++ ch ';' :: (elemsText es ++ A))
      (wordEnd_gaps hg' (fun _ => wordEnd_ch (by simp) _))
    rw [← k3] at j1 j2 j3 j4
    change ((s.step o).step o).tk.newline = false at j1
    change ((s.step o).step o).tk.kind = _ at j2
    change ((s.step o).step o).tk.text = _ at j3
    change ((s.step o).step o).rest = _ at j4
    unfold parseImport at h
    rw [if_pos k2] at h
    simp only [Option.some.injEq, Prod.mk.injEq] at h
    obtain ⟨e1, e2⟩ := h
    subst e1 e2
    refine ⟨?_, es1, none, dull_mid (by rw [j2]; split <;> exact Kind.noConfusion) j1, by rw [j4, hs1], hs2⟩
    simp only [Line.imports, j3, hR.part]
    cases ho : m.own with
    | none =>
      rw [if_pos (by rw [hR.noOwn ho]; rfl)]
      simp only [Option.map_none, Option.toList_none, List.append_nil]
      rw [← ho]
      exact hR
    | some x =>
      obtain ⟨o1, o2⟩ := hR.own x ho
      rw [if_neg (by simpa using o1), o2]
      simp only [Option.map_some, Option.toList_some]
      rw [← ho, ← hR.part]
      have := R_needs hR (x ++ ':' :: bytes w)
      rw [← hR.part] at this
      exact this
  | quoted ps =>
    simp only [Target.text, List.cons_append, List.append_assoc, List.nil_append] at hr
    have hlit := literal_rest '"' (.inl rfl) ps (gapsText g' ++ ch ';' :: (elemsText es ++ A)) ht
    have hsc : scan o.reserved false s.rest = lexAt o.reserved false false (ch '"') (partsText ps ++ ch '"' :: (gapsText g' ++ ch ';' :: (elemsText es ++ A))) := by
      rw [hr, scan_gaps _ _ _ _ hg, scan_eq]
      exact scanFrom_stay (skip_stay false _ _ (by decide) (by decide) (fun h => absurd h (by decide)))
    have hlex : lexOne o.reserved false (ch '"') (partsText ps ++ ch '"' :: (gapsText g' ++ ch ';' :: (elemsText es ++ A))) =
        (.string, gapsText g' ++ ch ';' :: (elemsText es ++ A)) := by
      unfold lexOne
      rw [if_pos (by rfl), hlit]
    have k2 : (s.step o).tk.kind = .string := by
      show (scan o.reserved false s.rest).1.kind = _
      rw [hsc]; unfold lexAt; simp only [hlex]
    have k1 : (s.step o).tk.newline = false := by
      show (scan o.reserved false s.rest).1.newline = _
      rw [hsc]; rfl
    have k3 : (s.step o).rest = gapsText g' ++ ch ';' :: (elemsText es ++ A) := by
      show (scan o.reserved false s.rest).2 = _
      rw [hsc]; unfold lexAt; simp only [hlex]
    unfold parseImport at h
    simp only [k2] at h
    rw [if_neg (by exact Kind.noConfusion)] at h
    simp only [Option.some.injEq, Prod.mk.injEq, reduceCtorEq, not_false_eq_true, if_true, if_false, ne_eq, k2] at h
    obtain ⟨e1, e2⟩ := h
    subst e1 e2
    refine ⟨?_, es1, none, dull_mid (by rw [k2]; exact Kind.noConfusion) k1, by rw [k3, hs1], hs2⟩
    simpa [Line.imports] using hR
  | module w ss =>
    obtain ⟨hne, ⟨hw, hres⟩, hss⟩ := ht
    simp only [Target.text, List.append_assoc] at hr
    obtain ⟨k1, k2, k4, k3⟩ := step_word (f := o.reserved) hg hw (t := stepsText ss ++ (gapsText g' ++ ch ';' :: (elemsText es ++ A)))
      (wordEnd_steps ss hss _ (wordEnd_gaps hg' (fun _ => wordEnd_ch (by simp) _)))
    rw [← hr, hres] at k2
    rw [← hr] at k1 k3 k4
    change (s.step o).tk.newline = false at k1
    change (s.step o).tk.kind = .ident at k2
    change (s.step o).tk.text = _ at k4
    change (s.step o).rest = _ at k3
    unfold parseImport at h
    simp only [k2] at h
    rw [if_neg (by exact Kind.noConfusion)] at h
    simp only [reduceCtorEq, if_false, k2, ne_eq, not_true_eq_false, k4] at h
    cases hin : importName o hn (s.step o) (bytes w) with
    | none => rw [hin] at h; cases h
    | some x =>
      obtain ⟨nm, s2⟩ := x
      rw [hin] at h
      simp only [Option.some.injEq, Prod.mk.injEq] at h
      obtain ⟨e1, e2⟩ := h
      subst e1 e2
      obtain ⟨i1, i2, i3, i4⟩ := importName_found o g' hg' ';' .semicolon _ (.inl ⟨rfl, rfl⟩) hn ss _ _ _ nm hss (.inl k2) k3 hin
      refine ⟨?_, es, none, dull_mid i3 i2, i4, hok⟩
      rw [i1]
      exact R_needs hR _
  | angle g2 w ss g3 =>
    obtain ⟨hg2, ⟨hw, hres⟩, hss, hg3⟩ := ht
    simp only [Target.text, List.cons_append, List.append_assoc, List.nil_append] at hr
    have hb := begin_word hg2 hw (stepsText ss ++ (gapsText g3 ++ ch '>' :: (gapsText g' ++ ch ';' :: (elemsText es ++ A))))
    obtain ⟨k1, k2, k3⟩ := step_punct (f := o.reserved) hg (c := '<') (k := .less)
      (t := gapsText g2 ++ (w ++ (stepsText ss ++ (gapsText g3 ++ ch '>' :: (gapsText g' ++ ch ';' :: (elemsText es ++ A))))))
      (.inr (.inr (.inr (.inr (.inl ⟨rfl, rfl, fun e => hb.1 (by rw [e]; decide), fun e => hb.1 (by rw [e]; decide),
        fun e => hb.1 (by rw [e]; decide), fun e => hb.1 (by rw [e]; decide)⟩)))))
    rw [← hr] at k1 k2 k3
    change (s.step o).tk.kind = _ at k2
    change (s.step o).rest = _ at k3
    obtain ⟨j1, j2, j4, j3⟩ := step_word (f := o.reserved) hg2 hw
      (t := stepsText ss ++ (gapsText g3 ++ ch '>' :: (gapsText g' ++ ch ';' :: (elemsText es ++ A))))
      (wordEnd_steps ss hss _ (wordEnd_gaps hg3 (fun _ => wordEnd_ch (by simp) _)))
    rw [← k3, hres] at j2
    rw [← k3] at j1 j3 j4
    change ((s.step o).step o).tk.newline = false at j1
    change ((s.step o).step o).tk.kind = .ident at j2
    change ((s.step o).step o).tk.text = _ at j4
    change ((s.step o).step o).rest = _ at j3
    unfold parseImport at h
    simp only [k2] at h
    rw [if_neg (by exact Kind.noConfusion)] at h
    simp only [if_true, j2, ne_eq, not_true_eq_false, if_false, j4] at h
    cases hin : importName o hn ((s.step o).step o) (bytes w) with
    | none => rw [hin] at h; cases h
    | some x =>
      obtain ⟨nm, s2⟩ := x
      rw [hin] at h
      simp only [Option.some.injEq, Prod.mk.injEq] at h
      obtain ⟨e1, e2⟩ := h
      subst e1 e2
      have hsm := begin_semicolon hg' (elemsText es ++ A)
      obtain ⟨i1, i2, i3, i4⟩ := importName_found o g3 hg3 '>' .greater _
        (.inr ⟨rfl, rfl, fun e => hsm (by rw [e]; decide), fun e => hsm (by rw [e]; decide)⟩) hn ss _ _ _ nm hss (.inl j2) j3 hin
      refine ⟨?_, es1, none, dull_mid i3 i2, by rw [i4, hs1], hs2⟩
      rw [i1]
      exact R_needs hR _

/-! ## The lines -/

theorem noIdent_of_gaps {g : List Gap} (hg : GapsOk g) (hne : g ≠ []) (t : List Cp) : NoIdent (gapsText g ++ t) :=
  noIdent_gaps hg (fun e => absurd e hne)

/-- A word at the beginning of a line -/
theorem at_word {o : Opts} {w : String} (hs : w = "include" ∨ w = "import" ∨ w = "module" ∨ w = "export") (hf : o.reserved w.toList = false)
    {lead : List Gap} (hlead : LeadOk lead) {t : List Cp} (ht : NoIdent t) (old : Tok) :
    At ⟨old, (scanFrom o.reserved false true (gapsText lead ++ (word w ++ t))).1,
      (scanFrom o.reserved false true (gapsText lead ++ (word w ++ t))).2⟩ w ∧
    (scanFrom o.reserved false true (gapsText lead ++ (word w ++ t))).2 = t ∧
    St.rest ⟨old, (scanFrom o.reserved false true (gapsText lead ++ (word w ++ t))).1,
      (scanFrom o.reserved false true (gapsText lead ++ (word w ++ t))).2⟩ = t := by
  rw [scanFrom_lead _ _ _ _ _ hlead, scanFrom_keyword hs hf ht]
  exact ⟨⟨rfl, rfl, rfl⟩, rfl, rfl⟩

/-- A word after `export` -/
theorem step_keyword {o : Opts} {w : String} (hs : w = "include" ∨ w = "import" ∨ w = "module" ∨ w = "export") (hf : o.reserved w.toList = false)
    {g : List Gap} (hg : GapsOk g) {t : List Cp} (ht : NoIdent t) {s : St} (hr : s.rest = gapsText g ++ (word w ++ t)) :
    (s.step o).tk.text = w.toList ∧ (s.step o).rest = t := by
  unfold St.step
  rw [hr, scan_gaps _ _ _ _ hg, scan_eq, scanFrom_keyword hs hf ht]
  exact ⟨rfl, rfl⟩

theorem fragment_line (o : Opts) (hd : o.deps = true) (hw : WordsOk o.reserved) (n : Nat) (hgood : Good o n) (lead g : List Gap) (es : List Elem)
    (c : Option (List Part)) (ls : List Line) (hls : ∀ l ∈ ls, l.Ok o.reserved)
    (hl : (Line.fragment lead g es c).Ok o.reserved) (old : Tok) (res : Result) (incs : List (Bool × Str)) (m : Modules) (r : Result) (hR : R res incs m)
    (h : loop o (n + 1) ⟨old, (scanFrom o.reserved false true ((Line.fragment lead g es c).text ++ tailText ls)).1,
      (scanFrom o.reserved false true ((Line.fragment lead g es c).text ++ tailText ls)).2⟩ res = some r) : Final o incs m ls r := by
  obtain ⟨hlead, hg, hok, hc, hp⟩ := hl
  have hok' := ok_after (tail_begin ls) es none hok
  obtain ⟨gs, rest, p', h1, h2, h3, h4, h5⟩ := split_gaps es none hok'
  have et : (Line.fragment lead g es c).text ++ tailText ls =
      gapsText lead ++ (word "module" ++ (gapsText g ++ (gapsText gs ++ (elemsText rest ++ (commentText c ++ tailText ls))))) := by
    simp [Line.text, h1]
  rw [et] at h
  rw [h4] at hp
  rcases h5 with rfl | ⟨x, es', rfl, hx⟩
  · exfalso; revert hp; decide
  obtain ⟨tk, es2, p2, e1, e2⟩ := firstTok o.reserved (after_ok c ls) h3 hx
  have hsemi := e2.semi hp
  have hni : NoIdent (gapsText g ++ (gapsText gs ++ (elemsText (x :: es') ++ (commentText c ++ tailText ls)))) := by
    refine noIdent_gaps hg (fun _ => noIdent_gaps h2 (fun _ => ?_))
    cases hy : elemsText (x :: es') with
    | nil => rw [hy] at hp; exfalso; revert hp; decide
    | cons v y =>
      refine .inr ⟨v, y ++ (commentText c ++ tailText ls), rfl, ?_⟩
      rw [hy] at hp
      unfold identChar
      rcases hp with e | e <;> rw [show v.1 = _ from e] <;> decide
  obtain ⟨a1, a2, -⟩ := at_word (o := o) (.inr (.inr (.inl rfl))) hw.modl hlead hni old
  rw [loop_module o hd n _ _ a1] at h
  have hscan : scan o.reserved false (gapsText g ++ (gapsText gs ++ (elemsText (x :: es') ++ (commentText c ++ tailText ls)))) =
      ({ tk with newline := false }, elemsText es2 ++ (commentText c ++ tailText ls)) := by
    rw [scan_gaps _ _ _ _ hg, scan_gaps _ _ _ _ h2, scan_eq, e1]
  unfold St.step at h
  simp only [a2, hscan] at h
  rw [if_neg hsemi] at h
  exact hgood _ es2 c ls p2 res incs m r (dull_mid e2.notEof rfl) rfl e2.ok hc hls hR h

theorem exported_line (o : Opts) (hd : o.deps = true) (hw : WordsOk o.reserved) (n : Nat) (hm : Mid o n) (lead g : List Gap) (es : List Elem)
    (c : Option (List Part)) (ls : List Line) (hls : ∀ l ∈ ls, l.Ok o.reserved)
    (hl : (Line.exported lead g es c).Ok o.reserved) (old : Tok) (res : Result) (incs : List (Bool × Str)) (m : Modules) (r : Result) (hR : R res incs m)
    (h : loop o (n + 1) ⟨old, (scanFrom o.reserved false true ((Line.exported lead g es c).text ++ tailText ls)).1,
      (scanFrom o.reserved false true ((Line.exported lead g es c).text ++ tailText ls)).2⟩ res = some r) : Final o incs m ls r := by
  obtain ⟨hlead, hg, hgne, hok, hc, hne, hlen, hnw⟩ := hl
  have hok' := ok_after (tail_begin ls) es none hok
  obtain ⟨gs, rest', p', h1, h2, h3, h4, h5⟩ := split_gaps es none hok'
  have et : (Line.exported lead g es c).text ++ tailText ls =
      gapsText lead ++ (word "export" ++ (gapsText g ++ (gapsText gs ++ (elemsText rest' ++ (commentText c ++ tailText ls))))) := by
    simp [Line.text, h1]
  rw [et] at h
  rw [h4] at hne hlen hnw
  rcases h5 with rfl | ⟨x, es', rfl, hx⟩
  · exact absurd rfl hne
  obtain ⟨tk, es2, p2, e1, e2⟩ := firstTok o.reserved (after_ok c ls) h3 hx
  obtain ⟨a1, a2, -⟩ := at_word (o := o) (.inr (.inr (.inr rfl))) hw.expt hlead
    (noIdent_of_gaps hg hgne (gapsText gs ++ (elemsText (x :: es') ++ (commentText c ++ tailText ls)))) old
  rw [loop_export o hd n _ _ a1] at h
  have hscan : scan o.reserved false (gapsText g ++ (gapsText gs ++ (elemsText (x :: es') ++ (commentText c ++ tailText ls)))) =
      ({ tk with newline := false }, elemsText es2 ++ (commentText c ++ tailText ls)) := by
    rw [scan_gaps _ _ _ _ hg, scan_gaps _ _ _ _ h2, scan_eq, e1]
  generalize hs : (⟨old, (scanFrom o.reserved false true (gapsText lead ++ (word "export" ++ (gapsText g ++ (gapsText gs ++ (elemsText (x :: es') ++ (commentText c ++ tailText ls))))))).1, (scanFrom o.reserved false true (gapsText lead ++ (word "export" ++ (gapsText g ++ (gapsText gs ++ (elemsText (x :: es') ++ (commentText c ++ tailText ls))))))).2⟩ : St) = s at h a1
  have hstep : s.step o = ⟨s.tk, { tk with newline := false }, elemsText es2 ++ (commentText c ++ tailText ls)⟩ := by
    have : s.rest = gapsText g ++ (gapsText gs ++ (elemsText (x :: es') ++ (commentText c ++ tailText ls))) := by rw [← hs]; exact a2
    unfold St.step; rw [this, hscan]
  rw [hstep] at h
  have hnot : ∀ w : String, w ∈ ["module", "import"] → tk.text ≠ w.toList := by
    intro w hwm e
    apply hnw
    rw [← e2.word (by
      simp only [List.mem_cons, List.not_mem_nil, or_false] at hwm
      rcases hwm with rfl | rfl
      · exact .inl e
      · exact .inr e) hlen, e]
    simp only [List.mem_cons, List.not_mem_nil, or_false] at hwm ⊢
    rcases hwm with rfl | rfl <;> simp
  rw [if_neg (hnot "module" (by simp)), if_neg (hnot "import" (by simp))] at h
  obtain ⟨r1, r2, r3⟩ := rest_dull (s := ⟨s.tk, { tk with newline := false }, elemsText es2 ++ (commentText c ++ tailText ls)⟩) hd hR (by simp)
  rw [r3, if_neg (by simp), r1] at h
  exact hm _ es2 c ls p2 _ incs m r e2.ok hc hls r2 h

theorem parse_cases {o : Opts} {n : Nat} {x : Option (St × Result)} {k : Result → Result} {r : Result}
    (h : (match x with
      | none => none
      | some (s2, res') => loop o n s2 (k res')) = some r) : ∃ s2 res', x = some (s2, res') ∧ loop o n s2 (k res') = some r := by
  cases x with
  | none => cases h
  | some y => exact ⟨y.1, y.2, rfl, h⟩

theorem final_cons {o : Opts} {incs : List (Bool × Str)} {m : Modules} {l : Line} {ls : List Line} {r : Result}
    (h0 : l.included = none) (h : Final o incs (m.add o.cppm l) ls r) : Final o incs m (l :: ls) r := by
  unfold Final at h ⊢
  simp only [List.filterMap_cons, h0, List.foldl_cons]
  exact h

theorem declared_line (o : Opts) (hd : o.deps = true) (hw : WordsOk o.reserved) (n : Nat) (hgood : Good o n) (lead : List Gap) (ex : Option (List Gap)) (g : List Gap)
    (w : List Cp) (ss : List Step) (part : Option Step) (g' : List Gap) (es : List Elem)
    (c : Option (List Part)) (ls : List Line) (hls : ∀ l ∈ ls, l.Ok o.reserved)
    (hl : (Line.declared lead ex g w ss part g' es c).Ok o.reserved) (old : Tok) (res : Result) (incs : List (Bool × Str)) (m : Modules) (r : Result) (hR : R res incs m)
    (h : loop o (n + 1) ⟨old, (scanFrom o.reserved false true ((Line.declared lead ex g w ss part g' es c).text ++ tailText ls)).1,
      (scanFrom o.reserved false true ((Line.declared lead ex g w ss part g' es c).text ++ tailText ls)).2⟩ res = some r) :
    Final o incs m (.declared lead ex g w ss part g' es c :: ls) r := by
  obtain ⟨hlead, hex, hg, hgne, ⟨hwok, hres⟩, hss, hp, hg', hok, hc⟩ := hl
  have hok' := ok_after (tail_begin ls) es none hok
  apply final_cons rfl
  have hni : NoIdent (gapsText g ++ (w ++ (stepsText ss ++ (partText part ++ (gapsText g' ++ ch ';' :: (elemsText es ++ (commentText c ++ tailText ls))))))) :=
    noIdent_of_gaps hg hgne _
  have hend : WordEnd (stepsText ss ++ (partText part ++ (gapsText g' ++ ch ';' :: (elemsText es ++ (commentText c ++ tailText ls))))) :=
    wordEnd_steps ss hss _ (wordEnd_part part hp _ (wordEnd_gaps hg' (fun _ => wordEnd_ch (by simp) _)))
  -- the name
  have hname : ∀ s : St, s.rest = gapsText g ++ (w ++ (stepsText ss ++ (partText part ++ (gapsText g' ++ ch ';' :: (elemsText es ++ (commentText c ++ tailText ls)))))) →
      (s.step o).tk.kind = .ident ∧ (s.step o).tk.text = bytes w ∧
      (s.step o).rest = stepsText ss ++ (partText part ++ (gapsText g' ++ ch ';' :: (elemsText es ++ (commentText c ++ tailText ls)))) := by
    intro s hr
    obtain ⟨j1, j2, j3, j4⟩ := step_word (f := o.reserved) hg hwok hend
    rw [← hr] at j1 j2 j3 j4
    rw [hres] at j2
    exact ⟨j2, j3, j4⟩
  cases ex with
  | none =>
    have et : (Line.declared lead none g w ss part g' es c).text ++ tailText ls =
        gapsText lead ++ (word "module" ++ (gapsText g ++ (w ++ (stepsText ss ++ (partText part ++ (gapsText g' ++ ch ';' :: (elemsText es ++ (commentText c ++ tailText ls)))))))) := by
      cases part <;> simp [Line.text, exportText, partText]
    rw [et] at h
    obtain ⟨a1, -, a2⟩ := at_word (o := o) (.inr (.inr (.inl rfl))) hw.modl hlead hni old
    rw [loop_module o hd n _ _ a1] at h
    obtain ⟨j2, j3, j4⟩ := hname _ a2
    rw [if_pos j2] at h
    obtain ⟨s2, res', e1, e2⟩ := parse_cases (k := id) h
    obtain ⟨q1, es', p', q2, q3, q4⟩ := parseModule_found o n w hwok ss hss part hp g' hg' es _ hok' false _ s2 res res' incs m
      (.declared lead none g w ss part g' es c) rfl (by rw [j2]; exact Kind.noConfusion) (by rw [j2]; exact Kind.noConfusion) j3 j4 hR e1
    rw [Bool.or_false] at q1
    exact hgood s2 es' c ls p' _ incs _ r q2 q3 q4 hc hls q1 e2
  | some ge =>
    obtain ⟨hge1, hge2⟩ := hex ge rfl
    have et : (Line.declared lead (some ge) g w ss part g' es c).text ++ tailText ls =
        gapsText lead ++ (word "export" ++ (gapsText ge ++ (word "module" ++ (gapsText g ++ (w ++ (stepsText ss ++ (partText part ++ (gapsText g' ++ ch ';' :: (elemsText es ++ (commentText c ++ tailText ls)))))))))) := by
      cases part <;> simp [Line.text, exportText, partText]
    rw [et] at h
    obtain ⟨a1, -, a2⟩ := at_word (o := o) (.inr (.inr (.inr rfl))) hw.expt hlead (noIdent_of_gaps hge2 hge1 _) old
    rw [loop_export o hd n _ _ a1] at h
    obtain ⟨b1, b2⟩ := step_keyword (o := o) (.inr (.inr (.inl rfl))) hw.modl hge2 hni a2
    rw [if_pos b1] at h
    obtain ⟨j2, j3, j4⟩ := hname _ b2
    obtain ⟨s2, res', e1, e2⟩ := parse_cases (k := fun res' => { res' with isInterface := true }) h
    obtain ⟨q1, es', p', q2, q3, q4⟩ := parseModule_found o n w hwok ss hss part hp g' hg' es _ hok' true _ s2 res res' incs m
      (.declared lead (some ge) g w ss part g' es c) rfl (by rw [j2]; exact Kind.noConfusion) (by rw [j2]; exact Kind.noConfusion) j3 j4 hR e1
    rw [Bool.or_true] at q1
    exact hgood s2 es' c ls p' _ incs _ r q2 q3 q4 hc hls q1 e2

theorem imported_line (o : Opts) (hd : o.deps = true) (hw : WordsOk o.reserved) (n : Nat) (hgood : Good o n) (lead : List Gap) (ex : Option (List Gap)) (g : List Gap)
    (t : Target) (g' : List Gap) (es : List Elem)
    (c : Option (List Part)) (ls : List Line) (hls : ∀ l ∈ ls, l.Ok o.reserved)
    (hl : (Line.imported lead ex g t g' es c).Ok o.reserved) (old : Tok) (res : Result) (incs : List (Bool × Str)) (m : Modules) (r : Result) (hR : R res incs m)
    (h : loop o (n + 1) ⟨old, (scanFrom o.reserved false true ((Line.imported lead ex g t g' es c).text ++ tailText ls)).1,
      (scanFrom o.reserved false true ((Line.imported lead ex g t g' es c).text ++ tailText ls)).2⟩ res = some r) :
    Final o incs m (.imported lead ex g t g' es c :: ls) r := by
  obtain ⟨hlead, hex, hg, ht, hg', hok, hc⟩ := hl
  have hok' := ok_after (tail_begin ls) es none hok
  apply final_cons rfl
  have hni : NoIdent (gapsText g ++ (t.text ++ (gapsText g' ++ ch ';' :: (elemsText es ++ (commentText c ++ tailText ls))))) := by
    refine noIdent_gaps hg (fun e => ?_)
    cases t with
    | module w ss => exact absurd e ht.1
    | partition a b => exact .inr ⟨ch ':', _, rfl, by decide⟩
    | angle a b c d => exact .inr ⟨ch '<', _, rfl, by decide⟩
    | quoted a => exact .inr ⟨ch '"', _, rfl, by decide⟩
  cases ex with
  | none =>
    have et : (Line.imported lead none g t g' es c).text ++ tailText ls =
        gapsText lead ++ (word "import" ++ (gapsText g ++ (t.text ++ (gapsText g' ++ ch ';' :: (elemsText es ++ (commentText c ++ tailText ls)))))) := by
      simp [Line.text, exportText]
    rw [et] at h
    obtain ⟨a1, -, a2⟩ := at_word (o := o) (.inr (.inl rfl)) hw.impt hlead hni old
    rw [loop_import o hd n _ _ a1] at h
    obtain ⟨s2, res', e1, e2⟩ := parse_cases (k := id) h
    obtain ⟨q1, es', p', q2, q3, q4⟩ := parseImport_found o n lead none g hg t ht g' hg' es c _ hok' _ s2 res res' incs m a2 hR e1
    exact hgood s2 es' c ls p' _ incs _ r q2 q3 q4 hc hls q1 e2
  | some ge =>
    obtain ⟨hge1, hge2⟩ := hex ge rfl
    have et : (Line.imported lead (some ge) g t g' es c).text ++ tailText ls =
        gapsText lead ++ (word "export" ++ (gapsText ge ++ (word "import" ++ (gapsText g ++ (t.text ++ (gapsText g' ++ ch ';' :: (elemsText es ++ (commentText c ++ tailText ls)))))))) := by
      simp [Line.text, exportText]
    rw [et] at h
    obtain ⟨a1, -, a2⟩ := at_word (o := o) (.inr (.inr (.inr rfl))) hw.expt hlead (noIdent_of_gaps hge2 hge1 _) old
    rw [loop_export o hd n _ _ a1] at h
    obtain ⟨b1, b2⟩ := step_keyword (o := o) (.inr (.inl rfl)) hw.impt hge2 hni a2
    rw [if_neg (by rw [b1]; decide), if_pos b1] at h
    obtain ⟨s2, res', e1, e2⟩ := parse_cases (k := id) h
    obtain ⟨q1, es', p', q2, q3, q4⟩ := parseImport_found o n lead (some ge) g hg t ht g' hg' es c _ hok' _ s2 res res' incs m b2 hR e1
    exact hgood s2 es' c ls p' _ incs _ r q2 q3 q4 hc hls q1 e2

/-! ## All of it -/

theorem start_step (o : Opts) (hd : o.deps = true) (hw : WordsOk o.reserved) (n : Nat) (hg : Good o n) (hm : Mid o n) (hg' : Good o (n + 1)) :
    Start o (n + 1) := by
  intro ls
  induction ls with
  | nil =>
    intro l old res incs m r hls hR h
    have hl := hls l (by simp)
    have hls' : ∀ x ∈ ([] : List Line), x.Ok o.reserved := by simp
    cases l with
    | incl lead di g1 imp g2 q name es c =>
      have := incl_line o hd hw n hm lead di g1 imp g2 q name es c [] hls' hl old res incs m r hR h
      unfold Final at this ⊢
      simpa [Line.included, add_none (l := .incl lead di g1 imp g2 q name es c) rfl (fun _ => rfl)] using this
    | directive lead di g1 es c => exact final_skip rfl rfl (fun _ => rfl) (directive_line o n hm lead di g1 es c [] hls' hl old res incs m r hR h)
    | code es c => exact final_skip rfl rfl (fun _ => rfl) (code_line o _ hg' es c [] (by simp) hls' hl old res incs m r hR h)
    | exported lead g es c => exact final_skip rfl rfl (fun _ => rfl) (exported_line o hd hw n hm lead g es c [] hls' hl old res incs m r hR h)
    | fragment lead g es c => exact final_skip rfl rfl (fun _ => rfl) (fragment_line o hd hw n hg lead g es c [] hls' hl old res incs m r hR h)
    | declared lead ex g w ss part g' es c => exact declared_line o hd hw n hg lead ex g w ss part g' es c [] hls' hl old res incs m r hR h
    | imported lead ex g t g' es c => exact imported_line o hd hw n hg lead ex g t g' es c [] hls' hl old res incs m r hR h
  | cons l2 ls ih =>
    intro l old res incs m r hls hR h
    have hl := hls l (by simp)
    have hls' : ∀ x ∈ l2 :: ls, x.Ok o.reserved := fun x hx => hls x (by simp [List.mem_cons.1 hx])
    cases l with
    | incl lead di g1 imp g2 q name es c =>
      have := incl_line o hd hw n hm lead di g1 imp g2 q name es c (l2 :: ls) hls' hl old res incs m r hR h
      unfold Final at this ⊢
      rw [List.foldl_cons, add_none (l := .incl lead di g1 imp g2 q name es c) rfl (fun _ => rfl)]
      rw [List.append_assoc] at this
      exact this
    | directive lead di g1 es c => exact final_skip rfl rfl (fun _ => rfl) (directive_line o n hm lead di g1 es c _ hls' hl old res incs m r hR h)
    | code es c =>
      refine final_skip rfl rfl (fun _ => rfl) (code_line o _ hg' es c _ ?_ hls' hl old res incs m r hR h)
      intro l' ls' e old res incs m r hR h
      injection e with e1 e2
      subst e1 e2
      exact ih l2 old res incs m r hls' hR h
    | exported lead g es c => exact final_skip rfl rfl (fun _ => rfl) (exported_line o hd hw n hm lead g es c _ hls' hl old res incs m r hR h)
    | fragment lead g es c => exact final_skip rfl rfl (fun _ => rfl) (fragment_line o hd hw n hg lead g es c _ hls' hl old res incs m r hR h)
    | declared lead ex g w ss part g' es c => exact declared_line o hd hw n hg lead ex g w ss part g' es c _ hls' hl old res incs m r hR h
    | imported lead ex g t g' es c => exact imported_line o hd hw n hg lead ex g t g' es c _ hls' hl old res incs m r hR h

theorem all_steps (o : Opts) (hd : o.deps = true) (hw : WordsOk o.reserved) (n : Nat) : Good o n ∧ Mid o n ∧ Start o n := by
  induction n with
  | zero =>
    refine ⟨?_, ?_, ?_⟩
    · intro s es c ls p res incs m r _ _ _ _ _ _ h; cases h
    · intro old es c ls p res incs m r _ _ _ _ h; cases h
    · intro ls l old res incs m r _ _ h; cases h
  | succ n ih =>
    obtain ⟨h1, h2, h3⟩ := ih
    have g := good_step o hd n h2
    have s := start_step o hd hw n h1 h2 g
    exact ⟨g, mid_step o _ g s, s⟩

theorem found (o : Opts) (hd : o.deps = true) (hw : WordsOk o.reserved) (ls : List Line) (hf : FileOk o.reserved ls) :
    ∃ r, scanFile o (bytes (fileText ls)) = some r ∧ r.includes = ls.filterMap Line.included ∧
      r.part = (modules o.cppm ls).full ∧ r.provides = (modules o.cppm ls).provides ∧
      r.isInterface = (modules o.cppm ls).isInterface ∧ r.requiresModules = (modules o.cppm ls).needs := by
  obtain ⟨r, hr⟩ := scanFile_total o (bytes (fileText ls))
  obtain ⟨l, ls', rfl⟩ := List.exists_cons_of_ne_nil hf.some
  refine ⟨r, hr, ?_⟩
  have hin : input (stripBom (bytes (fileText (l :: ls')))) = ch '\n' :: (l.text ++ tailText ls') := by
    unfold stripBom
    rw [if_neg hf.noBom, input_bytes _ hf.utf8]
    simp [fileText, tailText]
  unfold scanFile at hr
  simp only [hin] at hr
  have hs : scan o.reserved false (ch '\n' :: (l.text ++ tailText ls')) = scanFrom o.reserved false true (l.text ++ tailText ls') := by
    rw [scan_eq]
    apply scanFrom_congr
    rw [skip]
    simp [ch, isSpace]
  rw [hs] at hr
  have := (all_steps o hd hw _).2.2 ls' l _ _ [] ⟨none, [], [], false, []⟩ r hf.lines
    ⟨rfl, rfl, rfl, rfl, rfl, fun _ => rfl, by simp⟩ hr
  exact ⟨this.includes, this.part, this.provides, this.isInterface, this.needs⟩

end Verif.Cpp
