import Verif.CMakeExport.Eval

/-! # The commands of the file are run -/

namespace Verif.CMakeExport

theorem run_effect {e : Env} {r r' : Run} {c : CText} {as : List Arg} {cs : List Cmd} {vs : List CText}
    (hc : c ≠ "endif".toList ∧ c ≠ "return".toList ∧ c ≠ "if".toList) (hs : r.skipping = false) (hv : values r.vars as = some vs)
    (he : effect e r c vs = some r') : run e r ((c, as) :: cs) = run e r' cs := by
  rw [run]
  simp only [hc.1, hc.2.1, hc.2.2, hs, hv, he, if_false, Bool.false_eq_true]

theorem run_head {e : Env} {p : Product} {r : Run} {cs : List Cmd} (hp : Word p.packageName) (hs : r.skipping = false)
    (ht : p.packageName ∉ e.targets) : run e r (head p ++ cs) = run e r cs := by
  have v1 : values r.vars [word "VERSION".toList, word "3.5".toList] = some ["VERSION".toList, "3.5".toList] := rfl
  have v2 : values r.vars [word "TARGET".toList, word p.packageName] = some ["TARGET".toList, p.packageName] :=
    values_cons (item_word ⟨by decide, by decide⟩) (values_cons (item_word hp) rfl)
  unfold head
  rw [List.cons_append, run_effect ⟨by decide, by decide, by decide⟩ hs v1 rfl]
  rw [List.cons_append, run]
  rw [if_neg (by decide)]
  simp only [hs, Bool.false_eq_true, if_false, v2]
  rw [if_neg (by decide)]
  have hcon : e.targets.contains p.packageName = false := by simpa using ht
  simp only [if_true, hcon, Bool.not_false]
  rw [List.cons_append, run, if_neg (by decide)]
  simp only [if_true]
  rw [List.cons_append, run, if_pos rfl, List.nil_append]
  congr 1
  cases r
  simp only at hs
  subst hs
  rfl

theorem value_cons (n v : CText) (vs : Vars) : Vars.value ((n, v) :: vs) n = v := by simp [Vars.value]

theorem value_append {vs ws : Vars} {n : CText} (h : ∀ x ∈ vs, x.1 ≠ n) : Vars.value (vs ++ ws) n = Vars.value ws n := by
  unfold Vars.value
  have : vs.find? (fun v => v.1 == n) = none := List.find?_eq_none.mpr fun x hx => by simpa using h x hx
  rw [List.find?_append, this]
  rfl

theorem run_set {e : Env} {p : Product} {r : Run} {cs : List Cmd} {dir : CText} (hw : Word (prefixVar p)) (hs : r.skipping = false)
    (hr : ∀ c ∈ p.relativePrefix, isPlain c = true) (hd : r.vars.value "CMAKE_CURRENT_LIST_DIR".toList = dir) :
    run e r (setCmd p :: cs) = run e { r with vars := (prefixVar p, newPrefix p dir) :: r.vars } cs := by
  have v : values r.vars [word (prefixVar p), ⟨true, "${CMAKE_CURRENT_LIST_DIR}/".toList ++ p.relativePrefix⟩] =
      some [prefixVar p, newPrefix p dir] := by
    refine values_cons (item_word hw) ?_
    have e : "${CMAKE_CURRENT_LIST_DIR}/".toList ++ p.relativePrefix =
        "${".toList ++ "CMAKE_CURRENT_LIST_DIR".toList ++ ['}'] ++ (['/'] ++ p.relativePrefix) := rfl
    have hp : ∀ c ∈ (['/'] ++ p.relativePrefix), isPlain c = true := by
      intro c hc
      rcases List.mem_append.mp hc with x | x
      · exact (by decide : ∀ c ∈ ['/'], isPlain c = true) c x
      · exact hr c x
    simp only [values]
    rw [e, expand_ref (by decide), expand_text hp, hd]
    rfl
  exact run_effect ⟨by decide, by decide, by decide⟩ hs v rfl

theorem run_find {e : Env} {n : CText} {l : List CText} {r : Run} {cs : List Cmd} (h : ∀ q ∈ l, Word q) (hs : r.skipping = false)
    (hn : ∀ q ∈ l, ∀ x ∈ e.sets q, x.1 ≠ n) :
    ∃ vs : Vars, vs.value n = r.vars.value n ∧
      run e r (l.map findCmd ++ cs) = run e { r with vars := vs, packages := r.packages ++ l } cs := by
  induction l generalizing r with
  | nil => exact ⟨r.vars, rfl, by simp⟩
  | cons q l ih =>
    have v : values r.vars [word q, word "REQUIRED".toList, word "SILENT".toList] = some [q, "REQUIRED".toList, "SILENT".toList] :=
      values_cons (item_word (h q (by simp))) (values_cons (item_word ⟨by decide, by decide⟩) (values_cons (item_word ⟨by decide, by decide⟩) rfl))
    obtain ⟨vs, h1, h2⟩ := ih (r := { r with vars := e.sets q ++ r.vars, packages := r.packages ++ [q] })
      (fun x hx => h x (by simp [hx])) hs (fun x hx => hn x (by simp [hx]))
    refine ⟨vs, ?_, ?_⟩
    · rw [h1]
      exact value_append (hn q (by simp))
    · have step1 : run e r (findCmd q :: (l.map findCmd ++ cs)) =
          run e { r with vars := e.sets q ++ r.vars, packages := r.packages ++ [q] } (l.map findCmd ++ cs) :=
        run_effect ⟨by decide, by decide, by decide⟩ hs v rfl
      rw [List.map_cons, List.cons_append, step1, h2]
      simp only [List.append_assoc, List.singleton_append]

theorem run_add {e : Env} {r : Run} {cs : List Cmd} {pkg cmd : CText} {l : List Arg} {vs : List CText} {t t' : Target}
    (hc : cmd ≠ "endif".toList ∧ cmd ≠ "return".toList ∧ cmd ≠ "if".toList)
    (he : ∀ args, effect e r cmd (pkg :: "INTERFACE".toList :: args) = r.change pkg (fun t => addTo t cmd args))
    (hp : Word pkg) (hs : r.skipping = false) (hr : r.target = some t) (hn : t.name = pkg)
    (hv : values r.vars l = some vs) (ha : addTo t cmd vs = some t') (h0 : l = [] → t' = t) :
    run e r (addCmd pkg cmd l ++ cs) = run e { r with target := some t' } cs := by
  unfold addCmd
  by_cases hl : l = []
  · rw [if_pos hl, h0 hl, List.nil_append, ← hr]
  · rw [if_neg hl, List.cons_append, List.nil_append]
    refine run_effect hc hs (vs := pkg :: "INTERFACE".toList :: vs)
      (values_cons (item_word hp) (values_cons (item_word ⟨by decide, by decide⟩) hv)) ?_
    rw [he]
    unfold Run.change
    simp only [hr, hn, if_true, ha, Option.map_some]

end Verif.CMakeExport
