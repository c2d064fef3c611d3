import Verif.EnvVar.Spec

/-! # C134: adding to list variables -/

namespace Verif.EnvVar

open Spec

theorem split_ne (sep : Char) (s : Str) : Spec.split sep s ≠ [] := by
  cases s with
  | nil => simp [Spec.split]
  | cons c s =>
    rw [Spec.split]
    split
    · simp
    · split <;> simp

theorem split_append (sep : Char) (a b : Str) : Spec.split sep (a ++ sep :: b) = Spec.split sep a ++ Spec.split sep b := by
  induction a with
  | nil => simp [Spec.split]
  | cons c a ih =>
    rw [List.cons_append, Spec.split, Spec.split, ih]
    by_cases h : c = sep
    · simp [h]
    · rw [if_neg h, if_neg h]
      cases hs : Spec.split sep a with
      | nil => exact absurd hs (split_ne sep a)
      | cons w ws => simp

theorem entries_some {sep : Char} {s : Str} (h : s ≠ []) : entries sep (some s) = Spec.split sep s := by
  cases s with
  | nil => exact absurd rfl h
  | cons c s => rfl

theorem added_converted (x : Var) (v : Str) : added x v = converted x.convert v := rfl

theorem run_step (x : Var) (sep : Char) (op : Op) (hs : x.separator = some sep) (hv : x.value.head? ≠ some sep)
    (ho : Op.Proper sep x.convert op) :
    entries sep (some (Op.run x op).value) = step sep x.convert (entries sep (some x.value)) op ∧
    (Op.run x op).value.head? ≠ some sep ∧ (Op.run x op).separator = x.separator ∧ (Op.run x op).convert = x.convert ∧
    (Op.run x op).name = x.name := by
  cases op with
  | prepend v =>
    obtain ⟨h1, h2⟩ : Spec.Proper sep (converted x.convert v) := ho
    simp only [Op.run, prepend, step, added_converted]
    generalize converted x.convert v = w at h1 h2
    have hw : ∀ t, (w ++ t).head? ≠ some sep := by
      intro t
      cases w with
      | nil => exact absurd rfl h1
      | cons c w => exact h2
    refine ⟨?_, hw _, trivial, trivial, trivial⟩
    rw [entries_some (by simp [h1])]
    by_cases hx : x.value = []
    · rw [hx]; simp [entries]
    · rw [if_pos ⟨List.length_pos_iff.mpr hx, Or.inr (by rw [hs]; exact hv)⟩, hs, entries_some hx]
      exact split_append sep w x.value
  | append v =>
    obtain ⟨h1, h2⟩ : Spec.Proper sep (converted x.convert v) := ho
    simp only [Op.run, append, step, added_converted]
    generalize converted x.convert v = w at h1 h2
    by_cases hx : x.value = []
    · rw [hx]
      refine ⟨?_, ?_, trivial, trivial, trivial⟩
      · simp [entries_some h1, entries]
      · simpa using h2
    · rw [if_pos (List.length_pos_iff.mpr hx), hs, entries_some (by simp [hx]), entries_some hx]
      refine ⟨?_, ?_, trivial, trivial, trivial⟩
      · rw [List.append_assoc]
        exact split_append sep x.value w
      · cases hxv : x.value with
        | nil => exact absurd hxv hx
        | cons c t => rw [hxv] at hv; exact hv

theorem fold_step (ops : List Op) (x : Var) (sep : Char) (hs : x.separator = some sep) (hv : x.value.head? ≠ some sep)
    (ho : ∀ op ∈ ops, Op.Proper sep x.convert op) :
    entries sep (some (ops.foldl Op.run x).value) = ops.foldl (step sep x.convert) (entries sep (some x.value)) ∧
    (ops.foldl Op.run x).name = x.name := by
  induction ops generalizing x with
  | nil => exact ⟨rfl, rfl⟩
  | cons op ops ih =>
    obtain ⟨h1, h2, h3, h4, h5⟩ := run_step x sep op hs hv (ho op (by simp))
    have := ih (Op.run x op) (by rw [h3, hs]) h2 (by rw [h4]; exact fun o h => ho o (by simp [h]))
    rw [h4, h1, h5] at this
    exact this

/-- **C134.** After a setup script that adds to a list variable, the entries of the variable are the old ones with the added ones before and
after them, in the order of the calls, and no other variable is changed. The old value must not begin with the separator (see
`C134_first_entry_lost`). -/
theorem C134_entries_partial (e : Env) (name : Str) (sep : Char) (convert : Bool) (ops : List Op) (hn : name ≠ [])
    (hv : ((e name).getD []).head? ≠ some sep) (ho : ∀ op ∈ ops, Op.Proper sep convert op) :
    ∃ e', script e name (some sep) convert ops = some e' ∧
      entries sep (e' name) = ops.foldl (step sep convert) (entries sep (e name)) ∧ ∀ n, n ≠ name → e' n = e n := by
  refine ⟨set (ops.foldl Op.run ⟨name, (e name).getD [], some sep, convert⟩) e, by unfold script make; rw [if_neg hn]; rfl, ?_, ?_⟩
  · obtain ⟨h1, h2⟩ := fold_step ops ⟨name, (e name).getD [], some sep, convert⟩ sep rfl hv ho
    unfold set
    rw [h2, if_pos rfl, h1]
    congr 1
    cases e name with
    | none => rfl
    | some s => rfl
  · intro n h
    unfold set
    rw [(fold_step ops ⟨name, (e name).getD [], some sep, convert⟩ sep rfl hv ho).2, if_neg h]

/-- **C134.** Calls that only append keep all old entries, whatever the old value is. -/
theorem C134_append (x : Var) (sep : Char) (v : Str) (hs : x.separator = some sep) (h : converted x.convert v ≠ []) :
    entries sep (some (append x v).value) = entries sep (some x.value) ++ Spec.split sep (converted x.convert v) := by
  simp only [append, added_converted]
  generalize converted x.convert v = w at h
  by_cases hx : x.value = []
  · rw [hx]; simp [entries_some h, entries]
  · rw [if_pos (List.length_pos_iff.mpr hx), hs, entries_some (by simp [hx]), entries_some hx, List.append_assoc]
    exact split_append sep x.value w

/-- **C134.** A script does not run without a name. -/
theorem C134_no_name (e : Env) (sep : Option Char) (convert : Bool) (ops : List Op) : script e [] sep convert ops = none := rfl

/-- **C134.** Unsetting removes the variable and nothing else. -/
theorem C134_unset (x : Var) (e : Env) : unset x e x.name = none ∧ ∀ n, n ≠ x.name → unset x e n = e n :=
  ⟨by simp [unset], fun n h => by simp [unset, h]⟩

/-- **C134 finding.** If the first entry is empty, which stands for the current directory in `PATH`, it is lost when something is prepended, for
all values and entries. -/
theorem C134_first_entry_lost (x : Var) (sep : Char) (rest v : Str) (hs : x.separator = some sep) (hx : x.value = sep :: rest)
    (hv : converted x.convert v ≠ []) :
    entries sep (some x.value) = [] :: Spec.split sep rest ∧
    entries sep (some (prepend x v).value) = Spec.split sep (converted x.convert v) ++ Spec.split sep rest := by
  constructor
  · rw [hx, entries_some (by simp), Spec.split, if_pos rfl]
  · simp only [prepend, added_converted]
    rw [if_neg (by rw [hs, hx]; simp), entries_some (by simp [hv]), hx]
    exact split_append sep _ rest

/-- **C134 finding.** Without a separator, which is the default, values are glued together. -/
theorem C134_no_separator :
    ∃ (x : Var) (v : Str), x.separator = none ∧ x.value = "/usr/lib".toList ∧ v = "/lib".toList ∧
      (append x v).value = "/usr/lib/lib".toList ∧ (prepend x v).value = "/lib/usr/lib".toList :=
  ⟨⟨"P".toList, "/usr/lib".toList, none, false⟩, "/lib".toList, rfl, rfl, rfl, by decide +kernel, by decide +kernel⟩

end Verif.EnvVar
