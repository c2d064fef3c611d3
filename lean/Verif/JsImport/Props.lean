import Verif.JsImport.Lem

/-! Properties C124 (the names of an imported file) and C125 (files that require each other). -/
namespace Verif.JsImport

/-- The full statement of C124: importing a file works and provides exactly what the file declares. -/
def ProvidesDeclared : Prop :=
  ∀ (globals : List Str) (p : Node), ∃ l, importSource globals p = .ok l ∧ ∀ n, n ∈ l ↔ Declares true p n

/-- **C124.** If a file can be imported, then everything that it declares is provided, and nothing else
except perhaps for global objects. -/
theorem C124_provides (globals : List Str) (p : Node) (l : List Str) (h : importSource globals p = .ok l) :
    (∀ n, Declares true p n → n ∈ l) ∧ ∀ n ∈ l, Declares true p n ∨ n ∈ globals := by
  unfold importSource at h
  split at h
  · cases h
  · rename_i hf
    cases h
    refine ⟨fun n hn => visit_mem p true true n ((mem_declares p true n).mpr hn), ?_⟩
    intro n hn
    have := List.find?_eq_none.mp hf n hn
    simp only [decide_eq_true_eq, not_and, Decidable.not_not] at this
    by_cases hd : n ∈ declares true p
    · exact .inl ((mem_declares p true n).mp hd)
    · exact .inr (this hd)

/-- **C124.** Importing works and provides exactly what is declared, if there is at most one function
expression outside of variables and no constant in a block.  (Missing: other files, for which it is
not true.) -/
theorem C124_names_partial (globals : List Str) (p : Node) (h1 : loose p ≤ 1) (h2 : NoBlockConst true p) :
    ∃ l, importSource globals p = .ok l ∧ ∀ n, n ∈ l ↔ Declares true p n := by
  have e : exported p = declares true p := visit_one p true h1 h2
  refine ⟨exported p, ?_, fun n => by rw [e]; exact mem_declares p true n⟩
  unfold importSource
  have : (exported p).find? (fun n => n ∉ declares true p ∧ n ∉ globals) = none := by
    rw [List.find?_eq_none]
    intro n hn
    rw [e] at hn
    simp [hn]
  rw [this]

/-- An import fails as soon as one of the identifiers is not known. -/
theorem importSource_fails (globals : List Str) (p : Node) (n : Str) (h : n ∈ exported p)
    (hd : ¬ Declares true p n) (hg : n ∉ globals) : ∃ m, importSource globals p = .referenceError m := by
  unfold importSource
  cases hf : (exported p).find? (fun n => n ∉ declares true p ∧ n ∉ globals) with
  | some m => exact ⟨m, rfl⟩
  | none =>
    exfalso
    have := List.find?_eq_none.mp hf n h
    simp only [decide_eq_true_eq, not_and, Decidable.not_not] at this
    exact hg (this (fun h' => hd ((mem_declares p true n).mp h')))

/-- **C124 finding.** In the second function expression of a file and all later ones, local variables
are taken for variables of the file.  Importing fails then, because there are no such variables. -/
theorem C124_second_function (globals : List Str) (b i r rest : Node) (n : Str) (hb : b ≠ .nil)
    (hd : ¬ Declares true rest n) (hg : n ∉ globals) :
    ∃ m, importSource globals (.fexpr b (.fexpr (.var false n i r) rest)) = .referenceError m := by
  refine importSource_fails globals _ n ?_ ?_ hg
  · have hbn : b.isNil = false := by
      cases b with
      | nil => exact absurd rfl hb
      | _ => rfl
    simp [exported, visit, hbn, Node.isNil]
  · intro h
    cases h with
    | fexpr_next h =>
      cases h with
      | fexpr_next h => exact hd h

/-- **C124 finding.** A local variable of the second function expression that has the name of a global
object makes the file provide that object. -/
theorem C124_global (globals : List Str) (n : Str) (hg : n ∈ globals) :
    importSource globals (.fexpr (.var false n .nil .nil) (.fexpr (.var false n .nil .nil) .nil)) = .ok [n] := by
  simp [importSource, exported, visit, Node.isNil, hg]

/-- **C124 finding.** A file with a constant in a block cannot be imported. -/
theorem C124_block_constant (globals : List Str) (i r rest : Node) (n : Str) (hr : ¬ Declares false r n)
    (hd : ¬ Declares true rest n) (hg : n ∉ globals) :
    ∃ m, importSource globals (.block (.var true n i r) rest) = .referenceError m := by
  refine importSource_fails globals _ n (by simp [exported, visit]) ?_ hg
  intro h
  cases h with
  | block h =>
    cases h with
    | var_next h => exact hr h
  | block_next h => exact hd h

/-- **C124 finding.** So the full statement is false. -/
theorem C124_not_declared : ¬ ProvidesDeclared := by
  intro h
  obtain ⟨l, hl, _⟩ := h [] (.block (.var true ['c'] .nil .nil) .nil)
  have : importSource [] (.block (.var true ['c'] .nil .nil) .nil) = .referenceError ['c'] := by decide
  rw [this] at hl
  cases hl

/-- The full statement of C125: importing ends, each file is evaluated once at most, and every path is
taken relative to the directory of the file with the call. -/
def RequireWorks : Prop :=
  ∀ (w : World) (d f : Nat), ∃ k, (importFile w k { stack := [d] } f).1 ≠ .overflow ∧
    (importFile w k { stack := [d] } f).2.starts.Nodup ∧
    ∀ r ∈ (importFile w k { stack := [d] } f).2.reqs, Resolved w r

/-- **C125.** If the files do not require each other in a circle and no error is caught, then importing
a file ends, evaluates each file at most once and takes every path relative to the directory of the
file with the call.  This also holds if the import fails.  (Missing: the other cases, for which it is
not true.) -/
theorem C125_require_partial (w : World) (rank : Nat → Nat) (hr : Ranked w rank) (hn : NoCatch w)
    (d f k : Nat) (hk : rank f < k) :
    (importFile w k { stack := [d] } f).1 ≠ .overflow ∧
      (importFile w k { stack := [d] } f).2.starts.Nodup ∧
      ∀ r ∈ (importFile w k { stack := [d] } f).2.reqs, Resolved w r := by
  obtain ⟨⟨ws, rs, e1, e2, e3, e4, e5, e6, e7⟩, h2, h3, h4⟩ :=
    importFile_good rank hr hn k { stack := [d] } f hk
  refine ⟨h4, ?_, ?_⟩
  · rw [e1]; simpa using e5
  · intro r hr'
    rw [e2] at hr'
    exact e3 r (by simpa using hr')

/-- **C125.** The same holds for several files that are imported one after the other: a file that was
evaluated for one of them is not evaluated again for the next, if that worked. -/
theorem C125_next_partial (w : World) (rank : Nat → Nat) (hr : Ranked w rank) (hn : NoCatch w)
    (d f g k : Nat) (hf : rank f < k) (hg : rank g < k)
    (hok : (importFile w k { stack := [d] } f).1 = .ok) :
    (importFile w k (importFile w k { stack := [d] } f).2 g).2.starts.Nodup ∧
      (importFile w k { stack := [d] } f).2.stack = [d] := by
  have h1 := importFile_good rank hr hn k { stack := [d] } f hf
  generalize importFile w k { stack := [d] } f = r1 at h1 hok
  have h2 := importFile_good rank hr hn k r1.2 g hg
  obtain ⟨ws, rs, e1, _, _, _, e5, _⟩ := h1.adds
  obtain ⟨vs, qs, f1, _, _, _, f5, f6, _⟩ := h2.adds
  refine ⟨?_, h1.stack hok⟩
  rw [f1, e1]
  simp only [List.nil_append]
  rw [List.nodup_append]
  refine ⟨e5, f5, ?_⟩
  intro x hx y hy e
  subst e
  exact f6 x hy (h1.cached hok ws e1 x hx)

/-- **C125.** A file that was imported successfully is not evaluated again: importing it once more
changes nothing. -/
theorem C125_cached (w : World) (k j : Nat) (s : St) (f : Nat) (h : (importFile w k s f).1 = .ok) :
    importFile w (j + 1) (importFile w k s f).2 f = (.ok, (importFile w k s f).2) := by
  have : f ∈ (importFile w k s f).2.cache := by
    cases k with
    | zero => cases h
    | succ k =>
      simp only [importFile] at h ⊢
      by_cases hc : f ∈ s.cache
      · rw [if_pos hc]; exact hc
      · rw [if_neg hc] at h ⊢
        cases hf : w.files[f]? with
        | none => rw [hf] at h; cases h
        | some c =>
          rw [hf] at h
          simp only at h ⊢
          generalize runSteps w (importFile w k) f
            { s with stack := c.dir :: s.stack, starts := s.starts ++ [f] } c.steps = r at h ⊢
          rcases r with ⟨o, s1⟩
          rcases o with _ | _ | _
          · simp
          · cases h
          · cases h
  simp only [importFile]
  rw [if_pos this]

/-- **C125 finding.** If a file requires itself, importing it never ends. -/
theorem C125_circle (w : World) (f : Nat) (c : File) (p : Str) (b : Bool) (l : List Step)
    (hf : w.files[f]? = some c) (hc : c.steps = .require p b :: l) (hp : w.resolve c.dir p = f) :
    ∀ (k : Nat) (s : St), f ∉ s.cache → (importFile w k s f).1 = .overflow := by
  intro k
  induction k with
  | zero => intro s _; rfl
  | succ k ih =>
    intro s hs
    simp only [importFile]
    rw [if_neg hs, hf]
    simp only [hc, runSteps, hp]
    have := ih ⟨s.cache, c.dir :: s.stack, s.starts ++ [f], s.reqs ++ [(f, p, f)]⟩ hs
    generalize importFile w k ⟨s.cache, c.dir :: s.stack, s.starts ++ [f], s.reqs ++ [(f, p, f)]⟩ f = r at this
    rcases r with ⟨o, s1⟩
    simp only at this
    subst this
    rfl

/-- Two directories, 0 and 1.  The file 0, in directory 0, requires the file 1, in directory 1, which
throws an error that is caught, and then the path `b`, of which there is one in each directory. -/
abbrev caughtWorld : World :=
  { files := [⟨0, [.require ['a'] true, .require ['b'] false]⟩, ⟨1, [.throw]⟩, ⟨0, []⟩, ⟨1, []⟩]
    resolve := fun d p => if p = ['a'] then 1 else if d = 0 then 2 else 3 }

/-- **C125 finding.** After an error in a required file was caught, paths are taken relative to the
directory of the file with the error: here the wrong file is imported. -/
theorem C125_caught : (importFile caughtWorld 9 { stack := [0] } 0).1 = .ok ∧
    (importFile caughtWorld 9 { stack := [0] } 0).2.reqs = [(0, ['a'], 1), (0, ['b'], 3)] ∧
    ¬ Resolved caughtWorld (0, ['b'], 3) := by
  refine ⟨by decide, by decide, ?_⟩
  rintro ⟨c, hc, h⟩
  simp at hc
  subst hc
  revert h
  decide

/-- **C125 finding.** So the full statement is false. -/
theorem C125_not_required : ¬ RequireWorks := by
  intro h
  obtain ⟨k, hk, _⟩ := h ⟨[⟨0, [.require [] false]⟩], fun _ _ => 0⟩ 0 0
  exact hk (C125_circle _ 0 _ [] false [] rfl rfl rfl k _ (by simp))

end Verif.JsImport
