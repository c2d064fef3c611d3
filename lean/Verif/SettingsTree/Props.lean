import Verif.SettingsTree.Lem2

/-!
# Properties of the settings tree
-/

namespace Verif.SettingsTree

theorem run_distinct (ops : List Op) : ∀ s : St, Distinct s.tree → Distinct (run s ops).tree := by
  induction ops with
  | nil => exact fun s h => h
  | cons o ops ih => exact fun s h => ih _ (step_distinct s o h)

theorem run_plain (ops : List Op) : ∀ s : St, (∀ o ∈ ops, PlainOp o) → Plain s.tree →
    Plain (run s ops).tree := by
  induction ops with
  | nil => exact fun s _ h => h
  | cons o ops ih =>
    exact fun s ho h => ih _ (fun o h => ho o (by simp [h])) (step_plain s o (ho o (by simp)) h)

/-- **C119.** Whatever is edited in whatever order, no two siblings ever have the
same name. -/
theorem C119_distinct {V : Type} (rep : Option V → Str) (t : Trie V) (ht : Sound t)
    (add : List (Str × Str)) (f : Forest) (hf : readSettings rep t add = some f) (d : Bool)
    (ops : List Op) : Distinct (run ⟨f, d⟩ ops).tree :=
  run_distinct ops _ (addAll_distinct add _ _ (read_distinct rep t ht) hf)

/-- **C119.** A new key gets a name that no sibling has. -/
theorem C119_new_key (f : Forest) : uniqueChildName f ∉ names f ∧ PlainName (uniqueChildName f) :=
  ⟨unique_fresh f, unique_plain f⟩

/-- **C119.** After any history of edits in which no name with dots or slashes is
entered, saving stores exactly what is shown: every key of a node without
children has the value that is shown, and there are no other keys. -/
theorem C119_saved_partial {V : Type} (rep : Option V → Str) (unrep : Str → V) (t : Trie V)
    (ht : Sound t) (ops : List Op) (ho : ∀ o ∈ ops, PlainOp o) (st : Store V)
    (hdirty : (run ⟨read rep t, false⟩ ops).dirty = true) :
    ∃ st', save unrep (run ⟨read rep t, false⟩ ops) st = some st' ∧
      ∀ p x, st' p = some x ↔
        ∃ v, Shows (run ⟨read rep t, false⟩ ops).tree p v ∧ x = unrep v := by
  rw [save, if_pos hdirty]
  exact store_shows unrep _ (run_plain ops _ ho (read_plain rep t ht))
    (run_distinct ops _ (read_distinct rep t ht))

/-- **C119.** Saving is never refused, whatever was edited. -/
theorem C119_save_works {V : Type} (unrep : Str → V) (s : St) (st : Store V) :
    ∃ st', save unrep s st = some st' := by
  rw [save]
  split
  · obtain ⟨st', e, -⟩ := store_some unrep (rootWrites s.tree) (fun _ => none) (rootWrites_keys s.tree)
    exact ⟨st', e⟩
  · exact ⟨st, rfl⟩

/-- **C119.** If there are no unsaved changes, the tree is as it was read, and saving
changes nothing. -/
theorem C119_clean {V : Type} (unrep : Str → V) (f : Forest) (ops : List Op) (st : Store V)
    (h : (run ⟨f, false⟩ ops).dirty = false) :
    (run ⟨f, false⟩ ops).tree = f ∧ save unrep (run ⟨f, false⟩ ops) st = some st := by
  refine ⟨?_, by rw [save, h]; rfl⟩
  have key : ∀ (ops : List Op) (s : St), (run s ops).dirty = false →
      s.dirty = false ∧ run s ops = s := by
    intro ops
    induction ops with
    | nil => exact fun s h => ⟨h, rfl⟩
    | cons o ops ih =>
      intro s h
      obtain ⟨h1, h2⟩ := ih (step s o) h
      have h3 := step_clean s o h1
      rw [h3] at h1
      refine ⟨h1, ?_⟩
      show run (step s o) ops = s
      rw [h2, h3]
  rw [(key ops _ h).2]

/-- **C119.** The tree that is read shows exactly the stored settings, if no key has
both a value and keys below it. -/
theorem C119_read_partial {V : Type} (rep : Option V → Str) (t : Trie V) (hl : Leafy t)
    (p : List Str) (x : Str) :
    Shows (read rep t) p x ↔ ∃ v, Stored t p v ∧ x = rep (some v) :=
  shows_read rep t hl p x

/-- **C119.** Setting the value of one key and saving changes the value of this key and
no other, if no key has both a value and keys below it. -/
theorem C119_set_value_partial {V : Type} (rep : Option V → Str) (unrep : Str → V)
    (hrep : ∀ v, unrep (rep (some v)) = v) (t : Trie V) (ht : Sound t) (hl : Leafy t)
    (par : List Nat) (i : Nat) (s w : Str) (n : Str) (b : Bool) (c : Forest) (p : List Str)
    (hp : pathTo par i (read rep t) = some p) (hc : subAt par (read rep t) = some c)
    (hr : rowAt i c = some (n, w, b, .nil)) (hw : s ≠ w) (st : Store V) :
    ∃ st', save unrep (step ⟨read rep t, false⟩ (.setVal par i s)) st = some st' ∧
      ∀ q x, st' q = some x ↔ (q = p ∧ x = unrep s) ∨ (q ≠ p ∧ Stored t q x) := by
  have hd := read_distinct rep t ht
  have e : step ⟨read rep t, false⟩ (.setVal par i s)
      = ⟨modSub (modRow (fun x => (x.1, s, x.2.2)) i) par (read rep t), true⟩ := by
    simp [step, hc, hr, hw]
  have hpl := step_plain ⟨read rep t, false⟩ (.setVal par i s) trivial (read_plain rep t ht)
  have hdi := step_distinct ⟨read rep t, false⟩ (.setVal par i s) hd
  rw [e] at hpl hdi ⊢
  rw [save, if_pos rfl]
  obtain ⟨st', h1, h2⟩ := store_shows unrep _ hpl hdi
  refine ⟨st', h1, ?_⟩
  intro q x
  rw [h2]
  have S := shows_setVal s i par (read rep t) c p hd hp hc
    (by intro x hx; rw [hr] at hx; cases hx; rfl) q
  constructor
  · rintro ⟨v, hv, rfl⟩
    rcases (S v).mp hv with ⟨rfl, rfl⟩ | ⟨hq, hv⟩
    · exact .inl ⟨rfl, rfl⟩
    · obtain ⟨u, hu, rfl⟩ := (shows_read rep t hl q v).mp hv
      exact .inr ⟨hq, by rw [hrep]; exact hu⟩
  · rintro (⟨rfl, rfl⟩ | ⟨hq, hx⟩)
    · exact ⟨s, (S s).mpr (.inl ⟨rfl, rfl⟩), rfl⟩
    · exact ⟨rep (some x), (S _).mpr (.inr ⟨hq, (shows_read rep t hl q _).mpr ⟨x, hx, rfl⟩⟩),
        (hrep x).symm⟩

/-- **C119.** Removing a node and saving removes the keys that begin with its names and
no other, if no key has both a value and keys below it and the node is not the
only one below its parent. -/
theorem C119_remove_partial {V : Type} (rep : Option V → Str) (unrep : Str → V)
    (hrep : ∀ v, unrep (rep (some v)) = v) (t : Trie V) (ht : Sound t) (hl : Leafy t)
    (par : List Nat) (i : Nat) (c : Forest) (p : List Str)
    (hp : pathTo par i (read rep t) = some p) (hc : subAt par (read rep t) = some c)
    (h2 : par ≠ [] → 2 ≤ (names c).length) (hr : (rowAt i c).isSome) (st : Store V) :
    ∃ st', save unrep (step ⟨read rep t, false⟩ (.remove par i)) st = some st' ∧
      ∀ q x, st' q = some x ↔ ¬ p <+: q ∧ Stored t q x := by
  have hd := read_distinct rep t ht
  obtain ⟨row, hrow⟩ := Option.isSome_iff_exists.mp hr
  have e : step ⟨read rep t, false⟩ (.remove par i)
      = ⟨modSub (dropRow i) par (read rep t), true⟩ := by
    simp [step, hc, hrow]
  have hpl := step_plain ⟨read rep t, false⟩ (.remove par i) trivial (read_plain rep t ht)
  have hdi := step_distinct ⟨read rep t, false⟩ (.remove par i) hd
  rw [e] at hpl hdi ⊢
  rw [save, if_pos rfl]
  obtain ⟨st', h1, h3⟩ := store_shows unrep _ hpl hdi
  refine ⟨st', h1, ?_⟩
  intro q x
  rw [h3]
  have S := shows_remove i par (read rep t) c p hd hp hc h2 q
  constructor
  · rintro ⟨v, hv, rfl⟩
    obtain ⟨hq, hv⟩ := (S v).mp hv
    obtain ⟨u, hu, rfl⟩ := (shows_read rep t hl q v).mp hv
    exact ⟨hq, by rw [hrep]; exact hu⟩
  · rintro ⟨hq, hx⟩
    exact ⟨rep (some x), (S _).mpr ⟨hq, (shows_read rep t hl q _).mpr ⟨x, hx, rfl⟩⟩,
      (hrep x).symm⟩

/-- **C119 finding.** If a key has both a value and keys below it, the value is not
shown, and is lost when anything is saved. -/
theorem C119_finding_value_lost {V : Type} (rep : Option V → Str) (unrep : Str → V) (n m : Str)
    (v w : V) (hn : PlainName n) (hm : PlainName m) (st : Store V) :
    ∃ st', save unrep ⟨read rep (.cons n (some v) (.cons m (some w) .nil .nil) .nil), true⟩ st
        = some st' ∧ st' [n] = none := by
  have hp : Plain (read rep (.cons n (some v) (.cons m (some w) .nil .nil) .nil)) :=
    ⟨hn, ⟨hm, trivial, trivial⟩, trivial⟩
  have hd : Distinct (read rep (.cons n (some v) (.cons m (some w) .nil .nil) .nil)) :=
    ⟨by simp [read, names], ⟨by simp [read, names], trivial, trivial⟩, trivial⟩
  rw [save, if_pos rfl]
  obtain ⟨st', h1, h2⟩ := store_shows unrep _ hp hd
  refine ⟨st', h1, ?_⟩
  cases e : st' [n] with
  | none => rfl
  | some x =>
    obtain ⟨u, hu, -⟩ := (h2 _ _).mp e
    simp only [read, shows_cons] at hu
    rcases hu with ⟨h, -⟩ | ⟨p, hp, h⟩ | h
    · cases h
    · simp at hp
      subst hp
      rcases h with ⟨-, h, -⟩ | ⟨p, h, -⟩ | h
      · cases h
      · cases h
      · cases h
    · cases h

end Verif.SettingsTree
