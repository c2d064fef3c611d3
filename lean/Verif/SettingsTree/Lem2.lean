import Verif.SettingsTree.Lem

namespace Verif.SettingsTree

/-! ## What one edit changes -/

theorem shows_cons (n w : Str) (b : Bool) (s r : Forest) (q : List Str) (v : Str) :
    Shows (.cons n w b s r) q v ↔
      (s = .nil ∧ q = [n] ∧ v = w) ∨ (∃ p, q = n :: p ∧ Shows s p v) ∨ Shows r q v := by
  constructor
  · intro h
    cases h with
    | here => exact .inl ⟨rfl, rfl, rfl⟩
    | sub h => exact .inr (.inl ⟨_, rfl, h⟩)
    | rest h => exact .inr (.inr h)
  · rintro (⟨rfl, rfl, rfl⟩ | ⟨p, rfl, h⟩ | h)
    · exact .here
    · exact .sub h
    · exact .rest h

theorem not_shows_nil (p : List Str) (v : Str) : ¬ Shows .nil p v := by intro h; cases h

theorem shows_ne {f : Forest} {p : List Str} {v : Str} (h : Shows f p v) : p ≠ [] := by
  induction h with
  | here => simp
  | sub => simp
  | rest _ ih => exact ih

theorem rowAt_mem {i : Nat} {f : Forest} {x : Row} (h : rowAt i f = some x) : x.1 ∈ names f := by
  induction f generalizing i with
  | nil => cases i <;> simp [rowAt] at h
  | cons n v b s r _ ih =>
    cases i with
    | zero => simp [rowAt] at h; subst h; simp [names]
    | succ i => simp [names, ih (by simpa [rowAt] using h)]

theorem modRow_congr (g g' : Row → Row) (i : Nat) (f : Forest) (x : Row) (h : rowAt i f = some x)
    (e : g x = g' x) : modRow g i f = modRow g' i f := by
  induction f generalizing i with
  | nil => cases i <;> rfl
  | cons n v b s r _ ih =>
    cases i with
    | zero => simp [rowAt] at h; subst h; simp [modRow, e]
    | succ i => rw [modRow, modRow, ih i (by simpa [rowAt] using h)]

/-- What is shown below the node in a row. -/
theorem shows_row {i : Nat} {f : Forest} {n w : Str} {b : Bool} {s : Forest} (hd : Distinct f)
    (h : rowAt i f = some (n, w, b, s)) (q : List Str) (v : Str) :
    Shows f (n :: q) v ↔ (s = .nil ∧ q = [] ∧ v = w) ∨ Shows s q v := by
  induction f generalizing i with
  | nil => cases i <;> simp [rowAt] at h
  | cons m u c t r _ ih =>
    rw [shows_cons]
    cases i with
    | zero =>
      simp only [rowAt, Option.some.injEq, Prod.mk.injEq] at h
      obtain ⟨rfl, rfl, rfl, rfl⟩ := h
      have : ¬ Shows r (m :: q) v := fun h => hd.1 (shows_head h)
      simp [this]
    | succ i =>
      have h' : rowAt i r = some (n, w, b, s) := by simpa [rowAt] using h
      have hne : m ≠ n := by
        rintro rfl
        exact hd.1 (rowAt_mem h')
      rw [ih hd.2.2 h']
      simp [Ne.symm hne]

/-- Other rows are not changed. -/
theorem shows_other {i : Nat} {f : Forest} {x : Row} (hd : Distinct f) (g : Row → Row)
    (hg : (g x).1 = x.1) (h : rowAt i f = some x) (q : List Str) (v : Str)
    (hq : q.head? ≠ some x.1) : Shows (modRow g i f) q v ↔ Shows f q v := by
  induction f generalizing i with
  | nil => cases i <;> simp [rowAt] at h
  | cons m u c t r _ ih =>
    cases i with
    | zero =>
      simp only [rowAt, Option.some.injEq] at h
      subst h
      rw [modRow, shows_cons, shows_cons, hg]
      have h1 : q ≠ [m] := by rintro rfl; simp at hq
      have h2 : ∀ p, q ≠ m :: p := by rintro p rfl; simp at hq
      simp [h1, h2]
    | succ i =>
      rw [modRow, shows_cons, shows_cons, ih hd.2.2 (by simpa [rowAt] using h)]

theorem rowAt_modRow {i : Nat} {f : Forest} {x : Row} (g : Row → Row) (h : rowAt i f = some x) :
    rowAt i (modRow g i f) = some (g x) := by
  induction f generalizing i with
  | nil => cases i <;> simp [rowAt] at h
  | cons m u c t r _ ih =>
    cases i with
    | zero => simp only [rowAt, Option.some.injEq] at h; subst h; rfl
    | succ i => rw [modRow, rowAt]; exact ih (by simpa [rowAt] using h)

theorem modRow_ne (g : Row → Row) (i : Nat) (f : Forest) : modRow g i f = .nil ↔ f = .nil := by
  cases f with
  | nil => cases i <;> simp [modRow]
  | cons _ _ _ _ _ => cases i <;> simp [modRow]

/-- Setting the value of a leaf changes what is shown for its key, and nothing else. -/
theorem shows_setVal (t : Str) (i : Nat) (par : List Nat) : ∀ (f c : Forest) (p : List Str),
    Distinct f → pathTo par i f = some p → subAt par f = some c →
    (∀ x, rowAt i c = some x → x.2.2.2 = .nil) → ∀ (q : List Str) (v : Str),
    Shows (modSub (modRow (fun x => (x.1, t, x.2.2)) i) par f) q v ↔
      (q = p ∧ v = t) ∨ (q ≠ p ∧ Shows f q v) := by
  induction par with
  | nil =>
    intro f c p hd hp hc hl q v
    cases hc
    rw [modSub]
    rw [pathTo] at hp
    cases hx : rowAt i f with
    | none => simp [hx] at hp
    | some x =>
      obtain ⟨n, w, b, s⟩ := x
      have hs : s = .nil := hl _ hx
      subst hs
      simp only [hx, Option.map_some, Option.some.injEq] at hp
      subst hp
      by_cases hq : q.head? = some n
      · cases q with
        | nil => simp at hq
        | cons m q =>
          simp only [List.head?_cons, Option.some.injEq] at hq
          subst hq
          have hd' : Distinct (modRow (fun x => (x.1, t, x.2.2)) i f) :=
            inv_modRow distinct_inv (fun x => (x.1, t, x.2.2)) (fun _ => rfl) (fun _ hx => hx) i f hd
          rw [shows_row hd' (rowAt_modRow _ hx), shows_row hd hx]
          simp [not_shows_nil]
          intro h1 h2 h3
          exact absurd h2 h1
      · rw [shows_other hd _ rfl hx q v hq]
        have : q ≠ [n] := by rintro rfl; simp at hq
        simp [this]
  | cons j par ih =>
    intro f c p hd hp hc hl q v
    rw [pathTo] at hp
    rw [subAt] at hc
    cases hx : rowAt j f with
    | none => simp [hx] at hp
    | some x =>
      obtain ⟨n, w, b, s⟩ := x
      simp only [hx] at hp hc
      cases hp' : pathTo par i s with
      | none => simp [hp'] at hp
      | some p' =>
        simp only [hp', Option.map_some, Option.some.injEq] at hp
        subst hp
        rw [modSub]
        have hds : Distinct s := by
          clear ih hp' hc
          induction f generalizing j with
          | nil => cases j <;> simp [rowAt] at hx
          | cons m u c' t' r _ ihr =>
            cases j with
            | zero => simp only [rowAt, Option.some.injEq, Prod.mk.injEq] at hx; rw [← hx.2.2.2]; exact hd.2.1
            | succ j => exact ihr j hd.2.2 (by simpa [rowAt] using hx)
        have IH := ih s c p' hds hp' hc hl
        by_cases hq : q.head? = some n
        · cases q with
          | nil => simp at hq
          | cons m q =>
            simp only [List.head?_cons, Option.some.injEq] at hq
            subst hq
            have hd' : Distinct (modRow (fun x => (x.1, x.2.1, x.2.2.1,
                modSub (modRow (fun x => (x.1, t, x.2.2)) i) par x.2.2.2)) j f) := by
              have := step_distinct ⟨f, false⟩ (.setVal (j :: par) i t) hd
              have e := inv_modSub distinct_inv (modRow (fun x => (x.1, t, x.2.2)) i) (j :: par) f
                (fun c _ hc => inv_modRow distinct_inv (fun x => (x.1, t, x.2.2)) (fun _ => rfl)
                  (fun _ hx => hx) i c hc) hd
              exact e
            rw [shows_row hd' (rowAt_modRow _ hx), shows_row hd hx]
            have hsn : s ≠ .nil := by
              rintro rfl
              cases par with
              | nil => simp [pathTo, rowAt] at hp'
              | cons k par => simp [pathTo, rowAt] at hp'
            have hsn' : modSub (modRow (fun x => (x.1, t, x.2.2)) i) par s ≠ .nil := by
              cases par with
              | nil => rw [modSub]; exact fun e => hsn ((modRow_ne _ _ _).mp e)
              | cons k par => rw [modSub]; exact fun e => hsn ((modRow_ne _ _ _).mp e)
            have := IH q v
            simp only [hsn, hsn', false_and, false_or, this, List.cons.injEq, true_and, ne_eq]
        · rw [shows_other hd _ rfl hx q v hq]
          have : q ≠ n :: p' := by rintro rfl; simp at hq
          simp [this]

theorem shows_dropRow {i : Nat} {f : Forest} {x : Row} (hd : Distinct f) (h : rowAt i f = some x)
    (q : List Str) (v : Str) :
    Shows (dropRow i f) q v ↔ q.head? ≠ some x.1 ∧ Shows f q v := by
  induction f generalizing i with
  | nil => cases i <;> simp [rowAt] at h
  | cons m u c t r _ ih =>
    cases i with
    | zero =>
      simp only [rowAt, Option.some.injEq] at h
      subst h
      rw [dropRow, shows_cons]
      constructor
      · intro hs
        refine ⟨?_, .inr (.inr hs)⟩
        intro e
        cases q with
        | nil => simp at e
        | cons k q =>
          simp only [List.head?_cons, Option.some.injEq] at e
          subst e
          exact hd.1 (shows_head hs)
      · rintro ⟨h1, h2 | h2 | h2⟩
        · obtain ⟨-, rfl, -⟩ := h2; simp at h1
        · obtain ⟨p, rfl, -⟩ := h2; simp at h1
        · exact h2
    | succ i =>
      have h' : rowAt i r = some x := by simpa [rowAt] using h
      have hne : m ≠ x.1 := by
        rintro rfl
        exact hd.1 (rowAt_mem h')
      rw [dropRow, shows_cons, shows_cons, ih hd.2.2 h']
      constructor
      · rintro (⟨a, rfl, c⟩ | ⟨p, rfl, c⟩ | ⟨a, c⟩)
        · exact ⟨by simpa using hne, .inl ⟨a, rfl, c⟩⟩
        · exact ⟨by simpa using hne, .inr (.inl ⟨p, rfl, c⟩)⟩
        · exact ⟨a, .inr (.inr c)⟩
      · rintro ⟨a, b | b | b⟩
        · exact .inl b
        · exact .inr (.inl b)
        · exact .inr (.inr ⟨a, b⟩)

theorem dropRow_nil {i : Nat} {c : Forest} (h : 2 ≤ (names c).length) : dropRow i c ≠ .nil := by
  cases c with
  | nil => simp [names] at h
  | cons n v b s r =>
    cases i with
    | zero =>
      rw [dropRow]
      rintro rfl
      simp [names] at h
    | succ i => simp [dropRow]

/-- Removing a node that is not the only one below its parent removes the keys
that begin with its names, and nothing else. -/
theorem shows_remove (i : Nat) (par : List Nat) : ∀ (f c : Forest) (p : List Str),
    Distinct f → pathTo par i f = some p → subAt par f = some c →
    (par ≠ [] → 2 ≤ (names c).length) → ∀ (q : List Str) (v : Str),
    Shows (modSub (dropRow i) par f) q v ↔ ¬ p <+: q ∧ Shows f q v := by
  induction par with
  | nil =>
    intro f c p hd hp hc _ q v
    rw [modSub]
    rw [pathTo] at hp
    cases hx : rowAt i f with
    | none => simp [hx] at hp
    | some x =>
      simp only [hx, Option.map_some, Option.some.injEq] at hp
      subst hp
      rw [shows_dropRow hd hx]
      have : q.head? ≠ some x.1 ↔ ¬ [x.1] <+: q := by
        cases q with
        | nil => simp
        | cons m q => simp [List.cons_prefix_cons, eq_comm]
      rw [this]
  | cons j par ih =>
    intro f c p hd hp hc hl q v
    rw [pathTo] at hp
    rw [subAt] at hc
    have hl' := hl (by simp)
    cases hx : rowAt j f with
    | none => simp [hx] at hp
    | some x =>
      obtain ⟨n, w, b, s⟩ := x
      simp only [hx] at hp hc
      cases hp' : pathTo par i s with
      | none => simp [hp'] at hp
      | some p' =>
        simp only [hp', Option.map_some, Option.some.injEq] at hp
        subst hp
        rw [modSub]
        have hds : Distinct s := by
          clear ih hp' hc hl hl'
          induction f generalizing j with
          | nil => cases j <;> simp [rowAt] at hx
          | cons m u c' t' r _ ihr =>
            cases j with
            | zero => simp only [rowAt, Option.some.injEq, Prod.mk.injEq] at hx; rw [← hx.2.2.2]; exact hd.2.1
            | succ j => exact ihr j hd.2.2 (by simpa [rowAt] using hx)
        have IH := ih s c p' hds hp' hc (fun _ => hl')
        by_cases hq : q.head? = some n
        · cases q with
          | nil => simp at hq
          | cons m q =>
            simp only [List.head?_cons, Option.some.injEq] at hq
            subst hq
            have hd' : Distinct (modRow (fun x => (x.1, x.2.1, x.2.2.1,
                modSub (dropRow i) par x.2.2.2)) j f) :=
              inv_modSub distinct_inv (dropRow i) (j :: par) f
                (fun c _ hc => distinct_dropRow i c hc) hd
            rw [shows_row hd' (rowAt_modRow _ hx), shows_row hd hx]
            have hsn : s ≠ .nil := by
              rintro rfl
              cases par with
              | nil => simp [pathTo, rowAt] at hp'
              | cons k par => simp [pathTo, rowAt] at hp'
            have hsn' : modSub (dropRow i) par s ≠ .nil := by
              cases par with
              | nil => cases hc; rw [modSub]; exact dropRow_nil hl'
              | cons k par => rw [modSub]; exact fun e => hsn ((modRow_ne _ _ _).mp e)
            have := IH q v
            simp only [hsn, hsn', false_and, false_or, this, List.cons_prefix_cons, true_and]
        · rw [shows_other hd _ rfl hx q v hq]
          have : ¬ (n :: p') <+: q := by
            rintro ⟨y, rfl⟩
            simp at hq
          simp [this]

/-! ## What is read -/

theorem shows_read {V : Type} (rep : Option V → Str) (t : Trie V) (h : Leafy t) (p : List Str)
    (x : Str) : Shows (read rep t) p x ↔ ∃ v, Stored t p v ∧ x = rep (some v) := by
  induction t generalizing p with
  | nil =>
    constructor
    · intro h; cases h
    · rintro ⟨v, h, -⟩; cases h
  | cons n o s r ihs ih =>
    rw [read, shows_cons, ih h.2.2]
    have e : ∀ q, Shows (read rep s) q x ↔ ∃ v, Stored s q v ∧ x = rep (some v) :=
      fun q => ihs h.2.1 q
    constructor
    · rintro (⟨h1, rfl, rfl⟩ | ⟨q, rfl, h1⟩ | ⟨v, h1, h2⟩)
      · have hs : s = .nil := by cases s <;> simp [read] at h1 ⊢
        subst hs
        have : o.isSome := h.1.mpr rfl
        obtain ⟨v, rfl⟩ := Option.isSome_iff_exists.mp this
        exact ⟨v, .here, rfl⟩
      · obtain ⟨v, h1, h2⟩ := (e q).mp h1
        exact ⟨v, .sub h1, h2⟩
      · exact ⟨v, .rest h1, h2⟩
    · rintro ⟨v, h1, h2⟩
      cases h1 with
      | here =>
        have this := h.1.mp rfl
        cases s with
        | nil => exact .inl ⟨rfl, rfl, h2⟩
        | cons => simp at this
      | sub h1 => exact .inr (.inl ⟨_, rfl, (e _).mpr ⟨v, h1, h2⟩⟩)
      | rest h1 => exact .inr (.inr ⟨v, h1, h2⟩)

theorem store_shows {V : Type} (unrep : Str → V) (f : Forest) (hp : Plain f) (hd : Distinct f) :
    ∃ st, store unrep (rootWrites f) (fun _ => none) = some st ∧
      ∀ p x, st p = some x ↔ ∃ v, Shows f p v ∧ x = unrep v := by
  obtain ⟨st, e, h1, h2⟩ := store_some unrep (rootWrites f) (fun _ => none) (rootWrites_keys f)
  refine ⟨st, e, ?_⟩
  have W : ∀ q v, (∃ y ∈ rootWrites f, y.1 ≠ [] ∧ parts y.1 = q ∧ y.2 = v) ↔ Shows f q v := by
    intro q v
    cases f with
    | nil =>
      constructor
      · rintro ⟨y, hy, hne, -⟩
        simp [rootWrites] at hy
        simp [hy] at hne
      · intro h; cases h
    | cons n w b s r =>
      have := writes_iff (.cons n w b s r) [] hp q v
      constructor
      · rintro ⟨⟨k, u⟩, hy, -, hq, rfl⟩
        obtain ⟨p, h1, h2⟩ := this.mp ⟨k, hy, hq⟩
        have : q = p := by simpa [parts, partsFrom] using h2
        rw [this]; exact h1
      · intro hs
        obtain ⟨k, hk, hq⟩ := this.mpr ⟨q, hs, by simp [parts, partsFrom]⟩
        refine ⟨(k, v), hk, ?_, hq, rfl⟩
        have := writes_dot _ [] _ hk
        intro e
        have e' : k = [] := e
        subst e'
        simp at this
  intro p x
  by_cases hex : ∃ v, Shows f p v
  · obtain ⟨v, hv⟩ := hex
    have hst : st p = some (unrep v) := by
      refine h2 p v ((W p v).mpr hv) ?_
      intro y hy hne hq
      exact shows_unique hd ((W p y.2).mp ⟨y, hy, hne, hq, rfl⟩) hv
    rw [hst]
    constructor
    · intro e; cases e; exact ⟨v, hv, rfl⟩
    · rintro ⟨w, hw, rfl⟩; rw [shows_unique hd hw hv]
  · have hst : st p = none := by
      refine h1 p ?_
      intro y hy hne hq
      exact hex ⟨y.2, (W p y.2).mp ⟨y, hy, hne, hq, rfl⟩⟩
    rw [hst]
    constructor
    · intro e; cases e
    · rintro ⟨v, hv, -⟩; exact absurd ⟨v, hv⟩ hex

end Verif.SettingsTree
