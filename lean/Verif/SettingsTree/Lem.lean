import Verif.SettingsTree.Spec

namespace Verif.SettingsTree

/-! ## Unique names -/

theorem unique_loop (ns : List Str) : ∀ (k : Nat) (n : Str),
    (ns.filter (fun m => n.length ≤ m.length)).length ≤ k → uniqueLoop k ns n ∉ ns := by
  intro k
  induction k with
  | zero =>
    intro n h hn
    have : n ∈ ns.filter (fun m => n.length ≤ m.length) :=
      List.mem_filter.mpr ⟨hn, by simp⟩
    have := List.length_pos_of_mem this
    omega
  | succ k ih =>
    intro n h
    rw [uniqueLoop]
    split
    · next hn =>
      apply ih
      have e : ns.filter (fun m => (n ++ ['_']).length ≤ m.length)
          = (ns.filter (fun m => n.length ≤ m.length)).filter (fun m => (n ++ ['_']).length ≤ m.length) := by
        rw [List.filter_filter]
        congr 1
        funext m
        simp only [List.length_append, List.length_cons, List.length_nil, ← Bool.decide_and]
        exact decide_eq_decide.mpr (by omega)
      rw [e]
      have hm : n ∈ ns.filter (fun m => n.length ≤ m.length) := List.mem_filter.mpr ⟨hn, by simp⟩
      have : ((ns.filter (fun m => n.length ≤ m.length)).filter
          (fun m => (n ++ ['_']).length ≤ m.length)).length
          < (ns.filter (fun m => n.length ≤ m.length)).length := by
        rcases Nat.lt_or_ge _ _ with hlt | hge
        · exact hlt
        · have hl := List.length_filter_eq_length_iff.mp
            (Nat.le_antisymm (List.length_filter_le _ _) hge)
          have := hl n hm
          simp at this
          omega
      omega
    · assumption

theorem unique_fresh (f : Forest) : uniqueChildName f ∉ names f :=
  unique_loop _ _ _ (List.length_filter_le _ _)

theorem unique_plain_loop (ns : List Str) : ∀ (k : Nat) (n : Str), PlainName n →
    PlainName (uniqueLoop k ns n) := by
  intro k
  induction k with
  | zero => exact fun n h => h
  | succ k ih =>
    intro n h
    rw [uniqueLoop]
    split
    · apply ih
      exact ⟨by simp, by simp [h.2.1], by simp [h.2.2]⟩
    · exact h

theorem unique_plain (f : Forest) : PlainName (uniqueChildName f) :=
  unique_plain_loop _ _ _ ⟨by decide, by decide, by decide⟩

/-! ## Invariants of the edits -/

theorem names_snoc (f : Forest) (n : Str) : names (snoc f n) = names f ++ [n] := by
  induction f with
  | nil => rfl
  | cons m v b s r _ ih => simp [snoc, names, ih]

theorem names_modRow (g : Row → Row) (hg : ∀ x, (g x).1 = x.1) (i : Nat) (f : Forest) :
    names (modRow g i f) = names f := by
  induction f generalizing i with
  | nil => cases i <;> rfl
  | cons n v b s r _ ih =>
    cases i with
    | zero => simp [modRow, names, hg]
    | succ i => simp [modRow, names, ih]

/-- A property of all nodes and the names of their siblings. -/
structure Inv (P : Forest → Prop) : Prop where
  nil : P .nil
  sub : ∀ {n v b s r}, P (.cons n v b s r) → P s
  rest : ∀ {n v b s r}, P (.cons n v b s r) → P r
  change : ∀ {n v b s r v' b' s' r'}, P (.cons n v b s r) → P s' → P r' →
    names r' = names r → P (.cons n v' b' s' r')

theorem distinct_inv : Inv Distinct where
  nil := trivial
  sub h := h.2.1
  rest h := h.2.2
  change h hs hr e := ⟨by rw [e]; exact h.1, hs, hr⟩

theorem plain_inv : Inv Plain where
  nil := trivial
  sub h := h.2.1
  rest h := h.2.2
  change h hs hr _ := ⟨h.1, hs, hr⟩

theorem inv_modRow {P : Forest → Prop} (I : Inv P) (g : Row → Row) (hg : ∀ x, (g x).1 = x.1)
    (hs : ∀ x, P x.2.2.2 → P (g x).2.2.2) (i : Nat) (f : Forest) (h : P f) : P (modRow g i f) := by
  induction f generalizing i with
  | nil => cases i <;> exact I.nil
  | cons n v b s r _ ih =>
    cases i with
    | zero =>
      rw [modRow]
      have : (g (n, v, b, s)).1 = n := hg _
      rw [this]
      exact I.change h (hs (n, v, b, s) (I.sub h)) (I.rest h) rfl
    | succ i =>
      rw [modRow]
      exact I.change h (I.sub h) (ih i (I.rest h)) (names_modRow g hg i r)

theorem inv_modSub {P : Forest → Prop} (I : Inv P) (g : Forest → Forest)
    (ix : List Nat) : ∀ (f : Forest), (∀ c, subAt ix f = some c → P c → P (g c)) → P f →
    P (modSub g ix f) := by
  induction ix with
  | nil => exact fun f hg h => hg f rfl h
  | cons i ix ih =>
    intro f hg h
    rw [modSub]
    -- only the node in row `i` is changed
    have key : ∀ (i : Nat) (f : Forest), P f →
        (∀ n v b s, rowAt i f = some (n, v, b, s) → P s → P (modSub g ix s)) →
        P (modRow (fun x => (x.1, x.2.1, x.2.2.1, modSub g ix x.2.2.2)) i f) := by
      intro i f
      induction f generalizing i with
      | nil => intro _ _; cases i <;> exact I.nil
      | cons n v b s r _ ihr =>
        intro hf hh
        cases i with
        | zero =>
          rw [modRow]
          exact I.change hf (hh n v b s rfl (I.sub hf)) (I.rest hf) rfl
        | succ i =>
          rw [modRow]
          refine I.change hf (I.sub hf) (ihr i (I.rest hf) ?_) (names_modRow (fun x => (x.1, x.2.1, x.2.2.1, modSub g ix x.2.2.2)) (fun _ => rfl) i r)
          intro n v b s e
          exact hh n v b s (by simpa [rowAt] using e)
    refine key i f h ?_
    intro n v b s e hs
    refine ih s ?_ hs
    intro c hc
    exact hg c (by simp [subAt, e, hc])

theorem distinct_snoc (f : Forest) (n : Str) (h : Distinct f) (hn : n ∉ names f) :
    Distinct (snoc f n) := by
  induction f with
  | nil => exact ⟨by simp [names], trivial, trivial⟩
  | cons m v b s r _ ih =>
    simp only [names, List.mem_cons, not_or] at hn
    refine ⟨?_, h.2.1, ih h.2.2 hn.2⟩
    rw [names_snoc]
    simp only [List.mem_append, List.mem_singleton, not_or]
    exact ⟨h.1, fun e => hn.1 e.symm⟩

theorem plain_snoc (f : Forest) (n : Str) (h : Plain f) (hn : PlainName n) : Plain (snoc f n) := by
  induction f with
  | nil => exact ⟨hn, trivial, trivial⟩
  | cons m v b s r _ ih => exact ⟨h.1, h.2.1, ih h.2.2⟩

theorem names_dropRow (i : Nat) (f : Forest) (n : Str) (h : n ∈ names (dropRow i f)) :
    n ∈ names f := by
  induction f generalizing i with
  | nil => cases i <;> exact h
  | cons m v b s r _ ih =>
    cases i with
    | zero => simp [dropRow] at h; simp [names, h]
    | succ i =>
      simp only [dropRow, names, List.mem_cons] at h ⊢
      exact h.imp id (ih i)

theorem distinct_dropRow (i : Nat) (f : Forest) (h : Distinct f) : Distinct (dropRow i f) := by
  induction f generalizing i with
  | nil => cases i <;> trivial
  | cons m v b s r _ ih =>
    cases i with
    | zero => exact h.2.2
    | succ i => exact ⟨fun hm => h.1 (names_dropRow i r m hm), h.2.1, ih i h.2.2⟩

theorem plain_dropRow (i : Nat) (f : Forest) (h : Plain f) : Plain (dropRow i f) := by
  induction f generalizing i with
  | nil => cases i <;> trivial
  | cons m v b s r _ ih =>
    cases i with
    | zero => exact h.2.2
    | succ i => exact ⟨h.1, h.2.1, ih i h.2.2⟩

theorem names_rename (t : Str) (i : Nat) (f : Forest) (n : Str)
    (h : n ∈ names (modRow (fun x => (t, x.2)) i f)) : n = t ∨ n ∈ names f := by
  induction f generalizing i with
  | nil => cases i <;> exact .inr h
  | cons m v b s r _ ih =>
    cases i with
    | zero => simp only [modRow, names, List.mem_cons] at h ⊢; exact h.imp id .inr
    | succ i =>
      simp only [modRow, names, List.mem_cons] at h ⊢
      rcases h with h | h
      · exact .inr (.inl h)
      · exact (ih i h).imp id .inr

theorem distinct_rename (t : Str) (i : Nat) (f : Forest) (h : Distinct f) (ht : t ∉ names f) :
    Distinct (modRow (fun x => (t, x.2)) i f) := by
  induction f generalizing i with
  | nil => cases i <;> trivial
  | cons m v b s r _ ih =>
    simp only [names, List.mem_cons, not_or] at ht
    cases i with
    | zero => exact ⟨ht.2, h.2.1, h.2.2⟩
    | succ i =>
      refine ⟨?_, h.2.1, ih i h.2.2 ht.2⟩
      intro hm
      rcases names_rename t i r m hm with e | e
      · exact ht.1 e.symm
      · exact h.1 e

theorem plain_rename (t : Str) (i : Nat) (f : Forest) (h : Plain f) (ht : PlainName t) :
    Plain (modRow (fun x => (t, x.2)) i f) := by
  induction f generalizing i with
  | nil => cases i <;> trivial
  | cons m v b s r _ ih =>
    cases i with
    | zero => exact ⟨ht, h.2.1, h.2.2⟩
    | succ i => exact ⟨h.1, h.2.1, ih i h.2.2⟩

theorem step_distinct (s : St) (o : Op) (h : Distinct s.tree) : Distinct (step s o).tree := by
  cases o with
  | add par =>
    rw [step]
    split
    · exact h
    · refine inv_modSub distinct_inv _ par _ ?_ h
      exact fun c _ hc => distinct_snoc c _ hc (unique_fresh c)
  | remove par i =>
    rw [step]
    split
    · exact h
    · split
      · exact h
      · exact inv_modSub distinct_inv _ par _ (fun c _ hc => distinct_dropRow i c hc) h
  | rename par i t =>
    rw [step]
    split
    · exact h
    · next c hc =>
      split
      · exact h
      · split
        · next hok =>
          refine inv_modSub distinct_inv _ par _ ?_ h
          intro c' hc' hd
          rw [hc] at hc'
          cases hc'
          refine distinct_rename t i c hd ?_
          simp only [nameOk, Bool.and_eq_true, Bool.not_eq_true'] at hok
          have := hok.1.2
          simpa using this
        · exact h
  | setVal par i t =>
    rw [step]
    split
    · exact h
    · split
      · exact h
      · split
        · refine inv_modSub distinct_inv _ par _ ?_ h
          exact fun c _ hc => inv_modRow distinct_inv (fun x => (x.1, t, x.2.2)) (fun _ => rfl)
            (fun _ hx => hx) i c hc
        · exact h

theorem step_plain (s : St) (o : Op) (ho : PlainOp o) (h : Plain s.tree) :
    Plain (step s o).tree := by
  cases o with
  | add par =>
    rw [step]
    split
    · exact h
    · exact inv_modSub plain_inv _ par _ (fun c _ hc => plain_snoc c _ hc (unique_plain c)) h
  | remove par i =>
    rw [step]
    split
    · exact h
    · split
      · exact h
      · exact inv_modSub plain_inv _ par _ (fun c _ hc => plain_dropRow i c hc) h
  | rename par i t =>
    rw [step]
    split
    · exact h
    · split
      · exact h
      · split
        · exact inv_modSub plain_inv _ par _ (fun c _ hc => plain_rename t i c hc ho) h
        · exact h
  | setVal par i t =>
    rw [step]
    split
    · exact h
    · split
      · exact h
      · split
        · refine inv_modSub plain_inv _ par _ ?_ h
          exact fun c _ hc => inv_modRow plain_inv (fun x => (x.1, t, x.2.2)) (fun _ => rfl)
            (fun _ hx => hx) i c hc
        · exact h

theorem step_clean (s : St) (o : Op) (h : (step s o).dirty = false) : step s o = s := by
  cases o with
  | add par =>
    revert h; rw [step]; split
    · exact fun _ => rfl
    · intro h; cases h
  | remove par i =>
    revert h; rw [step]; split
    · exact fun _ => rfl
    · split
      · exact fun _ => rfl
      · intro h; cases h
  | rename par i t =>
    revert h; rw [step]; split
    · exact fun _ => rfl
    · split
      · exact fun _ => rfl
      · split
        · intro h; cases h
        · exact fun _ => rfl
  | setVal par i t =>
    revert h; rw [step]; split
    · exact fun _ => rfl
    · split
      · exact fun _ => rfl
      · split
        · intro h; cases h
        · exact fun _ => rfl

/-! ## Reading -/

theorem names_read {V : Type} (rep : Option V → Str) (t : Trie V) : names (read rep t) = tnames t := by
  induction t with
  | nil => rfl
  | cons n v s r _ ih => simp [read, names, tnames, ih]

theorem read_distinct {V : Type} (rep : Option V → Str) (t : Trie V) (h : Sound t) :
    Distinct (read rep t) := by
  induction t with
  | nil => trivial
  | cons n v s r ihs ih => exact ⟨by rw [names_read]; exact h.1, ihs h.2.2.1, ih h.2.2.2⟩

theorem read_plain {V : Type} (rep : Option V → Str) (t : Trie V) (h : Sound t) :
    Plain (read rep t) := by
  induction t with
  | nil => trivial
  | cons n v s r ihs ih => exact ⟨h.2.1, ihs h.2.2.1, ih h.2.2.2⟩

theorem update_names (n : Str) (g : Str → Bool → Forest → Str × Bool × Forest) (f : Forest) :
    ∀ m, m ∈ names (update n g f) → m = n ∨ m ∈ names f := by
  induction f with
  | nil => intro m h; simpa [update, names] using h
  | cons k v b s r _ ih =>
    intro m h
    rw [update] at h
    split at h
    · exact .inr h
    · simp only [names, List.mem_cons] at h ⊢
      rcases h with h | h
      · exact .inr (.inl h)
      · exact (ih m h).imp id .inr

theorem update_distinct (n : Str) (g : Str → Bool → Forest → Str × Bool × Forest) (f : Forest)
    (hg : ∀ v b s, Distinct s → Distinct (g v b s).2.2) (h : Distinct f) :
    Distinct (update n g f) := by
  induction f with
  | nil => exact ⟨by simp [names], hg _ _ _ trivial, trivial⟩
  | cons k v b s r _ ih =>
    rw [update]
    split
    · exact ⟨h.1, hg _ _ _ h.2.1, h.2.2⟩
    · next hk =>
      refine ⟨?_, h.2.1, ih h.2.2⟩
      intro hm
      rcases update_names n g r k hm with e | e
      · exact hk e
      · exact h.1 e

theorem addNode_distinct (p : List Str) (v : Str) : ∀ f, Distinct f → Distinct (addNode p v f) := by
  induction p with
  | nil => exact fun f h => h
  | cons n p ih =>
    intro f h
    rw [addNode]
    refine update_distinct _ _ _ ?_ h
    intro w b s hs
    cases p with
    | nil => exact hs
    | cons _ _ => exact ih s hs

theorem addAll_distinct (l : List (Str × Str)) : ∀ f f', Distinct f → addAll l f = some f' →
    Distinct f' := by
  induction l with
  | nil => intro f f' h e; cases e; exact h
  | cons x l ih =>
    intro f f' h e
    obtain ⟨k, v⟩ := x
    rw [addAll] at e
    split at e
    · cases e
    · exact ih _ _ (addNode_distinct _ v f h) e

/-! ## Saving -/

theorem parts_append (w a b : Str) : partsFrom w (a ++ '.' :: b) = partsFrom w a ++ parts b := by
  induction a generalizing w with
  | nil =>
    rw [List.nil_append, partsFrom]
    by_cases h : w = []
    · simp [h, partsFrom, parts]
    · simp [h, partsFrom, parts]
  | cons c a ih =>
    rw [List.cons_append, partsFrom, partsFrom]
    split
    · split
      · exact ih _
      · rw [ih]; rfl
    · exact ih _

theorem parts_plain (w n : Str) (hw : w ++ n ≠ []) (h1 : '.' ∉ n) (h2 : '/' ∉ n) :
    partsFrom w n = [w ++ n] := by
  induction n generalizing w with
  | nil => simp at hw; simp [partsFrom, hw]
  | cons c n ih =>
    simp only [List.mem_cons, not_or] at h1 h2
    rw [partsFrom, if_neg (by
      rintro (e | e)
      · exact h1.1 e.symm
      · exact h2.1 e.symm), ih _ (by simp) h1.2 h2.2]
    simp

theorem key_parts (a n : Str) (h : PlainName n) : parts (a ++ ['.'] ++ n) = parts a ++ [n] := by
  have e : a ++ ['.'] ++ n = a ++ '.' :: n := by simp
  rw [e]
  show partsFrom [] _ = _
  rw [parts_append]
  show _ = partsFrom [] a ++ [n]
  congr 1
  exact parts_plain [] n (by simpa using h.1) h.2.1 h.2.2

theorem writes_iff (f : Forest) : ∀ (a : Str), Plain f → ∀ (q : List Str) (v : Str),
    (∃ k, (k, v) ∈ writes (a ++ ['.']) f ∧ parts k = q) ↔
      ∃ p, Shows f p v ∧ q = parts a ++ p := by
  induction f with
  | nil =>
    intro a _ q v
    constructor
    · rintro ⟨k, hk, -⟩; simp [writes] at hk
    · rintro ⟨p, hp, -⟩; cases hp
  | cons n w b s r ihs ih =>
    intro a hp q v
    obtain ⟨hn, hs, hr⟩ := hp
    have ihr := ih a hr q v
    have hkey := key_parts a n hn
    cases s with
    | nil =>
      rw [writes]
      constructor
      · rintro ⟨k, hk, e⟩
        rcases List.mem_cons.mp hk with hk | hk
        · cases hk
          exact ⟨[n], .here, by rw [← e, hkey]⟩
        · obtain ⟨p, h1, h2⟩ := ihr.mp ⟨k, hk, e⟩
          exact ⟨p, .rest h1, h2⟩
      · rintro ⟨p, h1, h2⟩
        cases h1 with
        | here => exact ⟨_, List.mem_cons_self, by rw [hkey, h2]⟩
        | sub h1 => cases h1
        | rest h1 =>
          obtain ⟨k, hk, e⟩ := ihr.mpr ⟨p, h1, h2⟩
          exact ⟨k, List.mem_cons_of_mem _ hk, e⟩
    | cons n' w' b' s' r' =>
      rw [writes]
      have ihs' := ihs (a ++ ['.'] ++ n) hs q v
      constructor
      · rintro ⟨k, hk, e⟩
        rcases List.mem_append.mp hk with hk | hk
        · obtain ⟨p, h1, h2⟩ := ihs'.mp ⟨k, hk, e⟩
          exact ⟨n :: p, .sub h1, by rw [h2, hkey]; simp⟩
        · obtain ⟨p, h1, h2⟩ := ihr.mp ⟨k, hk, e⟩
          exact ⟨p, .rest h1, h2⟩
      · rintro ⟨p, h1, h2⟩
        cases h1 with
        | sub h1 =>
          rename_i p
          obtain ⟨k, hk, e⟩ := ihs'.mpr ⟨p, h1, by rw [h2, hkey]; simp⟩
          exact ⟨k, List.mem_append_left _ hk, e⟩
        | rest h1 =>
          obtain ⟨k, hk, e⟩ := ihr.mpr ⟨p, h1, h2⟩
          exact ⟨k, List.mem_append_right _ hk, e⟩
      · simp

theorem writes_dot (f : Forest) : ∀ (a : Str), ∀ x ∈ writes ('.' :: a) f, x.1.head? = some '.' := by
  induction f with
  | nil => intro a x hx; simp [writes] at hx
  | cons n w b s r ihs ih =>
    intro a x hx
    cases s with
    | nil =>
      rw [writes] at hx
      rcases List.mem_cons.mp hx with rfl | hx
      · rfl
      · exact ih a x hx
    | cons _ _ _ _ _ =>
      rw [writes] at hx
      · rcases List.mem_append.mp hx with hx | hx
        · exact ihs (a ++ n ++ ['.']) x (by simpa using hx)
        · exact ih a x hx
      · simp

/-- Every key that is written starts with a dot, or is empty. -/
theorem rootWrites_keys (f : Forest) : ∀ x ∈ rootWrites f, x.1 = [] ∨ x.1.head? = some '.' := by
  intro x hx
  cases f with
  | nil => simp [rootWrites] at hx; simp [hx]
  | cons n w b s r => exact .inr (writes_dot _ [] x hx)

theorem not_refused {k : Str} (h : k.head? = some '.') : "profiles.none".toList.isPrefixOf k = false := by
  cases k with
  | nil => simp at h
  | cons c k =>
    simp only [List.head?_cons, Option.some.injEq] at h
    subst h
    rfl

/-- What the calls of `setValue` leave: the last value for each key. -/
theorem store_some {V : Type} (unrep : Str → V) (l : List (Str × Str)) : ∀ (st : Store V),
    (∀ x ∈ l, x.1 = [] ∨ x.1.head? = some '.') →
    ∃ st', store unrep l st = some st' ∧
      (∀ p, (∀ x ∈ l, x.1 ≠ [] → parts x.1 ≠ p) → st' p = st p) ∧
      (∀ p v, (∃ x ∈ l, x.1 ≠ [] ∧ parts x.1 = p ∧ x.2 = v) →
        (∀ x ∈ l, x.1 ≠ [] → parts x.1 = p → x.2 = v) → st' p = some (unrep v)) := by
  induction l with
  | nil => intro st _; exact ⟨st, rfl, fun _ _ => rfl, fun p v h => by obtain ⟨x, hx, _⟩ := h; cases hx⟩
  | cons x l ih =>
    intro st h
    obtain ⟨k, w⟩ := x
    have hl : ∀ x ∈ l, x.1 = [] ∨ x.1.head? = some '.' := fun x hx => h x (by simp [hx])
    by_cases hk : k = []
    · subst hk
      obtain ⟨st', e, h1, h2⟩ := ih st hl
      refine ⟨st', by simp [store, e], ?_, ?_⟩
      · exact fun p hp => h1 p (fun x hx => hp x (by simp [hx]))
      · intro p v hx ha
        refine h2 p v ?_ (fun x hx => ha x (by simp [hx]))
        obtain ⟨x, hx, hne, he⟩ := hx
        rcases List.mem_cons.mp hx with rfl | hx
        · exact absurd rfl hne
        · exact ⟨x, hx, hne, he⟩
    · have hd : k.head? = some '.' := (h (k, w) (by simp)).resolve_left hk
      obtain ⟨st', e, h1, h2⟩ := ih (fun p => if p = parts k then some (unrep w) else st p) hl
      refine ⟨st', ?_, ?_, ?_⟩
      · rw [store, if_neg hk, setValue, if_neg (by rw [not_refused hd]; exact Bool.false_ne_true)]
        exact e
      · intro p hp
        rw [h1 p (fun x hx => hp x (by simp [hx]))]
        exact if_neg (fun e => hp (k, w) (by simp) hk e.symm)
      · intro p v hx ha
        by_cases hex : ∃ x ∈ l, x.1 ≠ [] ∧ parts x.1 = p ∧ x.2 = v
        · exact h2 p v hex (fun x hx => ha x (by simp [hx]))
        · have hnone : ∀ x ∈ l, x.1 ≠ [] → parts x.1 ≠ p := by
            intro x hx hne hpe
            exact hex ⟨x, hx, hne, hpe, ha x (by simp [hx]) hne hpe⟩
          rw [h1 p hnone]
          obtain ⟨x, hx, hne, hpe, hv⟩ := hx
          rcases List.mem_cons.mp hx with rfl | hx
          · rw [if_pos hpe.symm, ← hv]
          · exact absurd hpe (hnone x hx hne)

theorem shows_head {f : Forest} {n : Str} {p : List Str} {v : Str} (h : Shows f (n :: p) v) :
    n ∈ names f := by
  generalize e : n :: p = q at h
  induction h with
  | here => cases e; simp [names]
  | sub => cases e; simp [names]
  | rest _ ih => simp [names, ih e]

theorem shows_unique {f : Forest} {p : List Str} {v w : Str} (hd : Distinct f)
    (h1 : Shows f p v) (h2 : Shows f p w) : v = w := by
  induction h1 generalizing w with
  | here =>
    cases h2 with
    | here => rfl
    | sub h => cases h
    | rest h => exact absurd (shows_head h) hd.1
  | sub h ih =>
    cases h2 with
    | here => cases h
    | sub h2 => exact ih hd.2.1 h2
    | rest h2 => exact absurd (shows_head h2) hd.1
  | rest h ih =>
    cases h2 with
    | here => exact absurd (shows_head h) hd.1
    | sub h2 => exact absurd (shows_head h) hd.1
    | rest h2 => exact ih hd.2.2 h2

end Verif.SettingsTree
