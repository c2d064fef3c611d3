/-!
# C43: interned identifiers

Model of src/lib/corelib/tools/id.cpp 70-200 (`Id`, also the base of `FileTag`).

Simplifications: names are lists of byte values; the identifiers are natural numbers, so the
counter does not overflow (in the code after about 2^31 names). The mutex makes every call
atomic, so a history is a sequence of calls.
-/
namespace Verif.Ids

abbrev Name := List Nat

/-- id.cpp 76-87: the hash of `StringHolder`. A `char` is signed, `h` is 32 bits wide. -/
def elfHash (s : Name) : Nat :=
  s.foldl (fun h c =>
    let v := if c < 128 then c else 2^32 + c - 256
    let h := (h * 16 + v) % 2^32
    let h := h ^^^ ((h &&& 0xf0000000) / 2^23)
    h &&& 0x0fffffff) 0

/-- What `strcmp`, `qstrdup` and the conversion to `QByteArray` see: the bytes up to the first
NUL. -/
def cstr (s : Name) : Name := s.takeWhile (· ≠ 0)

/-- `StringHolder` (id.cpp 70-92): the C string and its hash. -/
structure Holder where
  str : Name
  h : Nat
deriving DecidableEq, Repr

/-- id.cpp 94-98 `operator==`. -/
def Holder.eq (a b : Holder) : Bool := a.h == b.h && a.str == b.str

/-- The static tables (id.cpp 117-121). -/
structure Tab where
  firstUnused : Nat
  stringFromId : List (Nat × Holder)
  idFromString : List (Holder × Nat)

/-- id.cpp 117, id.h 56. -/
def Tab.init : Tab := { firstUnused := 10000 * 1000, stringFromId := [], idFromString := [] }

/-- `QHash::value(sh, 0)`: the entry whose key is equal, 0 if there is none. (Equal keys have
equal hashes, so the hash table finds it.) -/
def lookup (sh : Holder) : List (Holder × Nat) → Nat
  | [] => 0
  | (k, v) :: r => if k.eq sh then v else lookup sh r

/-- id.cpp 127-140 `theId`, for both constructors: `Id(const char *)` passes the string up to the
NUL, `Id(const QByteArray &)` the whole array with its length. -/
def theId (hash : Name → Nat) (t : Tab) (s : Name) : Nat × Tab :=
  if cstr s = [] then (0, t)
  else
    let sh : Holder := { str := cstr s, h := hash s }
    let res := lookup sh t.idFromString
    if res = 0 then
      (t.firstUnused,
        { firstUnused := t.firstUnused + 1
          stringFromId := (t.firstUnused, sh) :: t.stringFromId
          idFromString := (sh, t.firstUnused) :: t.idFromString })
    else (res, t)

/-- id.cpp 123-127 `getStringFromId`, `Id::name`: empty if unknown. -/
def nameOf (t : Tab) (id : Nat) : Name :=
  match t.stringFromId.find? (fun p => p.1 == id) with
  | some p => p.2.str
  | none => []

/-- A history of `Id` constructions. -/
def run (hash : Name → Nat) (t : Tab) : List Name → List Nat × Tab
  | [] => ([], t)
  | s :: ss =>
    let r := theId hash t s
    let rest := run hash r.2 ss
    (r.1 :: rest.1, rest.2)

/-! ### Invariant -/

structure Inv (hash : Name → Nat) (t : Tab) : Prop where
  pos : 0 < t.firstUnused
  below : ∀ k v, (k, v) ∈ t.idFromString → 0 < v ∧ v < t.firstUnused
  belowS : ∀ i k, (i, k) ∈ t.stringFromId → i < t.firstUnused
  same : ∀ k v, (k, v) ∈ t.idFromString ↔ (v, k) ∈ t.stringFromId
  fun1 : ∀ i k k', (i, k) ∈ t.stringFromId → (i, k') ∈ t.stringFromId → k = k'

theorem inv_init (hash : Name → Nat) : Inv hash Tab.init := by
  refine ⟨by decide, ?_, ?_, ?_, ?_⟩ <;> intro x <;> simp [Tab.init]

theorem lookup_spec (sh : Holder) : ∀ l : List (Holder × Nat),
    (lookup sh l ≠ 0 → (sh, lookup sh l) ∈ l) ∧
    (∀ v, (sh, v) ∈ l → (∀ k v, (k, v) ∈ l → 0 < v) → lookup sh l ≠ 0) := by
  intro l
  induction l with
  | nil => exact ⟨fun h => absurd rfl h, fun v hv => by cases hv⟩
  | cons p r ih =>
    obtain ⟨k, w⟩ := p
    have heq : k.eq sh = true ↔ k = sh := by
      cases k; cases sh; simp [Holder.eq]; grind
    simp only [lookup]
    by_cases hk : k = sh
    · rw [if_pos (heq.2 hk)]
      subst hk
      refine ⟨fun _ => by simp, ?_⟩
      intro v _ hp
      have := hp k w (by simp)
      omega
    · rw [if_neg (fun h => hk (heq.1 h))]
      refine ⟨fun h => List.mem_cons_of_mem _ (ih.1 h), ?_⟩
      intro v hv hp
      rcases List.mem_cons.1 hv with h | h
      · cases h; exact absurd rfl hk
      · exact ih.2 v h (fun k v hm => hp k v (List.mem_cons_of_mem _ hm))

theorem inv_theId (hash : Name → Nat) (t : Tab) (s : Name) (hi : Inv hash t) :
    Inv hash (theId hash t s).2 ∧
    (cstr s ≠ [] → ((theId hash t s).1, ({ str := cstr s, h := hash s } : Holder)) ∈
      (theId hash t s).2.stringFromId) ∧
    (∀ p ∈ t.stringFromId, p ∈ (theId hash t s).2.stringFromId) := by
  unfold theId
  by_cases hc : cstr s = []
  · rw [if_pos hc]; exact ⟨hi, fun h => absurd hc h, fun p hp => hp⟩
  rw [if_neg hc]
  simp only
  by_cases hl : lookup { str := cstr s, h := hash s } t.idFromString = 0
  · rw [if_pos hl]
    refine ⟨⟨?_, ?_, ?_, ?_, ?_⟩, ?_, ?_⟩
    · simp
    · intro k v hm
      simp only at hm ⊢
      rcases List.mem_cons.1 hm with h | h
      · cases h; have := hi.pos; omega
      · have := hi.below k v h; omega
    · intro i k hm
      simp only at hm ⊢
      rcases List.mem_cons.1 hm with h | h
      · cases h; omega
      · have := hi.belowS i k h; omega
    · intro k v
      simp only [List.mem_cons, Prod.mk.injEq]
      rw [hi.same k v]
      grind
    · intro i k k' h h'
      simp only at h h'
      rcases List.mem_cons.1 h with h | h <;> rcases List.mem_cons.1 h' with h' | h'
      · cases h; cases h'; rfl
      · cases h; have := hi.belowS _ _ h'; omega
      · cases h'; have := hi.belowS _ _ h; omega
      · exact hi.fun1 i k k' h h'
    · intro _; simp
    · intro p hp; simp [hp]
  · rw [if_neg hl]
    refine ⟨hi, fun _ => ?_, fun p hp => hp⟩
    exact (hi.same _ _).1 ((lookup_spec _ _).1 hl)

theorem inv_run (hash : Name → Nat) : ∀ (ss : List Name) (t : Tab), Inv hash t →
    Inv hash (run hash t ss).2 ∧
    (∀ p ∈ t.stringFromId, p ∈ (run hash t ss).2.stringFromId) ∧
    (run hash t ss).1.length = ss.length ∧
    (∀ (i : Nat) (s : Name), ss[i]? = some s → cstr s ≠ [] → ∃ id, (run hash t ss).1[i]? = some id ∧
      (id, ({ str := cstr s, h := hash s } : Holder)) ∈ (run hash t ss).2.stringFromId) ∧
    (∀ (i : Nat) (s : Name), ss[i]? = some s → cstr s = [] → (run hash t ss).1[i]? = some 0) := by
  intro ss
  induction ss with
  | nil =>
    intro t hi
    exact ⟨hi, fun p hp => hp, rfl, fun i s h => by simp at h, fun i s h => by simp at h⟩
  | cons s ss ih =>
    intro t hi
    obtain ⟨h1, h2, h3⟩ := inv_theId hash t s hi
    obtain ⟨g1, g2, g3, g4, g5⟩ := ih (theId hash t s).2 h1
    simp only [run]
    refine ⟨g1, fun p hp => g2 p (h3 p hp), by simp [g3], ?_, ?_⟩
    · intro i s' hs hc
      cases i with
      | zero =>
        simp only [List.getElem?_cons_zero, Option.some.injEq] at hs
        subst hs
        exact ⟨_, by simp, g2 _ (h2 hc)⟩
      | succ i =>
        simp only [List.getElem?_cons_succ] at hs ⊢
        exact g4 i s' hs hc
    · intro i s' hs hc
      cases i with
      | zero =>
        simp only [List.getElem?_cons_zero, Option.some.injEq] at hs
        subst hs
        simp [theId, hc]
      | succ i =>
        simp only [List.getElem?_cons_succ] at hs ⊢
        exact g5 i s' hs hc

theorem nameOf_mem (hash : Name → Nat) (t : Tab) (hi : Inv hash t) (id : Nat) (k : Holder)
    (h : (id, k) ∈ t.stringFromId) : nameOf t id = k.str := by
  unfold nameOf
  cases hf : t.stringFromId.find? (fun p => p.1 == id) with
  | none =>
    have := List.find?_eq_none.1 hf _ h
    simp at this
  | some p =>
    have h1 := List.find?_some hf
    have h2 := List.mem_of_find?_eq_some hf
    obtain ⟨i, k'⟩ := p
    simp only [beq_iff_eq] at h1
    subst h1
    rw [hi.fun1 _ _ _ h h2]

theorem cstr_of_noNul (s : Name) (h : 0 ∉ s) : cstr s = s := by
  unfold cstr
  induction s with
  | nil => rfl
  | cons c s ih =>
    simp only [List.mem_cons, not_or] at h
    rw [List.takeWhile_cons, if_pos (by simpa using fun h' => h.1 h'.symm), ih h.2]

/-- **C43.** In every history of constructions of identifiers from names without NUL bytes, and
whatever the hash function: two identifiers are equal exactly if they were made from the same
name, each one is valid (not 0) exactly if its name is not empty, and asking for the name at the
end still gives the name it was made from. -/
theorem C43_ids_are_names (hash : Name → Nat) (names : List Name) (hn : ∀ s ∈ names, 0 ∉ s) :
    (run hash Tab.init names).1.length = names.length ∧
    (∀ (i : Nat) (s : Name) (id : Nat), names[i]? = some s → (run hash Tab.init names).1[i]? = some id →
      nameOf (run hash Tab.init names).2 id = s ∧ (id = 0 ↔ s = [])) ∧
    (∀ (i j : Nat) (s s' : Name) (id id' : Nat), names[i]? = some s → names[j]? = some s' →
      (run hash Tab.init names).1[i]? = some id → (run hash Tab.init names).1[j]? = some id' →
      (id = id' ↔ s = s')) := by
  obtain ⟨h1, _, h3, h4, h5⟩ := inv_run hash names Tab.init (inv_init hash)
  have h0 : ∀ k, (0, k) ∉ (run hash Tab.init names).2.stringFromId := by
    intro k hk
    have := h1.below k 0 ((h1.same k 0).2 hk)
    omega
  have key : ∀ (i : Nat) (s : Name) (id : Nat), names[i]? = some s →
      (run hash Tab.init names).1[i]? = some id →
      (s = [] ∧ id = 0) ∨
      (s ≠ [] ∧ id ≠ 0 ∧ (id, ({ str := s, h := hash s } : Holder)) ∈
        (run hash Tab.init names).2.stringFromId) := by
    intro i s id hs hid
    have hc := cstr_of_noNul s (hn s (List.mem_of_getElem? hs))
    by_cases he : s = []
    · left
      have := h5 i s hs (by rw [hc]; exact he)
      rw [this] at hid
      cases hid
      exact ⟨he, rfl⟩
    · right
      obtain ⟨id', h6, h7⟩ := h4 i s hs (by rw [hc]; exact he)
      rw [h6] at hid
      cases hid
      rw [hc] at h7
      exact ⟨he, fun h => by subst h; exact h0 _ h7, h7⟩
  refine ⟨h3, ?_, ?_⟩
  · intro i s id hs hid
    rcases key i s id hs hid with ⟨rfl, rfl⟩ | ⟨ha, hb, hc⟩
    · refine ⟨?_, by simp⟩
      unfold nameOf
      cases hf : (run hash Tab.init names).2.stringFromId.find? (fun p => p.1 == 0) with
      | none => rfl
      | some p =>
        exfalso
        have e1 := List.find?_some hf
        have e2 := List.mem_of_find?_eq_some hf
        obtain ⟨i, k'⟩ := p
        simp only [beq_iff_eq] at e1
        subst e1
        exact h0 _ e2
    · exact ⟨nameOf_mem hash _ h1 id _ hc, by simp [ha, hb]⟩
  · intro i j s s' id id' hs hs' hid hid'
    rcases key i s id hs hid with ⟨rfl, rfl⟩ | ⟨ha, hb, hc⟩ <;>
      rcases key j s' id' hs' hid' with ⟨rfl, rfl⟩ | ⟨ha', hb', hc'⟩
    · simp
    · constructor
      · intro h; exact absurd h.symm hb'
      · intro h; exact absurd h.symm ha'
    · constructor
      · intro h; exact absurd h hb
      · intro h; exact absurd h ha
    · constructor
      · rintro rfl
        have := h1.fun1 _ _ _ hc hc'
        simp only [Holder.mk.injEq] at this
        exact this.1
      · rintro rfl
        have e1 := (h1.same _ _).2 hc
        have e2 := (h1.same _ _).2 hc'
        -- each name is entered once
        exact (unique_of_run hash names _ id id' e1 e2)
where
  unique_of_run (hash : Name → Nat) (names : List Name) (k : Holder) (a b : Nat)
      (h1 : (k, a) ∈ (run hash Tab.init names).2.idFromString)
      (h2 : (k, b) ∈ (run hash Tab.init names).2.idFromString) : a = b := by
    have aux : ∀ (ss : List Name) (t : Tab), Inv hash t →
        (∀ k a b, (k, a) ∈ t.idFromString → (k, b) ∈ t.idFromString → a = b) →
        ∀ k a b, (k, a) ∈ (run hash t ss).2.idFromString →
          (k, b) ∈ (run hash t ss).2.idFromString → a = b := by
      intro ss
      induction ss with
      | nil => intro t _ h; exact h
      | cons s ss ih =>
        intro t hi hu
        simp only [run]
        refine ih _ (inv_theId hash t s hi).1 ?_
        unfold theId
        by_cases hc : cstr s = []
        · rw [if_pos hc]; exact hu
        rw [if_neg hc]
        simp only
        by_cases hl : lookup { str := cstr s, h := hash s } t.idFromString = 0
        · rw [if_pos hl]
          have hnot : ∀ v, (({ str := cstr s, h := hash s } : Holder), v) ∉ t.idFromString :=
            fun v hv => (lookup_spec _ _).2 v hv (fun k v hm => (hi.below k v hm).1) hl
          intro k a b ha hb
          simp only at ha hb
          rcases List.mem_cons.1 ha with ha | ha <;> rcases List.mem_cons.1 hb with hb | hb
          · cases ha; cases hb; rfl
          · cases ha; exact absurd hb (hnot _)
          · cases hb; exact absurd ha (hnot _)
          · exact hu k a b ha hb
        · rw [if_neg hl]; exact hu
    exact aux names Tab.init (inv_init hash) (by intro k a b h; simp [Tab.init] at h) k a b h1 h2

/-- A history with a repeated name ("cpp", "hpp", "cpp") and the empty name. -/
example : (run elfHash Tab.init [[99, 112, 112], [104, 112, 112], [99, 112, 112], []]).1
    = [10000000, 10000001, 10000000, 0] := by decide

/-- **C43 (finding).** With a NUL byte in the name, which `Id(const QByteArray &)` accepts, two
different identifiers have the same name. -/
theorem C43_nul_breaks_names :
    (run elfHash Tab.init [[97], [97, 0, 98]]).1 = [10000000, 10000001] ∧
    nameOf (run elfHash Tab.init [[97], [97, 0, 98]]).2 10000000 = [97] ∧
    nameOf (run elfHash Tab.init [[97], [97, 0, 98]]).2 10000001 = [97] := by decide

end Verif.Ids
