import Verif.Read.LemLoop
/-
C92: what items inherit. C93: files that need each other.
-/

namespace Verif.Read

theorem readsObj_of_reads {w : World} {f : File} {i : Item} (h : Reads w f i) :
    ∃ o, w.content f = some o ∧ ReadsObj w f o i := by
  obtain ⟨n, h⟩ := h
  obtain ⟨m, o, _, ho, _, hr, _⟩ := readFile_ok h
  exact ⟨o, ho, m, [f], hr⟩

/-- **C92.** An item that is read, in a file or inside another one, comes from a chain of items that ends
with a built-in type, and this is its type. -/
theorem C92_chain (w : World) (f : File) (o : Obj) (i : Item) (h : ReadsObj w f o i) :
    ∃ l, Chain w f o l i.kind := by
  obtain ⟨n, stack, h⟩ := h
  obtain ⟨l, k, hc⟩ := chain_of_readObj w n stack f o i h
  have := (facts hc n stack i h).kind
  subst this
  exact ⟨l, hc⟩

/-- **C92, part.** The values of a property are what the item itself says, then what its base item says,
and so on up to the item of a built-in type, then the default value if the last one did not set the
property; so the nearest one counts, and `base` and `outer` go to the next one. Missing: properties
above or below which something else is set; see `C92_hidden`. -/
theorem C92_values_partial (w : World) (f : File) (o : Obj) (i : Item) (l : List (File × Obj)) (k : Name)
    (h : ReadsObj w f o i) (hc : Chain w f o l k) (p : Path) (hp : NothingAbove w l k p) :
    get i.props p = l.filterMap (fun x => x.2.setting p) ++ defaults w l k p := by
  obtain ⟨n, stack, h⟩ := h
  exact (facts hc n stack i h).values p hp

/-- **C92.** The items in an item are those of the base items, the farthest first, then its own. -/
theorem C92_children (w : World) (f : File) (o : Obj) (i : Item) (l : List (File × Obj)) (k : Name)
    (h : ReadsObj w f o i) (hc : Chain w f o l k) :
    Matched (fun (x : File × Obj) c => ReadsObj w x.1 x.2 c)
      (l.reverse.flatMap fun x => x.2.members.objs.map fun y => (x.1, y)) i.children := by
  obtain ⟨n, stack, h⟩ := h
  exact (facts hc n stack i h).children

theorem typesOkAll_iff (w : World) (k : Name) : ∀ cs, typesOkAll w k cs = true →
    ∀ c ∈ cs, w.allowed k c.kind = true ∧ typesOk w c = true
  | [], _, c, hc => by simp at hc
  | d :: cs, h, c, hc => by
    rw [typesOkAll, Bool.and_eq_true, Bool.and_eq_true] at h
    rcases List.mem_cons.1 hc with e | e
    · subst e; exact h.1
    · exact typesOkAll_iff w k cs h.2 c e

/-- **C92.** If a file is read, every item in it, also those from base items, is allowed in the item it is
in. -/
theorem C92_allowed (w : World) (f : File) (i : Item) (h : Reads w f i) (p c : Item) (hp : Inside i p)
    (hc : c ∈ p.children) : w.allowed p.kind c.kind = true := by
  obtain ⟨n, h⟩ := h
  obtain ⟨_, _, _, _, _, _, ht⟩ := readFile_ok h
  have key : ∀ p, typesOk w p = true → ∀ c ∈ p.children, w.allowed p.kind c.kind = true ∧ typesOk w c = true := by
    intro p hp c hc
    obtain ⟨k, d, ps, cs⟩ := p
    rw [typesOk] at hp
    exact typesOkAll_iff w k cs hp c hc
  have all : typesOk w p = true := by
    clear hc
    induction hp with
    | self => exact ht
    | step p c _ hc ih => exact (key p ih c hc).2
  exact (key p all c hc).1

/-- **C92.** A property that only one item of the chain declares, and that the built-in type does not
have, has this declaration. -/
theorem C92_declared (w : World) (f : File) (o : Obj) (i : Item) (l1 l2 : List (File × Obj)) (x : File × Obj)
    (k : Name) (h : ReadsObj w f o i) (hc : Chain w f o (l1 ++ x :: l2) k) (n : Name) (d : Decl)
    (hd : x.2.declares n = some d) (hb : ∀ e ∈ w.builtins k, e.1 ≠ n)
    (hno : ∀ y ∈ l1 ++ l2, y.2.declares n = none) :
    i.decls.find? (fun e => e.1 = n) = some (n, d) := by
  obtain ⟨m, stack, h⟩ := h
  have h1 := (facts hc m stack i h).decl n
  have h2 : declOf (w.builtins k) n = none := by
    unfold declOf
    rw [Option.map_eq_none_iff, List.find?_eq_none]
    intro e he
    simpa using hb e he
  have h3 : ∀ (l : List (File × Obj)), (∀ y ∈ l, y.2.declares n = none) →
      l.reverse.findSome? (fun x => x.2.declares n) = none := by
    intro l hl
    rw [List.findSome?_eq_none_iff]
    intro y hy
    exact hl y (by simpa using hy)
  rw [h2, List.reverse_append, List.reverse_cons, List.append_assoc, List.findSome?_append,
    h3 l2 (fun y hy => hno y (by simp [hy]))] at h1
  simp only [List.singleton_append, Option.none_or, List.findSome?_cons, hd] at h1
  unfold declOf at h1
  rw [Option.map_eq_some_iff] at h1
  obtain ⟨e, he, rfl⟩ := h1
  have := List.find?_some he
  simp at this
  subst this
  exact he

/-- **C92 finding.** If several items of the chain declare a property, the declaration of the one that is
the farthest away counts, and that of the built-in type before all: `property stringList x` in a derived
item does not change anything if the base item has `property string x`. -/
theorem C92_first_declaration (w : World) (f : File) (o : Obj) (i : Item) (l1 l2 : List (File × Obj))
    (x : File × Obj) (k : Name) (h : ReadsObj w f o i) (hc : Chain w f o (l1 ++ x :: l2) k) (n : Name) (d : Decl)
    (hd : x.2.declares n = some d) (hb : ∀ e ∈ w.builtins k, e.1 ≠ n)
    (hno : ∀ y ∈ l2, y.2.declares n = none) :
    i.decls.find? (fun e => e.1 = n) = some (n, d) := by
  obtain ⟨m, stack, h⟩ := h
  have h1 := (facts hc m stack i h).decl n
  have h2 : declOf (w.builtins k) n = none := by
    unfold declOf
    rw [Option.map_eq_none_iff, List.find?_eq_none]
    intro e he
    simpa using hb e he
  have h3 : l2.reverse.findSome? (fun x => x.2.declares n) = none := by
    rw [List.findSome?_eq_none_iff]
    intro y hy
    exact hno y (by simpa using hy)
  rw [h2, List.reverse_append, List.reverse_cons, List.append_assoc, List.findSome?_append, h3] at h1
  simp only [List.singleton_append, Option.none_or, List.findSome?_cons, hd] at h1
  unfold declOf at h1
  rw [Option.map_eq_some_iff] at h1
  obtain ⟨e, he, rfl⟩ := h1
  have := List.find?_some he
  simp at this
  subst this
  exact he

/-- **C92, part.** No item sets a property that one of its base items declares read-only. Missing: base
items that redeclare a property, see `C92_readonly_lost`, and items of the built-in type itself, see
`C92_readonly_builtin`. -/
theorem C92_readonly_partial (w : World) (f : File) (o : Obj) (i : Item) (l1 l2 l3 : List (File × Obj))
    (y x : File × Obj) (k : Name) (h : ReadsObj w f o i) (hc : Chain w f o (l1 ++ y :: (l2 ++ x :: l3)) k)
    (n : Name) (d : Decl) (hd : x.2.declares n = some d) (hr : d.readOnly = true)
    (hb : ∀ e ∈ w.builtins k, e.1 ≠ n) (hno : ∀ z ∈ l3, z.2.declares n = none) : ¬ y.2.sets n := by
  obtain ⟨m, stack, h⟩ := h
  refine (facts hc m stack i h).readOnly l1 y (l2 ++ x :: l3) rfl (by simp) n d ?_ hr
  have h2 : declOf (w.builtins k) n = none := by
    unfold declOf
    rw [Option.map_eq_none_iff, List.find?_eq_none]
    intro e he
    simpa using hb e he
  have h3 : l3.reverse.findSome? (fun x => x.2.declares n) = none := by
    rw [List.findSome?_eq_none_iff]
    intro y hy
    exact hno y (by simpa using hy)
  rw [h2, List.reverse_append, List.reverse_cons, List.append_assoc, List.findSome?_append, h3]
  simp [hd]

/-- **C92.** A read-only property of the built-in type is not set by the items derived from one of this
type. -/
theorem C92_readonly_derived (w : World) (f : File) (o : Obj) (i : Item) (l1 l2 : List (File × Obj))
    (y : File × Obj) (k : Name) (h : ReadsObj w f o i) (hc : Chain w f o (l1 ++ y :: l2) k) (hl : l2 ≠ [])
    (n : Name) (d : Decl) (hd : (w.builtins k).find? (fun e => e.1 = n) = some (n, d)) (hr : d.readOnly = true) :
    ¬ y.2.sets n := by
  obtain ⟨m, stack, h⟩ := h
  refine (facts hc m stack i h).readOnly l1 y l2 rfl hl n d ?_ hr
  have : declOf (w.builtins k) n = some d := by
    unfold declOf
    rw [hd]
    rfl
  rw [this]
  rfl

/-- **C92.** An item that is read does not bind a property twice, nor a property and something in it; a
declaration with a value is such a binding. The parser gives no empty names. -/
theorem C92_once (w : World) (f : File) (o : Obj) (i : Item) (h : ReadsObj w f o i)
    (hne : ∀ e ∈ o.members.settings, e.1 ≠ []) (a b e : List (Path × Src)) (p q : Path) (s : Src) (c : Nat)
    (hs : o.members.settings = a ++ (p, s) :: b ++ (q, .code c) :: e) : ¬ p <+: q ∧ ¬ q <+: p := by
  obtain ⟨n, stack, h⟩ := h
  obtain ⟨type, ms⟩ := o
  obtain ⟨own, b', _, hm, _⟩ := readObj_cases h
  exact (readMembers_dup w _ f ms {} own [] hm (by simp) hne).2 a p s b q c e hs

/-- **C93.** If there are finitely many files to be reached, reading ends, with a result that does not
depend on how long one waits. -/
theorem C93_terminates (w : World) (F : List File) (hF : ∀ f ∈ F, ∀ g, Uses w f g → g ∈ F) (f : File)
    (hf : f ∈ F) : ∃ r, r ≠ .error .fuel ∧ ∀ n, F.length < n → readFile w n [] f = r := by
  have h := readFile_fuel w F hF (F.length + 1) [] f hf List.nodup_nil (by simp) (by simp)
  refine ⟨_, h, fun n hn => ?_⟩
  have := readFile_mono_add w (F.length + 1) [] f h (n - (F.length + 1))
  rwa [Nat.add_sub_cancel' hn] at this

/-- **C93.** A file that is read does not need itself, nor does any file it needs. -/
theorem C93_no_loop (w : World) (f : File) (i : Item) (h : Reads w f i) :
    ¬ Needs w f f ∧ ∀ g, Needs w f g → ¬ Needs w g g := by
  obtain ⟨n, h⟩ := h
  refine ⟨ok_acyclic w n [] f i h, fun g hg => ?_⟩
  obtain ⟨n', stack', i', h', _⟩ := needs_read w hg n [] i h
  exact ok_acyclic w n' stack' g i' h'

/-- **C93.** If a loop is reported, there is one: the file or one that it needs needs itself. -/
theorem C93_loop (w : World) (f : File) (h : Fails w f .loop) : ∃ g, (g = f ∨ Needs w f g) ∧ Needs w g g := by
  obtain ⟨n, h, _⟩ := h
  exact loop_sound w n [] f (by simp) h

/-- **C93.** With finitely many files, a file is read or an error is reported, and not both. -/
theorem C93_result (w : World) (F : List File) (hF : ∀ f ∈ F, ∀ g, Uses w f g → g ∈ F) (f : File)
    (hf : f ∈ F) : ((∃ i, Reads w f i) ∨ ∃ e, Fails w f e) ∧ ∀ i e, Reads w f i → ¬ Fails w f e := by
  have h := readFile_fuel w F hF (F.length + 1) [] f hf List.nodup_nil (by simp) (by simp)
  constructor
  · cases hr : readFile w (F.length + 1) [] f with
    | ok i => exact Or.inl ⟨i, _, hr⟩
    | error e => exact Or.inr ⟨e, _, hr, fun he => h (by rw [hr, he])⟩
  · rintro i e ⟨n, hn⟩ ⟨m, hm, he⟩
    have h1 := readFile_mono_add w n [] f (by rw [hn]; simp) m
    have h2 := readFile_mono_add w m [] f (by rw [hm]; simpa using he) n
    rw [Nat.add_comm, hm] at h2
    rw [h2, hn] at h1
    cases h1

end Verif.Read
