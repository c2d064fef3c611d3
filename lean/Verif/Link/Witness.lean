import Verif.Link.Props
/-!
# C105 and C106: examples, and what goes wrong
-/
namespace Verif.Link

theorem in_of_closed {roots : List Dep} (S : List Dep) (h1 : ∀ d ∈ roots, d ∈ S) (h2 : ∀ d ∈ S, ∀ x ∈ d.deps, x ∈ S)
    {d : Dep} (h : In roots d) : d ∈ S := by
  induction h with
  | root d h => exact h1 d h
  | child e d _ h ih => exact h2 e ih d h

/-! ## A case: an application with a static library that needs another one and a dynamic library that hides one -/

def lib (n : Str) : Str := '/' :: n

def hidden : Dep := .mk { name := ['h'], dynamic := some [lib ['h', '/', 's']] } {} []
def dyn : Dep := .mk { name := ['d'], dynamic := some [lib ['d', '/', 's']] } {} [hidden]
def low : Dep := .mk { name := ['l'], static := some [lib ['l', '.', 'a']], external := [['m'], ['z']] } {} []
def high (q : Params) : Dep := .mk { name := ['i'], static := some [lib ['i', '.', 'a']], external := [['z']] } q [low, dyn]
def obj : Dep := .mk { name := ['o'], object := some [lib ['o', '1'], lib ['o', '2']] } {} [low]

def app : List Dep := [low, high { whole := true }, dyn, obj]

def appAll : List Dep := [low, high { whole := true }, dyn, obj, hidden]

theorem app_in {d : Dep} (h : In app d) : d ∈ appAll := by
  refine in_of_closed appAll ?_ ?_ h
  · intro d hd
    simp only [app, appAll, List.mem_cons, List.not_mem_nil, or_false] at hd ⊢
    rcases hd with h | h | h | h <;> simp [h]
  · intro d hd x hx
    simp only [appAll, List.mem_cons, List.not_mem_nil, or_false] at hd ⊢
    rcases hd with rfl | rfl | rfl | rfl | rfl <;>
      simp only [low, high, dyn, obj, hidden, Dep.deps, List.mem_cons, List.not_mem_nil, or_false] at hx ⊢
    · rcases hx with h | h <;> simp [h]
    · simp [hx]
    · simp [hx]

theorem app_fine : Fine [['p', 'q']] app where
  same := by
    intro d e hd he h
    have hd := app_in hd
    have he := app_in he
    simp only [appAll, List.mem_cons, List.not_mem_nil, or_false] at hd he
    rcases hd with rfl | rfl | rfl | rfl | rfl <;> rcases he with rfl | rfl | rfl | rfl | rfl <;>
      first | exact ⟨rfl, rfl⟩ | (exfalso; revert h; decide)
  distinct := by
    intro d e p hd he h h'
    have hd := app_in hd
    have he := app_in he
    simp only [appAll, List.mem_cons, List.not_mem_nil, or_false] at hd he
    rcases hd with rfl | rfl | rfl | rfl | rfl <;> rcases he with rfl | rfl | rfl | rfl | rfl <;>
      first | rfl | (exfalso; revert h h'; simp [low, high, dyn, obj, hidden, Dep.prod, Prod.files, Prod.kind, lib]; try (rintro (rfl | rfl) <;> decide); try (intro h; simp [h]))
  apart := by
    intro d p hd h
    have hd := app_in hd
    have : p ∉ [['p', 'q'], ['m'], ['z']] := by
      simp only [appAll, List.mem_cons, List.not_mem_nil, or_false] at hd
      rcases hd with rfl | rfl | rfl | rfl | rfl <;> revert h <;>
        simp [low, high, dyn, obj, hidden, Dep.prod, Prod.files, Prod.kind, lib] <;> (try (rintro rfl; decide)) <;>
        (try (rintro (rfl | rfl) <;> decide))
    refine ⟨fun h' => this (by simp_all), ?_⟩
    intro e he h'
    have he := app_in he
    simp only [appAll, List.mem_cons, List.not_mem_nil, or_false] at he
    apply this
    rcases he with rfl | rfl | rfl | rfl | rfl <;>
      simp [low, high, dyn, obj, hidden, Dep.prod] at h' <;> simp [h'] <;> rcases h' with h' | h' <;> simp [h']
  names := by
    intro d hd
    have hd := app_in hd
    simp only [appAll, List.mem_cons, List.not_mem_nil, or_false] at hd
    rcases hd with rfl | rfl | rfl | rfl | rfl <;> decide

/-- The object files, the two static libraries in this order (the first one as a whole), the dynamic library, the
    external libraries; and the directory of the hidden one. -/
example : (libraries (collect {} [['p', 'q']] app)).map (fun o => (o.path, o.whole)) =
      [(lib ['o', '2'], false), (lib ['o', '1'], false), (lib ['i', '.', 'a'], true), (lib ['d', '/', 's'], false),
       (lib ['l', '.', 'a'], false), (['m'], false), (['z'], false), (['p', 'q'], false)] ∧
    rpathLink (collect {} [['p', 'q']] app) = [lib ['h']] := by decide +kernel

example : Linked app low ∧ Linked app (high { whole := true }) ∧ Step (high { whole := true }) low ∧ Hidden app hidden ∧
    (∀ e, Consumed app e → e.name ≠ obj.name) := by
  have hl : Linked app (high { whole := true }) := .root _ (by simp [app]) ⟨rfl, by decide⟩
  have hd : Linked app dyn := .root _ (by simp [app]) ⟨rfl, by decide⟩
  refine ⟨.root _ (by simp [app]) ⟨rfl, by decide⟩, hl,
    ⟨by simp [high, Dep.deps], by decide, rfl, by decide⟩, .under dyn _ hd rfl
    ⟨by simp [dyn, Dep.deps], by decide, rfl, by decide⟩, ?_⟩
  have : ∀ e, Consumed app e → e = low ∨ e = dyn ∨ e = hidden := by
    intro e he
    induction he with
    | static e d he hk hs =>
      have := app_in (linked_in he)
      simp only [appAll, List.mem_cons, List.not_mem_nil, or_false] at this
      rcases this with rfl | rfl | rfl | rfl | rfl
      · simp [low, Step, Dep.deps] at hs
      · have := hs.1
        simp only [high, Dep.deps, List.mem_cons, List.not_mem_nil, or_false] at this
        rcases this with h | h
        · exact .inl h
        · exact .inr (.inl h)
      · cases hk
      · cases hk
      · cases hk
    | step e d _ hs ih =>
      have hm := hs.1
      rcases ih with rfl | rfl | rfl
      · simp [low, Dep.deps] at hm
      · simp only [dyn, Dep.deps, List.mem_cons, List.not_mem_nil, or_false] at hm
        exact .inr (.inr hm)
      · simp [hidden, Dep.deps] at hm
  intro e he
  rcases this e he with rfl | rfl | rfl <;> decide

example : libArgs true false none (libraries (collect {} [['p', 'q']] app)) =
    ["/o2", "/o1", "-Wl,--whole-archive", "/i.a", "-Wl,--no-whole-archive", "/d/s", "/l.a", "-lm", "-lz", "-lpq"].map
      String.toList := by decide +kernel

/-! ## What goes wrong -/

/-- **C105 finding.** A product wants a static library to be linked as a whole. That is ignored if it also depends on
    another library that needs this one and comes first. -/
theorem C105_whole_archive_lost :
    let a (q : Params) : Dep := .mk { name := ['a'], static := some [lib ['a']] } q []
    let b : Dep := .mk { name := ['b'], static := some [lib ['b']] } {} [a {}]
    (libraries (collect {} [] [b, a { whole := true }])).map (fun o => (o.path, o.whole)) =
      [(lib ['b'], false), (lib ['a'], false)] ∧
    (libraries (collect {} [] [a { whole := true }, b])).map (fun o => (o.path, o.whole)) =
      [(lib ['b'], false), (lib ['a'], true)] := by decide +kernel

/-- **C105 finding.** Whether the files of an object library that the product depends on are linked in depends on the
    order, if a static library uses it, too. -/
theorem C105_object_library_order :
    let o : Dep := .mk { name := ['o'], object := some [lib ['o']] } {} []
    let s : Dep := .mk { name := ['s'], static := some [lib ['s']] } {} [o]
    linkedFiles {} [] [s, o] = [lib ['s']] ∧ linkedFiles {} [] [o, s] = [lib ['s'], lib ['o']] := by decide +kernel

/-- **C105 finding.** A library with the name of a property that every JavaScript object has is not linked in. -/
theorem C105_inherited_name :
    linkedFiles {} [] [.mk { name := "constructor".toList, static := some [lib ['c']] } {} []] = [] := by decide +kernel

/-- **C105 finding.** Of two variants of a library, both of which the product depends on, the second one is ignored. -/
theorem C105_variant_ignored :
    linkedFiles {} [] [.mk { name := ['a'], static := some [lib ['1']] } {} [],
      .mk { name := ['a'], static := some [lib ['2']] } {} []] = [lib ['1']] := by decide +kernel

/-- **C105 finding.** If a static library is also given as an external one, it comes after a library that it needs. -/
theorem C105_external_library_of_product (c : Bool) :
    let t : Dep := .mk { name := ['t'], static := some [lib ['t']] } {} []
    let s : Dep := .mk { name := ['s'], static := some [lib ['s']] } {} [t]
    let u : Dep := .mk { name := ['u'], static := some [lib ['u']], external := [lib ['s']] } {} []
    linkedFiles { dedup := c } [] [u, s] = [lib ['t'], lib ['u'], lib ['s']] := by cases c <;> decide +kernel

/-- Layers of two static libraries, each of which needs both below. -/
def tower : Nat → List Dep
  | 0 => []
  | n + 1 => [.mk { name := 'a' :: List.replicate n 'x', static := some [] } {} (tower n),
              .mk { name := 'b' :: List.replicate n 'x', static := some [] } {} (tower n)]

theorem tower_calls (c : Cfg) (n : Nat) : ∀ (parent : Option Str) (consumed : Bool) (st : St), st.pub = [] → st.priv = [] →
    (∀ d ∈ tower n, parent ≠ some d.name) →
    traverseAll c parent (tower n) true consumed st = { st with calls := st.calls + (2 ^ (n + 1) - 2) } := by
  induction n with
  | zero => intro parent consumed st _ _ _; simp [tower, traverseAll]
  | succ n ih =>
    intro parent consumed st h1 h2 hp
    have ha : ∀ (x : Char) (l : Str), x = 'a' ∨ x = 'b' → (x :: l) ∉ inherited := by
      intro x l hx h
      simp only [inherited, List.map_cons, List.map_nil, List.mem_cons, List.not_mem_nil, or_false] at h
      rcases hx with rfl | rfl <;> rcases h with h | h | h | h | h | h | h | h | h | h | h | h <;> cases h
    have one : ∀ (x : Char) (st : St), (x = 'a' ∨ x = 'b') → st.pub = [] → st.priv = [] →
        traverse c (.mk { name := x :: List.replicate n 'x', static := some [] } {} (tower n)) true consumed st =
          { st with calls := st.calls + (2 ^ (n + 1) - 1) } := by
      intro x st hx h1 h2
      rw [traverse]
      have hs : skips { name := x :: List.replicate n 'x', static := some [] } {} true
          { st with calls := st.calls + 1 } = false := by
        unfold skips
        simp only [isIn, h1, h2]
        simp [ha x _ hx, Prod.kind]
      rw [hs]
      simp only [Bool.false_eq_true, if_false, Bool.true_or]
      rw [ih _ _ { st with calls := st.calls + 1 } h1 h2]
      · have : st.calls + 1 + (2 ^ (n + 1) - 2) = st.calls + (2 ^ (n + 1) - 1) := by
          have : 2 ≤ 2 ^ (n + 1) := by
            have := Nat.pow_succ 2 n
            have : 1 ≤ 2 ^ n := Nat.one_le_two_pow
            omega
          omega
        simp only [this]
        rfl
      · intro d hd
        cases n with
        | zero => cases hd
        | succ m =>
          simp only [tower, List.mem_cons, List.not_mem_nil, or_false] at hd
          intro h
          have hlen := congrArg List.length (Option.some.inj h)
          rcases hd with rfl | rfl <;> simp [Dep.name, Dep.prod] at hlen
    rw [tower, traverseAll, traverseAll, traverseAll]
    rw [if_neg (hp _ (by simp [tower])), if_neg (hp _ (by simp [tower])), one 'a' st (.inl rfl) h1 h2,
      one 'b' { st with calls := st.calls + (2 ^ (n + 1) - 1) } (.inr rfl) h1 h2]
    have : st.calls + (2 ^ (n + 1) - 1) + (2 ^ (n + 1) - 1) = st.calls + (2 ^ (n + 1 + 1) - 2) := by
      have h : 2 ^ (n + 1 + 1) = 2 ^ (n + 1) * 2 := Nat.pow_succ 2 (n + 1)
      have : 1 ≤ 2 ^ (n + 1) := Nat.one_le_two_pow
      omega
    simp only [this]

/-- **C105 finding.** Below a dynamic library, static libraries are visited as often as there are ways to them: with
    `2 * n` of them at least `2 ^ n` times. -/
theorem C105_exponential (c : Cfg) (n : Nat) : 2 ^ n ≤
    (traverseAll c none [.mk { name := ['d'], dynamic := some [] } {} (tower n)] false false {}).calls := by
  rw [traverseAll, traverseAll, traverse]
  rw [if_neg (by simp)]
  rw [if_neg (by decide)]
  rw [show ((false || decide (({ name := ['d'], dynamic := some [] } : Prod).kind = some .dynamic)) = true) from by decide]
  rw [tower_calls c n _ _ _ rfl rfl (by
    intro d hd h
    cases n with
    | zero => cases hd
    | succ m =>
      simp only [tower, List.mem_cons, List.not_mem_nil, or_false] at hd
      rcases hd with rfl | rfl <;> cases h)]
  show 2 ^ n ≤ 0 + 1 + (2 ^ (n + 1) - 2)
  have h : 2 ^ (n + 1) = 2 ^ n * 2 := Nat.pow_succ 2 n
  have : 1 ≤ 2 ^ n := Nat.one_le_two_pow
  omega

end Verif.Link
