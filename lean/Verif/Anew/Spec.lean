import Verif.Anew.Model
/-!
# C56: what should be set up anew

A product that is still there keeps its build data exactly if neither it nor anything it depends on, directly or not, is
different from what it was.
-/
namespace Verif.Anew

/-- Nothing is different that would change which artifacts there are: whether it is enabled, its type and its
    installation, its scanners, rules, dependencies and source files. The order does not matter. -/
structure Unchanged (old new : Product) : Prop where
  enabled : old.enabled = new.enabled
  tags : old.enabled = true → old.tags = new.tags
  install : old.enabled = true → old.install = new.install
  scanners : old.scanners.Perm new.scanners
  rules : old.rules.Perm new.rules
  deps : old.deps.Perm new.deps
  files : (old.files.map (·.path)).Perm (new.files.map (·.path))

/-- `n` is `m`, or depends on it, perhaps by way of other products. -/
inductive DependsOn (old : List Product) : Nat → Nat → Prop
  | self (n : Nat) : DependsOn old n n
  | dep {p : Product} {d : Nat × Bool} {m : Nat} : p ∈ old → d ∈ p.deps → DependsOn old d.1 m → DependsOn old p.name m

/-- Product `n` depends on a product that is different now, or that is known to be affected by files that have
    appeared. -/
def Touched (old new : List Product) (known : List Nat) (n : Nat) : Prop :=
  ∃ m, DependsOn old n m ∧
    (m ∈ known ∨ ∃ p ∈ old, ∃ q ∈ new, p.name = m ∧ q.name = m ∧ ¬ Unchanged p q)

/-- A project as it has been restored: names are unique, dependencies are products of the project and have no cycles,
    just the enabled products have build data, and it refers to the rules of its product. -/
structure Restored (old : List Product) : Prop where
  names : (old.map (·.name)).Nodup
  closed : ∀ p ∈ old, ∀ d ∈ p.deps, ∃ q ∈ old, q.name = d.1
  acyclic : ∃ rank : Nat → Nat, ∀ p ∈ old, ∀ d ∈ p.deps, rank d.1 < rank p.name
  data : ∀ p ∈ old, p.data.isSome = p.enabled
  ruleRefs : ∀ p ∈ old, ∀ d, p.data = some d → ∀ r ∈ d, r ∈ p.rules

/-- In each product, no two rules have the same key, and no two scanners or dependencies are the same. -/
structure Distinct (old : List Product) : Prop where
  rules : ∀ p ∈ old, (p.rules.map Rule.key).Nodup
  scanners : ∀ p ∈ old, p.scanners.Nodup
  deps : ∀ p ∈ old, p.deps.Nodup

end Verif.Anew
