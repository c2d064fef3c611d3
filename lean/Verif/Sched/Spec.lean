import Verif.Sched.Model
/-!
# C52: specification
-/
namespace Verif.Sched

/-- The first product has a `Depends` item for the second one. -/
def Needs (pr : Project) (p q : P) : Prop := ∃ required, Item.single q required ∈ pr.items p

/-- The first product depends on all those of the second one's type. -/
def Wants (pr : Project) (p q : P) : Prop :=
  pr.name q ≠ pr.name p ∧ ∃ types, Item.bulk types ∈ pr.items p ∧ ∃ t ∈ types, t ∈ pr.types q

/-- There are no cycles, nor infinite chains, of dependencies by name. A product naming itself is not counted. -/
def Acyclic (pr : Project) : Prop := WellFounded (fun q p => Needs pr p q ∧ q ≠ p)

/-- The product has `Depends` items with `productTypes`, or depends by name on one that has, maybe indirectly. -/
inductive Above (pr : Project) : P → Prop
  | bulk {p : P} {types : List Tag} : Item.bulk types ∈ pr.items p → Above pr p
  | needs {p q : P} : Needs pr p q → Above pr q → Above pr p

/-- The products that have to be disabled. -/
inductive Bad (pr : Project) : P → Prop
  | broken {p : P} : pr.broken p = true → Bad pr p
  | condition {p : P} : pr.enabled p = false → Bad pr p
  | self {p : P} : Needs pr p p → Bad pr p
  | dependency {p q : P} : Item.single q true ∈ pr.items p → Bad pr q → Bad pr p

/-- A sensible project and number of threads: products are distinct and depend on others in the project, and there is
    a loader state for each job. -/
structure Project.Ok (pr : Project) : Prop where
  distinct : pr.products.Nodup
  closed : ∀ p ∈ pr.products, ∀ q, Needs pr p q → q ∈ pr.products
  states : pr.states.Nodup
  jobs : 1 ≤ pr.maxJobs ∧ pr.maxJobs ≤ pr.states.length

end Verif.Sched
