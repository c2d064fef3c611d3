import Verif.Graph.Model

/-! # What the build graph theorems talk about

Plain graph notions, stated for an arbitrary child function. -/

namespace Verif.Graph

/-- There is a directed path of zero or more edges from `u` to `v`. -/
inductive Reach (ch : Nat → List Nat) : Nat → Nat → Prop
  | refl (u : Nat) : Reach ch u u
  | step {u w v : Nat} : w ∈ ch u → Reach ch w v → Reach ch u v

/-- `u` lies on a directed cycle. -/
def OnCycle (ch : Nat → List Nat) (u : Nat) : Prop := ∃ w ∈ ch u, Reach ch w u

/-- No directed cycles. -/
def Acyclic (ch : Nat → List Nat) : Prop := ∀ u, ¬ OnCycle ch u

/-- The list is a path of the graph: each element is a child of its predecessor. -/
def IsWalk (ch : Nat → List Nat) : List Nat → Prop
  | [] => True
  | [_] => True
  | u :: w :: rest => w ∈ ch u ∧ IsWalk ch (w :: rest)

/-- The graph is finite: all edges are among the nodes `0 .. N-1`. -/
def FiniteBy (ch : Nat → List Nat) (N : Nat) : Prop :=
  ∀ u, (∀ w ∈ ch u, w < N) ∧ (ch u ≠ [] → u < N)

/-- Child links and parent links mirror each other. -/
def Symmetric (s : State) : Prop := ∀ p c, c ∈ s.ch p ↔ p ∈ s.pa c

/-- Everything linked exists. -/
def NoDangling (s : State) : Prop := ∀ p c, c ∈ s.ch p → s.live p ∧ s.live c

/-- Which artifacts have to go when those in `A` are removed from the graph `s`: the elements of `A`
themselves, and every artifact that has such an artifact as a child and has no other children, or no
other inputs for the transformer that creates it. -/
inductive Gone (s : State) (A : List Nat) : Nat → Prop
  | self {a : Nat} : a ∈ A → Gone s A a
  | noChild {p c : Nat} : s.isArt p → c ∈ s.ch p → Gone s A c →
      (∀ k ∈ s.ch p, Gone s A k) → Gone s A p
  | noInput {p c t : Nat} : s.isArt p → c ∈ s.ch p → Gone s A c →
      s.trafo p = some t → (∀ i ∈ s.inp t, Gone s A i) → Gone s A p

end Verif.Graph
