import Verif.Exec.Model

/-
Specification vocabulary for the scheduler properties C14–C19: well-formed graphs, what a rule
application may do, and what a good event history looks like.
-/

namespace Verif.Exec

/-- Well-formed build graph: edges stay inside the graph (checked by doSanityChecksForProduct,
    buildgraph.cpp:795-895), and artifacts produced by the same transformer have the same
    dependencies and the same product.

    The last clause is what rulesapplicator.cpp:222-238, 485-498 and inputartifactscanner.cpp:179-181
    establish: inputs, `explicitlyDependsOn` of the rule, the rule node and scanned dependencies are
    connected to *every* output of the transformer. It does not hold for rules that give a single
    output its own `explicitlyDependsOn` (rulesapplicator.cpp:653-658); see
    `C14_unequal_siblings_violation`. -/
structure WF (g : Graph) : Prop where
  nodup : g.nodes.Nodup
  closed : ∀ n ∈ g.nodes, ∀ c ∈ g.children n, c ∈ g.nodes
  siblings : ∀ n ∈ g.nodes, ∀ m ∈ g.nodes, g.kind n = .gen → g.kind m = .gen → g.tr n = g.tr m →
    ∀ c ∈ g.children n, c ∈ g.children m
  siblingProduct : ∀ n ∈ g.nodes, ∀ m ∈ g.nodes, g.kind n = .gen → g.kind m = .gen →
    g.tr n = g.tr m → g.product n = g.product m

/-- Artifacts that may disappear while rule node `r` is applied: outputs of `r`, and generated
    artifacts depending on something that disappears (removeArtifactAndExclusiveDependents,
    projectbuilddata.cpp:192-220, called from rulenode.cpp:219 and rulesapplicator.cpp:216). -/
inductive Removable (g : Graph) (r : Node) : Node → Prop
  | output (n : Node) : n ∈ g.nodes → g.kind n = .gen → r ∈ g.children n → Removable g r n
  | dependent (n c : Node) : n ∈ g.nodes → g.kind n = .gen → c ∈ g.children n → Removable g r c →
      Removable g r n

/-- What applying the rule of rule node `r` may do to the graph. -/
structure SafeEffect (s : St) (r : Node) (e : Effect) : Prop where
  wf : WF e.g
  rule_stays : r ∈ e.g.nodes ∧ e.g.kind r = .rule
  /-- The rule node itself gets no new dependencies. -/
  rule : ∀ c ∈ e.g.children r, c ∈ s.g.children r
  /-- New nodes are output artifacts of the rule (rulesapplicator.cpp:478-485). -/
  new : ∀ n ∈ e.g.nodes, n ∉ s.g.nodes → e.g.kind n = .gen ∧ r ∈ e.g.children n
  kinds : ∀ n ∈ e.g.nodes, n ∈ s.g.nodes → e.g.kind n = s.g.kind n ∧ e.g.product n = s.g.product n
  /-- Outputs of the rule, and rule nodes depending on `r`, keep `r` as a child; their other edges
      may change (rulesapplicator.cpp:222-238, 485-498, 655-658; inputartifactscanner.cpp:166-194). -/
  dependents : ∀ n ∈ e.g.nodes, n ∈ s.g.nodes → n ≠ r → r ∈ s.g.children n → r ∈ e.g.children n
  /-- All other nodes can only lose children (removed artifacts) and keep their transformer. -/
  others : ∀ n ∈ e.g.nodes, n ∈ s.g.nodes → n ≠ r → r ∉ s.g.children n →
    e.g.tr n = s.g.tr n ∧ ∀ c ∈ e.g.children n, c ∈ s.g.children n
  removed : ∀ n ∈ s.g.nodes, n ∉ e.g.nodes → Removable s.g r n
  /-- The transformer of an output of the rule is new or was that of outputs of the rule
      (rulesapplicator.cpp:176, 501). -/
  transformer : ∀ n ∈ e.g.nodes, e.g.kind n = .gen → r ∈ e.g.children n →
    ∀ m ∈ s.g.nodes, s.g.kind m = .gen → s.g.tr m = e.g.tr n → r ∈ s.g.children m
  nodes : ∀ n ∈ e.created ++ e.invalidated, n ∈ e.g.nodes

/-- The graph is acyclic: some rank decreases along every edge. -/
def Acyclic (g : Graph) : Prop :=
  ∃ rank : Node → Nat, ∀ n ∈ g.nodes, ∀ c ∈ g.children n, rank c < rank n

/-- Additional facts about a rule application that progress depends on. -/
structure LiveEffect (s : St) (r : Node) (e : Effect) : Prop extends SafeEffect s r e where
  acyclic : Acyclic e.g
  /-- m_createdArtifacts, rulesapplicator.cpp:482. -/
  created : ∀ n ∈ e.g.nodes, n ∉ s.g.nodes → n ∈ e.created
  /-- A node that gains a child is reported as created or invalidated, or the child is, or the
      child is already part of the build. -/
  gains : ∀ n ∈ e.g.nodes, n ∈ s.g.nodes → n ≠ r → ∀ c ∈ e.g.children n, c ∉ s.g.children n →
    n ∈ e.created ++ e.invalidated ∨ c ∈ e.created ++ e.invalidated ∨
      (c ∈ s.g.nodes ∧ s.bs c ≠ .untouched)
  /-- A node outside the rule's outputs that is still waiting for something goes on waiting for
      something: its last unfinished dependency is not just taken away.
      `C17_lost_dependency_hangs` shows what happens otherwise. -/
  waiters : ∀ n ∈ e.g.nodes, n ∈ s.g.nodes → n ≠ r → r ∉ s.g.children n → s.bs n = .buildable →
    (∃ c ∈ s.g.children n, s.bs c ≠ .built) → ∃ c ∈ e.g.children n, s.bs c ≠ .built

/-- `n` depends on `m`, directly, indirectly or by being `m`. -/
inductive DependsOn (g : Graph) (n : Node) : Node → Prop
  | refl : DependsOn g n n
  | step (m c : Node) : DependsOn g n m → c ∈ g.children m → DependsOn g n c

/-- The transformer's commands were launched. -/
def Started (log : List Ev) (t : Tr) : Prop := ∃ deps, Ev.start t deps ∈ log

/-- The transformer's commands have come to an end. -/
def Ended (log : List Ev) (t : Tr) : Prop := Ev.succeeded t ∈ log ∨ Ev.failed t ∈ log

/-- The node has been completely built or was found not to need building. -/
def Completed (log : List Ev) (n : Node) : Prop := ∃ why, Ev.completed n why ∈ log

/-- The executor has decided to cancel. -/
def Canceled (log : List Ev) : Prop := ∃ js, Ev.cancelJobs js ∈ log

/-- The `finished` signal was emitted. -/
def Finished (log : List Ev) : Prop := ∃ b, Ev.finished b ∈ log

/-- Neither cancellation nor an exception has interfered so far. -/
def Clean (log : List Ev) : Prop := ¬ Canceled log ∧ Ev.error ∉ log

end Verif.Exec
