/-!
# The rule graph and the rule nodes of a product (C27)

Model of src/lib/corelib/buildgraph/rulegraph.cpp 50-147, of `CreateRuleNodes` and
`connectRulesToDependencies`, src/lib/corelib/buildgraph/projectbuilddata.cpp 321-382 and 438-466, of
`collectedOutputFileTags`, src/lib/corelib/language/language.cpp 266-282, and of the file tags that an output
gets, src/lib/corelib/buildgraph/buildgraph.cpp 725-742.

A rule is its position in the product's list of rules (`ruleGraphId`, 125-130). Sets of file tags are lists;
the order of the elements of a set, which is that of the tags' numbers, is the order in the list.
-/
namespace Verif.RuleGraph

abbrev Tag := String

/-- `FileTags::intersects` -/
def intersects (a b : List Tag) : Bool := a.any b.contains

/-- `ArtifactProperties`, language.h. -/
structure Properties where
  filter : List Tag
  extra : List Tag
  install : Bool
deriving DecidableEq, Repr

/-- `Rule`, language.h; `declared` are the output tags of the rule or of its artifacts (language.cpp 266-272, 276). -/
structure Rule where
  declared : List Tag
  inputs : List Tag := []
  auxiliary : List Tag := []
  explicitly : List Tag := []
  excluded : List Tag := []
  inputsFromDeps : List Tag := []
  auxiliaryFromDeps : List Tag := []
  explicitlyFromDeps : List Tag := []
deriving DecidableEq, Repr

structure Product where
  rules : List Rule
  properties : List Properties
  tags : List Tag
deriving DecidableEq, Repr

/-- `collectedOutputFileTags`, language.cpp 274-282. -/
def collected (ps : List Properties) (declared : List Tag) : List Tag :=
  ps.foldl (fun result p => if intersects p.filter result then result ++ p.extra else result) declared

/-- The tags of an output, buildgraph.cpp 725-742: the first matching properties only. `byName` are the tags
for the file name, `install` the value of `qbs.install` in the product. -/
def outputTags (ps : List Properties) (byName : List Tag) (install : Bool) (pure : List Tag) : List Tag :=
  let tags := if pure.isEmpty then byName else pure
  match ps.find? (fun p => intersects tags p.filter) with
  | some p => tags ++ p.extra ++ (if p.install then ["installable"] else [])
  | none => tags ++ (if install then ["installable"] else [])

/-- The rule at a position. -/
def Product.rule (p : Product) (i : Nat) : Rule := p.rules.getD i ⟨[], [], [], [], [], [], [], []⟩

def Product.outputs (p : Product) (i : Nat) : List Tag := collected p.properties (p.rule i).declared

/-- `m_outputFileTagToRule.value(t)`, rulegraph.cpp 54-58. -/
def producers (p : Product) (t : Tag) : List Nat :=
  (List.range p.rules.length).filter (fun i => (p.outputs i).contains t)

/-- `inFileTags`, rulegraph.cpp 64-66: a set. -/
def consumed (r : Rule) : List Tag := (r.inputs ++ r.auxiliary ++ r.explicitly).eraseDups

/-- `m_children` of a rule, rulegraph.cpp 63-76 and 132-142: a vector, to which a producing rule is added once for
each tag. -/
def children (p : Product) (b : Nat) : List Nat :=
  (consumed (p.rule b)).flatMap (fun t =>
    (producers p t).filter (fun a => !intersects (p.outputs a) (p.rule b).excluded))

/-- `m_rootRules`, rulegraph.cpp 78-85: a set. -/
def rootRules (p : Product) : List Nat := (p.tags.flatMap (producers p)).eraseDups

/-- The rule nodes of a product (one for each rule, named by the rule), their connections and which are root nodes. -/
structure State where
  nodes : List Nat
  edges : List (Nat × Nat)
  roots : List Nat
deriving DecidableEq, Repr

inductive Error
  /-- "Cycle detected in rule dependencies", with the rules listed -/
  | cycle (path : List Nat)
  /-- the assertion at projectbuilddata.cpp 358 -/
  | assertion
  /-- not in the code: the bound of the model's recursion is reached -/
  | fuel
deriving DecidableEq, Repr

/-- Creation of a rule's node, projectbuilddata.cpp 345-355. -/
def addNode (r : Nat) (s : State) : State :=
  if s.nodes.contains r then s else { s with nodes := s.nodes ++ [r] }

/-- Connecting a node to its parent or making it a root node, projectbuilddata.cpp 356-362. -/
def attach (parent : Option Nat) (r : Nat) (s : State) : Except Error State :=
  match parent with
  | some q => if s.nodes.contains q then .ok { s with edges := s.edges ++ [(q, r)] } else .error .assertion
  | none => .ok { s with roots := s.roots ++ [r] }

/-- `visit`, projectbuilddata.cpp 335-363. `path` is `m_rulePath`, which lists the elements of
`m_rulesOnPath`. -/
def visit (path : List Nat) (parent : Option Nat) (r : Nat) (s : State) : Except Error State :=
  if path.contains r then .error (.cycle path) else attach parent r (addNode r s)

/-- A loop that ends with the first error. -/
def each (f : Nat → State → Except Error State) : List Nat → State → Except Error State
  | [], s => .ok s
  | c :: cs, s =>
    match f c s with
    | .error e => .error e
    | .ok s => each f cs s

/-- `traverse`, rulegraph.cpp 140-147; `endVisit`, projectbuilddata.cpp 365-369, restores the path. -/
def traverse (p : Product) : Nat → List Nat → Option Nat → Nat → State → Except Error State
  | 0, _, _, _, _ => .error .fuel
  | fuel + 1, path, parent, r, s =>
    match visit path parent r s with
    | .error e => .error e
    | .ok s => each (traverse p fuel (path ++ [r]) (some r)) (children p r) s

/-- `accept`, rulegraph.cpp 88-93, as called at projectbuilddata.cpp 425-428. The recursion cannot be deeper than the
number of rules. -/
def create (p : Product) : Except Error State :=
  each (traverse p (p.rules.length + 1) [] none) (rootRules p) ⟨[], [], []⟩

/-- The number of visits of rules during the traversal of a rule, as long as there is no error. -/
def visits (p : Product) : Nat → Nat → Nat
  | 0, _ => 0
  | fuel + 1, r => 1 + ((children p r).map (visits p fuel)).sum

/-- Is a rule connected to a rule of a dependency? projectbuilddata.cpp 372-382 and 450-459. -/
def connectsToDependency (r : Rule) (depOutputs : List Tag) (depIsRoot : Bool) : Bool :=
  (!intersects r.excluded depOutputs &&
    (intersects r.inputsFromDeps depOutputs || intersects r.explicitlyFromDeps depOutputs ||
      intersects r.auxiliaryFromDeps depOutputs)) ||
  ((r.inputsFromDeps.contains "installable" || r.auxiliaryFromDeps.contains "installable" ||
    r.explicitlyFromDeps.contains "installable") && depIsRoot)

end Verif.RuleGraph
