/-! # Parameters of dependencies

The values that `Depends` items and `Parameters` items set for the parameters of a dependency, such as `cpp.link`, and what
becomes of them if a module is pulled in several times: src/lib/corelib/loader/loaderutils.cpp 890-971 and
src/lib/corelib/loader/productresolver.cpp 424-461.

How the values are evaluated and whether the parameters are declared is not modelled. Values are compared by their text. -/

namespace Verif.Params

/-- A value, where `none` is for undefined and null, for which `getJsVariant` gives an invalid `QVariant`
(src/lib/corelib/tools/scripttools.cpp 260-310). -/
abbrev Leaf := Option String

/-- The names from the outside to the inside, such as `["cpp", "link"]` -/
abbrev Path := List String

/-- A `QVariantMap` whose values are values or further such maps. The entries are in any order here: it affects only the
order in which conflicts are listed. -/
inductive PM where
  | nil
  | leaf (k : String) (v : Leaf) (rest : PM)
  | sub (k : String) (m : PM) (rest : PM)
  deriving Repr, DecidableEq

/-- What is in a map: the kinds of `QVariant` distinguished in loaderutils.cpp 952. -/
inductive Entry where
  | leaf (v : Leaf)
  | map (m : PM)
  deriving Repr, DecidableEq

/-- `QMap::find` -/
def PM.get (k : String) : PM → Option Entry
  | .nil => none
  | .leaf k' v r => if k' = k then some (.leaf v) else r.get k
  | .sub k' m r => if k' = k then some (.map m) else r.get k

/-- `QMap::insert`, for a value -/
def PM.putLeaf (k : String) (v : Leaf) : PM → PM
  | .nil => .leaf k v .nil
  | .leaf k' v' r => if k' = k then .leaf k v r else .leaf k' v' (r.putLeaf k v)
  | .sub k' m r => if k' = k then .leaf k v r else .sub k' m (r.putLeaf k v)

/-- `QMap::insert`, for a map -/
def PM.putSub (k : String) (m : PM) : PM → PM
  | .nil => .sub k m .nil
  | .leaf k' v' r => if k' = k then .sub k m r else .leaf k' v' (PM.putSub k m r)
  | .sub k' m' r => if k' = k then .sub k m r else .sub k' m' (PM.putSub k m r)

/-- `QVariant::toMap` of what is there (loaderutils.cpp 953): empty if nothing is there, or a value. -/
def toMap : Option Entry → PM
  | some (.map m) => m
  | _ => .nil

/-- `currentValue.isValid() && !qVariantsEqual(currentValue, newValue)` (loaderutils.cpp 958), where the new value is not a
map. `qVariantsEqual` (src/lib/corelib/tools/qttools.h 231-242) converts the new value to a map if the current one is a map,
which makes an empty one of it. -/
def clash : Option Entry → Leaf → Bool
  | none, _ => false
  | some (.leaf none), _ => false
  | some (.leaf (some a)), v => decide (v ≠ some a)
  | some (.map m), v => decide (v = none ∨ m ≠ .nil)

/-- `DependencyParametersMerger::merge(current, next, nextPrio)` (loaderutils.cpp 946-971). `same` says whether
`m_currentPrio == nextPrio`, and the conflicts are the ones of `m_conflicts`, of which only the path is kept. -/
def merge (same : Bool) (path : Path) (cur : PM) (cs : List Path) : PM → PM × List Path
  | .nil => (cur, cs)
  | .leaf k v r =>
    let cs' := if same then (if clash (cur.get k) v then cs ++ [path ++ [k]] else cs)
      else cs.filter (fun c => decide (c ≠ path ++ [k]))
    merge same path (cur.putLeaf k v) cs' r
  | .sub k m r =>
    let x := merge same (path ++ [k]) (toMap (cur.get k)) cs m
    merge same path (PM.putSub k x.1 cur) x.2 r

/-- `INT_MAX` and `INT_MIN` -/
def intMax : Int := 2147483647
def intMin : Int := -2147483648

/-- The members of `DependencyParametersMerger` that change (loaderutils.cpp 908-911) -/
structure St where
  value : PM := .nil
  conflicts : List Path := []
  prio : Int := intMin
  deriving Repr, DecidableEq

/-- One round of the loop in loaderutils.cpp 929-932 -/
def next (s : St) (c : PM × Int) : St :=
  let x := merge (decide (s.prio = c.2)) [] s.value s.conflicts c.1
  { value := x.1, conflicts := x.2, prio := c.2 }

/-- `DependencyParametersMerger::merge()` (loaderutils.cpp 927-944): the values, or the conflicts. -/
def mergeAll (cands : List (PM × Int)) : Except (List Path) PM :=
  let s := cands.foldl next {}
  if s.conflicts = [] then .ok s.value else .error s.conflicts

/-- `mergeDependencyParameters(m1, m2)` (loaderutils.cpp 922-925) -/
def mergeTwo (m1 m2 : PM) : Except (List Path) PM := mergeAll [(m1, 0), (m2, 0)]

/-- `std::lower_bound` in a sorted list, followed by inserting there (productresolver.cpp 453-456) -/
def insert (c : PM × Int) : List (PM × Int) → List (PM × Int)
  | [] => [c]
  | d :: l => if d.2 < c.2 then d :: insert c l else c :: d :: l

/-- `Item::Module::LoadContext`: who has pulled in the module, with which parameters, and how long the chain of
dependencies was at the time (src/lib/corelib/loader/dependenciesresolver.cpp 407-411). The priority is
`INT_MAX - dependsChainLength()`. -/
structure Context where
  loader : Nat
  params : PM
  chain : Nat
  deriving Repr, DecidableEq

def Context.prio (c : Context) : Int := intMax - c.chain

/-- `ProductResolverStage1::mergeDependencyParameters` for one module (productresolver.cpp 434-460). `absent` says which of
the loaders are modules that are not present. -/
def moduleParameters (defaults : PM) (absent : Nat → Bool) (cs : List Context) : Except (List Path) PM :=
  mergeAll ((cs.filter (fun c => decide (c.params ≠ .nil) && !absent c.loader)).foldl
    (fun l c => insert (c.params, c.prio) l) [(defaults, intMin)])

/-- Part of `DependenciesResolver::loadModule` (dependenciesresolver.cpp 407-411, 423-433, 511): what is known about a
module when another `Depends` item asks for it. The first one from the same loader adds a context, the others are merged
with it. -/
def addContext (c : Context) : List Context → Except (List Path) (List Context)
  | [] => .ok [c]
  | d :: l =>
    if d.loader = c.loader then
      match mergeTwo d.params c.params with
      | .ok m => .ok ({ d with params := m } :: l)
      | .error e => .error e
    else
      match addContext c l with
      | .ok l' => .ok (d :: l')
      | .error e => .error e

/-- All `Depends` items that ask for the module, one after the other -/
def contexts : List Context → List Context → Except (List Path) (List Context)
  | cs, [] => .ok cs
  | cs, r :: rs =>
    match addContext r cs with
    | .ok cs' => contexts cs' rs
    | .error e => .error e

/-- Both steps: what the parameters of a module are, given the `Depends` items that ask for it -/
def parameters (defaults : PM) (absent : Nat → Bool) (rs : List Context) : Except (List Path) PM :=
  match contexts [] rs with
  | .ok cs => moduleParameters defaults absent cs
  | .error e => .error e

end Verif.Params
