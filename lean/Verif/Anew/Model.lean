import Verif.Common.Sort
/-!
# Which products are set up anew after a project has been resolved again (C56)

Model of src/lib/corelib/buildgraph/buildgraphloader.cpp 241-300, 373-446, 683-862 (`trackProjectChanges` after resolving,
and the comparisons it makes) and of src/lib/corelib/language/language.cpp 253-264, 843-885, 898-930 (comparison of
lists of rules and of groups for artifacts).

Whatever is only compared for equality is a number. The build data of a product is reduced to whether there is any, and
to the rules its nodes refer to.
-/
namespace Verif.Anew

abbrev Str := List Char

/-- `Rule`, as far as it is compared, language.cpp 898-918. -/
structure Rule where
  /-- sorted -/
  outputTags : List Str
  inputTags : List Str
  prepare : Str
  outScript : Option Str
  /-- file paths of the artifacts, and what else is in them -/
  artifacts : List (Str × Nat)
  /-- module, excluded inputs, multiplex, alwaysRun and so on -/
  other : Nat
deriving DecidableEq, Repr

/-- A group with a filter for artifacts: its sorted tags, its properties and tags. -/
structure Group where
  filter : List Str
  other : Nat
deriving DecidableEq, Repr

/-- A source file: its path, its tags and properties. -/
structure Source where
  path : Str
  other : Nat
deriving DecidableEq, Repr

structure Product where
  name : Nat
  enabled : Bool
  /-- its type -/
  tags : Nat
  /-- `qbs.install` and so on -/
  install : Nat
  groups : List Group
  moduleProps : Nat
  scanners : List Nat
  rules : List Rule
  /-- names, and whether they are minimal -/
  deps : List (Nat × Bool)
  files : List Source
  /-- file taggers: a file name and a tag; patterns with wildcards are left out -/
  taggers : List (Str × Str)
  /-- the rules that the nodes in its build data refer to, if there is build data -/
  data : Option (List Rule)
deriving DecidableEq, Repr

/-- The group whose properties an artifact with these tags gets: the first that matches, buildgraph.cpp 730-736. -/
def groupFor (groups : List Group) (tags : List Str) : Option Group :=
  groups.find? (fun g => g.filter.any (fun t => tags.contains t))

/-- `fileTagsForFileName`, language.cpp 337-359, without priorities and without wildcards. -/
def tagsForName (taggers : List (Str × Str)) (file : Str) : List Str :=
  (taggers.filter (fun t => t.1 = file)).map (·.2)

/-- `provideFullFileTagsAndProperties`, buildgraph.cpp 725-742: tags and group of a generated artifact, given its name
    and the tags that its rule has given it. -/
def provide (p : Product) (file : Str) (pure : List Str) : List Str × Option Group :=
  let tags := if pure.isEmpty then tagsForName p.taggers file else pure
  (tags, groupFor p.groups tags)

/-- `QStringList::join` -/
def join : List Str → Str
  | [] => []
  | [a] => a
  | a :: b :: l => a ++ ',' :: join (b :: l)

/-- `Rule::toString`, language.cpp 253-264. -/
def Rule.text (r : Rule) : Str := '[' :: join r.outputTags ++ "][".toList ++ join r.inputTags ++ [']']

/-- `keyFromElem`, language.cpp 871-878. -/
def Rule.key (r : Rule) : Str := r.text ++ r.prepare ++ r.outScript.getD [] ++ (r.artifacts.map (·.1)).flatten

/-- `keyFromElem`, language.cpp 880-885. -/
def Group.key (g : Group) : Str := join g.filter

/-- `listToMap` and looking up a key: the last element with that key, language.cpp 843-851. -/
def lookup {α : Type} (key : α → Str) (l : List α) (k : Str) : Option α := l.reverse.find? (fun e => key e = k)

/-- `listsAreEqual`, language.cpp 853-868. -/
def listsAreEqual {α : Type} [DecidableEq α] (key : α → Str) (l1 l2 : List α) : Bool :=
  l1.length = l2.length && l1.all (fun e =>
    match lookup key l2 (key e) with
    | none => false
    | some b => decide (lookup key l1 (key e) = some b))

/-- `checkForPropertyChanges`, buildgraphloader.cpp 788-818, and 766-786. -/
def propertyChanges (old new : Product) : Bool :=
  old.data.isSome && (old.tags != new.tags || old.install != new.install)

/-- Do the product's artifacts need an update, buildgraphloader.cpp 805-816? -/
def needsUpdate (old new : Product) : Bool :=
  old.data.isSome && !propertyChanges old new &&
    (!listsAreEqual Group.key old.groups new.groups || old.moduleProps != new.moduleProps)

/-- `checkForScannerChanges`, buildgraphloader.cpp 820-853. -/
def scannerChanges (old new : Product) : Bool :=
  old.scanners.any (fun s => !new.scanners.contains s) || old.scanners.length != new.scanners.length

/-- `dependenciesAreEqual`, buildgraphloader.cpp 748-760. -/
def dependenciesAreEqual (old new : Product) : Bool :=
  old.deps.length = new.deps.length && old.deps.all (fun d => new.deps.contains d) &&
    new.deps.all (fun d => old.deps.contains d)

/-- `checkProductForChanges`, buildgraphloader.cpp 743-764. -/
def productChanged (old new : Product) : Bool :=
  propertyChanges old new || scannerChanges old new || !listsAreEqual Rule.key old.rules new.rules ||
    !dependenciesAreEqual old new

/-- Order of paths -/
def pathLe (a b : Source) : Bool := decide (¬ b.path < a.path)

/-- `checkProductForChangesInSourceFiles`, buildgraphloader.cpp 716-746. -/
def filesChanged (old new : Product) : Bool :=
  old.files.length != new.files.length ||
    (Common.isort pathLe old.files).map (·.path) != (Common.isort pathLe new.files).map (·.path)

/-- The source files with changed tags or properties. -/
def changedSources (old new : Product) : List Source :=
  (((Common.isort pathLe old.files).zip (Common.isort pathLe new.files)).filter (fun e => e.1 ≠ e.2)).map (·.2)

/-- Has the product itself changed, `checkAllProductsForChanges`, buildgraphloader.cpp 683-714? -/
def changed (old new : Product) : Bool :=
  old.enabled != new.enabled || productChanged old new || filesChanged old new

/-- A product by its name -/
def find (l : List Product) (n : Nat) : Option Product := l.find? (fun p => p.name = n)

/-- The products that have changed, apart from those that are known to have, buildgraphloader.cpp 683-714. -/
def addChanged (old new : List Product) (known : List Nat) : List Nat :=
  old.foldl (fun acc p =>
    match find new p.name with
    | none => acc
    | some q => if changed p q && !acc.contains p.name then acc ++ [p.name] else acc) known

/-- What a dependency is the name of -/
def depsOf (old : List Product) (n : Nat) : List Nat :=
  match find old n with
  | none => []
  | some p => p.deps.map (·.1)

/-- The loop over the dependencies, with what is done for each. -/
def checkDeps (f : List Nat × List Nat → Nat → (List Nat × List Nat) × Bool) (s : List Nat × List Nat) :
    List Nat → (List Nat × List Nat) × Bool
  | [] => (s, false)
  | q :: l =>
    match f s q with
    | (s', true) => (s', true)
    | (s', false) => checkDeps f s' l

/-- `checkProductForChangedDependency`, buildgraphloader.cpp 241-256: the changed products, the products seen, and
    the result. The number bounds the depth. -/
def checkDep (deps : Nat → List Nat) : Nat → List Nat × List Nat → Nat → (List Nat × List Nat) × Bool
  | 0, s, _ => (s, false)
  | k + 1, s, p =>
    if s.2.contains p then (s, false)
    else if s.1.contains p then (s, true)
    else
      match checkDeps (checkDep deps k) s (deps p) with
      | (s', true) => ((s'.1 ++ [p], s'.2), true)
      | (s', false) => ((s'.1, p :: s'.2), false)

/-- `makeChangedProductsListComplete`, buildgraphloader.cpp 262-268. -/
def makeComplete (deps : Nat → List Nat) (bound : Nat) (all : List Nat) (changed : List Nat) : List Nat :=
  (all.foldl (fun s p => (checkDep deps bound s p).1) (changed, [])).1

/-- `updateProductAndRulePointers`, buildgraphloader.cpp 270-300: the rules that the nodes refer to now; `none` if an
    assertion fails. -/
def updateRules (rules : List Rule) (data : List Rule) : Option (List Rule) :=
  data.mapM (fun r => rules.find? (fun r' => r' = r))

/-- What becomes of the products, by name. -/
structure Outcome where
  /-- new products that take over build data, with the rules their nodes refer to; `none`: an assertion fails -/
  kept : List (Nat × Option (List Rule))
  /-- new products that are set up -/
  setUp : List Nat
  /-- restored products whose artifacts are removed from disk -/
  removed : List Nat
  /-- restored products whose build data is rescued -/
  rescued : List Nat
deriving DecidableEq, Repr

/-- One new product, buildgraphloader.cpp 413-435; of those that are left, the enabled ones are set up,
    projectbuilddata.cpp 293-300. -/
def place (left : List Product) (o : Outcome) (q : Product) : Outcome :=
  match find left q.name with
  | none => if q.enabled then { o with setUp := o.setUp ++ [q.name] } else o
  | some p =>
    match if q.enabled then p.data else none with
    | some d => { o with kept := o.kept ++ [(q.name, updateRules q.rules d)] }
    | none => if q.enabled then { o with setUp := o.setUp ++ [q.name] } else o

/-- `trackProjectChanges` after resolving, buildgraphloader.cpp 373-470: `changed` are the changed products,
    complete. -/
def track (old new : List Product) (changed : List Nat) : Outcome :=
  let left := old.filter (fun p => !(changed.contains p.name && (find new p.name).isSome))
  let o := new.foldl (place left) ⟨[], [], [], []⟩
  let gone := left.filter (fun p => (find new p.name).isNone)
  { o with
    removed := gone.map (·.name)
    rescued := changed.filter (fun n => !(gone.map (·.name)).contains n) }

/-- Everything together: which products are known to have changed because of files that have appeared is given. -/
def trackAll (old new : List Product) (known : List Nat) : Outcome :=
  track old new (makeComplete (depsOf old) (old.length + 1) (old.map (·.name)) (addChanged old new known))

end Verif.Anew
