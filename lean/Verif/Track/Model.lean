/-!
# Change tracking for scripts (C31, C33)

Model of src/lib/corelib/buildgraph/transformerchangetracking.cpp 93-369,
requestedartifacts.cpp 53-191, requesteddependencies.cpp 47-88, language/scriptengine.cpp 374-404,
1127-1170, language/property.h 81-87, and of the places where accesses are recorded:
buildgraph/artifactsscriptvalue.cpp 98-188, buildgraph/buildgraph.cpp 183-203, 336-344,
jsextensions/moduleproperties.cpp 70-98, language/preparescriptobserver.cpp 57-94.

A script is any program that asks the project for values and goes on depending on the answers.

Simplifications: QVariants are values of the type `Val` with plain equality. The arrays a script
gets for `dependencies` and `artifacts[tag]` are sets: their order comes from pointers. Projects
and products are looked up by name, the first match counts. The caches of the tracker
(`m_lastProduct`, `m_lastArtifact`) and of the engine are left out.
-/
namespace Verif.Track

inductive Val where
  | undef
  | atom (n : Nat)
  | strs (l : List String)
deriving DecidableEq, Repr

/-- `Artifact`. -/
structure Art where
  path : String
  tags : List String
  props : String → String → Val
  /-- `targetOfModule` -/
  target : Option String

/-- `ResolvedProduct`. -/
structure Product where
  name : String
  /-- enabled, so that `buildData` is not null -/
  enabled : Bool
  arts : List Art
  /-- `dependencies`, by name -/
  deps : List String
  /-- `modules` that are not products, by name -/
  modules : List String
  /-- `productProperties`; `none`: not in the map -/
  pprops : String → Option Val
  /-- `moduleProperties`, by module and property -/
  mprops : String → String → Val
  /-- `dependencyParameters` and `moduleParameters`, by dependency, module and property -/
  params : String → String → String → Val
  /-- `exportedModule` -/
  exported : Nat

structure Project where
  name : String
  props : String → Val

structure World where
  products : List Product
  projects : List Project
  /-- modification time and content of the files that exist -/
  files : String → Option (Nat × Nat)

def World.product (w : World) (n : String) : Option Product := w.products.find? (·.name == n)
def World.project (w : World) (n : String) : Option Project := w.projects.find? (·.name == n)

/-- `getArtifact`, transformerchangetracking.cpp 215-238. -/
def World.artifact (w : World) (path prod : String) : Option Art :=
  match w.product prod with
  | some p => p.arts.find? (·.path == path)
  | none => none

/-- `artifactsByFileTag`: the artifacts of a tag; a tag is in the map iff it has some. -/
def Product.tagged (p : Product) (tag : String) : List Art := p.arts.filter (·.tags.contains tag)

def Product.allTags (p : Product) : List String := p.arts.flatMap (·.tags)

/-! ## What is recorded -/

inductive Kind where
  | inModule | inProduct | inProject | inParameters | inArtifact
deriving DecidableEq, Repr

/-- `Property::moduleName`: empty, a module's name, or "dependency:module". -/
inductive MName where
  | none
  | mod (m : String)
  | param (dep m : String)
deriving DecidableEq, Repr

structure Property where
  owner : String
  mname : MName
  key : String
  value : Val
  kind : Kind
deriving DecidableEq, Repr

/-- property.h 81-87: the value and the kind do not count. -/
def Property.same (p q : Property) : Bool :=
  p.owner == q.owner && p.mname == q.mname && p.key == q.key

/-- `PropertySet` insertion: an equal element stays. -/
def insertProp (p : Property) (l : List Property) : List Property :=
  if l.any (p.same ·) then l else l ++ [p]

def uniteProps (l l' : List Property) : List Property := l'.foldl (fun acc p => insertProp p acc) l

/-- Lookup, insertion with replacement. -/
def look {β : Type} (k : String) : List (String × β) → Option β
  | [] => none
  | (k', v) :: l => if k' = k then some v else look k l

def put {β : Type} (k : String) (v : β) : List (String × β) → List (String × β)
  | [] => [(k, v)]
  | (k', v') :: l => if k' = k then (k, v) :: l else (k', v') :: put k v l

/-- `RequestedArtifactsPerProduct`. -/
structure PerProduct where
  allTags : List String := []
  requested : List (String × List String) := []
  enumerated : Bool := false
deriving DecidableEq, Repr

/-- `TrackedScriptAccesses`. -/
structure Rec where
  props : List Property := []
  viaArt : List (String × List Property) := []
  deps : List (String × List String) := []
  arts : List (String × PerProduct) := []
  imports : List (String × Nat) := []
  exported : List (String × Nat) := []
deriving DecidableEq, Repr

/-- requestedartifacts.cpp 75-84. -/
def setAllArtifactTags (p : Product) (force : Bool) (l : List (String × PerProduct)) :
    List (String × PerProduct) :=
  let ra := (look p.name l).getD {}
  if !ra.allTags.isEmpty && !force then put p.name ra l
  else put p.name { ra with allTags := p.allTags } l

/-- requestedartifacts.cpp 86-94. -/
def setArtifactsForTag (p : Product) (tag : String) (l : List (String × PerProduct)) :
    List (String × PerProduct) :=
  let ra := (look p.name l).getD {}
  let old := (look tag ra.requested).getD []
  put p.name { ra with requested := put tag (old ++ (p.tagged tag).map (·.path)) ra.requested } l

/-- requestedartifacts.cpp 96-103. -/
def setNonExistingTagRequested (p : Product) (tag : String) (l : List (String × PerProduct)) :
    List (String × PerProduct) :=
  let ra := (look p.name l).getD {}
  let old := (look tag ra.requested).getD []
  put p.name { ra with requested := put tag old ra.requested } l

/-- requestedartifacts.cpp 105-108. -/
def setArtifactsEnumerated (p : Product) (l : List (String × PerProduct)) :
    List (String × PerProduct) :=
  let ra := (look p.name l).getD {}
  put p.name { ra with enumerated := true } l

/-- requestedartifacts.cpp 175-185. -/
def PerProduct.unite (a b : PerProduct) : PerProduct :=
  if a.allTags.isEmpty then b
  else { a with allTags := b.allTags,
                requested := b.requested.foldl (fun acc kv => put kv.1 kv.2 acc) a.requested }

/-- requestedartifacts.cpp 110-114. -/
def uniteArts (a b : List (String × PerProduct)) : List (String × PerProduct) :=
  b.foldl (fun acc kv => put kv.1 (((look kv.1 acc).getD {}).unite kv.2) acc) a

/-- requesteddependencies.cpp 47-58. -/
def depNames (p : Product) : List String := p.deps ++ p.modules

/-! ## Scripts -/

inductive Query where
  /-- `product.module.key` -/
  | modProp (prod m key : String)
  /-- `product.key` -/
  | prodProp (prod key : String)
  /-- `project.key` -/
  | projProp (proj key : String)
  /-- `dependency.parameters.m.key` -/
  | param (prod dep m key : String)
  /-- `artifact.m.key` -/
  | artProp (path prod m key : String)
  /-- `artifact.fileTags` -/
  | artTags (path prod : String)
  /-- `product.artifacts[tag]` -/
  | tagged (prod tag : String)
  /-- the keys of `product.artifacts` -/
  | tags (prod : String)
  /-- `product.m.artifacts[tag]` -/
  | moduleTagged (prod m tag : String)
  /-- `product.dependencies` -/
  | deps (prod : String)
  /-- `product.exports` -/
  | exported (prod : String)
  /-- use of an imported file -/
  | use (file : String)
deriving DecidableEq, Repr

inductive Ans where
  | val (v : Val)
  | set (s : String → Prop)
  | names (products modules : String → Prop)
  | num (n : Nat)
  | content (c : Option Nat)
  /-- the script has no such object -/
  | invalid

/-- A script with a result. -/
inductive Prog where
  | done (result : Nat)
  | ask (q : Query) (k : Ans → Prog)

/-- The objects a script can reach. -/
structure Scope where
  projects : String → Prop
  products : String → Prop
  arts : String → String → Prop
  /-- files imported by the script's file -/
  files : String → Prop

/-- What the script sees. -/
def World.answer (w : World) : Query → Ans
  | .modProp prod m key => .val ((w.product prod).elim .undef (·.mprops m key))
  | .prodProp prod key => .val ((w.product prod).elim .undef (fun p => (p.pprops key).getD .undef))
  | .projProp proj key => .val ((w.project proj).elim .undef (·.props key))
  | .param prod dep m key => .val ((w.product prod).elim .undef (·.params dep m key))
  | .artProp path prod m key => .val ((w.artifact path prod).elim .undef (·.props m key))
  | .artTags path prod =>
    .set (fun t => ∃ a, w.artifact path prod = some a ∧ t ∈ a.tags)
  | .tagged prod tag =>
    .set (fun f => ∃ p, w.product prod = some p ∧ ∃ a ∈ p.tagged tag, a.target = none ∧ a.path = f)
  | .tags prod =>
    .set (fun t => ∃ p, w.product prod = some p ∧ ∃ a ∈ p.tagged t, a.target = none)
  | .moduleTagged prod m tag =>
    .set (fun f => ∃ p, w.product prod = some p ∧ ∃ a ∈ p.tagged tag, a.target = some m ∧ a.path = f)
  | .deps prod => .names (fun n => ∃ p, w.product prod = some p ∧ n ∈ p.deps)
      (fun n => ∃ p, w.product prod = some p ∧ n ∈ p.modules)
  | .exported prod => .num ((w.product prod).elim 0 (·.exported))
  | .use file => .content ((w.files file).map (·.2))

/-- What is recorded for the access. `flag` is `m_jsArtifactsMapUpToDate` of the product, `now` the
time when the record is made. -/
def record (w : World) (flag : Bool) (now : Nat) (q : Query) (r : Rec) : Rec :=
  match q with
  | .modProp prod m key =>
    { r with props := insertProp ⟨prod, .mod m, key, (w.product prod).elim .undef (·.mprops m key),
        .inModule⟩ r.props }
  | .prodProp prod key =>
    match (w.product prod).bind (·.pprops key) with
    | some v => { r with props := insertProp ⟨prod, .none, key, v, .inProduct⟩ r.props }
    | none => r
  | .projProp proj key =>
    { r with props := insertProp ⟨proj, .none, key, (w.project proj).elim .undef (·.props key),
        .inProject⟩ r.props }
  | .param prod dep m key =>
    { r with props := insertProp ⟨prod, .param dep m, key,
        (w.product prod).elim .undef (·.params dep m key), .inParameters⟩ r.props }
  | .artProp path prod m key =>
    { r with viaArt := put path (insertProp ⟨prod, .mod m, key,
        (w.artifact path prod).elim .undef (·.props m key), .inModule⟩
        ((look path r.viaArt).getD [])) r.viaArt }
  | .artTags path prod =>
    { r with viaArt := put path (insertProp ⟨prod, .none, "fileTags",
        .strs ((w.artifact path prod).elim [] (·.tags)), .inArtifact⟩
        ((look path r.viaArt).getD [])) r.viaArt }
  | .tagged prod tag =>
    match w.product prod with
    | none => r
    | some p =>
      let arts := setAllArtifactTags p (!flag) r.arts
      if (p.tagged tag).isEmpty then { r with arts := setNonExistingTagRequested p tag arts }
      else { r with arts := setArtifactsForTag p tag arts }
  | .tags prod =>
    match w.product prod with
    | none => r
    | some p => { r with arts := setArtifactsEnumerated p (setAllArtifactTags p (!flag) r.arts) }
  | .moduleTagged prod _ _ =>
    match w.product prod with
    | none => r
    | some p => { r with arts := setAllArtifactTags p (!flag) r.arts }
  | .deps prod =>
    match w.product prod with
    | none => r
    | some p => { r with deps := put prod (depNames p) r.deps }
  | .exported prod =>
    match w.product prod with
    | none => r
    | some p =>
      { r with exported := if (look prod r.exported).isSome then r.exported
                           else r.exported ++ [(prod, p.exported)] }
  | .use file =>
    { r with imports := if (look file r.imports).isSome then r.imports
                        else r.imports ++ [(file, now)] }

/-- A script can only ask about objects it has. -/
def Query.inScope (s : Scope) : Query → Prop
  | .modProp prod _ _ | .prodProp prod _ | .param prod _ _ _ | .tagged prod _ | .tags prod
  | .moduleTagged prod _ _ | .deps prod | .exported prod => s.products prod
  | .artProp path prod _ _ | .artTags path prod => s.arts path prod
  | .projProp proj _ => s.projects proj
  | .use file => s.files file

/-- It gets new objects with the answers. -/
def Scope.extend (s : Scope) (q : Query) (a : Ans) : Scope :=
  match q, a with
  | .deps _, .names ps _ => { s with products := fun n => s.products n ∨ ps n }
  | .tagged prod _, .set f => { s with arts := fun path p => s.arts path p ∨ (p = prod ∧ f path) }
  | _, _ => s

/-- The product whose map is looked at. -/
def Query.mapAccess : Query → Option String
  | .tagged prod _ | .tags prod | .moduleTagged prod _ _ => some prod
  | _ => none

open Classical in
/-- Running a script in a world: result and record. `flags`: for which products the flag
`m_jsArtifactsMapUpToDate` is set; an access to the map sets it (artifactsscriptvalue.cpp 99-110). -/
noncomputable def run (w : World) (now : Nat) : Prog → Scope → (String → Bool) → Rec → Nat × Rec
  | .done n, _, _, r => (n, r)
  | .ask q k, s, flags, r =>
    if q.inScope s then
      let a := w.answer q
      let flag := (q.mapAccess).elim true flags
      let flags' := fun n => if q.mapAccess = some n then true else flags n
      run w now (k a) (s.extend q a) flags' (record w flag now q r)
    else run w now (k .invalid) s flags r

/-! ## The check -/

/-- The same elements: comparison of two `Set`s. -/
def sameSet (a b : List String) : Bool := a.all (b.contains ·) && b.all (a.contains ·)

/-- transformerchangetracking.cpp 104-138 and 140-180: the value a recorded property has now. -/
def currentValue (w : World) (p : Property) : Val :=
  match p.kind, p.mname with
  | .inModule, .mod m => (w.product p.owner).elim .undef (·.mprops m p.key)
  | .inProduct, _ => (w.product p.owner).elim .undef (fun q => (q.pprops p.key).getD .undef)
  | .inProject, _ => (w.project p.owner).elim .undef (·.props p.key)
  | .inParameters, .param d m => (w.product p.owner).elim .undef (·.params d m p.key)
  | _, _ => .undef

/-- transformerchangetracking.cpp 311-326, one property of one artifact; the strings are compared as
sorted lists, for which the model compares sets. -/
def viaArtOk (w : World) (path : String) (p : Property) : Bool :=
  match w.artifact path p.owner with
  | none => false
  | some a =>
    match p.kind, p.mname with
    | .inArtifact, _ =>
      match p.value with
      | .strs l => sameSet a.tags l
      | _ => false
    | _, .mod m => p.value == a.props m p.key
    | _, _ => p.value == .undef

/-- requestedartifacts.cpp 132-173. -/
def PerProduct.isUpToDate (ra : PerProduct) (p : Product) : Bool :=
  if !p.enabled then false
  else if !ra.enumerated && ra.requested.isEmpty then true
  else if !ra.requested.all (fun kv => sameSet ((p.tagged kv.1).map (·.path)) kv.2) then false
  else if !ra.enumerated then true
  else sameSet p.allTags ra.allTags

/-- requestedartifacts.cpp 53-73. -/
def artsUpToDate (w : World) (l : List (String × PerProduct)) : Bool :=
  l.all (fun kv => match w.product kv.1 with
    | none => false
    | some p => kv.2.isUpToDate p)

/-- requesteddependencies.cpp 71-88. -/
def depsUpToDate (w : World) (l : List (String × List String)) : Bool :=
  w.products.all (fun p => match look p.name l with
    | none => true
    | some names => sameSet (depNames p) names)

/-- transformerchangetracking.cpp 182-201. -/
def importsChanged (w : World) (l : List (String × Nat)) : Bool :=
  l.any (fun kv => match w.files kv.1 with
    | none => true
    | some (mtime, _) => decide (mtime > kv.2))

/-- transformerchangetracking.cpp 191-213. -/
def exportedUpToDate (w : World) (l : List (String × Nat)) : Bool :=
  l.all (fun kv => match w.product kv.1 with
    | none => false
    | some p => p.exported == kv.2)

/-- transformerchangetracking.cpp 300-337 `scriptNeedsReRun`. -/
def needsRerun (w : World) (r : Rec) : Bool :=
  r.props.any (fun p => p.value != currentValue w p) ||
  importsChanged w r.imports ||
  r.viaArt.any (fun kv => kv.2.any (fun p => !viaArtOk w kv.1 p)) ||
  !depsUpToDate w r.deps || !artsUpToDate w r.arts || !exportedUpToDate w r.exported

/-- A process command's relevant environment variables with the values recorded
(transformer.cpp 267-274). -/
abbrev EnvRec := List (String × String)

/-- transformerchangetracking.cpp 268-293 `commandsNeedRerun`; `env` is `buildEnvironment`. -/
def commandsNeedRerun (w : World) (env : String → String) (r : Rec) (cmds : List EnvRec) : Bool :=
  needsRerun w r || cmds.any (fun c => c.any (fun kv => kv.2 != env kv.1))

/-! ## Merging -/

/-- scriptengine.cpp 1151-1170 `mergeAndClearTrackedScriptAccesses`. `QHash::insert` replaces
(qttools.h 168-173), `std::unordered_map::insert` does not. -/
def merge (a b : Rec) : Rec :=
  { props := uniteProps a.props b.props
    viaArt := b.viaArt.foldl (fun acc kv => put kv.1 kv.2 acc) a.viaArt
    imports := b.imports.foldl (fun acc kv =>
      if (look kv.1 acc).isSome then acc else acc ++ [kv]) a.imports
    deps := b.deps.foldl (fun acc kv => put kv.1 kv.2 acc) a.deps
    arts := uniteArts a.arts b.arts
    exported := b.exported.foldl (fun acc kv =>
      if (look kv.1 acc).isSome then acc else acc ++ [kv]) a.exported }

end Verif.Track
