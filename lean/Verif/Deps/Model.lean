import Verif.Version.Model

/-!
# Dependencies of a product (C66, C68)

Model of src/lib/corelib/loader/dependenciesresolver.cpp 212-1090.

Simplifications: the properties of `Depends` items are given by their values, so they do not depend on what has been loaded
before. What the files of a module contain is given by a function; a module provider may be behind it. The name of a
`Depends` item is `[]` if it is not set. The helper products for `Export` items, which skip the adjustment for variants, are
not modelled. The `Depends` items of the base module are not followed. Which properties the modules get is not modelled here.
-/
namespace Verif.Deps
open Verif.Version

/-- `QualifiedId` -/
abbrev Name := List String

/-- `QualifiedId::toString` -/
def toStr (n : Name) : String := ".".intercalate n

/-- The values of the properties of a `Depends` item, and whether all conditions hold, `evaluateDependsItem` 818-901. -/
structure Dep where
  enabled : Bool := true
  name : Name := []
  /-- not set, or the names after the dot -/
  submodules : Option (List Name) := none
  productTypes : Option (List String) := none
  profiles : Option (List String) := none
  /-- set for the dependencies of an aggregator on its variants -/
  muxIds : List String := []
  range : Range := {}
  required : Bool := true
  limit : Bool := false
deriving DecidableEq, Repr

/-- `ProductContext`. The projects it is in are listed from the inside. -/
structure Product where
  name : String
  profile : String := ""
  muxId : String := ""
  /-- `multiplexConfiguration`: the values of the properties that are multiplexed over -/
  config : List (String × String) := []
  projects : List Nat := []
  disabled : Bool := false
  /-- the `Depends` items of its `Export` item -/
  depends : List Dep := []
deriving DecidableEq, Repr

/-- A `Module` item -/
structure ModFile where
  depends : List Dep := []
deriving DecidableEq, Repr

/-- What `searchAndLoadModuleFile` comes to -/
inductive Found
  | file (f : ModFile)
  | none
  | error
deriving DecidableEq, Repr

structure World where
  prods : List Product
  /-- the product whose dependencies are resolved, as an index -/
  self : Nat
  /-- its `Depends` items -/
  depends : List Dep
  module : Name → Range → Found

/-- What may change while the resolving of this product is being deferred -/
structure Now where
  /-- `isProductQueuedForHandling` -/
  queued : Nat → Bool
  /-- `m_deferral` -/
  mayDefer : Bool
  /-- `productsWithTypeAndConstraint`, without the constraint -/
  ofType : List String → List Nat

/-- `FullyResolvedDependsItem` -/
structure RDep where
  name : Name
  product : Option Nat := none
  profile : String := ""
  muxId : String := ""
  range : Range := {}
  limit : Bool := false
  /-- `requiredLocally` -/
  required : Bool := true
  /-- `requiredGlobally` -/
  requiredG : Bool := true
  checkProduct : Bool := true
deriving DecidableEq, Repr

/-- `makeBaseDependency`, 1015-1020 -/
def base : RDep := { name := ["qbs"] }

/-- The product item or an instance of a module -/
inductive Loader
  | product
  | module (id : Nat)
deriving DecidableEq, Repr

/-- What an instance of a module knows of the modules it depends on: `modules()` of the instance. -/
structure Local where
  name : Name
  product : Option Nat
  id : Nat
  required : Bool
deriving DecidableEq, Repr

/-- `Item::Module`, together with the instance. The contexts of loading are listed without the ones of the base dependency,
which have no `Depends` item. -/
structure Mod where
  id : Nat
  name : Name
  product : Option Nat
  depends : List Dep
  present : Bool
  required : Bool
  range : Range
  loaders : List Loader
  locals : List Local
deriving DecidableEq, Repr

/-- `DependenciesResolvingState`. Of `loadingItemOrigin` only `requiredGlobally` is used. -/
structure Frame where
  loading : Loader
  requiredG : Bool
  items : List Dep
  current : Option Dep
  pending : List RDep
deriving DecidableEq, Repr

inductive Err
  /-- with the instances on the way -/
  | cyclic (chain : List Loader)
  | cyclicProducts (p : Nat)
  | selfReference
  | disabled (p : Nat)
  | noProduct (n : Name)
  | notFound (n : Name)
  | ambiguousFiles (n : Name)
  | prefixes (n m : Name)
  /-- a failing `QBS_CHECK` -/
  | internal
  | noCandidates (n : Name)
  | ambiguousCandidates (n : Name)
  | badItem
deriving DecidableEq, Repr

structure St where
  /-- the front first -/
  stack : List Frame
  modules : List Mod
  errors : List Err
  nextId : Nat
deriving DecidableEq, Repr

/-- 1131-1141 -/
def initial (w : World) : St :=
  { stack := [{ loading := .product, requiredG := true, items := w.depends, current := none, pending := [base] }]
    modules := [], errors := [], nextId := 0 }

/-! ## Looking for what is there already -/

def prodAt (w : World) (p : Nat) : Option Product := w.prods[p]?

inductive Existing
  | clash
  | found (id : Nat)
  | none
deriving DecidableEq, Repr

/-- `findExistingModule`, 518-542, on the names, products and instances in a list -/
def findExisting (w : World) (d : RDep) : List (Name × Option Nat × Nat) → Existing
  | [] => .none
  | (n, p, i) :: l =>
    if n ≠ d.name then findExisting w d l
    else
      match p with
      | none => if d.product.isSome then .clash else .found i
      | some p =>
        match prodAt w p with
        | none => findExisting w d l
        | some q =>
          if (d.profile = "" ∨ q.profile = d.profile) ∧ q.muxId = d.muxId then .found i else findExisting w d l

def Mod.key (m : Mod) : Name × Option Nat × Nat := (m.name, m.product, m.id)
def Local.key (m : Local) : Name × Option Nat × Nat := (m.name, m.product, m.id)

/-- `updateModule`, 544-553 -/
def updateMod (d : RDep) (m : Mod) : Mod :=
  { m with range := m.range.narrowDown d.range, required := m.required || d.requiredG }

/-- `addLoadContext`, unless there is one for this item: 403-407, 425-434 -/
def addLoader (d : RDep) (l : Loader) (m : Mod) : Mod :=
  if d.name = ["qbs"] ∨ l ∈ m.loaders then m else { m with loaders := m.loaders ++ [l] }

def modify (id : Nat) (f : Mod → Mod) (ms : List Mod) : List Mod := ms.map (fun m => if m.id = id then f m else m)

/-- `haveSameSubProject`, 1083-1091 -/
def sameSubProject (a b : Product) : Bool :=
  match a.projects with
  | [] => false
  | p :: _ => b.projects.contains p

/-- `findMatchingProduct`, 560-576 -/
def findProduct (w : World) (d : RDep) : Option Nat :=
  (List.range w.prods.length).find? (fun p =>
    match prodAt w p, prodAt w w.self with
    | some q, some s =>
      decide (q.name = toStr d.name) && decide (q.muxId = d.muxId) && (decide (d.profile = "") || decide (d.profile = q.profile))
        && (!d.limit || sameSubProject s q)
    | _, _ => false)

inductive Check
  | use
  | ignore
  | defer
  | error (e : Err)

/-- `checkProductDependency`, 629-674 -/
def checkProd (w : World) (now : Now) (d : RDep) (p : Nat) : Check :=
  if d.checkProduct = false then .use
  else if p = w.self then .error .selfReference
  else if now.queued p then (if now.mayDefer then .defer else .error (.cyclicProducts p))
  else if ((prodAt w p).map (·.disabled)).getD false then (if d.requiredG then .error (.disabled p) else .ignore)
  else .use

/-- `checkForModuleNamePrefixCollision`, 970-1006 -/
def collision (n : Name) (ms : List Mod) : Option Name :=
  (ms.find? (fun m => m.name.length ≠ n.length && (m.name.isPrefixOf n || n.isPrefixOf m.name))).map (·.name)

/-- The part of the stack from the front up to an item, which is the chain of a cycle; `checkModule`, 676-713. -/
def chainTo (l : Loader) : List Frame → List Loader
  | [] => []
  | f :: fs => if f.loading = l then [f.loading] else f.loading :: chainTo l fs

def onStack (l : Loader) (fs : List Frame) : Bool := fs.any (fun f => f.loading = l)

/-! ## Loading a module -/

inductive Res
  | defer (p : Nat)
  | ignore (s : St)
  | use (id : Nat) (deps : List Dep) (s : St)
  | error (e : Err)

/-- The `modules()` of the loading item -/
def localsOf (l : Loader) (ms : List Mod) : List Local :=
  match l with
  | .product => []
  | .module i => ((ms.find? (fun m => m.id = i)).map (·.locals)).getD []

/-- `addLocalModule`, 493-498 -/
def addLocal (w : World) (l : Loader) (d : RDep) (id : Nat) (prod : Option Nat) (s : St) : Option St :=
  match l with
  | .product => some s
  | .module i =>
    match findExisting w d ((localsOf l s.modules).map Local.key) with
    | .clash => none
    | .found _ => some s
    | .none =>
      some { s with modules := modify i (fun m => { m with locals := m.locals ++ [{ name := d.name, product := prod, id := id, required := d.required }] }) s.modules }

/-- The rest of `loadModule` for a new instance, 461-516 -/
def addNew (w : World) (l : Loader) (d : RDep) (prod : Option Nat) (deps : List Dep) (present : Bool) (s : St) : Res :=
  match collision d.name s.modules with
  | some m => .error (.prefixes m d.name)
  | none =>
    let id := s.nextId
    let m : Mod := addLoader d l { id := id, name := d.name, product := prod, depends := deps, present := present, required := d.requiredG, range := d.range, loaders := [], locals := [] }
    match addLocal w l d id prod { s with modules := s.modules ++ [m], nextId := id + 1 } with
    | none => .error .internal
    | some s => .use id deps s

/-- For a dependency that there is an instance for already: 415-434, 461-502 -/
def loadExisting (w : World) (l : Loader) (d : RDep) (id : Nat) (s : St) : Res :=
  let s := { s with modules := modify id (fun m => addLoader d l (if m.name = ["qbs"] then m else updateMod d m)) s.modules }
  if onStack (.module id) s.stack then .error (.cyclic (chainTo (.module id) s.stack))
  else
    match collision d.name s.modules with
    | some m => .error (.prefixes m d.name)
    | none =>
      match addLocal w l d id none s with
      | none => .error .internal
      | some s => .ignore s

/-- For a dependency on a product: 442-459 -/
def loadProduct (w : World) (now : Now) (l : Loader) (d : RDep) (p : Nat) (s : St) : Res :=
  match checkProd w now d p with
  | .defer => .defer p
  | .error e => .error e
  | .ignore => .ignore s
  | .use =>
    if p = w.self then .error (.cyclic (chainTo .product s.stack))
    else addNew w l d (some p) (((prodAt w p).map (·.depends)).getD []) true s

/-- `findMatchingModule`, 578-627 -/
def loadFile (w : World) (l : Loader) (d : RDep) (s : St) : Res :=
  if d.profile ≠ "" ∨ d.muxId ≠ "" then (if d.requiredG then .error (.noProduct d.name) else .ignore s)
  else
    match w.module d.name d.range with
    | .file f => addNew w l d none f.depends true s
    | .error => .error (.ambiguousFiles d.name)
    | .none => if d.requiredG then .error (.notFound d.name) else addNew w l d none [] false s

/-- `loadModule`, 390-516 -/
def load (w : World) (now : Now) (l : Loader) (d : RDep) (s : St) : Res :=
  match findExisting w d (s.modules.map Mod.key) with
  | .clash => .error .internal
  | .found id => loadExisting w l d id s
  | .none =>
    match d.product with
    | some p => loadProduct w now l d p s
    | none =>
      match findProduct w d with
      | some p => loadProduct w now l d p s
      | none => loadFile w l d s

/-! ## Variants -/

/-- `multiplexConfigurationIntersects`, 763-773 -/
def intersects (a b : List (String × String)) : Bool :=
  a.all (fun x => match b.lookup x.1 with | some v => decide (x.2 = v) | none => true)

/-- `profileMatch`, 788-792 -/
def forProfiles (d : Dep) (q : Product) : Bool :=
  match d.profiles with
  | none => true
  | some ps => ps.isEmpty || ps.contains q.profile

/-- `adjustDependsItemForMultiplexing`, 715-816: which variants a `Depends` item is for. -/
def adjust (w : World) (d : Dep) : Except Err Dep :=
  match prodAt w w.self with
  | none => .ok d
  | some self =>
    if toStr d.name = self.name then (if self.muxId = "" then .ok d else .error .internal)
    else
      let named := w.prods.filter (fun q => q.name = toStr d.name)
      let variants := named.filter (fun q => q.muxId ≠ "")
      if variants = [] then .ok d
      else if self.muxId = "" ∧ named.any (fun q => q.muxId = "") = true ∧ d.profiles = none then .ok d
      else if self.muxId ≠ "" ∧ d.profiles = none then
        if variants.any (fun q => q.muxId = self.muxId) then .ok { d with muxIds := [self.muxId] }
        else
          match (variants.filter (fun q => intersects q.config self.config)).map (·.muxId) with
          | [] => .error (.noCandidates d.name)
          | [i] => .ok { d with muxIds := [i] }
          | _ => .error (.ambiguousCandidates d.name)
      else
        let ids := (variants.filter (forProfiles d)).map (·.muxId)
        if ids = [] then .error (.noCandidates d.name) else .ok { d with muxIds := ids }

/-- `l`, or else something that stands for an empty list, as in 929-934 -/
def orOne {α : Type} (l : List α) (a : α) : List α := if l.isEmpty then [a] else l

/-- `multiplexDependency` for a name, 929-946 -/
def expandNamed (requiredG : Bool) (d : Dep) : List RDep :=
  (orOne (d.profiles.getD []) "").flatMap (fun pr =>
    (orOne d.muxIds "").flatMap (fun i =>
      (orOne (d.submodules.getD []) []).map (fun sub =>
        { name := d.name ++ sub, profile := pr, muxId := i, range := d.range, limit := d.limit,
          required := d.required, requiredG := d.required && requiredG })))

/-- `multiplexDependency`, 903-947 -/
def expand (w : World) (now : Now) (requiredG : Bool) (d : Dep) : List RDep :=
  match d.productTypes with
  | some types =>
    ((now.ofType types).filter (fun p =>
      match prodAt w p, prodAt w w.self with
      | some q, some s => decide (p ≠ w.self) && decide (q.name ≠ s.name) && (!d.limit || sameSubProject s q)
      | _, _ => false)).filterMap (fun p =>
        (prodAt w p).map (fun q => { name := [q.name], product := some p, range := d.range, checkProduct := false }))
  | none => expandNamed requiredG d

/-- `evaluateDependsItem`, 818-901, after the adjustment: nothing if the item is to be ignored. With `productTypes`,
`required` is ignored. -/
def evaluate (d : Dep) : Except Err (Option Dep) :=
  if d.enabled = false then .ok none
  else if d.name = ["qbs"] then .ok none
  else if d.submodules = some [] then .ok none
  else if d.name ≠ [] ∧ d.productTypes ≠ none ∧ d.productTypes ≠ some [] then .error .badItem
  else if d.productTypes = some [] then .ok none
  else if d.name = [] ∧ d.productTypes = none then .error .badItem
  else .ok (some d)

/-! ## The loop -/

inductive Next
  /-- all dependencies are resolved -/
  | done
  /-- to be resumed later -/
  | deferred (s : St)
  | next (s : St)
  /-- by an exception -/
  | aborted (e : Err)
deriving DecidableEq

/-- The modules before the first one whose instance this is; 364-374 -/
def cutAt (l : Loader) (ms : List Mod) : List Mod :=
  match l with
  | .product => ms
  | .module i => ms.takeWhile (fun m => m.id ≠ i)

/-- Unwinding to the product, 361-376 -/
def unwind : List Frame → List Mod → List Frame × List Mod
  | [], ms => ([], ms)
  | [f], ms => ([f], ms)
  | f :: fs, ms => unwind fs (cutAt f.loading ms)

/-- Moving a module to the end, 258-268 -/
def toEnd (l : Loader) (ms : List Mod) : List Mod :=
  match l with
  | .product => ms
  | .module i => ms.filter (fun m => m.id ≠ i) ++ ms.filter (fun m => m.id = i)

/-- One round of the loop in `resolve`, 212-272, or of the one in `handleResolvedDependencies`, 296-387. -/
def step (w : World) (now : Now) (s : St) : Next :=
  match s.stack with
  | [] => .done
  | f :: fs =>
    match f.pending with
    | d :: ds =>
      match load w now f.loading d s with
      | .defer p => .deferred { s with stack := { f with pending := { d with product := some p } :: ds } :: fs }
      | .ignore s' => .next { s' with stack := { f with pending := ds } :: fs }
      | .use id deps s' =>
        if d.name = ["qbs"] then .next { s' with stack := { f with pending := ds } :: fs }
        else .next { s' with stack := { loading := .module id, requiredG := d.requiredG, items := deps, current := none, pending := [base] } :: { f with pending := ds } :: fs }
      | .error e =>
        if d.name = ["qbs"] then .aborted e
        else
          let u := unwind ({ f with pending := ds } :: fs) s.modules
          .next { s with stack := u.1, modules := u.2, errors := s.errors ++ [e] }
    | [] =>
      match f.current with
      | some c =>
        if c.productTypes ≠ none ∧ now.mayDefer = true then .deferred s
        else .next { s with stack := { f with current := none, pending := expand w now f.requiredG c } :: fs }
      | none =>
        match f.items with
        | d :: ds =>
          match adjust w d with
          | .error e => .aborted e
          | .ok d' =>
            match evaluate d' with
            | .error e => .aborted e
            | .ok c => .next { s with stack := { f with items := ds, current := c } :: fs }
        | [] =>
          .next { s with stack := fs, modules := if fs = [] then s.modules else toEnd f.loading s.modules }

end Verif.Deps
