import Verif.Path.Props
/-
Values that users set on the command line, e.g. "products.app.cpp.optimization:fast":
setupprojectparameters.cpp, scripttools.cpp, item.cpp, moduleinstantiator.cpp,
productscollector.cpp, projectresolver.cpp, propertydeclaration.cpp.
Simplifications: a QVariantMap is the list of its entries in the order of its keys;
the values of the flat maps are not maps themselves; properties set in project files
are opaque; Qt's conversions between types are a parameter.
-/

namespace Verif.Override

abbrev Str := List Char

/-- The values that can be given for a property. -/
inductive Val where
  | null
  | str (s : Str)
  | list (l : List Str)
  | other (n : Nat)
  deriving DecidableEq, Repr

/-- A flat QVariantMap, such as SetupProjectParameters::overriddenValues(). -/
abbrev Flat := List (Str × Val)

/-- The value of an entry of the tree: a value, or a map (setupprojectparameters.cpp
421-435, scripttools.cpp 53-63). -/
inductive Node where
  | leaf (v : Val)
  | map (m : Flat)
  deriving DecidableEq, Repr

/-- A two-level QVariantMap. -/
abbrev Tree := List (Str × Node)

/-- QMap::value with a check for the key. -/
def get {α : Type} (k : Str) : List (Str × α) → Option α
  | [] => none
  | (k', v) :: l => if k' = k then some v else get k l

/-- QMap::insert and QMap::operator[], as used in scripttools.cpp 53-63. A new entry
goes to the end, which is where it belongs when entries come in the order of keys, as
they do in provideValuesTree. -/
def put {α : Type} (k : Str) (v : α) : List (Str × α) → List (Str × α)
  | [] => [(k, v)]
  | (k', v') :: l => if k' = k then (k, v) :: l else (k', v') :: put k v l

/-- QVariant::toMap: the map, or an empty one. -/
def toMap : Option Node → Flat
  | some (.map m) => m
  | _ => []

/-- setConfigProperty, scripttools.cpp 53-63, for names of one or two elements:
an element that is not a map is replaced by one. -/
def setConfigProperty (t : Tree) : Option Str × Str → Val → Tree
  | (none, name), v => put name (.leaf v) t
  | (some pre, name), v => put pre (.map (put name v (toMap (get pre t)))) t

/-- The part of a name before its last dot and the part after it,
setupprojectparameters.cpp 429-432. -/
def splitName (name : Str) : Option Str × Str :=
  match Path.lastIndexOf '.' name with
  | none => (none, name)
  | some i => (some (name.take i), name.drop (i + 1))

/-- The loop of provideValuesTree, setupprojectparameters.cpp 427-434. -/
def fillTree (t : Tree) : Flat → Tree
  | [] => t
  | (k, v) :: l => fillTree (setConfigProperty t (splitName k) v) l

/-- provideValuesTree, setupprojectparameters.cpp 421-435: nothing happens if the tree
is filled already, or if there are no values. -/
def provideValuesTree (values : Flat) (t : Tree) : Tree :=
  if t ≠ [] ∨ values = [] then t else fillTree [] values

/-- PropertyDeclaration::Type. -/
inductive PType where
  | boolean | integer | path | pathList | string | stringList | variantList | variant | unknown
  deriving DecidableEq, Repr

/-- QString::split(','). -/
def splitCommas : Str → List Str
  | [] => [[]]
  | c :: s =>
    if c = ',' then [] :: splitCommas s
    else
      match splitCommas s with
      | [] => [[c]]
      | w :: ws => (c :: w) :: ws

/-- PropertyDeclaration::convertToPropertyType, propertydeclaration.cpp 300-321, with
`qt` for qVariantConvert; `none`: an error. -/
def convert (qt : PType → Val → Option Val) (t : PType) (v : Val) : Option Val :=
  if v = .null then some v
  else if t = .variant ∨ t = .unknown then some v
  else
    match t, v with
    | .stringList, .str s => some (.list (splitCommas s))
    | t, v => qt t v

/-- What an item has for a property: whether it was set on the command line
(VariantValue::markAsSetByCommandLine), and the value. -/
structure Cell where
  value : Val
  fromCommandLine : Bool
  deriving DecidableEq, Repr

/-- An item: what it declares and what it has. -/
structure Item where
  decl : Str → Option PType
  cell : Str → Option Cell

/-- Item::setProperty with a value marked by markAsSetByCommandLine, item.cpp 534-537. -/
def Item.setFromCommandLine (it : Item) (p : Str) (v : Val) : Item :=
  { it with cell := fun q => if q = p then some ⟨v, true⟩ else it.cell q }

inductive Err where
  | keyNotUnderstood (key : Str)
  | unknownProperty (name : Str)
  | badType (name : Str)
  | unknownProject (name : Str)
  | unknownProduct (name : Str)
  deriving DecidableEq, Repr

/-- How the loader treats values: Qt's conversions, and propertyCheckingMode(). -/
structure Mode where
  qt : PType → Val → Option Val
  strict : Bool

/-- The first overload of Item::overrideProperties, item.cpp 515-539, without
ignoreNonExisting. In relaxed mode, handlePropertyError (error.cpp 357-363) writes a
warning and the loop goes on. -/
def overrideMap (md : Mode) : Flat → Item → Except Err Item
  | [], it => .ok it
  | (p, v) :: m, it =>
    match it.decl p with
    | none => if md.strict then .error (.unknownProperty p) else overrideMap md m it
    | some t =>
      match convert md.qt t v with
      | none => .error (.badType p)
      | some c => overrideMap md m (it.setFromCommandLine p c)

/-- The second overload of Item::overrideProperties, item.cpp 373-384. -/
def overrideItem (md : Mode) (tree : Tree) (key : Str) (it : Item) : Except Err Item :=
  match get key tree with
  | some (.map m) => overrideMap md m it
  | _ => .ok it

def dot : Str := ".".toList
def projectKey : Str := "project".toList
def projectsPrefix : Str := "projects.".toList
def productsPrefix : Str := "products.".toList
def modulesPrefix : Str := "modules.".toList
def qbsName : Str := "qbs".toList
def nameProperty : Str := "name".toList

/-- The qbs module can do without the prefix, moduleinstantiator.cpp 223-226. -/
def overrideQbs (md : Mode) (tree : Tree) (fullName : Str) (it : Item) : Except Err Item :=
  if fullName = qbsName then overrideItem md tree fullName it else .ok it

/-- ModuleInstantiator::overrideProperties, moduleinstantiator.cpp 206-230. -/
def overrideModule (md : Mode) (tree : Tree) (product fullName : Str) (it : Item) :
    Except Err Item := do
  let it ← overrideItem md tree (modulesPrefix ++ fullName) it
  let it ← overrideQbs md tree fullName it
  overrideItem md tree (productsPrefix ++ product ++ dot ++ fullName) it

/-- A product: its name as the file has it, its item, and its modules. -/
structure Product where
  name : Str
  item : Item
  modules : List (Str × Item)

/-- A project: its name as the file has it, and its item. -/
structure Project where
  name : Str
  item : Item

/-- The name of an item after values were overridden (Evaluator::stringValue of "name",
productscollector.cpp 162, 306): that of the file, unless it was overridden. -/
def nameOf (fileName : Str) (it : Item) : Str :=
  match it.cell nameProperty with
  | some ⟨.str s, true⟩ => s
  | _ => fileName

/-- A loop that stops at the first error. -/
def mapE {α β : Type} (f : α → Except Err β) : List α → Except Err (List β)
  | [] => .ok []
  | a :: l =>
    match f a with
    | .error e => .error e
    | .ok b =>
      match mapE f l with
      | .error e => .error e
      | .ok bs => .ok (b :: bs)

/-- ProductsCollector::Private::handleProject, productscollector.cpp 160-173: the
overrides for a project. Values of a name that is empty are not modelled. -/
def loadProject (md : Mode) (tree : Tree) (p : Project) : Except Err Project := do
  let it ← overrideItem md tree projectKey p.item
  let name := nameOf p.name it
  let it ← overrideItem md tree (projectsPrefix ++ name) it
  pure { p with name := name, item := it }

/-- ProductsCollector::Private::multiplexProductItem and prepareProduct,
productscollector.cpp 262-280 and 306: the overrides for a product, and its name. -/
def loadProduct (md : Mode) (tree : Tree) (p : Product) : Except Err Product := do
  let it ← overrideItem md tree (productsPrefix ++ p.name) p.item
  pure { p with name := nameOf p.name it, item := it }

/-- The overrides for one of a product's modules. -/
def loadModule (md : Mode) (tree : Tree) (product : Str) (m : Str × Item) :
    Except Err (Str × Item) := do
  let it ← overrideModule md tree product m.1 m.2
  pure (m.1, it)

/-- The overrides for a product's modules, once all products have names. -/
def loadModules (md : Mode) (tree : Tree) (p : Product) : Except Err Product := do
  let ms ← mapE (loadModule md tree p.name) p.modules
  pure { p with modules := ms }

/-- QString::startsWith. -/
def startsWith (s pre : Str) : Bool := pre.isPrefixOf s

/-- matchesPrefix in ProjectResolver::Private::checkOverriddenValues,
projectresolver.cpp 420-428. -/
def matchesPrefix (key : Str) : Bool :=
  ["project.".toList, "projects.".toList, "products.".toList, "modules.".toList,
    "moduleProviders.".toList, "qbs.".toList].any (startsWith key)

/-- The lambda `extract` of ProjectResolver::Private::collectNameFromOverride,
projectresolver.cpp 450-458. QString::mid with a negative length gives everything up to
the end, which happens if the last dot is the one of the prefix. -/
def extract (s pre : Str) : Str :=
  if startsWith s pre then
    match Path.lastIndexOf '.' s with
    | none => []
    | some endPos =>
      if endPos < pre.length then s.drop pre.length
      else (s.drop pre.length).take (endPos - pre.length)
  else []

/-- QString::left with the index of the first dot, or everything if there is none,
projectresolver.cpp 466-467. -/
def beforeFirstDot : Str → Str
  | [] => []
  | c :: s => if c = '.' then [] else c :: beforeFirstDot s

/-- The project name that collectNameFromOverride records, projectresolver.cpp 459-463. -/
def projectNameInOverride (key : Str) : Option Str :=
  let n := extract key projectsPrefix
  if n = [] then none else some n

/-- The product name that collectNameFromOverride records, projectresolver.cpp 464-469. -/
def productNameInOverride (key : Str) : Option Str :=
  if projectNameInOverride key ≠ none then none
  else
    let n := extract key productsPrefix
    if n = [] then none else some (beforeFirstDot n)

/-- ProjectResolver::Private::checkOverriddenValues, projectresolver.cpp 418-446. -/
def checkOverriddenValues (md : Mode) : Flat → Except Err Unit
  | [] => .ok ()
  | (k, _) :: l =>
    if matchesPrefix k then checkOverriddenValues md l
    else if md.strict then .error (.keyNotUnderstood k) else checkOverriddenValues md l

/-- ProductsCollector::Private::checkProjectNamesInOverrides, productscollector.cpp
694-708. A disabled project is one of the projects too, see 170. -/
def checkProjectNames (md : Mode) (projects : List Project) : Flat → Except Err Unit
  | [] => .ok ()
  | (k, _) :: l =>
    match projectNameInOverride k with
    | none => checkProjectNames md projects l
    | some n =>
      if projects.any (fun p => decide (p.name = n)) then checkProjectNames md projects l
      else if md.strict then .error (.unknownProject n) else checkProjectNames md projects l

/-- TopLevelProjectContext::productWithNameAndConstraint, loaderutils.cpp 261-271: only
products with exactly this name are asked for the constraint. -/
def productWithNameAndConstraint (products : List Product) (name : Str)
    (constraint : Product → Bool) : Option Product :=
  (products.filter (fun p => decide (p.name = name))).find? constraint

/-- ProductsCollector::Private::checkProductNamesInOverrides, productscollector.cpp
719-736. -/
def checkProductNames (md : Mode) (products : List Product) : Flat → Except Err Unit
  | [] => .ok ()
  | (k, _) :: l =>
    match productNameInOverride k with
    | none => checkProductNames md products l
    | some n =>
      match productWithNameAndConstraint products n
          (fun p => decide (p.name = n) || startsWith p.name (n ++ dot)) with
      | some _ => checkProductNames md products l
      | none => if md.strict then .error (.unknownProduct n) else checkProductNames md products l

/-- What loading a project does with the values from the command line, in the order in
which it does it: checkOverriddenValues, then the projects and their products
(ProductsCollector::run, productscollector.cpp 119-131), then the modules. Simplification: all
projects come before all products; no item depends on the values of another one. -/
def load (md : Mode) (values : Flat) (projects : List Project) (products : List Product) :
    Except Err (List Project × List Product) := do
  checkOverriddenValues md values
  let tree := provideValuesTree values []
  let projects ← mapE (loadProject md tree) projects
  let products ← mapE (loadProduct md tree) products
  checkProjectNames md projects values
  checkProductNames md products values
  let products ← mapE (loadModules md tree) products
  pure (projects, products)

/-! ## The build configuration of SetupProjectParameters -/

/-- QMap::insert for a flat map, in the order of keys. -/
def insertSorted (k : Str) (v : Val) : Flat → Flat
  | [] => [(k, v)]
  | (k', v') :: l =>
    if k' = k then (k, v) :: l
    else if k < k' then (k, v) :: (k', v') :: l
    else (k', v') :: insertSorted k v l

/-- The loop in SetupProjectParameters::finalBuildConfigurationTree (static),
setupprojectparameters.cpp 531-535. -/
def overlay : Flat → Flat → Flat
  | config, [] => config
  | config, (k, v) :: l => overlay (insertSorted k v config) l

/-- SetupProjectParameters::finalBuildConfigurationTree (static),
setupprojectparameters.cpp 528-540. -/
def finalTree (config overridden : Flat) : Tree := provideValuesTree (overlay config overridden) []

def configurationNameKey : Str := "qbs.configurationName".toList

/-- Profiles as the settings have them: the keys and values of each one
(Profile::allKeys with KeySelectionRecursive, and Profile::value), or no such profile.
Errors from inheritance are not modelled here, see Verif/Profile. -/
abbrev Profiles := Str → Option Flat

def fallbackName : Str := "none".toList

/-- The loop over the keys of a profile, setupprojectparameters.cpp 474-478. -/
def insertAll : Flat → Flat → Flat
  | config, [] => config
  | config, (k, v) :: l => insertAll (insertSorted k v config) l

/-- expandedBuildConfigurationInternal, setupprojectparameters.cpp 461-486; `none`: an
error. -/
def expandedConfig (profiles : Profiles) (profile configurationName : Str) : Option Flat :=
  let fromProfile : Option Flat :=
    if profile = fallbackName then some []
    else
      match profiles profile with
      | none => some []
      | some [] => none
      | some kv => some (insertAll [] kv)
  match fromProfile with
  | none => none
  | some c =>
    if configurationName = [] then none
    else some (insertSorted configurationNameKey (.str configurationName) c)

/-- The state of SetupProjectParameters, setupprojectparameters.cpp 85-100. -/
structure Params where
  profile : Str
  configurationName : Str
  overridden : Flat
  overriddenTree : Tree
  config : Flat
  configTree : Tree
  finalTree : Tree
  deriving DecidableEq, Repr

/-- The constructor, setupprojectparameters.cpp 72-97. -/
def Params.init : Params := ⟨[], "default".toList, [], [], [], [], []⟩

/-- The calls that touch this state. -/
inductive Call where
  | setTopLevelProfile (p : Str)
  | setConfigurationName (n : Str)
  | setOverriddenValues (v : Flat)
  /-- expandBuildConfiguration, with the settings at this time. -/
  | expand (profiles : Profiles)
  | readOverriddenTree
  | readConfigTree
  | readFinalTree

/-- SetupProjectParameters::setTopLevelProfile 191-197, setConfigurationName 210-216,
setOverriddenValues 414-419, expandBuildConfiguration 513-526, overriddenValuesTree
437-441, buildConfigurationTree 456-460, finalBuildConfigurationTree 545-552
(setupprojectparameters.cpp). -/
def Params.step (s : Params) : Call → Params
  | .setTopLevelProfile p => { s with configTree := [], finalTree := [], profile := p }
  | .setConfigurationName n => { s with configTree := [], finalTree := [], configurationName := n }
  | .setOverriddenValues v =>
    { s with overridden := v, overriddenTree := [], finalTree := [] }
  | .expand profiles =>
    match expandedConfig profiles s.profile s.configurationName with
    | none => s
    | some c => if s.config = c then s else { s with configTree := [], config := c }
  | .readOverriddenTree =>
    { s with overriddenTree := provideValuesTree s.overridden s.overriddenTree }
  | .readConfigTree => { s with configTree := provideValuesTree s.config s.configTree }
  | .readFinalTree =>
    if s.finalTree = [] then { s with finalTree := Override.finalTree s.config s.overridden } else s

/-- A history of calls. -/
def Params.run (s : Params) : List Call → Params
  | [] => s
  | c :: cs => (s.step c).run cs

/-- What overriddenValuesTree() returns. -/
def Params.overriddenValuesTree (s : Params) : Tree := (s.step .readOverriddenTree).overriddenTree
/-- What buildConfigurationTree() returns. -/
def Params.buildConfigurationTree (s : Params) : Tree := (s.step .readConfigTree).configTree
/-- What finalBuildConfigurationTree() returns. -/
def Params.finalBuildConfigurationTree (s : Params) : Tree := (s.step .readFinalTree).finalTree

end Verif.Override
