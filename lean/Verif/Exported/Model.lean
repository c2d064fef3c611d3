/-
What a product exports, as seen by the rules that create module files for others
(`product.exports` in scripts).

Sources modelled:
  src/lib/corelib/loader/productresolver.cpp 424-462 (the parameters of the shadow product's
    dependency), 1482-1512 (modules in an Export item), 1514-1579 (mapping of prefixes),
    1581-1612 (dependencies on products)
  src/lib/corelib/loader/productscollector.cpp 375-394 (the shadow product)

Simplifications: nested maps of values are flattened, so that a value is a string, a list of strings
or something else; characters are compared by their code and made small as in ASCII; evaluation of
the properties is left out.
-/
namespace Verif.Exported

abbrev Str := List Char

/-! The mapping of prefixes. -/

/-- The order of the keys of a QMap. -/
def strLt : Str → Str → Bool
  | _, [] => false
  | [], _ :: _ => true
  | a :: s, b :: t => a.toNat < b.toNat || (a == b && strLt s t)

/-- QMap::insert. -/
def mapInsert (k v : Str) : List (Str × Str) → List (Str × Str)
  | [] => [(k, v)]
  | (k', v') :: m =>
    if k' = k then (k, v) :: m
    else if strLt k k' then (k, v) :: (k', v') :: m
    else (k', v') :: mapInsert k v m

/-- The map of prefixes (productresolver.cpp 1524-1529). -/
def prefixMap (l : List (Str × Str)) : List (Str × Str) :=
  l.foldl (fun m e => mapInsert e.1 e.2 m) []

/-- `stringMapper` (productresolver.cpp 1535-1542). -/
def stringMapper : List (Str × Str) → Str → Str
  | [], v => v
  | (k, r) :: m, v => if k.isPrefixOf v then r ++ v.drop k.length else stringMapper m v

/-- QString::contains. -/
def contains (v s : Str) : Bool :=
  match v with
  | [] => s.isEmpty
  | _ :: v' => s.isPrefixOf v || contains v' s

/-- The shadow product: its name and its build directory. -/
structure Shadow where
  name : Str
  buildDir : Str
  deriving DecidableEq, Repr

/-- `valueRefersToImportingProduct` (productresolver.cpp 1530-1534). -/
def refers (sh : Shadow) (v : Str) : Bool :=
  contains (v.map Char.toLower) (sh.name.map Char.toLower) || contains v sh.buildDir

/-- `stringListMapper` (productresolver.cpp 1543-1552). -/
def listMapper (sh : Shadow) (m : List (Str × Str)) : List Str → List Str
  | [] => []
  | v :: l => if refers sh v then listMapper sh m l else stringMapper m v :: listMapper sh m l

/-- The values of properties.  `list` is a list whose elements are not declared to be strings. -/
inductive Val where
  | str (s : Str) | strs (l : List Str) | list (l : List Str) | other (n : Nat)
  deriving DecidableEq, Repr

/-- `mapper` (productresolver.cpp 1553-1569). -/
def mapper (sh : Shadow) (m : List (Str × Str)) : Val → Val
  | .str s => .str (stringMapper m s)
  | .strs l => .strs (listMapper sh m l)
  | v => v

/-- `adaptExportedPropertyValues` (productresolver.cpp 1514-1579) for the properties of one module. -/
def adapt (sh : Shadow) (mappings : List (Str × Str)) (props : List (Str × Val)) : List (Str × Val) :=
  props.map (fun p => (p.1, mapper sh (prefixMap mappings) p.2))

/-! Dependencies on products. -/

abbrev Params := List (Str × Str)

/-- A dependency in the Export item: the unique name of the product and the parameters that are given
for it there. -/
structure PDep where
  product : Str
  given : Params
  deriving DecidableEq, Repr

/-- The Export item of a product: the default parameters, from its Parameters item, and the
dependencies on products. -/
structure Export where
  defaults : Params
  deps : List PDep
  deriving DecidableEq, Repr

/-- The parameters of the module for the product in the shadow product (productresolver.cpp 424-462):
the Depends item of the shadow product gives none (productscollector.cpp 386-394), so these are the
default parameters. -/
def shadowParams (e : Export) : Params := e.defaults

def insertUnique (s : Str) : List Str → List Str
  | [] => [s]
  | t :: l => if strLt s t then s :: t :: l else t :: insertUnique s l

/-- `std::sort` on strings without duplicates. -/
def sortStrs (l : List Str) : List Str := l.foldr insertUnique []

/-- `collectExportedProductDependencies` (productresolver.cpp 1581-1612): the names. -/
def depNames (e : Export) : List Str :=
  sortStrs (e.deps.foldl (fun acc d => if d.product ∈ acc then acc else acc ++ [d.product]) [])

/-- The parameters, by product. -/
def paramInsert (k : Str) (v : Params) : List (Str × Params) → List (Str × Params)
  | [] => [(k, v)]
  | (k', v') :: m => if k' = k then (k, v) :: m else (k', v') :: paramInsert k v m

/-- `collectExportedProductDependencies` (productresolver.cpp 1581-1612): the parameters. -/
def depParams (e : Export) : List (Str × Params) :=
  e.deps.foldl (fun m d => if shadowParams e = [] then m else paramInsert d.product (shadowParams e) m) []

/-! Dependencies on modules. -/

/-- A module: its name, whether it was found, whether it stands for a product, whether there is no
Module item for it, and the modules it depends on. -/
structure Mod where
  name : List Str
  present : Bool
  product : Bool
  broken : Bool
  subs : List Nat
  deriving DecidableEq, Repr

def sQbs : Str := ['q','b','s']

/-- `collectPropertiesForModuleInExportItem` (productresolver.cpp 1482-1512); the names of the modules.
The number bounds the depth. -/
def collectMod (ms : List Mod) : Nat → List (List Str) → Nat → List (List Str)
  | 0, acc, _ => acc
  | f + 1, acc, i =>
    match ms[i]? with
    | none => acc
    | some m =>
      if m.present = false then acc
      else if m.product = true ∨ m.name.head? = some sQbs then acc
      else if m.name ∈ acc then acc
      else if m.broken = true then acc
      else m.subs.foldl (collectMod ms f) (acc ++ [m.name])

/-- `resolveShadowProduct` (productresolver.cpp 1357-1374): the modules of an Export item. -/
def moduleDeps (ms : List Mod) (direct : List Nat) : List (List Str) :=
  direct.foldl (collectMod ms (ms.length + 1)) []

end Verif.Exported
