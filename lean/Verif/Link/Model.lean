/-!
# The libraries a product is linked against

Model of `collectLibraryDependencies` in `share/qbs/modules/cpp/gcc.js` 104-259 and of the arguments made from its
result (473-523), for targets other than Darwin.  `prevLib` and the whole-archive flags are part of it; other linker
flags are not.

The dependencies are a tree: a product is its artifacts, its external libraries and its dependencies; that a product
which several others depend on occurs in several places is a matter of the specification.  As cycles are refused when
the project is resolved (C66), every project has such a tree.
-/
namespace Verif.Link

abbrev Str := List Char

/-- What `collectLibraryDependencies` uses of a product.  `none` stands for an undefined `artifacts[tag]`.  `dynamic` are
those with the tag for linking against shared libraries (109-110); `external` are `cpp.libraries`, `cpp.staticLibraries`
and `cpp.dynamicLibraries`, one after the other (168-171). -/
structure Prod where
  name : Str
  static : Option (List Str) := none
  object : Option (List Str) := none
  dynamic : Option (List Str) := none
  external : List Str := []
  deriving DecidableEq, Repr

/-- `dep.parameters.cpp`: those of one dependency of one product on another. `link` is false if it is set to that. -/
structure Params where
  link : Bool := true
  whole : Bool := false
  mode : Option Str := none
  deriving DecidableEq, Repr

/-- A dependency: the product, the parameters, and the product's dependencies. -/
inductive Dep where
  | mk (prod : Prod) (params : Params) (deps : List Dep)
  deriving Repr

def Dep.prod : Dep → Prod | .mk p _ _ => p
def Dep.params : Dep → Params | .mk _ q _ => q
def Dep.deps : Dep → List Dep | .mk _ _ l => l
def Dep.name (d : Dep) : Str := d.prod.name

inductive Kind where
  | static | object | dynamic
  deriving DecidableEq, Repr

/-- gcc.js 195-201. -/
def Prod.kind (p : Prod) : Option Kind :=
  if p.static.isSome then some .static
  else if p.object.isSome then some .object
  else if p.dynamic.isSome then some .dynamic
  else none

/-- The files that are linked, gcc.js 220, 229, 232. -/
def Prod.files (p : Prod) : List Str :=
  match p.kind with
  | some .static => p.static.getD []
  | some .object => p.object.getD []
  | some .dynamic => p.dynamic.getD []
  | none => []

/-- An entry of `objects`. -/
structure Obj where
  path : Str
  direct : Bool
  whole : Bool := false
  mode : Option Str := none
  deriving DecidableEq, Repr

/-- `objects`, `publicDeps` and `privateDeps`.  An object of `objectByFilePath` is the one that was added last with the
path.  If duplicates are removed then it is the only one.  Otherwise it is the last one, as an object is only put in
front if there is none with its path. `calls` counts the calls of `traverse` and is not part of the code. -/
structure St where
  objects : List Obj := []
  pub : List Str := []
  priv : List Str := []
  calls : Nat := 0
  deriving DecidableEq, Repr

/-- The settings in use: `cpp.removeDuplicateLibraries` and `cpp.importPrivateLibraries`. -/
structure Cfg where
  dedup : Bool := true
  importPrivate : Bool := true
  deriving DecidableEq, Repr

/-- The properties that every JavaScript object has, so that looking them up in `publicDeps` or `privateDeps` gives
something that is not undefined. -/
def inherited : List Str :=
  ["constructor", "toString", "toLocaleString", "valueOf", "hasOwnProperty", "isPrototypeOf", "propertyIsEnumerable",
   "__proto__", "__defineGetter__", "__defineSetter__", "__lookupGetter__", "__lookupSetter__"].map String.toList

def isIn (n : Str) (l : List Str) : Bool := l.contains n || inherited.contains n

/-- `addObject`, gcc.js 113-127. -/
def addObject (c : Cfg) (o : Obj) (front : Bool) (l : List Obj) : List Obj :=
  let l := if c.dedup then l.filter (fun x => x.path ≠ o.path) else l
  if front then o :: l else l ++ [o]

/-- Changing the last object with the path. -/
def setLast (p : Str) (f : Obj → Obj) : List Obj → List Obj
  | [] => []
  | o :: l => if o.path = p ∧ l.all (fun x => x.path ≠ p) then f o :: l else o :: setLast p f l

def known (p : Str) (l : List Obj) : Bool := l.any (fun x => x.path = p)

/-- `addPublicFilePath`, gcc.js 129-142. -/
def addPublic (c : Cfg) (q : Params) (l : List Obj) (p : Str) : List Obj :=
  if known p l then setLast p (fun o => { o with direct := true, whole := q.whole, mode := q.mode }) l
  else addObject c ⟨p, true, q.whole, q.mode⟩ true l

/-- `addPrivateFilePath`, gcc.js 144-148. -/
def addPrivate (c : Cfg) (l : List Obj) (p : Str) : List Obj :=
  if known p l then l else addObject c ⟨p, false, false, none⟩ true l

/-- `addExternalLibs`, gcc.js 159-173. -/
def addExternal (c : Cfg) (libs : List Str) (l : List Obj) : List Obj :=
  libs.foldl (fun l p => addObject c ⟨p, true, false, none⟩ false l) l

/-- The end of `traverse`, gcc.js 217-235. -/
def leave (c : Cfg) (p : Prod) (q : Params) (below consumed : Bool) (st : St) : St :=
  match p.kind with
  | none => st
  | some .dynamic =>
    if below then { st with objects := p.files.foldl (addPrivate c) st.objects, priv := p.name :: st.priv }
    else { st with objects := p.files.foldl (addPublic c q) st.objects, pub := p.name :: st.pub }
  | some k =>
    if below then st
    else
      let l := if k = .static ∨ consumed = false then p.files.foldl (addPublic c q) st.objects else st.objects
      { st with objects := if c.importPrivate then addExternal c p.external l else l, pub := p.name :: st.pub }

/-- Does `traverse` return at once, gcc.js 189-203? -/
def skips (p : Prod) (q : Params) (below : Bool) (st : St) : Bool :=
  isIn p.name st.pub || !q.link || p.kind.isNone || (below && isIn p.name st.priv)

mutual
/-- `traverse`, gcc.js 188-236. -/
def traverse (c : Cfg) : Dep → Bool → Bool → St → St
  | .mk p q deps, below, consumed, st =>
    if skips p q below { st with calls := st.calls + 1 } then { st with calls := st.calls + 1 }
    else leave c p q below consumed (traverseAll c (some p.name) deps (below || p.kind = some .dynamic)
      (consumed || p.kind ≠ some .object) { st with calls := st.calls + 1 })
/-- The loops over the dependencies, gcc.js 206-215 (with the name of the product) and 242. -/
def traverseAll (c : Cfg) : Option Str → List Dep → Bool → Bool → St → St
  | _, [], _, _, st => st
  | parent, d :: l, below, consumed, st =>
    traverseAll c parent l below consumed
      (if parent = some d.name then st else traverse c d below consumed st)
end

/-- gcc.js 242-243. -/
def collect (c : Cfg) (external : List Str) (deps : List Dep) : List Obj :=
  addExternal c external (traverseAll c none deps false false {}).objects

/-- `FileInfo.path`, for absolute paths. -/
def dirOf (s : Str) : Str := ((s.reverse.dropWhile (· ≠ '/')).drop 1).reverse

/-- `result.libraries`, gcc.js 245-257. -/
def libraries (l : List Obj) : List Obj := l.filter (·.direct)

/-- `result.rpath_link`, gcc.js 255-256. -/
def rpathLink (l : List Obj) : List Str := (l.filter (fun o => !o.direct)).map (fun o => dirOf o.path)

/-- `escapeLinkerFlags` for a flag without commas, gcc.js 261-296, if the compiler is the linker. -/
def escaped (driver : Bool) (flag : Str) : Str := if driver then "-Wl,".toList ++ flag else flag

def wholeOn : Str := "--whole-archive".toList
def wholeOff : Str := "--no-whole-archive".toList

/-- How a library is named, gcc.js 512-518. -/
def libArg (p : Str) : Str :=
  match p with
  | '/' :: _ => p
  | '@' :: _ => p
  | _ => '-' :: 'l' :: p

/-- The loop over the libraries, gcc.js 473-523. -/
def libArgs (driver : Bool) : Bool → Option Str → List Obj → List Str
  | active, _, [] => if active then [escaped driver wholeOff] else []
  | active, prev, o :: l =>
    if prev = some o.path then libArgs driver active prev l
    else (if o.whole && !active then [escaped driver wholeOn] else if !o.whole && active then [escaped driver wholeOff] else [])
      ++ libArg o.path :: libArgs driver o.whole (some o.path) l

end Verif.Link
