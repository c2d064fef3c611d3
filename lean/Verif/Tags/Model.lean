/-!
# Groups, file taggers and the source files of a product

Model of how a product gets its source files, their file tags and their module properties:
`src/lib/corelib/loader/productresolver.cpp` 600-930, 947-992, 1213-1325,
`src/lib/corelib/loader/loaderutils.cpp` 758-782, 816-820,
`src/lib/corelib/language/language.cpp` 329-359,
`src/lib/corelib/buildgraph/buildgraph.cpp` 725-745.

Left out: names of groups, rules, scanners, job limits, exports, and errors thrown while a property
is evaluated.  Property evaluation, wildcard expansion, path handling and the file system are given
by `Env`.
-/
namespace Verif.Tags

/-- A file tagger (language.h, `FileTagger`; language.cpp 97-110). -/
structure Tagger where
  patterns : List String
  tags : List String
  priority : Int
  deriving DecidableEq, Repr

/-- A `FileTagger` item, as evaluated by loaderutils.cpp 758-782. -/
structure TaggerItem where
  cond : Bool
  patterns : List String
  tags : List String
  priority : Int
  deriving DecidableEq, Repr

/-- The evaluated properties of a `Group` item (productresolver.cpp 736-745, 776-783, 795-850).
`id` stands for the item itself.  `filesLine`: whether the location of the value of `files` has a
positive line number.  `filesLoc`: whether that location is a valid one.  `atProduct`: whether the
item's location is the product item's.  `target` is the name of the module the files are targets
of, if any. -/
structure GData where
  id : Nat
  file : String
  dir : String
  cond : Bool
  files : List String
  filesLine : Bool
  filesLoc : Bool
  atProduct : Bool
  excludes : List String
  tags : List String
  tagsSet : Bool
  filter : List String
  pre : Option String
  overrideTags : Bool
  target : String
  deriving DecidableEq, Repr

/-- The child items that matter here (productresolver.cpp 658-684, 875-897). -/
inductive GItem where
  | group (d : GData) (children : List GItem)
  | tagger (t : TaggerItem)

/-- A source artifact (language.h, `SourceArtifactInternal`); `props` points to a property map. -/
structure Art where
  path : String
  tags : List String
  overrideTags : Bool
  props : Nat
  target : String
  wildcard : Bool
  deriving DecidableEq, Repr

/-- A resolved group (language.h, `ResolvedGroup`). -/
structure Group where
  id : Nat
  enabled : Bool
  tags : List String
  overrideTags : Bool
  props : Nat
  pre : String
  target : String
  files : Option (List Art)
  deriving DecidableEq, Repr

/-- What is kept for a value of `fileTagsFilter` (artifactproperties.h, productresolver.h,
`ArtifactPropertiesInfo`); `key` is the list as written, `locs` are the files of the groups. -/
structure AProps where
  key : List String
  extra : List String
  props : Option Nat
  locs : List String
  deriving DecidableEq, Repr

/-- What can be wrong with a file of a group (productresolver.cpp 906-926). -/
inductive FileErr where
  | missing (path : String)
  | duplicate (path : String)
  deriving DecidableEq, Repr

/-- The errors. -/
inductive Err where
  | exclusive
  | conflict
  | files (l : List FileErr)
  | tagger
  | internal
  deriving DecidableEq, Repr

/-- The outside world and everything that is not modelled.  `additional` is the evaluation in
steps 2 and 3 of productresolver.cpp 965-991; `sets` says whether the group assigns module
properties; `sort` is `std::sort` by descending priority. -/
structure Env (P : Type) where
  strict : Bool
  isFile : String → Bool
  resolve : String → String → String
  fileName : String → String
  isPattern : String → Bool
  expand : String → String → List String → List String → List String
  matches_ : String → String → Bool
  sort : List Tagger → List Tagger
  empty : P
  sets : Nat → Bool
  eval : Nat → Bool → P → P
  install : P → Bool

/-- The state of the product being resolved (productresolver.cpp, `ProductResolverStage2`).
`heap` are the property maps; the product's own is number 0. -/
structure State (P : Type) where
  heap : List P
  taggers : List Tagger := []
  groups : List Group := []
  locs : List ((String × String) × Bool) := []
  missing : List String := []
  aprops : List AProps := []
  filters : List (List String × List String × Nat) := []
  printed : List Err := []

variable {P : Type}

/-- loaderutils.cpp 816-820. -/
def unknownTag : String := "unknown-file-tag"

/-- `FileTags::unite` (set.h); only membership matters. -/
def unite (a b : List String) : List String := a ++ b.filter (fun t => !a.contains t)

/-- `FileTags::intersects` (set.h). -/
def intersects (a b : List String) : Bool := a.any (fun t => b.contains t)

/-- The value of a property map. -/
def State.map (e : Env P) (st : State P) (r : Nat) : P := (st.heap[r]?).getD e.empty

/-- productresolver.cpp 947-992: nothing at all, if the group itself sets no module property. -/
def additional (e : Env P) (g : Nat) (cur : P) (parents : Bool) : P :=
  if e.sets g then e.eval g parents cur else e.empty

/-- productresolver.cpp 742-760, `getGroupPropertyMap`: the property map for a group.  An existing
map is changed in place. -/
def getGroupPropertyMap [DecidableEq P] (e : Env P) (cur : Option Group) (id : Nat)
    (existing : Option Nat) (st : State P) : State P × Nat :=
  match existing with
  | some r =>
    let new := additional e id (st.map e r) false
    if new = e.empty then (st, r) else ({ st with heap := st.heap.set r new }, r)
  | none =>
    let r := match cur with
      | some g => g.props
      | none => 0
    let new := additional e id (st.map e r) false
    if new = e.empty then (st, r)
    else ({ st with heap := st.heap ++ [new] }, st.heap.length)

/-- productresolver.cpp 774-804: a group with `fileTagsFilter`. -/
def resolveFilter [DecidableEq P] (e : Env P) (en : Bool) (cur : Option Group) (d : GData)
    (st : State P) : State P × Option Err :=
  if d.files ≠ [] then (st, some .exclusive)
  else if en = false then (st, none)
  else
    match st.aprops.find? (fun a => a.key == d.filter) with
    | some a =>
      if a.locs.contains d.file then (st, some .conflict)
      else
        let (st, r) := getGroupPropertyMap e cur d.id a.props st
        ({ st with
            aprops := st.aprops.map (fun b => if b.key == d.filter then
              { b with locs := b.locs ++ [d.file], props := some r, extra := unite b.extra d.tags }
              else b)
            filters := st.filters ++ [(d.filter, d.tags, d.id)] }, none)
    | none =>
      let (st, r) := getGroupPropertyMap e cur d.id none st
      ({ st with
          aprops := st.aprops ++ [⟨d.filter, unite [] d.tags, some r, [d.file]⟩]
          filters := st.filters ++ [(d.filter, d.tags, d.id)] }, none)

/-- productresolver.cpp 812-822: the file tags of a group's files. -/
def groupTags (cur : Option Group) (d : GData) : List String :=
  if d.overrideTags && d.tagsSet then
    if d.tags = [] then [unknownTag] else d.tags
  else
    match cur with
    | some g => unite d.tags g.tags
    | none => d.tags

/-- productresolver.cpp 800-808: the prefix. -/
def groupPrefix (cur : Option Group) (d : GData) : String :=
  match d.pre, cur with
  | some p, _ => p
  | none, some g => g.pre
  | none, none => ""

/-- productresolver.cpp 795-829: the group before its files are added. -/
def newGroup [DecidableEq P] (e : Env P) (en : Bool) (cur : Option Group) (d : GData)
    (st : State P) : State P × Group :=
  let (st, r) := getGroupPropertyMap e cur d.id none st
  (st, { id := d.id, enabled := en, tags := groupTags cur d, overrideTags := d.overrideTags,
         props := r, pre := groupPrefix cur d, target := d.target,
         files := if d.filesLine || d.atProduct then some [] else none })

/-- The map from target and file to the first location: an invalid location counts as none
(productresolver.cpp 911-922). -/
def located (st : State P) (k : String × String) : Bool :=
  ((st.locs.find? (fun p => p.1 == k)).map (·.2)).getD false

/-- productresolver.cpp 900-930, `createSourceArtifact`. -/
def createSource (e : Env P) (d : GData) (st : State P) (g : Group) (name : String)
    (wild : Bool) : State P × Group × Option FileErr × Option Err :=
  let path := e.resolve d.dir name
  if !wild && !e.isFile path then
    ({ st with missing := st.missing ++ [path] }, g, some (.missing path), none)
  else if g.enabled && located st (g.target, path) then
    (st, g, some (.duplicate path), none)
  else
    let st := if g.enabled then { st with locs := ((g.target, path), d.filesLoc) :: st.locs } else st
    match g.files with
    | none => (st, g, none, some .internal)
    | some l =>
      (st, { g with files := some (l ++ [⟨path, g.tags, g.overrideTags, g.props, g.target, wild⟩]) },
        none, none)

/-- productresolver.cpp 832-848: all files of a list; stops at an internal error. -/
def createSources (e : Env P) (d : GData) (wild : Bool) : List String → State P → Group →
    List FileErr → State P × Group × List FileErr × Option Err
  | [], st, g, errs => (st, g, errs, none)
  | n :: ns, st, g, errs =>
    match createSource e d st g n wild with
    | (st, g, _, some x) => (st, g, errs, some x)
    | (st, g, some fe, none) => createSources e d wild ns st g (errs ++ [fe])
    | (st, g, none, none) => createSources e d wild ns st g errs

/-- productresolver.cpp 790-794: the entries of `files` that are patterns, last one first. -/
def patternsOf (e : Env P) (d : GData) : List String := (d.files.filter e.isPattern).reverse

/-- productresolver.cpp 790-794, 804-807: the other entries, with the prefix. -/
def plainOf (e : Env P) (pre : String) (d : GData) : List String :=
  (d.files.filter (fun f => !e.isPattern f)).map (fun f => pre ++ f)

/-- productresolver.cpp 832-843, the wildcards. -/
def expandedOf (e : Env P) (pre : String) (d : GData) : List String :=
  if patternsOf e d = [] then [] else e.expand d.dir pre (patternsOf e d) d.excludes

/-- productresolver.cpp 795-861: a group with files; ends with the group being stored. -/
def resolveFiles [DecidableEq P] (e : Env P) (en : Bool) (cur : Option Group) (d : GData)
    (st : State P) : State P × Option Group × Option Err :=
  let (st, g) := newGroup e en cur d st
  match createSources e d true (expandedOf e g.pre d) st g [] with
  | (st, _, _, some x) => (st, none, some x)
  | (st, g, errs, none) =>
    match createSources e d false (plainOf e g.pre d) st g errs with
    | (st, _, _, some x) => (st, none, some x)
    | (st, g, errs, none) =>
      if errs ≠ [] && g.enabled && e.strict then (st, none, some (.files errs))
      else
        let st := if errs ≠ [] && g.enabled then { st with printed := st.printed ++ [.files errs] }
          else st
        ({ st with groups := st.groups ++ [g] }, some g, none)

/-- loaderutils.cpp 758-782, `resolveFileTagger`. -/
def resolveTagger (t : TaggerItem) (st : State P) : State P × Option Err :=
  if !t.cond then (st, none)
  else if t.patterns = [] || t.tags = [] || t.patterns.contains "" then (st, some .tagger)
  else ({ st with taggers := st.taggers ++ [⟨t.patterns, t.tags, t.priority⟩] }, none)

mutual

/-- productresolver.cpp 709-730, 732-897: a group and its children; errors of a disabled group
count for nothing, and those of an enabled one are only printed in relaxed mode. -/
def resolveItem [DecidableEq P] (e : Env P) (pe : Bool) (cur : Option Group) (runTaggers : Bool) :
    GItem → State P → State P × Option Err
  | .tagger t, st => if runTaggers then resolveTagger t st else (st, none)
  | .group d cs, st =>
    let en := (match cur with
      | some g => g.enabled
      | none => pe) && d.cond
    let (st, err) :=
      if d.filter ≠ [] then resolveFilter e en cur d st
      else
        match resolveFiles e en cur d st with
        | (st, some g, _) => resolveItems e pe (some g) en cs st
        | (st, none, err) => (st, err)
    match err with
    | none => (st, none)
    | some x =>
      if en = false then (st, none)
      else if e.strict then (st, some x)
      else ({ st with printed := st.printed ++ [x] }, none)

/-- The child items one after the other, up to the first error. -/
def resolveItems [DecidableEq P] (e : Env P) (pe : Bool) (cur : Option Group) (runTaggers : Bool) :
    List GItem → State P → State P × Option Err
  | [], st => (st, none)
  | i :: is, st =>
    match resolveItem e pe cur runTaggers i st with
    | (st, some x) => (st, some x)
    | (st, none) => resolveItems e pe cur runTaggers is st

end

/-- language.cpp 337-359, `fileTagsForFileName`: the loop, with the priority found so far. -/
def tagsLoop (e : Env P) (name : String) : List Tagger → Option Int → List String → List String
  | [], _, acc => acc
  | t :: ts, prio, acc =>
    if t.patterns.any (fun p => e.matches_ p name) then
      match prio with
      | some q => if q ≠ t.priority then acc else tagsLoop e name ts (some q) (unite acc t.tags)
      | none => tagsLoop e name ts (some t.priority) (unite acc t.tags)
    else tagsLoop e name ts prio acc

/-- language.cpp 337-359. -/
def tagsForFileName (e : Env P) (ts : List Tagger) (name : String) : List String :=
  tagsLoop e name ts none []

/-- productresolver.cpp 1284-1302, for one source artifact. -/
def applyTaggersTo (e : Env P) (ts : List Tagger) (a : Art) : Art :=
  if !a.overrideTags || a.tags.isEmpty then
    let tags := unite a.tags (tagsForFileName e ts (e.fileName a.path))
    { a with tags := if tags.isEmpty then [unknownTag] else tags }
  else a

/-- Change the source artifacts of the enabled groups (language.cpp 329-335,
`allEnabledFiles`). -/
def onEnabled (f : Art → Art) (gs : List Group) : List Group :=
  gs.map fun g => if g.enabled then { g with files := g.files.map (·.map f) } else g

/-- productresolver.cpp 1284-1302, `applyFileTaggers`. -/
def applyFileTaggers (e : Env P) (projectTaggers : List Tagger) (st : State P) : State P :=
  let ts := e.sort (st.taggers ++ projectTaggers)
  { st with taggers := ts, groups := onEnabled (applyTaggersTo e ts) st.groups }

/-- productresolver.cpp 1308-1317: the groups with a matching `fileTagsFilter`, one after the
other. -/
def applyFilters (e : Env P) : List (List String × List String × Nat) → P → List String →
    P × List String
  | [], p, tags => (p, tags)
  | (filter, extra, id) :: fs, p, tags =>
    if intersects tags filter then applyFilters e fs (additional e id p true) (unite tags extra)
    else applyFilters e fs p tags

/-- productresolver.cpp 1304-1324 for one source artifact, given the value of its property map:
the new value and the new tags. -/
def finalize (e : Env P) (fs : List (List String × List String × Nat)) (p : P) (a : Art) :
    P × List String :=
  let (p, tags) := if a.target = "" then applyFilters e fs p a.tags else (p, a.tags)
  (p, if e.install p then unite tags ["installable"] else tags)

/-- A source file as the rest of the program sees it. -/
structure Source (P : Type) where
  path : String
  tags : List String
  target : String
  wildcard : Bool
  props : P
  deriving DecidableEq

/-- productresolver.cpp 1304-1325, `finalizeArtifactProperties`: the resulting source files of the
product.  New property maps are fresh objects, so that only their values matter. -/
def finalSources (e : Env P) (st : State P) : List (Source P) :=
  (st.groups.filter (·.enabled)).flatMap fun g =>
    (g.files.getD []).map fun a =>
      let r := finalize e st.filters (st.map e a.props) a
      ⟨a.path, r.2, a.target, a.wildcard, r.1⟩

/-- A product: its own `files` as a group (productresolver.cpp 637-656), its child items, and the
child items of its modules that are present (productresolver.cpp 1213-1279). -/
structure Product (P : Type) where
  enabled : Bool
  props : P
  own : Option GData
  children : List GItem
  modules : List (List GItem)
  projectTaggers : List Tagger

/-- The items of a product in the order in which they are looked at. -/
def Product.items (p : Product P) : List GItem :=
  (match p.own with
    | some d => [.group d []]
    | none => []) ++ p.children

/-- productresolver.cpp 1213-1217: the modules, up to the first error. -/
def resolveModules [DecidableEq P] (e : Env P) (pe : Bool) : List (List GItem) → State P →
    State P × Option Err
  | [], st => (st, none)
  | m :: ms, st =>
    match resolveItems e pe none true m st with
    | (st, some x) => (st, some x)
    | (st, none) => resolveModules e pe ms st

/-- productresolver.cpp 600-698, `resolveProductFully`, before the file taggers. -/
def collect [DecidableEq P] (e : Env P) (p : Product P) : State P × Option Err :=
  match resolveItems e p.enabled none true p.items { heap := [p.props] } with
  | (st, some x) => (st, some x)
  | (st, none) => resolveModules e p.enabled p.modules st

/-- productresolver.cpp 600-698: the resolved product; an error is the outcome for the whole
product. -/
def resolveProduct [DecidableEq P] (e : Env P) (p : Product P) :
    Except Err (State P × List (Source P)) :=
  match collect e p with
  | (_, some x) => .error x
  | (st, none) =>
    let st := applyFileTaggers e p.projectTaggers st
    .ok (st, finalSources e st)

/-- buildgraph.cpp 725-742, `provideFullFileTagsAndProperties`: the properties and file tags of a
generated artifact, given the tags its rule set. -/
def generated (e : Env P) (st : State P) (pure : List String) (name : String) :
    P × List String :=
  let all := if pure.isEmpty then tagsForFileName e st.taggers name else pure
  let r := match st.aprops.find? (fun a => intersects all a.key) with
    | some a => (st.map e (a.props.getD 0), unite all a.extra)
    | none => (st.map e 0, all)
  (r.1, if e.install r.1 then unite r.2 ["installable"] else r.2)

end Verif.Tags
