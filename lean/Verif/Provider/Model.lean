/-!
# Module providers

Model of how module providers are chosen, configured, run and remembered:
`src/lib/corelib/loader/moduleproviderloader.cpp` 64-424,
`src/lib/corelib/loader/loaderutils.cpp` 349-370,
`src/lib/corelib/language/moduleproviderinfo.h` 55-115,
`src/lib/corelib/language/language.cpp` 596-600, 626-630, 685-703,
`src/lib/corelib/buildgraph/buildgraphloader.cpp` 364-365.

A provider's script is a function of what it is given: `World.eager` and `World.eval`; the latter
covers its probes, its condition (false: no search paths), the check of its properties and
`relativeSearchPaths`, and is `none` if any of these fails.  Product threads run interleaved; a
provider is looked up and run under a lock (moduleproviderloader.cpp 158), so that this is one step.
-/
namespace Verif.Provider

/-- A qualified name such as `Qt.core` (qualifiedid.h). -/
abbrev Name := List String

/-- A `QVariantMap`: sorted by key. -/
abbrev Map (V : Type) := List (String × V)

/-- moduleproviderloader.h, `ModuleProviderLookup`. -/
inductive Lookup where
  | scoped
  | named
  deriving DecidableEq, Repr

/-- moduleproviderinfo.h 97-103, `ModuleProvidersCacheKey`; `module` is `none` instead of the empty
string. -/
structure Key (V : Type) where
  name : Name
  module : Option Name
  config : Map V
  qbs : Map V
  lookup : Lookup
  deriving DecidableEq

/-- moduleproviderinfo.h 55-95, `ModuleProviderInfo`; `file` is `none` instead of an empty
string. -/
structure Info (V : Type) where
  name : Name
  config : Map V
  file : Option String
  paths : List String
  transient : Bool
  deriving DecidableEq

/-- What matters of a product.  `providers`: the value of `qbsModuleProviders` in the product and the
projects around it; `own`: what the product sets for `moduleProviders`; `build`: the values from the
profile and the command line; `qbs`: moduleproviderloader.cpp 288-316. -/
structure Prod (V : Type) where
  providers : List (Option (List Name))
  own : List (Name × Map V)
  build : List (Name × Map V)
  qbs : Map V
  searchPaths : List String

/-- The outside world. -/
structure World (V : Type) where
  fileExists : String → Bool
  eager : String → Map V → Map V → Bool
  eval : String → Name → Option Name → Map V → Map V → Option (List String)
  hash : Map V → Map V → String
  buildDir : String

variable {V : Type}

/-- `QMap::insert`. -/
def insertKV (k : String) (v : V) : Map V → Map V
  | [] => [(k, v)]
  | (k', v') :: m =>
    if k = k' then (k, v) :: m
    else if k < k' then (k, v) :: (k', v') :: m
    else (k', v') :: insertKV k v m

/-- `QMap::value`. -/
def lookupKV (k : String) (m : Map V) : Option V := (m.find? (·.1 == k)).map (·.2)

/-- The map for a name, empty if there is none. -/
def mapFor (n : Name) (l : List (Name × Map V)) : Map V :=
  ((l.find? (·.1 == n)).map (·.2)).getD []

/-- moduleproviderloader.cpp 190-246, `setupModuleProviderConfig`, and 157: the configuration of one
provider.  Values of the build configuration replace those of the product. -/
def configOf (p : Prod V) (n : Name) : Map V :=
  (mapFor n p.build).foldl (fun m kv => insertKV kv.1 kv.2 m) (mapFor n p.own)

/-- moduleproviderloader.cpp 248-260, `getModuleProviders`: the product's value, otherwise that of
the closest project that has one. -/
def getModuleProviders (p : Prod V) : Option (List Name) := p.providers.findSome? id

/-- All non-empty beginnings of a name, the longest first (moduleproviderloader.cpp 92-95). -/
def scopes (n : Name) : List Name :=
  ((List.range n.length).map fun i => n.take (i + 1)).reverse

/-- moduleproviderloader.cpp 83-97. -/
def providersToRun (p : Prod V) (m : Name) : List (Name × Lookup) :=
  match getModuleProviders p with
  | some ns => ns.map (·, .named)
  | none => (scopes m).map (·, .scoped)

/-- `FileInfo::resolvePath` for a relative path without dots. -/
def join (a b : String) : String := a ++ "/" ++ b

/-- moduleproviderloader.cpp 262-288, `findModuleProviderFile`, in one search path. -/
def candidate (w : World V) (n : Name) (l : Lookup) (path : String) : Option String :=
  let base := join path "module-providers"
  let one := join base (".".intercalate n ++ ".qbs")
  let two := join (n.foldl join base) "provider.qbs"
  if l = .named ∧ w.fileExists one = true then some one
  else if w.fileExists two then some two
  else none

/-- moduleproviderloader.cpp 262-288. -/
def findFile (w : World V) (paths : List String) (n : Name) (l : Lookup) : Option String :=
  paths.findSome? (candidate w n l)

/-- moduleproviderinfo.h 66-75, `outputDirPath`. -/
def outputDir (w : World V) (n : Name) : String :=
  w.buildDir ++ "/genmodules/" ++ ".".intercalate n

/-- moduleproviderloader.cpp 341-424, `evaluateModuleProvider`: the search paths and whether the
provider is an eager one. -/
def evaluate (w : World V) (m n : Name) (file : String) (c q : Map V) :
    Option (List String × Bool) :=
  let eager := w.eager file c q
  let base := outputDir w n ++ "/" ++ w.hash c q
  match w.eval file n (if eager then none else some m) c q with
  | none => none
  | some rel => some (rel.map fun r => base ++ "/" ++ r, eager)

/-- loaderutils.cpp 354-370, the cache of the whole project. -/
abbrev Cache (V : Type) := List (Key V × Info V)

/-- loaderutils.cpp 359-364. -/
def lookupKey [DecidableEq V] (k : Key V) (c : Cache V) : Option (Info V) :=
  (c.find? (·.1 == k)).map (·.2)

/-- loaderutils.cpp 366-370. -/
def addKey [DecidableEq V] (k : Key V) (i : Info V) (c : Cache V) : Cache V :=
  (k, i) :: c.filter (·.1 != k)

/-- What comes out of `findOrCreateProviderInfo`: the new cache, the key under which a provider has
just been run, and the information, or `none` after an error. -/
structure Found (V : Type) where
  cache : Cache V
  ran : Option (Key V)
  info : Option (Info V)

/-- moduleproviderloader.cpp 149-188, `findOrCreateProviderInfo`. -/
def findOrCreate [DecidableEq V] (w : World V) (dry : Bool) (p : Prod V) (m : Name)
    (n : Name) (l : Lookup) (c : Cache V) : Found V :=
  let config := configOf p n
  let k : Key V := ⟨n, none, config, p.qbs, l⟩
  match lookupKey k c with
  | some i => ⟨c, none, some i⟩
  | none =>
    match lookupKey { k with module := some m } c with
    | some i => ⟨c, none, some i⟩
    | none =>
      match findFile w p.searchPaths n l with
      | none =>
        let i : Info V := ⟨n, config, none, [], false⟩
        ⟨addKey { k with module := some m } i c, none, some i⟩
      | some f =>
        match evaluate w m n f config p.qbs with
        | none => ⟨c, none, none⟩
        | some (paths, eager) =>
          let i : Info V := ⟨n, config, some f, paths, dry⟩
          let k := { k with module := if eager then none else some m }
          ⟨addKey k i c, some k, some i⟩

/-- A product looks for a module that is in none of its search paths (moduleloader.cpp 168-175). -/
structure Request (V : Type) where
  prod : Prod V
  module : Name

/-- What a request ends with: whether a provider was found and the search paths, or an error of the
product. -/
inductive Outcome where
  | ok (found : Bool) (paths : List String)
  | unknown (provider : Name)
  | failed (provider : Name)
  deriving DecidableEq, Repr

/-- A thread: requests to come, the current one with the remaining providers and what has been
collected (moduleproviderloader.cpp 111-147), and the outcomes. -/
structure Thread (V : Type) where
  todo : List (Request V)
  cur : Option (Request V × List (Name × Lookup) × Bool × List String) := none
  done : List (Request V × Outcome) := []

/-- All threads.  `runs` are the keys under which a provider was run. -/
structure State (V : Type) where
  cache : Cache V
  runs : List (Key V) := []
  threads : List (Thread V)

/-- The next step of one thread (moduleproviderloader.cpp 76-147): the new cache, what was run, and
the thread. -/
def Thread.next [DecidableEq V] (w : World V) (dry : Bool) (c : Cache V) (t : Thread V) :
    Cache V × Option (Key V) × Thread V :=
  match t.cur with
  | none =>
    match t.todo with
    | [] => (c, none, t)
    | r :: rs =>
      (c, none, { t with todo := rs, cur := some (r, providersToRun r.prod r.module, false, []) })
  | some (r, [], found, paths) =>
    (c, none, { t with cur := none, done := t.done ++ [(r, .ok found paths)] })
  | some (r, (n, l) :: rest, found, paths) =>
    let x := findOrCreate w dry r.prod r.module n l c
    match x.info with
    | none => (x.cache, x.ran, { t with cur := none, done := t.done ++ [(r, .failed n)] })
    | some i =>
      match i.file with
      | none =>
        match l with
        | .named =>
          (x.cache, x.ran, { t with cur := none, done := t.done ++ [(r, .unknown n)] })
        | .scoped => (x.cache, x.ran, { t with cur := some (r, rest, found, paths) })
      | some _ => (x.cache, x.ran, { t with cur := some (r, rest, true, paths ++ i.paths) })

/-- A step of the `i`-th thread. -/
def State.step [DecidableEq V] (w : World V) (dry : Bool) (s : State V) (i : Nat) : State V :=
  match s.threads[i]? with
  | none => s
  | some t =>
    let (c, ran, t) := t.next w dry s.cache
    { cache := c, runs := s.runs ++ ran.toList, threads := s.threads.set i t }

/-- The steps in the order given by the schedule. -/
def State.exec [DecidableEq V] (w : World V) (dry : Bool) (s : State V) (sched : List Nat) :
    State V := sched.foldl (State.step w dry) s

/-! ## Sessions -/

/-- What remains between sessions: the cache in the stored build graph, and the directories made by
providers, as name and hash. -/
structure Disk (V : Type) where
  stored : Cache V
  dirs : List (Name × String)

/-- The directory a provider has written to (moduleproviderloader.cpp 353-361). -/
def dirOf (w : World V) (k : Key V) : Name × String := (k.name, w.hash k.config k.qbs)

/-- language.cpp 685-703, `cleanupModuleProviderOutput`: for each transient entry, the directory of
all results of the provider is removed. -/
def cleanup (c : Cache V) (dirs : List (Name × String)) : List (Name × String) :=
  dirs.filter fun d => !(c.any fun e => e.2.transient && e.1.name == d.1)

/-- A session: the stored cache is used unless `force` (buildgraphloader.cpp 364-365); the flag
`transientOutput` is not stored (moduleproviderinfo.h 78-82); the build graph is stored unless this
is a dry run, and the flags are reset then (language.cpp 626-630, 655); at the end, the project is
destroyed (language.cpp 596-600). -/
def session [DecidableEq V] (w : World V) (dry force : Bool) (threads : List (Thread V))
    (sched : List Nat) (d : Disk V) : Disk V × State V :=
  let c := if force then [] else d.stored.map fun e => (e.1, { e.2 with transient := false })
  let s := State.exec w dry { cache := c, threads := threads } sched
  let dirs := d.dirs ++ (s.runs.map (dirOf w)).filter (fun x => !d.dirs.contains x)
  if dry then ({ d with dirs := cleanup s.cache dirs }, s)
  else
    let kept := s.cache.map fun e => (e.1, { e.2 with transient := false })
    ({ stored := kept, dirs := cleanup kept dirs }, s)

end Verif.Provider
