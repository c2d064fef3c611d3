/-!
# Deciding whether a project has to be resolved again (C53)

Model of src/lib/corelib/buildgraph/buildgraphloader.cpp 308-346, 489-665 (`trackProjectChanges` up to the decision, and
the checks it makes), of src/lib/corelib/loader/projectresolver.cpp 203-249, 267-310 (what is remembered), of
src/lib/corelib/loader/loaderutils.cpp 507-565, src/lib/corelib/loader/probesresolver.cpp 98-290,
src/lib/corelib/language/language.cpp 110-117, 828-841, src/lib/corelib/language/scriptengine.cpp 387-404, 780-807,
953-957, and of src/lib/corelib/jsextensions/file.cpp 156-166, 168-185, 201-209, 262-269.

Resolving a project is any program that asks the world for things and goes on depending on the answers. The world may
change while it runs. Configuration and environment are values that can be compared. What several script engines have
found out goes into the same tables.
-/
namespace Verif.Stale

abbrev Path := List Char

/-- Patterns with wildcards: base directory, prefix, patterns and patterns to be excluded. -/
abbrev Wild := Nat

/-- What can be asked while a project is resolved. -/
inductive Query
  /-- the contents of a project file or of an imported JavaScript file -/
  | read (p : Path)
  /-- `File.exists()` -/
  | exists (p : Path)
  /-- `File.lastModified()` -/
  | modified (p : Path)
  /-- `File.directoryEntries()` -/
  | entries (p : Path) (filters : Nat)
  /-- does a source file exist, productresolver.cpp 900? With the file that has the product. -/
  | source (product : Path) (p : Path)
  /-- wildcards in a group of a product, productresolver.cpp 829-840 -/
  | wild (product : Path) (w : Wild)
  /-- `File.canonicalFilePath()` and `FileInfo.canonicalPath()` -/
  | canonical (p : Path)
  /-- the files in a directory where the loader looks for modules, imports or referenced files, moduleloader.cpp 395-440,
      productscollector.cpp 505-520, itemreadervisitorstate.cpp 126-138 -/
  | lookup (p : Path)
  /-- `TextFile` in a script -/
  | text (p : Path)
deriving DecidableEq, Repr

inductive Answer
  | none
  | bool (b : Bool)
  | time (t : Nat)
  | text (s : List Char)
  | paths (l : List Path)
deriving DecidableEq, Repr

/-- The world at one point in time. -/
structure World where
  now : Nat
  /-- what is in a file or directory, if there is one -/
  content : Path → Option (List Char)
  mtime : Path → Nat
  listing : Path → Nat → List Path
  canonical : Path → Path
  /-- the files that match, as a sorted list -/
  expand : Wild → List Path
  /-- the directories whose time stamps are remembered, language.cpp 802-804 -/
  wildDirs : Wild → List Path

/-- The `exists()` of `FileInfo`. -/
def World.has (w : World) (p : Path) : Bool := (w.content p).isSome

/-- What the world answers. -/
def answer (w : World) : Query → Answer
  | .read p | .text p => match w.content p with
    | some s => .text s
    | none => .none
  | .exists p => .bool (w.has p)
  | .modified p => .time (w.mtime p)
  | .entries p f => .paths (w.listing p f)
  | .source _ p => .bool (w.has p)
  | .wild _ x => .paths (w.expand x)
  | .canonical p => .text (w.canonical p)
  | .lookup p => .paths (w.listing p 0)

/-- A script: it asks, and ends with a value. -/
inductive Script
  | ret (v : Nat)
  | ask (q : Query) (k : Answer → Script)

/-- What identifies a probe: the product or the project it belongs to, its condition and other properties, and the
    source code of its script. Within one run, probesresolver.cpp 271-279, the location of the code is compared rather
    than the code. -/
structure Key where
  owner : Nat
  props : Nat
  code : Nat
deriving DecidableEq, Repr

/-- Resolving a project. -/
inductive Prog
  | ret (v : Nat)
  | ask (q : Query) (k : Answer → Prog)
  | probe (key : Key) (k : Nat → Prog)

/-- `Probe`, language.h 111-188. -/
structure Probe where
  key : Key
  value : Nat
  /-- `m_importedFilesUsed` -/
  imports : List (Path × Nat)
deriving DecidableEq, Repr

/-- What is remembered, language.h 773-796: `buildSystemFiles`, the results of calls, the products' missing files and
    wildcards, the probes. -/
structure Rec where
  files : List Path
  existing : List (Path × Bool)
  modified : List (Path × Nat)
  entries : List ((Path × Nat) × List Path)
  /-- the files that products come from -/
  products : List Path
  missing : List (Path × Path)
  /-- product, wildcards, time stamps of directories, expanded files -/
  wilds : List (Path × Wild × List (Path × Nat) × List Path)
  probes : List Probe
  /-- `currentProbes`: those of this run -/
  current : List Probe
  /-- for specification only: what was asked and answered, by scripts that ran -/
  asked : List (Query × Answer)
  /-- for specification only: has a probe not been run because of an earlier result? -/
  reused : Bool

def Rec.empty : Rec := ⟨[], [], [], [], [], [], [], [], [], [], false⟩

/-- `QHash::insert` -/
def ins {α β : Type} [DecidableEq α] (k : α) (v : β) (l : List (α × β)) : List (α × β) :=
  (k, v) :: l.filter (fun e => e.1 ≠ k)

/-- What is remembered of a question, scriptengine.cpp 780-807, productresolver.cpp 829-840, 900-904. Nothing is
    remembered of `canonicalFilePath`, as `addCanonicalFilePathResult` is not called. -/
def note (w : World) (r : Rec) : Query → Rec
  | .read p => { r with files := p :: r.files }
  | .exists p => { r with existing := ins p (w.has p) r.existing }
  | .modified p => { r with modified := ins p (w.mtime p) r.modified }
  | .entries p f => { r with entries := ins (p, f) (w.listing p f) r.entries }
  | .source pr p => { r with
      products := pr :: r.products
      missing := if w.has p then r.missing else (pr, p) :: r.missing }
  | .wild pr x => { r with
      products := pr :: r.products
      wilds := (pr, x, (w.wildDirs x).map (fun d => (d, w.mtime d)), w.expand x) :: r.wilds }
  | .canonical _ | .lookup _ | .text _ => r

/-- Asking, and remembering it. -/
def noted (w : World) (r : Rec) (q : Query) : Rec :=
  { note w r q with asked := (q, answer w q) :: r.asked }

/-- Reading a file that does not exist is an error. -/
def unreadable (w : World) : Query → Bool
  | .read p => !w.has p
  | _ => false

/-- The file that is imported. -/
def importOf : Query → List Path
  | .read p => [p]
  | _ => []

/-- Running a script in a world that changes with each question. The files that were
    imported are given the time at the end, scriptengine.cpp 400. -/
def runScript (W : Nat → World) : Script → Nat → Rec → List Path → Option (Nat × Nat × Rec × List (Path × Nat))
  | .ret v, n, r, im => some (v, n, r, im.map (fun p => (p, (W n).now)))
  | .ask q k, n, r, im =>
    if unreadable (W n) q then none
    else runScript W (k (answer (W n) q)) (n + 1) (noted (W n) r q) (importOf q ++ im)

/-- `Probe::needsReconfigure`, language.cpp 110-117. -/
def needsReconfigure (w : World) (p : Probe) : Bool := p.imports.any (fun e => !w.has e.1 || e.2 < w.mtime e.1)

/-- `findOldProjectProbe` and `findOldProductProbe`, probesresolver.cpp 245-269, 281-290. -/
def findOld (w : World) (force : Bool) (old : List Probe) (key : Key) : Option Probe :=
  if force then none else old.find? (fun p => p.key = key && !needsReconfigure w p)

/-- `findCurrentProbe`, probesresolver.cpp 271-279. -/
def findCurrent (r : Rec) (key : Key) : Option Probe :=
  r.current.find? (fun p => p.key.props = key.props && p.key.code = key.code)

/-- What a probe's script is. -/
abbrev Configure := Nat → Nat → Script

/-- Running the program, with the probes of an earlier run; `resolveProbe`, probesresolver.cpp 98-243. -/
def run (cf : Configure) (force : Bool) (old : List Probe) (W : Nat → World) :
    Prog → Nat → Rec → Option (Nat × Nat × Rec)
  | .ret v, n, r => some (v, n, r)
  | .ask q k, n, r =>
    if unreadable (W n) q then none
    else run cf force old W (k (answer (W n) q)) (n + 1) (noted (W n) r q)
  | .probe key k, n, r =>
    match findOld (W n) force old key with
    | some p => run cf force old W (k p.value) n { r with probes := p :: r.probes, reused := true }
    | none =>
      match findCurrent r key with
      | some p => run cf force old W (k p.value) n { r with probes := p :: r.probes }
      | none =>
        match runScript W (cf key.props key.code) n r [] with
        | none => none
        | some (v, n', r', im) =>
          run cf force old W (k v) n'
            { r' with probes := ⟨key, v, im⟩ :: r'.probes, current := ⟨key, v, im⟩ :: r'.current }

/-- What the user asks for, setupprojectparameters.h. -/
structure Params where
  /-- `overrideBuildGraphData` -/
  override : Bool
  /-- `forceProbeExecution` -/
  forceProbes : Bool
  /-- `finalBuildConfigurationTree`, with the profiles in use -/
  config : Nat
  /-- without LD_PRELOAD -/
  env : Nat
  /-- `RestoreAndResolve` -/
  forceResolve : Bool
deriving DecidableEq, Repr

/-- A resolved project. -/
structure Stored where
  result : Nat
  record : Rec
  /-- `lastStartResolveTime` and `lastEndResolveTime` -/
  start : Nat
  end_ : Nat
  config : Nat
  env : Nat

/-- What makes up a project: the program for a configuration and an environment, its probes, and the directories to which
    module providers write. -/
structure Loader where
  prog : (config env : Nat) → Prog
  configure : Configure
  providerDirs : Nat → List Path

/-- `ProjectResolver::resolve`, projectresolver.cpp 203-249, in a world that changes. -/
def resolve (ld : Loader) (force : Bool) (old : List Probe) (config env : Nat) (W : Nat → World) : Option Stored :=
  match run ld.configure force old W (ld.prog config env) 0 Rec.empty with
  | none => none
  | some (v, n, r) => some ⟨v, r, (W 0).now, (W n).now, config, env⟩

/-- One of the checks in `hasProductFileChanged`, buildgraphloader.cpp 598-606. -/
def fileChanged (w : World) (ref : Nat) (p : Path) : Bool := !w.has p || ref < w.mtime p

/-- `SourceWildCards::hasChangedSinceExpansion`, language.cpp 828-841. -/
def wildChanged (w : World) (x : Wild) (stamps : List (Path × Nat)) (files : List Path) : Bool :=
  stamps.any (fun e => e.2 < w.mtime e.1) || w.expand x != files

/-- `hasProductFileChanged`, buildgraphloader.cpp 589-641. -/
def productFileChanged (w : World) (st : Stored) : Bool :=
  st.record.products.any (fun pr => fileChanged w st.start pr ||
    st.record.missing.any (fun e => e.1 = pr && w.has e.2) ||
    st.record.wilds.any (fun e => e.1 = pr && wildChanged w e.2.1 e.2.2.1 e.2.2.2))

/-- Was the file made by a module provider, buildgraphloader.cpp 652-658? -/
def generated (ld : Loader) (st : Stored) (p : Path) : Bool :=
  (ld.providerDirs st.result).any (fun d => d.isPrefixOf p)

/-- `hasBuildSystemFileChanged`, buildgraphloader.cpp 643-665, for the files that no product comes from. -/
def buildSystemFileChanged (ld : Loader) (w : World) (st : Stored) : Bool :=
  (st.record.files.filter (fun p => !st.record.products.contains p)).any
    (fun p => fileChanged w (if generated ld st p then st.end_ else st.start) p)

/-- `hasEnvironmentChanged`, buildgraphloader.cpp 506-530. -/
def environmentChanged (ps : Params) (st : Stored) : Bool := ps.override && ps.env != st.env

/-- `checkConfigCompatibility`, buildgraphloader.cpp 917-971, as far as it does not end in an error. -/
def configChanged (ps : Params) (st : Stored) : Bool := ps.override && ps.config != st.config

/-- `probeExecutionForced`, buildgraphloader.cpp 490-504. -/
def probesForced (ps : Params) (st : Stored) : Bool := ps.forceProbes && !st.record.probes.isEmpty

/-- The results of calls, buildgraphloader.cpp 532-587. -/
def resultChanged (w : World) (st : Stored) : Bool :=
  st.record.existing.any (fun e => w.has e.1 != e.2) ||
  st.record.entries.any (fun e => w.listing e.1.1 e.1.2 != e.2) ||
  st.record.modified.any (fun e => w.mtime e.1 != e.2)

/-- Is it necessary to resolve again, buildgraphloader.cpp 308-338? -/
def necessary (ld : Loader) (ps : Params) (w : World) (st : Stored) : Bool :=
  configChanged ps st || productFileChanged w st || probesForced ps st || buildSystemFileChanged ld w st ||
    environmentChanged ps st || resultChanged w st || ps.forceResolve

/-- Loading a project, buildgraphloader.cpp 308-378: if necessary, it is resolved again with the probes of the last
    time; without `override` with configuration and environment of the last time too. -/
def load (ld : Loader) (ps : Params) (W : Nat → World) (st : Stored) : Option Stored :=
  if necessary ld ps (W 0) st then
    resolve ld ps.forceProbes st.record.probes (if ps.override then ps.config else st.config)
      (if ps.override then ps.env else st.env) W
  else some st

end Verif.Stale
