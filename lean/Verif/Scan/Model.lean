/-!
# Cached results of dependency scanners (C32)

Model of src/lib/corelib/buildgraph/rawscanresults.cpp 50-111, inputartifactscanner.cpp 304-333 and
454-475, depscanner.cpp 113-131, 143-153, language.cpp 931-938, and of
src/plugins/scanner/cpp/cppscannerplugin.cpp 70-123.

What a scan gives is kept as the inputs it was made from: the scanner, the product, file tags and
properties of the artifact it was done for, and the files as they were. A concrete scanner is a
function of these.

Simplifications: property maps are numbers (they are only compared). The hash table from paths to
lists is a function. A file's time stamp in the build graph is the one it has on disk. Time 0 is the
invalid time (fileinfo.h: `FileTime()`, less than all others).
-/
namespace Verif.Scan

/-- A `Scanner` item: its id, whether it is a plugin, and its code. -/
structure Scanner where
  id : String
  plugin : Bool
  code : Nat
deriving DecidableEq, Repr

/-- Content and time stamp of the files. -/
abbrev Files := String → Option (String × Nat)

/-- For what a scan is done. -/
structure Request where
  scanner : Scanner
  product : String
  tags : List String
  props : Nat
  path : String

/-- What a scan was made from, and when. -/
structure Inputs where
  req : Request
  files : Files
  time : Nat

/-- `RawScanResults::ScanData`, rawscanresults.h 78-91. -/
structure ScanData where
  id : String
  props : Nat
  /-- `lastScanTime` -/
  last : Nat
  result : Option Inputs

/-- `m_rawScanData`. -/
abbrev Cache := String → List ScanData

/-- `areModulePropertiesCompatible`, depscanner.cpp 143-153. -/
def compatible (sc : Scanner) (p q : Nat) : Bool := sc.plugin || p == q

/-- The loop of `findScanData` and `existingScanData`, rawscanresults.cpp 57-63, 88-96. -/
def find (sc : Scanner) (props : Nat) : List ScanData → Option ScanData
  | [] => none
  | d :: l =>
    if sc.id ≠ d.id then find sc props l
    else if !compatible sc props d.props then find sc props l
    else some d

/-- `existingScanData`, rawscanresults.cpp 79-98. -/
def existing (c : Cache) (r : Request) : Option ScanData := find r.scanner r.props (c r.path)

/-- Replaces the entry found, or appends one: `findScanData` with what the caller does with the
reference (rawscanresults.cpp 50-69). -/
def upsert (sc : Scanner) (props : Nat) (f : ScanData → ScanData) : List ScanData → List ScanData
  | [] => [f ⟨sc.id, props, 0, none⟩]
  | d :: l =>
    if sc.id ≠ d.id then d :: upsert sc props f l
    else if !compatible sc props d.props then d :: upsert sc props f l
    else f d :: l

/-- `fileToBeScanned->timestamp()`: invalid if there is no file. -/
def timestamp (fs : Files) (path : String) : Nat := (fs path).elim 0 (·.2)

/-- `scanForScannerFileDependencies` with the entry, inputartifactscanner.cpp 327-331. `now` is the
current time after the scan. -/
def rescan (fs : Files) (r : Request) (now : Nat) (d : ScanData) : ScanData :=
  if d.last < timestamp fs r.path then { d with result := some ⟨r, fs, now⟩, last := now } else d

def scan (fs : Files) (now : Nat) (r : Request) (c : Cache) : Cache := fun path =>
  if path = r.path then upsert r.scanner r.props (rescan fs r now) (c path) else c path

/-- `invalidateResults`, rawscanresults.cpp 100-110. -/
def invalidate (id : String) (c : Cache) : Cache := fun path => (c path).filter (·.id != id)

/-! ## Histories -/

structure State where
  files : Files
  cache : Cache

inductive Ev where
  /-- a request for scan results -/
  | scan (r : Request)
  /-- a file gets new content and a time stamp -/
  | write (path content : String) (mtime : Nat)
  | remove (path : String)
  /-- `invalidateResults` -/
  | invalidate (id : String)

def step (s : State) (e : Nat × Ev) : State :=
  match e.2 with
  | .scan r => { s with cache := scan s.files e.1 r s.cache }
  | .write path content mtime =>
    { s with files := fun p => if p = path then some (content, mtime) else s.files p }
  | .remove path => { s with files := fun p => if p = path then none else s.files p }
  | .invalidate id => { s with cache := invalidate id s.cache }

/-- A history of events with their times, from an empty project. -/
def after (h : List (Nat × Ev)) : State := h.foldl step ⟨fun _ => none, fun _ => []⟩

/-- What the caller gets for a request after a history. -/
def answer (h : List (Nat × Ev)) (now : Nat) (r : Request) : Option Inputs :=
  (existing (after (h ++ [(now, .scan r)])).cache r).bind (·.result)

/-! ## The C++ scanner -/

/-- What `scanCppFile` finds: files included with quotes, other included files, modules. -/
structure CppFile where
  localIncludes : List String
  includes : List String
  modules : List String

/-- cppscannerplugin.cpp 70-123, the dependencies. `dir`: the directory of the file. `suffix`:
`cpp.compiledModuleSuffix` as a function of the properties. `parse` is `scanCppFile`. Colons in names
of modules are not replaced here. -/
def cppScan (parse : String → List String → CppFile) (dir : String → String) (suffix : Nat → String)
    (i : Inputs) : List String :=
  match i.files i.req.path with
  | none => []
  | some (content, _) =>
    let f := parse content i.req.tags
    f.localIncludes.map (fun h =>
      let localPath := dir i.req.path ++ "/" ++ h
      if (i.files localPath).isSome then localPath else h) ++
    f.includes ++ f.modules.map (· ++ suffix i.req.props)

end Verif.Scan
