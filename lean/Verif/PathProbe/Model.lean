/-! # Model: PathProbe (share/qbs/imports/qbs/Probes/path-probe.js), on Unix

Functions given by the user are Lean functions; the environment and the file system are parameters. -/

namespace Verif.PathProbe

abbrev Text := List Char

/-! ## FileInfo.joinPaths -/

/-- `uniqueSeparators` (fileinfoextension.cpp 56-63) -/
def unique : Text → Text
  | [] => []
  | [c] => [c]
  | c :: d :: s => if c = '/' ∧ d = '/' then unique (d :: s) else c :: unique (d :: s)

/-- `QStringList::join` (fileinfoextension.cpp 287) -/
def joinSlash : List Text → Text
  | [] => []
  | [p] => p
  | p :: ps => p ++ '/' :: joinSlash ps

/-- `jsJoinPaths` (fileinfoextension.cpp 278-289) -/
def joinPaths (ps : List Text) : Text := unique (joinSlash (ps.filter (fun p => !p.isEmpty)))

/-! ## The probe -/

/-- `split` with a separator of one character -/
def splitOn (sep : Char) : Text → List Text
  | [] => [[]]
  | c :: s =>
    if c = sep then [] :: splitOn sep s
    else
      match splitOn sep s with
      | [] => [[c]]
      | w :: ws => (c :: w) :: ws

structure World where
  getEnv : Text → Option Text
  fileExists : Text → Bool

/-- `pathsFromEnvs` (path-probe.js 63-72) -/
def pathsFromEnvs (w : World) (envs : List Text) : List Text :=
  envs.foldl (fun result e =>
    let value := (w.getEnv e).getD []
    if value ≠ [] then result ++ splitOn ':' value else result) []

/-- What the user can give for one file. Whether a list is given as a string in a dictionary is left out. -/
inductive Selector where
  | str (name : Text)
  | list (names : List Text)
  | dict (names : Option (List Text)) (nameSuffixes : Option (List Text))

/-- A selector after `canonicalSelectors` -/
structure Canonical where
  names : List Text
  nameSuffixes : Option (List Text)

/-- The function `mapper` (path-probe.js 45-59); `none` is the exception. -/
def canonical (nameSuffixes : Option (List Text)) : Selector → Option Canonical
  | .str s => some ⟨[s], none⟩
  | .list l => some ⟨l, none⟩
  | .dict none _ => none
  | .dict (some n) (some s) => some ⟨n, some s⟩
  | .dict (some n) none => some ⟨n, nameSuffixes⟩

def canonicalSelectors (nameSuffixes : Option (List Text)) : List Selector → Option (List Canonical)
  | [] => some []
  | s :: ss =>
    match canonical nameSuffixes s, canonicalSelectors nameSuffixes ss with
    | some c, some cs => some (c :: cs)
    | _, _ => none

/-- The properties of the probe (PathProbe.qbs 37-46); lists that are not set are empty. -/
structure Input where
  selectors : Option (List Selector)
  names : Option (List Text)
  nameSuffixes : Option (List Text)
  nameFilter : Option (Text → List Text)
  candidateFilter : Option (Text → Bool)
  searchPaths : List Text
  pathSuffixes : List Text
  platformSearchPaths : List Text
  environmentPaths : List Text
  platformEnvironmentPaths : List Text

/-- The names of a selector with filter and suffixes (path-probe.js 89-101) -/
def fullNames (i : Input) (c : Canonical) : List Text :=
  let names :=
    match i.nameFilter with
    | some f => c.names.flatMap f
    | none => c.names
  names.flatMap fun name => (c.nameSuffixes.getD [[]]).map fun suffix => name ++ suffix

/-- The directories, in the order in which they are searched (path-probe.js 104-108) -/
def paths (w : World) (i : Input) : List Text :=
  pathsFromEnvs w i.environmentPaths ++ i.searchPaths ++ pathsFromEnvs w i.platformEnvironmentPaths ++ i.platformSearchPaths

/-- path-probe.js 109 -/
def suffixes (i : Input) : List Text := [] :: i.pathSuffixes

structure FileRes where
  found : Bool
  candidatePaths : List Text
  filePath : Option Text
  fileName : Option Text
  path : Option Text
  deriving DecidableEq

inductive Step where
  | go (candidatePaths : List Text)
  | done (file : FileRes)

/-- The condition (path-probe.js 120-121) -/
def suitable (w : World) (i : Input) (f : Text) : Bool :=
  w.fileExists f && (match i.candidateFilter with | none => true | some g => g f)

/-- The innermost loop of `findFile` (path-probe.js 117-135) -/
def loopK (w : World) (i : Input) (name path : Text) : List Text → List Text → Step
  | [], cands => .go cands
  | s :: ss, cands =>
    let f := joinPaths [path, s, name]
    let cands := cands ++ [f]
    if suitable w i f then .done ⟨true, cands, some f, some name, some (joinPaths [path, s])⟩
    else loopK w i name path ss cands

/-- The loop over paths (path-probe.js 116-136) -/
def loopJ (w : World) (i : Input) (name : Text) : List Text → List Text → Step
  | [], cands => .go cands
  | p :: ps, cands =>
    match loopK w i name p (suffixes i) cands with
    | .done r => .done r
    | .go cands => loopJ w i name ps cands

/-- The loop over names (path-probe.js 115-137) -/
def loopI (w : World) (i : Input) : List Text → List Text → Step
  | [], cands => .go cands
  | n :: ns, cands =>
    match loopJ w i n (paths w i) cands with
    | .done r => .done r
    | .go cands => loopI w i ns cands

/-- `findFile` (path-probe.js 113-140) -/
def findFile (w : World) (i : Input) (c : Canonical) : FileRes :=
  match loopI w i (fullNames i c) [] with
  | .done r => r
  | .go cands => ⟨false, cands, none, none, none⟩

structure Result where
  found : Bool
  files : List FileRes

/-- The selectors (path-probe.js 78-87) -/
def selectorsOf (i : Input) : Option (List Canonical) :=
  match i.selectors, i.names with
  | none, none => none
  | none, some names => some [⟨names, i.nameSuffixes⟩]
  | some sels, _ => canonicalSelectors i.nameSuffixes sels

/-- `configure` (path-probe.js 74-146); `none` is an exception. -/
def configure (w : World) (i : Input) : Option Result :=
  match selectorsOf i with
  | none => none
  | some cs =>
    let files := cs.map (findFile w i)
    some ⟨files.foldl (fun acc r => acc && r.found) true, files⟩

end Verif.PathProbe
