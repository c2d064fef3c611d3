/-
What type names mean in a project file: src/lib/corelib/loader/astimportshandler.cpp.

Simplifications: the directories and the files in them are given; the name of a type is the name of the
file without the last four characters. The version in an import of qbs is right or wrong. Locations,
warnings and the texts of errors are left out.
-/

namespace Verif.Imports

abbrev Name := String
abbrev File := String
abbrev Dir := String
abbrev Path := List Name

/-- What a file name in an import stands for. -/
inductive Found
  | dir (d : Dir)
  | js (f : File)
  | qbs (f : File)
  | other
  deriving DecidableEq, Repr

inductive Target
  | uri (p : Path)
  | file (name : String)
  deriving DecidableEq, Repr

/-- `UiImport`. -/
structure Stmt where
  target : Target
  /-- `as` -/
  importId : Option Name := none
  /-- the version, and whether it is that of the language -/
  version : Option Bool := none
  deriving DecidableEq, Repr

inductive Err
  | version
  | baseAs
  | extensionAs
  | needsAs
  | invalidUri
  | extensionName
  | twice
  | noFile
  | wrongKind
  | notFound
  deriving DecidableEq, Repr

structure World where
  /-- the directory of the file -/
  own : Dir
  /-- `imports` in the search paths -/
  searchDirs : List Dir
  /-- the subdirectory, if there is one -/
  sub : Dir → Path → Option Dir
  /-- names of types and their files in the order in which they are listed -/
  comps : Dir → List (Name × File)
  jsFiles : Dir → List File
  file : String → Option Found
  /-- `JsExtensions::hasExtension` -/
  hasExtension : Name → Bool

structure St where
  /-- `m_typeNameToFile` -/
  types : List (Path × File) := []
  /-- `m_jsImports`; without a name: those of qbs.base -/
  js : List (Option Name × List File) := []
  /-- `FileContext::jsExtensions` -/
  exts : List Name := []
  /-- `m_importAsNames` -/
  names : List Name := []
  baseImported : Bool := false
  deriving DecidableEq, Repr

/-- `QHash::value`. -/
def lookup {α β : Type} [DecidableEq α] (l : List (α × β)) (a : α) : Option β :=
  match l with
  | [] => none
  | (b, v) :: l => if b = a then some v else lookup l a

/-- `QHash::insert`. -/
def insert {α β : Type} [DecidableEq α] (l : List (α × β)) (a : α) (v : β) : List (α × β) :=
  (a, v) :: l.filter (fun e => e.1 ≠ a)

/-- `addPrototype`, astimportshandler.cpp 231-251, with `needsCheck` false. -/
def addPrototype (types : List (Path × File)) (as : Option Name) (n : Name) (f : File) : List (Path × File) :=
  let key := as.toList ++ [n]
  if (lookup types key).isSome then types else insert types key f

/-- `collectPrototypes`, astimportshandler.cpp 268-274. -/
def collectTypes (types : List (Path × File)) (as : Option Name) : List (Name × File) → List (Path × File)
  | [] => types
  | (n, f) :: l => collectTypes (addPrototype types as n f) as l

def collectPrototypes (w : World) (st : St) (d : Dir) (as : Option Name) : St :=
  { st with types := collectTypes st.types as (w.comps d) }

/-- The files for a scope are added to those that are there. -/
def addJs (js : List (Option Name × List File)) (as : Option Name) (fs : List File) : List (Option Name × List File) :=
  if fs = [] then js else insert js as ((lookup js as).getD [] ++ fs)

/-- `collectPrototypesAndJsCollections`, astimportshandler.cpp 276-290. -/
def collectAll (w : World) (st : St) (d : Dir) (as : Option Name) : St :=
  let st := collectPrototypes w st d as
  { st with js := addJs st.js as (w.jsFiles d) }

/-- astimportshandler.cpp 102-104. -/
def isBase (p : Path) : Bool := p == ["qbs"] || p == ["qbs", "base"]

/-- An import of a built-in extension, astimportshandler.cpp 120-122. -/
def extension (w : World) : Path → Option Name
  | [q, x] => if q = "qbs" ∧ w.hasExtension x = true then some x else none
  | _ => none

/-- astimportshandler.cpp 193-218. -/
def importUri (w : World) (st : St) (p : Path) (as : Option Name) : Except Err St :=
  if (lookup st.types p).isSome then .ok st
  else
    match w.searchDirs.findSome? (fun d => w.sub d (if isBase p then ["qbs", "base"] else p)) with
    | some d => .ok (collectAll w st d as)
    | none => .error .notFound

/-- astimportshandler.cpp 155-162. -/
def addName (w : World) (st : St) (as : Name) : Except Err St :=
  if w.hasExtension as then .error .extensionName
  else if as ∈ st.names then .error .twice
  else .ok { st with names := st.names ++ [as] }

/-- astimportshandler.cpp 165-192. -/
def importFile (w : World) (st : St) (name : String) (as : Name) : Except Err St :=
  match w.file name with
  | none => .error .noFile
  | some (.dir d) => .ok (collectAll w st d (some as))
  | some (.js f) => .ok { st with js := addJs st.js (some as) [f] }
  | some (.qbs f) => .ok { st with types := insert st.types [as] f }
  | some .other => .error .wrongKind

/-- `handleImport`, astimportshandler.cpp 94-219. -/
def handleImport (w : World) (st : St) (s : Stmt) : Except Err St :=
  match s.target with
  | .uri p =>
    if isBase p then
      if s.version = some false then .error .version
      else if s.importId.isSome then .error .baseAs
      else importUri w { st with baseImported := true } p none
    else
      match extension w p with
      | some x =>
        if s.importId.isSome then .error .extensionAs
        else .ok (if x ∈ st.exts then st else { st with exts := st.exts ++ [x] })
      | none =>
        match s.importId.or p.getLast? with
        | none => .error .invalidUri
        | some as =>
          match addName w st as with
          | .error e => .error e
          | .ok st => importUri w st p (some as)
  | .file name =>
    match s.importId with
    | none => .error .needsAs
    | some as =>
      match addName w st as with
      | .error e => .error e
      | .ok st => importFile w st name as

def handleAll (w : World) (st : St) : List Stmt → Except Err St
  | [] => .ok st
  | s :: l =>
    match handleImport w st s with
    | .error e => .error e
    | .ok st => handleAll w st l

/-- The types in the search paths and in the directory of the file, astimportshandler.cpp 72-77. -/
def start (w : World) : St :=
  (w.searchDirs ++ [w.own]).foldl (fun st d => collectPrototypes w st d none) {}

/-- `handleImports`, astimportshandler.cpp 70-92. -/
def handleImports (w : World) (l : List Stmt) : Except Err St :=
  match handleAll w (start w) l with
  | .error e => .error e
  | .ok st => if st.baseImported then .ok st else handleImport w st { target := .uri ["qbs"] }

end Verif.Imports
