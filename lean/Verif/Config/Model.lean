import Verif.Settings.Props
import Verif.Literal.Props
/-!
# `qbs config`: exporting and importing settings, profiles from the command line

Model of src/app/config/configcommandexecutor.cpp 59-228, src/lib/corelib/tools/settings.cpp 105-189
and src/lib/corelib/tools/settingsrepresentation.cpp 49-119.

`QSettings` is a map with its documented behaviour; other than in `Verif.Settings`, keys are normalised
(empty parts between slashes vanish). What it gives back after the program has ended and another one
reads the file is `reread`: the code relies on plain booleans and integers becoming strings
(settingsrepresentation.cpp 76). Other losses of the file format are left out, and so are failures to
open and to write files and system settings without permission to write.

`QTextStream` and `QJsonDocument` are assumed to read what they wrote; a text is a list of characters, a
JSON document a tree. Of JavaScript there are the literals of `Verif.Literal`: a value in an imported
text that is any other expression is taken for one that is not valid.
-/
namespace Verif.Config

open Verif.Common (isort)
open Verif.Settings (internalRepresentation externalRepresentation forbidden)
open Verif.Literal (Str Var JsVal lit litInt evaluate)

/-- A value in the settings: a variant, or a `QVariantHash` that has it for the empty key. -/
inductive SVal where
  | plain (v : Var)
  | hash (v : Var)

/-- settingsrepresentation.cpp 111-119 `settingsValueToVariant`. -/
def settingsValueToVariant : SVal → Var
  | .plain v => v
  | .hash v => v

/-- settingsrepresentation.cpp 49-52. -/
def settingsValueToRepresentation (v : SVal) : Str := lit (settingsValueToVariant v)

/-! ### From text to values -/

mutual
/-- scripttools.cpp 260-310 `getJsVariantImpl`: QuickJS keeps literals of less than 32 bits as integers,
others are floating point numbers. -/
def toVariant : JsVal → Var
  | .undefined => .invalid
  | .bool b => .bool b
  | .num n => if n.natAbs < 2 ^ 31 then .int n else .double (litInt n)
  | .str s => .str s
  | .arr l => .list (toVariants l)
  | .obj l => .map (toEntries l)
def toVariants : List JsVal → List Var
  | [] => []
  | j :: l => toVariant j :: toVariants l
def toEntries : List (Str × JsVal) → List (Str × Var)
  | [] => []
  | (k, j) :: l => (k, toVariant j) :: toEntries l
end

/-- settingsrepresentation.cpp 54-70 `variantFromString`: the value of `return <text>;`, `none` for an
error. -/
def variantFromString (s : Str) : Option Var :=
  if s = [] then some .invalid else (evaluate s).map toVariant

/-- settingsrepresentation.cpp 93-109 `representationToVariant`. -/
def representationToVariant (s : Str) : Var :=
  match variantFromString s with
  | none => .str s
  | some (.double _) =>
    match variantFromString ('"' :: s ++ ['"']) with
    | none => .str s
    | some v => v
  | some v => v

/-- settingsrepresentation.cpp 72-91 `representationToSettingsValue`. -/
def representationToSettingsValue (s : Str) : SVal :=
  match representationToVariant s with
  | .bool b => .hash (.bool b)
  | .int n => .hash (.int n)
  | v => .plain v

/-! ### The settings -/

abbrev Store := List (Str × SVal)

/-- The two `QSettings` objects. -/
structure St where
  user : Store
  system : Store

/-- The options `--user` and `--system` (configcommandlineparser.cpp 78-81); `both` without them. -/
inductive Scopes where
  | both | user | system
deriving DecidableEq

def Scopes.hasUser : Scopes → Bool
  | .system => false
  | _ => true

def Scopes.hasSystem : Scopes → Bool
  | .user => false
  | _ => true

/-- `QSettings::value`. -/
def get (m : Store) (k : Str) : Option SVal := (m.find? fun e => e.1 == k).map (·.2)

/-- The parts of a key. -/
def parts : Str → List Str
  | [] => [[]]
  | c :: s =>
    if c = '/' then [] :: parts s
    else
      match parts s with
      | [] => [[c]]
      | p :: l => (c :: p) :: l

def join : List Str → Str
  | [] => []
  | [p] => p
  | p :: l => p ++ '/' :: join l

/-- `QSettingsPrivate::normalizedKey`: without empty parts. -/
def normalizedKey (k : Str) : Str := join ((parts k).filter (· ≠ []))

/-- The key in the file for a key as users write it. -/
def fileKey (k : Str) : Str := normalizedKey (internalRepresentation k)

/-- `QSettings::setValue`; an empty key is refused with a warning. -/
def put (m : Store) (k : Str) (v : SVal) : Store :=
  if normalizedKey k = [] then m
  else (normalizedKey k, v) :: m.filter fun e => !(e.1 == normalizedKey k)

/-- Is `e` the key `k` or below it? -/
def below (k e : Str) : Bool := e == k || (k ++ ['/']).isPrefixOf e

/-- `QSettings::remove`; an empty key means everything. -/
def del (m : Store) (k : Str) : Store :=
  if normalizedKey k = [] then [] else m.filter fun e => !below (normalizedKey k) e.1

/-- The values of a list, or of what can be converted to one. -/
def listOf : SVal → List Var
  | .plain (.list l) => l
  | .plain (.str s) => [.str s]
  | _ => []

/-- settings.cpp 105-125 `Settings::value`; lists are `QStringList`s, as after reading them from a file. -/
def value (s : St) (k : Str) (o : Scopes) : Option SVal :=
  let userValue := if o.hasUser then get s.user (fileKey k) else none
  let systemValue := if o.hasSystem then get s.system (fileKey k) else none
  match userValue with
  | none => systemValue
  | some u =>
    match systemValue with
    | none => some u
    | some w =>
      match u with
      | .plain (.list l) => some (.plain (.list (l ++ listOf w)))
      | _ => some u

/-- settings.cpp 239-245 `fixupKeys`. -/
def fixupKeys (ks : List Str) : List Str :=
  ((isort (fun a b => decide (a ≤ b)) ks).eraseDups).map externalRepresentation

/-- settings.cpp 127-136 `allKeys`. -/
def allKeys (s : St) (o : Scopes) : List Str :=
  fixupKeys ((if o.hasUser then s.user.map (·.1) else []) ++
    (if o.hasSystem then s.system.map (·.1) else []))

/-- settings.cpp 247-255 `targetForWriting`, configcommandexecutor.cpp 98-103: the user's settings,
unless `--system` is given. -/
def target (s : St) : Scopes → Store
  | .system => s.system
  | _ => s.user

def setTarget (s : St) (m : Store) : Scopes → St
  | .system => { s with system := m }
  | _ => { s with user := m }

/-- settings.cpp 175-183 `Settings::setValue` into a store; `none`: an exception. -/
def setValue (m : Store) (k : Str) (v : SVal) : Option Store :=
  if forbidden.isPrefixOf k then none else some (put m (internalRepresentation k) v)

/-- Several calls, up to the first exception; whether there was none. -/
def setValues : Store → List (Str × SVal) → Store × Bool
  | m, [] => (m, true)
  | m, (k, v) :: l =>
    match setValue m k v with
    | none => (m, false)
    | some m' => setValues m' l

/-- settings.cpp 185-189 `Settings::remove`. -/
def remove (m : Store) (k : Str) : Store := del m (internalRepresentation k)

/-! ### Text -/

/-- configcommandexecutor.cpp 193-195: one line. -/
def line (s : St) (o : Scopes) (k : Str) : Str :=
  k ++ ": ".toList ++
    (match value s k o with
     | some v => settingsValueToRepresentation v
     | none => lit .invalid) ++ ['\n']

/-- configcommandexecutor.cpp 176-197 `exportSettings`, for other files than JSON. -/
def exportText (s : St) (o : Scopes) : Str := (allKeys s o).flatMap (line s o)

/-- `QTextStream::readLine` until the end. -/
def readLines : Str → List Str
  | [] => []
  | c :: s =>
    if c = '\n' then [] :: readLines s
    else
      match readLines s with
      | [] => [[c]]
      | l :: ls => (c :: l) :: ls

/-- `QChar::isSpace`. -/
def isSpace (c : Char) : Bool :=
  (9 ≤ c.toNat && c.toNat ≤ 13) || [0x20, 0x85, 0xA0, 0x1680, 0x2028, 0x2029, 0x202F, 0x205F, 0x3000].contains
    c.toNat || (0x2000 ≤ c.toNat && c.toNat ≤ 0x200A)

/-- `QString::trimmed`. -/
def trimmed (s : Str) : Str := ((s.dropWhile isSpace).reverse.dropWhile isSpace).reverse

/-- configcommandexecutor.cpp 220-223: the key and the value in a line, if there are any. -/
def splitLine (l : Str) : Option (Str × Str) :=
  if l.contains ':' && !(l.head? == some '#') then
    some (trimmed (l.takeWhile (· ≠ ':')), trimmed (l.dropWhile (· ≠ ':')).tail)
  else none

/-- configcommandexecutor.cpp 224: what a line sets. -/
def readLine (l : Str) : Option (Str × SVal) :=
  (splitLine l).map fun p => (p.1, representationToSettingsValue p.2)

/-- configcommandexecutor.cpp 206-209: all current settings are removed. -/
def cleared (s : St) (o : Scopes) : Store := (allKeys s o).foldl remove (target s o)

/-- configcommandexecutor.cpp 199-228 `importSettings`, for other files than JSON: the settings, and
whether there was no exception. -/
def importText (s : St) (o : Scopes) (text : Str) : St × Bool :=
  let r := setValues (cleared s o) ((readLines text).filterMap readLine)
  (setTarget s r.1 o, r.2)

/-! ### JSON -/

/-- `QJsonValue`. -/
inductive Json where
  | null
  | bool (b : Bool)
  | num (n : Int)
  | str (s : Str)
  | arr (l : List Json)
  | obj (l : List (Str × Json))

mutual
/-- `QJsonValue::fromVariant`. -/
def ofVariant : Var → Json
  | .invalid => .null
  | .bool b => .bool b
  | .int n => .num n
  | .str s => .str s
  | .list l => .arr (ofVariants l)
  | .map l => .obj (ofEntries l)
  | .double t => .str t
  | .other _ => .null
def ofVariants : List Var → List Json
  | [] => []
  | v :: l => ofVariant v :: ofVariants l
def ofEntries : List (Str × Var) → List (Str × Json)
  | [] => []
  | p :: l => ofEntry p :: ofEntries l
def ofEntry : Str × Var → Str × Json
  | (k, v) => (k, ofVariant v)
end

/-- `QJsonValue::fromVariant` for a value of the settings: a hash becomes an object. -/
def ofSetting : SVal → Json
  | .plain v => ofVariant v
  | .hash v => .obj [([], ofVariant v)]

mutual
/-- `QJsonValue::toVariant`. -/
def variantOf : Json → Var
  | .null => .invalid
  | .bool b => .bool b
  | .num n => .int n
  | .str s => .str s
  | .arr l => .list (variantsOf l)
  | .obj l => .map (entriesOf l)
def variantsOf : List Json → List Var
  | [] => []
  | j :: l => variantOf j :: variantsOf l
def entriesOf : List (Str × Json) → List (Str × Var)
  | [] => []
  | p :: l => entryOf p :: entriesOf l
def entryOf : Str × Json → Str × Var
  | (k, j) => (k, variantOf j)
end

/-- The keys of a group, relative to it (`QSettings::beginGroup`, `allKeys`); an empty name means the
whole. -/
def keysIn (m : Store) (group : Str) : List Str :=
  m.filterMap fun e =>
    if group = [] then some e.1
    else if (group ++ ['/']).isPrefixOf e.1 then some (e.1.drop (group.length + 1)) else none

/-- settings.cpp 140-147: `QSettings::childGroups` and `childKeys` for a group. -/
def children (m : Store) (group : Str) : List Str :=
  ((keysIn m group).filter (·.contains '/')).map (fun k => k.takeWhile (· ≠ '/')) ++
    (keysIn m group).filter (fun k => !k.contains '/')

/-- settings.cpp 138-156 `directChildren`. -/
def directChildren (s : St) (parentGroup : Str) (o : Scopes) : List Str :=
  fixupKeys ((if o.hasUser then children s.user (internalRepresentation parentGroup) else []) ++
    (if o.hasSystem then children s.system (internalRepresentation parentGroup) else []))

/-- configcommandexecutor.cpp 66-68, 86-88. -/
def fullKey (parentGroup key : Str) : Str :=
  if parentGroup = [] then key else parentGroup ++ '.' :: key

/-- configcommandexecutor.cpp 59-78 `settingsToJSONObject`; the number bounds the depth of groups. -/
def toJson : Nat → St → Scopes → Str → List (Str × Json)
  | 0, _, _, _ => []
  | n + 1, s, o, parentGroup =>
    (directChildren s parentGroup o).map fun key =>
      match value s (fullKey parentGroup key) o with
      | some v => (key, ofSetting v)
      | none => (key, .obj (toJson n s o (fullKey parentGroup key)))

/-- The length of the longest key. -/
def longest : Store → Nat
  | [] => 0
  | e :: m => max e.1.length (longest m)

/-- configcommandexecutor.cpp 184-187. No group is deeper than the longest key. -/
def exportJson (s : St) (o : Scopes) : List (Str × Json) :=
  toJson (max (longest s.user) (longest s.system) + 1) s o []

mutual
/-- configcommandexecutor.cpp 80-95 `settingsFromJSONObject`: the calls of `setValue`, in order. -/
def calls (parentGroup : Str) : List (Str × Json) → List (Str × SVal)
  | [] => []
  | p :: l => callsEntry parentGroup p ++ calls parentGroup l
def callsEntry (parentGroup : Str) : Str × Json → List (Str × SVal)
  | (key, j) => callsValue (fullKey parentGroup key) j
def callsValue (fullKey : Str) : Json → List (Str × SVal)
  | .obj l => calls fullKey l
  | .null => [(fullKey, .plain (variantOf .null))]
  | .bool b => [(fullKey, .plain (variantOf (.bool b)))]
  | .num n => [(fullKey, .plain (variantOf (.num n)))]
  | .str s => [(fullKey, .plain (variantOf (.str s)))]
  | .arr l => [(fullKey, .plain (variantOf (.arr l)))]
end

/-- configcommandexecutor.cpp 199-214 `importSettings` for JSON; `none`: the file is not valid, for which
`QJsonDocument::object` is empty. -/
def importJson (s : St) (o : Scopes) (doc : Option (List (Str × Json))) : St × Bool :=
  let r := setValues (cleared s o) (calls [] (doc.getD []))
  (setTarget s r.1 o, r.2)

/-! ### Profiles and single settings -/

/-- configcommandexecutor.cpp 118-128: `--add-profile`; profile.cpp 99-106, 168-171, 183-186, 210-213. -/
def addProfile (s : St) (o : Scopes) (name : Str) (properties : List (Str × Str)) : St × Bool :=
  let key := "profiles.".toList ++ name
  let r := setValues (remove (target s o) key)
    (properties.map fun p => (key ++ '.' :: p.1, representationToSettingsValue p.2))
  (setTarget s r.1 o, r.2)

/-- configcommandexecutor.cpp 114-117: `--unset`. -/
def unset (s : St) (o : Scopes) (names : List Str) : St :=
  setTarget s (names.foldl remove (target s o)) o

/-- configcommandexecutor.cpp 146-149: a key and a value. -/
def set (s : St) (o : Scopes) (key rawInput : Str) : St × Bool :=
  let r := setValues (target s o) [(key, representationToSettingsValue rawInput)]
  (setTarget s r.1 o, r.2)

/-- What another process reads. -/
def reread : SVal → SVal
  | .plain (.bool b) => .plain (.str (Literal.litBool b))
  | .plain (.int n) => .plain (.str (litInt n))
  | v => v

end Verif.Config
