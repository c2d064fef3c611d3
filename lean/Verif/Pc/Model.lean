/-! # Reading .pc files

The library behind `PkgConfig` in scripts and the default module provider: src/lib/pkgconfig/pcparser.cpp,
src/lib/pkgconfig/pcpackage.cpp and src/lib/pkgconfig/pkgconfig.cpp.

Texts are lists of characters. Only ASCII characters count as letters, digits or white space, as in the "C" locale. Opening
and reading files cannot fail here. File systems, and paths on Windows, are not modelled. -/

namespace Verif.Pc

abbrev Text := List Char

/-- `std::isspace` -/
def isSpace (c : Char) : Bool :=
  c == ' ' || c == '\t' || c == '\n' || c == '\r' || c == Char.ofNat 11 || c == Char.ofNat 12

/-- What can go wrong (pcparser.cpp 190-251 and the exceptions thrown further down) -/
inductive Err where
  | missingBrace
  | undefinedVariable (v : Text)
  | duplicateField (tag : Text)
  | duplicateVariable (v : Text)
  | unknownComparison
  | emptyName
  | noVersion
  | badCommand
  deriving Repr, DecidableEq

/-- `readOneLine` together with the loop around it in `PcParser::parsePackageFile` (pcparser.cpp 68-128 and 407-409):
`quoted`, `comment` and `line` are the variables of `readOneLine`, `any` says whether `n_read > 0`. -/
def readLines (quoted comment any : Bool) (line : Text) : Text → List Text
  | [] => if any then [if quoted then line ++ ['\\'] else line] else []
  | c :: s =>
    if c = '\r' then readLines quoted comment any line s
    else if quoted then
      if c = '#' then readLines false comment true (line ++ ['#']) s
      else if c = '\n' then readLines false comment true line s
      else readLines false comment true (line ++ ['\\', c]) s
    else if c = '#' then readLines false true true line s
    else if c = '\\' then readLines (!comment) comment true line s
    else if c = '\n' then line :: readLines false false false [] s
    else readLines false comment true (if comment then line else line ++ [c]) s

/-- The lines of a file -/
def fileLines (s : Text) : List Text := readLines false false false [] s

/-- `trimmed` (pcparser.cpp 130-138) -/
def trimmed (s : Text) : Text := ((s.dropWhile isSpace).reverse.dropWhile isSpace).reverse

/-- The loop in `PcParser::trimAndSubstitute` (pcparser.cpp 420-450). `name` is the part of the name of a variable that has
been read, after "${". -/
def subst (lookup : Text → Option Text) : Option Text → Text → Except Err Text
  | none, [] => .ok []
  | some _, [] => .error .missingBrace
  | none, ['$'] => .ok ['$']
  | none, '$' :: '$' :: s => (subst lookup none s).map ('$' :: ·)
  | none, '$' :: '{' :: s => subst lookup (some []) s
  | none, c :: s => (subst lookup none s).map (c :: ·)
  | some v, c :: s =>
    if c = '}' then
      match lookup v with
      | none => .error (.undefinedVariable v)
      | some x => (subst lookup none s).map (x ++ ·)
    else subst lookup (some (v ++ [c])) s

/-- `PcParser::trimAndSubstitute` (pcparser.cpp 415-453) -/
def trimAndSubstitute (lookup : Text → Option Text) (s : Text) : Except Err Text := subst lookup none (trimmed s)

/-- `splitCommand` (pcparser.cpp 141-188). `quote` is the NUL character outside of quotes. -/
def splitCommand (quote : Char) (arg : Text) (result : List Text) : Text → Option (List Text)
  | [] => some (if arg = [] then result else result ++ [arg])
  | c :: s =>
    if quote = c then splitCommand (Char.ofNat 0) arg result s
    else if quote ≠ Char.ofNat 0 then
      if c = '\\' then
        match s with
        | [] => none
        | d :: s' => splitCommand quote (arg ++ (if d ≠ quote then ['\\', d] else [d])) result s'
      else splitCommand quote (arg ++ [c]) result s
    else if isSpace c then
      if arg = [] then splitCommand quote [] result s else splitCommand quote [] (result ++ [arg]) s
    else if c = '"' ∨ c = '\'' then splitCommand c arg result s
    else if c = '\\' then
      match s with
      | [] => none
      | d :: s' => splitCommand quote (arg ++ [d]) result s'
    else splitCommand quote (arg ++ [c]) result s

def split (s : Text) : Option (List Text) := splitCommand (Char.ofNat 0) [] [] s

/-- pcparser.cpp 253-254 -/
def isSeparator (c : Char) : Bool := c == ',' || isSpace c
def isOperator (c : Char) : Bool := c == '<' || c == '>' || c == '!' || c == '='

/-- The states in `splitModuleList` (pcparser.cpp 263-271) -/
inductive State where
  | outside | inName | beforeOperator | inOperator | afterOperator | inVersion
  deriving Repr, DecidableEq

/-- The switch in `splitModuleList` (pcparser.cpp 283-328). `rest` is what follows the character. -/
def State.next (c : Char) (rest : Text) : State → State
  | .outside => if isSeparator c then .outside else .inName
  | .inName =>
    if isSpace c then
      match rest.dropWhile isSpace with
      | [] => .outside
      | d :: _ => if isOperator d then .beforeOperator else .outside
    else if isSeparator c then .outside
    else .inName
  | .beforeOperator => if isSpace c then .beforeOperator else if isOperator c then .inOperator else .beforeOperator
  | .inOperator => if isOperator c then .inOperator else .afterOperator
  | .afterOperator => if isSpace c then .afterOperator else .inVersion
  | .inVersion => if isSeparator c then .outside else .inVersion

/-- `splitModuleList` (pcparser.cpp 261-357). `cur` is what is between `start` and `p`. -/
def splitModules (st : State) (cur : Text) : Text → List Text
  | [] => if cur = [] then [] else [cur.dropWhile isSeparator]
  | c :: s =>
    let st' := st.next c s
    if st' = .outside ∧ st ≠ .outside then cur.dropWhile isSeparator :: splitModules st' [c] s
    else splitModules st' (cur ++ [c]) s

/-- `PcPackage::RequiredVersion::ComparisonType` (src/lib/pkgconfig/pcpackage.h 83-91) -/
inductive Comparison where
  | lessThan | greaterThan | lessThanEqual | greaterThanEqual | equal | notEqual | alwaysMatch
  deriving Repr, DecidableEq

/-- `comparisonFromString` (pcparser.cpp 359-379) -/
def comparison (s : Text) : Option Comparison :=
  if s = [] then some .alwaysMatch
  else if s = ['='] then some .equal
  else if s = ['>', '='] then some .greaterThanEqual
  else if s = ['<', '='] then some .lessThanEqual
  else if s = ['>'] then some .greaterThan
  else if s = ['<'] then some .lessThan
  else if s = ['!', '='] then some .notEqual
  else none

/-- `PcPackage::RequiredVersion` (pcpackage.h 81-99) -/
structure Required where
  name : Text
  comparison : Comparison
  version : Text
  deriving Repr, DecidableEq

/-- Up to the next white space, and the rest after that white space (pcparser.cpp 640-653, for example) -/
def word (s : Text) : Text × Text := (s.takeWhile (fun c => !isSpace c), (s.dropWhile (fun c => !isSpace c)).dropWhile isSpace)

/-- One round in `PcParser::parseModuleList` (pcparser.cpp 632-681) -/
def parseModule (m : Text) : Except Err Required :=
  let n := word m
  if n.1 = [] then .error .emptyName
  else
    let o := word n.2
    match comparison o.1 with
    | none => .error .unknownComparison
    | some op =>
      let v := word o.2
      if op ≠ .alwaysMatch ∧ v.1 = [] then .error .noVersion
      else .ok { name := n.1, comparison := op, version := v.1 }

def parseModules : List Text → Except Err (List Required)
  | [] => .ok []
  | m :: l =>
    match parseModule m with
    | .error e => .error e
    | .ok r => (parseModules l).map (r :: ·)

/-- `PcParser::parseModuleList` (pcparser.cpp 625-685) -/
def parseModuleList (s : Text) : Except Err (List Required) := parseModules (splitModules .outside [] s)

/-- `PcPackage::Flag::Type` (pcpackage.h 57-69) -/
inductive FlagType where
  | libraryName | staticLibraryName | libraryPath | framework | frameworkPath | linkerFlag
  | includePath | systemIncludePath | dirAfterIncludePath | define | compilerFlag
  deriving Repr, DecidableEq

structure Flag where
  type : FlagType
  value : Text
  deriving Repr, DecidableEq

def startsWith (s pre : Text) : Bool := pre.isPrefixOf s
def endsWith (s suf : Text) : Bool := suf.isSuffixOf s

/-- `PcParser::doParseLibs` (pcparser.cpp 518-569) -/
def parseLibs : List Text → List Flag
  | [] => []
  | a :: l =>
    let arg := trimmed a
    if startsWith arg "-l".toList && !startsWith arg "-lib:".toList then ⟨.libraryName, trimmed (arg.drop 2)⟩ :: parseLibs l
    else if startsWith arg "-L".toList then ⟨.libraryPath, trimmed (arg.drop 2)⟩ :: parseLibs l
    else
      match decide (arg = "-framework".toList), l with
      | true, b :: l' => ⟨.framework, trimmed b⟩ :: parseLibs l'
      | _, l =>
        if startsWith arg "-F".toList then ⟨.frameworkPath, trimmed (arg.drop 2)⟩ :: parseLibs l
        else if !startsWith arg "-".toList && (endsWith arg ".a".toList || endsWith arg ".lib".toList) then
          ⟨.staticLibraryName, arg⟩ :: parseLibs l
        else if arg = [] then parseLibs l
        else ⟨.linkerFlag, arg⟩ :: parseLibs l

/-- The loop in `PcParser::parseCFlags` (pcparser.cpp 589-620) -/
def parseCFlags : List Text → List Flag
  | [] => []
  | a :: l =>
    let arg := trimmed a
    if startsWith arg "-I".toList then ⟨.includePath, trimmed (arg.drop 2)⟩ :: parseCFlags l
    else if startsWith arg "-D".toList then ⟨.define, trimmed (arg.drop 2)⟩ :: parseCFlags l
    else
      match decide (arg = "-isystem".toList), decide (arg = "-idirafter".toList), l with
      | true, _, b :: l' => ⟨.systemIncludePath, trimmed b⟩ :: parseCFlags l'
      | _, true, b :: l' => ⟨.dirAfterIncludePath, trimmed b⟩ :: parseCFlags l'
      | _, _, l => if arg = [] then parseCFlags l else ⟨.compilerFlag, arg⟩ :: parseCFlags l

/-- The parts of `PkgConfig::Options` (src/lib/pkgconfig/pkgconfig.h 50-64) that matter here. The system library paths are
empty if they are allowed. -/
structure Options where
  globals : List (Text × Text) := []
  system : List (Text × Text) := []
  definePrefix : Bool := false
  sysroot : Text := []
  systemLibraryPaths : List Text := []
  deriving Repr

/-- `PcPackage` (pcpackage.h 53-127) -/
structure Package where
  filePath : Text := []
  baseFileName : Text := []
  name : Text := []
  version : Text := []
  description : Text := []
  url : Text := []
  libs : List Flag := []
  libsPrivate : List Flag := []
  cflags : List Flag := []
  requiresPublic : List Required := []
  requiresPrivate : List Required := []
  conflicts : List Required := []
  oldPrefix : Option Text := none
  variables : List (Text × Text) := []
  deriving Repr, DecidableEq

def look (k : Text) : List (Text × Text) → Option Text
  | [] => none
  | p :: l => if p.1 = k then some p.2 else look k l

/-- `varToEnvVar` (pkgconfig.cpp 51-69) -/
def varToEnvVar (pkg var : Text) : Text :=
  ("PKG_CONFIG_".toList ++ pkg ++ ['_'] ++ var).map (fun p => let c := p.toUpper; if c.isAlphanum then c else '_')

/-- `PkgConfig::packageGetVariable` (pkgconfig.cpp 158-186) -/
def getVariable (o : Options) (pkg : Package) (var : Text) : Option Text :=
  if var = [] then none
  else
    let global := look var o.globals
    let result := if pkg.baseFileName = [] then global
      else match look (varToEnvVar pkg.baseFileName var) o.system with
        | some x => some x
        | none => global
    match result with
    | some x => some x
    | none => look var pkg.variables

/-- `parentPath` (pcpackage.cpp 219-239), not on Windows -/
def parentPath (path : Text) : Text :=
  if path = [] then []
  else
    let r := path.reverse.dropWhile (fun c => c != '/')
    match r with
    | [] => ['.']
    | [_] => ['/']
    | _ :: r' => r'.reverse

/-- `fileName` and `completeBaseName` (pcpackage.cpp 198-217), not on Windows -/
def fileName (path : Text) : Text := (path.reverse.takeWhile (fun c => c != '/')).reverse
def completeBaseName (path : Text) : Text :=
  let f := fileName path
  if f.contains '.' then ((f.reverse.dropWhile (fun c => c != '.')).drop 1).reverse else f

/-- The new prefix in `PcParser::evaluateVariable` (pcparser.cpp 461-469) -/
def newPrefix (filePath str : Text) : Text :=
  let p := parentPath filePath
  let p := if completeBaseName p = "pkgconfig".toList then parentPath (parentPath p) else p
  if p = [] then str else p

/-- `PcParser::evaluateVariable` (pcparser.cpp 455-482): the value, and the new `oldPrefix` -/
def evaluateVariable (o : Options) (pkg : Package) (tag str : Text) : Except Err (Text × Option Text) :=
  if o.definePrefix then
    if tag = "prefix".toList then .ok (newPrefix pkg.filePath str, some str)
    else
      match pkg.oldPrefix with
      | some old =>
        if startsWith str (old ++ ['/']) then
          (trimAndSubstitute (getVariable o pkg) ((look "prefix".toList pkg.variables).getD [] ++ str.drop old.length)).map
            (fun v => (v, pkg.oldPrefix))
        else (trimAndSubstitute (getVariable o pkg) str).map (fun v => (v, pkg.oldPrefix))
      | none => (trimAndSubstitute (getVariable o pkg) str).map (fun v => (v, pkg.oldPrefix))
  else (trimAndSubstitute (getVariable o pkg) str).map (fun v => (v, pkg.oldPrefix))

/-- `PcParser::parseStringField` (pcparser.cpp 484-494) -/
def stringField (o : Options) (pkg : Package) (field tag str : Text) : Except Err Text :=
  if field ≠ [] then .error (.duplicateField tag) else trimAndSubstitute (getVariable o pkg) str

/-- `PcParser::parseLibs` (pcparser.cpp 496-516) and the beginning of `PcParser::parseCFlags` (pcparser.cpp 571-584) -/
def flagsField (o : Options) (pkg : Package) (parse : List Text → List Flag) (field : List Flag) (tag str : Text) :
    Except Err (List Flag) :=
  if field ≠ [] then .error (.duplicateField tag)
  else
    match trimAndSubstitute (getVariable o pkg) str with
    | .error e => .error e
    | .ok t =>
      if t = [] then .ok field
      else
        match split t with
        | none => .error .badCommand
        | some argv => .ok (parse argv)

/-- `PcParser::parseVersionsField` (pcparser.cpp 687-698) -/
def versionsField (o : Options) (pkg : Package) (field : List Required) (tag str : Text) : Except Err (List Required) :=
  if field ≠ [] then .error (.duplicateField tag)
  else
    match trimAndSubstitute (getVariable o pkg) str with
    | .error e => .error e
    | .ok t => parseModuleList t

/-- The characters of the first word (pcparser.cpp 706-716) -/
def isTag (c : Char) : Bool := c.isAlphanum || c == '_' || c == '.'

/-- What follows a keyword (pcparser.cpp 726-757) -/
def parseField (o : Options) (pkg : Package) (tag str : Text) : Except Err Package :=
  if tag = "Name".toList then (stringField o pkg pkg.name tag str).map (fun x => { pkg with name := x })
  else if tag = "Description".toList then (stringField o pkg pkg.description tag str).map (fun x => { pkg with description := x })
  else if tag = "Version".toList then (stringField o pkg pkg.version tag str).map (fun x => { pkg with version := x })
  else if tag = "Requires.private".toList then
    (versionsField o pkg pkg.requiresPrivate tag str).map (fun x => { pkg with requiresPrivate := x })
  else if tag = "Requires".toList then
    (versionsField o pkg pkg.requiresPublic tag str).map (fun x => { pkg with requiresPublic := x })
  else if tag = "Libs.private".toList then
    (flagsField o pkg parseLibs pkg.libsPrivate tag str).map (fun x => { pkg with libsPrivate := x })
  else if tag = "Libs".toList then (flagsField o pkg parseLibs pkg.libs tag str).map (fun x => { pkg with libs := x })
  else if tag = "Cflags".toList ∨ tag = "CFlags".toList then
    (flagsField o pkg parseCFlags pkg.cflags "Cflags".toList str).map (fun x => { pkg with cflags := x })
  else if tag = "Conflicts".toList then (versionsField o pkg pkg.conflicts tag str).map (fun x => { pkg with conflicts := x })
  else if tag = "URL".toList then (stringField o pkg pkg.url tag str).map (fun x => { pkg with url := x })
  else .ok pkg

/-- A definition of a variable (pcparser.cpp 758-767) -/
def parseVariable (o : Options) (pkg : Package) (tag str : Text) : Except Err Package :=
  match evaluateVariable o pkg tag str with
  | .error e => .error e
  | .ok (v, old) =>
    if (look tag pkg.variables).isSome then .error (.duplicateVariable tag)
    else .ok { pkg with oldPrefix := old, variables := pkg.variables ++ [(tag, v)] }

/-- `PcParser::parseLine` (pcparser.cpp 700-768) -/
def parseLine (o : Options) (pkg : Package) (line : Text) : Except Err Package :=
  let str := trimmed line
  let tag := str.takeWhile isTag
  match trimmed (str.dropWhile isTag) with
  | [] => .ok pkg
  | c :: rest =>
    if c = ':' then parseField o pkg tag (trimmed rest)
    else if c = '=' then parseVariable o pkg tag (trimmed rest)
    else .ok pkg

/-- The loop in `PcParser::parsePackageFile` (pcparser.cpp 407-409) -/
def parseFrom (o : Options) (pkg : Package) : List Text → Except Err Package
  | [] => .ok pkg
  | l :: ls =>
    match parseLine o pkg l with
    | .error e => .error e
    | .ok p => parseFrom o p ls

/-- `PcParser::parsePackageFile` (pcparser.cpp 388-413), given the contents of the file and the directory it is in -/
def parsePackage (o : Options) (path dir contents : Text) : Except Err Package :=
  if path = [] then .ok {}
  else parseFrom o { baseFileName := completeBaseName path, filePath := path, variables := [("pcfiledir".toList, dir)] }
    (fileLines contents)

end Verif.Pc
