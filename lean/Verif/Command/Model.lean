import Verif.Shell.Model
/-!
# What a process command starts

The environment, the program, the arguments and the reported output of a `Command` of a rule:
src/lib/corelib/buildgraph/processcommandexecutor.cpp, src/lib/corelib/buildgraph/rulecommands.cpp and
src/lib/corelib/tools/executablefinder.cpp.

Simplifications: a QString is a sequence of `Char`s; encoding and decoding (`toUtf8`, `toLocal8Bit`, `fromLocal8Bit`) loses
nothing and is left out; a QProcessEnvironment is a list of pairs in which the first one for a variable counts. Filter functions
are not modelled.
-/

namespace Verif.Command
open Verif.Shell

/-! ## Environments -/

abbrev Env := List (Str × Str)

/-- Names of variables are the same: the keys of QProcessEnvironment (Qt) ignore the case on Windows hosts only. -/
def sameVar (os : Os) (a b : Str) : Bool :=
  match os with
  | .unix => a == b
  | .windows => a.map Char.toLower == b.map Char.toLower

/-- The value of a variable, if it is set. -/
def lookup (os : Os) (e : Env) (k : Str) : Option Str := (e.find? (fun p => sameVar os k p.1)).map (·.2)

/-- QProcessEnvironment::value (Qt): empty if the variable is not set. -/
def value (os : Os) (e : Env) (k : Str) : Str := (lookup os e k).getD []

/-- QProcessEnvironment::insert (Qt). -/
def insert (os : Os) (e : Env) (k v : Str) : Env := (k, v) :: e.filter (fun p => !sameVar os k p.1)

/-- One round of the loop of ProcessCommand::getEnvironmentFromList, rulecommands.cpp 274-282: the index of the first
equals sign must be positive and not the last one. -/
def entry (s : Str) : Option (Str × Str) :=
  let var := s.takeWhile (· != '=')
  let rest := s.dropWhile (· != '=')
  if var = [] ∨ rest.length ≤ 1 then none else some (var, rest.drop 1)

/-- The entry is added unless it was skipped, rulecommands.cpp 277-281. -/
def addEntry (os : Os) (e : Env) (s : Str) : Env :=
  match entry s with
  | none => e
  | some p => insert os e p.1 p.2

/-- ProcessCommand::getEnvironmentFromList, rulecommands.cpp 271-283. -/
def fromList (os : Os) (l : List Str) : Env := l.foldl (addEntry os) []

/-- HostOsInfo::pathListSeparator, hostosinfo.h 164-167. -/
def listSeparator : Os → Char
  | .unix => ':'
  | .windows => ';'

/-- `pathListVariables`, processcommandexecutor.cpp 87-92. -/
def pathListVariables : List Str :=
  ["PATH".toList, "LD_LIBRARY_PATH".toList, "DYLD_LIBRARY_PATH".toList, "DYLD_FRAMEWORK_PATH".toList]

/-- The value a variable gets, processcommandexecutor.cpp 95-100. HostOsInfo::fileNameCaseSensitivity (hostosinfo.h 150-153)
is the one of the keys. -/
def mergedValue (os : Os) (base additional : Env) (key : Str) : Str :=
  if pathListVariables.any (fun p => sameVar os key p) && value os base key != [] then
    value os additional key ++ listSeparator os :: value os base key
  else value os additional key

/-- mergeEnvironments, processcommandexecutor.cpp 82-104. -/
def mergeEnvironments (os : Os) (base additional : Env) : Env :=
  (additional.map (·.1)).foldl (fun env key => insert os env key (mergedValue os base additional key)) base

/-! ## Looking for the program (Unix hosts) -/

/-- `split(c, Qt::SkipEmptyParts)` (Qt); the first argument is the part being read. -/
def splitSkip (c : Char) : Str → Str → List Str
  | cur, [] => if cur = [] then [] else [cur]
  | cur, x :: xs =>
    if x = c then (if cur = [] then [] else [cur]) ++ splitSkip c [] xs
    else splitSkip c (cur ++ [x]) xs

/-- executablefinder.cpp 119-126: the directory is prepared for appending the name of the program. -/
def prepareDir (workingDir dir : Str) : Str :=
  let d := if dir = ['.'] then workingDir else dir
  match d.getLast? with
  | none => d
  | some c => if c ≠ '/' ∧ c ≠ '\\' then d ++ ['/'] else d

/-- The loop over the directories, executablefinder.cpp 119-129, with candidateCheck (92-105); the only suffix on a Unix
host is the empty one (53-63). `exec` says which paths are those of executable files. -/
def searchDirs (exec : Str → Bool) (workingDir program : Str) : List Str → Str
  | [] => program
  | d :: ds =>
    let candidate := prepareDir workingDir d ++ program
    if exec candidate then candidate else searchDirs exec workingDir program ds

/-- `m_executablePathCache` of the product, language.cpp 487-497. -/
abbrev Cache := List (Str × Str)

/-- ResolvedProduct::cachedExecutablePath, language.cpp 493-497. -/
def cached (c : Cache) (filePath : Str) : Str := ((c.find? (fun p => p.1 == filePath)).map (·.2)).getD []

/-- ExecutableFinder::findInPath, executablefinder.cpp 107-133. `pathVar` is the value of PATH. -/
def findInPath (exec : Str → Bool) (pathVar : Str) (c : Cache) (filePath workingDir : Str) : Str × Cache :=
  if cached c filePath ≠ [] then (cached c filePath, c)
  else
    let full := searchDirs exec workingDir filePath (splitSkip ':' [] pathVar)
    (full, (filePath, full) :: c)

/-- ExecutableFinder::findExecutable, executablefinder.cpp 75-84; FileInfo::isAbsolute (fileinfo.cpp 168-186) looks at the
first character. -/
def findExecutable (exec : Str → Bool) (pathVar : Str) (c : Cache) (path workingDir : Str) : Str × Cache :=
  match path with
  | '/' :: _ => (path, c)
  | _ => findInPath exec pathVar c path workingDir

/-! ## Commands -/

/-- AbstractCommand, rulecommands.h 112-121, and ProcessCommand, rulecommands.h 174-188. The custom properties are a value that
can be compared (`qVariantMapsEqual`). -/
structure Command where
  description : Str := []
  extendedDescription : Str := []
  highlight : Str := []
  ignoreDryRun : Bool := false
  silent : Bool := false
  jobPool : Str := []
  timeout : Int := -1
  properties : Nat := 0
  program : Str
  arguments : List Str
  workingDir : Str := []
  maxExitCode : Int := 0
  stdoutFilterFunction : Str := []
  stderrFilterFunction : Str := []
  responseFileThreshold : Int := -1
  responseFileArgumentIndex : Int := 0
  responseFileUsagePrefix : Str := []
  responseFileSeparator : Str := ['\n']
  environment : Env := []
  relevantEnvVars : List Str := []
  relevantEnvValues : Env := []
  stdoutFilePath : Str := []
  stderrFilePath : Str := []

/-- QProcessEnvironment::operator== (Qt): the same variables with the same values. -/
def envEq (os : Os) (a b : Env) : Bool :=
  (a.map (·.1)).all (fun k => lookup os a k == lookup os b k) &&
  (b.map (·.1)).all (fun k => lookup os a k == lookup os b k)

/-- AbstractCommand::equals, rulecommands.cpp 104-111; the types are the same here. -/
def baseEquals (a b : Command) : Bool :=
  a.description == b.description && a.extendedDescription == b.extendedDescription && a.highlight == b.highlight &&
  a.ignoreDryRun == b.ignoreDryRun && a.silent == b.silent && a.jobPool == b.jobPool && a.timeout == b.timeout &&
  a.properties == b.properties

/-- ProcessCommand::equals, rulecommands.cpp 285-305. -/
def equals (os : Os) (a b : Command) : Bool :=
  baseEquals a b && a.program == b.program && a.arguments == b.arguments && a.workingDir == b.workingDir &&
  a.maxExitCode == b.maxExitCode && a.stdoutFilterFunction == b.stdoutFilterFunction &&
  a.stderrFilterFunction == b.stderrFilterFunction && a.responseFileThreshold == b.responseFileThreshold &&
  a.responseFileArgumentIndex == b.responseFileArgumentIndex && a.responseFileUsagePrefix == b.responseFileUsagePrefix &&
  a.responseFileSeparator == b.responseFileSeparator && a.stdoutFilePath == b.stdoutFilePath &&
  a.stderrFilePath == b.stderrFilePath && a.relevantEnvVars == b.relevantEnvVars &&
  envEq os a.relevantEnvValues b.relevantEnvValues && envEq os a.environment b.environment

/-- The members of JavaScriptCommand, rulecommands.h 214-215, beside those of AbstractCommand. -/
structure JsCommand where
  base : Command
  scopeName : Str
  sourceCode : Str

/-- JavaScriptCommand::equals, rulecommands.cpp 426-432. -/
def jsEquals (a b : JsCommand) : Bool := baseEquals a.base b.base && a.sourceCode == b.sourceCode

/-- operator== of command lists, rulecommands.cpp 497-505. -/
def listEquals (os : Os) : List Command → List Command → Bool
  | [], [] => true
  | a :: as, b :: bs => equals os a b && listEquals os as bs
  | _, _ => false

/-! ## Response files (Unix hosts) -/

/-- What became of starting the program. -/
inductive Start where
  | direct (arguments : List Str)
  | viaFile (arguments : List Str) (content : Str)
  | cannotOpen (file : Str)
  | undefined
  deriving DecidableEq, Repr

/-- The loop writing the response file, processcommandexecutor.cpp 169-183; `files` gives the contents of the files that can be
opened. -/
def writeArgs (files : Str → Option Str) (pre separator : Str) : Str → List Str → Except Str Str
  | written, [] => .ok written
  | written, a :: as =>
    if pre.isPrefixOf a then
      match files (a.drop pre.length) with
      | none => .error (a.drop pre.length)
      | some content => writeArgs files pre separator (written ++ content ++ separator) as
    else writeArgs files pre separator (written ++ shellQuote .unix a ++ separator) as

/-- ProcessCommandExecutor::doStart, processcommandexecutor.cpp 149-190. `tempName` is the name chosen for the response file,
which can always be created. Reading the list of arguments at a negative index is undefined. -/
def startArguments (files : Str → Option Str) (tempName program : Str) (c : Command) : Start :=
  let commandLineLength := (shellQuoteCommand .unix program c.arguments).length
  if c.responseFileUsagePrefix ≠ [] ∧ 0 ≤ c.responseFileThreshold ∧ c.responseFileThreshold < commandLineLength then
    if c.responseFileArgumentIndex < 0 then .undefined
    else
      let index := c.responseFileArgumentIndex.toNat
      match writeArgs files c.responseFileUsagePrefix c.responseFileSeparator [] (c.arguments.drop index) with
      | .error f => .cannotOpen f
      | .ok content =>
        .viaFile (c.arguments.take (min index c.arguments.length) ++ [c.responseFileUsagePrefix ++ tempName]) content
  else .direct c.arguments

/-! ## Starting -/

/-- What a started process is given. -/
structure Process where
  program : Str
  arguments : Start
  environment : Env
  workingDir : Str

/-- ProcessCommandExecutor::doSetup, processcommandexecutor.cpp 106-121, followed by doStart (123-199). `productEnv` is the
environment of the product, in which the program is looked for, `buildEnv` the one given to the executor. -/
def launch (exec : Str → Bool) (files : Str → Option Str) (tempName : Str) (productEnv buildEnv : Env) (cache : Cache)
    (c : Command) : Process × Cache :=
  let (program, cache') := findExecutable exec (value .unix productEnv "PATH".toList) cache c.program c.workingDir
  ({ program := program
     arguments := startArguments files tempName program c
     environment := mergeEnvironments .unix buildEnv c.environment
     workingDir := c.workingDir }, cache')

/-- ProcessCommand::relevantEnvVars, rulecommands.cpp 362-368. -/
def relevantVars (c : Command) : List Str :=
  match c.program with
  | '/' :: _ => c.relevantEnvVars
  | _ => c.relevantEnvVars ++ ["PATH".toList]

/-- The values recorded by doSetup, processcommandexecutor.cpp 112-115. -/
def recordEnv (productEnv : Env) (c : Command) : Env :=
  (relevantVars c).foldl (fun e k => insert .unix e k (value .unix productEnv k)) []

/-! ## The output -/

/-- What is done with one of the two outputs of a process. -/
structure Output where
  /-- the lines reported -/
  lines : List Str
  /-- the file written, with its contents -/
  file : Option (Str × Str)
  deriving DecidableEq

/-- ProcessCommandExecutor::getProcessOutput, processcommandexecutor.cpp 268-297, without a filter function and if the file can
be written. -/
def getProcessOutput (redirectPath content : Str) : Output :=
  if redirectPath ≠ [] then { lines := [], file := some (redirectPath, content) }
  else
    let chopped := if content.getLast? = some '\n' then content.dropLast else content
    { lines := splitSkip '\n' [] chopped, file := none }

end Verif.Command
