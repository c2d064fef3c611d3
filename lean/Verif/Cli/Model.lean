/-
The command line of the qbs tool: src/app/qbs/parser/commandlineparser.cpp,
parsercommand.cpp and commandlineoption.cpp.
Simplifications: texts are lists of characters; a character counts as a digit if it is an
ASCII digit; QString::toInt is a parameter; the texts of messages are not modelled; the
options remember every use in order, where the code keeps a counter or the last value.
-/

namespace Verif.Cli

abbrev Str := List Char

/-- The options of the tool (commandlineoption.h 55-85). -/
inductive Opt where
  | file | buildDirectory | logLevel | verbose | quiet | jobs | keepGoing | dryRun
  | forceProbes | showProgress | changedFiles | products | noInstall | installRoot
  | removeFirst | noBuild | forceTimestampCheck | forceOutputCheck | buildNonDefault
  | logTime | commandEchoMode | settingsDir | jobLimits | respectProjectJobLimits
  | generator | waitLock | runEnvConfig | deprecationWarnings | tags
  deriving DecidableEq, Repr

/-- CommandLineOption::shortRepresentation (commandlineoption.cpp 83-555; commandlineoption.h
88): empty for options that have none. -/
def shortName : Opt → Str
  | .file => "-f".toList
  | .buildDirectory => "-d".toList
  | .generator => "-g".toList
  | .verbose => "-v".toList
  | .quiet => "-q".toList
  | .jobs => "-j".toList
  | .keepGoing => "-k".toList
  | .dryRun => "-n".toList
  | .products => "-p".toList
  | .logTime => "-t".toList
  | _ => []

/-- CommandLineOption::longRepresentation (commandlineoption.cpp 88-736). -/
def longName : Opt → Str
  | .file => "--file".toList
  | .buildDirectory => "--build-directory".toList
  | .generator => "--generator".toList
  | .verbose => "--more-verbose".toList
  | .quiet => "--less-verbose".toList
  | .jobs => "--jobs".toList
  | .keepGoing => "--keep-going".toList
  | .dryRun => "--dry-run".toList
  | .forceProbes => "--force-probe-execution".toList
  | .noInstall => "--no-install".toList
  | .showProgress => "--show-progress".toList
  | .changedFiles => "--changed-files".toList
  | .products => "--products".toList
  | .tags => "--tags".toList
  | .logLevel => "--log-level".toList
  | .forceTimestampCheck => "--check-timestamps".toList
  | .forceOutputCheck => "--check-outputs".toList
  | .buildNonDefault => "--all-products".toList
  | .installRoot => "--install-root".toList
  | .removeFirst => "--clean-install-root".toList
  | .noBuild => "--no-build".toList
  | .logTime => "--log-time".toList
  | .settingsDir => "--settings-dir".toList
  | .jobLimits => "--job-limits".toList
  | .respectProjectJobLimits => "--enforce-project-job-limits".toList
  | .commandEchoMode => "--command-echo-mode".toList
  | .deprecationWarnings => "--deprecation-warnings".toList
  | .waitLock => "--wait-lock".toList
  | .runEnvConfig => "--setup-run-env-config".toList

/-- Whether doParse of the option takes a word of the input (commandlineoption.h 106-445:
CountingOption and OnOffOption do not). -/
def takesArgument : Opt → Bool
  | .file | .buildDirectory | .generator | .jobs | .changedFiles | .products | .tags
  | .runEnvConfig | .logLevel | .installRoot | .commandEchoMode | .deprecationWarnings
  | .settingsDir | .jobLimits => true
  | _ => false

/-- canAppearMoreThanOnce (commandlineoption.h 91 and 162). -/
def canAppearMoreThanOnce : Opt → Bool
  | .verbose | .quiet => true
  | _ => false

/-- The commands of the tool (commandlineparser.cpp 391-407). -/
inductive Cmd where
  | generate | resolve | build | clean | run | shell | status | updateTimestamps | install
  | dumpNodesTree | listProducts | version | session | help
  deriving DecidableEq, Repr

/-- CommandLineParserPrivate::allCommands (commandlineparser.cpp 391-407). -/
def allCommands : List Cmd :=
  [.generate, .resolve, .build, .clean, .run, .shell, .status, .updateTimestamps, .install,
    .dumpNodesTree, .listProducts, .version, .session, .help]

/-- Command::representation (parsercommand.cpp 195-612). -/
def cmdName : Cmd → Str
  | .resolve => "resolve".toList
  | .generate => "generate".toList
  | .build => "build".toList
  | .clean => "clean".toList
  | .install => "install".toList
  | .run => "run".toList
  | .shell => "shell".toList
  | .status => "status".toList
  | .updateTimestamps => "update-timestamps".toList
  | .dumpNodesTree => "dump-nodes-tree".toList
  | .listProducts => "list-products".toList
  | .help => "help".toList
  | .version => "show-version".toList
  | .session => "session".toList

/-- resolveOptions (parsercommand.cpp 200-214). -/
def resolveOptions : List Opt :=
  [.file, .buildDirectory, .logLevel, .verbose, .quiet, .showProgress, .dryRun, .forceProbes,
    .logTime, .deprecationWarnings, .jobs]

/-- buildOptions (parsercommand.cpp 274-289). -/
def buildOptions : List Opt :=
  resolveOptions ++
    [.keepGoing, .products, .changedFiles, .forceTimestampCheck, .forceOutputCheck,
      .buildNonDefault, .commandEchoMode, .noInstall, .removeFirst, .jobLimits,
      .respectProjectJobLimits, .waitLock]

/-- installOptions (parsercommand.cpp 350-357). -/
def installOptions : List Opt :=
  (buildOptions ++ [Opt.installRoot, Opt.noBuild]).erase Opt.noInstall

/-- Command::supportedOptions (parsercommand.cpp 216-586; parsercommand.h 275). -/
def supportedOptions : Cmd → List Opt
  | .resolve => resolveOptions
  | .generate =>
    [.file, .buildDirectory, .logLevel, .verbose, .quiet, .showProgress, .installRoot,
      .logTime, .generator]
  | .build => buildOptions
  | .clean =>
    [.buildDirectory, .dryRun, .keepGoing, .logTime, .products, .quiet, .settingsDir,
      .showProgress, .verbose]
  | .install => installOptions
  | .run => installOptions ++ [.runEnvConfig]
  | .shell => [.file, .buildDirectory, .products]
  | .status => [.buildDirectory]
  | .updateTimestamps => [.buildDirectory, .logLevel, .verbose, .quiet, .products]
  | .dumpNodesTree => [.buildDirectory, .products]
  | .listProducts => [.file, .buildDirectory, .tags]
  | .help => []
  | .version => []
  | .session => []

/-- Command::actualSupportedOptions (parsercommand.cpp 92-98). -/
def actualSupportedOptions (c : Cmd) : List Opt :=
  if c = .help then supportedOptions c else supportedOptions c ++ [.settingsDir]

/-- Command::canResolve (parsercommand.cpp 63-66). -/
def canResolve (c : Cmd) : Bool := (supportedOptions c).contains .file

/-- QString::split(QChar). -/
def splitAt (sep : Char) : Str → List Str
  | [] => [[]]
  | c :: s =>
    if c = sep then [] :: splitAt sep s
    else
      match splitAt sep s with
      | [] => [[c]]
      | w :: ws => (c :: w) :: ws

/-- StringListOption::doParse (commandlineoption.cpp 330-346): the elements of the list, unless
one of them is empty. -/
def listArgument (v : Str) : Option (List Str) :=
  if (splitAt ',' v).any (·.isEmpty) then none else some (splitAt ',' v)

/-- One element of the argument of JobLimitsOption (commandlineoption.cpp 607-627): the pool
and its limit. -/
def jobLimit (num : Str → Option Int) (s : Str) : Option (Str × Int) :=
  let pool := s.takeWhile (· ≠ ':')
  let limit := (s.dropWhile (· ≠ ':')).drop 1
  if pool.isEmpty || !s.contains ':' || limit.isEmpty then none
  else (num limit).map fun n => (pool, n)

/-- The names of the log levels (ilogsink.cpp 59-76; commandlineoption.cpp 423-436). -/
def logLevelNames : List Str :=
  ["error".toList, "warning".toList, "info".toList, "debug".toList, "trace".toList]

/-- allCommandEchoModeStrings (commandechomode.cpp 63-99). -/
def echoModeNames : List Str :=
  ["silent".toList, "summary".toList, "command-line".toList,
    "command-line-with-environment".toList]

/-- allDeprecationWarningModeStrings (deprecationwarningmode.cpp 61-96). -/
def deprecationModeNames : List Str :=
  ["error".toList, "on".toList, "before-removal".toList, "off".toList]

/-- Whether doParse of the option accepts the word `v` as its argument (commandlineoption.cpp
92-95, 133-136, 156-163, 230-238, 330-346, 422-436, 500-512, 577-584, 599-629, 661-676,
699-714). -/
def accepts (num : Str → Option Int) (o : Opt) (v : Str) : Bool :=
  match o with
  | .generator => !v.isEmpty
  | .jobs => (num v).any (0 < ·)
  | .changedFiles | .products | .tags | .runEnvConfig => (listArgument v).isSome
  | .logLevel => logLevelNames.contains v
  | .commandEchoMode => !v.isEmpty && echoModeNames.contains v
  | .deprecationWarnings => !v.isEmpty && deprecationModeNames.contains v
  | .jobLimits => (splitAt ',' v).all fun s => (jobLimit num s).isSome
  | _ => true

/-- What a command has read so far. -/
structure State where
  /-- The options that were used, in order, with their arguments (m_usedOptions and the values
  of the options). -/
  uses : List (Opt × Option Str) := []
  /-- Command::m_additionalArguments. -/
  assignments : List Str := []
  /-- RunCommand::m_targetParameters. -/
  target : List Str := []
  /-- HelpCommand::m_command. -/
  topic : Option Str := none
  deriving DecidableEq, Repr

/-- The errors of the parser. -/
inductive Err where
  | emptyOption
  | numericOption (s : Str)
  | unknownOption (s : Str)
  | repeated (s : Str)
  | missingArgument (o : Opt)
  | badArgument (o : Opt) (v : Str)
  | unexpectedParameter (s : Str)
  | emptyKey (s : Str)
  | noAssignments
  | tooManyTopics
  | noArguments
  | outOfFuel
  deriving DecidableEq, Repr

/-- Command::parsePropertyAssignment (parsercommand.cpp 68-90). -/
def parsePropertyAssignment (c : Cmd) (s : State) (a : Str) : Except Err State :=
  if a.head? = some '-' then .error (.unknownOption a)
  else if ¬ ':' ∈ a then .error (.unexpectedParameter a)
  else if a.head? = some ':' then .error (.emptyKey a)
  else if !canResolve c && !("config:".toList).isPrefixOf a then .error .noAssignments
  else .ok { s with assignments := s.assignments ++ [a] }

/-- One step of the loop that splits up grouped short options, from the end of the word
(parsercommand.cpp 111-121): the pending parameter and the input. -/
def groupStep (ch : Char) (st : Str × List Str) : Str × List Str :=
  if ch.isDigit then (ch :: st.1, st.2)
  else ([], ['-', ch] :: (if st.1.isEmpty then st.2 else st.1 :: st.2))

/-- The loop (parsercommand.cpp 109-122). -/
def splitGroup (cs : Str) (input : List Str) : Str × List Str :=
  cs.foldr groupStep ([], input)

/-- option->parse (commandlineoption.cpp 50-70 and the doParse functions). -/
def useOption (num : Str → Option Int) (s : State) (o : Opt) (input : List Str) :
    Except Err (State × List Str) :=
  if takesArgument o then
    match input with
    | [] => .error (.missingArgument o)
    | v :: rest =>
      if accepts num o v then .ok ({ s with uses := s.uses ++ [(o, some v)] }, rest)
      else .error (.badArgument o v)
  else .ok ({ s with uses := s.uses ++ [(o, none)] }, input)

/-- The lookup of an option by its name (parsercommand.cpp 128-135). -/
def findOption (c : Cmd) (w : Str) : Option Opt :=
  (actualSupportedOptions c).find? fun o => shortName o = w || longName o = w

/-- Command::parseOption for the word `w` (parsercommand.cpp 100-146). -/
def parseOption (num : Str → Option Int) (c : Cmd) (s : State) (w : Str) (rest : List Str) :
    Except Err (State × List Str) :=
  if w.length = 1 then .error .emptyOption
  else if w[1]? ≠ some '-' ∧ 2 < w.length then
    if (splitGroup w.tail rest).1.isEmpty then .ok (s, (splitGroup w.tail rest).2)
    else .error (.numericOption (splitGroup w.tail rest).1)
  else
    match findOption c w with
    | none => .error (.unknownOption w)
    | some o =>
      if (s.uses.map Prod.fst).contains o && !canAppearMoreThanOnce o then .error (.repeated w)
      else useOption num s o rest

/-- Command::parseNext (parsercommand.cpp 148-155). -/
def parseNextBase (num : Str → Option Int) (c : Cmd) (s : State) (w : Str) (rest : List Str) :
    Except Err (State × List Str) :=
  if w.head? = some '-' then parseOption num c s w rest
  else (parsePropertyAssignment c s w).map fun s => (s, rest)

/-- parseNext of the commands for the input `w :: rest` (parsercommand.cpp 148-155, 393-403,
560-568, 591-595, 614-618). -/
def parseNext (num : Str → Option Int) (c : Cmd) (s : State) (w : Str) (rest : List Str) :
    Except Err (State × List Str) :=
  match c with
  | .run =>
    if w ≠ "--".toList then parseNextBase num c s w rest
    else .ok ({ s with target := rest }, [])
  | .help => if rest.isEmpty then .ok ({ s with topic := some w }, []) else .error .tooManyTopics
  | .version | .session => .error .noArguments
  | _ => parseNextBase num c s w rest

/-- Command::parse (parsercommand.cpp 57-61), with fuel. -/
def parseLoop (num : Str → Option Int) (c : Cmd) : Nat → State → List Str → Except Err State
  | _, s, [] => .ok s
  | 0, _, _ :: _ => .error .outOfFuel
  | fuel + 1, s, w :: rest =>
    match parseNext num c s w rest with
    | .error e => .error e
    | .ok (s, input) => parseLoop num c fuel s input

/-- An upper bound for the number of steps: a word that stands for several short options is
split into fewer words than it has characters, and none of these is split again. -/
def weight (input : List Str) : Nat :=
  (input.map fun w => if w.head? = some '-' ∧ 2 < w.length then w.length else 1).sum

/-- Command::parse (parsercommand.cpp 57-61). -/
def parse (num : Str → Option Int) (c : Cmd) (input : List Str) : Except Err State :=
  parseLoop num c (weight input) {} input

/-- commandFromString (commandlineparser.cpp 381-389). -/
def commandFromString (w : Str) : Option Cmd := allCommands.find? fun c => cmdName c = w

/-- The words that ask for help (commandlineparser.cpp 346). -/
def isHelp (w : Str) : Bool := w = "-h".toList || w = "--help".toList

/-- The choice of the command in doParse (commandlineparser.cpp 334-367): the command and the
words that it parses. -/
def chooseCommand : List Str → Cmd × List Str
  | [] => (.build, [])
  | w :: rest =>
    match commandFromString w with
    | some c => if rest.any isHelp then (.help, [w]) else (c, rest)
    | none =>
      if isHelp w then (.help, rest)
      else if w = "-V".toList || w = "--version".toList then (.version, rest)
      else (.build, w :: rest)

/-- The first part of doParse (commandlineparser.cpp 334-371): what is to be done. -/
def doParse (num : Str → Option Int) (args : List Str) : Except Err (Cmd × State) :=
  (parse num (chooseCommand args).1 (chooseCommand args).2).map fun s =>
    ((chooseCommand args).1, s)

/-! ### Build configurations -/

/-- QMap::insert. -/
def insert {α : Type} (k : Str) (v : α) : List (Str × α) → List (Str × α)
  | [] => [(k, v)]
  | (k', v') :: m =>
    if k < k' then (k, v) :: (k', v') :: m
    else if k = k' then (k, v) :: m
    else (k', v') :: insert k v m

/-- QMap::value and QMap::contains. -/
def get {α : Type} (k : Str) : List (Str × α) → Option α
  | [] => none
  | (k', v) :: m => if k' = k then some v else get k m

/-- "qbs.configurationName" (commandlineparser.cpp 499). -/
def configurationNameKey : Str := "qbs.configurationName".toList

/-- propertyName (commandlineparser.cpp 602-608). -/
def propertyName (k : Str) : Str :=
  if '.' ∈ k then k else "qbs.".toList ++ k

/-- The key of an assignment (commandlineparser.cpp 504-506). -/
def keyOf (a : Str) : Str := a.takeWhile (· ≠ ':')

/-- The text after the first colon (commandlineparser.cpp 507). -/
def valueOf (a : Str) : Str := (a.dropWhile (· ≠ ':')).drop 1

/-- The loop over the assignments (commandlineparser.cpp 503-519); the values are kept as texts,
representationToVariant is applied to them later. -/
def collect : List Str → Str → List (Str × Str) → List (Str × List (Str × Str)) →
    List (Str × List (Str × Str))
  | [], name, props, acc => acc ++ [(name, props)]
  | a :: as, name, props, acc =>
    if keyOf a = "config".toList ∨ keyOf a = configurationNameKey then
      collect as (valueOf a) [] (acc ++ [(name, props)])
    else collect as name (insert (propertyName (keyOf a)) (valueOf a) props) acc

/-- The global properties are added where they are missing (commandlineparser.cpp 527-532). -/
def addGlobals (globals props : List (Str × Str)) : List (Str × Str) :=
  globals.foldl (fun m e => if (get e.1 m).isSome then m else insert e.1 e.2 m) props

/-- The loop over the sections (commandlineparser.cpp 526-543). -/
def configurations (globals : List (Str × Str)) :
    List (Str × List (Str × Str)) → List (List (Str × Str)) → List (List (Str × Str))
  | [], acc => acc
  | (name, props) :: items, acc =>
    if acc.any fun m => get configurationNameKey m = some name then
      configurations globals items acc
    else
      configurations globals items
        (acc ++ [insert configurationNameKey name (addGlobals globals props)])

/-- setupBuildConfigurations (commandlineparser.cpp 492-546). -/
def setupBuildConfigurations (assignments : List Str) : List (List (Str × Str)) :=
  match collect assignments [] [] [] with
  | [] => []
  | [(_, globals)] => configurations globals [("default".toList, [])] []
  | (_, globals) :: items => configurations globals items []

/-! ### Log level -/

/-- setupLogLevel (commandlineparser.cpp 561-600): the base level, the numbers of -v and of -q,
and whether a progress bar is shown. -/
def logLevel (base verbose quiet : Nat) (progress : Bool) : Int :=
  let l : Int := (base : Int) + verbose - quiet
  let l := if progress && l ≠ 0 then 0 else l
  if l < 0 then 0 else if 4 < l then 4 else l

end Verif.Cli
