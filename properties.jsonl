{"id": "C01", "title": "Set behaves as a finite mathematical set", "statement": "After any sequence of Set operations (construction from an initializer list, insert, remove, unite, intersect, subtract, operator-, operator&, operator+, filtered), the elements are strictly increasing (hence unique), membership of the result is exactly the set-theoretic union / intersection / difference / insertion / removal / selection of the operands' memberships, contains and intersects answer the subset / non-disjointness question, and operator== holds exactly when the two sets have the same members.", "quantifier": "all sets, all elements of a totally ordered type, all operation sequences", "why_tests_cant": "Two-finger merge loops and binary searches have boundary cases at every relative position of the operands; the domain is infinite and a sample of sets cannot show the sorted/unique invariant is preserved by every history.", "anchors": ["src/lib/corelib/tools/set.h: Set::insert, Set::remove, Set::unite, Set::intersect, Set::subtract, Set::contains, Set::intersects, Set::filtered, operator-, operator&"]}
{"id": "C02", "title": "Version comparison is a total order and printing round-trips", "statement": "compare() is a total order on versions (antisymmetric, transitive, total) that is lexicographic on (major, minor, patch, build), and Version::fromString(v.toString()) yields a version that compares equal to v, with the build number when build numbers are allowed.", "quantifier": "all versions with non-negative int components; all version strings", "why_tests_cant": "Quantifies over all pairs/triples of versions and all strings, including components at the int boundary.", "anchors": ["src/lib/corelib/tools/version.h: compare", "src/lib/corelib/tools/version.cpp: Version::fromString, Version::toString"]}
{"id": "C03", "title": "Narrowing a version range yields exactly the intersection", "statement": "VersionRange::narrowDown(other) yields a range that contains a version iff both ranges contained it, where minimum is inclusive, maximum is exclusive and an invalid maximum means 'no upper bound'.", "quantifier": "all pairs of version ranges and all versions", "why_tests_cant": "The interesting cases are the unbounded ranges and their combinations; correctness is a statement about all versions.", "anchors": ["src/lib/corelib/tools/version.cpp: VersionRange::narrowDown", "src/lib/corelib/loader/dependenciesresolver.cpp: checkModuleVersion/narrowDown users"]}
{"id": "C04", "title": "Job limits overlay like a finite map", "statement": "After any sequence of setJobLimit and update calls, getLimit(pool) is the most recently set (normalised) limit, -1 for pools never set; update(other) lets other's set entries win and leaves all other pools unchanged; 0 means unlimited and every value below -1 is normalised to -1.", "quantifier": "all histories of limit updates, all pool names", "why_tests_cant": "Statement about every history of updates, not any particular one.", "anchors": ["src/lib/corelib/tools/joblimits.cpp: JobLimits::setJobLimit, JobLimits::getLimit, JobLimits::update, transformLimit"]}
{"id": "C05", "title": "File times are totally ordered with the invalid time as minimum", "statement": "FileTime::compare is a total order; an invalid time is older than every valid time; oldestTime() is no newer than any time of an existing file whose seconds are at least 1.", "quantifier": "all timestamps", "why_tests_cant": "Order laws range over all triples of timestamps.", "anchors": ["src/lib/corelib/tools/filetime.cpp: FileTime::compare, FileTime::isValid, FileTime::oldestTime"]}
{"id": "C06", "title": "Path decomposition and resolution are consistent", "statement": "For every path, directory part and file name recompose the path; baseName/suffix and completeBaseName/completeSuffix decompose the file name; resolvePath(base, rel) of an absolute rel is rel; for a relative rel it equals lexically walking rel's components ('.' stays, '..' goes up, names go down) from the absolute base, and its result is absolute.", "quantifier": "all path strings", "why_tests_cant": "Strings are unbounded; boundary cases arise at slashes, dots and the root.", "anchors": ["src/lib/corelib/tools/fileinfo.cpp: FileInfo::fileName, baseName, completeBaseName, suffix, completeSuffix, path, splitIntoDirectoryAndFileName, resolvePath, isAbsolute"]}
{"id": "C07", "title": "Unix shell quoting round-trips through a POSIX shell", "statement": "For every list of arguments without NUL, splitting shellQuote(args, Unix) by POSIX shell word-splitting/quote-removal rules yields exactly args: no argument is split, merged, expanded or altered.", "quantifier": "all argument lists of arbitrary strings", "why_tests_cant": "Injection-style bugs hide in rarely tested character combinations; the claim is for all strings.", "anchors": ["src/lib/corelib/tools/shellutils.cpp: shellQuoteUnix, shellQuote, isSpecialChar"]}
{"id": "C08", "title": "Windows quoting round-trips through cmd.exe and the C run-time argument parser", "statement": "For every argument list, a command line made with shellQuote(args, Windows) is taken by cmd.exe as one plain command, and the called program's C run-time splits what cmd.exe passes on into exactly args.", "quantifier": "all argument lists over the characters handled by the quoting tables", "why_tests_cant": "Backslash runs before quotes are of unbounded length.", "anchors": ["src/lib/corelib/tools/shellutils.cpp: shellQuoteWin"]}
{"id": "C09", "title": "Launcher packets survive any chunking of the byte stream", "statement": "For every sequence of packets and every way the operating system splits the concatenated serialised bytes into chunks, the receiver reports exactly the same packets (type, token, payload), in order, each once it is completely received; a declared size smaller than the header is reported as an error rather than mis-parsed.", "quantifier": "all packet sequences, all partitions of the stream into chunks", "why_tests_cant": "The number of partitions is exponential; schedules of the peer and the kernel are not under test control.", "anchors": ["src/lib/corelib/tools/launcherpackets.cpp: LauncherPacket::serialize, PacketParser::parse"]}
{"id": "C10", "title": "Stored build-graph values load back unchanged", "statement": "Loading from the build graph stream what was stored, in the same order, yields equal values for every serialisable value (ints, strings incl. null vs empty, lists, maps, pairs, optionals, variants), and consumes exactly the bytes written, also when values repeat and are written as back references.", "quantifier": "all values and all sequences of stores", "why_tests_cant": "The value domain is infinite and recursive; back references make the encoding history dependent.", "anchors": ["src/lib/corelib/tools/persistence.h: PersistentPool::store, load, idStoreValue, idLoadValue, PPHelper", "src/lib/corelib/tools/persistence.cpp: storeVariant, loadVariant"]}
{"id": "C11", "title": "Object identity survives a store/load cycle", "statement": "After storing an object graph and loading it, two references are to the same object iff they were to the same object before, null stays null, and each object's content is stored exactly once; this holds for arbitrarily shared and cyclic graphs.", "quantifier": "all finite object graphs (including cycles)", "why_tests_cant": "Graph shapes are unbounded.", "anchors": ["src/lib/corelib/tools/persistence.h: storeSharedObject, idLoad, idLoadS"]}
{"id": "C12", "title": "A crash while saving never yields a build graph that loads as valid but is incomplete", "statement": "If the process dies at any point during saving the build graph, the next start either finds no file, or rejects the file, or finds the complete new contents; it never accepts a partially written file.", "quantifier": "all crash points between the file-system operations and after any prefix of the written bytes", "why_tests_cant": "Every byte position is a crash point.", "anchors": ["src/lib/corelib/tools/persistence.cpp: PersistentPool::load, setupWriteStream, finalizeWriteStream"]}
{"id": "C13", "title": "FileSaver replaces files atomically", "statement": "When saving via FileSaver, at every crash point the target file holds either the complete old or the complete new content; after a successful commit() it holds the new content, and an unchanged file is not rewritten.", "quantifier": "all old/new contents, all crash points, all write failures", "why_tests_cant": "Crash points and I/O failures cannot be enumerated by tests.", "anchors": ["src/lib/corelib/tools/filesaver.cpp: FileSaver::open, FileSaver::commit"]}
{"id": "C14", "title": "No command runs before its inputs are built", "statement": "In every build run, whenever the executor starts the commands of a transformer, every artifact and rule node that any of its outputs depends on has already been completely built (or was not part of the build).", "quantifier": "all build graphs, all job completion orders, all up-to-date outcomes", "why_tests_cant": "Completion orders are schedules; graphs are unbounded.", "anchors": ["src/lib/corelib/buildgraph/executor.cpp: scheduleJobs, potentiallyRunTransformer, finishNode, updateLeaves, allChildrenBuilt"]}
{"id": "C15", "title": "Concurrency and job-pool limits are never exceeded", "statement": "At every moment of a build, the number of running jobs is at most maxJobCount and, for every job pool with a finite limit, the number of running transformers using that pool is at most that limit.", "quantifier": "all graphs, limits and completion orders", "why_tests_cant": "Requires an invariant over every reachable scheduler state.", "anchors": ["src/lib/corelib/buildgraph/executor.cpp: scheduleJobs, schedulingBlockedByJobLimit, updateJobCounts, addExecutorJobs"]}
{"id": "C16", "title": "Each transformer's commands run at most once per build", "statement": "In one build run no transformer is started twice, even if several of its outputs become ready, and a transformer that is already running is never started again.", "quantifier": "all graphs and completion orders", "why_tests_cant": "Depends on interleavings of sibling outputs becoming ready.", "anchors": ["src/lib/corelib/buildgraph/executor.cpp: buildArtifact, potentiallyRunTransformer, finishTransformer, runTransformer"]}
{"id": "C17", "title": "A build that reports success has built everything requested", "statement": "If a build run finishes without error and was not canceled, every node reachable from the requested products' roots is in state built; with no failing job and no cancellation on an acyclic graph, the scheduler never gets stuck.", "quantifier": "all acyclic graphs, selections and completion orders", "why_tests_cant": "Deadlock freedom/liveness is a property of all runs.", "anchors": ["src/lib/corelib/buildgraph/executor.cpp: scheduleJobs, onJobFinished, checkForUnbuiltProducts, finish"]}
{"id": "C18", "title": "Failure containment", "statement": "When a transformer fails, no node depending (transitively) on its outputs is ever executed in this run; without keepGoing no new job is started after the first failure; with keepGoing every node not depending on a failed one is still built; the build reports the failure.", "quantifier": "all graphs, failure patterns and completion orders", "why_tests_cant": "Failure patterns \u00d7 schedules are unbounded.", "anchors": ["src/lib/corelib/buildgraph/executor.cpp: finishJob, onJobFinished, handleError, cancelJobs, checkForUnbuiltProducts"]}
{"id": "C19", "title": "Cancellation is clean", "statement": "After cancellation no further job is started, the finished signal is emitted exactly once and only when no job is running.", "quantifier": "all cancel points and completion orders", "why_tests_cant": "Cancel points are arbitrary moments in a schedule.", "anchors": ["src/lib/corelib/buildgraph/executor.cpp: cancelJobs, checkForCancellation, onJobFinished, finish"]}
{"id": "C20", "title": "Up-to-date decisions are sound", "statement": "A selected transformer is skipped exactly if it does not always run, no tracked change was found, no input was rebuilt since, every always-updated output (with a forced timestamp check: every output, by its time on disk) has a time not older than any of its inputs, and at least one output has; a second build directly after a successful one, nothing having changed, starts no job.", "quantifier": "all graphs and timestamps", "why_tests_cant": "Missing rebuilds depend on relations among all timestamps.", "anchors": ["src/lib/corelib/buildgraph/executor.cpp: isUpToDate, mustExecuteTransformer"]}
{"id": "C21", "title": "Parent/child links stay symmetric", "statement": "After any sequence of connect, disconnect and node destruction, a is recorded as parent of b iff b is recorded as child of a, and no destroyed node is referenced.", "quantifier": "all histories of graph operations", "why_tests_cant": "Invariant over all histories.", "anchors": ["src/lib/corelib/buildgraph/buildgraph.cpp: connect, safeConnect, disconnect", "src/lib/corelib/buildgraph/buildgraphnode.cpp: ~BuildGraphNode"]}
{"id": "C22", "title": "Guarded connections keep the build graph acyclic", "statement": "safeConnect adds the edge iff there is no path back and otherwise reports the conflict and leaves the graph unchanged, so the graph stays acyclic under any sequence of guarded connections.", "quantifier": "all histories", "why_tests_cant": "Acyclicity is a global property of unbounded graphs.", "anchors": ["src/lib/corelib/buildgraph/buildgraph.cpp: safeConnect, existsPath"]}
{"id": "C23", "title": "Cycle detection is sound and complete", "statement": "CycleDetector reports a cycle iff the graph reachable from the visited roots contains one, terminates, and the node list it reports is a cycle of the graph.", "quantifier": "all finite directed graphs", "why_tests_cant": "Graphs are unbounded.", "anchors": ["src/lib/corelib/buildgraph/cycledetector.cpp: visitProject, visitNode, cycle"]}
{"id": "C24", "title": "File lookup table is exact and generated files have a unique producer", "statement": "After any sequence of artifact insertions and removals, looking up a path returns exactly the file resources currently in the build graph with this path, and two distinct generated artifacts with the same path are never both present: the second insertion is rejected.", "quantifier": "all histories of insert/remove", "why_tests_cant": "Invariant over histories.", "anchors": ["src/lib/corelib/buildgraph/projectbuilddata.cpp: insertIntoLookupTable, removeFromLookupTable, lookupFiles"]}
{"id": "C25", "title": "Artifacts are found under exactly their file tags", "statement": "After any sequence of artifact insertions, removals and tag changes, the product's per-tag index contains an artifact under a tag iff the artifact is in the product and carries this tag. The artifacts among the product's targets carry a tag of the product's type; an artifact that gets such a tag becomes a target, and it stays one as long as it has another such tag.", "quantifier": "all histories", "why_tests_cant": "Invariant over histories.", "anchors": ["src/lib/corelib/buildgraph/productbuilddata.cpp: addFileTagToArtifact, removeArtifactFromSetByFileTag, addArtifactToSet", "src/lib/corelib/buildgraph/artifact.cpp: addFileTag, removeFileTag, setFileTags"]}
{"id": "C26", "title": "Removing an artifact removes exactly it and its exclusive dependents", "statement": "removeArtifactAndExclusiveDependents removes the artifact and precisely those parents that lose their last child or whose rule requires it; the remaining nodes keep their other connections and no dangling references remain.", "quantifier": "all graphs", "why_tests_cant": "Recursion over unbounded graphs.", "anchors": ["src/lib/corelib/buildgraph/projectbuilddata.cpp: removeArtifactAndExclusiveDependents, removeArtifact"]}
{"id": "C27", "title": "Rule graph connects producers with consumers and detects rule cycles", "statement": "In a product's rule graph, rule B has rule A as a child iff A can produce a tag B takes and none that B excludes. Every rule needed directly or indirectly for the product's tags gets exactly one rule node, no other rule does, and the nodes are connected like the rules; a cycle is reported iff there is one among the needed rules, together with rules that lead into it. Every tag an output can have is one that its rule is taken to produce, so that consumers wait for producers.", "quantifier": "all rule sets", "why_tests_cant": "Graphs over arbitrary tag relations.", "anchors": ["src/lib/corelib/buildgraph/rulegraph.cpp: build, connect, traverse", "src/lib/corelib/buildgraph/projectbuilddata.cpp: CreateRuleNodes"]}
{"id": "C28", "title": "A rule is applied again exactly for what changed, and its outputs are those its scripts gave", "statement": "A build applies a rule again to an input exactly if the input is new, is newer than the last application (for scripts that read files), the rule's explicit dependencies changed, or something its script read has changed; a rule is skipped exactly if that holds for no input and no input is gone. A rule for all inputs together runs once, for all of them, under the same condition. Afterwards there are exactly the outputs that the scripts gave, now or earlier, for the current inputs, with the commands they gave, and if nothing changes the next build applies no rule.", "quantifier": "all rules, worlds a rule is applied in, and histories of applications and new resolvings of the project", "why_tests_cant": "What is applied depends on the whole history of inputs, flags and time stamps.", "anchors": ["src/lib/corelib/buildgraph/rulenode.cpp: RuleNode::apply, changedInputArtifacts, updateOutputsDependencies", "src/lib/corelib/buildgraph/rulesapplicator.cpp: applyRule, doApply, createOutputArtifact", "src/lib/corelib/buildgraph/transformerchangetracking.cpp: prepareScriptNeedsRerun"]}
{"id": "C29", "title": "Cleaning removes only generated files of the selected kind", "statement": "clean never removes a source file, removes every generated existing artifact of the selected products, continues after failures only with keepGoing, and in dry-run mode changes nothing on disk.", "quantifier": "all build graphs, options and I/O failures", "why_tests_cant": "Absence of an effect for all states.", "anchors": ["src/lib/corelib/buildgraph/artifactcleaner.cpp: ArtifactCleaner::cleanup, removeEmptyDirectories, removeArtifactFromDisk"]}
{"id": "C30", "title": "Installation stays inside the install root and detects conflicts", "statement": "Every file installed goes below installRoot/installPrefix, two different source files are never silently installed to the same target, and installing never happens outside the root.", "quantifier": "all property combinations and paths", "why_tests_cant": "Adversarial paths.", "anchors": ["src/lib/corelib/buildgraph/productinstaller.cpp: targetFilePath, copyFile"]}
{"id": "C31", "title": "Change tracking triggers a re-run whenever a tracked input of a script changed", "statement": "If any property, file timestamp/existence, environment variable, import or artifact property value that a script accessed differs now from what it was recorded to be, the transformer's commands or prepare script are re-run; if nothing changed, they are not.", "quantifier": "all recorded sets and current states", "why_tests_cant": "All combinations of changes.", "anchors": ["src/lib/corelib/buildgraph/transformerchangetracking.cpp: TrafoChangeTracker"]}
{"id": "C32", "title": "Scan results are only reused for the matching file, scanner and settings", "statement": "findScanData returns for (file, scanner, properties) a result created for the same path, the same scanner and compatible module properties; results of another scanner or file are never returned, the file's content is still the one that was scanned, and after the invalidation of a scanner none of its earlier results is returned.", "quantifier": "all histories of scans", "why_tests_cant": "Cache correctness over histories.", "anchors": ["src/lib/corelib/buildgraph/rawscanresults.cpp: findScanData, invalidateResults"]}
{"id": "C33", "title": "Requested-artifacts tracking notices every relevant change", "statement": "If the set of artifacts a script asked for (all tags, or particular tags, possibly enumerated) changed in a product, isUpToDate reports it; merging the records of two scripts notices everything either of them would.", "quantifier": "all records and product states", "why_tests_cant": "All combinations of merged records.", "anchors": ["src/lib/corelib/buildgraph/requestedartifacts.cpp: RequestedArtifacts::isUpToDate, unite", "src/lib/corelib/buildgraph/requesteddependencies.cpp"]}
{"id": "C34", "title": "Rescued artifacts get their old state only when the build step is unchanged", "statement": "After re-resolving, an artifact takes over old timestamps/children only if the transformer's commands are equal to the recorded ones and all old children can be found again; otherwise it is rebuilt.", "quantifier": "all old/new graphs", "why_tests_cant": "All combinations.", "anchors": ["src/lib/corelib/buildgraph/artifactrescuer.cpp"]}
{"id": "C35", "title": "The build-graph lock excludes concurrent access and leaves no stray directories", "statement": "The lock on a build graph is taken when the constructor of the lock object returns; if it cannot be taken an error is raised after at most ten attempts, at once if its owner runs (unless waiting was requested). At most one process holds it, whatever the processes do and whenever they crash. Directories that did not exist before and are empty when the lock object is destroyed are removed, others are not.", "quantifier": "all outcomes of lock attempts, all interleavings of processes and crashes, all directory trees", "why_tests_cant": "Schedules of other processes.", "anchors": ["src/lib/corelib/tools/buildgraphlocker.cpp: BuildGraphLocker, DirectoryManager"]}
{"id": "C36", "title": "A job runs its commands in order and reports exactly once", "statement": "An executor job starts its commands one after the other in list order, each once, and no command after a failure or a cancellation. Every run is answered by exactly one finished signal, with an error iff the job was canceled or the last command started timed out or did not succeed; without error all commands have succeeded. As long as processes end and packets and timers arrive a job in progress finishes. The result of a run does not depend on earlier runs of the same job object. No internal assertion fails and no request to the process launcher is dropped.", "quantifier": "all command lists, histories of runs on one job object, cancel points, timeouts, orders of packets, process results and connection losses", "why_tests_cant": "Schedules, failure positions and reuse of the object.", "anchors": ["src/lib/corelib/buildgraph/executorjob.cpp: run, runNextCommand, onCommandFinished, cancel, setFinished", "src/lib/corelib/buildgraph/processcommandexecutor.cpp: doStart, cancel, sendProcessOutput, onProcessError, onProcessFinished", "src/lib/corelib/buildgraph/jscommandexecutor.cpp: doStart, cancel, onJavaScriptCommandFinished", "src/lib/corelib/buildgraph/abstractcommandexecutor.cpp: start, startTimeout", "src/lib/corelib/tools/qbsprocess.cpp", "src/lib/corelib/tools/launchersocket.cpp", "src/libexec/qbs_processlauncher/launchersockethandler.cpp"]}
{"id": "C37", "title": "Progress is monotone and reaches its maximum exactly at the end", "statement": "The progress a job reports never decreases and never exceeds the announced effort; in a build it stays below it until the end and is then exactly the effort; cleaning, installing and setting up reach the effort at the end. The executor's check that a finished transformer belongs to a counted rule never fails.", "quantifier": "all sequences of rule applications and finished transformers of a build, all sizes of the other jobs", "why_tests_cant": "All histories.", "anchors": ["src/lib/corelib/tools/progressobserver.cpp: incrementProgressValue, setFinished", "src/lib/corelib/buildgraph/executor.cpp: setupProgressObserver, executeRuleNode, finishTransformer", "src/lib/corelib/api/internaljobs.cpp: JobObserver"]}
{"id": "C38", "title": "toJSLiteral produces literals that evaluate to the original value", "statement": "Evaluating the JavaScript literal produced for a boolean, string, string list or variant yields the original value.", "quantifier": "all strings and nested values", "why_tests_cant": "All strings.", "anchors": ["src/lib/corelib/tools/jsliterals.cpp: toJSLiteral"]}
{"id": "C39", "title": "Project file edits apply as if simultaneous", "statement": "Applying a ChangeSet of non-overlapping edits (replace, insert, remove, move, copy, flip) transforms the text as if all edits were made simultaneously on the original text, independent of the order they were recorded; overlapping edits are reported.", "quantifier": "all texts and edit lists", "why_tests_cant": "All combinations of relative positions.", "anchors": ["src/lib/corelib/api/changeset.cpp: ChangeSet::apply, doReplace, hasOverlap"]}
{"id": "C40", "title": "Profile inheritance resolves to the nearest definition and cycles are reported", "statement": "Profile::value returns the value from the nearest profile on the baseProfile chain defining the key, the default if none does, an error on a missing base profile or a cycle before a definition was found, and always terminates; allKeys lists exactly the keys defined on the chain.", "quantifier": "all profile configurations", "why_tests_cant": "Chains and cycles of arbitrary length.", "anchors": ["src/lib/corelib/tools/profile.cpp: possiblyInheritedValue, allKeysInternal, extendAndCheckProfileChain"]}
{"id": "C41", "title": "Settings scopes merge predictably", "statement": "Settings::value returns the user value if only it is set, the system value if only that is set, the concatenation user++system for lists, the user value otherwise; allKeys contains each key in scope exactly once.", "quantifier": "all settings contents", "why_tests_cant": "All combinations of scopes/keys.", "anchors": ["src/lib/corelib/tools/settings.cpp: Settings::value, allKeys, fixupKeys"]}
{"id": "C42", "title": "Multiplexing yields exactly the cartesian product", "statement": "Multiplexing a product over n axes yields exactly one instance per combination of distinct values of the axes, no two with the same configuration, and the first product item is reused.", "quantifier": "all axis lists and values", "why_tests_cant": "Any number of axes.", "anchors": ["src/lib/corelib/loader/productitemmultiplexer.cpp: combine, extractMultiplexInfo"]}
{"id": "C43", "title": "Id interning is injective and stable", "statement": "Two Ids are equal iff their names are equal, over any history of creations; an Id's name is the string it was created from.", "quantifier": "all histories of Id creations", "why_tests_cant": "All histories, hash collisions.", "anchors": ["src/lib/corelib/tools/id.cpp: theId, getStringFromId"]}
{"id": "C44", "title": "Property merging picks the highest-priority value independently of merge order", "statement": "Merging module property values from several loading items results in the value with the highest priority (ties broken by scope name) with the others as candidates sorted by priority, whichever order they are merged in; command-line and internal values are never overridden.", "quantifier": "all candidate lists and merge orders", "why_tests_cant": "Permutations.", "anchors": ["src/lib/corelib/loader/modulepropertymerger.cpp"]}
{"id": "C45", "title": "Session packets survive any chunking of the input stream", "statement": "The JSON session protocol reader delivers exactly the packets sent, irrespective of how the stream is chunked.", "quantifier": "all packet sequences and chunkings", "why_tests_cant": "Exponential number of chunkings.", "anchors": ["src/app/qbs/sessionpacket.cpp: SessionPacket::parseInput, createPacket", "src/app/qbs/sessionpacketreader.cpp"]}
{"id": "C46", "title": "Building a subset also builds all dependencies, in priority order", "statement": "The products built are those requested and all their direct and indirect dependencies, no others; fully built are those reached through dependencies that are not minimal. All products have different priorities, that of a dependency being higher than that of every product depending on it, so that among the nodes ready to be built none is preferred to one of a dependency of its product.", "quantifier": "all product dependency DAGs and selections", "why_tests_cant": "All DAGs.", "anchors": ["src/lib/corelib/buildgraph/executor.cpp: setupAuxiliaryProducts, ProductPrioritySetter"]}
{"id": "C47", "title": "Architecture canonicalisation is idempotent and case-insensitive on aliases", "statement": "canonicalArchitecture(canonicalArchitecture(a)) = canonicalArchitecture(a) for every string, all aliases of an architecture map to the same name irrespective of case.", "quantifier": "all strings", "why_tests_cant": "All strings.", "anchors": ["src/lib/corelib/tools/architectures.cpp: canonicalArchitecture"]}
{"id": "C48", "title": "Empty-directory removal never removes non-empty or foreign directories", "statement": "After artifacts have been removed, a directory is removed only if it is empty, held one of the artifacts directly or further down, and lies strictly inside the build directory; chains of directories that have become empty are removed completely; no file is touched.", "quantifier": "all directory trees and artifact lists", "why_tests_cant": "All trees.", "anchors": ["src/lib/corelib/buildgraph/emptydirectoriesremover.cpp"]}
{"id": "C49", "title": "A rules-only build launches no commands", "statement": "A build that is asked only to execute rules (as the code generation for IDEs does) never launches a command, whatever rules it applies and however the graph changes on the way.", "quantifier": "all graphs, schedules, rule applications, cancellations", "why_tests_cant": "Schedules and graph changes are unbounded.", "anchors": ["src/lib/corelib/buildgraph/executor.cpp: Executor::potentiallyRunTransformer"]}
{"id": "C50", "title": "Building selected products leaves the others alone", "statement": "When only some products are to be built, commands are launched and rules applied only for nodes belonging to those products (and the auxiliary products added for them).", "quantifier": "all graphs, selections and schedules", "why_tests_cant": "Graphs and schedules are unbounded; the check sits in the scheduler.", "anchors": ["src/lib/corelib/buildgraph/executor.cpp: Executor::checkNodeProduct, buildArtifact, executeRuleNode"]}
{"id": "C51", "title": "Dependency scanning finds what is included, and only that", "statement": "After the dependencies of a generated file have been updated, they are exactly the files reachable from its inputs by what the scanners report, each name standing for the artifact or file in the first search path that has it (artifacts before other files; the product's own before those of its dependencies before others), apart from artifacts that are children anyway, made together with it, or depend on it. Scanning ends even if files include each other. Results remembered during a build do not change the outcome.", "quantifier": "all file systems, artifacts, search paths, scan results (also cyclic), previous dependencies and cache contents", "why_tests_cant": "Include graphs, search paths and cache states are unbounded; wrong answers show up only as missing rebuilds.", "anchors": ["src/lib/corelib/buildgraph/inputartifactscanner.cpp: resolveDepencency, InputArtifactScanner::updateDependencies, resolveScanResultDependencies, handleDependency", "src/lib/corelib/buildgraph/rawscanneddependency.cpp", "src/plugins/scanner/cpp/cppscannerplugin.cpp: CppScannerPlugin::scan"]}
{"id": "C52", "title": "Products are resolved once, after what they depend on, whatever the threads do", "statement": "When a project without cyclic dependencies is resolved with any number of threads, every product is resolved exactly once, after the products it depends on; no two threads work on the same product or with the same loader state; there are never more threads than allowed; the scheduler ends whatever the order of events is, and no cyclic dependency is reported. A product ends up disabled exactly if it is broken, its condition is false or something it requires is disabled. The outcome (dependencies, disabled products, errors) is the same for each order of events. A wakeup is never lost, and canceling ends the resolving.", "quantifier": "all projects (products, Depends items by name and by type), numbers of threads and loader states, interleavings of threads and scheduler, failures to create threads, moments of canceling", "why_tests_cant": "The interleavings of worker threads with the scheduler are unbounded and not controllable in a test.", "anchors": ["src/lib/corelib/loader/productsresolver.cpp: ProductsResolver::runScheduler, scheduleNext, startJob, handleFinishedThreads, tryToReserveLoaderState, queueProductForScheduling", "src/lib/corelib/loader/dependenciesresolver.cpp", "src/lib/corelib/loader/productresolver.cpp: ProductResolverStage1::start"]}
{"id": "C53", "title": "A project that would resolve differently is resolved again", "statement": "If building decides that the stored project can be used as it is, then resolving the project from scratch would give the same result. That is: a change of a project file, an imported file, a source file that was missing, the files matching wildcards, the result of a file system query in a script, the configuration or the environment is noticed, and what was derived from it is derived anew.", "quantifier": "all projects (any sequence of questions to the world depending on earlier answers, with probes), all worlds, also changing while the project is resolved, all stored results and parameters", "why_tests_cant": "The project can ask anything, and the world can change at any point.", "anchors": ["src/lib/corelib/buildgraph/buildgraphloader.cpp: BuildGraphLoader::trackProjectChanges, hasProductFileChanged, hasBuildSystemFileChanged, hasEnvironmentChanged, hasFileExistsResultChanged, hasDirectoryEntriesResultChanged, hasFileLastModifiedResultChanged, probeExecutionForced", "src/lib/corelib/loader/probesresolver.cpp: ProbesResolver::resolveProbe, findOldProjectProbe, findCurrentProbe", "src/lib/corelib/language/scriptengine.cpp: addFileExistsResult, addCanonicalFilePathResult", "src/lib/corelib/language/language.cpp: Probe::needsReconfigure, SourceWildCards::hasChangedSinceExpansion"]}
{"id": "C54", "title": "A project is not resolved again without need, and forcing always helps", "statement": "If everything a project asked for when it was resolved still has the same answer, and no file it read is newer than the resolving, it is not resolved again (unless wanted). If resolving and running probes are forced, the project is as if resolved from scratch, whatever was stored.", "quantifier": "all projects, worlds, stored results and parameters", "why_tests_cant": "The project can ask anything; histories are unbounded.", "anchors": ["src/lib/corelib/buildgraph/buildgraphloader.cpp: BuildGraphLoader::trackProjectChanges", "src/lib/corelib/loader/probesresolver.cpp"]}
{"id": "C55", "title": "Wildcards match exactly the files they mean, and changes are noticed", "statement": "The source files of a group with wildcards are exactly the files matched by one of its patterns and by none of excludeFiles, outside the build directory: each part of a pattern stands for one name, ** for any number of directories (symbolic links are not followed, hidden directories are left out), a named directory may be hidden. A matching file that appears or vanishes is noticed at the next build; without such a change the project is not resolved again.", "quantifier": "all directory trees (with links, hidden and special files), patterns, prefixes and build directories", "why_tests_cant": "Trees and patterns are unbounded.", "anchors": ["src/lib/corelib/language/language.cpp: SourceWildCards::expandPatterns, hasChangedSinceExpansion, ResolvedGroup::restoreWildcards", "src/lib/corelib/loader/productresolver.cpp: ProductResolverStage2::resolveGroup"]}
{"id": "C56", "title": "After the project is resolved again, just the products that are affected are set up anew", "statement": "A product keeps its build graph exactly if it is still there and enabled and neither it nor anything it depends on, directly or by way of other products, differs in its condition, type, installation, scanners, rules, dependencies or list of source files; the order of these does not matter. What it keeps is complete and no assertion fails. Every other enabled product is set up, with what had been built being rescued for those that were there before, and artifacts are removed from disk exactly for the products that are gone.", "quantifier": "all pairs of restored and newly resolved projects with acyclic dependencies, all sets of products known to be affected by new files", "why_tests_cant": "The completion of the list of changed products is a depth-first search with a memo that is shared between calls and whose result depends on the order of products; tests change one product of a small project.", "anchors": ["src/lib/corelib/buildgraph/buildgraphloader.cpp: checkProductForChangedDependency, makeChangedProductsListComplete, updateProductAndRulePointers, trackProjectChanges, checkAllProductsForChanges", "src/lib/corelib/language/language.cpp: ruleListsAreEqual, listsAreEqual, keyFromElem"]}
{"id": "C57", "title": "A product that keeps its build graph has its artifacts updated if properties change", "statement": "If the build graph of a product is kept, each source file whose tags or properties are different is updated, and no other; generated artifacts are updated if module properties or groups for artifacts are different. So after resolving, each artifact has the tags and properties that it would get if it were created now.", "quantifier": "all pairs of an old and a new version of a product, all artifacts", "why_tests_cant": "Whether a change is noticed depends on each combination of what is compared, by which key and in which order; tests change one property of one group.", "anchors": ["src/lib/corelib/buildgraph/buildgraphloader.cpp: checkForPropertyChanges, checkProductForChangesInSourceFiles", "src/lib/corelib/buildgraph/buildgraph.cpp: provideFullFileTagsAndProperties", "src/lib/corelib/language/language.cpp: artifactPropertyListsAreEqual, fileTagsForFileName"]}
{"id": "C58", "title": "Scanning a C++ file finds exactly its include directives", "statement": "The scan of a C++ source file or header for dependencies reports exactly the #include and #import directives, in their order, each with its name and whether it is in quotes or angle brackets. Nothing is reported for text in comments, character and string literals, raw strings, other directives or code, and nothing of it hides a directive. A byte order mark makes no difference, the scan always ends, and it reads no byte outside of the file's mapped memory.", "quantifier": "all files: all sequences of lines of directives, code, literals, comments and module declarations; for termination all byte sequences", "why_tests_cant": "Each lexical context can hide or feign directives in combination with each other; tests contain a few sample files.", "anchors": ["src/lib/corelib/cppscanner/cppscanner.cpp: scanCppFile, doScanCppFile", "src/lib/corelib/cppscanner/Lexer.cpp: Lexer::scan, scan_helper, scanRawStringLiteral, scanNumericLiteral, scanBackslash, scanUntilQuote", "src/lib/corelib/cppscanner/Lexer.h: yyinp, processCodeUnit"]}
{"id": "C59", "title": "Scanning a C++ file finds the modules it provides and needs", "statement": "The scan of a C++ file for dependencies reports the module (and partition) the file belongs to, the module it provides if it is an interface unit, whether the declaration is exported, and all modules, partitions and header units it imports, in their order, partitions with the name of their module.", "quantifier": "all files: all sequences of lines of directives, code, literals, comments and module declarations", "why_tests_cant": "Names consist of any number of parts, with comments and blanks between them, in any context; tests contain a few sample files.", "anchors": ["src/lib/corelib/cppscanner/cppscanner.cpp: doScanCppFile", "src/lib/corelib/cppscanner/Lexer.cpp: Lexer::scan"]}
{"id": "C60", "title": "Properties items set exactly the values their conditions say", "statement": "A property that is not a list has the value of the first Properties item whose condition is true, else that of the item with the condition undefined, else the value bound outside of Properties items, else the value from the module. A list consists of the values of all Properties items that apply, the value outside, and the values from modules unless an item that applies sets overrideListProperties. In bindings and conditions, outer is the value outside.", "quantifier": "all lists of Properties items, conditions and bindings in any code, with or without a binding outside, any number of values from modules", "why_tests_cant": "Conditions, fallbacks, overriding, outer and module values combine in any number and order; tests contain a few projects.", "anchors": ["src/lib/corelib/loader/astpropertiesitemhandler.cpp: ASTPropertiesItemHandler::handlePropertiesItems", "src/lib/corelib/language/value.cpp: JSSourceValue::addAlternative", "src/lib/corelib/language/evaluator.cpp: ValueEvaluator"]}
{"id": "C61", "title": "The value of a property does not depend on what was evaluated before", "statement": "Evaluating a property comes to an end, and has the same result whenever and in whichever order properties are evaluated, and whether values are cached or not. A property that needs its own value is reported as an error, and no other property is.", "quantifier": "all projects (items, prototypes, parents, scopes, bindings that read any other properties), all sequences of evaluations", "why_tests_cant": "Which values are in the cache and on the stack of properties depends on the history of evaluations and on all bindings of a project; tests run one order.", "anchors": ["src/lib/corelib/language/evaluator.cpp: Evaluator::value, getEvalProperty, PropertyStackManager, ValueEvaluator, EvalCacheEnabler"]}
{"id": "C62", "title": "The value of a property always has the declared type", "statement": "Whenever a property is evaluated without an error, the value is undefined or of the type the property is declared with: a boolean, an integer, a string, a list of strings and so on. This holds whatever has been evaluated before, including failed evaluations and cached values. A constant becomes what the declared type makes of it: paths are made absolute, single values become lists, and a value that does not fit is an error.", "quantifier": "all projects, bindings and histories of evaluations, with and without caching", "why_tests_cant": "Values come from bindings, Properties items, modules, base items and caches, in any order of evaluation; tests try a few.", "anchors": ["src/lib/corelib/language/evaluator.cpp: Evaluator::value, convertToPropertyType_impl, getEvalProperty", "src/lib/corelib/language/propertydeclaration.cpp"]}
{"id": "C63", "title": "Removing a directory removes it completely and nothing else", "statement": "When File.remove, cleaning or removing an installation reports success for a path, nothing is left at this path or below it. Nothing else is removed or changed, links are not followed, and nothing is added. Removing fails only if the system refuses something; then an error names what is left, and what is left has not been changed.", "quantifier": "all trees of files, directories and links; all orders in which directories are listed; all patterns of refused operations", "why_tests_cant": "Trees can be arbitrarily deep and any operation in them may be refused at any time.", "anchors": ["src/lib/corelib/tools/fileinfo.cpp: removeFileRecursion, removeDirectoryWithContents", "src/lib/corelib/jsextensions/file.cpp: File::jsRemove", "src/lib/corelib/buildgraph/artifactcleaner.cpp: removeArtifactFromDisk", "src/lib/corelib/buildgraph/productinstaller.cpp: ProductInstaller::removeInstallRoot"]}
{"id": "C64", "title": "File.copy makes a complete copy and leaves everything else alone", "statement": "When File.copy reports success, each file, link and directory of the source has a counterpart at the target with the same content, unless the target had a file that is at least as new. The source is not changed, nor is anything outside of the target, except for directories created on the way to it. It succeeds if the source exists, nothing is refused and no directory is in the place of a file or the other way round.", "quantifier": "all trees, orders of listing and patterns of refused operations; source and target not inside of each other", "why_tests_cant": "Trees can be arbitrarily deep, targets can be in any state, and any operation may be refused.", "anchors": ["src/lib/corelib/tools/fileinfo.cpp: copyFileRecursion, createSymLink", "src/lib/corelib/jsextensions/file.cpp: File::jsCopy"]}
{"id": "C65", "title": "File.move moves the file or changes nothing", "statement": "When File.move succeeds, the target is what the source was, the source is gone and nothing else has changed. An existing target is not replaced unless overwriting is allowed. When it fails, nothing has changed.", "quantifier": "all states of source and target and all refused operations", "why_tests_cant": "The outcome depends on the combination of states of both paths and on which operation is refused.", "anchors": ["src/lib/corelib/jsextensions/file.cpp: File::jsMove"]}
{"id": "C66", "title": "Dependencies of a product are complete, ordered and free of cycles", "statement": "When the dependencies of a product are resolved without an error, everything that a Depends item of the product, or of a module or product it depends on, asks for is there, in the requested profile, variant and versions; nothing is there that is not asked for, nothing is there twice, and everything comes after what it depends on. Only what is not required may be missing. Cyclic dependencies are reported, and only real ones. Resolving ends, and it succeeds if everything is there and there are no cycles, however often it is deferred.", "quantifier": "all projects, all nested Depends items, all points at which resolving is deferred and all states of other products then", "why_tests_cant": "Dependency graphs are unbounded, and resolving one product is interleaved with resolving the others.", "anchors": ["src/lib/corelib/loader/dependenciesresolver.cpp: DependenciesResolver::resolve, handleResolvedDependencies, loadModule, findExistingModule, checkProductDependency, checkModule, multiplexDependency"]}
{"id": "C67", "title": "The best file is used for a module", "statement": "Of all files for a module in the search paths whose conditions are true, the one with an acceptable version, then with the highest priority, then in the first search path is used. If several are equally good, this is an error. The order in which a directory lists its files makes no difference.", "quantifier": "all search paths, files, conditions, priorities, versions and ranges", "why_tests_cant": "Any number of candidates with any ratings in any order.", "anchors": ["src/lib/corelib/loader/moduleloader.cpp: ModuleLoader::load, chooseModuleCandidate"]}
{"id": "C68", "title": "A Depends item is for the right variants of a product", "statement": "With profiles, a dependency on a multiplexed product is on all variants for these profiles. Without them, a variant depends on the same variant of the other product, or else on the only one that does not contradict it; another product depends on the aggregator, or on all variants if there is none. If no variant or more than one is meant where there has to be one, this is an error.", "quantifier": "all sets of products with their multiplex configurations, all Depends items", "why_tests_cant": "Any number of variants, axes and values.", "anchors": ["src/lib/corelib/loader/dependenciesresolver.cpp: DependenciesResolver::adjustDependsItemForMultiplexing"]}
{"id": "C69", "title": "A module that is present works, is needed and has what it requires", "statement": "When a product is resolved without an error, every module that is present passed its probes and its validation, has a version in the requested range, is not exported by a disabled product, and is needed by the product through modules that are present; and everything it requires is present. A required module that fails is reported as an error, and only such modules are. A module that nothing is wrong with and that is needed through such modules stays present whatever happens to the others.", "quantifier": "all dependency graphs that can result from resolving, all outcomes of probes, version checks and validation scripts, which may depend on what is present", "why_tests_cant": "Any number of modules, and failures of any subset of them at any stage.", "anchors": ["src/lib/corelib/loader/productresolver.cpp: ProductResolverStage1::start, resolveProbes, runModuleProbes, updateModulePresentState, validateModule, handleModuleSetupError"]}
{"id": "C70", "title": "A dependency parameter has the value set closest to the product", "statement": "If a module is pulled in by several Depends items, each of its dependency parameters gets the value that is set closest to the product, among the items of the product itself and of modules that are present; a parameter none of them sets has its default from the Parameters item. If two items that are equally close set a parameter to different values and no closer one sets it, there is an error, and only then.", "quantifier": "all sets of Depends items with all nested parameter maps, in any order, all chains of dependencies, and any subset of modules being present", "why_tests_cant": "Any number of items, nesting of maps and orders of items.", "anchors": ["src/lib/corelib/loader/loaderutils.cpp: DependencyParametersMerger, mergeDependencyParameters", "src/lib/corelib/loader/productresolver.cpp: ProductResolverStage1::mergeDependencyParameters", "src/lib/corelib/loader/dependenciesresolver.cpp: DependenciesResolver::loadModule"]}
{"id": "C71", "title": "A .pc file is read as it is written", "statement": "When a package description of pkg-config is read, comments, continued lines, quotes, backslashes and variables mean what they are documented to mean, for every file: a variable has the value it is defined as, with the variables in it replaced, and can be used only after it has been defined; what is in the environment for it comes first, then what has been set for all packages, then the file. Each field has exactly the text, flags or packages behind its keyword, and nothing is defined twice. If the prefix is to be redefined, exactly the values below the old one move along.", "quantifier": "all contents of files, all paths, all environments and all options", "why_tests_cant": "Any text of any length, with any nesting of quotes, variables and continuations.", "anchors": ["src/lib/pkgconfig/pcparser.cpp: readOneLine, splitCommand, splitModuleList, PcParser", "src/lib/pkgconfig/pkgconfig.cpp: PkgConfig::packageGetVariable, varToEnvVar"]}
{"id": "C72", "title": "Packages are found, and their flags are all there", "statement": "A package is found if, and only if, there is a file for it in the directories that are searched, and the first directory wins. Its flags are exactly the arguments in the file, each of the right kind; paths of system libraries are left out, and the sysroot is put in front of absolute paths that are not below it already, and of nothing else.", "quantifier": "all sets of files in all orders of directories, all lists of arguments, all sysroots", "why_tests_cant": "Any number of packages and arguments, and any order the sorting may leave equal names in.", "anchors": ["src/lib/pkgconfig/pcparser.cpp: PcParser::doParseLibs, PcParser::parseCFlags", "src/lib/pkgconfig/pcpackage.cpp: PcPackage::prependSysroot, PcPackage::removeSystemLibraryPaths", "src/lib/pkgconfig/pkgconfig.cpp: PkgConfig::findPackages, PkgConfig::getPackage", "src/lib/corelib/jsextensions/pkgconfigjs.cpp: PkgConfigJs"]}
{"id": "C73", "title": "A package that requires a version of another one gets that", "statement": "If a package requires another one with an operator and a version, then a project that uses it through the default module provider accepts the other package if, and only if, its version compares to the required one as the operator says.", "quantifier": "all operators, all required versions and all versions of packages", "why_tests_cant": "Any two version numbers.", "anchors": ["src/lib/corelib/jsextensions/pkgconfigjs.cpp: requiredVersionToMap", "share/qbs/module-providers/qbspkgconfig.qbs", "src/lib/corelib/tools/version.cpp: Version::fromString", "src/lib/corelib/loader/dependenciesresolver.cpp: DependenciesResolver::evaluateDependsItem", "src/lib/corelib/loader/productresolver.cpp: ProductResolverStage1::runModuleProbes"]}
{"id": "C75", "title": "The process of a command decides about the command", "statement": "Every command a job starts is reported exactly once, in order; it is successful exactly if its process exits with an accepted exit code, and a failure names what really happened. A command that is canceled or takes too long is stopped, only it, and comes to an end even if its process does not react; its response file is removed.", "quantifier": "for every sequence of commands on one executor and every interleaving of the job, the launcher, the connection, the processes, the timeouts, cancelation and rule execution", "why_tests_cant": "The events of three processes interleave in unboundedly many ways; the bad cases need a timeout or a lost launcher at one particular moment, or a command after another one that failed.", "anchors": ["src/lib/corelib/buildgraph/processcommandexecutor.cpp: ProcessCommandExecutor::doStart, onProcessError, onProcessFinished, sendProcessOutput, cancel", "src/lib/corelib/tools/qbsprocess.cpp: QbsProcess", "src/lib/corelib/buildgraph/abstractcommandexecutor.cpp: AbstractCommandExecutor::start", "src/libexec/qbs_processlauncher/launchersockethandler.cpp: LauncherSocketHandler, Process::cancel"]}
{"id": "C74", "title": "The environment of a process is the one of the build with the command's variables", "statement": "A process started by a Command sees every variable the command sets with the value given last, and all other variables as in the build environment; in PATH and the library search paths the command's directories come before those of the build environment.", "quantifier": "for every build environment and every list of entries of the property environment, on hosts with and without case-sensitive variable names", "why_tests_cant": "Entries may be repeated, malformed, differ in case or contain further equals signs; the combinations are unbounded.", "anchors": ["src/lib/corelib/buildgraph/processcommandexecutor.cpp: mergeEnvironments", "src/lib/corelib/buildgraph/rulecommands.cpp: ProcessCommand::getEnvironmentFromList"]}
{"id": "C76", "title": "The program of a command is the first one in PATH", "statement": "A program given by an absolute path is started as is; otherwise it is the executable file in the first directory of PATH that has one, no matter which commands ran before, and PATH is recorded so that its change is noticed.", "quantifier": "for every file system, every PATH, every program and working directory, and every history of earlier commands of the product", "why_tests_cant": "Results are cached per product, so what a command gets depends on all commands before it.", "anchors": ["src/lib/corelib/tools/executablefinder.cpp: ExecutableFinder::findExecutable, findInPath", "src/lib/corelib/language/language.cpp: ResolvedProduct::cachedExecutablePath", "src/lib/corelib/buildgraph/processcommandexecutor.cpp: ProcessCommandExecutor::doSetup", "src/lib/corelib/buildgraph/rulecommands.cpp: ProcessCommand::relevantEnvVars"]}
{"id": "C77", "title": "Response files do not change the arguments", "statement": "A program that is given its arguments in a response file because the command line is long gets the same arguments as it would without; response files are used exactly for command lines longer than the threshold.", "quantifier": "for every list of arguments with any characters, every position at which the response file starts, every separator and every content of further response files among the arguments", "why_tests_cant": "The quoting must be undone by the reader for every text; the bad cases need particular characters in an argument and a long command line at once.", "anchors": ["src/lib/corelib/buildgraph/processcommandexecutor.cpp: ProcessCommandExecutor::doStart", "src/lib/corelib/tools/shellutils.cpp: shellQuote"]}
{"id": "C78", "title": "The output of a process is reported completely", "statement": "Every line a process writes is reported, in order; if the output goes to a file, the file gets exactly the output.", "quantifier": "for every output of the process", "why_tests_cant": "Outputs are arbitrary texts, with or without a final line break.", "anchors": ["src/lib/corelib/buildgraph/processcommandexecutor.cpp: ProcessCommandExecutor::getProcessOutput"]}
{"id": "C79", "title": "Commands that are considered equal do the same", "statement": "Two commands, or lists of commands, that are considered equal when deciding whether to run them again start the same process; any difference between them is noticed.", "quantifier": "for every pair of commands or lists of commands and every state of the machine", "why_tests_cant": "Commands have many properties, any of which could be left out of the comparison; environments may be stored in any order.", "anchors": ["src/lib/corelib/buildgraph/rulecommands.cpp: AbstractCommand::equals, ProcessCommand::equals, JavaScriptCommand::equals, operator==(CommandList)"]}
{"id": "C80", "title": "The list of toolchains is canonical", "statement": "From the toolchains that were given, in any order and spelling, qbs makes a list that has them and everything they are special cases of, each once: custom ones first in the order given, then the known ones in a fixed order with special cases before general ones. Doing so twice changes nothing.", "quantifier": "for every list of names of toolchains", "why_tests_cant": "There are unboundedly many lists with custom names, repetitions and any order.", "anchors": ["src/lib/corelib/tools/toolchains.cpp: canonicalToolchain"]}
{"id": "C81", "title": "Values given on the command line reach exactly what they are meant for", "statement": "A declared property of a project, product or module has the value given for it on the command line, the most specific key winning, converted to its type; other properties keep theirs. In strict mode keys of unknown form and values for properties, projects or products that do not exist are errors, and nothing else is; in relaxed mode only values of the wrong type are.", "quantifier": "for every set of keys and values and every set of projects, products and modules with any declarations", "why_tests_cant": "Names may contain dots, keys may overlap and have prefixes in common, and every combination of general and specific keys is possible.", "anchors": ["src/lib/corelib/tools/setupprojectparameters.cpp: provideValuesTree, overriddenValuesTree", "src/lib/corelib/language/item.cpp: Item::overrideProperties", "src/lib/corelib/loader/moduleinstantiator.cpp: ModuleInstantiator::overrideProperties", "src/lib/corelib/loader/productscollector.cpp: handleProject, multiplexProductItem, checkProjectNamesInOverrides, checkProductNamesInOverrides", "src/lib/corelib/loader/projectresolver.cpp: checkOverriddenValues, collectNameFromOverride", "src/lib/corelib/language/propertydeclaration.cpp: PropertyDeclaration::convertToPropertyType"]}
{"id": "C82", "title": "The build configuration of the parameters is current", "statement": "Whatever calls were made before, the trees of overridden values, of the build configuration and of both together have exactly the values that were last set or expanded; an expansion takes all values of the profile and the name of the configuration, or changes nothing if it fails.", "quantifier": "for every history of setters, expansions (with profiles that change in between) and reads", "why_tests_cant": "The trees are kept between calls; whether a stale one is returned depends on the whole history.", "anchors": ["src/lib/corelib/tools/setupprojectparameters.cpp: setTopLevelProfile, setConfigurationName, setOverriddenValues, expandBuildConfiguration, overriddenValuesTree, buildConfigurationTree, finalBuildConfigurationTree"]}
{"id": "C83", "title": "A command line means what it says", "statement": "A command accepts a line exactly if its words can be read from left to right as options that it supports (long names, short names, or groups of short names), each with a proper argument if it needs one, and as assignments; no option but -v and -q is repeated. It takes exactly these from the line, in that order. The command is the first word, or build; -h and --help ask for help; what follows -- is passed unchanged to the program that is run.", "quantifier": "for every list of words, every command and every interpretation of numbers", "why_tests_cant": "Lines of any length combine options, groups, arguments that look like options, and assignments; tests only try some lines.", "anchors": ["src/app/qbs/parser/commandlineparser.cpp: doParse, setupLogLevel", "src/app/qbs/parser/parsercommand.cpp: Command::parse, parseOption, parsePropertyAssignment, RunCommand::parseNext, HelpCommand::parseNext", "src/app/qbs/parser/commandlineoption.cpp: doParse"]}
{"id": "C84", "title": "The build configurations are the ones asked for on the command line", "statement": "There is one configuration for each name given with config:, in the order in which the names first appear, or one named default if there is none. A property has in a configuration the value last given for it in the section of that configuration; otherwise the value last given before the first section; otherwise it is not set. Names without a dot are properties of the qbs module.", "quantifier": "for every list of assignments", "why_tests_cant": "Sections, global properties, repeated keys and repeated names can be combined in any order and number.", "anchors": ["src/app/qbs/parser/commandlineparser.cpp: setupBuildConfigurations, propertyName, checkForExistingBuildConfiguration"]}
{"id": "C85", "title": "A session answers every request exactly once", "statement": "To a client that sends nothing but cancel-job and quit while a request is being handled, the session sends exactly one reply of the documented type for each request, in the order of the requests; the reply to a request that starts a job comes when the job ends and has an error exactly if the job was not successful. There are never more replies of a type than requests. A request that is sent while a job is running, or that needs a project when none is open, is answered at once with an error and changes nothing. cancel-job alone sends nothing; after quit no reply is sent, and the session ends as soon as no job is running.", "quantifier": "for every sequence of requests and ends of jobs, every project and every result of the jobs", "why_tests_cant": "The order in which requests arrive and jobs end is arbitrary and unbounded; tests only try some orders.", "anchors": ["src/app/qbs/session.cpp: Session::setupProject, buildProject, cleanProject, installProject, releaseProject, cancelCurrentJob, quitSession, checkNormalRequestPrerequisites", "doc/appendix/json-api.qdoc"]}
{"id": "C86", "title": "A session works on the products that the request names", "statement": "A build, clean or install request with an array of product names works on exactly the enabled products with these full display names, wherever they are in the project; a build or install request without products on the enabled ones that are built by default; one with the string all on all enabled ones; a clean request without products on all enabled ones.", "quantifier": "for every tree of projects and products and every list of names", "why_tests_cant": "Trees of projects, lists of names, repeated and unknown names are unbounded.", "anchors": ["src/app/qbs/session.cpp: getProductSelection, getProductsByNameForProject, getProductByName", "src/lib/corelib/api/project.cpp: enabledInternalProducts, internalProducts"]}
{"id": "C87", "title": "A session client learns about every change of the project", "statement": "A client that asks for project data whenever they have changed has the data of the open project whenever no job is running. Data come with a reply exactly as the data mode of its request says. A request that adds, removes or renames files does so one by one, and its reply lists exactly the files for which this has failed, with an error if there are any; a request that could not be carried out has an error in its reply.", "quantifier": "for every sequence of requests and ends of jobs, every project and every result of edits and jobs", "why_tests_cant": "Whether the client's copy is current depends on the whole history of replies.", "anchors": ["src/app/qbs/session.cpp: insertProjectDataIfNecessary, addFiles, removeFiles, renameFiles, addDependencies, prepareFileUpdate", "doc/appendix/json-api.qdoc"]}
{"id": "C88", "title": "Environment setup scripts run once each, dependencies first", "statement": "The environment in which a product is built is what the setupBuildEnvironment scripts of its modules make of the project's environment, and the one in which it is run what the setupRunEnvironment scripts make of the environment given for running; asking for an environment gives what the scripts make of the environment that was given. The script of each module runs exactly once, after those of all modules it depends on. If a script fails, so does the operation, and no environment is changed. The scripts of one product do not influence another one.", "quantifier": "for every acyclic set of modules, all scripts, all environments and every history of builds and requests", "why_tests_cant": "Module graphs and histories of requests are unbounded; tests run a few scripts in one order.", "anchors": ["src/lib/corelib/buildgraph/environmentscriptrunner.cpp: topSortModules, EnvironmentScriptRunner::setupForBuild, setupForRun, setupEnvironment", "src/lib/corelib/api/runenvironment.cpp: getRunEnvironment, getBuildEnvironment", "src/lib/corelib/buildgraph/executor.cpp: prepareProducts"]}
{"id": "C89", "title": "Adding to and removing from a project file does just that", "statement": "Adding files to a product or group changes the value of its files property so that it evaluates to the old files and the new ones, or adds such a property, and changes nothing else in the project file. Removing files takes exactly these out of the list; if one is not in it, nothing is changed. Adding a group or dependencies adds items with these names and changes nothing else. The result is a well-formed file with the same other properties and items.", "quantifier": "for every project file, item, form of the files property, list of files and names", "why_tests_cant": "The texts of project files, the forms of the property and the names are unbounded; tests edit a few files with ordinary names.", "anchors": ["src/lib/corelib/api/projectfileupdater.cpp: ProjectFileFilesAdder::doApply, ProjectFileFilesRemover::doApply, ProjectFileGroupInserter::doApply, ProjectFileDependenciesAdder::doApply", "src/lib/corelib/api/qmljsrewriter.cpp: Rewriter::changeBinding, addBinding, addObject", "src/lib/corelib/api/project.cpp: ProjectPrivate::addFiles, removeFiles"]}
{"id": "C90", "title": "Removing a group removes nothing else", "statement": "Removing a group from a project file takes away the text of the group and white space around it. All other text stays, and what was in different lines still is.", "quantifier": "for every text before and after the group", "why_tests_cant": "The layout of a project file is arbitrary; tests remove groups from files that are formatted in the usual way.", "anchors": ["src/lib/corelib/api/projectfileupdater.cpp: ProjectFileGroupRemover::doApply", "src/lib/corelib/api/qmljsrewriter.cpp: Rewriter::removeObjectMember, includeSurroundingWhitespace, includeLeadingEmptyLine"]}
{"id": "C91", "title": "Editing a project file keeps line ends and never loses the file", "statement": "When a project file is edited, the parts that are not edited stay as they are, byte for byte, and new text gets the line ends of the file. Afterwards the file has its old content or the new one, and the operation reports success only in the latter case.", "quantifier": "for every content, every kind of line ends, every edit, and every point at which writing fails or the process ends", "why_tests_cant": "Failures and crash points cannot be enumerated by tests; neither can contents.", "anchors": ["src/lib/corelib/api/projectfileupdater.cpp: ProjectFileUpdater::apply, guessLineEndingType, convertToUnixLineEndings, convertFromUnixLineEndings"]}
{"id": "C92", "title": "Items inherit from the items they are derived from", "statement": "An item in a project file has the built-in type at the end of the chain of items it is derived from. A property has the value the item itself gives it, otherwise that of the nearest item of the chain that does, otherwise the default; base refers to the next value of the chain. The items inside come first from the base items and then from the item itself, and each is allowed where it is. A declaration in a derived item takes the place of the one in the base item. A property that was declared read-only is not set in derived items. An item does not set a property twice, or a property and something in it.", "quantifier": "for every set of project files, every chain of items, every list of members in every order", "why_tests_cant": "The chains, members and their order are unbounded; tests have a few base items with a few properties.", "anchors": ["src/lib/corelib/loader/itemreaderastvisitor.cpp: ItemReaderASTVisitor::visit, inheritItem, checkDuplicateBinding, targetItemForBinding, doCheckItemTypes", "src/lib/corelib/language/item.cpp: Item::setupForBuiltinType, Item::hasOwnProperty", "src/lib/corelib/language/builtindeclarations.cpp"]}
{"id": "C93", "title": "Reading project files ends and reports loops", "statement": "Reading a file with the files its types come from always ends, with an item or an error. If it ends with an item, no file needs itself, not even through others; if a loop is reported, there is one.", "quantifier": "for every finite set of files and every use of one's types in another", "why_tests_cant": "Files can use each other in arbitrary ways; tests have single loops.", "anchors": ["src/lib/corelib/loader/itemreadervisitorstate.cpp: ItemReaderVisitorState::readFile", "src/lib/corelib/loader/itemreaderastvisitor.cpp: ItemReaderASTVisitor::visit(UiObjectDefinition)"]}
{"id": "C94", "title": "Names of types and scopes mean what the imports say", "statement": "In a project file, the name of a type stands for the file imported under this name, otherwise for the first file of this name in the imports directories of the search paths and the directory of the file itself, otherwise for the one that comes with qbs. A name in a scope stands for the file in the directory imported under that name; the scope has the JavaScript files imported there. No two imports give the same name, no import hides a built-in extension, whatever is imported exists, and the order of imports does not matter.", "quantifier": "for every content of the directories, every list of search paths and every list of imports", "why_tests_cant": "The directories and imports are unbounded; tests use a few, with names that do not clash.", "anchors": ["src/lib/corelib/loader/astimportshandler.cpp: ASTImportsHandler::handleImports, handleImport, addPrototype, collectPrototypes, collectPrototypesAndJsCollections", "src/lib/corelib/loader/itemreadervisitorstate.cpp: ItemReaderVisitorState::findDirectoryEntries"]}
{"id": "C95", "title": "Source files have the file tags that groups and file taggers give them", "statement": "A source file has the tags of its group and the groups around it, up to the first group that overrides them. If its group does not override tags, or there are none, it also has the tags of the file taggers with the highest priority among those with a pattern that matches its name. If it then has no tag, it has the tag for unknown files. Then every group with a fileTagsFilter, in order, adds its tags if one of the file's tags is in the filter. No file is without a tag, and file taggers do not touch files whose group sets fileTags.", "quantifier": "for every tree of groups and file taggers in a product and its modules, every list of files, and every order of taggers with the same priority", "why_tests_cant": "The trees, conditions, patterns and priorities are unbounded; tests use a few taggers with distinct priorities.", "anchors": ["src/lib/corelib/loader/productresolver.cpp: ProductResolverStage2::resolveGroupFully, applyFileTaggers, finalizeArtifactProperties", "src/lib/corelib/language/language.cpp: ResolvedProduct::fileTagsForFileName", "src/lib/corelib/loader/loaderutils.cpp: resolveFileTagger"]}
{"id": "C96", "title": "The source files of a product are those of its active groups", "statement": "The source files of a product are exactly the files listed in, or matched by the wildcards of, those of its groups whose conditions, and those of all groups around and of the product, are met, each with the innermost prefix and without the excluded files. A listed file that does not exist is an error in an active group and none in a disabled one. No file is twice among the sources of a product.", "quantifier": "for every tree of groups in a product and its modules, every content of the file system and both error modes", "why_tests_cant": "The trees and lists are unbounded; tests use one or two levels.", "anchors": ["src/lib/corelib/loader/productresolver.cpp: ProductResolverStage2::resolveGroup, resolveGroupFully, createSourceArtifact, resolveModules"]}
{"id": "C97", "title": "Module properties of a group apply to exactly its files", "statement": "The module properties of a source file are those of the product, with the assignments of the groups around it and its own group, outermost first, and then of the groups whose fileTagsFilter matches its tags, in order. A generated file has the properties of the product with the assignments of the groups whose filter matches. A group changes no property it does not set, and no property of any other file.", "quantifier": "for every tree of groups, every assignment of properties and every list of filters", "why_tests_cant": "The number of groups and which of them share filters are unbounded; tests have one group with a filter that sets something.", "anchors": ["src/lib/corelib/loader/productresolver.cpp: ProductResolverStage2::resolveGroupFully, resolveAdditionalModuleProperties, finalizeArtifactProperties", "src/lib/corelib/buildgraph/buildgraph.cpp: provideFullFileTagsAndProperties"]}
{"id": "C98", "title": "Module providers give each product what they would give if it were alone", "statement": "If a product needs a module that is not in its search paths, the providers asked are those listed by the product or else the closest project that lists some, or else those named like the module and its name's beginnings, longest first. The result is the search paths of all of them in order, or an error naming the provider that does not exist or fails. A provider is configured by the product, and the profile and command line win. The answer is the same whatever other products asked before or ask at the same time, and whatever is stored from earlier sessions. No provider runs twice in a session for the same module and configuration; an eager one runs once for all modules.", "quantifier": "for every list of products and requests, every interleaving of the loader's threads and every history of earlier sessions, dry or not, forced or not", "why_tests_cant": "Schedules and histories are unbounded; tests resolve one small project at a time.", "anchors": ["src/lib/corelib/loader/moduleproviderloader.cpp: ModuleProviderLoader::executeModuleProviders, findOrCreateProviderInfo, setupModuleProviderConfig, getModuleProviders, findModuleProviderFile, evaluateModuleProvider", "src/lib/corelib/loader/loaderutils.cpp: TopLevelProjectContext::moduleProvider, addModuleProvider", "src/lib/corelib/language/moduleproviderinfo.h: ModuleProviderInfo, ModuleProvidersCacheKey"]}
{"id": "C99", "title": "What module providers have made lives as long as the stored build graph needs it", "statement": "After every session, each provider result in the stored build graph still has the directory with the modules that were made for it. A session that is not a dry run removes no provider's directory. A dry run leaves the stored build graph and the directories as they were.", "quantifier": "for every history of real and dry sessions with any requests in any order", "why_tests_cant": "Histories are unbounded; tests run a single dry run.", "anchors": ["src/lib/corelib/language/language.cpp: TopLevelProject::~TopLevelProject, makeModuleProvidersNonTransient, store, cleanupModuleProviderOutput", "src/lib/corelib/language/moduleproviderinfo.h: ModuleProviderInfo::outputDirPath", "src/lib/corelib/buildgraph/buildgraphloader.cpp: BuildGraphLoader::trackProjectChanges"]}
{"id": "C100", "title": "The exit code of qbs says whether everything asked for was done", "statement": "The command line program exits with 0 (apart from the commands whose code is that of another program) only if no job failed, all configurations were resolved and, where the command asks for it, built or cleaned and installed, and nobody interrupted it. If nothing is wrong with the command line, no job fails and nobody interrupts, the code is 0, or that of the program that was run. As soon as no job runs any more the program ends, and no job is left running when it does.", "quantifier": "for every command, any number of configurations, every order in which their jobs finish and fail, and every point of an interrupt or timer", "why_tests_cant": "The orders of the ends of asynchronous jobs, failures and interrupts are unbounded; tests see one of them.", "anchors": ["src/app/qbs/commandlinefrontend.cpp: CommandLineFrontend::start, handleJobFinished, checkCancelStatus, handleProjectsResolved, cancel"]}
{"id": "C101", "title": "Phases of a command do not overlap, and nothing new starts after a failure or an interrupt", "statement": "Nothing is built, cleaned or installed before all configurations are resolved; nothing is installed and no project files are generated before all are built; nothing is run before it is installed. After a job has failed or the user has interrupted, no new job is started, and as soon as the timer fires all running jobs are told to stop.", "quantifier": "for every command, any number of configurations, and every order of ends of jobs, failures, interrupts and timer events", "why_tests_cant": "The orders of the ends of asynchronous jobs, failures and interrupts are unbounded; tests see one of them.", "anchors": ["src/app/qbs/commandlinefrontend.cpp: CommandLineFrontend::handleJobFinished, handleProjectsResolved, checkCancelStatus, install, generate"]}
{"id": "C102", "title": "Each configuration is worked on once, for the products named and with its own number of jobs", "statement": "For each configuration of the command line each job is started at most once, for exactly those of its products that the option --products names, or for all if it names none. If a name is that of no product, nothing is built, cleaned, installed or run and the exit code is not 0. The number of parallel jobs is that of the command line, or else the preference of the configuration's own profile.", "quantifier": "for every command line, all sets of configurations, products and preferences, and all orders in which the configurations are resolved", "why_tests_cant": "Which project is resolved first depends on the schedule; tests have one profile.", "anchors": ["src/app/qbs/commandlinefrontend.cpp: CommandLineFrontend::productsToUse, build, makeClean, install, buildOptions", "src/app/qbs/parser/commandlineparser.cpp: CommandLineParser::buildOptions, jobCount"]}
{"id": "C103", "title": "A generated Makefile says what qbs would do", "statement": "The file that 'qbs generate -g makefile' writes means to make and the shell what the build of the project is: for every transformer there is a rule whose target and prerequisites are the paths of its outputs and inputs and whose recipe runs, after making the directories of the outputs, its commands with exactly their programs and arguments, whatever characters are in them; the files are installed and removed under their own names.", "quantifier": "for all projects: all paths, directories, programs and arguments", "why_tests_cant": "What the text means depends on two languages with their own quoting, on every character of every path and argument, and on directories replaced by variables in the middle of arguments.", "anchors": ["src/plugins/generator/makefilegenerator/makefilegenerator.cpp: quote, makeValidTargetName, replacePrefix, bruteForcePathReplace, MakefileGenerator::generate", "src/lib/corelib/tools/shellutils.cpp: shellQuote"]}
{"id": "C104", "title": "The targets of a generated Makefile stand for the products", "statement": "Each product has a target of its own, which make can read without quoting; 'make' builds and 'make install' installs all products that are built by default, and 'make clean' cleans all products.", "quantifier": "for all sets of products, their names and configurations", "why_tests_cant": "The names of products are arbitrary, and collisions of changed names show only with certain pairs of names.", "anchors": ["src/plugins/generator/makefilegenerator/makefilegenerator.cpp: makeValidTargetName, MakefileGenerator::generate"]}
{"id": "C105", "title": "A product is linked against the libraries it needs, each once and in the right order", "statement": "A product is linked against the libraries it depends on and, through static and object libraries, those they depend on, and against the external libraries given for it and for those static libraries, and against nothing else. A library comes before those it depends on, external libraries come last, no library of a product occurs twice. Dynamic libraries that are used only by other dynamic libraries are not linked against, but the linker is told where they are.", "quantifier": "for all trees of dependencies, orders of dependencies, and external libraries", "why_tests_cant": "The result is collected by a traversal with early exits that depend on what was visited before; mistakes show only with certain shapes of the graph and orders of the dependencies.", "anchors": ["share/qbs/modules/cpp/gcc.js: collectLibraryDependencies, linkerFlags"]}
{"id": "C106", "title": "The arguments for the linker mean the libraries that were found", "statement": "From the arguments the linker takes exactly the libraries that were found, in their order, as whole archives just those for which this is wanted, and taking whole archives is switched off at the end.", "quantifier": "for all lists of libraries", "why_tests_cant": "The switch for whole archives is written only on changes, so the meaning of an argument depends on all before it.", "anchors": ["share/qbs/modules/cpp/gcc.js: linkerFlags"]}
{"id": "C107", "title": "A project created for a source tree has the files of the tree", "statement": "What qbs-create-project writes is a project that qbs can read, whose products contain exactly the source files in the tree that were to be taken, each once. If there are project files already, it changes nothing; it overwrites no file. The result does not depend on the order in which the system lists directories.", "quantifier": "for all directory trees and lists of files to take and to leave out", "why_tests_cant": "File and directory names are arbitrary, and are written as literals, in lists that can contain patterns, as references to directories, and as names of products, each of which has its own rules.", "anchors": ["src/app/qbs-create-project/createproject.cpp: ProjectCreator::setupProject, serializeProject, addGroups, isSourceFile", "src/lib/corelib/loader/productscollector.cpp: loadReferencedFile, multiplexProductItem", "src/lib/corelib/loader/productresolver.cpp: resolveGroupFully"]}
{"id": "C108", "title": "The type and the dependencies of a created product follow from the files", "statement": "A product is an application just if one of the files to be compiled is the main file, by its name or by what is in it; it depends on Qt just if the files need it, and otherwise on the compiler just if there are files for it.", "quantifier": "for all sets of files and their contents", "why_tests_cant": "The search ends early in several places, so results could depend on the order of files.", "anchors": ["src/app/qbs-create-project/createproject.cpp: ProjectCreator::getFlags, getFlagsFromFileNames, getFlagsFromFileContents"]}
{"id": "C109", "title": "Exported settings can be imported again", "statement": "Settings that were written with 'qbs config --export' and are read with 'qbs config --import', by the same user or by another one, are the same as before: every key has the value it had, there are no other keys, and the settings of the scope that is not written are not touched. This holds for text and for JSON files. If an import fails, the settings are still there.", "quantifier": "for all settings of users and systems before the export and before the import, all values, both formats, all scopes", "why_tests_cant": "Keys and values are arbitrary text that is written into lines and parsed again; the interaction of keys, groups, types and scopes has unboundedly many cases.", "anchors": ["src/app/config/configcommandexecutor.cpp: exportSettings, importSettings, settingsToJSONObject, settingsFromJSONObject", "src/lib/corelib/tools/settingsrepresentation.cpp: settingsValueToRepresentation, representationToSettingsValue", "src/lib/corelib/tools/settings.cpp: Settings::value, allKeys, directChildren, setValue, remove"]}
{"id": "C110", "title": "qbs config changes exactly the settings it is told to", "statement": "'qbs config key value' sets one key, '--unset' removes the given keys and what is below them, and '--add-profile' makes a profile that has exactly the given properties, whatever was in a profile of that name. No other setting and no other scope is changed.", "quantifier": "for all settings, keys, values and profiles", "why_tests_cant": "Whether a key is below another one depends on how keys are normalised, for all keys; duplicates and leftovers of older profiles have unboundedly many combinations.", "anchors": ["src/app/config/configcommandexecutor.cpp: ConfigCommandExecutor::execute, setValue", "src/lib/corelib/tools/profile.cpp: Profile::setValue, removeProfile", "src/lib/corelib/tools/settings.cpp: Settings::setValue, remove"]}
{"id": "C111", "title": "Updating the time stamps makes the build up to date", "statement": "After 'qbs update-timestamps', the next build runs no command unless a source file is changed in between, whatever was edited before; a source file that is edited afterwards leads to the commands that read it. The command changes nothing but the recorded times of existing generated files of the chosen products.", "quantifier": "for all build graphs, recorded states, edits before and after, and all orders in which the next build looks at its work", "why_tests_cant": "The effect shows only in the decisions of the next build about every step of an arbitrary graph, in any order.", "anchors": ["src/lib/corelib/buildgraph/timestampsupdater.cpp: TimestampsUpdater::updateTimestamps, TimestampsUpdateVisitor", "src/lib/corelib/api/project.cpp: Project::updateTimestamps, ProjectPrivate::internalProducts", "src/app/qbs/commandlinefrontend.cpp: CommandLineFrontend::updateTimestamps, productsToUse", "src/lib/corelib/buildgraph/executor.cpp: Executor::isUpToDate, retrieveSourceFileTimestamp"]}
{"id": "C112", "title": "A project file is split into the right tokens at the right places", "statement": "The tokens of a project file follow each other in the text with nothing but white space and comments between them; the file is read to its end and never beyond; the lines and columns that are reported for them are those of the text; each symbol is the longest one at its place, each word is a keyword exactly if the language says so, and semicolons appear that are not in the text only after break, continue, return and throw at the end of a line and before ++ and -- at the beginning of one.", "quantifier": "for all texts, in project files and in JavaScript files", "why_tests_cant": "Texts are unbounded; what is read next depends on everything that was read before.", "anchors": ["src/lib/corelib/parser/qmljslexer.cpp: Lexer::lex, scanToken, scanChar, scanNumber, tokenStartColumn", "src/lib/corelib/parser/qmljskeywords_p.h: Lexer::classify"]}
{"id": "C113", "title": "String literals have the value that the language gives to them", "statement": "The value of a string literal in a project file is the one that ECMA-262 defines for it, with all escape sequences; in particular, strings that qbs writes as literals are read back unchanged.", "quantifier": "for all string literals at all places of all texts", "why_tests_cant": "There are infinitely many literals, and the escape sequences interact with what follows them.", "anchors": ["src/lib/corelib/parser/qmljslexer.cpp: Lexer::scanToken, decodeUnicodeEscapeCharacter, convertHex, convertUnicode", "src/lib/corelib/tools/jsliterals.cpp: toJSLiteral"]}
{"id": "C114", "title": "The language server gets every message that a client sends", "statement": "The messages that the language server handles are those that the client has sent, in their order, each with its content and charset, in whichever pieces the bytes arrive; when the server waits for more data, it has handled everything that has arrived completely; no error is reported for a correct message.", "quantifier": "for all lists of messages with all headers, and all ways to cut their bytes into pieces", "why_tests_cant": "The pieces depend on the timing of the operating system; each byte position of each message can be the end of one.", "anchors": ["src/shared/lsp/basemessage.cpp: BaseMessage::parse, isComplete, header", "src/app/qbs/lspserver.cpp: LspServer::Private::handleIncomingData, setupConnection"]}
{"id": "C115", "title": "The language server has the text that the user sees", "statement": "After any history of opening, editing, saving and closing files, the language server has for every open file exactly the text in the editor and the text that was saved last; a position counts as up to date exactly if the text before it has not changed since.", "quantifier": "for all histories of all edits of all texts", "why_tests_cant": "An error in one edit makes all later ones wrong; histories and texts are unbounded.", "anchors": ["src/app/qbs/lspserver.cpp: posToOffset, handleDidOpenNotification, handleDidChangeNotification, handleDidSaveNotification, handleDidCloseNotification, Document::isPositionUpToDate"]}
{"id": "C116", "title": "The language server answers every request once and nothing else", "statement": "Every request gets exactly one answer with its id, in the order of the requests; questions about the code get results, and notifications have effects, exactly from initialize to shutdown; after exit nothing is sent; notifications are not answered.", "quantifier": "for all sequences of messages in all states", "why_tests_cant": "The order of the messages is up to the client.", "anchors": ["src/app/qbs/lspserver.cpp: LspServer::Private::handleCurrentMessage, handleInitializeRequest, handleInitializedNotification, handleShutdownRequest, discardSocket"]}
{"id": "C117", "title": "Completion offers exactly what can follow", "statement": "Behind a qualified name in a project file, the language server offers exactly the properties of the module of this name that are not built in, or the rests of the names of the modules that begin with it, for the products of the file, each once; behind anything else it offers nothing.", "quantifier": "for all texts, positions, products and modules", "why_tests_cant": "Texts, names and modules are unbounded.", "anchors": ["src/app/qbs/lspserver.cpp: LspServer::Private::handleCompletionRequest, posToOffset"]}
{"id": "C118", "title": "qbs status accounts for every file", "statement": "qbs status reports every file in the project directory that is neither hidden nor ignored either under a group or as untracked, never both and no untracked file twice; it reports as missing exactly the files of the groups that do not exist; ignored are the build directories, the generated and project files, and what the lines of .qbsignore name.", "quantifier": "for all directory trees, projects, project paths and ignore files", "why_tests_cant": "Trees, names and ignore files are unbounded; the result depends on the path of the project.", "anchors": ["src/app/qbs/status.cpp: createIgnoreList, allFilesInDirectoryRecursive, printStatus"]}
{"id": "C119", "title": "Editing the settings changes what was edited and nothing else", "statement": "The settings model shows the stored settings; after any sequence of adding, removing, renaming and changing keys, siblings have different names, and saving stores exactly the keys and values that are shown; setting a value changes one key, removing a node removes the keys below it, all other keys keep their values; without unsaved changes saving has no effect.", "quantifier": "for all stored settings and all histories of edits", "why_tests_cant": "Trees and histories are unbounded; a key that is lost may be far away from the one that was edited.", "anchors": ["src/lib/corelib/tools/settingsmodel.cpp: SettingsModel::addNewKey, removeKey, setData, save, readSettings, addNode, doSave, Node::uniqueChildName", "src/lib/corelib/tools/settings.cpp: Settings::setValue"]}
{"id": "C120", "title": "Code generated by moc is compiled exactly once", "statement": "For every header of a product that contains Q_OBJECT or is tagged as mocable, moc_<name>.cpp is generated; it is compiled if and only if no source file of the product includes it. For every such source file <name>.moc is generated to be included. This holds after every build, whatever was changed before it. Files tagged as unmocable get nothing, and a build without changes does nothing.", "quantifier": "for all sets of files with arbitrary tags and contents, all histories of changes and builds, and all orders in which the rules are applied", "why_tests_cant": "Whether code is compiled depends on other files, on results stored in earlier builds and on the order of rule applications; tests try a few sequences of changes with two files.", "anchors": ["src/plugins/scanner/qt-moc/qtmocscanner.cpp: MocScannerPlugin::scan, additionalFileTags", "src/lib/corelib/buildgraph/mocutils.cpp: gatherIncludedMocCppBaseNames", "src/lib/corelib/buildgraph/rulenode.cpp: RuleNode::apply, currentInputArtifacts, changedInputArtifacts", "share/qbs/module-providers/Qt/templates/moc.js: mocInformation, outputArtifacts", "share/qbs/module-providers/Qt/templates/core.qbs: QtCoreMocRuleCpp, QtCoreMocRuleHpp"]}
{"id": "C121", "title": "Setting something that is not declared is reported", "statement": "A property that is set in a product, in an item inside it or on one of its modules, and that is not declared, is reported exactly once, with its full name; so is the use of a module that does not exist. Nothing that is declared is reported. With strict checking an error is thrown if and only if there is something to report.", "quantifier": "for all graphs of items, with arbitrary nesting, shared modules and cycles, and all places where something is set", "why_tests_cant": "The check walks a graph of items with sharing and cycles; tests cover a few files, none of them with typos in the places the walk leaves out.", "anchors": ["src/lib/corelib/language/propertydeclaration.cpp: PropertyDeclarationCheck, checkPropertyDeclarations", "src/lib/corelib/tools/error.cpp: handlePropertyError", "src/lib/corelib/loader/astpropertiesitemhandler.cpp: PropertiesBlockConverter"]}
{"id": "C122", "title": "Files written by scripts are read back as they were written", "statement": "Lines and texts that a script writes with TextFile are read back unchanged, also by the usual loop over lines, and with all usual line ends. A file consists of exactly what was written, in order, after what was there before if it was opened for appending. BinaryFile behaves like an array of bytes with a position. A file opened for reading is never changed, and a closed object throws. If data cannot be written, an error is thrown.", "quantifier": "for all texts and lines, all sequences of operations, all sizes of the buffer and all files", "why_tests_cant": "The buffer, the decoding of parts of a file and the treatment of line ends interact; tests write and read a few lines.", "anchors": ["src/lib/corelib/jsextensions/textfile.cpp: TextFile", "src/lib/corelib/jsextensions/binaryfile.cpp: BinaryFile"]}
{"id": "C123", "title": "The exported description of a product is complete and free of paths of the build", "statement": "The description of a product's Export item that rules turn into module files lists each product and each module the item depends on exactly once, with the parameters given for it. In all values prefixes are replaced as the product's prefixMapping says, the most specific entry first, and values that only make sense for the importing product are left out. Everything else is exported unchanged.", "quantifier": "for all values, all lists of mappings, all dependencies and all graphs of modules", "why_tests_cant": "The effect depends on the order in a map of all entries and on all modules reachable from the item; tests have one or two mappings.", "anchors": ["src/lib/corelib/loader/productresolver.cpp: ExportsResolver::resolveShadowProduct, ExportsResolver::collectPropertiesForModuleInExportItem, ExportsResolver::adaptExportedPropertyValues, ExportsResolver::collectExportedProductDependencies"]}
{"id": "C124", "title": "An imported JavaScript file provides exactly what it declares", "statement": "Importing a JavaScript file that is valid works, and the object under the given name has exactly the functions, variables and constants that the file declares at its top level.", "quantifier": "for all programs, with function expressions, blocks and declarations nested in any way", "why_tests_cant": "Whether a nested function is skipped depends on the functions before it; tests import files with declarations only.", "anchors": ["src/lib/corelib/language/scriptimporter.cpp: IdentifierExtractor, ScriptImporter::importSourceCode", "src/lib/corelib/parser/qmljsast.cpp: SourceElements::accept0"]}
{"id": "C125", "title": "Requiring JavaScript files ends, evaluates each once and finds the right ones", "statement": "Importing a JavaScript file ends, also if files require each other. Each file is evaluated at most once. A path given to require is taken relative to the directory of the file with the call.", "quantifier": "for all sets of files, requiring each other in any way, with and without errors", "why_tests_cant": "The directory that counts is kept in a stack that all imports share, including those that fail; tests require a file or two.", "anchors": ["src/lib/corelib/language/scriptengine.cpp: ScriptEngine::importFile, ScriptEngine::js_require"]}
{"id": "C126", "title": "What is exported to a .pc file is what its reader sees", "statement": "A .pc file written by Exporter.pkgconfig can be read, and the reader sees the name, the description, the version and exactly the defines, include paths, compiler flags, library paths, libraries and linker flags that the product and its dependencies export, in their order, whatever characters are in them.", "quantifier": "for all products, exported values and install prefixes, with any number of dependencies", "why_tests_cant": "Quoting, the prefix variable and the three passes of the reader (lines, variables, arguments) interact for values with special characters; tests export a few plain flags.", "anchors": ["share/qbs/modules/Exporter/pkgconfig/pkgconfig.js: quote, quoteAndPrefixify, transformedValue, collectLibs, collectCFlags, writeEntry", "share/qbs/modules/Exporter/pkgconfig/pkgconfig.qbs: Rule", "src/lib/pkgconfig/pcparser.cpp: PcParser::parsePackageFile"]}
{"id": "C127", "title": "Quoted strings are literals with the same meaning", "statement": "The result of Utilities.cStringQuote is a string literal of C and C++ that means the given text, whatever characters are in it, and nothing else.", "quantifier": "for all texts", "why_tests_cant": "Which of four ways of writing is used depends on each character and the one behind it; tests quote paths.", "anchors": ["src/lib/corelib/jsextensions/utilitiesextension.cpp: escapedString, UtilitiesExtension::js_cStringQuote"]}
{"id": "C128", "title": "Text templates are rendered exactly", "statement": "In the output of the texttemplate module every placeholder is replaced by its value from the dictionary, exactly once, and everything else is as in the template. A placeholder without a value makes the command fail. Every text can be produced, by writing the special character as a placeholder.", "quantifier": "for all templates, dictionaries and both styles of placeholders", "why_tests_cant": "Placeholders can touch, look alike or occur in values, and lines can have any number of them; tests render one file.", "anchors": ["share/qbs/modules/texttemplate/texttemplate.qbs: Rule.prepare"]}
{"id": "C129", "title": "Desktop files are merged with the keys of the product", "statement": "The desktop file that is installed has the sections and entries of the source file, where the keys in freedesktop.desktopKeys replace or extend those of the main section, and default values are added only for keys that are missing. Nothing else is changed or lost.", "quantifier": "for all valid desktop files, keys and default values", "why_tests_cant": "Files can have any number of sections, comments and spaces, and the same keys in several sections; the test has one section.", "anchors": ["share/qbs/modules/freedesktop/freedesktop.js: parseDesktopFile, dumpDesktopFile, generateDesktopFileCommands"]}
{"id": "C130", "title": "PathProbe finds the first file that fits", "statement": "PathProbe looks for files with the given names and suffixes in the directories of the given variables and lists, in this order, and in the given sub-directories of these. It finds a file if and only if there is one that the filter accepts, and then the first one; file path, directory and name that it reports fit together. FileInfo.joinPaths gives a path with the components of its arguments.", "quantifier": "for all properties of the probe, all environments and all file systems", "why_tests_cant": "The search goes through names, directories and sub-directories with filters and defaults on all levels; tests have a few files.", "anchors": ["share/qbs/imports/qbs/Probes/path-probe.js: configure, canonicalSelectors, pathsFromEnvs", "src/lib/corelib/jsextensions/fileinfoextension.cpp: FileInfoExtension::jsJoinPaths"]}
{"id": "C131", "title": "CMake packages describe the product", "statement": "The package file that Exporter.cmake writes for a product can be read by CMake, wherever the installed files are, and defines a target with the kind, file, import library, library paths, libraries, linker options, include paths, definitions and compiler options that the product exports, in their order; paths below the install prefix, with or without the install root, are those of the place where the files are now. Reading the file again does nothing, and paths in the project are refused. A package with a version can be required with this version.", "quantifier": "for all exported properties, install prefixes, directories of the user and sets of targets that exist already", "why_tests_cant": "Values are written as text and read by another program with its own quoting rules; tests have a few harmless values.", "anchors": ["share/qbs/modules/Exporter/cmake/cmakeexporter.js: collectAutodetectedData, writeConfigFile, writeVersionFile", "share/qbs/modules/Exporter/exporter.js: getPrefixToStrip"]}
{"id": "C132", "title": "Scripts know where files are installed", "statement": "If an artifact is installed to some path below the project's install root, ModUtils.artifactInstalledFilePath gives a path of the same place; if neither installPrefix nor installDir has dot components, it is the same text.", "quantifier": "for all artifacts, install roots, prefixes, installation directories and source bases", "why_tests_cant": "Two implementations, one in C++ and one in JavaScript, compute the path with different functions for joining, cleaning and cutting paths; that they agree is a statement about all values.", "anchors": ["share/qbs/imports/qbs/ModUtils/utils.js: artifactInstalledFilePath", "src/lib/corelib/buildgraph/productinstaller.cpp: ProductInstaller::targetFilePath", "src/lib/corelib/jsextensions/fileinfoextension.cpp: FileInfoExtension::joinPaths"]}
{"id": "C133", "title": "Modules reject wrong properties", "statement": "PropertyValidator accepts a configuration exactly if all required properties have values and all checks pass; otherwise its error has one line for each missing property and for each check that failed. The check for versions accepts exactly versions with an allowed number of components, the one for ranges the numbers in the range, the one for file names the texts without reserved characters.", "quantifier": "for all sequences of calls, values, bounds and texts", "why_tests_cant": "The checks are for arbitrary values and bounds; the expression that matches versions is put together from the bounds. No test of the code base has a maximum of one component.", "anchors": ["share/qbs/imports/qbs/ModUtils/utils.js: PropertyValidator"]}
{"id": "C134", "title": "Setup scripts keep the entries of list variables", "statement": "After a script has prepended and appended to a list variable such as PATH with ModUtils.EnvironmentVariable and set it, the entries that programs see are the old ones, with the added ones before and after them in the order of the calls, and no other variable is changed.", "quantifier": "for all environments, variables, separators and sequences of calls", "why_tests_cant": "The separator is added depending on the value so far, which any history of calls can have made.", "anchors": ["share/qbs/imports/qbs/ModUtils/utils.js: EnvironmentVariable"]}
{"id": "C135", "title": "Shared libraries are found under their names", "statement": "With cpp.createSymlinks, the loader finds a built shared library in its directory under the soname or install name that is written into it, and the linker finds it under the name without version; all symbolic links refer to the library, have different names, and none replaces the library.", "quantifier": "for all names, prefixes, suffixes and versions of products, and both file formats with versions", "why_tests_cant": "The name of the library, the names of the links and the soname are computed in three places from the version text; that they fit together is a statement about all versions. Tests have a few ordinary versions.", "anchors": ["share/qbs/modules/cpp/GenericGCC.qbs: internalVersion, soVersion, shouldCreateSymlinks", "share/qbs/imports/qbs/PathTools/path-tools.js: dynamicLibraryFilePath", "share/qbs/modules/cpp/gcc.js: librarySymlinkArtifacts, librarySymlinkCommands", "share/qbs/imports/qbs/UnixUtils/unix-utils.js: soname"]}
{"id": "C136", "title": "Users of shared libraries are linked again when they have to be", "statement": "Products that link to a shared library are linked again after a build of the library exactly if the relevant exported symbols have changed since the last build: all global symbols in strict mode, otherwise those that are defined and not weak. Rebuilding the library with the same relevant symbols at other addresses does not cause linking.", "quantifier": "for all histories of builds with all lists of symbols, in both modes", "why_tests_cant": "What is compared depends on the file that some earlier build wrote, and builds that change nothing relevant leave older data in it; tests have two or three builds.", "anchors": ["share/qbs/modules/cpp/gcc.js: getSymbolInfo, createSymbolFile, readSymbolFile, createSymbolCheckingCommands"]}
{"id": "C137", "title": "Files generated by protoc are where the rule says", "statement": "For every proto file and every list of import paths, the C++ files that the protobuf.cpp module declares as outputs are those that protoc writes when it is called with the arguments from the module.", "quantifier": "for all import paths, output directories, inputs and suffixes", "why_tests_cant": "Which import path counts depends on their order and on how their names relate to the path of the input; tests have one or two import paths with unrelated names.", "anchors": ["share/qbs/modules/protobuf/protobuf.js: getOutputDir, cppArtifact, doPrepare", "src/lib/corelib/jsextensions/fileinfoextension.cpp: jsRelativePath", "src/lib/corelib/jsextensions/file.cpp: jsCanonicalFilePath"]}
{"id": "C138", "title": "The output of lex is where the rule says", "statement": "For every lex source and all values of the properties of the lex_yacc module, the file that the module declares as output of the rule for lex is the one that flex writes when it is called with the arguments from the module. With uniqueSymbolPrefix, sources with different base names and without settings for the output have different outputs, and symbols in the output start with the base name.", "quantifier": "for all options in the source and all values of uniqueSymbolPrefix and lexOutputFilePath", "why_tests_cant": "Options in the source, module properties and arguments override each other in several ways; tests have one option at a time.", "anchors": ["share/qbs/modules/lex_yacc/lexyacc.js: readLexOptions, lexOutputFilePath, lexOutputArtifacts, lexCommands"]}
