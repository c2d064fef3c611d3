# Formal model of qbs: design

Source of truth: /repo (read as text, never built). The model lives in `lean/Verif/`.
Each area has its own directory: `Model.lean` (definitions citing file and lines),
`Spec.lean` (small independent specification, where needed), `Lemmas.lean` (helpers) and
`Props.lean` (the property theorems, each with an `example` meeting its hypotheses).

## Trusted base

* Lean 4.33.0's kernel, and the Mathlib modules imported one at a time.
* Axioms: at most `propext`, `Classical.choice`, `Quot.sound`. No own axioms, no `sorry`, no `native_decide`/`bv_decide`.
* The faithfulness of the hand-written model: every definition cites the lines it transcribes and says what it simplifies.

## Properties

### C01 Set behaves as a finite mathematical set

* Modelled: Set<T> as a sorted list over a linear order; every loop of set.h transcribed as a structural recursion (lower_bound, two-finger merges).
* Proof: Invariant `Sorted` (strict) by induction over operation histories plus refinement to membership predicates. The iterator-range constructor that does not remove duplicates is modelled and refuted.
* Status: partial. Proved for every operation history except the iterator-range constructor, which keeps duplicates (refuted by C01_range_ctor_not_a_set; the rest of it is C01_range_ctor_partial).
* Theorems (axioms):
  * `Verif.SetT.C01_refines_math_set` (choice, Quot.sound, propext)
  * `Verif.SetT.C01_queries` (choice, Quot.sound, propext)
  * `Verif.SetT.C01_store_load` (choice, Quot.sound, propext)
  * `Verif.SetT.C01_range_ctor_not_a_set` (propext)
  * `Verif.SetT.C01_range_ctor_partial` (choice, Quot.sound, propext)
  * `Verif.SetT.C01_subtract_aliasing` (propext)

### C02 Version comparison is a total order and printing round-trips

* Modelled: Version as four Ints; compare as the chain of ifs; fromString as the anchored regular expression written as a hand parser over characters with QString::toInt overflow behaviour.
* Proof: Order laws by case analysis; round trip by induction over decimal digits.
* Status: proved. Order laws, print/parse round trip, accepted language.
* Theorems (axioms):
  * `Verif.Version.C02_compare_total_order` (choice, Quot.sound, propext)
  * `Verif.Version.C02_parse_print` (choice, Quot.sound, propext)
  * `Verif.Version.C02_accepts_exactly` (Quot.sound, propext)

### C03 Narrowing a version range yields exactly the intersection

* Modelled: narrowDown as written.
* Proof: Decision logic; negation with witness for the unbounded receiver, `_partial` for bounded ones.
* Status: partial. The code violates the property for an unbounded receiver (C03_narrowDown_not_intersection); exact intersection is proved otherwise.
* Theorems (axioms):
  * `Verif.Version.C03_narrowDown_not_intersection` (propext)
  * `Verif.Version.C03_narrowDown_partial` (choice, Quot.sound, propext)
  * `Verif.Version.C03_accepts_iff_allows` (choice, Quot.sound, propext)

### C04 Job limits overlay like a finite map

* Modelled: JobLimits as association list, update loop as fold.
* Proof: Invariant over histories, refinement to a function pool -> limit.
* Status: proved. 
* Theorems (axioms):
  * `Verif.JobLimits.C04_limits_are_a_map` (choice, Quot.sound, propext)
  * `Verif.JobLimits.C04_unique_entries` (choice, Quot.sound, propext)

### C05 File times are totally ordered with the invalid time as minimum

* Modelled: Unix FileTime (seconds, nanoseconds) incl. the zero-normalising constructor.
* Proof: Order laws.
* Status: partial. Total order proved outright; 'invalid is oldest' is false for times before 1970 (C05_epoch_findings) and proved for the others. Unix implementation.
* Theorems (axioms):
  * `Verif.FileTime.C05_total_order` (choice, Quot.sound, propext)
  * `Verif.FileTime.C05_epoch_findings` (propext)
  * `Verif.FileTime.C05_invalid_minimum_partial` (choice, Quot.sound, propext)

### C06 Path decomposition and resolution are consistent

* Modelled: Path functions over List Char (UTF-16 code units abstracted to Char), Unix host.
* Proof: Induction over strings; refinement of resolvePath to a component-wise walk, deviations at the root recorded as negation theorems.
* Status: partial. Unix host. Two deviations, proved: suffix() of a name without a dot is the name (C06_suffix_without_dot), and resolving up to the root yields the empty string instead of '/' (C06_resolve_to_root_finding). Otherwise proved for all strings. QDir::cleanPath and the home directory are parameters.
* Theorems (axioms):
  * `Verif.Path.C06_split_recomposes` (propext)
  * `Verif.Path.C06_base_and_suffix_partial` (propext)
  * `Verif.Path.C06_suffix_without_dot` (propext)
  * `Verif.Path.C06_path_of_file` (Quot.sound, propext)
  * `Verif.Path.C06_resolve_absolute` (propext)
  * `Verif.Path.C06_resolve_walks_partial` (Quot.sound, propext)
  * `Verif.Path.C06_resolve_clean` (Quot.sound, propext)
  * `Verif.Path.C06_resolve_to_root_finding` (choice, Quot.sound, propext)

### C07 Unix shell quoting round-trips through a POSIX shell

* Modelled: shellQuoteUnix over List Char with the bit tables.
* Proof: Round trip against an independent POSIX sh tokenizer; induction over strings.
* Status: proved. For all argument lists, without restriction on the characters. C07_assignment_not_quoted notes that a program name of the form NAME=text would be taken for an assignment.
* Theorems (axioms):
  * `Verif.Shell.C07_unix_round_trip` (Quot.sound, propext)
  * `Verif.Shell.C07_unix_command` (Quot.sound, propext)
  * `Verif.Shell.C07_unix_command_line` (Quot.sound, propext)
  * `Verif.Shell.C07_assignment_not_quoted` (choice, Quot.sound, propext)

### C08 Windows quoting round-trips through cmd.exe and the C run-time argument parser

* Modelled: shellQuoteWin over List Char.
* Proof: Round trip against an independent model of the MSVC argv parser.
* Status: partial. Through cmd.exe and the C run-time: proved for arguments without line breaks, percent signs and NUL; percent signs are not protected (C08_percent_finding). Without cmd.exe in between: proved for arguments without quotes and newlines, false otherwise (C08_direct_call_finding, C08_newline_finding).
* Theorems (axioms):
  * `Verif.Shell.C08_windows_round_trip_partial` (choice, Quot.sound, propext)
  * `Verif.Shell.C08_windows_command_line_partial` (choice, Quot.sound, propext)
  * `Verif.Shell.C08_direct_round_trip_partial` (choice, Quot.sound, propext)
  * `Verif.Shell.C08_percent_finding` (choice, Quot.sound, propext)
  * `Verif.Shell.C08_newline_finding` (choice, Quot.sound, propext)
  * `Verif.Shell.C08_direct_call_finding` (propext)

### C09 Launcher packets survive any chunking of the byte stream

* Modelled: serialize as bytes with 32 bit big-endian size and PacketParser::parse as a state machine fed by chunks.
* Proof: Induction over chunks: parser state is a function of the concatenation.
* Status: partial. Proved for both ends for packets below 2 GB. Two limits, proved: a larger packet is reported as invalid (C09_oversized_packet), and after an invalid size the launcher end keeps the invalid size and mis-parses what follows (C09_launcher_misparses_after_error).
* Theorems (axioms):
  * `Verif.Launcher.C09_client_any_chunking` (choice, Quot.sound, propext)
  * `Verif.Launcher.C09_launcher_any_chunking` (choice, Quot.sound, propext)
  * `Verif.Launcher.C09_all_delivered` (choice, Quot.sound, propext)
  * `Verif.Launcher.C09_payload_round_trip` (choice, Quot.sound, propext)
  * `Verif.Launcher.C09_invalid_size_reported` (choice, Quot.sound, propext)
  * `Verif.Launcher.C09_client_stops_after_error` (Quot.sound, propext)
  * `Verif.Launcher.C09_launcher_misparses_after_error` (propext)
  * `Verif.Launcher.C09_oversized_packet` (choice, Quot.sound, propext)

### C10 Stored build-graph values load back unchanged

* Modelled: PersistentPool encoders/decoders over a token stream and over bytes, with value back references.
* Proof: Round-trip law by induction on values with a simulation between store and load tables.
* Status: partial. All sequences of stores of all modelled types, byte by byte, with back references. Requires that strings in lists and environments are not null; otherwise false (C10_null_in_list_lost). Not modelled: QRegularExpression (only its pattern is stored), reuse of one pool object for several files. Qt's encoding of other QVariants is a parameter with a round-trip law.
* Theorems (axioms):
  * `Verif.Persist.C10_values_round_trip_partial` (choice, Quot.sound, propext)
  * `Verif.Persist.C10_null_in_list_lost` (propext)

### C11 Object identity survives a store/load cycle

* Modelled: storeSharedObject/idLoadS over a heap of objects.
* Proof: Simulation of store traversal and load traversal, induction on the stream.
* Status: proved. All heaps, shared and cyclic, and all sequences of stores. Premise: each object is referenced either through shared or through plain pointers (C11_mixed_pointers_break_identity shows it is needed), numbers of ids fit into int.
* Theorems (axioms):
  * `Verif.Persist.C11_objects_round_trip` (choice, Quot.sound, propext)
  * `Verif.Persist.C11_store_ends` (choice, Quot.sound, propext)
  * `Verif.Persist.C11_mixed_pointers_break_identity` (propext)

### C12 A crash while saving never yields a build graph that loads as valid but is incomplete

* Modelled: Crash model: the file content after any prefix of the write operations; load's magic check.
* Proof: Case analysis over every prefix of operations.
* Status: proved. All crash points and all partial or failing writes, including a failing seek. The operating system is assumed to apply the process' writes in order (crash of the process, not loss of the disk cache).
* Theorems (axioms):
  * `Verif.Persist.C12_partial_file_rejected` (choice, Quot.sound, propext)
  * `Verif.Persist.C12_saving_can_finish` (choice, Quot.sound, propext)

### C13 FileSaver replaces files atomically

* Modelled: FileSaver::commit as a list of file-system operations with a crash semantics.
* Proof: Invariant over all prefixes and failures.
* Status: partial. Atomic wherever rename replaces files. Where it fails with EEXIST the target can be missing at a crash point (C13_eexist_not_atomic); it never has partial contents. An empty new file is not created although commit succeeds (C13_empty_file_not_created).
* Theorems (axioms):
  * `Verif.Saver.C13_old_or_new_partial` (Quot.sound, propext)
  * `Verif.Saver.C13_never_partial` (Quot.sound, propext)
  * `Verif.Saver.C13_success_partial` (Quot.sound, propext)
  * `Verif.Saver.C13_unchanged_not_written` (propext)
  * `Verif.Saver.C13_failure` (Quot.sound, propext)
  * `Verif.Saver.C13_eexist_not_atomic` (propext)
  * `Verif.Saver.C13_empty_file_not_created` (none)

### C14 No command runs before its inputs are built

* Modelled: Executor as a nondeterministic transition system (leaves queue, node states, running jobs).
* Proof: Inductive invariant over all reachable states.
* Status: partial. Proved for every build of a graph whose transformers give all their outputs the same dependencies. For per-artifact explicitlyDependsOn the code violates the property (C14_unequal_siblings_violation). Rule applications are covered by a contract (SafeEffect).
* Theorems (axioms):
  * `Verif.Exec.C14_start_after_dependencies_partial` (choice, Quot.sound, propext)
  * `Verif.Exec.C14_events_list_all_dependencies` (Quot.sound, propext)
  * `Verif.Exec.C14_apply_after_dependencies` (choice, Quot.sound, propext)
  * `Verif.Exec.C14_completed_after_success` (choice, Quot.sound, propext)
  * `Verif.Exec.Witness.C14_unequal_siblings_violation` (Quot.sound, propext)

### C15 Concurrency and job-pool limits are never exceeded

* Modelled: same
* Proof: Inductive invariant: running jobs <= max, per pool <= limit.
* Status: proved. maxJobs bound and pool limits for every schedule; a pool limit is enforced while a job of the product that sets it runs.
* Theorems (axioms):
  * `Verif.Exec.C15_max_jobs` (choice, Quot.sound, propext)
  * `Verif.Exec.C15_pool_limit` (choice, Quot.sound, propext)
  * `Verif.Exec.C15_running_is_started` (choice, Quot.sound, propext)

### C16 Each transformer's commands run at most once per build

* Modelled: same
* Proof: Inductive invariant on the start trace.
* Status: proved. Every schedule; same graph assumption as C14 (siblings have equal dependencies).
* Theorems (axioms):
  * `Verif.Exec.C16_at_most_once` (choice, Quot.sound, propext)
  * `Verif.Exec.C16_started_completes_by_running` (choice, Quot.sound, propext)

### C17 A build that reports success has built everything requested

* Modelled: same
* Proof: Progress measure, stuck-freedom on acyclic graphs.
* Status: partial. Termination, absence of deadlock and 'success means everything is built' are proved. That an undisturbed build builds everything needs rule applications not to take the last unfinished dependency from a waiting node; otherwise it is false (C17_lost_dependency_hangs).
* Theorems (axioms):
  * `Verif.Exec.C17_terminates` (choice, Quot.sound, propext)
  * `Verif.Exec.C17_not_stuck` (choice, Quot.sound, propext)
  * `Verif.Exec.C17_success_means_complete` (choice, Quot.sound, propext)
  * `Verif.Exec.C17_complete_partial` (choice, Quot.sound, propext)
  * `Verif.Exec.Witness.C17_lost_dependency_hangs` (Quot.sound, propext)

### C18 Failure containment

* Modelled: same
* Proof: Invariant on failed nodes and their ancestors.
* Status: partial. Containment, stop-on-failure and reporting for roots of primary products are proved. With keep-going a failure outside the primary products is not reported (C18_keep_going_failure_unreported).
* Theorems (axioms):
  * `Verif.Exec.C18_failure_contained` (choice, Quot.sound, propext)
  * `Verif.Exec.C18_failure_reported` (choice, Quot.sound, propext)
  * `Verif.Exec.C18_stop_on_failure` (choice, Quot.sound, propext)
  * `Verif.Exec.C18_keep_going_builds_the_rest_partial` (choice, Quot.sound, propext)
  * `Verif.Exec.Witness.C18_keep_going_failure_unreported` (Quot.sound, propext)

### C19 Cancellation is clean

* Modelled: same
* Proof: Invariant on the canceling state.
* Status: partial. Proved from the moment the executor acts on the request, or the request comes in while it waits. A request during a scheduling pass does not stop that pass (C19_request_during_pass), and a cancellation noticed by the timer is not reported as such (C19_timer_cancel_unreported).
* Theorems (axioms):
  * `Verif.Exec.C19_no_work_after_cancel` (choice, Quot.sound, propext)
  * `Verif.Exec.C19_cancel_reaches_all_jobs` (choice, Quot.sound, propext)
  * `Verif.Exec.C19_finished_last` (choice, Quot.sound, propext)
  * `Verif.Exec.C19_request_stops_new_work` (choice, Quot.sound, propext)
  * `Verif.Exec.C16_at_most_once` (choice, Quot.sound, propext)
  * `Verif.Exec.Witness.C19_request_during_pass` (Quot.sound, propext)
  * `Verif.Exec.Witness.C19_timer_cancel_unreported` (Quot.sound, propext)

### C20 Up-to-date decisions are sound

* Modelled: isUpToDate/mustExecuteTransformer as written.
* Proof: Decision logic, plus null-build theorem over the transition system.
* Status: proved. All graphs and timestamps, all interleavings of job starts and ends. The second-build theorem assumes a clock that does not run backwards, that commands write an output, no forced timestamp check, and that the change tracker (C31) reports nothing. Limits of the check itself are recorded as findings.
* Theorems (axioms):
  * `Verif.UpToDate.C20_skipped_iff_up_to_date` (choice, Quot.sound, propext)
  * `Verif.UpToDate.C20_second_build_does_nothing` (choice, Quot.sound, propext)
  * `Verif.UpToDate.C20_rebuilt_input_reruns` (choice, Quot.sound, propext)
  * `Verif.UpToDate.C20_no_assertion` (choice, Quot.sound, propext)
  * `Verif.UpToDate.C20_up_to_date_output_hides_another` (none)
  * `Verif.UpToDate.C20_deleted_output_unnoticed` (none)
  * `Verif.UpToDate.C20_rules_only_can_assert` (Quot.sound, propext)

### C21 Parent/child links stay symmetric

* Modelled: Graph as parents/children relation tables.
* Proof: Invariant over histories.
* Status: proved. All histories of the modelled graph operations, including destruction of any node at any time.
* Theorems (axioms):
  * `Verif.Graph.C21_links_symmetric` (Quot.sound, propext)
  * `Verif.Graph.C21_destroyed_unreferenced` (Quot.sound, propext)
  * `Verif.Graph.C21_disconnect_exact` (Quot.sound, propext)
  * `Verif.Graph.C21_connect_exact` (Quot.sound, propext)
  * `Verif.Graph.C21_connect_refuses` (propext)

### C22 Guarded connections keep the build graph acyclic

* Modelled: existsPath/safeConnect.
* Proof: Invariant: acyclicity; correctness of the path search.
* Status: proved. Where the code uses the unguarded connect, absence of a path back is a premise of the step; C22_plain_connect_makes_cycle shows it is needed. safeConnect may also throw, without change, for a second child with the same path.
* Theorems (axioms):
  * `Verif.Graph.C22_safeConnect_decides` (choice, Quot.sound, propext)
  * `Verif.Graph.C22_stays_acyclic` (Quot.sound, propext)
  * `Verif.Graph.C22_existsPath_exact` (choice, Quot.sound, propext)
  * `Verif.Graph.C22_plain_connect_makes_cycle` (Quot.sound, propext)

### C23 Cycle detection is sound and complete

* Modelled: visitNode with marks as a fuel-free recursion on unvisited nodes.
* Proof: Soundness/completeness by induction on the visit.
* Status: partial. Detection is exact and terminates. The reported list need not be a cycle: C23_reported_list_not_a_cycle.
* Theorems (axioms):
  * `Verif.Graph.C23_detects_exactly_cycles` (choice, Quot.sound, propext)
  * `Verif.Graph.C23_report_partial` (Quot.sound, propext)
  * `Verif.Graph.C23_reported_list_not_a_cycle` (Quot.sound, propext)

### C24 File lookup table is exact and generated files have a unique producer

* Modelled: Lookup table keyed by (file name, dir).
* Proof: Invariant over histories.
* Status: partial. Exact for artifacts; sound for file dependencies, which are dropped from the table when their file vanishes (C24_vanished_dependency_not_found).
* Theorems (axioms):
  * `Verif.Graph.C24_lookup_artifacts_exact` (choice, Quot.sound, propext)
  * `Verif.Graph.C24_lookup_sound_partial` (choice, Quot.sound, propext)
  * `Verif.Graph.C24_generated_unique` (choice, Quot.sound, propext)
  * `Verif.Graph.C24_second_insertion_rejected` (choice, Quot.sound, propext)
  * `Verif.Graph.C24_vanished_dependency_not_found` (Quot.sound, propext)

### C25 Artifacts are found under exactly their file tags

* Modelled: ProductBuildData index.
* Proof: Invariant over histories.
* Status: proved. All histories of the modelled operations in which objects are destroyed after they have been taken out of the graph. Finding beyond the statement: whether a source file with a tag of the product's type is a target depends on when it got the tag.
* Theorems (axioms):
  * `Verif.Graph.C25_tag_index_exact` (choice, Quot.sound, propext)
  * `Verif.Graph.C25_nodes_have_product` (choice, Quot.sound, propext)
  * `Verif.Graph.C25_roots_are_nodes` (choice, Quot.sound, propext)
  * `Verif.Graph.C25_roots_have_type` (choice, Quot.sound, propext)
  * `Verif.Graph.C25_tagged_becomes_root` (Quot.sound, propext)
  * `Verif.Graph.C25_stays_root` (Quot.sound, propext)
  * `Verif.Graph.C25_source_roots_depend_on_history` (Quot.sound, propext)

### C26 Removing an artifact removes exactly it and its exclusive dependents

* Modelled: Recursive removal.
* Proof: Induction on the removal.
* Status: partial. Proved for graphs in order (links symmetric, transformer inputs are children of the outputs). Findings: a surviving transformer's explicitlyDependsOn keeps the removed artifact (C26_explicit_dependency_dangles); an artifact whose transformer has no inputs goes with any of its dependencies (C26_no_inputs_removed).
* Theorems (axioms):
  * `Verif.Graph.C26_removes_exactly` (choice, Quot.sound, propext)
  * `Verif.Graph.demo_removed` (choice, Quot.sound, propext)
  * `Verif.Graph.C26_explicit_dependency_dangles` (Quot.sound, propext)
  * `Verif.Graph.C26_no_inputs_removed` (Quot.sound, propext)

### C27 Rule graph connects producers with consumers and detects rule cycles

* Modelled: RuleGraph, CreateRuleNodes, connectRulesToDependencies, collectedOutputFileTags and the tags of outputs (Verif.RuleGraph). The traversal has fuel for one more than the number of rules and never uses it up.
* Proof: The children are the tag relation; induction over the traversal gives nodes, connections and absence of cycles if it succeeds, a way through the graph if it reports a cycle, and excludes other errors (a path without repetition is not longer than the list of rules).
* Status: partial. Graph, nodes and cycles hold for all rule sets. That outputs carry only tags their rule is taken to produce fails for the tag installable and for outputs without declared tags (findings), so it is proved for the other outputs. Further findings: a producer that can also make an excluded tag is not connected, and the traversal visits exponentially many ways.
* Theorems (axioms):
  * `Verif.RuleGraph.C27_children` (Quot.sound, propext)
  * `Verif.RuleGraph.C27_nodes` (choice, Quot.sound, propext)
  * `Verif.RuleGraph.C27_cycle_iff` (choice, Quot.sound, propext)
  * `Verif.RuleGraph.C27_reported_path` (Quot.sound, propext)
  * `Verif.RuleGraph.C27_output_tags` (Quot.sound, propext)
  * `Verif.RuleGraph.C27_tags_covered_partial` (Quot.sound, propext)
  * `Verif.RuleGraph.C27_dependencies` (Quot.sound, propext)
  * `Verif.RuleGraph.C27_installable_not_connected` (Quot.sound, propext)
  * `Verif.RuleGraph.C27_tags_by_name_not_connected` (Quot.sound, propext)
  * `Verif.RuleGraph.C27_excluded_not_connected` (Quot.sound, propext)
  * `Verif.RuleGraph.C27_exponential` (choice, Quot.sound, propext)

### C28 A rule is applied again exactly for what changed, and its outputs are those its scripts gave

* Modelled: A rule node with the outputs of its rule: RuleNode::apply, the check of prepare scripts with its flag, and RulesApplicator as far as it creates, keeps and removes outputs and transformers. Scripts, time stamps, the set of compatible inputs and the relation of recorded accesses to a world are arbitrary.
* Proof: Invariant of the outputs (for a rule per input: one transformer per input; for a multiplex rule: one for all), preserved by every application without error and by resolving again; from it the decision, the outputs afterwards and the skipped second application.
* Status: partial. Decision, outputs and skipped second application are proved for rules per input and for multiplex rules with inputs, for histories without errors and inputs that are not dependencies of outputs made from other inputs. Without these conditions, and for rules without inputs, the property is false: nine findings.
* Theorems (axioms):
  * `Verif.Reapply.C28_reapplied` (choice, Quot.sound, propext)
  * `Verif.Reapply.C28_lost_input` (Quot.sound, propext)
  * `Verif.Reapply.C28_lost_dependency` (Quot.sound, propext)
  * `Verif.Reapply.C28_outputs` (choice, Quot.sound, propext)
  * `Verif.Reapply.C28_second` (choice, Quot.sound, propext)
  * `Verif.Reapply.C28_histories` (choice, Quot.sound, propext)
  * `Verif.Reapply.C28_histories_second` (choice, Quot.sound, propext)
  * `Verif.Reapply.C28_multiplex_reapplied` (choice, Quot.sound, propext)
  * `Verif.Reapply.C28_multiplex_outputs` (choice, Quot.sound, propext)
  * `Verif.Reapply.C28_multiplex_skipped` (choice, Quot.sound, propext)
  * `Verif.Reapply.C28_multiplex_second` (choice, Quot.sound, propext)
  * `Verif.Reapply.C28_failed_application_forgets_check` (propext)
  * `Verif.Reapply.C28_failed_script_leaves_output_without_commands` (propext)
  * `Verif.Reapply.C28_scanned_input_hides_rerun` (propext)
  * `Verif.Reapply.C28_explicit_dependency_ignored_without_inputs` (none)
  * `Verif.Reapply.C28_stale_output_without_inputs` (none)
  * `Verif.Reapply.C28_stale_output_after_replacing_inputs` (propext)
  * `Verif.Reapply.C28_removed_explicit_dependency_asserts` (propext)
  * `Verif.Reapply.C28_change_during_application_missed` (propext)
  * `Verif.Reapply.C28_stale_output_after_failure` (propext)

### C29 Cleaning removes only generated files of the selected kind

* Modelled: CleanupVisitor, removeFileRecursion, removeEmptyDirectories and the loop over the growing list of directories, over a file system of directories, files and entries that listings do not show; removals fail as an arbitrary predicate says; exceptions and cancellation (Verif.Clean).
* Proof: A relation between states (what may shrink, what only grows) kept by every step; completeness by induction over the recursion's depth and, for the directories, an invariant: handled ones contain something, and those above them are handled or in the list.
* Status: partial. All file systems, products and failures. Missing: a dry run does remove empty directories and forgets rescuable data (findings); keepGoing does not cover rescuable data (finding).
* Theorems (axioms):
  * `Verif.Clean.C29_removes_only` (choice, Quot.sound, propext)
  * `Verif.Clean.C29_other_files_stay` (choice, Quot.sound, propext)
  * `Verif.Clean.C29_removes_all` (choice, Quot.sound, propext)
  * `Verif.Clean.C29_no_empty_directories` (choice, Quot.sound, propext)
  * `Verif.Clean.C29_keep_going_partial` (choice, Quot.sound, propext)
  * `Verif.Clean.C29_stops_at_failure` (choice, Quot.sound, propext)
  * `Verif.Clean.C29_dry_run_partial` (choice, Quot.sound, propext)
  * `Verif.Clean.C29_dry_run_removes_directories` (choice, Quot.sound, propext)
  * `Verif.Clean.C29_dry_run_forgets` (choice, Quot.sound, propext)
  * `Verif.Clean.C29_rescuable_failure_stops` (choice, Quot.sound, propext)
  * `Verif.Clean.C29_broken_link_fails` (choice, Quot.sound, propext)
  * `Verif.Clean.C29_rescuable_directory_stays` (choice, Quot.sound, propext)

### C30 Installation stays inside the install root and detects conflicts

* Modelled: The computation of targets with QDir::cleanPath and resolvePath, the installer with its map of targets, its constructor and the removal of the root, copyFileRecursion for regular files, and the executor's use of the installer.
* Proof: Paths as lists of names: cleaning keeps the place and leaves some `..` followed by names; string prefixes of such paths are either prefixes or siblings. Induction over the artifacts for conflicts and contents.
* Status: partial. Targets are inside the install root for prefixes and directories that do not go up; what is missing is shown by the findings: the code accepts targets outside of the root in four ways. Conflicts are always reported, only targets change, and a successful installation leaves the sources' contents, except for sources that are older than the target or missing.
* Theorems (axioms):
  * `Verif.Install.C30_inside_partial` (Quot.sound, propext)
  * `Verif.Install.C30_not_refused` (Quot.sound, propext)
  * `Verif.Install.C30_source_base` (choice, Quot.sound, propext)
  * `Verif.Install.C30_source_base_relative` (choice, Quot.sound, propext)
  * `Verif.Install.C30_conflicts_reported` (choice, Quot.sound, propext)
  * `Verif.Install.C30_refusal_fails` (choice, Quot.sound, propext)
  * `Verif.Install.C30_changes_only_targets` (choice, Quot.sound, propext)
  * `Verif.Install.C30_installed` (choice, Quot.sound, propext)
  * `Verif.Install.C30_fresh_installation` (choice, Quot.sound, propext)
  * `Verif.Install.C30_dry_run` (Quot.sound, propext)
  * `Verif.Install.C30_refuses_removal` (Quot.sound, propext)
  * `Verif.Install.C30_root` (Quot.sound, propext)
  * `Verif.Install.C30_sibling_directory` (choice, Quot.sound, propext)
  * `Verif.Install.C30_no_test_with_source_base` (choice, Quot.sound, propext)
  * `Verif.Install.C30_source_base_cuts_names` (choice, Quot.sound, propext)
  * `Verif.Install.C30_no_root_no_test` (choice, Quot.sound, propext)
  * `Verif.Install.C30_older_source_not_installed` (choice, Quot.sound, propext)
  * `Verif.Install.C30_missing_source_accepted` (choice, Quot.sound, propext)
  * `Verif.Install.C30_dry_run_misses_conflicts` (choice, Quot.sound, propext)
  * `Verif.Install.C30_configured_root_removed` (choice, Quot.sound, propext)
  * `Verif.Install.C30_build_removes_home` (choice, Quot.sound, propext)

### C31 Change tracking triggers a re-run whenever a tracked input of a script changed

* Modelled: Recording of every kind of access (properties of products, projects, modules, dependency parameters and artifacts, file tags, artifact maps, dependencies, exports, imports) and the check of TrafoChangeTracker (Verif.Track). A script is an arbitrary program that asks and continues depending on the answers; it reaches objects only through answers.
* Proof: Induction over the script: an invariant relates record and world; if the check finds nothing, each answer is the same in the later world, hence the run. Conditions that the code needs are in Verif.Track.Spec, each is shown necessary by a finding.
* Status: partial. Completeness (nothing changed, no re-run) for all scripts. Soundness for all scripts that do not use artifacts of modules, and changes described by Comparable; for the six kinds of changes excluded the code is shown to miss them.
* Theorems (axioms):
  * `Verif.Track.C31_changed_answer_reruns_partial` (choice, Quot.sound, propext)
  * `Verif.Track.C31_not_rerun_same_result_partial` (choice, Quot.sound, propext)
  * `Verif.Track.C31_unchanged_not_rerun` (choice, Quot.sound, propext)
  * `Verif.Track.C31_environment` (Quot.sound, propext)
  * `Verif.Track.C31_new_product_property` (choice, Quot.sound, propext)
  * `Verif.Track.C31_module_artifacts_not_tracked` (choice, Quot.sound, propext)
  * `Verif.Track.C31_target_of_module` (choice, Quot.sound, propext)
  * `Verif.Track.C31_tag_of_module_targets` (choice, Quot.sound, propext)
  * `Verif.Track.C31_product_replaced_by_module` (choice, Quot.sound, propext)
  * `Verif.Track.C31_project_named_like_product` (choice, Quot.sound, propext)

### C32 Scan results are only reused for the matching file, scanner and settings

* Modelled: RawScanResults and its use by InputArtifactScanner, over histories of file changes, scans and invalidations; a result is the inputs it was made from, so reuse is visible; the C++ scanner's use of its inputs (Verif.Scan).
* Proof: Invariants over timed histories (origin of entries, content kept); findings where results depend on more than the key.
* Status: partial. For histories in which a changed file gets the current time. Same scanner: provided ids are unique in the project, which is only checked per product (finding). Plugins' results are shared between all properties, though the C++ scanner's depend on one (finding).
* Theorems (axioms):
  * `Verif.Scan.C32_matching_and_current` (choice, Quot.sound, propext)
  * `Verif.Scan.C32_same_scanner_same_properties` (choice, Quot.sound, propext)
  * `Verif.Scan.C32_result_for_existing_file` (choice, Quot.sound, propext)
  * `Verif.Scan.C32_invalidated` (choice, Quot.sound, propext)
  * `Verif.Scan.C32_no_interference` (choice, Quot.sound, propext)
  * `Verif.Scan.C32_module_suffix_of_other_product` (Quot.sound, propext)
  * `Verif.Scan.C32_local_header_added` (Quot.sound, propext)
  * `Verif.Scan.C32_scanner_id_of_other_product` (Quot.sound, propext)
  * `Verif.Scan.C32_result_of_other_product` (Quot.sound, propext)
  * `Verif.Scan.C32_older_file_not_scanned` (none)

### C33 Requested-artifacts tracking notices every relevant change

* Modelled: RequestedArtifacts: records of arbitrary histories of accesses, isUpToDate, unite, and mergeAndClearTrackedScriptAccesses (Verif.Track.Merge).
* Proof: Induction over the history of accesses; merging by look-up lemmas for each table, findings for the three losses.
* Status: partial. One record: for all histories of accesses. Merging: under the conditions of Mergeable; without each of them the code loses accesses (findings).
* Theorems (axioms):
  * `Verif.Track.C33_up_to_date_iff_same` (choice, Quot.sound, propext)
  * `Verif.Track.C33_merge_notices_both_partial` (choice, Quot.sound, propext)
  * `Verif.Track.C33_merge_loses_artifact_properties` (choice, Quot.sound, propext)
  * `Verif.Track.C33_merge_loses_enumeration` (choice, Quot.sound, propext)
  * `Verif.Track.C33_merge_loses_requests_without_artifacts` (choice, Quot.sound, propext)

### C34 Rescued artifacts get their old state only when the build step is unchanged

* Modelled: ArtifactRescuer::rescueOldBuildData with its loops, Transformer::rescueFromArtifactData, and how BuildGraphLoader keeps the data of the old artifacts.
* Proof: Loop lemmas; the count of the children equals the number of former children iff there are no new ones (injectivity of the lookup); the way from keeping to rescuing is one theorem.
* Status: proved. The decision is characterised exactly; the way from the old product to the rescued artifact is covered by C34_unchanged_artifact_keeps_state. A finding: the wrong path is recorded for removed former children.
* Theorems (axioms):
  * `Verif.Rescue.C34_rescued` (choice, Quot.sound, propext)
  * `Verif.Rescue.C34_not_rescued` (choice, Quot.sound, propext)
  * `Verif.Rescue.C34_removes_only` (choice, Quot.sound, propext)
  * `Verif.Rescue.C34_no_assertion` (choice, Quot.sound, propext)
  * `Verif.Rescue.C34_used_once` (choice, Quot.sound, propext)
  * `Verif.Rescue.C34_unchanged_artifact_keeps_state` (choice, Quot.sound, propext)
  * `Verif.Rescue.C34_wrong_path_recorded` (propext)

### C35 The build-graph lock excludes concurrent access and leaves no stray directories

* Modelled: DirectoryManager over a tree of directories and files (Verif.Dirs.Model, Locker); the constructor's loop against an arbitrary sequence of outcomes; any number of processes, their loops interleaved at the calls to QLockFile, with crashes. QLockFile is an assumption: a lock file cannot be taken or removed while its owner's process has the operating system lock.
* Proof: Induction over the chain of directories, over the attempts, and an invariant over histories.
* Status: proved. QLockFile's contract is assumed. The theorems about directories are about one process; C35_waiting_process_leaves_directories shows that with a second, waiting one an empty directory can stay.
* Theorems (axioms):
  * `Verif.Dirs.C35_returns_iff_locked` (choice, Quot.sound, propext)
  * `Verif.Dirs.C35_bounded` (choice, Quot.sound, propext)
  * `Verif.Dirs.C35_already_locked` (choice, Quot.sound, propext)
  * `Verif.Dirs.C35_exclusive` (Quot.sound, propext)
  * `Verif.Dirs.C35_removes_only_created_and_empty` (choice, Quot.sound, propext)
  * `Verif.Dirs.C35_no_stray_directories` (choice, Quot.sound, propext)
  * `Verif.Dirs.C35_leaves_no_trace` (choice, Quot.sound, propext)
  * `Verif.Dirs.C35_waiting_process_leaves_directories` (choice, Quot.sound, propext)

### C36 A job runs its commands in order and reports exactly once

* Modelled: ExecutorJob, both command executors, QbsProcess, the two directions of the launcher connection and the launcher's process as one state machine (Verif.Job.Model); twenty kinds of events.
* Proof: Specification: an automaton over observations (Verif.Job.Spec). Invariant relating machine and automaton, preserved by every event; readable consequences from acceptance. Progress: induction over commands left. Dependence on earlier runs and hangs after a timeout are proved as findings.
* Status: partial. Order, one report per run, soundness of success and absence of assertions: for all histories. Exact results: until the first run that was canceled, timed out or could not start a process; after that the code deviates (findings). Progress: unless a process timed out; with a timeout a job can hang (C36_timeout_can_hang).
* Theorems (axioms):
  * `Verif.Job.C36_accepted` (Quot.sound, propext)
  * `Verif.Job.C36_finished_once` (Quot.sound, propext)
  * `Verif.Job.C36_in_order` (Quot.sound, propext)
  * `Verif.Job.C36_success_is_sound` (Quot.sound, propext)
  * `Verif.Job.C36_no_assertion` (Quot.sound, propext)
  * `Verif.Job.C36_can_finish_partial` (choice, Quot.sound, propext)
  * `Verif.Job.C36_timeout_can_hang` (Quot.sound, propext)
  * `Verif.Job.C36_old_timeout_hangs_later_run` (Quot.sound, propext)
  * `Verif.Job.C36_old_timeout_fails_later_run` (propext)
  * `Verif.Job.C36_old_start_failure_fails_later_run` (propext)
  * `Verif.Job.C36_crash_counts_as_success` (propext)
  * `Verif.Job.C36_old_script_timeout_fails_later_run` (propext)
  * `Verif.Job.C36_old_cancel_skips_later_script` (propext)
  * `Verif.Job.C36_script_timeout_lost` (propext)

### C37 Progress is monotone and reaches its maximum exactly at the end

* Modelled: ProgressObserver, JobObserver and the executor's counting per rule and transformer (Verif.Progress.Props); the loops of cleaning, installing and setting up.
* Proof: Invariant over all orderly histories: each rule node is applied at most once, each of its transformers finished at most once and after it.
* Status: proved. For orderly histories: each rule node of the build is applied at most once and each transformer finished at most once, after its rule.
* Theorems (axioms):
  * `Verif.Progress.C37_build` (choice, Quot.sound, propext)
  * `Verif.Progress.C37_build_all_but_one` (choice, Quot.sound, propext)
  * `Verif.Progress.C37_loops` (Quot.sound, propext)

### C38 toJSLiteral produces literals that evaluate to the original value

* Modelled: toJSLiteral for nested variants (Verif.Literal.Model); an evaluator of ECMAScript literals as specification (Verif.Literal.Spec).
* Proof: Mutual induction over the variant: parsing its literal followed by any delimiter gives its value; exact characterization for strings.
* Status: partial. For all nested values of booleans, integers of at most 53 bits and strings without ends of lines; the other values are findings.
* Theorems (axioms):
  * `Verif.Literal.C38_variant_partial` (choice, Quot.sound, propext)
  * `Verif.Literal.C38_string_iff` (choice, Quot.sound, propext)
  * `Verif.Literal.C38_string_list` (choice, Quot.sound, propext)
  * `Verif.Literal.C38_line_end` (choice, Quot.sound, propext)
  * `Verif.Literal.C38_double_is_string` (choice, Quot.sound, propext)
  * `Verif.Literal.C38_large_integer` (choice, Quot.sound, propext)
  * `Verif.Literal.C38_proto_lost` (choice, Quot.sound, propext)
  * `Verif.Literal.C38_unconvertible` (choice, Quot.sound, propext)

### C39 Project file edits apply as if simultaneous

* Modelled: ChangeSet: recording of operations with overlap check, conversion to replacements, sequential execution with shifting of positions (Verif.Edit).
* Proof: Specification: all edits at once, position by position. One execution step preserves the specified result; induction over the list. Error flag characterized exactly; findings for insertions at the start of an already replaced range.
* Status: partial. Except for insertions at the start of a range that was replaced or removed by an earlier operation: these are not reported and go wrong (findings).
* Theorems (axioms):
  * `Verif.Edit.C39_error_iff_conflict` (choice, Quot.sound, propext)
  * `Verif.Edit.C39_simultaneous_partial` (choice, Quot.sound, propext)
  * `Verif.Edit.C39_order_of_calls` (choice, Quot.sound, propext)
  * `Verif.Edit.C39_insert_after_replacement` (choice, Quot.sound, propext)
  * `Verif.Edit.C39_insert_after_removal` (choice, Quot.sound, propext)

### C40 Profile inheritance resolves to the nearest definition and cycles are reported

* Modelled: Profile chain lookup.
* Proof: Termination and refinement to first-definition-on-chain.
* Status: partial. Values: full. The list of keys is exact unless a profile given by the project also has stored settings: then the stored keys are missing (C40_keys_of_overridden_profile_missing).
* Theorems (axioms):
  * `Verif.Profile.C40_value_terminates` (choice, Quot.sound, propext)
  * `Verif.Profile.C40_own_definitions` (propext)
  * `Verif.Profile.C40_value_is_nearest` (choice, Quot.sound, propext)
  * `Verif.Profile.C40_default_iff` (choice, Quot.sound, propext)
  * `Verif.Profile.C40_cycle_iff` (choice, Quot.sound, propext)
  * `Verif.Profile.C40_missing_iff` (choice, Quot.sound, propext)
  * `Verif.Profile.C40_all_keys_partial` (choice, Quot.sound, propext)
  * `Verif.Profile.C40_keys_of_overridden_profile_missing` (choice, Quot.sound, propext)

### C41 Settings scopes merge predictably

* Modelled: Settings::value/allKeys.
* Proof: Decision logic, list lemmas.
* Status: partial. All histories of writes and removals. Two keys differing only in '.' and '/' read as one but can be listed twice; a profile whose name merely starts with 'none' cannot be written.
* Theorems (axioms):
  * `Verif.Settings.C41_reads_last_write` (choice, Quot.sound, propext)
  * `Verif.Settings.C41_scopes_merge` (propext)
  * `Verif.Settings.C41_all_keys_partial` (choice, Quot.sound, propext)
  * `Verif.Settings.C41_key_listed_twice` (choice, Quot.sound, propext)
  * `Verif.Settings.C41_innocent_profile_rejected` (choice, Quot.sound, propext)

### C42 Multiplexing yields exactly the cartesian product

* Modelled: combine/extractMultiplexInfo.
* Proof: Induction over axes.
* Status: proved. All lists of axes and values. The JavaScript evaluation that produces the lists is a parameter.
* Theorems (axioms):
  * `Verif.Multiplex.C42_cartesian_product` (choice, Quot.sound, propext)

### C43 Id interning is injective and stable

* Modelled: theId intern table.
* Proof: Invariant over histories.
* Status: proved. All histories of names without NUL and every hash function; with NUL in a name the property fails (C43_nul_breaks_names).
* Theorems (axioms):
  * `Verif.Ids.C43_ids_are_names` (choice, Quot.sound, propext)
  * `Verif.Ids.C43_nul_breaks_names` (propext)

### C44 Property merging picks the highest-priority value independently of merge order

* Modelled: calculatePriority, mergePropertyFromLocalInstance and doFinalMerge over values with two scopes (at the times of merging and of the final merge); flags of constants in a heap in which booleans are shared (Verif.Merge). Evaluation of the values is not modelled.
* Proof: Invariant over merging: value and candidates are a permutation of what was merged, the value is the greatest. Specification of the final scan as a filter; sorted lists with the same members are equal, hence independence of the order.
* Status: partial. For all values and orders, also if priorities change before the final merge. The order matters if the highest priority is shared after such a change (C44_order_matters). Boolean constants share their flags, so values from profiles can count as set on the command line (C44_shared_boolean).
* Theorems (axioms):
  * `Verif.Merge.C44_priorities` (choice, Quot.sound, propext)
  * `Verif.Merge.C44_highest_priority` (choice, Quot.sound, propext)
  * `Verif.Merge.C44_any_order` (choice, Quot.sound, propext)
  * `Verif.Merge.C44_any_order_unique_highest` (choice, Quot.sound, propext)
  * `Verif.Merge.C44_command_line_kept` (none)
  * `Verif.Merge.C44_internal_wins` (Quot.sound, propext)
  * `Verif.Merge.C44_conflict_warning` (choice, Quot.sound, propext)
  * `Verif.Merge.C44_constant_origin` (Quot.sound, propext)
  * `Verif.Merge.C44_order_matters` (none)
  * `Verif.Merge.C44_shared_boolean` (none)

### C45 Session packets survive any chunking of the input stream

* Modelled: SessionPacket parser fed by chunks.
* Proof: Induction over chunks.
* Status: proved. JSON and Base64 are Qt's and not modelled: payloads are arbitrary bytes. Qt's number parsing is assumed to understand decimal numerals.
* Theorems (axioms):
  * `Verif.Session.C45_any_chunking` (Quot.sound, propext)
  * `Verif.Session.C45_all_delivered` (Quot.sound, propext)
  * `Verif.Session.C45_invalid_length_reported` (Quot.sound, propext)

### C46 Building a subset also builds all dependencies, in priority order

* Modelled: setupAuxiliaryProducts, the flag for partial builds and its use, ProductPrioritySetter, the choice by priority and the total effort (Verif.Subset). The recursions get fuel, which the theorems only ask to be large enough.
* Proof: The collected products are compared with reachability by induction on fuel; the traversal keeps an invariant with a list of products whose traversal is not finished; that each product lies below a root product follows by induction on the rank.
* Status: partial. The list of products to build is exactly the closure of the request, and the order of priorities holds for all acyclic dependencies. That nodes of no other product are considered holds if no requested product depends on another one (C46_considered); otherwise products can be listed twice and C46_duplicates_hide_partial_build shows a build that considers nodes of a foreign product. Further findings: the effort counts products twice, and collecting dependencies takes exponentially many calls.
* Theorems (axioms):
  * `Verif.Subset.C46_buildable` (choice, Quot.sound, propext)
  * `Verif.Subset.C46_fully_built` (choice, Quot.sound, propext)
  * `Verif.Subset.C46_considered` (choice, Quot.sound, propext)
  * `Verif.Subset.C46_priorities` (choice, Quot.sound, propext)
  * `Verif.Subset.C46_dependencies_first` (choice, Quot.sound, propext)
  * `Verif.Subset.C46_duplicates_hide_partial_build` (Quot.sound, propext)
  * `Verif.Subset.C46_effort_counted_twice` (Quot.sound, propext)
  * `Verif.Subset.C46_exponential` (Quot.sound, propext)

### C47 Architecture canonicalisation is idempotent and case-insensitive on aliases

* Modelled: alias table.
* Proof: Case analysis on the table for all strings.
* Status: proved. All strings. QString::toLower is a parameter that leaves the lower-case names of the table alone.
* Theorems (axioms):
  * `Verif.Arch.C47_idempotent` (choice, Quot.sound, propext)
  * `Verif.Arch.C47_aliases` (choice, Quot.sound, propext)
  * `Verif.Arch.C47_target_name_leads_back` (choice, Quot.sound, propext)
  * `Verif.Arch.C47_armv7a_target_name` (choice, Quot.sound, propext)
  * `Verif.Arch.C47_canonical_names_case_sensitive` (choice, Quot.sound, propext)

### C48 Empty-directory removal never removes non-empty or foreign directories

* Modelled: EmptyDirectoriesRemover over a tree of directories and files, paths also as strings (Verif.Dirs.Empty). Symbolic links are not directories of the model.
* Proof: Invariant over the loop: the list is sorted by depth, what was handled is at least as deep as what is left, and each directory in question that exists is in the list, not empty or refused.
* Status: partial. Inside: provided the artifacts are inside the build directory; for others the code compares strings only (C48_sibling_directory_removed). Completely: provided the artifacts' own directories exist (C48_missing_directory_stops).
* Theorems (axioms):
  * `Verif.Dirs.C48_only_empty_directories` (choice, Quot.sound, propext)
  * `Verif.Dirs.C48_stays_inside` (choice, Quot.sound, propext)
  * `Verif.Dirs.C48_removes_all_empty` (choice, Quot.sound, propext)
  * `Verif.Dirs.C48_terminates` (choice, Quot.sound, propext)
  * `Verif.Dirs.C48_sibling_directory_removed` (choice, Quot.sound, propext)
  * `Verif.Dirs.C48_missing_directory_stops` (choice, Quot.sound, propext)

### C49 A rules-only build launches no commands

* Modelled: Executor transition system.
* Proof: Every launch event is traced back to the step that made it.
* Status: proved. Same graph assumption as C14.
* Theorems (axioms):
  * `Verif.Exec.C49_rules_only_launches_nothing` (choice, Quot.sound, propext)

### C50 Building selected products leaves the others alone

* Modelled: Executor transition system, checkNodeProduct.
* Proof: Every launch and rule application is traced back to the step that made it.
* Status: proved. Same graph assumption as C14. Which products are selected is a parameter (see C46 for the auxiliary ones).
* Theorems (axioms):
  * `Verif.Exec.C50_only_selected_products` (choice, Quot.sound, propext)

### C51 Dependency scanning finds what is included, and only that

* Modelled: The update of one artifact's dependencies (Verif.Includes): resolution of a name in the search paths, the loop over the files to scan, the cache, and the new edges. Scan results, path resolution and cleaning, the file system and the other edges of the graph are parameters.
* Proof: Invariant over the loop (visited files are exactly those reachable, up to the queue); resolution does not depend on file dependencies registered on the way; termination by a measure. What breaks the assumption that nothing changes between builds or during one is shown by findings.
* Status: partial. Holds for one update in an unchanging world with a cache that fits it. Across changes within a build (cache) and between builds (remembered scan results), and for unclean search paths or files in the root directory, it is false: findings.
* Theorems (axioms):
  * `Verif.Includes.C51_cpp_scan` (Quot.sound, propext)
  * `Verif.Includes.C51_place` (propext)
  * `Verif.Includes.C51_place_dots` (propext)
  * `Verif.Includes.C51_resolution` (Quot.sound, propext)
  * `Verif.Includes.C51_resolution_absolute` (Quot.sound, propext)
  * `Verif.Includes.C51_dependencies` (choice, Quot.sound, propext)
  * `Verif.Includes.C51_terminates` (choice, Quot.sound, propext)
  * `Verif.Includes.C51_unclean_search_path` (choice, Quot.sound, propext)
  * `Verif.Includes.C51_file_in_root_directory` (choice, Quot.sound, propext)
  * `Verif.Includes.C51_moved_header_lost` (choice, Quot.sound, propext)
  * `Verif.Includes.C51_shadowing_header_missed` (choice, Quot.sound, propext)
  * `Verif.Includes.C51_new_artifact_not_found` (choice, Quot.sound, propext)
  * `Verif.Includes.C51_deleted_artifact_found` (choice, Quot.sound, propext)
  * `Verif.Includes.C51_input_disconnected` (choice, Quot.sound, propext)
  * `Verif.Includes.C51_unbuilt_not_followed` (choice, Quot.sound, propext)
  * `Verif.Includes.C51_cycle_dropped` (choice, Quot.sound, propext)

### C52 Products are resolved once, after what they depend on, whatever the threads do

* Modelled: The scheduler of the products resolver as a transition system (Verif.Sched.Model): queue, loader states, running threads, the tables of waiting products; a thread's work is the sequence of its Depends items (by name or by type), one item per step, then the second stage. Module loading and evaluation are parameters (broken, condition, types). The two mutexes, the condition variable and canceling are a second model (Verif.Sched.Locks).
* Proof: An invariant says in which place each product is, which loader state is whose and why a product may not be deferred; a second one ties the recorded dependencies and disabled products to the specification; a lexicographic measure decreases with each step. The specification (needs, wants, bad) does not mention the scheduler. Findings by concrete executions.
* Status: partial. Everything except dependencies by type and canceling holds for all interleavings of acyclic projects. For dependencies by type the outcome depends on timing (finding), so they and determinism are proved for the case that no wanted product itself depends on a product with dependencies by type. Canceling can block forever in two ways (findings). With cycles, products are resolved twice and errors blame products on no cycle (findings).
* Theorems (axioms):
  * `Verif.Sched.C52_no_false_cycle` (choice, Quot.sound, propext)
  * `Verif.Sched.C52_once` (choice, Quot.sound, propext)
  * `Verif.Sched.C52_progress` (choice, Quot.sound, propext)
  * `Verif.Sched.C52_terminates` (choice, Quot.sound, propext)
  * `Verif.Sched.C52_exclusive` (choice, Quot.sound, propext)
  * `Verif.Sched.C52_job_limit` (choice, Quot.sound, propext)
  * `Verif.Sched.C52_disabled` (choice, Quot.sound, propext)
  * `Verif.Sched.C52_order` (choice, Quot.sound, propext)
  * `Verif.Sched.C52_dependencies_partial` (choice, Quot.sound, propext)
  * `Verif.Sched.C52_missed` (choice, Quot.sound, propext)
  * `Verif.Sched.C52_deterministic` (choice, Quot.sound, propext)
  * `Verif.Sched.Locks.C52_no_lost_wakeup` (choice, Quot.sound, propext)
  * `Verif.Sched.Locks.C52_cancel_partial` (choice, Quot.sound, propext)
  * `Verif.Sched.Locks.C52_cancel_never_noticed` (propext)
  * `Verif.Sched.Locks.C52_cancel_deadlock` (propext)
  * `Verif.Sched.C52_cycle_resolved_twice` (Quot.sound, propext)
  * `Verif.Sched.C52_cycle_wrong_product` (Quot.sound, propext)
  * `Verif.Sched.C52_outcome_depends_on_timing` (Quot.sound, propext)
  * `Verif.Sched.C52_bulk_order` (Quot.sound, propext)

### C53 A project that would resolve differently is resolved again

* Modelled: Resolving as an arbitrary interactive program: it asks the world (files, File.exists() and so on, wildcards, lookups of the loader) and goes on depending on the answer; probes are scripts of the same kind with a key. The world is a function of the step. What is remembered, the decision to resolve again and the reuse of probes are modelled function by function (Verif.Stale.Model). Values (results, properties, configuration) are numbers; only equality matters.
* Proof: Invariant over the run: each question that was asked is in the table for its kind. If no check reports a change, all answers are the same in the new world; then by induction over the program the run from scratch in the new world takes the same path. Findings by concrete projects and worlds.
* Status: partial. Proved for projects that ask only tracked questions, resolved without reusing probes, with answers stable while resolving, honest time stamps and no vanished source files. Each of these conditions is needed: nine findings.
* Theorems (axioms):
  * `Verif.Stale.C53_sound_partial` (choice, Quot.sound, propext)
  * `Verif.Stale.C53_load_partial` (choice, Quot.sound, propext)
  * `Verif.Stale.C53_probes` (choice, Quot.sound, propext)
  * `Verif.Stale.C53_canonical_path_forgotten` (propext)
  * `Verif.Stale.C53_new_module_forgotten` (propext)
  * `Verif.Stale.C53_text_file_forgotten` (propext)
  * `Verif.Stale.C53_older_file_missed` (propext)
  * `Verif.Stale.C53_vanished_source_missed` (propext)
  * `Verif.Stale.C53_change_while_resolving_missed` (propext)
  * `Verif.Stale.C53_probe_not_run_again` (propext)
  * `Verif.Stale.C53_probe_questions_forgotten` (propext)
  * `Verif.Stale.C53_import_modified_while_probing` (propext)

### C54 A project is not resolved again without need, and forcing always helps

* Modelled: As C53.
* Proof: From the converse invariant: each entry in a table is the answer to a question that was asked.
* Status: proved. 
* Theorems (axioms):
  * `Verif.Stale.C54_quiet` (choice, Quot.sound, propext)
  * `Verif.Stale.C54_forced` (choice, Quot.sound, propext)

### C55 Wildcards match exactly the files they mean, and changes are noticed

* Modelled: SourceWildCards over an arbitrary file system (entries of each path, with links; the nesting of real directories is finite). Name matching is a parameter (Qt's), of which only that literal names match themselves is used; QDirIterator by its documented behaviour (Verif.Wild.Model).
* Proof: The specification is an inductive relation between parts of a pattern and paths that knows nothing of the iterator or of the order of work. Induction over the number of parts; the visited directories are the reachable ones. A lemma about string prefixes of paths says when the test for the build directory is right. Findings by concrete trees.
* Status: partial. Holds if no pattern is empty or contains '..', and no directory beside the build directory has a name beginning with that of the build directory; without these conditions it is false (findings). Noticing changes holds; that nothing is noticed without a change fails if other products have generated matching files (finding).
* Theorems (axioms):
  * `Verif.Wild.C55_expand` (Quot.sound, propext)
  * `Verif.Wild.C55_plain` (Quot.sound, propext)
  * `Verif.Wild.C55_parts` (propext)
  * `Verif.Wild.C55_prefix` (choice, Quot.sound, propext)
  * `Verif.Wild.C55_noticed` (Quot.sound, propext)
  * `Verif.Wild.C55_quiet_partial` (Quot.sound, propext)
  * `Verif.Wild.C55_resolved_each_time` (Quot.sound, propext)
  * `Verif.Wild.C55_sibling_ignored` (Quot.sound, propext)
  * `Verif.Wild.C55_generated_file_matched` (Quot.sound, propext)
  * `Verif.Wild.C55_empty_pattern` (Quot.sound, propext)
  * `Verif.Wild.C55_hidden_file_not_found` (Quot.sound, propext)
  * `Verif.Wild.C55_path_does_not_exist` (Quot.sound, propext)

### C56 After the project is resolved again, just the products that are affected are set up anew

* Modelled: `Verif/Anew`: comparison of products, rules, groups, dependencies and source files; completing the list of changed products by the search with a memo; what becomes of each product
* Proof: invariant of the search (everything on the list is affected, nothing in the memo is) by induction over the depth, with a rank from acyclicity; comparison by key equals permutation if keys are unique; case analysis of the lists. Finding for rules with equal keys.
* Status: partial. The full property holds if no two rules of a product have the same key (and scanners and dependencies are unique). C56_similar_rule_missed: without that a changed rule is missed and then an assertion fails.
* Theorems (axioms):
  * `Verif.Anew.C56_changed_iff` (choice, Quot.sound, propext)
  * `Verif.Anew.C56_kept` (choice, Quot.sound, propext)
  * `Verif.Anew.C56_set_up` (choice, Quot.sound, propext)
  * `Verif.Anew.C56_removed` (choice, Quot.sound, propext)
  * `Verif.Anew.C56_rescued` (choice, Quot.sound, propext)
  * `Verif.Anew.C56_similar_rule_missed` (choice, Quot.sound, propext)

### C57 A product that keeps its build graph has its artifacts updated if properties change

* Modelled: same model, with the choice of the first matching group and of tags by file name for generated artifacts
* Proof: sorted lists of paths are equal iff they are permutations; groups as permutations give the same group if at most one matches. Findings: order of groups, file taggers, tags with commas.
* Status: partial. Which artifacts are updated is proved exactly. That artifacts have the tags and properties they would get now holds only if file taggers are the same and at most one group matches each artifact: three findings show changes that are missed.
* Theorems (axioms):
  * `Verif.Anew.C57_update` (choice, Quot.sound, propext)
  * `Verif.Anew.C57_sources` (Quot.sound, propext)
  * `Verif.Anew.C57_artifacts_current_partial` (choice, Quot.sound, propext)
  * `Verif.Anew.C57_group_order_missed` (choice, Quot.sound, propext)
  * `Verif.Anew.C57_tagger_missed` (choice, Quot.sound, propext)
  * `Verif.Anew.C57_comma_missed` (choice, Quot.sound, propext)

### C58 Scanning a C++ file finds exactly its include directives

* Modelled: the lexer byte by byte (code points with continuation bytes, escaped line breaks, comments, literals, raw strings, numbers, operators) and the loop of the scanner; a file is specified as a list of lines, each made of pieces
* Proof: each piece is lexed to the tokens it stands for (induction over the piece), lines leave the lexer at the next line, and the loop reports the directives; termination because each token consumes input; reads of the mapped memory as a function of offsets. Findings: invalid UTF-8, null directives, spliced lines, NUL, digit separators, functions called module, include_next, unclosed names, read after the end.
* Status: partial. Proved for all files made of lines of directives, code, literals of all kinds, comments, raw strings and module declarations as specified in Spec.lean (FileOk). Each exclusion corresponds to a finding: invalid UTF-8, null directives, spliced lines, NUL, digit separators, declarations that begin with module, unclosed names. Termination holds for all byte sequences. Reads stay in mapped memory unless the size is a multiple of the page size (finding).
* Theorems (axioms):
  * `Verif.Cpp.C58_found_partial` (choice, Quot.sound, propext)
  * `Verif.Cpp.C58_bom` (choice, Quot.sound, propext)
  * `Verif.Cpp.C58_terminates` (choice, Quot.sound, propext)
  * `Verif.Cpp.C58_reads_mapped` (Quot.sound, propext)
  * `Verif.Cpp.C58_reads_past_the_end` (Quot.sound, propext)
  * `Verif.Cpp.C58_latin1_hides` (choice, Quot.sound, propext)
  * `Verif.Cpp.C58_null_directive_hides` (choice, Quot.sound, propext)
  * `Verif.Cpp.C58_splice_hides` (choice, Quot.sound, propext)
  * `Verif.Cpp.C58_splice_in_word` (choice, Quot.sound, propext)
  * `Verif.Cpp.C58_nul_hides` (choice, Quot.sound, propext)
  * `Verif.Cpp.C58_digit_separator_hides` (choice, Quot.sound, propext)
  * `Verif.Cpp.C58_digit_separator_shows` (choice, Quot.sound, propext)
  * `Verif.Cpp.C58_module_function_hides` (choice, Quot.sound, propext)
  * `Verif.Cpp.C58_include_next_missed` (choice, Quot.sound, propext)
  * `Verif.Cpp.C58_comment_continues` (choice, Quot.sound, propext)
  * `Verif.Cpp.C58_lone_quote` (choice, Quot.sound, propext)
  * `Verif.Cpp.C58_unclosed_name` (choice, Quot.sound, propext)

### C59 Scanning a C++ file finds the modules it provides and needs

* Modelled: same model, with lines that declare and import modules
* Proof: names are read part by part (induction over the parts); the state of the scan after each line is the specification's. Findings: dotted partitions, header units with slashes or quotes, second declaration in a line.
* Status: partial. As for C58. Excluded and shown as findings: partitions with dots, header units with slashes or in quotes, and several imports in one line.
* Theorems (axioms):
  * `Verif.Cpp.C59_modules_partial` (choice, Quot.sound, propext)
  * `Verif.Cpp.C59_partition_cut` (choice, Quot.sound, propext)
  * `Verif.Cpp.C59_header_unit_cut` (choice, Quot.sound, propext)
  * `Verif.Cpp.C59_quoted_unit_missed` (choice, Quot.sound, propext)
  * `Verif.Cpp.C59_second_on_line_missed` (choice, Quot.sound, propext)

### C60 Properties items set exactly the values their conditions say

* Modelled: how bindings in Properties items, with their conditions and overrideListProperties, become alternatives of one value, on top of the evaluator of C61; a small specification tells which items apply (BlockSpec.lean)
* Proof: induction over the alternatives: the values collected are those of the items that apply. Findings: var properties, fallbacks next to undefined values, two fallbacks. Values of bindings with base or original are not covered, nor properties of items with an outer item.
* Status: partial. Proved for scalar properties and lists of strings whose bindings do not use base or original. Excluded and shown as findings: properties of type var without a binding outside, list items that apply and are undefined, two fallbacks. That evaluation gives the value (C60_evaluated_partial) needs projects without overrideListProperties.
* Theorems (axioms):
  * `Verif.Eval.C60_scalar_partial` (choice, Quot.sound, propext)
  * `Verif.Eval.C60_list_partial` (choice, Quot.sound, propext)
  * `Verif.Eval.C60_accepted` (choice, Quot.sound, propext)
  * `Verif.Eval.C60_evaluated_partial` (choice, Quot.sound, propext)
  * `Verif.Eval.C60_names` (propext)
  * `Verif.Eval.C60_var_lost` (propext)
  * `Verif.Eval.C60_fallback_applies` (propext)
  * `Verif.Eval.C60_two_fallbacks` (none)

### C61 The value of a property does not depend on what was evaluated before

* Modelled: the evaluator: values with alternatives, candidates, base, outer and original; scopes; conversion to types; the cache, the stack of properties, the error state and the exclusive flag of lists. JavaScript code is a tree that reads names and members and ends with a value or an exception
* Proof: an independent meaning: a property has a value if a table of values can be established in which each one follows from those before. Simulation between evaluation with a cache and evaluation with a table (Sim.lean), soundness by induction over the depth, completeness for properties that never get back to the same declaration. Findings: false cycles, order dependence, failures that are kept as undefined, sticky overriding, ignored errors, paths of other products.
* Status: partial. Termination and uniqueness hold without restriction. A value found is right, and there is an error if there is none, after any evaluations that succeeded, in projects without overrideListProperties and without conditions in placeholders; that a value is found needs that no declaration is used in working out itself. The findings show that the restrictions are needed: failures, overriding, ignored errors and inherited declarations make results depend on the order.
* Theorems (axioms):
  * `Verif.Eval.C61_terminates` (choice, Quot.sound, propext)
  * `Verif.Eval.C61_unique` (Quot.sound, propext)
  * `Verif.Eval.C61_right_partial` (choice, Quot.sound, propext)
  * `Verif.Eval.C61_cycle_partial` (choice, Quot.sound, propext)
  * `Verif.Eval.C61_found_partial` (choice, Quot.sound, propext)
  * `Verif.Eval.C61_any_order_partial` (choice, Quot.sound, propext)
  * `Verif.Eval.C61_same_partial` (choice, Quot.sound, propext)
  * `Verif.Eval.C61_false_cycle` (choice, Quot.sound, propext)
  * `Verif.Eval.C61_order_dependent` (propext)
  * `Verif.Eval.C61_failure_forgotten` (propext)
  * `Verif.Eval.C61_failure_spreads` (propext)
  * `Verif.Eval.C61_override_remains` (propext)
  * `Verif.Eval.C61_error_ignored` (propext)
  * `Verif.Eval.C61_path_of_other_product` (propext)

### C62 The value of a property always has the declared type

* Modelled: the evaluator of C61 and its conversion of values to types; any history of evaluations, with errors, with and without caching, and with paths resolved in changing directories
* Proof: a unary invariant of the evaluator: all cached values have the types of their properties, kept by every step; the conversion is compared with a separate table of what becomes of values
* Status: proved. Arrays that JavaScript code modifies in place are not modelled.
* Theorems (axioms):
  * `Verif.Eval.C62_type` (choice, Quot.sound, propext)
  * `Verif.Eval.C62_constant` (Quot.sound, propext)

### C63 Removing a directory removes it completely and nothing else

* Modelled: removeFileRecursion and removeDirectoryWithContents over trees of files, directories and links, with any order of listing and operations that may be refused at any time
* Proof: one invariant, carried by induction on the depth and over the entries: what may be missing, what may have become writable, what is reported; the bound on the depth is shown not to matter
* Status: partial. Holds for all trees, orders and refusals, except that files links lead to may become writable (finding). A link as the install root is removed, but not the installation (finding).
* Theorems (axioms):
  * `Verif.Files.C63_terminates` (choice, Quot.sound, propext)
  * `Verif.Files.C63_removed` (choice, Quot.sound, propext)
  * `Verif.Files.C63_succeeds` (choice, Quot.sound, propext)
  * `Verif.Files.C63_others_kept_partial` (choice, Quot.sound, propext)
  * `Verif.Files.C63_others_kept` (choice, Quot.sound, propext)
  * `Verif.Files.C63_left` (choice, Quot.sound, propext)
  * `Verif.Files.C63_reported` (choice, Quot.sound, propext)
  * `Verif.Files.C63_directory` (choice, Quot.sound, propext)
  * `Verif.Files.C63_link_makes_writable` (propext)
  * `Verif.Files.C63_install_root_is_link` (propext)

### C64 File.copy makes a complete copy and leaves everything else alone

* Modelled: copyFileRecursion as File.copy uses it: creating directories, links, replacing older files, recursion into directories
* Proof: induction on the depth and over the entries, with a small specification of what has to be at each place afterwards; source and target are not inside of each other
* Status: partial. Holds for all trees without links in the target, except for empty directories, missing sources and newer directories in the place of files (findings).
* Theorems (axioms):
  * `Verif.Files.C64_copied_partial` (choice, Quot.sound, propext)
  * `Verif.Files.C64_exact_partial` (choice, Quot.sound, propext)
  * `Verif.Files.C64_source_kept` (choice, Quot.sound, propext)
  * `Verif.Files.C64_others_kept` (choice, Quot.sound, propext)
  * `Verif.Files.C64_succeeds` (choice, Quot.sound, propext)
  * `Verif.Files.C64_empty_directory` (propext)
  * `Verif.Files.C64_missing_source` (propext)
  * `Verif.Files.C64_directory_in_the_way` (propext)
  * `Verif.Files.C64_link_makes_writable` (propext)

### C65 File.move moves the file or changes nothing

* Modelled: File.move: checks, removing the old target, renaming
* Proof: case analysis over all states and refusals
* Status: partial. If overwriting fails, the old target is lost (findings); that nothing changes on failure is proved for all other cases.
* Theorems (axioms):
  * `Verif.Files.C65_moved` (choice, Quot.sound, propext)
  * `Verif.Files.C65_failed_partial` (Quot.sound, propext)
  * `Verif.Files.C65_succeeds` (choice, Quot.sound, propext)
  * `Verif.Files.C65_same_path` (propext)
  * `Verif.Files.C65_missing_source` (propext)
  * `Verif.Files.C65_refused` (propext)

### C66 Dependencies of a product are complete, ordered and free of cycles

* Modelled: The state machine of resolving: the stack of items being loaded, Depends items with their values, multiplexing, products by name and type, modules by name, deferral to other products with an arbitrary environment, unwinding after errors (Verif.Deps). Module files are a function of name and version range.
* Proof: Invariants over all reachable states (what is recorded for finished items, order on the stack and in the list, provenance of pending dependencies); a deferred state is related to the one before; a lexicographic measure for termination; ranks for success.
* Status: partial. Proved for all reachable states, with every interleaving of deferrals. What is missing: a required module that does not exist or a disabled product goes unnoticed if a Depends item that does not require it comes first; dependencies by type on variants may be dropped, doubled, fail or not end (findings). Uniqueness and termination are proved for dependencies by name.
* Theorems (axioms):
  * `Verif.Deps.C66_fulfilled` (Quot.sound, propext)
  * `Verif.Deps.C66_by_type` (Quot.sound, propext)
  * `Verif.Deps.C66_order` (Quot.sound, propext)
  * `Verif.Deps.C66_acyclic` (Quot.sound, propext)
  * `Verif.Deps.C66_only_needed` (Quot.sound, propext)
  * `Verif.Deps.C66_right_one` (Quot.sound, propext)
  * `Verif.Deps.C66_absent` (Quot.sound, propext)
  * `Verif.Deps.C66_once` (Quot.sound, propext)
  * `Verif.Deps.C66_ends` (choice, Quot.sound, propext)
  * `Verif.Deps.C66_ends_without_deferring` (choice, Quot.sound, propext)
  * `Verif.Deps.C66_succeeds` (choice, Quot.sound, propext)
  * `Verif.Deps.C66_cycle_real` (Quot.sound, propext)
  * `Verif.Deps.C66_missing_unnoticed` (propext)
  * `Verif.Deps.C66_disabled_unnoticed` (propext)
  * `Verif.Deps.C66_two_profiles` (propext)
  * `Verif.Deps.C66_false_condition` (propext)
  * `Verif.Deps.C66_loaded_twice` (propext)
  * `Verif.Deps.C66_by_type_dropped` (Quot.sound, propext)
  * `Verif.Deps.C66_internal_error` (propext)
  * `Verif.Deps.C66_dot_twice` (propext)
  * `Verif.Deps.C66_submodule_variant` (propext)
  * `Verif.Deps.C66_profile_module` (propext)
  * `Verif.Deps.C66_no_end` (choice, Quot.sound, propext)

### C67 The best file is used for a module

* Modelled: Candidates of all search paths, rating and std::max_element (Verif.Choose).
* Proof: The maximum is characterised by a strict weak order; uniqueness by counting; independence of the order follows from the characterisation.
* Status: partial. Holds for each look-up. Only the first Depends item counts for the look-up (finding).
* Theorems (axioms):
  * `Verif.Choose.C67_best` (choice, Quot.sound, propext)
  * `Verif.Choose.C67_none` (choice, Quot.sound, propext)
  * `Verif.Choose.C67_ambiguous` (choice, Quot.sound, propext)
  * `Verif.Choose.C67_order` (choice, Quot.sound, propext)
  * `Verif.Choose.C67_first_range` (propext)

### C68 A Depends item is for the right variants of a product

* Modelled: adjustDependsItemForMultiplexing over all products of the project (Verif.Deps).
* Proof: Case analysis against a specification of the wanted variants.
* Status: proved. For all projects.
* Theorems (axioms):
  * `Verif.Deps.C68_wanted` (Quot.sound, propext)
  * `Verif.Deps.C68_none` (choice, Quot.sound, propext)
  * `Verif.Deps.C68_one` (Quot.sound, propext)
  * `Verif.Deps.C68_ambiguous` (Quot.sound, propext)

### C69 A module that is present works, is needed and has what it requires

* Modelled: The three passes over the modules of a product: probes and versions, validation, disabling what only disabled modules need (Verif.Present), on top of the states of Verif.Deps. Outcomes of scripts are functions of what is present.
* Proof: Induction over the list for each pass; the order and the records of who depends on whom are invariants of resolving (Link).
* Status: partial. Proved for every state that resolving dependencies can end in. What is missing: of several Depends items for the same name in a module only the first one counts, and what an optional module asks for by product type counts as required (findings).
* Theorems (axioms):
  * `Verif.Present.C69_complete` (choice, Quot.sound, propext)
  * `Verif.Present.C69_checked` (choice, Quot.sound, propext)
  * `Verif.Present.C69_imported` (Quot.sound, propext)
  * `Verif.Present.C69_kept` (Quot.sound, propext)
  * `Verif.Present.C69_required` (Quot.sound, propext)
  * `Verif.Present.C69_errors` (choice, Quot.sound, propext)
  * `Verif.Present.C69_wf` (Quot.sound, propext)
  * `Verif.Present.C69_recorded` (Quot.sound, propext)
  * `Verif.Present.C69_resolved_complete` (choice, Quot.sound, propext)
  * `Verif.Present.C69_resolved_fulfilled_partial` (choice, Quot.sound, propext)
  * `Verif.Present.C69_resolved_present` (choice, Quot.sound, propext)
  * `Verif.Present.C69_resolved_required` (Quot.sound, propext)
  * `Verif.Present.C69_first_item` (Quot.sound, propext)
  * `Verif.Present.C69_type_required` (propext)
  * `Verif.Present.C69_second_profile` (Quot.sound, propext)

### C70 A dependency parameter has the value set closest to the product

* Modelled: Nested parameter maps, the merger with its conflicts and priorities, the sorted list of candidates and the contexts of loading (Verif.Params). Values are compared as text; undefined and null are one value.
* Proof: Induction over the maps gives what one round does to the value and to the conflicts at each path; then over the list of candidates from its end; invariant over the requests for the contexts.
* Status: partial. Values and the reporting of conflicts are proved. That only conflicts are reported holds if items that are equally close set the same parameters; otherwise a value may be compared with the default or with one of a lower priority (findings).
* Theorems (axioms):
  * `Verif.Params.C70_value` (choice, Quot.sound, propext)
  * `Verif.Params.C70_origin` (choice, Quot.sound, propext)
  * `Verif.Params.C70_default` (choice, Quot.sound, propext)
  * `Verif.Params.C70_conflict` (choice, Quot.sound, propext)
  * `Verif.Params.C70_same_loader` (choice, Quot.sound, propext)
  * `Verif.Params.C70_justified_partial` (choice, Quot.sound, propext)
  * `Verif.Params.C70_no_conflict` (choice, Quot.sound, propext)
  * `Verif.Params.C70_false_conflict` (propext)
  * `Verif.Params.C70_overridden_conflict` (propext)
  * `Verif.Params.C70_value_and_group` (propext)
  * `Verif.Params.C70_undefined` (propext)

### C71 A .pc file is read as it is written

* Modelled: Reading lines, replacing variables, splitting arguments and lists of packages, evaluating variables with and without a new prefix, and the loop over all lines (Verif.Pc.Model). ASCII only; opening files cannot fail; no Windows paths.
* Proof: The specification says how each kind of text is written (parts of lines, parts of arguments, entries) and what it means; induction over the parts. For files, an invariant over the lines: what has been set is kept, and each line sets at most what it is about.
* Status: partial. Proved for all files. What is missing: empty arguments are lost, open quotes are accepted, commas at the end and operators without white space are not, an empty field may be repeated, and there are exceptions when the prefix is redefined (findings). Lists of packages are proved for those that are well-formed.
* Theorems (axioms):
  * `Verif.Pc.C71_lines` (Quot.sound, propext)
  * `Verif.Pc.C71_every_file` (Quot.sound, propext)
  * `Verif.Pc.C71_substitution` (propext)
  * `Verif.Pc.C71_every_text` (Quot.sound, propext)
  * `Verif.Pc.C71_arguments` (Quot.sound, propext)
  * `Verif.Pc.C71_every_argument_list` (Quot.sound, propext)
  * `Verif.Pc.C71_arguments_round_trip` (Quot.sound, propext)
  * `Verif.Pc.C71_requires` (Quot.sound, propext)
  * `Verif.Pc.C71_variable` (choice, Quot.sound, propext)
  * `Verif.Pc.C71_only` (choice, Quot.sound, propext)
  * `Verif.Pc.C71_once` (choice, Quot.sound, propext)
  * `Verif.Pc.C71_precedence` (choice, Quot.sound, propext)
  * `Verif.Pc.C71_order` (choice, Quot.sound, propext)
  * `Verif.Pc.C71_text_field` (choice, Quot.sound, propext)
  * `Verif.Pc.C71_flags_field` (choice, Quot.sound, propext)
  * `Verif.Pc.C71_packages_field` (choice, Quot.sound, propext)
  * `Verif.Pc.C71_no_field` (choice, Quot.sound, propext)
  * `Verif.Pc.C71_prefix` (choice, Quot.sound, propext)
  * `Verif.Pc.C71_relocated` (choice, Quot.sound, propext)
  * `Verif.Pc.C71_not_relocated` (choice, Quot.sound, propext)
  * `Verif.Pc.C71_root` (choice, Quot.sound, propext)
  * `Verif.Pc.C71_empty_argument` (choice, Quot.sound, propext)
  * `Verif.Pc.C71_open_quote` (choice, Quot.sound, propext)
  * `Verif.Pc.C71_last_comma` (choice, Quot.sound, propext)
  * `Verif.Pc.C71_blanks` (choice, Quot.sound, propext)
  * `Verif.Pc.C71_empty_field_twice` (choice, Quot.sound, propext)
  * `Verif.Pc.C71_same_environment_variable` (choice, Quot.sound, propext)
  * `Verif.Pc.C71_dollar_in_prefix` (choice, Quot.sound, propext)
  * `Verif.Pc.C71_empty_prefix` (choice, Quot.sound, propext)
  * `Verif.Pc.C71_directory_with_suffix` (choice, Quot.sound, propext)
  * `Verif.Pc.C71_slash_after_prefix` (choice, Quot.sound, propext)

### C72 Packages are found, and their flags are all there

* Modelled: Flags from arguments, prepending the sysroot, removing system paths, loading all files, sorting as any sorted permutation, the binary search, and the map seen by scripts (Verif.Pc.PackModel).
* Proof: Induction over the arguments by twos; for the search, the first package that is not less, with trichotomy of the order.
* Status: partial. Proved but for the order of directories: of packages with the same name, any may win, and for scripts normally the last one does; the sysroot is compared without regard to directories (findings).
* Theorems (axioms):
  * `Verif.Pc.C72_libs` (choice, Quot.sound, propext)
  * `Verif.Pc.C72_cflags` (choice, Quot.sound, propext)
  * `Verif.Pc.C72_sysroot` (Quot.sound, propext)
  * `Verif.Pc.C72_no_sysroot` (propext)
  * `Verif.Pc.C72_system_paths` (choice, Quot.sound, propext)
  * `Verif.Pc.C72_found` (choice, Quot.sound, propext)
  * `Verif.Pc.C72_no_boundary` (choice, Quot.sound, propext)
  * `Verif.Pc.C72_two_arguments` (choice, Quot.sound, propext)
  * `Verif.Pc.C72_same_path` (choice, Quot.sound, propext)
  * `Verif.Pc.C72_last_directory` (choice, Quot.sound, propext)
  * `Verif.Pc.C72_sorting_matters` (choice, Quot.sound, propext)

### C73 A package that requires a version of another one gets that

* Modelled: The map of properties for a required version, the Depends item made of it, and the check of versions (Verif.Pc.PackModel on top of Verif.Version).
* Proof: Printing and parsing of versions (C02) and the meaning of ranges (C03), then arithmetic on the components.
* Status: partial. Holds for <, <=, > and >= with versions of up to three numbers. With =, != and other versions it does not (findings).
* Theorems (axioms):
  * `Verif.Pc.C73_versions_partial` (choice, Quot.sound, propext)
  * `Verif.Pc.C73_equal_ignored` (propext)
  * `Verif.Pc.C73_not_equal_refuses` (choice, Quot.sound, propext)
  * `Verif.Pc.C73_not_checked` (choice, Quot.sound, propext)
  * `Verif.Pc.C73_other_versions` (choice, Quot.sound, propext)
  * `Verif.Pc.C73_less_than_zero` (choice, Quot.sound, propext)

### C75 The process of a command decides about the command

* Modelled: Executor, process object, connection, launcher and process as one state machine with an event for everything that can happen, including failures (Verif.Proc.Model).
* Proof: An invariant that lists the phases a command can be in, by induction over histories; a rank that every internal event decreases; for stopping, a second invariant which says that the request is on its way. Not modelled: what is written into response files, filters of the output, several executors at once, the seconds between the attempts to stop a process.
* Status: partial. Reports, stopping of the right process and the end of processes that run are proved. Executors do not recover from a failure to start or a timeout, a timeout can make a command hang, and crashes can be successes (findings).
* Theorems (axioms):
  * `Verif.Proc.C75_once` (Quot.sound, propext)
  * `Verif.Proc.C75_justified` (Quot.sound, propext)
  * `Verif.Proc.C75_exit_code_partial` (choice, Quot.sound, propext)
  * `Verif.Proc.C75_stops_its_own_process` (Quot.sound, propext)
  * `Verif.Proc.C75_response_files_partial` (Quot.sound, propext)
  * `Verif.Proc.C75_ends_partial` (choice, Quot.sound, propext)
  * `Verif.Proc.C75_stop_ends` (choice, Quot.sound, propext)
  * `Verif.Proc.C75_cancel_before_start` (Quot.sound, propext)
  * `Verif.Proc.C75_timeout_armed` (Quot.sound, propext)
  * `Verif.Proc.C75_timeout_reported` (Quot.sound, propext)
  * `Verif.Proc.C75_stopped_only_if_asked` (Quot.sound, propext)
  * `Verif.Proc.C75_given_up` (Quot.sound, propext)
  * `Verif.Proc.C75_crash_is_success` (Quot.sound, propext)
  * `Verif.Proc.C75_negative_max` (Quot.sound, propext)
  * `Verif.Proc.C75_error_stays` (none)
  * `Verif.Proc.C75_timeout_stays` (none)
  * `Verif.Proc.C75_hangs` (Quot.sound, propext)
  * `Verif.Proc.C75_hangs_later` (Quot.sound, propext)
  * `Verif.Proc.C75_late_report` (none)
  * `Verif.Proc.C75_response_file_left` (none)

### C74 The environment of a process is the one of the build with the command's variables

* Modelled: QProcessEnvironment as a list of pairs with a comparison of names per host; reading of the entries and merging function by function (Verif.Command.Model).
* Proof: Lookup after a fold of insertions by induction; lists of directories are compared as lists, through a specification of splitting.
* Status: partial. Holds for all entries with a value; an entry with an empty value is ignored (finding).
* Theorems (axioms):
  * `Verif.Command.C74_others_kept` (choice, Quot.sound, propext)
  * `Verif.Command.C74_value_set` (choice, Quot.sound, propext)
  * `Verif.Command.C74_search_order` (choice, Quot.sound, propext)
  * `Verif.Command.C74_new_list` (choice, Quot.sound, propext)
  * `Verif.Command.C74_not_emptied` (choice, Quot.sound, propext)

### C76 The program of a command is the first one in PATH

* Modelled: The lookup in PATH with the product's cache, on Unix hosts; which files are executable is a parameter that may change between lookups (Verif.Command.Model). Windows suffixes are not modelled.
* Proof: Invariant of the cache over histories of lookups: what is cached is what would be found now.
* Status: partial. Holds as long as files and working directories stay the same. The cache ignores both, the PATH set by the command is not used, and relative paths are looked for in PATH (findings).
* Theorems (axioms):
  * `Verif.Command.C76_absolute` (propext)
  * `Verif.Command.C76_first_in_path_partial` (choice, Quot.sound, propext)
  * `Verif.Command.C76_recorded` (choice, Quot.sound, propext)
  * `Verif.Command.C76_other_working_directory` (choice, Quot.sound, propext)
  * `Verif.Command.C76_not_found_again` (choice, Quot.sound, propext)
  * `Verif.Command.C76_own_path_ignored` (choice, Quot.sound, propext)
  * `Verif.Command.C76_relative_path` (choice, Quot.sound, propext)

### C77 Response files do not change the arguments

* Modelled: The decision, the contents of the response file and the remaining arguments (Verif.Command.Model); the reader of response files is specified from GCC's manual (Verif.Command.Spec).
* Proof: The reader undoes the quoting, by induction over the characters; then induction over the arguments. Not modelled: encodings, failures when writing.
* Status: partial. Holds for separators of white space and arguments without backslashes that are not mistaken for response files; otherwise it does not (findings).
* Theorems (axioms):
  * `Verif.Command.C77_when_used` (Quot.sound, propext)
  * `Verif.Command.C77_same_arguments_partial` (Quot.sound, propext)
  * `Verif.Command.C77_backslash_lost` (choice, Quot.sound, propext)
  * `Verif.Command.C77_not_a_file` (choice, Quot.sound, propext)
  * `Verif.Command.C77_separator` (choice, Quot.sound, propext)
  * `Verif.Command.C77_negative_index` (propext)

### C78 The output of a process is reported completely

* Modelled: getProcessOutput without filter functions (Verif.Command.Model).
* Proof: Splitting meets its specification, by induction; pieces of a text are determined.
* Status: partial. Empty lines are not reported (finding). Filter functions are not modelled.
* Theorems (axioms):
  * `Verif.Command.C78_lines` (Quot.sound, propext)
  * `Verif.Command.C78_redirected` (none)
  * `Verif.Command.C78_empty_lines` (Quot.sound, propext)

### C79 Commands that are considered equal do the same

* Modelled: All members of commands, with the custom properties as one value (Verif.Command.Model).
* Proof: Comparison is equivalent to sameness of every member; with C74, C76 and C77, equal commands start the same process.
* Status: partial. Proved for process commands; the file in whose scope the code of a JavaScript command runs is not compared (finding).
* Theorems (axioms):
  * `Verif.Command.C79_equal_iff_same` (choice, Quot.sound, propext)
  * `Verif.Command.C79_list_equal` (choice, Quot.sound, propext)
  * `Verif.Command.C79_equal_same_process` (choice, Quot.sound, propext)
  * `Verif.Command.C79_javascript_partial` (Quot.sound, propext)
  * `Verif.Command.C79_import_scope` (choice, Quot.sound, propext)

### C80 The list of toolchains is canonical

* Modelled: canonicalToolchain for names and lists, with QString::toLower as a parameter (Verif.Toolchain.Model).
* Proof: The specification is the closure under the relation of special cases; membership by induction over it, order by the sort and its distinct ranks.
* Status: partial. Everything but the order of emscripten and gcc is proved: there the general toolchain comes first (finding).
* Theorems (axioms):
  * `Verif.Toolchain.C80_members` (choice, Quot.sound, propext)
  * `Verif.Toolchain.C80_single` (choice, Quot.sound, propext)
  * `Verif.Toolchain.C80_no_duplicates` (choice, Quot.sound, propext)
  * `Verif.Toolchain.C80_custom_first` (choice, Quot.sound, propext)
  * `Verif.Toolchain.C80_custom_order` (choice, Quot.sound, propext)
  * `Verif.Toolchain.C80_order_irrelevant` (choice, Quot.sound, propext)
  * `Verif.Toolchain.C80_idempotent` (choice, Quot.sound, propext)
  * `Verif.Toolchain.C80_specific_first_partial` (choice, Quot.sound, propext)
  * `Verif.Toolchain.C80_emscripten` (choice, Quot.sound, propext)

### C81 Values given on the command line reach exactly what they are meant for

* Modelled: Flat and two-level maps of values, overriding for projects, products and modules, the checks of keys and names, conversion with Qt's conversions as a parameter (Verif.Override.Model). Not modelled: multiplexing, module prototypes, providers, inheritance of properties between projects.
* Proof: A tree has for each dotted name what the flat map has (induction from the right over the ordered map); then composition of the overrides in the order of the code.
* Status: partial. Values, precedence and errors are proved. Products with dots in their names cannot be addressed, keys can be ambiguous, unknown modules are ignored, products cannot be renamed and lists of paths cannot be given as text (findings).
* Theorems (axioms):
  * `Verif.Override.C81_tree` (Quot.sound, propext)
  * `Verif.Override.C81_product_value` (choice, Quot.sound, propext)
  * `Verif.Override.C81_module_value` (choice, Quot.sound, propext)
  * `Verif.Override.C81_project_value` (choice, Quot.sound, propext)
  * `Verif.Override.C81_product_name` (choice, Quot.sound, propext)
  * `Verif.Override.C81_unknown_property` (choice, Quot.sound, propext)
  * `Verif.Override.C81_undeclared_untouched` (choice, Quot.sound, propext)
  * `Verif.Override.C81_key_understood` (choice, Quot.sound, propext)
  * `Verif.Override.C81_unknown_names` (choice, Quot.sound, propext)
  * `Verif.Override.C81_error_reason` (choice, Quot.sound, propext)
  * `Verif.Override.C81_relaxed` (choice, Quot.sound, propext)
  * `Verif.Override.C81_string_list` (Quot.sound, propext)
  * `Verif.Override.C81_kept` (propext)
  * `Verif.Override.C81_dotted_name` (choice, Quot.sound, propext)
  * `Verif.Override.C81_ambiguous_key` (choice, Quot.sound, propext)
  * `Verif.Override.C81_unknown_module_ignored` (choice, Quot.sound, propext)
  * `Verif.Override.C81_no_property_ignored` (choice, Quot.sound, propext)
  * `Verif.Override.C81_path_list` (propext)
  * `Verif.Override.C81_rename` (choice, Quot.sound, propext)
  * `Verif.Override.C81_rename_modules` (choice, Quot.sound, propext)

### C82 The build configuration of the parameters is current

* Modelled: The members of SetupProjectParameters that have to do with values, and all calls that touch them (Verif.Override.Model).
* Proof: Invariant over histories of calls: each kept tree is empty or current.
* Status: partial. Proved for the overridden values and the build configuration after every history. The final build configuration is not renewed if an expansion changes the build configuration after it was asked for (finding).
* Theorems (axioms):
  * `Verif.Override.C82_overridden_tree` (choice, Quot.sound, propext)
  * `Verif.Override.C82_config_tree` (choice, Quot.sound, propext)
  * `Verif.Override.C82_final_partial` (choice, Quot.sound, propext)
  * `Verif.Override.C82_final_first` (choice, Quot.sound, propext)
  * `Verif.Override.C82_expand` (choice, Quot.sound, propext)
  * `Verif.Override.C82_expand_failed` (choice, Quot.sound, propext)
  * `Verif.Override.C82_final_stale` (choice, Quot.sound, propext)
  * `Verif.Override.C82_undotted_lost` (choice, Quot.sound, propext)

### C83 A command line means what it says

* Modelled: The choice of the command, the parser loop with its splitting of groups, all options with their names and arguments, and the log level (Verif.Cli.Model); QString::toInt is a parameter.
* Proof: A grammar for lines (Verif.Cli.Spec.Reads) is proved sound and complete for the parser by induction over a weight that every step decreases.
* Status: partial. Which lines are accepted and what is taken from them is characterised exactly. The arguments for a program that is run are passed on unless one of them is -h or --help (finding).
* Theorems (axioms):
  * `Verif.Cli.C83_reads` (choice, Quot.sound, propext)
  * `Verif.Cli.C83_unambiguous` (choice, Quot.sound, propext)
  * `Verif.Cli.C83_group` (choice, Quot.sound, propext)
  * `Verif.Cli.C83_terminates` (choice, Quot.sound, propext)
  * `Verif.Cli.C83_command` (choice, Quot.sound, propext)
  * `Verif.Cli.C83_default_command` (choice, Quot.sound, propext)
  * `Verif.Cli.C83_help` (choice, Quot.sound, propext)
  * `Verif.Cli.C83_version` (choice, Quot.sound, propext)
  * `Verif.Cli.C83_run_arguments_partial` (choice, Quot.sound, propext)
  * `Verif.Cli.C83_list` (Quot.sound, propext)
  * `Verif.Cli.C83_log_level` (Quot.sound, propext)
  * `Verif.Cli.C83_run_help` (choice, Quot.sound, propext)
  * `Verif.Cli.C83_option_as_argument` (choice, Quot.sound, propext)
  * `Verif.Cli.C83_late_help` (choice, Quot.sound, propext)

### C84 The build configurations are the ones asked for on the command line

* Modelled: setupBuildConfigurations (Verif.Cli.Model); values stay texts.
* Proof: Induction over the assignments; the sections are described by splitting the list.
* Status: partial. Names and values of the configurations are proved for every line; a second section for the same configuration is ignored (finding). The conversion of texts to values is not part of it.
* Theorems (axioms):
  * `Verif.Cli.C84_names` (choice, Quot.sound, propext)
  * `Verif.Cli.C84_distinct` (choice, Quot.sound, propext)
  * `Verif.Cli.C84_value` (choice, Quot.sound, propext)
  * `Verif.Cli.C84_default` (choice, Quot.sound, propext)
  * `Verif.Cli.C84_repeated` (choice, Quot.sound, propext)
  * `Verif.Cli.C84_undotted_name` (choice, Quot.sound, propext)

### C85 A session answers every request exactly once

* Modelled: The session as a state machine over requests and ends of jobs (Verif.Api.Model); projects, edits and results of jobs are parameters.
* Proof: Induction over histories: replies so far plus the reply of the running job are the expected ones; counting for clients that break the protocol.
* Status: proved. Proved for every client that keeps to the documented protocol. What happens to clients that resolve again before a canceled resolve has ended, or release during a job, is stated separately (findings).
* Theorems (axioms):
  * `Verif.Api.C85_one_reply` (Quot.sound, propext)
  * `Verif.Api.C85_no_spurious_reply` (choice, Quot.sound, propext)
  * `Verif.Api.C85_job_reply` (Quot.sound, propext)
  * `Verif.Api.C85_busy` (Quot.sound, propext)
  * `Verif.Api.C85_busy_resolve` (propext)
  * `Verif.Api.C85_needs_project` (Quot.sound, propext)
  * `Verif.Api.C85_cancel` (propext)
  * `Verif.Api.C85_quit_silent` (propext)
  * `Verif.Api.C85_quit_closes` (Quot.sound, propext)
  * `Verif.Api.C85_superseded` (propext)
  * `Verif.Api.C85_release_during_job` (choice, Quot.sound, propext)

### C86 A session works on the products that the request names

* Modelled: getProductSelection and the search by name over the tree of projects (Verif.Api.Model).
* Proof: The search is proved equal to a filter over all products, by induction over the tree.
* Status: partial. Proved if at least one of the named products exists; otherwise the request is about the default products, or all (finding).
* Theorems (axioms):
  * `Verif.Api.C86_named_products_partial` (choice, Quot.sound, propext)
  * `Verif.Api.C86_default_products` (Quot.sound, propext)
  * `Verif.Api.C86_clean_all` (Quot.sound, propext)
  * `Verif.Api.C86_single_product` (choice, Quot.sound, propext)
  * `Verif.Api.C86_unknown_products` (choice, Quot.sound, propext)

### C87 A session client learns about every change of the project

* Modelled: The same state machine, with the data attached to replies (Verif.Api.Model).
* Proof: Invariant: the copy that the client has built from the replies is the session's copy.
* Status: partial. Proved unless a build or a rename fails. Failing to add dependencies is reported as success, failed builds and renames leave the client with old data, and a failed rename loses the file (findings).
* Theorems (axioms):
  * `Verif.Api.C87_client_data_partial` (choice, Quot.sound, propext)
  * `Verif.Api.C87_data_mode` (propext)
  * `Verif.Api.C87_add_files` (choice, Quot.sound, propext)
  * `Verif.Api.C87_remove_files` (choice, Quot.sound, propext)
  * `Verif.Api.C87_rename` (choice, Quot.sound, propext)
  * `Verif.Api.C87_no_such_group` (choice, Quot.sound, propext)
  * `Verif.Api.C87_dependencies` (choice, Quot.sound, propext)
  * `Verif.Api.C87_failed_build` (propext)
  * `Verif.Api.C87_failed_rename` (choice, Quot.sound, propext)

### C88 Environment setup scripts run once each, dependencies first

* Modelled: The sorting of modules, the running of their scripts (functions between environments that may fail) and the caching of the results (Verif.EnvSetup.Model).
* Proof: Invariant of the recursive sort (no name twice, dependencies first, everything asked for included); every module is reached from a root by induction over the rank. Histories by induction with an invariant about the cached environment.
* Status: partial. Proved if the build environment is only asked for on top of the project's environment: otherwise later builds use the environment of the first request (finding). Sorting the modules takes exponential time (finding).
* Theorems (axioms):
  * `Verif.EnvSetup.C88_order` (choice, Quot.sound, propext)
  * `Verif.EnvSetup.C88_history_partial` (choice, Quot.sound, propext)
  * `Verif.EnvSetup.C88_products_independent` (choice, Quot.sound, propext)
  * `Verif.EnvSetup.C88_exponential` (choice, Quot.sound, propext)
  * `Verif.EnvSetup.C88_asking_changes_builds` (choice, Quot.sound, propext)

### C89 Adding to and removing from a project file does just that

* Modelled: Project files as pieces of text around the members of an item, as the parser delivers them; the rewriter's changes, applied by the change set of C39 (Verif.Updater.Model).
* Proof: The new text is computed and split at the change; that the new value denotes the right files is shown with the evaluator for literals of C38. The values written without escapes: a text between quotes is a literal of itself just if it is plain.
* Status: partial. Adding files is proved for every form of the property. Removing files and adding groups is proved for names without quotes, backslashes and line ends: others are written without escapes (findings). Comments in lists get lost; files added before are not known (findings).
* Theorems (axioms):
  * `Verif.Updater.C89_add_to_array` (choice, Quot.sound, propext)
  * `Verif.Updater.C89_add_to_string` (choice, Quot.sound, propext)
  * `Verif.Updater.C89_add_to_expression` (choice, Quot.sound, propext)
  * `Verif.Updater.C89_add_property` (choice, Quot.sound, propext)
  * `Verif.Updater.C89_remove_partial` (choice, Quot.sound, propext)
  * `Verif.Updater.C89_remove_missing` (choice, Quot.sound, propext)
  * `Verif.Updater.C89_remove_only` (choice, Quot.sound, propext)
  * `Verif.Updater.C89_add_group_partial` (choice, Quot.sound, propext)
  * `Verif.Updater.C89_add_depends_partial` (choice, Quot.sound, propext)
  * `Verif.Updater.C89_removing_changes_others` (choice, Quot.sound, propext)
  * `Verif.Updater.C89_group_name` (choice, Quot.sound, propext)
  * `Verif.Updater.C89_added_twice` (choice, Quot.sound, propext)
  * `Verif.Updater.C89_added_not_removed` (choice, Quot.sound, propext)
  * `Verif.Updater.C89_comments_lost` (choice, Quot.sound, propext)

### C90 Removing a group removes nothing else

* Modelled: The search for white space around an item and an empty line before it (Verif.Updater.Model).
* Proof: Each loop is described by the split of the text it finds, by induction.
* Status: partial. Proved if the group is the first thing in its line, or the line before is not empty; otherwise the start of the line is removed as well (finding).
* Theorems (axioms):
  * `Verif.Updater.C90_remove_partial` (Quot.sound, propext)
  * `Verif.Updater.C90_line_removed` (Quot.sound, propext)

### C91 Editing a project file keeps line ends and never loses the file

* Modelled: The guess of line ends, both conversions, and writing with a failure after any number of characters (Verif.Updater.Model).
* Proof: Counting line ends is characterised by splits of the text; the conversions are inverse to each other on texts with uniform line ends, by induction.
* Status: partial. Proved for files with the same line ends everywhere and if writing succeeds. Mixed line ends change, and a failure of writing loses the file while success is reported (findings).
* Theorems (axioms):
  * `Verif.Updater.C91_outside` (choice, Quot.sound, propext)
  * `Verif.Updater.C91_mixed` (choice, Quot.sound, propext)
  * `Verif.Updater.C91_lost` (none)
  * `Verif.Updater.C91_written_partial` (Quot.sound, propext)

### C92 Items inherit from the items they are derived from

* Modelled: Objects with declarations, bindings and children; reading their members in order, finding the base item or the built-in type, and merging declarations, values and children (Verif.Read.Model).
* Proof: By induction over the members, the state is described by the last settings; by induction over the chain of items, the values, declarations and children of the result.
* Status: partial. Values, children, types and duplicates are proved for all items and chains. The declaration farthest away counts, so a read-only property can be set after a redeclaration; built-in read-only properties can be set; a later declaration loses a value; a value for a whole item hides those in it (findings).
* Theorems (axioms):
  * `Verif.Read.C92_chain` (Quot.sound, propext)
  * `Verif.Read.C92_values_partial` (Quot.sound, propext)
  * `Verif.Read.C92_children` (Quot.sound, propext)
  * `Verif.Read.C92_allowed` (propext)
  * `Verif.Read.C92_declared` (Quot.sound, propext)
  * `Verif.Read.C92_first_declaration` (Quot.sound, propext)
  * `Verif.Read.C92_readonly_partial` (Quot.sound, propext)
  * `Verif.Read.C92_readonly_derived` (Quot.sound, propext)
  * `Verif.Read.C92_once` (Quot.sound, propext)
  * `Verif.Read.C92_readonly_lost` (propext)
  * `Verif.Read.C92_readonly_builtin` (propext)
  * `Verif.Read.C92_order` (propext)
  * `Verif.Read.C92_hidden` (propext)

### C93 Reading project files ends and reports loops

* Modelled: Reading files with the stack of files being processed; the depth is limited by fuel (Verif.Read.Model).
* Proof: The stack has no duplicates, so its length is limited by the number of files; errors are traced to the file they come from by induction over the members.
* Status: proved. For all files and types; reading is modelled with fuel, and enough fuel is shown to exist.
* Theorems (axioms):
  * `Verif.Read.C93_terminates` (choice, Quot.sound, propext)
  * `Verif.Read.C93_no_loop` (propext)
  * `Verif.Read.C93_loop` (Quot.sound, propext)
  * `Verif.Read.C93_result` (choice, Quot.sound, propext)

### C94 Names of types and scopes mean what the imports say

* Modelled: The imports handler: collecting types from directories, each form of import, names, extensions and the implicit import of qbs (Verif.Imports.Model).
* Proof: By induction over the imports, the map of types is that of a declarative meaning of the imports handled so far; the meaning does not depend on the order because names are unique.
* Status: partial. Proved for all directories, search paths and imports, unless something is imported that is a type already: then the import does nothing, so qbs.qbs in a directory hides all types that come with qbs, a name after as is not known, and the order matters (findings).
* Theorems (axioms):
  * `Verif.Imports.C94_types_partial` (choice, Quot.sound, propext)
  * `Verif.Imports.C94_scripts_partial` (choice, Quot.sound, propext)
  * `Verif.Imports.C94_names` (Quot.sound, propext)
  * `Verif.Imports.C94_unnamed` (Quot.sound, propext)
  * `Verif.Imports.C94_order_partial` (choice, Quot.sound, propext)
  * `Verif.Imports.C94_found` (Quot.sound, propext)
  * `Verif.Imports.C94_no_base` (Quot.sound, propext)
  * `Verif.Imports.C94_no_name` (choice, Quot.sound, propext)
  * `Verif.Imports.C94_order_matters` (propext)

### C95 Source files have the file tags that groups and file taggers give them

* Modelled: Groups, file taggers and filters of a product and its modules, up to the tags of each source file; property evaluation, wildcards and sorting are parameters (Verif.Tags.Model).
* Proof: By induction over the tree of items, the resolved groups correspond one to one to the active groups of the text; the loop over sorted taggers is shown to select the highest matching priority; an inductive predicate says which filters apply.
* Status: partial. Proved for all products with any nesting of groups, file taggers, filters and modules, and any order of taggers of equal priority. The documentation promises that taggers never apply to files with fileTags, which does not hold with overrideTags: false (finding).
* Theorems (axioms):
  * `Verif.Tags.C95_tags` (choice, Quot.sound, propext)
  * `Verif.Tags.C95_taggers` (Quot.sound, propext)
  * `Verif.Tags.C95_some_tag` (choice, Quot.sound, propext)
  * `Verif.Tags.C95_tagger_on_tagged` (propext)
  * `Verif.Tags.C95_tagger_in_group` (propext)

### C96 The source files of a product are those of its active groups

* Modelled: The same model: creation of source artifacts, missing and duplicate files, strict and relaxed mode.
* Proof: The same correspondence, plus an invariant on the map of locations for uniqueness.
* Status: partial. Proved for all products; that no file is there twice only if the values of files have locations, which those from the command line do not have (finding). Groups inside a group with fileTagsFilter are ignored, files set in Properties items end in an internal error, excludeFiles does not touch listed files (findings).
* Theorems (axioms):
  * `Verif.Tags.C96_sources` (choice, Quot.sound, propext)
  * `Verif.Tags.C96_exists` (choice, Quot.sound, propext)
  * `Verif.Tags.C96_missing` (choice, Quot.sound, propext)
  * `Verif.Tags.C96_once_partial` (choice, Quot.sound, propext)
  * `Verif.Tags.C96_filter_children` (propext)
  * `Verif.Tags.C96_filter_children_lost` (propext)
  * `Verif.Tags.C96_properties_internal` (propext)
  * `Verif.Tags.C96_override_twice` (propext)
  * `Verif.Tags.C96_exclude_listed` (propext)

### C97 Module properties of a group apply to exactly its files

* Modelled: The same model, with property maps as a heap of shared objects, since groups share and change them in place.
* Proof: An invariant on the heap during the walk over the groups: maps in use keep their value if no two filters are equal.
* Status: partial. Proved if every group with a filter sets a module property and no two have the same list. Otherwise all module properties of matching files are lost, or those of the product are changed (findings).
* Theorems (axioms):
  * `Verif.Tags.C97_props_partial` (choice, Quot.sound, propext)
  * `Verif.Tags.C97_generated_partial` (choice, Quot.sound, propext)
  * `Verif.Tags.C97_wiped` (propext)
  * `Verif.Tags.C97_product_changed` (propext)
  * `Verif.Tags.C97_generated_first` (propext)
  * `Verif.Tags.C97_order_of_filter` (propext)

### C98 Module providers give each product what they would give if it were alone

* Modelled: Selection, configuration, lookup, running and remembering of module providers, by threads that interleave, over sessions; a provider's script is a function of its file, name, module and configuration (Verif.Provider.Model).
* Proof: An invariant on the cache (every entry is what the provider gives) and on the threads (what has been collected completes to the answer of the specification), kept by every step and session.
* Status: partial. Proved for all products, schedules of threads and histories of sessions if all products see the same provider files and these do not change. Results are remembered without the search paths, so otherwise the result depends on which product comes first; stored results outlive changes of the provider's file (findings). Probes inside providers are part of the provider's script.
* Theorems (axioms):
  * `Verif.Provider.C98_asked` (Quot.sound, propext)
  * `Verif.Provider.C98_config` (choice, Quot.sound, propext)
  * `Verif.Provider.C98_answers_partial` (choice, Quot.sound, propext)
  * `Verif.Provider.C98_complete` (choice, Quot.sound, propext)
  * `Verif.Provider.C98_once` (choice, Quot.sound, propext)
  * `Verif.Provider.C98_search_paths` (choice, Quot.sound, propext)
  * `Verif.Provider.C98_stale` (choice, Quot.sound, propext)

### C99 What module providers have made lives as long as the stored build graph needs it

* Modelled: The same model with the directories of providers and the cleanup at the end of a session.
* Proof: Invariants over the steps of a session relate entries, runs and flags; then induction over sessions.
* Status: partial. Proved for all real sessions. A dry run removes output of a provider that belongs to the stored build graph, and the next session uses search paths that are gone (findings).
* Theorems (axioms):
  * `Verif.Provider.C99_stored_partial` (choice, Quot.sound, propext)
  * `Verif.Provider.C99_real_keeps` (choice, Quot.sound, propext)
  * `Verif.Provider.C99_dry_partial` (choice, Quot.sound, propext)
  * `Verif.Provider.C99_dry_removes` (choice, Quot.sound, propext)
  * `Verif.Provider.C99_dangling` (choice, Quot.sound, propext)

### C100 The exit code of qbs says whether everything asked for was done

* Modelled: The frontend as a state machine: lists of jobs, projects, cancel status and timer; events are the ends of jobs, interrupts and the timer (Verif.Front.Model).
* Proof: An invariant over all histories relates the lists of jobs to what was started and has finished, and the cancel status to failures and interrupts.
* Status: partial. Proved for all histories of jobs and interrupts. For commands that install, an interrupt during the build is lost and the exit code can be 0, and the frontend can end while the installation runs (findings).
* Theorems (axioms):
  * `Verif.Front.C100_zero_partial` (choice, Quot.sound, propext)
  * `Verif.Front.C100_success` (choice, Quot.sound, propext)
  * `Verif.Front.C100_ends` (choice, Quot.sound, propext)
  * `Verif.Front.C100_none_left` (choice, Quot.sound, propext)
  * `Verif.Front.C100_interrupt_lost` (Quot.sound, propext)
  * `Verif.Front.C100_install_left` (Quot.sound, propext)

### C101 Phases of a command do not overlap, and nothing new starts after a failure or an interrupt

* Modelled: The same state machine; what is started when is read off its effects.
* Proof: The same invariant, and a case analysis of one step.
* Status: partial. Proved for all histories, but for the installation after an interrupt during the build; generate writes files although a build has failed (findings).
* Theorems (axioms):
  * `Verif.Front.C101_phases` (choice, Quot.sound, propext)
  * `Verif.Front.C101_failed_starts_nothing` (choice, Quot.sound, propext)
  * `Verif.Front.C101_interrupted_partial` (choice, Quot.sound, propext)
  * `Verif.Front.C101_cancels` (choice, Quot.sound, propext)
  * `Verif.Front.C101_cancels_once` (Quot.sound, propext)
  * `Verif.Front.C101_installs_anyway` (Quot.sound, propext)
  * `Verif.Front.C101_generates_anyway` (Quot.sound, propext)

### C102 Each configuration is worked on once, for the products named and with its own number of jobs

* Modelled: The same state machine, with product names, profiles and preferences.
* Proof: The same invariant.
* Status: partial. Proved for all histories. The number of jobs is that of the profile of the project that is resolved first (finding), so it is right only if the option is given or the preferences agree.
* Theorems (axioms):
  * `Verif.Front.C102_once` (choice, Quot.sound, propext)
  * `Verif.Front.C102_products` (choice, Quot.sound, propext)
  * `Verif.Front.C102_unknown` (choice, Quot.sound, propext)
  * `Verif.Front.C102_jobs_partial` (choice, Quot.sound, propext)
  * `Verif.Front.C102_jobs_of_another_profile` (Quot.sound, propext)

### C103 A generated Makefile says what qbs would do

* Modelled: The text of the Makefile line by line (Verif.Makefile.Model); make's reading of definitions, rules and recipes, its expansion of variables, and the words of the shell (Verif.Makefile.Spec, Verif.Shell.Spec).
* Proof: Text as characters and references to variables: replacing directories keeps the value, quoting commutes with it, and un-doubling of dollar signs touches only the references. Then line by line and block by block.
* Status: partial. Proved for all projects with plain directories and names (a predicate in the specification); file names may contain spaces and quotes and arguments anything but line breaks and references. Outside of this it is wrong in the ways given by the findings.
* Theorems (axioms):
  * `Verif.Makefile.C103_rules_partial` (choice, Quot.sound, propext)
  * `Verif.Makefile.C103_spaces` (choice, Quot.sound, propext)
  * `Verif.Makefile.C103_command` (choice, Quot.sound, propext)
  * `Verif.Makefile.C103_below` (choice, Quot.sound, propext)
  * `Verif.Makefile.C103_variable` (choice, Quot.sound, propext)
  * `Verif.Makefile.Witness.project_plain` (choice, Quot.sound, propext)
  * `Verif.Makefile.Witness.C103_reference` (choice, Quot.sound, propext)
  * `Verif.Makefile.Witness.C103_line_break` (choice, Quot.sound, propext)
  * `Verif.Makefile.Witness.C103_prefix` (choice, Quot.sound, propext)
  * `Verif.Makefile.Witness.C103_where` (choice, Quot.sound, propext)
  * `Verif.Makefile.Witness.C103_js` (choice, Quot.sound, propext)
  * `Verif.Makefile.Witness.C103_clean_other_files` (choice, Quot.sound, propext)
  * `Verif.Makefile.Witness.C103_quote_in_directory` (choice, Quot.sound, propext)
  * `Verif.Makefile.Witness.C103_dollar_in_name` (choice, Quot.sound, propext)
  * `Verif.Makefile.Witness.C103_not_installed` (choice, Quot.sound, propext)

### C104 The targets of a generated Makefile stand for the products

* Modelled: The same model.
* Proof: Case analysis, and the theorem for C103.
* Status: partial. Proved for names of letters, digits, dots and underscores without multiplexing; otherwise targets can collide (findings).
* Theorems (axioms):
  * `Verif.Makefile.C104_targets_partial` (propext)
  * `Verif.Makefile.C104_legal` (Quot.sound, propext)
  * `Verif.Makefile.C104_all_partial` (choice, Quot.sound, propext)
  * `Verif.Makefile.Witness.C104_same_target` (choice, Quot.sound, propext)
  * `Verif.Makefile.Witness.C104_same_target_configuration` (choice, Quot.sound, propext)
  * `Verif.Makefile.Witness.C104_product_clean` (choice, Quot.sound, propext)

### C105 A product is linked against the libraries it needs, each once and in the right order

* Modelled: collectLibraryDependencies for trees of dependencies as JavaScript sees them (Verif.Link.Model), without frameworks (Darwin).
* Proof: An invariant of the traversal: the objects are a part for products, without repetition, and a part for external libraries; what is marked as public or private stands for dependencies that are linked or hidden; public static libraries have all their dependencies behind them. A second induction shows that everything reachable is marked.
* Status: partial. Proved for all trees of dependencies in which a name means one product, files belong to one product and names are none of those every JavaScript object has; object libraries only if no static library contains them. The findings show what happens otherwise, that linkWholeArchive can be lost, and that the time is exponential.
* Theorems (axioms):
  * `Verif.Link.C105_complete` (choice, Quot.sound, propext)
  * `Verif.Link.C105_objects_partial` (choice, Quot.sound, propext)
  * `Verif.Link.C105_external` (choice, Quot.sound, propext)
  * `Verif.Link.C105_only` (choice, Quot.sound, propext)
  * `Verif.Link.C105_order` (choice, Quot.sound, propext)
  * `Verif.Link.C105_external_last` (choice, Quot.sound, propext)
  * `Verif.Link.C105_once` (choice, Quot.sound, propext)
  * `Verif.Link.C105_rpath_link` (choice, Quot.sound, propext)
  * `Verif.Link.app_fine` (choice, Quot.sound, propext)
  * `Verif.Link.C105_whole_archive_lost` (choice, Quot.sound, propext)
  * `Verif.Link.C105_object_library_order` (choice, Quot.sound, propext)
  * `Verif.Link.C105_inherited_name` (choice, Quot.sound, propext)
  * `Verif.Link.C105_variant_ignored` (choice, Quot.sound, propext)
  * `Verif.Link.C105_external_library_of_product` (choice, Quot.sound, propext)
  * `Verif.Link.C105_exponential` (choice, Quot.sound, propext)

### C106 The arguments for the linker mean the libraries that were found

* Modelled: The loop that writes arguments for libraries, and a linker that reads them.
* Proof: Induction over the list with the state of the switch and the last library as parameters.
* Status: proved. For all lists of libraries.
* Theorems (axioms):
  * `Verif.Link.C106_arguments` (choice, Quot.sound, propext)
  * `Verif.Link.C106_linked` (choice, Quot.sound, propext)

### C107 A project created for a source tree has the files of the tree

* Modelled: The collecting of files, and the project files as items with the texts of their expressions (Verif.Create.Model); how qbs reads references, lists of files and prefixes (Verif.Create.Spec), with the evaluation of literals of C38.
* Proof: The files of the collected project are a permutation of those of the tree; reading the items gives them back, by induction over the project with what is in each directory as the invariant. Sorting makes the order irrelevant.
* Status: partial. Proved for all trees whose names have no ends of lines and whose file names have no pattern characters; the names of products are different if those of the directories are, up to the first dot. The findings show what happens otherwise. Not modelled: failures to write, symbolic links.
* Theorems (axioms):
  * `Verif.Create.C107_sources_partial` (choice, Quot.sound, propext)
  * `Verif.Create.C107_existing` (choice, Quot.sound, propext)
  * `Verif.Create.C107_flat` (choice, Quot.sound, propext)
  * `Verif.Create.C107_names_partial` (choice, Quot.sound, propext)
  * `Verif.Create.C107_order` (choice, Quot.sound, propext)
  * `Verif.Create.leStr_order` (Quot.sound, propext)
  * `Verif.Create.tree_good` (choice, Quot.sound, propext)
  * `Verif.Create.C107_pattern` (choice, Quot.sound, propext)
  * `Verif.Create.C107_line_break` (choice, Quot.sound, propext)
  * `Verif.Create.C107_qbs_directory` (choice, Quot.sound, propext)
  * `Verif.Create.C107_same_names` (choice, Quot.sound, propext)
  * `Verif.Create.C107_same_base_names` (choice, Quot.sound, propext)
  * `Verif.Create.C107_hidden_directory` (choice, Quot.sound, propext)

### C108 The type and the dependencies of a created product follow from the files

* Modelled: The flags as folds over the files.
* Proof: An invariant of the fold over names; the fold over contents is a disjunction.
* Status: partial. The dependency is characterized exactly; the type up to files called main that are not for a compiler, for which the result depends on the order (finding).
* Theorems (axioms):
  * `Verif.Create.C108_depends` (choice, Quot.sound, propext)
  * `Verif.Create.C108_type_partial` (choice, Quot.sound, propext)
  * `Verif.Create.C108_main_header` (choice, Quot.sound, propext)

### C109 Exported settings can be imported again

* Modelled: The export to lines and to JSON trees, the import from them, and QSettings as maps with normalised keys for the two scopes (Verif.Config.Model); values are evaluated as in C38.
* Proof: Writing and reading a line are inverse, so the calls made by the import are the exported settings; for JSON the calls for a group are those of the keys below it, by induction over the depth. All commands keep the keys normalised and different.
* Status: partial. Proved for all settings whose keys and values can be written in the format; the findings show what happens to the others. QSettings, QTextStream and QJsonDocument are assumed to read what they wrote.
* Theorems (axioms):
  * `Verif.Config.C109_states` (choice, Quot.sound, propext)
  * `Verif.Config.C109_text_partial` (choice, Quot.sound, propext)
  * `Verif.Config.C109_json_partial` (choice, Quot.sound, propext)
  * `Verif.Config.C109_both_partial` (choice, Quot.sound, propext)
  * `Verif.Config.C109_line_break` (choice, Quot.sound, propext)
  * `Verif.Config.C109_comment` (choice, Quot.sound, propext)
  * `Verif.Config.C109_colon` (choice, Quot.sound, propext)
  * `Verif.Config.C109_lists_grow` (choice, Quot.sound, propext)
  * `Verif.Config.C109_failed_import` (choice, Quot.sound, propext)
  * `Verif.Config.C109_json_not_valid` (choice, Quot.sound, propext)
  * `Verif.Config.C109_json_group` (choice, Quot.sound, propext)
  * `Verif.Config.C109_json_type` (choice, Quot.sound, propext)
  * `Verif.Config.C109_json_map` (choice, Quot.sound, propext)

### C110 qbs config changes exactly the settings it is told to

* Modelled: The commands of qbs config on the same stores.
* Proof: Case analysis on keys, with the parts of normalised keys.
* Status: partial. Names of profiles that begin with none or have dots, and empty names to be removed, are left out; findings show what happens.
* Theorems (axioms):
  * `Verif.Config.C110_add_profile_partial` (choice, Quot.sound, propext)
  * `Verif.Config.C110_unset_partial` (choice, Quot.sound, propext)
  * `Verif.Config.C110_set` (choice, Quot.sound, propext)
  * `Verif.Config.C110_none` (choice, Quot.sound, propext)
  * `Verif.Config.C110_dot` (choice, Quot.sound, propext)
  * `Verif.Config.C110_unset_nothing` (propext)

### C111 Updating the time stamps makes the build up to date

* Modelled: The visitor over the products and the beginning of the next build (Verif.Touch.Model) on top of the builds of C20.
* Proof: The recorded times after the command are characterised by induction over nodes and products; they make the state quiet in the sense of C20, so no history of the next build starts a job. For later edits: an output older than a source stays so until its transformer is looked at.
* Status: partial. Proved when all products are updated, no transformer was left marked by an interrupted build and the next build does not check the times on the disk; the findings show what happens otherwise.
* Theorems (axioms):
  * `Verif.Touch.C111_times` (Quot.sound, propext)
  * `Verif.Touch.C111_next_build_partial` (choice, Quot.sound, propext)
  * `Verif.Touch.C111_later_edit` (choice, Quot.sound, propext)
  * `Verif.Touch.C111_some_products` (none)
  * `Verif.Touch.C111_interrupted` (none)
  * `Verif.Touch.C111_check_timestamps` (Quot.sound, propext)

### C112 A project file is split into the right tokens at the right places

* Modelled: The lexer with its state, the decision trees for keywords, numbers and inserted semicolons (Verif.Lexer); the Unicode tables are parameters.
* Proof: An invariant ties the state to an offset of the text (lines, columns, the rest); one token is characterised from it, then lists of tokens by induction. The keyword trees are compared with a table by symbolic evaluation that is proved right. Progress: a measure of twice the rest of the text. The findings are concrete texts.
* Status: partial. Proved but for texts that end inside an escape sequence, where the lexer reads out of bounds, and the place and presence of inserted semicolons; the findings show these. Regular expressions are not modelled.
* Theorems (axioms):
  * `Verif.Lexer.C112_layout` (choice, Quot.sound, propext)
  * `Verif.Lexer.C112_ends` (choice, Quot.sound, propext)
  * `Verif.Lexer.C112_positions` (choice, Quot.sound, propext)
  * `Verif.Lexer.C112_inserted` (choice, Quot.sound, propext)
  * `Verif.Lexer.C112_restricted` (choice, Quot.sound, propext)
  * `Verif.Lexer.C112_symbols` (choice, Quot.sound, propext)
  * `Verif.Lexer.C112_symbols_found` (choice, Quot.sound, propext)
  * `Verif.Lexer.C112_words` (choice, Quot.sound, propext)
  * `Verif.Lexer.C112_words_found` (choice, Quot.sound, propext)
  * `Verif.Lexer.C112_numbers_found` (choice, Quot.sound, propext)
  * `Verif.Lexer.C112_no_oob_partial` (choice, Quot.sound, propext)
  * `Verif.Lexer.C112_reads_behind_end` (choice, Quot.sound, propext)
  * `Verif.Lexer.C112_nul` (choice, Quot.sound, propext)
  * `Verif.Lexer.C112_open_comment` (choice, Quot.sound, propext)
  * `Verif.Lexer.C112_inserted_place` (choice, Quot.sound, propext)
  * `Verif.Lexer.C112_newline_in_comment` (choice, Quot.sound, propext)
  * `Verif.Lexer.C112_increment` (choice, Quot.sound, propext)

### C113 String literals have the value that the language gives to them

* Modelled: The loops over string literals of the same model.
* Proof: A separate relation defines the values of ECMA-262; by induction over it the loops produce the value. Literals of C38 are in the relation.
* Status: partial. Proved for all literals without line continuations, \X, and a digit at the second place after \0; the findings show that these are read wrongly.
* Theorems (axioms):
  * `Verif.Lexer.C113_value_partial` (choice, Quot.sound, propext)
  * `Verif.Lexer.C113_roundtrip` (choice, Quot.sound, propext)
  * `Verif.Lexer.C113_zero` (choice, Quot.sound, propext)
  * `Verif.Lexer.C113_continuation` (choice, Quot.sound, propext)
  * `Verif.Lexer.C113_upper_x` (choice, Quot.sound, propext)
  * `Verif.Lexer.C113_doubled` (choice, Quot.sound, propext)

### C114 The language server gets every message that a client sends

* Modelled: BaseMessage::parse over a QBuffer and handleIncomingData (Verif.Lsp.Frame). Whether a write to the QBuffer goes to its end or to its position is a parameter; codecs are names.
* Proof: A separate format of messages with header fields; an invariant says which bytes of the next message are where; one call, then any list of calls by induction. The findings are concrete pieces.
* Status: partial. Proved for all pieces if every write to the QBuffer goes to its end. If the flag Append only sets the first position (QBuffer is not part of the repository), only for pieces that do not begin in a header; the findings show the rest, and that errors are reported for correct messages.
* Theorems (axioms):
  * `Verif.Lsp.C114_delivered` (choice, Quot.sound, propext)
  * `Verif.Lsp.C114_all` (choice, Quot.sound, propext)
  * `Verif.Lsp.C114_no_error` (choice, Quot.sound, propext)
  * `Verif.Lsp.C114_no_error_plain` (choice, Quot.sound, propext)
  * `Verif.Lsp.C114_overwriting_partial` (choice, Quot.sound, propext)
  * `Verif.Lsp.C114_split_header` (choice, Quot.sound, propext)
  * `Verif.Lsp.C114_busy` (choice, Quot.sound, propext)
  * `Verif.Lsp.C114_spurious_error` (choice, Quot.sound, propext)
  * `Verif.Lsp.C114_spurious_charset` (choice, Quot.sound, propext)
  * `Verif.Lsp.C114_unknown_charset` (choice, Quot.sound, propext)
  * `Verif.Lsp.C114_bad_length` (choice, Quot.sound, propext)
  * `Verif.Lsp.C114_no_length` (choice, Quot.sound, propext)

### C115 The language server has the text that the user sees

* Modelled: posToOffset, the changes of a document, the map of documents (Verif.Lsp.Server).
* Proof: Edits are given as texts before, in and behind the replaced part, and told to the server as lines and characters; the offset is found by induction over the lines; histories by induction. The findings on the first line hold for all texts.
* Status: partial. Proved for all edits that do not begin in the first line; the findings show that in the first line every edit is one character off.
* Theorems (axioms):
  * `Verif.Lsp.C115_position` (Quot.sound, propext)
  * `Verif.Lsp.C115_text_partial` (choice, Quot.sound, propext)
  * `Verif.Lsp.C115_up_to_date` (Quot.sound, propext)
  * `Verif.Lsp.C115_first_line` (Quot.sound, propext)
  * `Verif.Lsp.C115_one_line` (Quot.sound, propext)
  * `Verif.Lsp.C115_first_line_joined` (Quot.sound, propext)
  * `Verif.Lsp.C115_up_to_date_first` (Quot.sound, propext)
  * `Verif.Lsp.C115_beyond_line` (choice, Quot.sound, propext)

### C116 The language server answers every request once and nothing else

* Modelled: handleCurrentMessage as a transition function on the state and the documents.
* Proof: Induction over the messages; the state after a history is characterised by the messages in it.
* Status: partial. Proved, but notifications are answered with errors, and shutdown is possible before initialize (findings).
* Theorems (axioms):
  * `Verif.Lsp.C116_answered` (Quot.sound, propext)
  * `Verif.Lsp.C116_served` (choice, Quot.sound, propext)
  * `Verif.Lsp.C116_documents` (choice, Quot.sound, propext)
  * `Verif.Lsp.C116_shutdown` (Quot.sound, propext)
  * `Verif.Lsp.C116_exit` (propext)
  * `Verif.Lsp.C116_notification` (propext)
  * `Verif.Lsp.C116_initialized_twice` (propext)
  * `Verif.Lsp.C116_shutdown_first` (propext)
  * `Verif.Lsp.C116_half_applied` (propext)
  * `Verif.Lsp.C116_change_answered` (propext)

### C117 Completion offers exactly what can follow

* Modelled: handleCompletionRequest but for the parser, whose veto is a parameter.
* Proof: The name before the cursor is specified as the longest qualified name at the end of the text; the loops over modules and properties are shown to insert exactly the offers.
* Status: partial. Proved behind the first line; in the first line the cursor is taken to be one character further on (finding).
* Theorems (axioms):
  * `Verif.Lsp.C117_offered_partial` (Quot.sound, propext)
  * `Verif.Lsp.C117_first_line` (choice, Quot.sound, propext)
  * `Verif.Lsp.C117_submodule` (choice, Quot.sound, propext)

### C118 qbs status accounts for every file

* Modelled: createIgnoreList with a small engine for regular expressions, the recursive walk and printStatus (Verif.Status). Symbolic links and expressions with brackets, groups or alternatives are left out (the latter are a parameter).
* Proof: The walk is characterised by an inductive relation of the files in a tree, and has no path twice because names have no slash in them; so removing one occurrence removes all. Patterns without special characters are shown to match exactly their extensions. The findings on wildcards hold for all absolute paths.
* Status: partial. The report is proved to be exact relative to the ignore list. The ignore list itself is wrong: the built-in wildcards and the lines without a slash match nothing, and the project path is used as a regular expression (findings); the _partial theorems hold for paths without special characters.
* Theorems (axioms):
  * `Verif.Status.C118_untracked` (choice, Quot.sound, propext)
  * `Verif.Status.C118_missing` (choice, Quot.sound, propext)
  * `Verif.Status.C118_listed` (choice, Quot.sound, propext)
  * `Verif.Status.C118_accounted` (choice, Quot.sound, propext)
  * `Verif.Status.C118_once` (choice, Quot.sound, propext)
  * `Verif.Status.C118_build_partial` (choice, Quot.sound, propext)
  * `Verif.Status.C118_ignore_line_partial` (choice, Quot.sound, propext)
  * `Verif.Status.C118_finding_wildcards` (choice, Quot.sound, propext)
  * `Verif.Status.C118_finding_relative_line` (Quot.sound, propext)
  * `Verif.Status.C118_finding_plus` (choice, Quot.sound, propext)
  * `Verif.Status.C118_finding_builder` (choice, Quot.sound, propext)
  * `Verif.Status.C118_finding_outside` (choice, Quot.sound, propext)
  * `Verif.Status.C118_finding_reported` (choice, Quot.sound, propext)

### C119 Editing the settings changes what was edited and nothing else

* Modelled: The tree of SettingsModel with its edits, reading and saving (Verif.SettingsTree). The text of values is a parameter with a round trip law; the stored settings are a tree in which every name occurs once, which is what Settings::directChildren makes of them.
* Proof: Invariants (different names, no dots) over arbitrary edits at arbitrary indexes; what is shown is an inductive relation, and the keys written by doSave are shown to be its paths. One edit is followed through reading, editing and saving.
* Status: partial. Proved for all histories in which no names with dots are entered and for settings in which no key has both a value and keys below it; the findings show that the property fails otherwise.
* Theorems (axioms):
  * `Verif.SettingsTree.C119_distinct` (choice, Quot.sound, propext)
  * `Verif.SettingsTree.C119_new_key` (choice, Quot.sound, propext)
  * `Verif.SettingsTree.C119_saved_partial` (choice, Quot.sound, propext)
  * `Verif.SettingsTree.C119_save_works` (choice, Quot.sound, propext)
  * `Verif.SettingsTree.C119_clean` (choice, Quot.sound, propext)
  * `Verif.SettingsTree.C119_read_partial` (Quot.sound, propext)
  * `Verif.SettingsTree.C119_set_value_partial` (choice, Quot.sound, propext)
  * `Verif.SettingsTree.C119_remove_partial` (choice, Quot.sound, propext)
  * `Verif.SettingsTree.C119_finding_value_lost` (choice, Quot.sound, propext)
  * `Verif.SettingsTree.C119_finding_dots` (choice, Quot.sound, propext)
  * `Verif.SettingsTree.C119_finding_last_child` (choice, Quot.sound, propext)
  * `Verif.SettingsTree.C119_finding_none` (choice, Quot.sound, propext)
  * `Verif.SettingsTree.C119_finding_nonesuch` (choice, Quot.sound, propext)
  * `Verif.SettingsTree.C119_finding_add_below` (choice, Quot.sound, propext)
  * `Verif.SettingsTree.C119_finding_additional` (choice, Quot.sound, propext)
  * `Verif.SettingsTree.C119_finding_empty_additional` (choice, Quot.sound, propext)

### C120 Code generated by moc is compiled exactly once

* Modelled: The moc scanner with its work on the text of the joined tags, the gathering of included generated code from stored results, the inputs and auxiliary inputs of the two rules, their output artifacts, and the state that is kept between builds (Verif.Moc). What the C++ tokenizer finds in a file is given; generated files as inputs and the directories of the outputs are left out.
* Proof: Replacing and searching in the joined tags is reduced to the single tags; an invariant over histories says that stored results and decisions are still right.
* Status: partial. Proved for all histories of builds and changes in which no file changes which generated code it includes and no tags change, if the files that include generated code are tagged cpp or objcpp; and, whatever changed, for headers that are touched. The findings show that the property fails otherwise.
* Theorems (axioms):
  * `Verif.Moc.C120_headers_partial` (choice, Quot.sound, propext)
  * `Verif.Moc.C120_sources_partial` (Quot.sound, propext)
  * `Verif.Moc.C120_touched_partial` (choice, Quot.sound, propext)
  * `Verif.Moc.C120_included` (Quot.sound, propext)
  * `Verif.Moc.C120_null_build` (Quot.sound, propext)
  * `Verif.Moc.C120_unmocable` (Quot.sound, propext)
  * `Verif.Moc.C120_finding_include_removed` (Quot.sound, propext)
  * `Verif.Moc.C120_finding_include_added` (Quot.sound, propext)
  * `Verif.Moc.C120_finding_combined` (Quot.sound, propext)
  * `Verif.Moc.C120_finding_unmocable_source` (Quot.sound, propext)
  * `Verif.Moc.C120_finding_retag` (propext)
  * `Verif.Moc.C120_finding_substring` (propext)
  * `Verif.Moc.C120_finding_not_combined` (propext)

### C121 Setting something that is not declared is reported

* Modelled: The walk over the items with the set of handled items and the stack of parents, the rules for the kinds of values, and what is skipped (Verif.Decl). The declarations of an item are given with those of its prototypes; deprecated properties and locations are left out.
* Proof: Depth-first search over a graph with cycles: an invariant says that each newly handled item has its neighbours handled and its reports made; the stack of parents agrees with the inductive specification; the depth is bounded by the number of items.
* Status: partial. What the check reports is characterised exactly, for all sets of items. The full property (everything undeclared is reported) fails for Properties items, Artifact items, groups that use unknown modules, and groups in modules; the findings show this.
* Theorems (axioms):
  * `Verif.Decl.C121_reports` (choice, Quot.sound, propext)
  * `Verif.Decl.C121_once` (choice, Quot.sound, propext)
  * `Verif.Decl.C121_names` (choice, Quot.sound, propext)
  * `Verif.Decl.C121_strict` (choice, Quot.sound, propext)
  * `Verif.Decl.C121_undeclared_partial` (choice, Quot.sound, propext)
  * `Verif.Decl.C121_no_module_partial` (choice, Quot.sound, propext)
  * `Verif.Decl.C121_declared` (choice, Quot.sound, propext)
  * `Verif.Decl.C121_finding_block` (choice, Quot.sound, propext)
  * `Verif.Decl.C121_finding_block_module` (choice, Quot.sound, propext)
  * `Verif.Decl.C121_finding_artifact` (choice, Quot.sound, propext)
  * `Verif.Decl.C121_finding_group` (choice, Quot.sound, propext)
  * `Verif.Decl.C121_finding_module_group` (Quot.sound, propext)
  * `Verif.Decl.C121_finding_block_whole` (Quot.sound, propext)

### C122 Files written by scripts are read back as they were written

* Modelled: The methods of TextFile and BinaryFile over a model of QFile (write buffer, text mode, full disks) and of the codecs UTF-8 and UTF-16 (Verif.TextF). Several objects for one file, the buffer for reading and negative arguments are left out. That QFile and QTextCodec behave as modelled is trusted.
* Proof: UTF-8 decoding inverts encoding, by arithmetic; a file that is written at its end is the concatenation of the pieces; the buffered binary file refines the ideal file by a simulation.
* Status: partial. Proved for UTF-8 with all texts except for byte order marks and carriage returns in certain places, and for binary files as long as the disk does not get full. The findings show that the exceptions are needed, that UTF-16 does not work with lines, and that errors are not reported.
* Theorems (axioms):
  * `Verif.TextF.C122_read_lines_partial` (choice, Quot.sound, propext)
  * `Verif.TextF.C122_written` (choice, Quot.sound, propext)
  * `Verif.TextF.C122_lines_partial` (choice, Quot.sound, propext)
  * `Verif.TextF.C122_text_partial` (choice, Quot.sound, propext)
  * `Verif.TextF.C122_closed` (propext)
  * `Verif.TextF.C122_readonly` (propext)
  * `Verif.TextF.C122_binary` (choice, Quot.sound, propext)
  * `Verif.TextF.C122_utf8` (choice, Quot.sound, propext)
  * `Verif.TextF.C122_set_codec` (Quot.sound, propext)
  * `Verif.TextF.C122_finding_write_errors` (propext)
  * `Verif.TextF.C122_finding_codec` (propext)
  * `Verif.TextF.C122_finding_read_writeonly` (propext)
  * `Verif.TextF.C122_finding_bom` (propext)
  * `Verif.TextF.C122_finding_cr` (propext)
  * `Verif.TextF.C122_finding_cr_all` (propext)
  * `Verif.TextF.C122_finding_utf16_pieces` (propext)
  * `Verif.TextF.C122_finding_utf16_lines` (propext)
  * `Verif.TextF.C122_finding_utf16_read` (propext)
  * `Verif.TextF.C122_finding_disk_full` (none)

### C123 The exported description of a product is complete and free of paths of the build

* Modelled: The mapping of values, the dependencies on products with parameters and the collection of modules (Verif.Exported). Values are strings, lists or opaque; nested maps and evaluation are left out.
* Proof: The map is sorted, and a proper prefix comes before its extensions, so the first match is the shortest; for the modules an invariant of the depth-first search with a decreasing number of names not seen yet.
* Status: partial. The mapping, the names of products and the modules are characterised exactly. The findings show that the most specific prefix does not win, that strings outside lists and undeclared lists are not cleaned, and that the parameters of dependencies are lost.
* Theorems (axioms):
  * `Verif.Exported.C123_unmapped` (Quot.sound, propext)
  * `Verif.Exported.C123_mapped` (choice, Quot.sound, propext)
  * `Verif.Exported.C123_specific` (choice, Quot.sound, propext)
  * `Verif.Exported.C123_boundary` (choice, Quot.sound, propext)
  * `Verif.Exported.C123_empty` (choice, Quot.sound, propext)
  * `Verif.Exported.C123_list` (propext)
  * `Verif.Exported.C123_refers` (Quot.sound, propext)
  * `Verif.Exported.C123_names` (Quot.sound, propext)
  * `Verif.Exported.C123_values` (Quot.sound, propext)
  * `Verif.Exported.C123_string_refers` (Quot.sound, propext)
  * `Verif.Exported.C123_untyped` (Quot.sound, propext)
  * `Verif.Exported.C123_products` (choice, Quot.sound, propext)
  * `Verif.Exported.C123_params` (Quot.sound, propext)
  * `Verif.Exported.C123_params_lost` (Quot.sound, propext)
  * `Verif.Exported.C123_modules_once` (choice, Quot.sound, propext)
  * `Verif.Exported.C123_modules` (choice, Quot.sound, propext)

### C124 An imported JavaScript file provides exactly what it declares

* Modelled: The visitor with its barrier, and the evaluation of the returned object in the scope of the program (Verif.JsImport). Programs are reduced to declarations, blocks and function expressions; the scoping rules of JavaScript are trusted as modelled.
* Proof: Induction on the program, with the barrier as a parameter.
* Status: partial. An import that works provides what is declared. It works if there is at most one function expression outside of variables and no constant in a block; the findings show that it does not in general.
* Theorems (axioms):
  * `Verif.JsImport.C124_provides` (Quot.sound, propext)
  * `Verif.JsImport.C124_names_partial` (Quot.sound, propext)
  * `Verif.JsImport.C124_second_function` (Quot.sound, propext)
  * `Verif.JsImport.C124_global` (Quot.sound, propext)
  * `Verif.JsImport.C124_block_constant` (Quot.sound, propext)
  * `Verif.JsImport.C124_not_declared` (propext)

### C125 Requiring JavaScript files ends, evaluates each once and finds the right ones

* Modelled: The cache of files, the stack of directories and require for paths (Verif.JsImport). Named extensions, the objects copied for each context and what else the files do are left out; a stack overflow is an outcome that is not caught.
* Proof: Induction on the depth with a rank on files: what is evaluated is new, and afterwards in the cache; the stack is restored on success.
* Status: partial. Proved for files that do not require each other in a circle and do not catch errors of required files; the findings show that both conditions are needed.
* Theorems (axioms):
  * `Verif.JsImport.C125_require_partial` (choice, Quot.sound, propext)
  * `Verif.JsImport.C125_next_partial` (choice, Quot.sound, propext)
  * `Verif.JsImport.C125_cached` (Quot.sound, propext)
  * `Verif.JsImport.C125_circle` (Quot.sound, propext)
  * `Verif.JsImport.C125_caught` (Quot.sound, propext)
  * `Verif.JsImport.C125_not_required` (Quot.sound, propext)

### C126 What is exported to a .pc file is what its reader sees

* Modelled: Quoting, the prefix, the collected flags with the modification of the exported lists in place, and the lines of the file (Verif.PcExport), and the reader of C71 (Verif.Pc). The order in which dependencies are visited, entries given by the user, lists of required packages, user-defined variables and transform functions are left out.
* Proof: Each word is shown to survive the lines, the replacement of variables and the splitting into arguments; this is closed under concatenation; then induction on the lists.
* Status: partial. Proved for values without backslashes, single quotes, dollar and number signs and tabs, and driver flags without blanks and quotes; the findings show that each of these goes wrong.
* Theorems (axioms):
  * `Verif.PcExport.C126_read_back_partial` (choice, Quot.sound, propext)
  * `Verif.PcExport.C126_required` (choice, Quot.sound, propext)
  * `Verif.PcExport.C126_single_quote` (choice, Quot.sound, propext)
  * `Verif.PcExport.C126_backslash` (choice, Quot.sound, propext)
  * `Verif.PcExport.C126_dollar` (choice, Quot.sound, propext)
  * `Verif.PcExport.C126_number_sign` (choice, Quot.sound, propext)
  * `Verif.PcExport.C126_tab` (choice, Quot.sound, propext)
  * `Verif.PcExport.C126_driver_flags` (choice, Quot.sound, propext)

### C127 Quoted strings are literals with the same meaning

* Modelled: The loop over UTF-16 units with all escape sequences (Verif.CString). Which characters are printable is a parameter, where control characters and surrogates are not. The meaning of literals is a relation after the standards; trigraphs are left out.
* Proof: Each character is shown to be written in a way that means it, and this is closed under concatenation; literals have one meaning by induction.
* Status: partial. Proved in full for C++. For C, proved without control characters that have no short escape sequence; the finding shows that these make invalid literals.
* Theorems (axioms):
  * `Verif.CString.C127_cpp` (choice, Quot.sound, propext)
  * `Verif.CString.C127_unique` (Quot.sound, propext)
  * `Verif.CString.C127_different` (choice, Quot.sound, propext)
  * `Verif.CString.C127_c_partial` (choice, Quot.sound, propext)
  * `Verif.CString.C127_c_control` (choice, Quot.sound, propext)
  * `Verif.CString.C127_surrogate` (choice, Quot.sound, propext)

### C128 Text templates are rendered exactly

* Modelled: The regular expressions, the collection of matches, the replacement from the last match to the first, and the loop over lines (Verif.Template). Values are given as text; carriage returns are left out. Templates are specified as sequences of characters and placeholders.
* Proof: Matching is shown to find exactly the placeholders of such a sequence, and an invariant with an arbitrary prefix shows that replacing backwards gives the sequence of values; every text is shown to be such a sequence.
* Status: proved. Proved for all templates. The findings show that a newline is added to the last line and that names such as toString are never reported as undefined.
* Theorems (axioms):
  * `Verif.Template.C128_line` (Quot.sound, propext)
  * `Verif.Template.C128_every_line` (Quot.sound, propext)
  * `Verif.Template.C128_unknown` (Quot.sound, propext)
  * `Verif.Template.C128_quote` (Quot.sound, propext)
  * `Verif.Template.C128_file` (Quot.sound, propext)
  * `Verif.Template.C128_file_error` (Quot.sound, propext)
  * `Verif.Template.C128_unchanged` (Quot.sound, propext)
  * `Verif.Template.C128_own` (Quot.sound, propext)
  * `Verif.Template.C128_last_line` (propext)
  * `Verif.Template.C128_inherited` (Quot.sound, propext)

### C129 Desktop files are merged with the keys of the product

* Modelled: Reading with the state of the regular expression, writing, and merging (Verif.Desktop). Files are lists of lines; the order of names that look like numbers and inherited properties are left out. The specification says when a section has an entry, in terms of the lines.
* Proof: An invariant over the lines read so far says that the objects have exactly the entries of these lines; writing is shown to be inverse to it, and the two loops are described by what each key has afterwards.
* Status: partial. Proved for all valid files whose values have no equals sign and whose sections in front of others are not empty. The findings show that all four kinds of files that are left out are damaged or rejected.
* Theorems (axioms):
  * `Verif.Desktop.C129_merge_partial` (choice, Quot.sound, propext)
  * `Verif.Desktop.C129_equals` (choice, Quot.sound, propext)
  * `Verif.Desktop.C129_empty_section` (choice, Quot.sound, propext)
  * `Verif.Desktop.C129_space` (choice, Quot.sound, propext)
  * `Verif.Desktop.C129_fragment` (choice, Quot.sound, propext)

### C130 PathProbe finds the first file that fits

* Modelled: All loops of the probe with their early return, selectors, environment variables, and FileInfo.joinPaths (Verif.PathProbe). Unix only. The specification has relations for names, directories and acceptance, and the order of candidates as a list.
* Proof: Each loop is shown to try a prefix of a list of candidates, and loops are composed; components of paths are shown to be kept when separators are removed.
* Status: partial. Proved: which file is found, and that joined paths mean what their parts mean. The findings show three places where this is not what the documentation says: suffixes of selectors, empty elements of PATH, and sub-directories.
* Theorems (axioms):
  * `Verif.PathProbe.C130_join` (Quot.sound, propext)
  * `Verif.PathProbe.C130_join_absolute` (choice, Quot.sound, propext)
  * `Verif.PathProbe.C130_join_assoc` (propext)
  * `Verif.PathProbe.C130_first` (Quot.sound, propext)
  * `Verif.PathProbe.C130_none` (Quot.sound, propext)
  * `Verif.PathProbe.C130_found_iff` (Quot.sound, propext)
  * `Verif.PathProbe.C130_parts` (Quot.sound, propext)
  * `Verif.PathProbe.C130_selectors` (Quot.sound, propext)
  * `Verif.PathProbe.C130_selector_kinds` (Quot.sound, propext)
  * `Verif.PathProbe.C130_names` (propext)
  * `Verif.PathProbe.C130_selector_suffixes` (Quot.sound, propext)
  * `Verif.PathProbe.C130_relative` (Quot.sound, propext)
  * `Verif.PathProbe.C130_no_subdirectory` (Quot.sound, propext)

### C131 CMake packages describe the product

* Modelled: The whole export to text (Verif.CMakeExport.Model), without frameworks; install paths of artifacts and the relative path to the prefix are given. The specification has a reader for the part of the CMake language that the files use, with quoting, escape sequences, variables, lists and the effects of the commands (Verif.CMakeExport.Reader), written after the CMake manual, and the target that users should get.
* Proof: The scanner is run over each written piece; the commands are then run one after the other, with the value of the prefix variable as the invariant. Findings are concrete products, except the version file, which is for all versions.
* Status: partial. Proved for values without the characters that have a meaning in CMake, for paths outside of the project and for directories without separators at their ends. The findings show that the other cases go wrong, and that version files never accept a version.
* Theorems (axioms):
  * `Verif.CMakeExport.C131_read_back_partial` (choice, Quot.sound, propext)
  * `Verif.CMakeExport.C131_again` (choice, Quot.sound, propext)
  * `Verif.CMakeExport.C131_inside` (choice, Quot.sound, propext)
  * `Verif.CMakeExport.C131_options` (Quot.sound, propext)
  * `Verif.CMakeExport.C131_repeated` (choice, Quot.sound, propext)
  * `Verif.CMakeExport.C131_no_cpp` (choice, Quot.sound, propext)
  * `Verif.CMakeExport.C131_not_installed` (choice, Quot.sound, propext)
  * `Verif.CMakeExport.C131_double_quote` (choice, Quot.sound, propext)
  * `Verif.CMakeExport.C131_backslash` (choice, Quot.sound, propext)
  * `Verif.CMakeExport.C131_dollar` (choice, Quot.sound, propext)
  * `Verif.CMakeExport.C131_semicolon` (choice, Quot.sound, propext)
  * `Verif.CMakeExport.C131_root_prefix` (choice, Quot.sound, propext)
  * `Verif.CMakeExport.C131_sibling` (choice, Quot.sound, propext)
  * `Verif.CMakeExport.C131_case` (choice, Quot.sound, propext)
  * `Verif.CMakeExport.C131_version` (choice, Quot.sound, propext)

### C132 Scripts know where files are installed

* Modelled: artifactInstalledFilePath (Verif.Installed.Model) beside the installer's targetFilePath (Verif.Install.Model) and FileInfo.joinPaths (Verif.PathProbe.Model), on Unix. The specification is the meaning of paths of C06 (Verif.Path.Spec).
* Proof: A clean absolute path without a separator at its end is the text of its components; joined paths have the components of their parts. The installer's side is C30, with the cleaned path as text.
* Status: partial. Proved for files without installSourceBase, and for those with an absolute clean installSourceBase (with or without a separator at its end) that they are below. The findings show that the other cases go wrong.
* Theorems (axioms):
  * `Verif.Installed.C132_same_place_partial` (choice, Quot.sound, propext)
  * `Verif.Installed.C132_same_text_partial` (choice, Quot.sound, propext)
  * `Verif.Installed.C132_relative_base` (choice, Quot.sound, propext)
  * `Verif.Installed.C132_unclean_base` (choice, Quot.sound, propext)
  * `Verif.Installed.C132_different_cut` (choice, Quot.sound, propext)
  * `Verif.Installed.C132_outside` (choice, Quot.sound, propext)

### C133 Modules reject wrong properties

* Modelled: PropertyValidator with its validators (Verif.Validator.Model); matching of the regular expression as the set of texts that can be left. The specification says what a version is, which call for a property counts, and when a value is missing (Verif.Validator.Spec). Names that objects of JavaScript have from the beginning are left out.
* Proof: The texts that can be left after each part of the expression are characterized by induction; objects are lists without repeated names, and their contents the last calls, by induction over the calls; lines for invalid values are a permutation of the failed checks.
* Status: partial. Validation as a whole, missing properties, invalid values and file names are proved in full. Versions are proved for maxima other than one component, and ranges for finite numbers; the findings show that a maximum of one component, or any maximum together with suffixes, has no effect, and that the value that is not a number is in all ranges with fractions.
* Theorems (axioms):
  * `Verif.Validator.C133_version_partial` (choice, Quot.sound, propext)
  * `Verif.Validator.C133_suffix_partial` (choice, Quot.sound, propext)
  * `Verif.Validator.C133_range_partial` (Quot.sound, propext)
  * `Verif.Validator.C133_range_whole` (propext)
  * `Verif.Validator.C133_range_infinite` (propext)
  * `Verif.Validator.C133_file_name` (choice, Quot.sound, propext)
  * `Verif.Validator.C133_missing` (Quot.sound, propext)
  * `Verif.Validator.C133_invalid` (Quot.sound, propext)
  * `Verif.Validator.C133_validate` (choice, Quot.sound, propext)
  * `Verif.Validator.C133_max_one` (choice, Quot.sound, propext)
  * `Verif.Validator.C133_suffix_no_max` (choice, Quot.sound, propext)
  * `Verif.Validator.C133_nan` (propext)

### C134 Setup scripts keep the entries of list variables

* Modelled: EnvironmentVariable with all its methods (Verif.EnvVar.Model), for separators of one character or none. The specification is splitting at separators (Verif.EnvVar.Spec).
* Proof: Splitting a value at an inserted separator; an induction over the calls, with the invariant that the value does not begin with the separator.
* Status: partial. Proved for variables whose value does not begin with the separator, and for additions that are not empty and do not begin with it. The finding shows that an empty first entry is lost by prepending.
* Theorems (axioms):
  * `Verif.EnvVar.C134_entries_partial` (propext)
  * `Verif.EnvVar.C134_append` (propext)
  * `Verif.EnvVar.C134_no_name` (none)
  * `Verif.EnvVar.C134_unset` (propext)
  * `Verif.EnvVar.C134_first_entry_lost` (propext)
  * `Verif.EnvVar.C134_no_separator` (choice, Quot.sound, propext)

### C135 Shared libraries are found under their names

* Modelled: The computation of versions, names, links and the soname (Verif.Soname.Model), with the regular expression as a list of matches in the order in which they are tried; bundles and sonamePrefix are left out. The specification says what is opened in a directory with a library and links (Verif.Soname.Spec).
* Proof: The matched text begins with a digit, so that the first part of the version is not empty, and the version has three parts; the names then have increasing lengths. Cutting the version from the name gives the name of a link.
* Status: partial. Proved for the default versions, whatever the version of the product is, and for a soVersion that is a beginning of the version. The findings show that other values of the documented property cpp.soVersion give a soname that no file has.
* Theorems (axioms):
  * `Verif.Soname.C135_found_partial` (Quot.sound, propext)
  * `Verif.Soname.C135_so_version` (Quot.sound, propext)
  * `Verif.Soname.C135_three_parts` (Quot.sound, propext)
  * `Verif.Soname.C135_own_so_version` (choice, Quot.sound, propext)
  * `Verif.Soname.C135_so_version_only` (choice, Quot.sound, propext)
  * `Verif.Soname.C135_link_replaces_library` (choice, Quot.sound, propext)
  * `Verif.Soname.C135_any_separator` (choice, Quot.sound, propext)

### C136 Users of shared libraries are linked again when they have to be

* Modelled: The symbol file, its writing and reading, the selection and comparison of symbols, and failures of nm (Verif.Symbols.Model). The specification says which symbols matter and when linking is needed, from the lists of symbols only (Verif.Symbols.Spec). That the linker rule depends on the symbol file is taken from the rule.
* Proof: Files are read back as written; comparing line by line is comparing lists of names and types; an induction over the history with the invariant that the file has the relevant symbols of the last build with a list.
* Status: partial. The statement is proved for the symbols that the code compares, names and types, in all histories. The findings show that changes are missed when nm fails, and that changes of the sizes of exported variables, which executables with copies of them depend on, are never seen.
* Theorems (axioms):
  * `Verif.Symbols.C136_relinked` (choice, Quot.sound, propext)
  * `Verif.Symbols.C136_unchanged` (choice, Quot.sound, propext)
  * `Verif.Symbols.C136_read_back` (propext)
  * `Verif.Symbols.C136_words` (Quot.sound, propext)
  * `Verif.Symbols.C136_file` (Quot.sound, propext)
  * `Verif.Symbols.C136_nm_fails` (propext)
  * `Verif.Symbols.C136_size` (choice, Quot.sound, propext)

### C137 Files generated by protoc are where the rule says

* Modelled: The choice of the import path, the relative path, the name of the declared file and the arguments of protoc (Verif.ProtoOut.Model). What protoc does with them is specified from general knowledge of the tool, whose source and documentation were not available, and is an assumption (Verif.ProtoOut.Spec). Not modelled: symbolic links, shadowed inputs, the other generators.
* Proof: Parents of the input are textual prefixes of it; an induction over the import paths; for the findings, families of cases where both sides are computed.
* Status: partial. Proved when the import paths exist, none is a mere textual prefix of the path of the input, and names of inputs have one dot. The findings show that the statement is false of the code otherwise: for directories beside an import path, for names such as api.v1.proto, and with missing import paths.
* Theorems (axioms):
  * `Verif.ProtoOut.C137_declared_partial` (choice, Quot.sound, propext)
  * `Verif.ProtoOut.C137_writes_one` (choice, Quot.sound, propext)
  * `Verif.ProtoOut.C137_sibling` (choice, Quot.sound, propext)
  * `Verif.ProtoOut.C137_dotted` (choice, Quot.sound, propext)
  * `Verif.ProtoOut.C137_missing` (choice, Quot.sound, propext)

### C138 The output of lex is where the rule says

* Modelled: The reading of options line by line, the name of the declared file and the arguments of lex (Verif.LexOut.Model). What flex does with them is specified from general knowledge of the tool, whose source and documentation were not available, and is an assumption (Verif.LexOut.Spec). Not modelled: the text of the lines, lexFlags, yacc.
* Proof: Reading the first settings of lines is reading all settings if the others do not matter; then a case analysis over where the name comes from.
* Status: partial. Proved when outfile and prefix are the first settings of their lines and paths of outputs are relative. The findings show that the statement is false of the code otherwise: for several settings in one line, for absolute paths in lexOutputFilePath, and for the prefix of symbols if that property is set.
* Theorems (axioms):
  * `Verif.LexOut.C138_declared_partial` (choice, Quot.sound, propext)
  * `Verif.LexOut.C138_unique` (choice, Quot.sound, propext)
  * `Verif.LexOut.C138_later_setting` (choice, Quot.sound, propext)
  * `Verif.LexOut.C138_absolute` (choice, Quot.sound, propext)
  * `Verif.LexOut.C138_prefix_partial` (choice, Quot.sound, propext)
  * `Verif.LexOut.C138_prefix_lost` (choice, Quot.sound, propext)

## Findings

Places where the code does not do what the property says. Each is proved as a theorem with a concrete witness; the claims above say which part of the property is proved nevertheless.

* `C56_similar_rule_missed`: C56 finding. Two rules of a product differ only in something that is not part of the key, for example in whether they are multiplex. When just the second is changed to be like the first, or the first is changed in a way that is not part of the key, the change is not seen. The build data is kept, and then an assertion fails as there is no rule any more like the one that a node refers to.
* `C57_group_order_missed`: C57 finding. Two groups for artifacts change places. An artifact that both match gets its properties from the first, so it should get others now. The groups count as equal, as their order is not compared, and the artifact keeps the properties it had.
* `C57_tagger_missed`: C57 finding. A file tagger is added. A generated file whose rule gives it no tags should have the tag now. File taggers are not compared, and the artifact stays without.
* `C57_comma_missed`: C57 finding. One group is for the tags "a" and "b", another for a tag with a comma, "a,b". Only the last one with this key is compared, and a change of the other is not seen.
* `C86_unknown_products`: C86 finding. Products that do not exist: a build or install request that names only such products (or none at all) builds and installs the default ones, and a clean request cleans the whole project. No reply says so.
* `C87_dependencies`: C87 finding. Adding dependencies that cannot be added is reported as a success: the reply never has an error once the product and the group are found.
* `C85_superseded`: C85 finding. A resolve request that is sent while a resolve job is being canceled takes the place of the first one, which is never answered; and if that one is canceled, too, before the job has ended, then only one of the two requests is ever answered.
* `C85_release_during_job`: C85 finding. Releasing the project while it is being built: the release succeeds, and the build request is never answered, whatever happens afterwards.
* `C87_failed_build`: C87 finding. A build that fails after it has changed the project: the reply has no data, and the next build, which changes nothing any more, has none either. A client that always asks for changed data keeps the old ones.
* `C87_failed_rename`: C87 finding. Renaming a file whose new name cannot be added: the file is gone from the project, and the client does not get the new data.
* `C47_armv7a_target_name`: C47 (finding). For armv7a the target name for Apple and QNX systems does not lead back.
* `C47_canonical_names_case_sensitive`: C47 (finding). Canonical names themselves are only recognised in lower case.
* `C131_repeated`: C131 finding. Options that occur twice are used once: the second header is an argument of the first option.
* `C131_no_cpp`: C131 finding. For a product that does not export the module cpp no file can be written.
* `C131_not_installed`: C131 finding. If the library is not installed, the package says that its file is `undefined`.
* `C131_double_quote`: C131 finding. Double quotes are not escaped: the file is not correct.
* `C131_backslash`: C131 finding. Backslashes are not escaped: they are lost.
* `C131_dollar`: C131 finding. What looks like a variable is replaced.
* `C131_semicolon`: C131 finding. A value with a semicolon becomes two values.
* `C131_root_prefix`: C131 finding. With the install prefix `/` paths in the install root are not those of the place where the files are now: they are the paths in the build directory.
* `C131_sibling`: C131 finding. A directory next to the source directory whose name begins with the name of the source directory is taken for a directory in it.
* `C131_case`: C131 finding. Packages whose names differ only in case use the same variable: if one needs the other, its paths are those of the other one.
* `C131_version`: C131 finding. No version file says that a version is accepted: with a version, the package is never found.
* `C127_c_control`: C127 finding. A control character without short escape sequence, as the bell, makes a literal that is not valid in C, wherever it is in the text.
* `C67_first_range`: C67 finding. The file is chosen for the first `Depends` item only. If a later one is for other versions, the file stays the same, and its version is not accepted in the end, although there is a file with the right one. In the opposite order it is found.
* `C29_dry_run_removes_directories`: C29 finding. In dry-run mode empty directories are removed all the same (artifactcleaner.cpp 217-218).
* `C29_dry_run_forgets`: C29 finding. A dry run forgets about files with rescuable data (artifactcleaner.cpp 125), so that a later cleaning does not remove them.
* `C29_rescuable_failure_stops`: C29 finding. If a file with rescuable data cannot be removed, cleaning stops even with `keepGoing` (artifactcleaner.cpp 124 has no handler, unlike 140-147).
* `C29_broken_link_fails`: C29 finding. A broken link in a directory makes cleaning fail: the listing does not show it, so the directory seems to be empty and cannot be removed (artifactcleaner.cpp 208, 218).
* `C29_rescuable_directory_stays`: C29 finding. The directories of files with rescuable data are not looked at (artifactcleaner.cpp 119-126 do not add to `m_directories`): they stay although they are empty.
* `C84_repeated`: C84 finding. What is given in a second section for the same configuration is ignored: the configuration keeps the first value.
* `C84_undotted_name`: C84 finding. Although names without a dot are properties of the qbs module, the name of the configuration cannot be given as "configurationName": the assignment is ignored.
* `C83_run_help`: C83 finding. A program cannot be asked for its help: `qbs run -- --help` shows the help of qbs and runs nothing.
* `C83_option_as_argument`: C83 finding. An option that needs an argument takes the next word even if it is an option: `qbs build -f -k` and `qbs build -fk` use the project file "-k" and do not keep going.
* `C83_late_help`: C83 finding. Without the name of a command the switches for help are only known at the start of the line: `qbs --keep-going --help` is an error.
* `C74_not_emptied`: C74 finding. A command cannot empty a variable: an entry with an empty value is ignored, so that the process sees the value of the environment of the build.
* `C78_empty_lines`: C78 finding. Empty lines are not reported, so that different outputs become the same.
* `C79_import_scope`: C79 finding. JavaScript commands with the same source code are taken to be the same even if their code belongs to different imported files, where the same names mean different things.
* `C76_other_working_directory`: C76 finding. If PATH contains `.`, a command gets the program of the working directory of an earlier command of the product, although its own working directory has the program.
* `C76_not_found_again`: C76 finding. A program that was not found is not looked for again: a command of the same product gets the bare name even if the program has been installed in a directory of PATH meanwhile.
* `C76_own_path_ignored`: C76 finding. The program is not looked for in the PATH its process gets: here the command puts `/opt` first, which has the program, but the one in `/usr` is started.
* `C76_relative_path`: C76 finding. A relative path is also looked for below the directories of PATH only, not in the working directory: the program `./gen` of a command with the working directory `/src` is `/usr/./gen`.
* `C77_backslash_lost`: C77 finding. Backslashes get lost if GCC reads the response file: the argument `-DX=\"a b\"` arrives as `-DX="a b"`.
* `C77_not_a_file`: C77 finding. An argument that starts with the prefix of response files without being one makes the command fail as soon as the command line is long, although the program would take it literally.
* `C77_separator`: C77 finding. The separator is used as it is: with one that is not white space, the arguments are glued together.
* `C77_negative_index`: C77 finding. A negative index of the first argument in the response file is not rejected: the list of arguments is read outside its bounds.
* `C109_line_break`: C109 finding. The second line of a string becomes a setting of its own when exported settings are imported, and the first line gets a quote in front. Here the string `x`, end of line, `b: evil`.
* `C109_comment`: C109 finding. A setting whose name begins with `#` is exported, but the line is taken for a comment when it is imported.
* `C109_colon`: C109 finding. A setting with a colon in its name, such as a property of a profile `a:b`, becomes another setting.
* `C109_lists_grow`: C109 finding. Exporting without `--user` and `--system` and importing the file again makes lists longer: the entries for the whole system are then in the user's list as well. Each time they are added once more.
* `C109_failed_import`: C109 finding. An import that fails leaves neither the old settings nor the new ones: everything is removed first, and what comes after the line that is refused is missing.
* `C109_json_not_valid`: C109 finding. Importing a file that is not valid JSON removes all settings and reports no error.
* `C109_json_group`: C109 finding. A setting below another setting is not exported to JSON, so it is gone after the import.
* `C109_json_type`: C109 finding. Booleans and integers lose their type on the way through JSON: the next `qbs` reads a string.
* `C109_json_map`: C109 finding. A setting that is a map becomes several settings.
* `C110_none`: C110 finding. No profile can be made whose name begins with "none", such as `nonesuch`: the check for the special name looks at the beginning only.
* `C110_dot`: C110 finding. `--add-profile a.b` makes no profile `a.b`: it replaces properties of profile `a`.
* `C110_unset_nothing`: C110 finding. `qbs config --unset ''` removes all settings.
* `C58_reads_past_the_end`: C58 finding. After the last character of the file the byte after it is read. If the size of the file is a multiple of the size of a page, this byte is not mapped: the program ends with an error. Shown for any ASCII file of such a size.
* `C58_latin1_hides`: C58 finding. A character of Latin-1 before the end of the line in a comment hides the next line: the bytes after it are taken for the rest of a character in UTF-8.
* `C58_null_directive_hides`: C58 finding. A `#` on a line of its own, which the language allows, hides an include in the next line.
* `C58_splice_hides`: C58 finding. An include after an escaped line break at the beginning of a line is not found.
* `C58_splice_in_word`: C58 finding. A line break that is escaped within the word is not allowed for.
* `C58_nul_hides`: C58 finding. A NUL hides everything after it.
* `C58_digit_separator_hides`: C58 finding. The quotes in numbers (digit separators) are taken for the beginning of a character literal. What is in a literal after that is taken for code: here a comment begins, and the include is not found.
* `C58_digit_separator_shows`: C58 finding. For the same reason, includes can be found in a raw string.
* `C58_module_function_hides`: C58 finding. A function that returns a type of the name `module` (a name like any other before C++20) hides the includes in its body, and another module is thought to be needed.
* `C58_include_next_missed`: C58 finding. `#include_next` is not taken for an include.
* `C58_comment_continues`: C58 finding. In a comment, two backslashes at the end of the line: the language takes the second for an escaped line break, so the next line is part of the comment; the scanner does not.
* `C58_lone_quote`: C58 finding. A name of which only the opening quote is there: the rest of the file is reported as the name.
* `C58_unclosed_name`: C58 finding. Of a name that is not closed, the last character is lost.
* `C59_partition_cut`: C59 finding. Of the name of a partition with dots, only the first word is recorded.
* `C59_header_unit_cut`: C59 finding. Of a header unit in a directory, only the first word and what follows a dot is recorded.
* `C59_quoted_unit_missed`: C59 finding. A header unit in quotes is not recorded at all.
* `C59_second_on_line_missed`: C59 finding. An import that is not at the beginning of a line is not found.
* `C107_pattern`: C107 finding. A source file whose name has brackets is taken for a pattern.
* `C107_line_break`: C107 finding. A file name with the end of a line in it makes the project file invalid.
* `C107_qbs_directory`: C107 finding. If a directory has a sub-directory whose name ends in ".qbs", qbs finds two project files in it.
* `C107_same_names`: C107 finding. Directories with the same name in different places give products with the same name, and qbs refuses the project that was made.
* `C107_same_base_names`: C107 finding. The same with names that differ after a dot only.
* `C107_hidden_directory`: C107 finding. In a directory whose name begins with a dot, the project file is called ".qbs"; the product has no name (an internal error when it is read, productscollector.cpp 307).
* `C108_main_header`: C108 finding. A header with the name "main" makes an application just if there is a file for a compiler whose name comes before it.
* `C121_finding_block`: C121 finding. A property that is set in a `Properties` item, and nowhere else in the item, is never reported, whatever its name is.
* `C121_finding_block_module`: C121 finding. The use of a module in a `Properties` item is never reported, whether there is such a module or not.
* `C121_finding_artifact`: C121 finding. In `Artifact` items the use of a module that does not exist is never reported.
* `C121_finding_group`: C121 finding. In groups the use of a module that does not exist is never reported.
* `C121_finding_module_group`: C121 finding. What is set in a group of a module is not checked: the group sets `z`, which is not declared.
* `C121_finding_block_whole`: C121 finding. A whole use of a module that does not exist goes unnoticed if it is made in a `Properties` item: neither the module nor the property in it are reported.
* `C66_missing_unnoticed`: C66 finding. If a module does not exist, and it is first asked for as not required, then no `Depends` item for which it is required makes a difference: there is no error. With the items in the opposite order, there is one.
* `C66_disabled_unnoticed`: C66 finding. If a module is first asked for as not required, then a product that it requires may be disabled, and the module is used without it, also if it is required by a later item.
* `C66_two_profiles`: C66 finding. A product cannot depend on the variants of another one for two profiles, because each profile is looked for together with each variant.
* `C66_false_condition`: C66 finding. A `Depends` item whose condition is false makes the resolving fail if there is no matching variant.
* `C66_loaded_twice`: C66 finding. A variant of a product is loaded twice if there is a dependency on it by name and one by type.
* `C66_by_type_dropped`: C66 finding. A dependency by type on a variant of a product is dropped without a message if there is one on the aggregator.
* `C66_internal_error`: C66 finding. A module that depends on a product by name and by type leads to an internal error, if the product that uses the module depends on that product as well.
* `C66_dot_twice`: C66 finding. A product with a dot in its name is loaded twice if there is a dependency on it by name and one by type.
* `C66_submodule_variant`: C66 finding. If a product with variants is asked for by a submodule, it is not found.
* `C66_profile_module`: C66 finding. Whether a profile may be given in a dependency on a module depends on what has been loaded before.
* `C66_no_end`: C66 finding. If a product exports a dependency on all products of a type, and a variant of it is of this type itself, then resolving the dependencies of what uses it does not end.
* `C129_equals`: C129 finding. A value ends at its first equals sign: the rest is lost, although nobody asked for a change of the entry.
* `C129_empty_section`: C129 finding. A section that directly follows the beginning of another one is not recognized: it becomes an entry of the first one, with the value `undefined`. (The regular expression remembers where the last match ended.)
* `C129_space`: C129 finding. Spaces in front of the equals sign become part of the key, although they mean nothing in desktop files: the user's value does not replace the entry but is written in addition.
* `C129_fragment`: C129 finding. A fragment without the main section cannot be merged: as there are default values, the command always fails.
* `C48_sibling_directory_removed`: C48 finding. The test for "inside the build directory" compares strings: for a path that is not inside, a sibling directory whose name only begins like the build directory's is removed.
* `C48_missing_directory_stops`: C48 finding. If the directory of an artifact is gone already, its parents are not looked at: an empty one stays. (This is why `C48_removes_all_empty` asks for `a.tail ∈ fs.dirs`.)
* `C35_waiting_process_leaves_directories`: C35 finding. With two processes, directories can be left behind: the second one started waiting when they existed, so it does not remember them, and creates them again after the first one has removed them (buildgraphlocker.cpp 106: in each attempt).
* `C39_insert_after_replacement`: C39 finding. After the replacement of a range by a text, an insertion at the start of this range is not reported as a conflict, and takes place *before* the text that precedes the range: its position is first moved behind the new text and then, because it is now greater than the range's, moved by the length of the range (changeset.cpp 256-259).
* `C39_insert_after_removal`: C39 finding. Insertions at both ends of a range that is removed before: the texts appear in the order of the calls, not in that of their positions.
* `C88_exponential`: C88 finding. The number of steps for sorting the modules is not bounded by the number of modules and dependencies: modules that have been sorted already are visited again. There are products with `2 * n + 2` modules, each with at most two dependencies, for which more than `2 ^ n` modules are visited.
* `C88_asking_changes_builds`: C88 finding. Asking for the build environment of a product on top of some environment makes later builds of the product use that environment instead of the project's: for every product whose scripts do not fail and do not give an empty environment.
* `C134_first_entry_lost`: C134 finding. If the first entry is empty, which stands for the current directory in `PATH`, it is lost when something is prepended, for all values and entries.
* `C134_no_separator`: C134 finding. Without a separator, which is the default, values are glued together.
* `C61_false_cycle`: C61 finding. Evaluations are told apart by the item that declares the property, not by the item that it is evaluated for. A property of a module in a Group that makes use of the same property in the product has a value, but there is an error about a cyclic dependency.
* `C61_order_dependent`: C61 finding. In the same project, whether the property can be evaluated depends on what has been evaluated before.
* `C61_failure_forgotten`: C61 finding. A property whose evaluation fails is undefined from then on: the second evaluation succeeds.
* `C61_failure_spreads`: C61 finding. After an error, other properties that are read by the same code are taken to be undefined, although there is nothing wrong with them: their right values are not found any more.
* `C61_override_remains`: C61 finding. That a list overrides the values from modules is recorded in the value for good: where the condition is false, the values from modules are missing if the property has been evaluated before where it is true.
* `C61_error_ignored`: C61 finding. In items that are placeholders for modules, as those in Groups are, a condition that cannot be evaluated is no error: the property is undefined, even if it is bound outside of Properties items.
* `C61_path_of_other_product`: C61 finding. Paths are resolved in the directory of the product at hand, but values are kept: a path of the project that has been read for one product is in the directory of this product for all others, too.
* `C60_var_lost`: C60 finding. A property of type `var` that is set in a Properties item only becomes an empty list if the condition is false. The default value from the module, which other scalar properties get, is lost.
* `C60_fallback_applies`: C60 finding. For lists, the fallback applies although the condition of another Properties item is true, if the value there is undefined.
* `C60_two_fallbacks`: C60 finding. Two fallbacks for the same property make the program fail with an internal error (value.cpp 175).
* `C123_specific`: C123 finding. The entry for a directory is never used if there is one for a directory above it, in whatever order they are given: the mapping for the directory above is used, for every file below.
* `C123_boundary`: C123 finding. Prefixes are not directories: the entry for `/opt` also changes `/optional`.
* `C123_empty`: C123 finding. An entry without prefix puts its replacement in front of every string, and disables all other entries.
* `C123_string_refers`: C123 finding. A string that refers to the importing product is exported nevertheless, if it is not in a list.
* `C123_untyped`: C123 finding. Lists that are not declared as lists of strings are exported as they are: no prefix is replaced in them, and nothing that refers to the importing product is removed.
* `C123_params`: C123 finding. The parameters given for a dependency in the Export item are lost. What is exported for every dependency instead are the default parameters for those that depend on the exporting product.
* `C123_params_lost`: C123 finding. So the parameters are not exported.
* `C05_epoch_findings`: C05, findings: a file modified before 1970 is valid but older than "no file at all", and a file modified in the first second of 1970 counts as non-existing.
* `C63_link_makes_writable`: C63 finding. Removing a link makes the file writable that it leads to, outside of the directory that is removed.
* `C63_install_root_is_link`: C63 finding. If the install root is a link to a directory, only the link is removed, and what was installed is kept, although removing the existing installation was asked for and succeeds.
* `C64_empty_directory`: C64 finding. An empty directory is not copied, and there is no error.
* `C64_missing_source`: C64 finding. Copying a file that does not exist succeeds if there is a file already at the target, and the documented error is not thrown.
* `C64_directory_in_the_way`: C64 finding. Copying a file to where there is a directory succeeds if the directory is newer, and nothing is copied.
* `C64_link_makes_writable`: C64 finding. Replacing a link makes the file writable that it leads to.
* `C65_same_path`: C65 finding. Moving a file to itself deletes it.
* `C65_missing_source`: C65 finding. If the source does not exist, the target is deleted before the error is noticed.
* `C65_refused`: C65 finding. If renaming is refused, the old target is lost.
* `C100_interrupt_lost`: C100 finding. `install` ends with exit code 0, having installed everything, although the user interrupted during the build and the frontend had noticed (commandlinefrontend.cpp 253-260 does not look at the cancel status).
* `C100_install_left`: C100 finding. If the user interrupts during the installation, the frontend ends while the installation is running: it is in none of the lists of jobs, so it is neither told to stop nor waited for (commandlinefrontend.cpp 92-111, 702-721).
* `C101_installs_anyway`: C101 finding. `run` starts the installation and then the program although the user interrupted while it was being built (commandlinefrontend.cpp 253-260).
* `C101_generates_anyway`: C101 finding. `generate` writes the project files although the build of one configuration has failed, if another one finishes after it (commandlinefrontend.cpp 261-263).
* `C102_jobs_of_another_profile`: C102 finding. A configuration is built with the number of jobs that the user prefers for the profile of another one: the one that happened to be resolved first (commandlinefrontend.cpp 470-479).
* `C25_source_roots_depend_on_history`: C25 finding. Whether a source file that has a tag of the product's type is among the roots depends on the history: not if it had the tag when it was added (`createArtifact` sets the tags before it sets the product, buildgraph.cpp:682-690), but if it got the tag by a later change of the project (`updateArtifactFromSourceArtifact`, buildgraph.cpp:700-712), although tags and products are the same.
* `C43_nul_breaks_names`: C43 (finding). With a NUL byte in the name, which `Id(const QByteArray &)` accepts, two different identifiers have the same name.
* `C94_no_base`: C94 finding. If a file named qbs.qbs is in the directory of a project file, or in a search path, the types that come with qbs, such as CppApplication, are not known there: `qbs` is a type already, and nothing is imported for it.
* `C94_no_name`: C94 finding. `import Lib as L` is accepted if there is a type Lib, and does nothing: there is no type named L, and nothing in it.
* `C94_order_matters`: C94 finding. The order of imports matters: with `import "x.qbs" as Foo` before `import Foo as L`, the types in the directory Foo are not there, in the other order they are.
* `C51_unclean_search_path`: C51 finding. Search paths given by a `Scanner` item are not cleaned: an artifact in a search path spelled with "./" is not recognized, whatever path resolution and cleaning do. If the file is there already, it becomes a mere file dependency, so that nothing waits for it to be rebuilt; if it is not, nothing is found.
* `C51_file_in_root_directory`: C51 finding. A file in the root directory given by its absolute path is taken for a relative name: it is not found, or another file of that name in a search path is taken for it.
* `C51_moved_header_lost`: C51 finding. Whether an include in quotes is meant relative to the including file is decided when that file is scanned, and remembered with the result. If the header moves from the directory of the source to one of the include paths, the unchanged source is not scanned again and the dependency is lost: the object is compiled once more, but later changes of the header go unnoticed. A fresh scan finds it.
* `C51_shadowing_header_missed`: C51 finding. For the same reason, a header that is added beside the source and takes precedence over one in an include path is not noticed: the dependencies remain those of before, so the object is not even compiled again.
* `C51_new_artifact_not_found`: C51 finding. That a name could not be resolved is remembered for the whole build: an artifact created by a rule later in that build is not found, although it would be without the cache.
* `C51_deleted_artifact_found`: C51 finding. An artifact that was found stays in the cache when it is removed and deleted later in the build: then an object is made to depend on an artifact that does not exist any more.
* `C51_input_disconnected`: C51 finding. Before scanning, all children that a scanner had added are removed, even those that have become children for another reason in the meantime: if the input 1 had been found by a scanner before it became an input and is not included any more, the object does not depend on its own input afterwards.
* `C51_unbuilt_not_followed`: C51 finding. A generated header that is not built yet is not followed: what it includes does not become a dependency, even if the header is on disk already.
* `C51_cycle_dropped`: C51 finding. A dependency that would close a cycle is left out without notice.
* `C30_sibling_directory`: C30 finding. The test whether the target is inside the install root compares strings: a directory next to the install root whose name only begins like it passes.
* `C30_no_test_with_source_base`: C30 finding. With `installSourceBase` there is no test at all: the file is installed outside of the install root.
* `C30_source_base_cuts_names`: C30 finding. Whether a file is below `installSourceBase` is also decided by comparing strings: a file of another directory is accepted and its path cut in the middle of a name.
* `C30_no_root_no_test`: C30 finding. Without an install root there is no test either: the artifact's own root is used, but what the target is compared to is the empty string.
* `C30_older_source_not_installed`: C30 finding. A source that is older than what is installed is not installed, although it is another file (for instance an artifact of another configuration, or one restored from a backup): the installation succeeds and the old content stays.
* `C30_missing_source_accepted`: C30 finding. If the source does not exist, but something is installed already, the installation succeeds without having installed it.
* `C30_dry_run_misses_conflicts`: C30 finding. A dry run does not find conflicts.
* `C30_configured_root_removed`: C30 finding. If the install root is that of the project's configuration, it is not tested before it is removed: all of the home directory is removed.
* `C30_build_removes_home`: C30 finding. When a build installs, the constructor is not told that the existing installation is to be removed, so it does not refuse to remove the home directory.
* `C132_relative_base`: C132 finding. A relative base directory, which the installer takes as relative to the directory of the product, is refused by the function.
* `C132_unclean_base`: C132 finding. So is a base directory that is absolute but is not written in the shortest way.
* `C132_different_cut`: C132 finding. A file in a directory whose name only begins like that of the base directory is accepted by both, but they cut the path at different positions, and the function gives a path where nothing is installed.
* `C132_outside`: C132 finding. The function does not refuse a directory outside of the install root, as the installer does.
* `C124_second_function`: C124 finding. In the second function expression of a file and all later ones, local variables are taken for variables of the file. Importing fails then, because there are no such variables.
* `C124_global`: C124 finding. A local variable of the second function expression that has the name of a global object makes the file provide that object.
* `C124_block_constant`: C124 finding. A file with a constant in a block cannot be imported.
* `C124_not_declared`: C124 finding. So the full statement is false.
* `C125_circle`: C125 finding. If a file requires itself, importing it never ends.
* `C125_caught`: C125 finding. After an error in a required file was caught, paths are taken relative to the directory of the file with the error: here the wrong file is imported.
* `C125_not_required`: C125 finding. So the full statement is false.
* `C138_later_setting`: C138 finding. A line `%option` can have several settings, but only the first one is read: with `%option noyywrap outfile="scanner.c"`, the rule declares `lex.yy.c`, and lex writes `scanner.c`.
* `C138_absolute`: C138 finding. An absolute path in `lexOutputFilePath` is declared below the output directory, but lex writes the file with that path.
* `C138_prefix_lost`: C138 finding. If `lexOutputFilePath` is set, `uniqueSymbolPrefix` has no effect on the symbols, although its documentation does not say so.
* `C112_reads_behind_end`: C112 finding. If a project file ends with a backslash in a string literal, or with `\0` in one, then the lexer reads behind the end of the text (qmljslexer.cpp 588-589, 660-663, 632).
* `C112_nul`: C112 finding. A NUL character in a project file ends it: everything behind it is ignored, without an error.
* `C112_open_comment`: C112 finding. A comment without an end is not an error of the lexer: it is the operator `/`, whose text is the rest of the file.
* `C112_inserted_place`: C112 finding. The semicolon that is inserted after `return` stands in the first line, but has the number of the line after it, and column 0.
* `C112_newline_in_comment`: C112 finding. A comment with a newline in it counts as a newline in ECMA-262 (7.4), so that `return` ends before it. The lexer inserts no semicolon.
* `C112_increment`: C112 finding. Before `++` and `--` at the beginning of a line a semicolon is inserted even if the statement is not complete. So `a =`, `++b` on two lines, which is an assignment in ECMA-262, is read as `a = ; ++b`.
* `C113_zero`: C113 finding. Whether `\0` is a NUL character is decided by the second character after it (`_codePtr[1]`, qmljslexer.cpp 632) instead of the first one. So `"\0a1"` is not read as NUL, `a`, `1`.
* `C113_continuation`: C113 finding. A backslash at the end of a line continues the string in the next line without a newline in ECMA-262. The lexer keeps the newline.
* `C113_upper_x`: C113 finding. `\X` is no escape sequence for a character code in ECMA-262, but the lexer takes it for one.
* `C113_doubled`: C113 finding. If the hexadecimal digits of an escape sequence are missing, there is no error, and the letter appears twice in the string.
* `C105_rpath_link`: C105: the directories for finding the dependencies of dynamic libraries are those of the dynamic libraries below the ones that are linked against, without those that are linked against themselves.
* `C105_whole_archive_lost`: C105 finding. A product wants a static library to be linked as a whole. That is ignored if it also depends on another library that needs this one and comes first.
* `C105_object_library_order`: C105 finding. Whether the files of an object library that the product depends on are linked in depends on the order, if a static library uses it, too.
* `C105_inherited_name`: C105 finding. A library with the name of a property that every JavaScript object has is not linked in.
* `C105_variant_ignored`: C105 finding. Of two variants of a library, both of which the product depends on, the second one is ignored.
* `C105_external_library_of_product`: C105 finding. If a static library is also given as an external one, it comes after a library that it needs.
* `C105_exponential`: C105 finding. Below a dynamic library, static libraries are visited as often as there are ways to them: with `2 * n` of them at least `2 ^ n` times.
* `C38_line_end`: C38 finding. Ends of lines are not escaped: the literal of such a string is not an expression.
* `C38_double_is_string`: C38 finding. Floating point numbers turn into strings (jsliterals.cpp 113-129: `QMetaType::Double` is not listed, but it can be converted to a string).
* `C38_large_integer`: C38 finding. Integers with more than 53 bits change.
* `C38_proto_lost`: C38 finding. A map's entry with the key `__proto__` is lost: the object has no keys.
* `C38_unconvertible`: C38 finding. For types without conversion to a string the result is not JavaScript.
* `C115_first_line`: C115 finding. In the first line a text is inserted one character too far to the right.
* `C115_one_line`: C115 finding. What is typed at the end of a text of one line is lost; in particular the first thing that is typed into an empty file.
* `C115_first_line_joined`: C115 finding. If the first line is joined with a later one, one character too few is removed.
* `C115_up_to_date_first`: C115 finding. In the first line one character more is compared: the end of a file of one line is never up to date, although nothing has changed.
* `C116_notification`: C116 finding. A notification that the server does not know (such as `$/cancelRequest` or `$/setTrace`) is answered with an error, which no notification may be.
* `C116_initialized_twice`: C116 finding. The notification `initialized` is answered with an error as well, if it comes a second time.
* `C116_shutdown_first`: C116 finding. `shutdown` is accepted from a client that has not sent `initialize`, and such a server cannot be initialized any more.
* `C116_half_applied`: C116 finding. If a range of a change is not valid, the changes before it stay in effect and those behind it are dropped.
* `C114_split_header`: C114 finding. If a write replaces what is behind the position of the buffer, a message whose header arrives in two pieces is lost.
* `C114_busy`: C114 finding. In this case a message is also lost if the next one arrives while one that came together with it is handled.
* `C114_spurious_error`: C114 finding. An error is reported for a correct message if a piece ends before the number.
* `C114_spurious_charset`: C114 finding. The same for a content type that has not arrived completely.
* `C114_unknown_charset`: C114 finding. After a content type with an unknown charset the message is only handled when more bytes arrive, although all of it is there.
* `C114_bad_length`: C114 finding. A length that is not a number counts as 0: an empty message is handled.
* `C114_no_length`: C114 finding. After a header without a length the messages that came with it are not handled until more bytes arrive.
* `C115_beyond_line`: C115 finding. A position behind the end of its line is not the end of this line, as the protocol demands, but a place in one of the next lines.
* `C116_change_answered`: C116 finding. A notification about a range that does not exist is answered with an error.
* `C117_first_line`: C117 finding. In the first line the character behind the cursor is taken for the last one that was typed: at the end of the text nothing is offered, and before a word something else.
* `C117_submodule`: C117 finding. If a module has the name before the last dot, the modules below it are not offered.
* `C103_reference`: C103 finding. An argument that contains the text `$(SRCDIR)` is changed: the dollar sign is written once, and make puts the source directory in its place.
* `C103_line_break`: C103 finding. A line break in an argument, for example in a script given to `sh -c`, ends the command: the rest is a line of the Makefile.
* `C103_prefix`: C103 finding. A program whose name begins with a dash, a plus or an at sign: make takes this character away.
* `C103_where`: C103 finding. The working directory and the environment of a command are lost.
* `C103_js`: C103 finding. JavaScript commands are left out, although files may depend on them: make comes to the end of the rule, and the file is not there.
* `C103_clean_other_files`: C103 finding. Directories of files are not quoted in the commands that make directories, install and remove files. To clean up, `make` would remove the two files `/b/My` and `App.app/x` instead of `/b/My App.app/x`.
* `C103_quote_in_directory`: C103 finding. A quote in the source directory breaks the quoting of the arguments in which the variable has taken its place.
* `C103_dollar_in_name`: C103 finding. Dollar signs in the names of files are not doubled in targets and prerequisites.
* `C103_not_installed`: C103 finding. Files that go to a directory with a space in its name are not installed.
* `C104_same_target`: C104 finding. Two products can have the same target: making one then also makes the other, and there are two recipes for the same targets of installation and cleaning, of which make only takes the last.
* `C104_same_target_configuration`: C104 finding. The same for a product in a certain configuration and another one that has this in its name.
* `C104_product_clean`: C104 finding. A product with the name `clean` is built when cleaning up.
* `C44_order_matters`: C44 finding. If the value chosen while merging loses its priority (the module turns out to be further away) and two others have the highest one then, the result depends on the order in which they were merged: the names are not compared (modulepropertymerger.cpp 231-245).
* `C44_shared_boolean`: C44 finding. All constants `true` are one object (value.cpp 244, 269-273), whose flags are set by `markAsSetByProfile` and `markAsSetByCommandLine`. So if any boolean property was set on the command line, a value from the profile that is the same boolean counts as set on the command line: what the product sets for this property has no effect.
* `C120_finding_include_removed`: C120 finding. When the include directive for generated code is removed from a source file, the code is neither included nor compiled afterwards: the rule for headers does not run. (The test for this in tests/auto/blackbox/tst_blackboxqt.cpp 207-236 is marked as an expected failure.) Touching the header helps, as `C120_touched_partial` says.
* `C120_finding_include_added`: C120 finding. And when such a directive is added, the code is included and also compiled on its own.
* `C120_finding_combined`: C120 finding. If the product combines its C++ sources, the result depends on which of the two rules is applied first: the rule for headers does not ask for the results of scanning combined sources (core.qbs 380). If it comes first, the generated code is included and also compiled.
* `C120_finding_unmocable_source`: C120 finding. The same for a source file that is itself kept away from `moc`: it is not scanned for the rule, so the code that it includes is also compiled.
* `C120_finding_retag`: C120 finding. Giving the tag "mocable" to a file that was scanned before has no effect, and neither has taking it away: the results of the scanner are kept for the path.
* `C120_finding_substring`: C120 finding. A source file with `Q_OBJECT` gets nothing if some other tag of it merely contains the letters "hpp": the scanner searches in the joined tags.
* `C120_finding_not_combined`: C120 finding. If the product combines its C++ sources, a file that is excluded from this by the tag "cpp" gets nothing from `moc`, though it contains `Q_OBJECT` (core.qbs 367-369).
* `C81_dotted_name`: C81 finding. A product whose name has a dot cannot be addressed: although it exists and has the property, there is an error about an unknown product, namely the part of the name before the dot. The code means to avoid this, but it asks only products with exactly that name.
* `C81_ambiguous_key`: C81 finding. A value for a property of a product whose name has a dot also goes to the module of that name in another product.
* `C81_unknown_module_ignored`: C81 finding. While unknown products, projects and properties are reported, a value for a module that no product has is ignored without a word, even in strict mode.
* `C81_no_property_ignored`: C81 finding. So is a key that has the name of a product or of a module, but no property.
* `C81_path_list`: C81 finding. A list of paths cannot be given like a list of strings: the whole text becomes one path.
* `C81_rename`: C81 finding. The name of a product cannot be overridden: the override itself is then said to be for an unknown product.
* `C81_rename_modules`: C81 finding. In relaxed mode, where a product does get another name, the values for its modules are not found under the name that was used to change it.
* `C82_final_stale`: C82 finding. If the profile has changed when the build configuration is expanded again, the build configuration and its tree are new, but the final build configuration is still the old one.
* `C82_undotted_lost`: C82 finding. A key without a dot is lost if there is another one that starts with it and a dot.
* `C70_false_conflict`: C70 finding. A single `Depends` item sets a parameter that also has a default. Another module, equally far away from the product, sets a different parameter. This is reported as a conflict, or not, depending on the order of the items: the value is compared with the default, which has a lower priority.
* `C70_overridden_conflict`: C70 finding. Two modules disagree about a parameter, but one that is closer to the product sets it. The conflict is still reported if that one is not the first to be looked at among those of its distance.
* `C70_value_and_group`: C70 finding. A value and a group of parameters of the same name and the same priority are a conflict in one order, and in the other one the value is dropped without an error.
* `C70_undefined`: C70 finding. A value and an undefined one of the same priority are a conflict in one order, and none in the other one.
* `C130_selector_suffixes`: C130 finding. The suffixes of the probe are not used for selectors that are strings or lists, although they are used for dictionaries: a program that is found by name is not found by a selector with the same name.
* `C130_relative`: C130 finding. An empty element of a variable such as PATH makes the probe look in the current directory of the process; the path of the file that is found is not a full path but only the name.
* `C130_no_subdirectory`: C130 finding. Files directly in a directory are found, and even preferred, if sub-directories are given, although the file should then be in one of these.
* `C73_equal_ignored`: C73 finding. A requirement "= 2.0" is not checked at all: it becomes a property that nothing reads.
* `C73_not_equal_refuses`: C73 finding. A requirement "!= 2.0" cannot be met by any version: it becomes a range whose beginning is behind its end.
* `C73_not_checked`: C73 finding. Hence what is required is not what is checked.
* `C72_no_boundary`: C72 finding. The sysroot is not put in front of a path that begins with the same characters without being below it.
* `C72_two_arguments`: C72 finding. An option in two arguments, which compilers understand, becomes an empty path and another flag.
* `C72_same_path`: C72 finding. The paths of system libraries are removed before the sysroot is put in front of them, and only if they are written in exactly the same way.
* `C72_last_directory`: C72 finding. Of two packages with the same name, scripts see the last one. If sorting leaves them in the order in which they were found, then that is the one in the directory that is searched last: extra paths do not come first. The C++ function gets the other one.
* `C72_sorting_matters`: C72 finding. And which one it is depends on how the packages are sorted.
* `C73_other_versions`: C73 finding. Versions with letters or more than three numbers count as 0: a package with version 1.1.1f is not accepted by one that requires at least 1.1. If they are what is required, then at least 1.1.1f allows everything, at most 1.1.1f nothing but 0, and more than 9.9.9f everything from 0.0.1.
* `C73_less_than_zero`: C73 finding. A requirement "< 0" allows everything.
* `C71_empty_argument`: C71 finding. An empty argument in quotes is lost, so that an option takes the wrong one.
* `C71_open_quote`: C71 finding. Quotes that are not closed are not an error.
* `C71_last_comma`: C71 finding. Commas count as white space at the beginning of a list of packages and inside of it, but at the end of it they are an error.
* `C71_blanks`: C71 finding. White space is needed around operators: "a >=1" is an unknown operator, and "a>=1" is the name of a package.
* `C71_empty_field_twice`: C71 finding. A field may be there twice if the first one is empty.
* `C71_same_environment_variable`: C71 finding. One variable in the environment stands for variables of different packages, or for different variables of one.
* `C71_dollar_in_prefix`: C71 finding. A new prefix is taken for text with variables: if the file is in /opt/a$$b, then the values that begin with the old prefix end up in another directory.
* `C71_empty_prefix`: C71 finding. With an empty prefix, every absolute path is one below the new prefix.
* `C71_directory_with_suffix`: C71 finding. So is one in a directory that only begins with "pkgconfig".
* `C71_slash_after_prefix`: C71 finding. An old prefix with a slash at the end is never replaced, although a value begins with it.
* `C126_single_quote`: C126 finding. Single quotes get a backslash, which is not removed by the reader.
* `C126_backslash`: C126 finding. Backslashes get lost, and in values with blanks there are two afterwards.
* `C126_dollar`: C126 finding. Two dollar signs become one, and a file with a value that looks like a variable cannot be read.
* `C126_number_sign`: C126 finding. A number sign hides everything behind it in the same entry.
* `C126_tab`: C126 finding. A value is split at a tab, because it is not quoted.
* `C126_driver_flags`: C126 finding. Driver flags are quoted for the linker flags, in the exported list itself, and then once more for the compiler flags: there, the quotes become part of the value.
* `C69_first_item`: C69 finding. If a module has two `Depends` items for the same module, only the first one is looked at: the module "m" is present although "b", which it requires, is not.
* `C69_type_required`: C69 finding. What a module asks for by product type counts as required, even if the module itself is not required: an error in such a product, which nothing else needs, is an error of the product that would merely like to have the module.
* `C69_second_profile`: C69 finding. If a module requires a product for two profiles, and the product had both before, then only the first one is looked at: the module "m" is present although the library for "B", which it requires, is not.
* `C75_crash_is_success`: C75 finding. That a process has crashed is ignored: a command whose process is killed by a signal is successful if the number of the signal is not greater than the maximal exit code (qbsprocess.cpp 172-182 reads neither the error nor the exit status, launchersockethandler.cpp 195-198 sends both).
* `C75_negative_max`: C75 finding. With a negative maximal exit code, every exit code is accepted: both numbers are compared as unsigned ones (processcommandexecutor.cpp 315-316).
* `C75_error_stays`: C75 finding. An executor does not recover from a command whose program could not be started: the error stays (`m_error` in qbsprocess.cpp is never reset), so with "keep going" the next command of the same executor is reported as failed although its process has exited with 0.
* `C75_timeout_stays`: C75 finding. Nor does it recover from a timeout: the next command of the same executor, which has no timeout, is reported as one whose time was up (`m_cancelReason` is only set in processcommandexecutor.cpp 202-209).
* `C75_hangs`: C75 finding. A command whose time is up never ends if its process could not be started, or the launcher is lost, or was not there yet: the error is ignored, because the end of the process is waited for (processcommandexecutor.cpp 341-342). Nothing that happens later, not even canceling the build, ends it.
* `C75_hangs_later`: C75 finding. After a timeout the executor is such that also a later command without a timeout never ends if its program cannot be started.
* `C75_late_report`: C75 finding. A process that exits in time, with an accepted exit code, is reported as one whose time was up if the report is put off, because a rule is just being applied, until after the timeout (processcommandexecutor.cpp 371-376; the timer is only stopped by the report).
* `C75_response_file_left`: C75 finding. The response file of a command stays behind if a file it is to include cannot be opened (processcommandexecutor.cpp 171-178 returns before the name is noted).
* `C40_keys_of_overridden_profile_missing`: C40 (finding). If a profile is defined in the project as well as in the settings, `value` finds the keys from the settings but `allKeys` does not list them.
* `C137_sibling`: C137 finding. An import path whose last name is the beginning of the name of a directory beside it is taken for a parent of that directory. For inputs in there, and with the common parent as second import path, the rule declares a file outside of the output directory, and protoc writes another one.
* `C137_dotted`: C137 finding. For inputs with further dots in their names, such as `api.v1.proto`, the rule declares a file that is named after the part before the first dot, and protoc writes another one. Two such inputs can have the same declared file.
* `C137_missing`: C137 finding. If a directory in `importPaths` does not exist, the rule fails for all inputs for which no earlier one matches, while protoc ignores that directory and writes the file.
* `C98_search_paths`: C98 finding. A product that has no such provider in its search paths gets what the provider gave to another product, and if it comes first, the other product is told that its provider is unknown, although it has one: the search paths are not part of what results are remembered under (moduleproviderloader.cpp 149-188). Hence the same project resolves or not depending on which of two products comes first.
* `C98_stale`: C98 finding. In the next session, a request is answered from the stored results, although the file of the provider has changed since, until the user asks for probes and providers to be run again (buildgraphloader.cpp 364-365).
* `C99_dry_removes`: C99 finding. A dry run that runs a provider removes, with what the provider has made, also what it had made earlier for another configuration, which the stored build graph refers to (language.cpp 685-703: the directory that is removed is that of the provider's name, without the hash of the configuration).
* `C99_dangling`: C99 finding. The next real session with the first configuration does not run the provider again: it uses search paths in a directory that is gone.
* `C92_first_declaration`: C92 finding. If several items of the chain declare a property, the declaration of the one that is the farthest away counts, and that of the built-in type before all: `property stringList x` in a derived item does not change anything if the base item has `property string x`.
* `C92_readonly_lost`: C92 finding. A base item declares a read-only property, and an item derived from it sets it: this is accepted if the base item of the base item has declared the property, too.
* `C92_readonly_builtin`: C92 finding. An item of a built-in type can set the read-only properties of this type: `Product { multiplexed: true }` is accepted, `CppApplication { multiplexed: true }` is not.
* `C92_order`: C92 finding. `x: 1` followed by `property var x` is accepted, and the value is lost; the other way round, it is an error.
* `C92_hidden`: C92 finding. A derived item sets `cpp`, the base item has set `cpp.a`: this is accepted, and the value of the base item is lost. If the derived item sets `cpp.a` and the base item has set `cpp`, it is an error.
* `C28_failed_application_forgets_check`: C28 finding. The check of what a prepare script read is forgotten as soon as it has been made. If the application then fails for another input, and its cause is repaired, the rule is skipped although its commands come from outdated values.
* `C28_failed_script_leaves_output_without_commands`: C28 finding. If a prepare script fails when its rule is applied again, its output exists without commands. The next time, in a world where the script would work, the rule is skipped and nothing makes the output.
* `C28_scanned_input_hides_rerun`: C28 finding. For each input only the first output that depends on it is considered, in whatever way it depends on it. Here output 12, made from input 2, has input 1 as scanned dependency: the script is run for input 1 instead of input 2, and the output of input 2 keeps its outdated commands.
* `C28_explicit_dependency_ignored_without_inputs`: C28 finding. A rule without inputs ignores that its explicit dependencies have changed.
* `C28_stale_output_without_inputs`: C28 finding. A rule without inputs never removes an output that it no longer makes.
* `C28_stale_output_after_replacing_inputs`: C28 finding. A multiplex rule all of whose inputs were replaced keeps the outputs made from the old ones.
* `C28_removed_explicit_dependency_asserts`: C28 finding. An input that is removed while it is an explicit dependency of the rule makes an assertion fail.
* `C28_change_during_application_missed`: C28 finding. The time of the application is taken at its end: an input that changes in between is not noticed. Here the script reads input 1, which changes at time 4, before the end at time 5.
* `C28_stale_output_after_failure`: C28 finding. An output that was created before an error, from an input that was new, stays when that input is gone the next time.
* `C34_wrong_path_recorded`: C34 finding. When a generated former child is removed because it does not exist anymore, the path that is recorded as removed is the one of the artifact, not of the removed file, so directories that become empty by this stay.
* `C27_installable_not_connected`: C27 finding. The tag "installable" is added to outputs that are to be installed, but no rule is taken to produce it: a rule with such inputs is not connected to the rules of its own product that produce them.
* `C27_tags_by_name_not_connected`: C27 finding. Outputs without declared tags get those for their file names; no rule is taken to produce them either.
* `C27_excluded_not_connected`: C27 finding. A rule that can produce an excluded tag besides one that is taken is not connected, although its outputs without the excluded tag are taken.
* `C27_exponential`: C27 finding. The traversal follows every way through the graph, even twice if a rule takes two tags of another one: the number of visits is exponential in the number of rules (here `n + 1`).
* `C32_module_suffix_of_other_product`: C32 finding. A C++ source is scanned for two products that are built by different compilers. The second one gets the file name of the compiled module the first compiler would write: plugins' results are taken to be independent of properties (depscanner.cpp 143-153), but that of the C++ scanner depends on `cpp.compiledModuleSuffix` (cppscannerplugin.cpp 80, 107).
* `C32_local_header_added`: C32 finding. A header is added next to a source that includes it with quotes; up to now another header of that name was found by the search paths. The source is not scanned again, so the file that the compiler will use is not found by its dependencies (cppscannerplugin.cpp 90-94: existence of files is a part of the result).
* `C32_scanner_id_of_other_product`: C32 finding. Two products have scanners of their own with the same explicit `scannerId` (checked for duplicates within one product only, productresolver.cpp 1199-1208) and different scan scripts. The second one gets the results of the first one's script.
* `C32_result_of_other_product`: C32 finding. The result of a scan script that uses its product is used for another product with the same properties.
* `C32_older_file_not_scanned`: C32 finding. A file that is replaced by another one with an older time stamp is not scanned again: the condition on times in `Timed` is needed.
* `C52_cancel_never_noticed`: C52 finding. If the user cancels when the threads have just been started, each of them throws an exception that is not caught where the others are, so that nobody notifies the scheduler: it waits forever.
* `C52_cancel_deadlock`: C52 finding. Scheduler and threads take the two mutexes in different orders: canceling can end in a deadlock.
* `C52_cycle_resolved_twice`: C52 finding. If two products depend on each other (and errors are not fatal, as in relaxed mode), both are resolved twice: the table of the products that wait is not cleared when the cycle is broken up.
* `C52_cycle_wrong_product`: C52 finding. An error about cyclic dependencies is reported for a product that is on no cycle.
* `C52_outcome_depends_on_timing`: C52 finding. A project without any cycle, not even one that takes dependencies by type into account: depending on timing, there is an error that a product and another one that wants its type depend on each other, or the dependency gets lost without any error.
* `C52_bulk_order`: C52 finding. If two products want all products of a common type and are of that type themselves, no error is reported; which one depends on the other one is decided by the order in which they are handled.
* `C01_range_ctor_not_a_set`: C01, finding: `Set(first, last)` (set.h:176-183, used by `rangeTo<Set<..>>`) keeps duplicates, so the result is not a set: it has two elements instead of one, differs from the set with the same members, and still contains the element after `remove`.
* `C41_key_listed_twice`: C41 (finding). Duplicates are removed before the keys are translated, so a key written with a dot by hand into one of the files is listed twice.
* `C41_innocent_profile_rejected`: C41 (finding). Only the profile named `none` is meant to be protected, but writing to any profile whose name begins with "none" is rejected.
* `C119_finding_value_lost`: C119 finding. If a key has both a value and keys below it, the value is not shown, and is lost when anything is saved.
* `C119_finding_dots`: C119 finding. A name with a dot in it is accepted, although it stands for the same key as another node: two values are shown and one of them is lost.
* `C119_finding_last_child`: C119 finding. Removing the last property of a profile leaves a value under the name of the profile.
* `C119_finding_none`: C119 finding. The special profile name `none`, which `Settings::setValue` refuses, can be stored: the keys that are written begin with a dot, and the check of new names is avoided by a name with a dot or by renaming the parent.
* `C119_finding_nonesuch`: C119 finding. `Settings::setValue` refuses every profile whose name only begins with `none`.
* `C119_finding_add_below`: C119 finding. Adding a key below a key with a value removes that value.
* `C119_finding_additional`: C119 finding. The additional properties, which are shown as not being from the settings, are stored with the settings as soon as anything is saved.
* `C119_finding_empty_additional`: C119 finding. An additional property without a name makes the program access an empty list.
* `C135_own_so_version`: C135 finding. If `cpp.soVersion` is set to something else, as for libraries whose binary interface has its own version, there is no file with the soname: programs that were linked to the library cannot be started.
* `C135_so_version_only`: C135 finding. The same without a version of the product.
* `C135_link_replaces_library`: C135 finding. If `cpp.internalVersion` is set to a version with fewer parts, which the code that creates links expects, a link has the name of the library and replaces it, and nothing can be opened.
* `C135_any_separator`: C135 finding. The dot in the expression for versions matches any character: a date gets into the names as a whole, instead of its first number.
* `C53_canonical_path_forgotten`: C53 finding. A change of what `File.canonicalFilePath()` returns is not noticed.
* `C53_new_module_forgotten`: C53 finding. A file that appears in a directory where the loader looks for modules, imports or referenced projects is not noticed.
* `C53_text_file_forgotten`: C53 finding. A change of a file that a script has read is not noticed.
* `C53_older_file_missed`: C53 finding. A project file that is replaced by an older one is not noticed.
* `C53_vanished_source_missed`: C53 finding. A source file that vanishes is not noticed, although resolving from scratch would fail or warn.
* `C53_change_while_resolving_missed`: C53 finding. If the answer to a question changes while the project is being resolved, and the question is asked again, what was made of the first answer stays.
* `C53_probe_not_run_again`: C53 finding. If a file appears that a probe has asked for, this is noticed, and the project is resolved again, but the probe is not run, and then the file is forgotten: the project stays as it was.
* `C53_probe_questions_forgotten`: C53 finding. If a project is resolved again for another reason, what its probes asked for is forgotten, as they are not run: later changes are not noticed any more.
* `C53_import_modified_while_probing`: C53 finding. A probe that imports a file that is modified before the probe ends is taken to have seen the new file: the project is resolved again, but the probe is not run.
* `C118_finding_wildcards`: C118 finding. The built-in wildcards for project files, makefiles, libraries and object files ignore nothing: a star stands for characters other than a slash, and the expressions are applied to whole absolute paths.
* `C118_finding_relative_line`: C118 finding. A line of `.qbsignore` that does not begin with a slash, such as the name of a file or a directory, ignores nothing: it would have to match a whole absolute path.
* `C118_finding_plus`: C118 finding. The path of the project is put into a regular expression as it is: if it has a plus sign in it, the files in the build directory are reported as untracked.
* `C118_finding_builder`: C118 finding. The pattern for the build directories has no end: an untracked source file `builder.cpp` next to the project file is not reported.
* `C118_finding_outside`: C118 finding. A file outside the project directory is printed with the start of its path cut off, whatever that start is: two files have the same name in the report.
* `C118_finding_reported`: C118 finding. Project files, makefiles and object files are meant to be ignored but are reported as untracked.
* `C46_duplicates_hide_partial_build`: C46 finding. A requested product that is also a dependency of another one is listed twice. The list can so become as long as that of all products although one is missing, and the build is not taken for a partial one: nodes of products that are neither requested nor needed are considered.
* `C46_effort_counted_twice`: C46 finding. The same duplicates make the announced effort too large: the rules of a product are counted twice.
* `C46_exponential`: C46 finding. Dependencies that were collected already are collected again, with all of their own: the number of calls is exponential in the number of products (here `2 * n + 1` of them).
* `C136_nm_fails`: C136 finding. If `nm` fails, the file is left as it is: after a build with other symbols the users of the library are not linked again. If it fails in the first build, there is no symbol file at all, although it is an output of the rule.
* `C136_size`: C136 finding. The sizes of symbols are not compared, in no mode: when an exported variable becomes larger, the executables that have a copy of it, made by the linker, are not linked again.
* `C96_filter_children`: C96 finding. Everything inside a group with `fileTagsFilter` is ignored without a word: files, file taggers and properties (productresolver.cpp 774-804, the return before the children are looked at).
* `C96_filter_children_lost`: C96 finding. The file of a group inside a group with `fileTagsFilter` is no source file of the product, and there is no error.
* `C96_properties_internal`: C96 finding. A group whose `files` are set only in a `Properties` item ends in an internal error: whether the list of files is created depends on the line number of the value of `files`, which then is that of the default value (productresolver.cpp 826-829 and 923; values from `Properties` items are alternatives of it, astpropertiesitemhandler.cpp 219-232).
* `C96_override_twice`: C96 finding. A file is listed twice and no error is reported, if the value of `files` comes from the command line: it has no location, and an invalid location counts as "not there yet" (productresolver.cpp 911-922).
* `C96_exclude_listed`: C96 finding. `excludeFiles` has no effect on files that are listed by name, only on those from wildcards; the documentation says that the files are subtracted from `files` (productresolver.cpp 832-848).
* `C95_tagger_on_tagged`: C95 finding. File taggers are applied to files with explicit `fileTags` if `overrideTags` is false; the documentation of `Group.fileTags` says that this never happens (productresolver.cpp 1293-1297).
* `C95_tagger_in_group`: C95 finding. A file tagger inside a group is not restricted to the files of this group.
* `C97_wiped`: C97 finding. A group with `fileTagsFilter` that only adds file tags takes all module properties away from the source files it matches: the result of the evaluation is empty if the group sets none, and it is used in any case (productresolver.cpp 952-953, 1308-1317).
* `C97_product_changed`: C97 finding. A group with a filter that sets no module property shares the map of the product, and a second one with the same filter, in another file, then changes this map: the properties of the second group apply to files that have none of the tags (productresolver.cpp 742-760, 788-795).
* `C97_generated_first`: C97 finding. Only the first group with a matching filter counts for a generated file, while all count for source files (buildgraph.cpp 731-737, the `break`).
* `C97_order_of_filter`: C97 finding. Two groups with the same filter in one file are an error, but not if the tags are in a different order (productresolver.cpp 785-794: the key is the list as written).
* `C128_last_line`: C128 finding. A file whose last line does not end with a newline is not copied: a newline is added, whatever the file is. A text without a newline at the end cannot be produced, except for the empty one.
* `C128_inherited`: C128 finding. A placeholder that the dictionary does not define but all objects have is not reported: its value is text that nobody wrote. (`toString` and `constructor` are names of this kind.)
* `C122_finding_write_errors`: C122 finding. Writing text never reports an error, not even if the file was opened for reading only or the disk is full.
* `C122_finding_codec`: C122 finding. The constructor accepts every name of a codec; what it does not know it takes for UTF-8.
* `C122_finding_read_writeonly`: C122 finding. Reading from a file that was opened for writing only gives an empty text or no bytes instead of an error.
* `C122_finding_bom`: C122 finding. A byte order mark at the start of a line does not come back.
* `C122_finding_cr`: C122 finding. A carriage return at the end of a line does not come back.
* `C122_finding_cr_all`: C122 finding. Reading everything at once drops carriage returns everywhere; reading the same file by lines does not.
* `C122_finding_utf16_pieces`: C122 finding. With UTF-16, text that is written in two pieces has a byte order mark in the middle.
* `C122_finding_utf16_lines`: C122 finding. With UTF-16, the end of a line is one byte, so that what follows is shifted by one byte: two lines that are written one after the other make a file that is not UTF-16.
* `C122_finding_utf16_read`: C122 finding. With UTF-16, a proper file of two lines is not read as two lines.
* `C122_finding_disk_full`: C122 finding. If the disk gets full, writing a binary file and closing it work as usual, but the file is cut off.
* `C80_emscripten`: C80 finding. Emscripten is a special case of gcc, but the list of toolchains has gcc first.
* `C111_some_products`: C111 finding. Naming only some of the products marks the *other* ones as out of date: everything is up to date (a build would do nothing), `qbs update-timestamps -p` is called for the library, and now the next build links the program, because its input has become newer than it.
* `C111_interrupted`: C111 finding. A build that was interrupted after the object was compiled has left the linking transformer marked for a re-run. The command does not clear the mark: although all times are those of the command and nothing has changed since, the next build links the program. (The documentation of `Project::updateTimestamps` says that afterwards "the build graph will have the same state as if a successful build had been done".)
* `C111_check_timestamps`: C111 finding. A build with `--check-timestamps` goes by the times on the disk, and the command changes at most those of the targets (it opens them for appending). The object keeps its old time on the disk, here 7, so the edit at 15 starts the compiler although the times were updated at 20.
* `C33_merge_loses_artifact_properties`: C33 finding. Two JavaScript commands of a rule use properties of the same input, the first `cpp.optimization`, the second its file tags. After a change of `cpp.optimization` the commands are not run again: the second record replaces the first (scriptengine.cpp 1151-1170, qttools.h 168-173).
* `C33_merge_loses_enumeration`: C33 finding. The first command uses `product.artifacts["obj"]`, the second enumerates `product.artifacts`. A new tag is not noticed: that the artifacts were enumerated is not merged (requestedartifacts.cpp 175-185).
* `C33_merge_loses_requests_without_artifacts`: C33 finding. Two commands ask a dependency that has no artifacts for two tags. A later artifact with the first tag is not noticed (requestedartifacts.cpp 175-185: the first record is taken for an unused one).
* `C31_new_product_property`: C31 finding. A script asks for a property its product does not have, and later the product has it: the script is not run again (buildgraph.cpp 183-203 records only properties that are in the map).
* `C31_module_artifacts_not_tracked`: C31 finding. The artifacts of a module are not tracked: a script that uses `product.cpp.artifacts["header"]` is not run again when there are more of them (artifactsscriptvalue.cpp 138-188).
* `C31_target_of_module`: C31 finding. An artifact becomes the target of a module (group property `filesAreTargets` in a module): a script that has used `product.artifacts` is not run again, although the artifact is not in the map any more.
* `C31_tag_of_module_targets`: C31 finding. A script enumerates the tags in `product.artifacts`. The only artifact with some tag is replaced by a target of a module with that tag: the script is not run again, although the tag is not in the map any more.
* `C31_product_replaced_by_module`: C31 finding. The dependency on a product is replaced by one on a module of the same name: a script that has used `product.dependencies` is not run again (requesteddependencies.cpp 47-58 puts the names of both in one set).
* `C31_project_named_like_product`: C31 finding. A product and its project have the same name and a script uses the same property of both. A change of the project's property is not noticed, since recorded properties are compared without their kind (property.h 81-87).
* `C20_up_to_date_output_hides_another`: C20 (finding). With `alwaysUpdated: false` one output that is up to date hides another one that is older than the input: the transformer is skipped. (The comment in the code acknowledges this.)
* `C20_deleted_output_unnoticed`: C20 (finding). An output that was deleted after the build is not noticed unless `forceTimestampCheck` is used.
* `C20_rules_only_can_assert`: C20 (finding). If only rules are executed and a generated input has never been built while the output it belongs to has, the assertion about the input's time fails (in qbs: an internal error).
* `C89_removing_changes_others`: C89 finding. When files are removed, the other ones are written between quotes as they are: each one that has a quote, a backslash or the end of a line in it gets a text that is not a literal of it. So removing a file changes the names of others, or breaks the project file.
* `C89_group_name`: C89 finding. The name of a new group is written between quotes as it is: with a quote, a backslash or the end of a line in it, the text is not a literal of the name.
* `C89_added_twice`: C89 finding. Whether a file is in the project already is looked up in the data from when the project was resolved, which edits do not change. If a file was added before, adding it again succeeds, and the list has it twice.
* `C89_added_not_removed`: C89 finding. Likewise, a file that was added before cannot be removed again.
* `C89_comments_lost`: C89 finding. Comments in the list get lost: the result is the same for two project files that differ only in what is between the elements of the list.
* `C90_line_removed`: C90 finding. If there is something else before the item in its line, `q`, and the line before is empty, then `q` is removed as well: only `p` remains, the text up to the empty line.
* `C91_mixed`: C91 finding. If some lines end with a carriage return and others do not, the line ends in parts of the file that were not edited change, on all systems: even an edit that does nothing gives another file.
* `C91_lost`: C91 finding. The file is made empty before the new content is written, and whether this works is not looked at. If the disk is full, any part of the content may be lost, including all of it, and success is reported; if the process is killed, it is the same.
* `C133_max_one`: C133 finding. A maximum of one component is no maximum: all versions are valid.
* `C133_suffix_no_max`: C133 finding. If suffixes are allowed, the maximum has no effect: what is too much counts as the suffix.
* `C133_nan`: C133 finding. If fractions are allowed, the value that is not a number is in every range.
* `C03_narrowDown_not_intersection`: C03, finding: narrowing an unbounded range does not take over the other range's upper bound. A product with `Depends { name: "m" }` and `Depends { name: "m"; versionBelow: "2.0" }` accepts version 3.0 of the module, although the second item excludes it; in the other order it is rejected.
* `C55_resolved_each_time`: C55 finding. A product with a recursive wildcard that is built in its source directory: the file that another product (`1`) generates there is not matched when the project is resolved, but when it is checked whether the files have changed, as only the product's own build directory (`2`) is then left out. So the project is resolved again each time, although nothing has changed.
* `C55_sibling_ignored`: C55 finding. Files in a directory whose name begins with that of the build directory beside it are not found.
* `C55_generated_file_matched`: C55 finding. With `..` in a pattern, generated files in the build directory are taken for source files.
* `C55_empty_pattern`: C55 finding. An empty pattern, for instance in `excludeFiles`, is undefined behaviour.
* `C55_hidden_file_not_found`: C55 finding. A hidden file that is given by name after a pattern for its directory is not found.
* `C55_path_does_not_exist`: C55 finding. With a symbolic link and `..` in a pattern, a path is found that does not exist.

## What is modelled

Per module the cited source lines (the path is relative to src/lib/corelib unless it begins with src). Code not listed here is not modelled.

* `Verif/Anew/Model.lean`: buildgraph/buildgraphloader.cpp 241-300, 373-446, 683-862; language/language.cpp 253-264, 843-885, 898-930; language.cpp 898-918; buildgraph.cpp 730-736; language.cpp 337-359; buildgraph.cpp 725-742; language.cpp 253-264; language.cpp 871-878; language.cpp 880-885; language.cpp 843-851; language.cpp 853-868; buildgraphloader.cpp 788-818, and 766-786; buildgraphloader.cpp 805-816; buildgraphloader.cpp 820-853; buildgraphloader.cpp 748-760; buildgraphloader.cpp 743-764; buildgraphloader.cpp 716-746; buildgraphloader.cpp 683-714; buildgraphloader.cpp 241-256; buildgraphloader.cpp 262-268; buildgraphloader.cpp 270-300; buildgraphloader.cpp 413-435; projectbuilddata.cpp 293-300; buildgraphloader.cpp 373-470
* `Verif/Api/Model.lean`: session.cpp 579-587; session.cpp 578-589; session.cpp 572-595; session.cpp 597-601; session.cpp 603-607; session.cpp 171-177; session.cpp 713-722; project.cpp 167-178; project.cpp 157-165; session.cpp 342-344, 409-411; project.cpp 845-864, 915-933; session.cpp 387-389; project.cpp 882-897; session.cpp 137; session.cpp 230-261; session.cpp 194-203; jobs.cpp 264-269; session.cpp 761-767; session.cpp 816-827; session.cpp 291-308; session.cpp 280-308; session.cpp 798-809; session.cpp 334-422; session.cpp 724-759; session.cpp 435-442, 470-477; session.cpp 500-517; session.cpp 443-456, 478-486, 518-525; session.cpp 424-487; session.cpp 489-526; session.cpp 528-545; session.cpp 614-627; session.cpp 609-639; session.cpp 641-682; session.cpp 684-702; jobs.cpp 169-175; session.cpp 704-711; session.cpp 835-846; jobs.cpp 258-270; internaljobs.cpp 278-280; project.cpp 806-810; session.cpp 308-331; session.cpp 363-377; session.cpp 390-399, 412-421
* `Verif/Arch/Props.lean`: tools/architectures.cpp 52-155; architectures.cpp 101-146; architectures.cpp 148-151; architectures.cpp 99-155; architectures.cpp 52-97
* `Verif/CString/Model.lean`: utilitiesextension.cpp 245-248; utilitiesextension.cpp 359-364; utilitiesextension.cpp 343-352; utilitiesextension.cpp 304-323; utilitiesextension.cpp 271-367; utilitiesextension.cpp 263-371; utilitiesextension.cpp 373-383
* `Verif/Choose/Model.lean`: loader/moduleloader.cpp 104-250
* `Verif/Clean/Model.lean`: buildgraph/artifactcleaner.cpp 67-229; buildgraph/artifactvisitor.cpp 54-84; tools/fileinfo.cpp 426-454; fileinfo.cpp 426-454; artifactcleaner.cpp 75-81; artifactcleaner.cpp 83-98; artifactcleaner.cpp 133-151; artifactvisitor.cpp 78-84; artifactcleaner.cpp 119-126; artifactcleaner.cpp 113-127; artifactcleaner.cpp 176; artifactcleaner.cpp 204-229; artifactcleaner.cpp 184-196; artifactcleaner.cpp 164-202
* `Verif/Clean/Props.lean`: artifactcleaner.cpp 217-218; artifactcleaner.cpp 125; artifactcleaner.cpp 124; artifactcleaner.cpp 208, 218; artifactcleaner.cpp 119-126
* `Verif/Cli/Model.lean`: commandlineoption.h 55-85; commandlineoption.cpp 83-555; commandlineoption.h 88; commandlineoption.cpp 88-736; commandlineoption.h 106-445; commandlineoption.h 91 and 162; commandlineparser.cpp 391-407; parsercommand.cpp 195-612; parsercommand.cpp 200-214; parsercommand.cpp 274-289; parsercommand.cpp 350-357; parsercommand.cpp 216-586; parsercommand.h 275; parsercommand.cpp 92-98; parsercommand.cpp 63-66; commandlineoption.cpp 330-346; commandlineoption.cpp 607-627; ilogsink.cpp 59-76; commandlineoption.cpp 423-436; commandechomode.cpp 63-99; deprecationwarningmode.cpp 61-96; commandlineoption.cpp 92-95, 133-136, 156-163, 230-238, 330-346, 422-436, 500-512, 577-584, 599-629, 661-676, 699-714; parsercommand.cpp 68-90; parsercommand.cpp 111-121; parsercommand.cpp 109-122; commandlineoption.cpp 50-70; parsercommand.cpp 128-135; parsercommand.cpp 100-146; parsercommand.cpp 148-155; parsercommand.cpp 148-155, 393-403, 560-568, 591-595, 614-618; parsercommand.cpp 57-61; commandlineparser.cpp 381-389; commandlineparser.cpp 346; commandlineparser.cpp 334-367; commandlineparser.cpp 334-371; commandlineparser.cpp 499; commandlineparser.cpp 602-608; commandlineparser.cpp 504-506; commandlineparser.cpp 507; commandlineparser.cpp 503-519; commandlineparser.cpp 527-532; commandlineparser.cpp 526-543; commandlineparser.cpp 492-546; commandlineparser.cpp 561-600
* `Verif/Command/Model.lean`: rulecommands.cpp 274-282; rulecommands.cpp 277-281; rulecommands.cpp 271-283; hostosinfo.h 164-167; processcommandexecutor.cpp 87-92; processcommandexecutor.cpp 95-100; hostosinfo.h 150-153; processcommandexecutor.cpp 82-104; executablefinder.cpp 119-126; executablefinder.cpp 119-129; language.cpp 487-497; language.cpp 493-497; executablefinder.cpp 107-133; executablefinder.cpp 75-84; fileinfo.cpp 168-186; rulecommands.h 112-121; rulecommands.h 174-188; rulecommands.cpp 104-111; rulecommands.cpp 285-305; rulecommands.h 214-215; rulecommands.cpp 426-432; rulecommands.cpp 497-505; processcommandexecutor.cpp 169-183; processcommandexecutor.cpp 149-190; processcommandexecutor.cpp 106-121; rulecommands.cpp 362-368; processcommandexecutor.cpp 112-115; processcommandexecutor.cpp 268-297
* `Verif/Config/Model.lean`: src/app/config/configcommandexecutor.cpp 59-228; tools/settings.cpp 105-189; tools/settingsrepresentation.cpp 49-119; settingsrepresentation.cpp 76; settingsrepresentation.cpp 111-119; settingsrepresentation.cpp 49-52; scripttools.cpp 260-310; settingsrepresentation.cpp 54-70; settingsrepresentation.cpp 93-109; settingsrepresentation.cpp 72-91; configcommandlineparser.cpp 78-81; settings.cpp 105-125; settings.cpp 239-245; settings.cpp 127-136; settings.cpp 247-255; configcommandexecutor.cpp 98-103; settings.cpp 175-183; settings.cpp 185-189; configcommandexecutor.cpp 193-195; configcommandexecutor.cpp 176-197; configcommandexecutor.cpp 220-223; configcommandexecutor.cpp 224; configcommandexecutor.cpp 206-209; configcommandexecutor.cpp 199-228; settings.cpp 140-147; settings.cpp 138-156; configcommandexecutor.cpp 66-68, 86-88; configcommandexecutor.cpp 59-78; configcommandexecutor.cpp 184-187; configcommandexecutor.cpp 80-95; configcommandexecutor.cpp 199-214; configcommandexecutor.cpp 118-128; profile.cpp 99-106, 168-171, 183-186, 210-213; configcommandexecutor.cpp 114-117; configcommandexecutor.cpp 146-149
* `Verif/Config/Spec.lean`: settings.cpp 227-231
* `Verif/Cpp/Memory.lean`: Lexer.h 73-97; Lexer.cpp 64-72; cppscanner.cpp 285-287
* `Verif/Cpp/Model.lean`: cppscanner/cppscanner.cpp 76-247, 304-316; cppscanner/Lexer.cpp 58-1104; Lexer.h 75-98, 128-137; Lexer.h 80-93; Lexer.h 75-98; Lexer.cpp 64-72; cppscanner.cpp 304-309; Lexer.cpp 1052-1055; Lexer.cpp 1071-1094; Lexer.cpp 858-870, 1096-1104; Lexer.cpp 129-145, 157-160, 213-215, 425-476; Lexer.cpp 740-772; Lexer.cpp 724-804; Lexer.cpp 225-560; Lexer.cpp 882-890, 1010-1017; Lexer.cpp 956-1018; Lexer.cpp 1049-1069; Lexer.cpp 638-678; Lexer.cpp 207-690; Token.h 411; Lexer.cpp 105-111; cppscanner.cpp 215-216; cppscanner.h 68-107; cppscanner.cpp 101-104; cppscanner.cpp 109-126; cppscanner.cpp 106-133; cppscanner.cpp 159-168; cppscanner.cpp 134-173; cppscanner.cpp 199-220; cppscanner.cpp 222-244; cppscanner.cpp 199-246; cppscanner.cpp 175-247; cppscanner.cpp 76-247, 304-316
* `Verif/Create/Model.lean`: createproject.cpp 159-166; createproject.cpp 78; createproject.cpp 87; createproject.cpp 72-95; createproject.cpp 82-89; createproject.cpp 182-197; createproject.cpp 208-223; createproject.cpp 168-178; createproject.cpp 141-157; createproject.cpp 115-123; createproject.cpp 97-139; createproject.cpp 59-70
* `Verif/Create/Spec.lean`: fileinfo.cpp 188-194; productresolver.cpp 795-798; productscollector.cpp 505-520; productscollector.cpp 269-274 and 498-538; productresolver.cpp 794-840 and 898-899
* `Verif/Create/Witness.lean`: productscollector.cpp 307
* `Verif/Decl/Model.lean`: language/propertydeclaration.cpp 386-525; tools/error.cpp 357-363; loader/astpropertiesitemhandler.cpp 173-230; language/itemtype.h 48-84; astpropertiesitemhandler.cpp 187-191, 219-225; propertydeclaration.cpp 421-427; propertydeclaration.cpp 410-446; propertydeclaration.cpp 453-463; propertydeclaration.cpp 466-489; propertydeclaration.cpp 491-505; propertydeclaration.cpp 447-506; propertydeclaration.cpp 390-394, 522-525; error.cpp 357-363
* `Verif/Deps/Model.lean`: loader/dependenciesresolver.cpp 212-1090
* `Verif/Dirs/Empty.lean`: buildgraph/emptydirectoriesremover.cpp 51-113; emptydirectoriesremover.cpp 77-89; emptydirectoriesremover.cpp 91-113; emptydirectoriesremover.cpp 57-65
* `Verif/Dirs/Locker.lean`: tools/buildgraphlocker.cpp 58-163; buildgraphlocker.cpp 69-76; buildgraphlocker.cpp 94-100; buildgraphlocker.cpp 78-92; buildgraphlocker.cpp 106; buildgraphlocker.cpp 104-158; buildgraphlocker.cpp 121-150; buildgraphlocker.cpp 112-158; buildgraphlocker.cpp 152-158
* `Verif/Edit/Model.lean`: api/changeset.cpp 54-113, 132-160, 184-364; changeset.h 51-72; changeset.cpp 54-66; changeset.cpp 71-109; changeset.cpp 68-113; changeset.cpp 132-173, 205-248; changeset.cpp 338-344; changeset.cpp 269-323; changeset.cpp 255-260; changeset.cpp 263-265; changeset.cpp 357-362; changeset.cpp 331-336, 346-362
* `Verif/Edit/Props.lean`: changeset.cpp 256-259
* `Verif/EnvSetup/Model.lean`: api/runenvironment.cpp 142-162, 464-479; executor.cpp 1162-1169; environmentscriptrunner.h 72; language.h 382-408; environmentscriptrunner.cpp 220-225; environmentscriptrunner.cpp 133-135; environmentscriptrunner.cpp 137-146; environmentscriptrunner.cpp 139-146; environmentscriptrunner.cpp 148-154; environmentscriptrunner.cpp 84-98; environmentscriptrunner.cpp 164-205; environmentscriptrunner.cpp 124-212; environmentscriptrunner.cpp 107-115; language.h 673-674; runenvironment.cpp 164-168; runenvironment.cpp 464-479
* `Verif/Eval/Blocks.lean`: loader/astpropertiesitemhandler.cpp 138-280; language/value.cpp 172-180; value.cpp 172-180
* `Verif/Eval/Model.lean`: language/evaluator.cpp 335-350, 423-605; language/scriptengine.cpp 135-161, 838-858, 906-925; language/value.h 195-203; language/propertydeclaration.cpp 137-141; scriptengine.cpp 135-161; scriptengine.cpp 838-858
* `Verif/Eval/Witness.lean`: groupshandler.cpp 139-165; value.cpp 175
* `Verif/Exported/Model.lean`: loader/productresolver.cpp 424-462; loader/productscollector.cpp 375-394; productresolver.cpp 1524-1529; productresolver.cpp 1535-1542; productresolver.cpp 1530-1534; productresolver.cpp 1543-1552; productresolver.cpp 1553-1569; productresolver.cpp 1514-1579; productresolver.cpp 424-462; productscollector.cpp 386-394; productresolver.cpp 1581-1612; productresolver.cpp 1482-1512; productresolver.cpp 1357-1374
* `Verif/Files/Model.lean`: tools/fileinfo.cpp 426-618; jsextensions/file.cpp 136-255; buildgraph/productinstaller.cpp 180-195; buildgraph/artifactcleaner.cpp 83-98; fileinfo.cpp 427-457; jsextensions/file.cpp 215-254
* `Verif/Front/Model.lean`: parser/commandtype.h 44-49; commandlinefrontend.cpp 481-515; commandlinefrontend.h 108-117; commandlinefrontend.cpp 274-277; commandlinefrontend.cpp 92-111; commandlinefrontend.cpp 164-193; commandlinefrontend.cpp 116-142; commandlinefrontend.cpp 113-221; commandlinefrontend.cpp 349-383; commandlinefrontend.cpp 470-479; commandlineparser.cpp 157-165, 200-207; commandlinefrontend.cpp 517-542; commandlinefrontend.cpp 434-450; commandlinefrontend.cpp 702-721; commandlinefrontend.cpp 385-432; commandlinefrontend.cpp 253-272; commandlinefrontend.cpp 229-278
* `Verif/Front/Witness.lean`: commandlinefrontend.cpp 253-260; commandlinefrontend.cpp 92-111, 702-721; commandlinefrontend.cpp 261-263; commandlinefrontend.cpp 470-479
* `Verif/Ids/Props.lean`: tools/id.cpp 70-200; id.cpp 76-87; id.cpp 70-92; id.cpp 94-98; id.cpp 117-121; id.cpp 117; id.h 56; id.cpp 127-140; id.cpp 123-127
* `Verif/Imports/Model.lean`: astimportshandler.cpp 231-251; astimportshandler.cpp 268-274; astimportshandler.cpp 276-290; astimportshandler.cpp 102-104; astimportshandler.cpp 120-122; astimportshandler.cpp 193-218; astimportshandler.cpp 155-162; astimportshandler.cpp 165-192; astimportshandler.cpp 94-219; astimportshandler.cpp 72-77; astimportshandler.cpp 70-92
* `Verif/Includes/Model.lean`: buildgraph/inputartifactscanner.cpp 63-131, 166-194, 226-265, 336-452; buildgraph/rawscanneddependency.cpp 49-63; src/plugins/scanner/cpp/cppscannerplugin.cpp 70-100; rawscanneddependency.cpp 51-55; rawscanneddependency.cpp 57-60; rawscanneddependency.cpp 62-65; inputartifactscanner.cpp 69-74; inputartifactscanner.cpp 83-110; inputartifactscanner.cpp 63-131; inputartifactscanner.cpp 355-369; inputartifactscanner.cpp 343-370; inputartifactscanner.cpp 397-452; inputartifactscanner.cpp 381-393; inputartifactscanner.cpp 336-395; inputartifactscanner.cpp 243-264; inputartifactscanner.cpp 313-317; inputartifactscanner.cpp 180-182, 234-265; inputartifactscanner.cpp 166-194; cppscannerplugin.cpp 84-98
* `Verif/Install/Model.lean`: buildgraph/productinstaller.cpp 62-266; tools/installoptions.cpp 69-82, 130-137; tools/fileinfo.cpp 551-618; buildgraph/executor.cpp 300-318; productinstaller.cpp 120-168; productinstaller.cpp 261-266; fileinfo.cpp 592-615; productinstaller.cpp 228-241; productinstaller.cpp 201-259; productinstaller.cpp 180-198; installoptions.cpp 69-82; productinstaller.cpp 62-94; productinstaller.cpp 96-118; executor.cpp 300-318
* `Verif/Job/Model.lean`: buildgraph/executorjob.cpp 94-172; buildgraph/abstractcommandexecutor.cpp 52-104; buildgraph/processcommandexecutor.cpp 107-210, 292-383; buildgraph/jscommandexecutor.cpp 74-300; tools/qbsprocess.cpp 53-177; launchersocket.cpp 53-165; src/libexec/qbs_processlauncher/launchersockethandler.cpp 51-290; processcommandexecutor.cpp 147-190; processcommandexecutor.cpp 247-260; launchersocket.h 64; executorjob.cpp 157-172; executorjob.cpp 144-155; abstractcommandexecutor.cpp 66; processcommandexecutor.cpp 333-367; qbsprocess.cpp 78-87; launchersocket.cpp 60; qbsprocess.cpp 63-76; abstractcommandexecutor.cpp 94-101; processcommandexecutor.cpp 127-199; abstractcommandexecutor.cpp 69-77; jscommandexecutor.cpp 258-271; executorjob.cpp 124; executorjob.cpp 121-142; processcommandexecutor.cpp 296-331; processcommandexecutor.cpp 369-379; qbsprocess.cpp 89-104; launchersockethandler.cpp 63-82; executorjob.cpp 94-111; executorjob.cpp 113-119; processcommandexecutor.cpp 201-208; jscommandexecutor.cpp 90-98; abstractcommandexecutor.cpp 60-65; processcommandexecutor.cpp 138; jscommandexecutor.cpp 263; launchersocket.cpp 80-92; qbsprocess.cpp 138-143; launchersocket.cpp 94-99, 123-134; qbsprocess.cpp 145-154; launchersockethandler.cpp 200-235; launchersockethandler.cpp 159-168; launchersockethandler.cpp 170-182; qbsprocess.cpp 120-136, 156-177; jscommandexecutor.cpp 104-122; jscommandexecutor.cpp 126-127; jscommandexecutor.cpp 148-166; jscommandexecutor.cpp 279-292
* `Verif/Job/Props.lean`: processcommandexecutor.cpp 337-338
* `Verif/JsImport/Model.lean`: language/scriptimporter.cpp 53-117; language/scriptengine.cpp 465-483; parser/qmljsast.cpp 478-485, 761-770; scriptimporter.cpp 69-100; qmljsast.cpp 761-770; scriptimporter.cpp 56-67; scriptimporter.cpp 122-148; scriptengine.cpp 694-719; scriptengine.cpp 465-483
* `Verif/LexOut/Model.lean`: fileinfoextension.cpp 278-289
* `Verif/Lexer/Keywords.lean`: parser/qmljslexer_p.h 90-120; qmljskeywords_p.h 56-81; qmljskeywords_p.h 83-120; qmljskeywords_p.h 122-226; qmljskeywords_p.h 228-341; qmljskeywords_p.h 343-493; qmljskeywords_p.h 495-585; qmljskeywords_p.h 587-708; qmljskeywords_p.h 710-769; qmljskeywords_p.h 771-813; qmljskeywords_p.h 815-842; qmljskeywords_p.h 844-858
* `Verif/Lexer/Model.lean`: parser/qmljslexer.cpp 56-1028; qmljslexer.cpp 999-1004; qmljslexer.cpp 67-74; qmljslexer.cpp 76-79; qmljslexer.cpp 81-85; qmljslexer.cpp 238-275; qmljslexer.cpp 411-433; qmljslexer.cpp 435-437; qmljslexer.cpp 461-478, 802-818, 819-836; qmljslexer.cpp 843-856, 480-492; qmljslexer.cpp 453-494; qmljslexer.cpp 745-856; qmljslexer.cpp 556-568; qmljslexer.cpp 591-666; qmljslexer.cpp 576-676; qmljslexer.cpp 548-680; qmljslexer.cpp 709-740; qmljslexer.cpp 726-741; qmljslexer.cpp 695-741; qmljslexer.cpp 318-546, 681-743; qmljslexer_p.h 170-174; qmljslexer_p.h 195-235; qmljslexer.cpp 130-170; qmljslexer.cpp 172-180; qmljslexer.cpp 1044-1055; qmljslexer.cpp 291-306; qmljslexer.cpp 287-743; qmljslexer.cpp 277-286; qmljslexer.cpp 215-233; qmljslexer.cpp 190-213; qmljslexer.cpp 182-236; qmljslexer_p.h 150-165; qmljslexer.cpp 1021-1030
* `Verif/Lexer/Witness.lean`: qmljslexer.cpp 588-589, 660-663, 632; qmljslexer.cpp 632
* `Verif/Literal/Model.lean`: tools/jsliterals.cpp 50-130; jsliterals.cpp 50-53; jsliterals.cpp 55-63; jsliterals.cpp 68; jsliterals.cpp 65-72; jsliterals.cpp 74-84; jsliterals.cpp 86-130; jsliterals.cpp 93-98; jsliterals.cpp 105-109
* `Verif/Literal/Props.lean`: jsliterals.cpp 113-129
* `Verif/Lsp/Frame.lean`: basemessage.cpp 22; basemessage.cpp 24; basemessage.cpp 23; jsonrpcmessages.cpp 92-95; basemessage.cpp 21; basemessage.h 36-39; basemessage.cpp 83-87 and 98-101; basemessage.cpp 57-67; basemessage.cpp 94-102; basemessage.cpp 76-88; basemessage.cpp 71-72; basemessage.cpp 69-92; basemessage.cpp 120-133; basemessage.cpp 113-134; basemessage.cpp 155-158; basemessage.cpp 147-153; basemessage.cpp 104-139; lspserver.cpp 248; lspserver.cpp 193-194; lspserver.cpp 236; lspserver.cpp 240-258; basemessage.cpp 160-178; jsonrpcmessages.h 114-115; lspserver.cpp 303-308
* `Verif/Lsp/Server.lean`: lspserver.cpp 853-858; lspserver.cpp 850-860; lspserver.cpp 98-101 and 114-117; lspserver.cpp 717-728; lspserver.cpp 89-96; lspserver.cpp 862-874; lspserver.cpp 201-202; lspserver.cpp 313-341; lspserver.cpp 693-703; lspserver.cpp 705-729; lspserver.cpp 731-743; lspserver.cpp 745-754; lspserver.cpp 346-367; lspserver.cpp 369-376; lspserver.cpp 310-344; lspserver.cpp 255; lspserver.cpp 587-597; lspserver.cpp 599-607; lspserver.cpp 585-608; lspserver.cpp 641-675; lspserver.cpp 564-685
* `Verif/Makefile/Model.lean`: makefilegenerator.cpp 68-76; makefilegenerator.cpp 79-105; makefilegenerator.cpp 107-120; makefilegenerator.cpp 122-131; makefilegenerator.cpp 202-219; makefilegenerator.cpp 220-231; makefilegenerator.cpp 133-138; makefilegenerator.cpp 255-262; makefilegenerator.cpp 266-281; makefilegenerator.cpp 283-286; makefilegenerator.cpp 249-286; makefilegenerator.cpp 308-319; makefilegenerator.cpp 294-320; makefilegenerator.cpp 322-331; makefilegenerator.cpp 235-332; makefilegenerator.cpp 172-201; makefilegenerator.cpp 334-345; makefilegenerator.cpp 157-362
* `Verif/Merge/Model.lean`: loader/modulepropertymerger.cpp 139-291; language/value.cpp 58-113, 238-281; loader/moduleloader.cpp 318-331; language/item.cpp 515-539; value.cpp 64-69; value.cpp 71-90; modulepropertymerger.cpp 139-154; modulepropertymerger.cpp 179-205; modulepropertymerger.cpp 232-244; modulepropertymerger.cpp 281-291; modulepropertymerger.cpp 219-279; value.cpp 263-281; value.cpp 238-251; moduleloader.cpp 326-330; item.cpp 535-537; value.cpp 108-111
* `Verif/Merge/Props.lean`: modulepropertymerger.cpp 231-245; value.cpp 244, 269-273
* `Verif/Moc/Model.lean`: moc/qtmocscanner.cpp 60-81, 99-187; cppscanner/cppscanner.cpp 249-268; buildgraph/mocutils.cpp 61-98; buildgraph/rulenode.cpp 79-244, 286-300, 329-348; buildgraph/rulesapplicator.cpp 323-374; buildgraph/inputartifactscanner.cpp 305-333, 457-477; jsextensions/moduleproperties.cpp 277-310; buildgraph/buildgraph.cpp 701-713, 777-793; inputartifactscanner.cpp 465-466; cppscanner.cpp 257-258; qtmocscanner.cpp 102-103; qtmocscanner.cpp 124-163; qtmocscanner.cpp 99-105; cppscanner.cpp 257-268; qtmocscanner.cpp 60-81; qtmocscanner.cpp 171; qtmocscanner.cpp 171-178; qtmocscanner.cpp 107-187; moduleproperties.cpp 277-310; rulenode.cpp 286-300; rulesapplicator.cpp 323-344; inputartifactscanner.cpp 322-331; mocutils.cpp 76; mocutils.cpp 61-98; rulenode.cpp 91-95, 108-112, 329-344; rulenode.cpp 79-244; rulegraph.cpp 64-75; buildgraph.cpp 701-713, 777-793; buildgraphloader.cpp 717-736
* `Verif/Moc/Witness.lean`: tests/auto/blackbox/tst_blackboxqt.cpp 207-236
* `Verif/Multiplex/Props.lean`: loader/productitemmultiplexer.cpp 97-250; productitemmultiplexer.cpp 197-204; productitemmultiplexer.cpp 212-235; productitemmultiplexer.cpp 60-80; productitemmultiplexer.cpp 174-208; productitemmultiplexer.cpp 238-246; productitemmultiplexer.cpp 97-140
* `Verif/Override/Model.lean`: setupprojectparameters.cpp 421-435; scripttools.cpp 53-63; setupprojectparameters.cpp 429-432; setupprojectparameters.cpp 427-434; propertydeclaration.cpp 300-321; item.cpp 534-537; item.cpp 515-539; error.cpp 357-363; item.cpp 373-384; moduleinstantiator.cpp 223-226; moduleinstantiator.cpp 206-230; productscollector.cpp 162, 306; productscollector.cpp 160-173; productscollector.cpp 262-280 and 306; projectresolver.cpp 420-428; projectresolver.cpp 450-458; projectresolver.cpp 466-467; projectresolver.cpp 459-463; projectresolver.cpp 464-469; projectresolver.cpp 418-446; productscollector.cpp 694-708; loaderutils.cpp 261-271; productscollector.cpp 719-736; productscollector.cpp 119-131; setupprojectparameters.cpp 531-535; setupprojectparameters.cpp 528-540; setupprojectparameters.cpp 474-478; setupprojectparameters.cpp 461-486; setupprojectparameters.cpp 85-100; setupprojectparameters.cpp 72-97
* `Verif/Params/Model.lean`: loader/loaderutils.cpp 890-971; loader/productresolver.cpp 424-461; tools/scripttools.cpp 260-310; loaderutils.cpp 952; loaderutils.cpp 953; loaderutils.cpp 958; tools/qttools.h 231-242; loaderutils.cpp 946-971; loaderutils.cpp 908-911; loaderutils.cpp 929-932; loaderutils.cpp 927-944; loaderutils.cpp 922-925; productresolver.cpp 453-456; loader/dependenciesresolver.cpp 407-411; productresolver.cpp 434-460; dependenciesresolver.cpp 407-411, 423-433, 511
* `Verif/PathProbe/Model.lean`: fileinfoextension.cpp 56-63; fileinfoextension.cpp 287; fileinfoextension.cpp 278-289
* `Verif/Pc/Model.lean`: pcparser.cpp 190-251; pcparser.cpp 68-128 and 407-409; pcparser.cpp 130-138; pcparser.cpp 420-450; pcparser.cpp 415-453; pcparser.cpp 141-188; pcparser.cpp 253-254; pcparser.cpp 263-271; pcparser.cpp 283-328; pcparser.cpp 261-357; src/lib/pkgconfig/pcpackage.h 83-91; pcparser.cpp 359-379; pcpackage.h 81-99; pcparser.cpp 640-653; pcparser.cpp 632-681; pcparser.cpp 625-685; pcpackage.h 57-69; pcparser.cpp 518-569; pcparser.cpp 589-620; src/lib/pkgconfig/pkgconfig.h 50-64; pcpackage.h 53-127; pkgconfig.cpp 51-69; pkgconfig.cpp 158-186; pcpackage.cpp 219-239; pcpackage.cpp 198-217; pcparser.cpp 461-469; pcparser.cpp 455-482; pcparser.cpp 484-494; pcparser.cpp 496-516; pcparser.cpp 571-584; pcparser.cpp 687-698; pcparser.cpp 706-716; pcparser.cpp 726-757; pcparser.cpp 758-767; pcparser.cpp 700-768; pcparser.cpp 407-409; pcparser.cpp 388-413
* `Verif/Pc/PackModel.lean`: pcpackage.cpp 127-142; pcpackage.cpp 157-160; pcpackage.cpp 154-163; pcpackage.cpp 146-172; pcpackage.cpp 174-195; pcpackage.h 129-175; pkgconfig.cpp 276-295; pcparser.cpp 411-413; pkgconfig.cpp 259-303; pkgconfig.cpp 269-272; pkgconfig.cpp 277-280; pkgconfig.cpp 297-302; pkgconfig.cpp 136-156; jsextensions/pkgconfigjs.cpp 218-221; pkgconfigjs.cpp 95-100; pkgconfigjs.cpp 89-125; loader/dependenciesresolver.cpp 874-877; language/builtindeclarations.cpp 231-260; language/propertydeclaration.cpp 449-461; loader/productresolver.cpp 330-332
* `Verif/PcExport/Model.lean`: buildgraph.cpp 182-187 and 441-470
* `Verif/Present/Model.lean`: loader/productresolver.cpp 241-418
* `Verif/Proc/Model.lean`: launcherinterface.cpp 95-115 and 130-137; processcommandexecutor.cpp 133-136; processcommandexecutor.cpp 138-148; processcommandexecutor.cpp 150-191; abstractcommandexecutor.cpp 96-103; processcommandexecutor.cpp 288-294; launcherpackets.h 108-131; launcherpackets.h 143-176; qbsprocess.cpp 172-182; launchersockethandler.cpp 64-81; abstractcommandexecutor.cpp 67; executorjob.cpp 145-156; processcommandexecutor.cpp 416-422; processcommandexecutor.cpp 333-367; processcommandexecutor.cpp 299-331; processcommandexecutor.cpp 369-379; qbsprocess.cpp 78-87; qbsprocess.cpp 64-76; qbsprocess.cpp 89-104; processcommandexecutor.cpp 202-209; processcommandexecutor.cpp 123-200; abstractcommandexecutor.cpp 71-79; launchersockethandler.cpp 63-82; launchersockethandler.cpp 204-218; launchersockethandler.cpp 220-251; qbsprocess.cpp 128-142 and 162-182; qbsprocess.cpp 151-160; qbsprocess.cpp 144-149; executorjob.cpp 121-143; executorjob.cpp 113-119; processcommandexecutor.cpp 335-340 and 371-376; executor.cpp 808-826
* `Verif/Proc/Props.lean`: qbsprocess.cpp 172-182; launchersockethandler.cpp 195-198; processcommandexecutor.cpp 315-316; processcommandexecutor.cpp 202-209; processcommandexecutor.cpp 341-342; processcommandexecutor.cpp 371-376; processcommandexecutor.cpp 171-178
* `Verif/Profile/Model.lean`: tools/profile.cpp 67-94 and 177-258; profile.cpp 71; profile.h 76; stringconstants.h 71; profile.cpp 77-81; profile.cpp 197-205; profile.cpp 142-145; profile.cpp 212-226; profile.cpp 232-234; profile.cpp 243-245; profile.cpp 228-248
* `Verif/Progress/Props.lean`: tools/progressobserver.cpp 72-102; api/internaljobs.cpp 86-118; buildgraph/executor.cpp 569-597; buildgraph/artifactcleaner.cpp 170-201; productinstaller.cpp 111-117; projectbuilddata.cpp 282-289; internaljobs.cpp 86-94; internaljobs.cpp 95-99; internaljobs.cpp 101-111; progressobserver.cpp 72-75; progressobserver.cpp 99-102; executor.cpp 771-782; executor.cpp 585-593 and 886-895; artifactcleaner.cpp 170-201
* `Verif/ProtoOut/Model.lean`: file.cpp 262-269; fileinfoextension.cpp 216; fileinfoextension.cpp 208-211; rulesapplicator.cpp 669-672
* `Verif/Provider/Model.lean`: moduleproviderloader.cpp 158; moduleproviderinfo.h 97-103; moduleproviderinfo.h 55-95; moduleproviderloader.cpp 288-316; moduleproviderloader.cpp 190-246; moduleproviderloader.cpp 248-260; moduleproviderloader.cpp 92-95; moduleproviderloader.cpp 83-97; moduleproviderloader.cpp 262-288; moduleproviderinfo.h 66-75; moduleproviderloader.cpp 341-424; loaderutils.cpp 354-370; loaderutils.cpp 359-364; loaderutils.cpp 366-370; moduleproviderloader.cpp 149-188; moduleloader.cpp 168-175; moduleproviderloader.cpp 111-147; moduleproviderloader.cpp 76-147; moduleproviderloader.cpp 353-361; language.cpp 685-703; buildgraphloader.cpp 364-365; moduleproviderinfo.h 78-82; language.cpp 626-630, 655; language.cpp 596-600
* `Verif/Provider/Witness.lean`: moduleproviderloader.cpp 149-188; buildgraphloader.cpp 364-365; language.cpp 685-703
* `Verif/Read/Model.lean`: item.cpp 136-140; itemreaderastvisitor.cpp 207-242; itemreaderastvisitor.cpp 244-280; itemreaderastvisitor.cpp 359-386; itemreaderastvisitor.cpp 347-354; itemreaderastvisitor.cpp 339-387; item.cpp 343-366; itemreaderastvisitor.cpp 114-146; itemreaderastvisitor.cpp 173-192; itemreaderastvisitor.cpp 101-195; itemreaderastvisitor.cpp 399-409; itemreadervisitorstate.cpp 68-124
* `Verif/Reapply/Model.lean`: buildgraph/rulenode.cpp 79-264, 328-346 and 388-406; buildgraph/transformerchangetracking.cpp 338-348; buildgraph/transformer.cpp 310-322; buildgraph/rulesapplicator.cpp 89-146, 162-322 and 408-496; loader/loaderutils.cpp 738-750; rulenode.cpp 388-406; transformerchangetracking.cpp 338-348; rulenode.cpp 112-122; rulenode.cpp 111-125; rulenode.cpp 129-147; rulenode.cpp 328-346; rulenode.cpp 105-109 and 119; rulenode.cpp 94, 118; rulenode.cpp 86-147; rulenode.cpp 149-150; rulenode.cpp 180-217; rulesapplicator.cpp 429-430, 462-494; rulesapplicator.cpp 450-461; transformer.cpp 310-322; rulesapplicator.cpp 197-230, 312-322; rulesapplicator.cpp 162-308; rulesapplicator.cpp 112-120; rulenode.cpp 251-264; rulenode.cpp 219-243; rulenode.cpp 79-244; buildgraph/buildgraphloader.cpp 668-681
* `Verif/Rescue/Model.lean`: buildgraph/artifactrescuer.cpp 71-167; buildgraph/transformer.cpp 323-346; buildgraph/rescuableartifactdata.h 59-119; buildgraph/buildgraphloader.cpp 973-1013; rescuableartifactdata.h 80-101; transformer.h 60-125; rescuableartifactdata.h 59-119; buildgraph.cpp 637-651; artifactrescuer.cpp 82-117; artifactrescuer.cpp 85-114; artifactrescuer.cpp 115-134; transformer.cpp 323-333; artifactrescuer.cpp 155-156; artifactrescuer.cpp 154-157; buildgraph.cpp 584-599; artifactrescuer.cpp 149-158; artifactrescuer.cpp 159-163; artifactrescuer.cpp 71-167; transformer.cpp 335-346; buildgraphloader.cpp 995-1007; buildgraphloader.cpp 973-1013
* `Verif/RuleGraph/Model.lean`: buildgraph/rulegraph.cpp 50-147; buildgraph/projectbuilddata.cpp 321-382 and 438-466; language/language.cpp 266-282; buildgraph/buildgraph.cpp 725-742; language.cpp 266-272, 276; language.cpp 274-282; buildgraph.cpp 725-742; rulegraph.cpp 54-58; rulegraph.cpp 64-66; rulegraph.cpp 63-76 and 132-142; rulegraph.cpp 78-85; projectbuilddata.cpp 358; projectbuilddata.cpp 345-355; projectbuilddata.cpp 356-362; projectbuilddata.cpp 335-363; rulegraph.cpp 140-147; projectbuilddata.cpp 365-369; rulegraph.cpp 88-93; projectbuilddata.cpp 425-428; projectbuilddata.cpp 372-382 and 450-459
* `Verif/Scan/Model.lean`: buildgraph/rawscanresults.cpp 50-111; inputartifactscanner.cpp 304-333; depscanner.cpp 113-131, 143-153; language.cpp 931-938; src/plugins/scanner/cpp/cppscannerplugin.cpp 70-123; rawscanresults.h 78-91; depscanner.cpp 143-153; rawscanresults.cpp 57-63, 88-96; rawscanresults.cpp 79-98; rawscanresults.cpp 50-69; inputartifactscanner.cpp 327-331; rawscanresults.cpp 100-110; cppscannerplugin.cpp 70-123
* `Verif/Scan/Props.lean`: depscanner.cpp 143-153; cppscannerplugin.cpp 80, 107; cppscannerplugin.cpp 90-94; productresolver.cpp 1199-1208
* `Verif/Sched/Locks.lean`: loader/loaderutils.cpp 125-131; loader/productresolver.cpp 196-224, 231-234; loaderutils.cpp 127-130; productresolver.cpp 198-206, 234; productresolver.cpp 201-204, 218-221; productsresolver.cpp 368-371; productsresolver.cpp 372-379; productsresolver.cpp 236-242; productsresolver.cpp 406; productsresolver.cpp 407-409; productsresolver.cpp 410-412; productsresolver.cpp 422-432
* `Verif/Sched/Model.lean`: loader/productsresolver.cpp 166-187, 224-557; loader/productresolver.cpp 196-224, 231-293; loader/loaderutils.cpp 95-113, 191-201, 286-314, 822-838; productsresolver.cpp 68-75; productsresolver.cpp 121-140; productsresolver.cpp 160-222; loaderutils.cpp 95-113; dependenciesresolver.cpp 356-384; productresolver.cpp 208-209; loaderutils.cpp 828-832; dependenciesresolver.cpp 910-926; dependenciesresolver.cpp 230-295; productresolver.cpp 240-293; productsresolver.cpp 350-402; productsresolver.cpp 270-274; productsresolver.cpp 257-280; productsresolver.cpp 300-307; productsresolver.cpp 309-315; productsresolver.cpp 338-348, 441-449, 487-488; productsresolver.cpp 559-591; productsresolver.cpp 472-483; productsresolver.cpp 451-470; dependenciesresolver.cpp 1156-1181; productsresolver.cpp 419-485; productsresolver.cpp 224-253; productsresolver.cpp 233-234, 296-298; productsresolver.cpp 248-252
* `Verif/Settings/Props.lean`: tools/settings.cpp 105-136, 160-245; settings.h 100-103; settings.cpp 229-233; settings.cpp 235-239; settings.cpp 105-126; settings.cpp 241-247; settings.cpp 128-136; settings.cpp 175-197; settings.h 78; settings.cpp 249-257; stringconstants.h 249; profile.h 76
* `Verif/SettingsTree/Model.lean`: settings.cpp 227-231; settings.cpp 175-183; settingsmodel.cpp 60-73; settingsmodel.cpp 75-90; settingsmodel.cpp 161-173, 338-345; settingsmodel.cpp 347-358; settingsmodel.cpp 363-371; settingsmodel.cpp 360-378; settingsmodel.cpp 330-334; settingsmodel.cpp 323-336; settingsmodel.cpp 283-287; settingsmodel.cpp 161-186, 274-300; settingsmodel.cpp 380-390; settingsmodel.cpp 142-149
* `Verif/Stale/Model.lean`: buildgraph/buildgraphloader.cpp 308-346, 489-665; loader/projectresolver.cpp 203-249, 267-310; loader/loaderutils.cpp 507-565; loader/probesresolver.cpp 98-290; language/language.cpp 110-117, 828-841; language/scriptengine.cpp 387-404, 780-807, 953-957; jsextensions/file.cpp 156-166, 168-185, 201-209, 262-269; productresolver.cpp 900; productresolver.cpp 829-840; moduleloader.cpp 395-440; productscollector.cpp 505-520; itemreadervisitorstate.cpp 126-138; language.cpp 802-804; probesresolver.cpp 271-279; language.h 111-188; language.h 773-796; scriptengine.cpp 780-807; productresolver.cpp 829-840, 900-904; scriptengine.cpp 400; language.cpp 110-117; probesresolver.cpp 245-269, 281-290; probesresolver.cpp 98-243; projectresolver.cpp 203-249; buildgraphloader.cpp 598-606; language.cpp 828-841; buildgraphloader.cpp 589-641; buildgraphloader.cpp 652-658; buildgraphloader.cpp 643-665; buildgraphloader.cpp 506-530; buildgraphloader.cpp 917-971; buildgraphloader.cpp 490-504; buildgraphloader.cpp 532-587; buildgraphloader.cpp 308-338; buildgraphloader.cpp 308-378
* `Verif/Status/Model.lean`: status.cpp 58, 73-79; status.cpp 58, 73-79, 97; status.cpp 59-63; status.cpp 71-81; status.cpp 55-85; status.cpp 94-101; status.cpp 92; status.cpp 87-113; status.cpp 147-152; status.cpp 138-154; status.cpp 130-165
* `Verif/Subset/Model.lean`: buildgraph/executor.cpp 165-245; executor.cpp 185-187; executor.cpp 183-190; executor.cpp 181-195; executor.cpp 174-203; executor.cpp 149; executor.cpp 975-988; executor.cpp 771-782; executor.cpp 238-240; executor.cpp 232-241; executor.cpp 218-225; executor.cpp 216-230; executor.cpp 82-85
* `Verif/Tags/Model.lean`: language.cpp 97-110; loaderutils.cpp 758-782; productresolver.cpp 736-745, 776-783, 795-850; productresolver.cpp 658-684, 875-897; productresolver.cpp 906-926; productresolver.cpp 965-991; loaderutils.cpp 816-820; productresolver.cpp 947-992; productresolver.cpp 742-760; productresolver.cpp 774-804; productresolver.cpp 812-822; productresolver.cpp 800-808; productresolver.cpp 795-829; productresolver.cpp 911-922; productresolver.cpp 900-930; productresolver.cpp 832-848; productresolver.cpp 790-794; productresolver.cpp 790-794, 804-807; productresolver.cpp 832-843; productresolver.cpp 795-861; productresolver.cpp 709-730, 732-897; language.cpp 337-359; productresolver.cpp 1284-1302; language.cpp 329-335; productresolver.cpp 1308-1317; productresolver.cpp 1304-1324; productresolver.cpp 1304-1325; productresolver.cpp 637-656; productresolver.cpp 1213-1279; productresolver.cpp 1213-1217; productresolver.cpp 600-698; buildgraph.cpp 725-742
* `Verif/Tags/Witness.lean`: productresolver.cpp 774-804; productresolver.cpp 826-829 and 923; astpropertiesitemhandler.cpp 219-232; productresolver.cpp 911-922; productresolver.cpp 832-848; productresolver.cpp 1293-1297; productresolver.cpp 952-953, 1308-1317; productresolver.cpp 742-760, 788-795; buildgraph.cpp 731-737; productresolver.cpp 785-794
* `Verif/TextF/Model.lean`: jsextensions/textfile.cpp 60-237; jsextensions/binaryfile.cpp 55-235; textfile.cpp 154-170; textfile.cpp 172-237; binaryfile.cpp 165-235; binaryfile.cpp 142-163
* `Verif/Toolchain/Model.lean`: toolchains.cpp 83-91; toolchains.cpp 127-142; toolchains.cpp 98; toolchains.cpp 114; toolchains.cpp 102-108; toolchains.cpp 81-125
* `Verif/Touch/Model.lean`: buildgraph/timestampsupdater.cpp 55-96; src/app/qbs/commandlinefrontend.cpp 349-383, 591-598; api/project.cpp 157-165, 949-954; commandlinefrontend.cpp 349-363; project.cpp 157-165; timestampsupdater.cpp 76-80; buildgraph/artifactvisitor.cpp 52-58, 72-78; timestampsupdater.cpp 86-95; timestampsupdater.cpp 66-72; buildgraph/executor.cpp 132-144, 1054-1116
* `Verif/Track/Merge.lean`: artifactsscriptvalue.cpp 98-188; scriptengine.cpp 1151-1170; qttools.h 168-173; requestedartifacts.cpp 175-185
* `Verif/Track/Model.lean`: buildgraph/transformerchangetracking.cpp 93-369; requestedartifacts.cpp 53-191; requesteddependencies.cpp 47-88; language/scriptengine.cpp 374-404, 1127-1170; language/property.h 81-87; buildgraph/artifactsscriptvalue.cpp 98-188; buildgraph/buildgraph.cpp 183-203, 336-344; jsextensions/moduleproperties.cpp 70-98; language/preparescriptobserver.cpp 57-94; transformerchangetracking.cpp 215-238; property.h 81-87; requestedartifacts.cpp 75-84; requestedartifacts.cpp 86-94; requestedartifacts.cpp 96-103; requestedartifacts.cpp 105-108; requestedartifacts.cpp 175-185; requestedartifacts.cpp 110-114; requesteddependencies.cpp 47-58; artifactsscriptvalue.cpp 99-110; transformerchangetracking.cpp 104-138 and 140-180; transformerchangetracking.cpp 311-326; requestedartifacts.cpp 132-173; requestedartifacts.cpp 53-73; requesteddependencies.cpp 71-88; transformerchangetracking.cpp 182-201; transformerchangetracking.cpp 191-213; transformerchangetracking.cpp 300-337; transformer.cpp 267-274; transformerchangetracking.cpp 268-293; scriptengine.cpp 1151-1170; qttools.h 168-173
* `Verif/Track/Witness.lean`: buildgraph.cpp 183-203; artifactsscriptvalue.cpp 138-188; requesteddependencies.cpp 47-58; property.h 81-87
* `Verif/UpToDate/Model.lean`: buildgraph/executor.cpp 467-660, 829-894; buildgraph/artifact.h 84-140; transformer.h 68-110; executor.cpp 700-740; executor.cpp 484-491; executor.cpp 493-505; executor.cpp 474-478; executor.cpp 467-508; executor.cpp 519-530; executor.cpp 510-540; executor.cpp 879-888; executor.cpp 829-856; executor.cpp 611-613; executor.cpp 598-636
* `Verif/Updater/Model.lean`: projectfileupdater.cpp 344-391; projectfileupdater.cpp 289-295; projectfileupdater.cpp 297-302; projectfileupdater.cpp 353-362; projectfileupdater.cpp 310-410; projectfileupdater.cpp 458-476; projectfileupdater.cpp 421-516; projectfileupdater.cpp 87-115; qmljsrewriter.cpp 351-363; qmljsrewriter.cpp 265-309; qmljsrewriter.cpp 72-159; qmljsrewriter.cpp 161-191; qmljsrewriter.cpp 616-637; projectfileupdater.cpp 227-237; projectfileupdater.cpp 216-253; projectfileupdater.cpp 582-590; projectfileupdater.cpp 564-592; project.cpp 441-466; project.cpp 487-514; qmljsrewriter.cpp 455-471; qmljsrewriter.cpp 476-490; qmljsrewriter.cpp 449-494; qmljsrewriter.cpp 496-509; qmljsrewriter.cpp 662-677; projectfileupdater.cpp 526-554; projectfileupdater.cpp 126-138; projectfileupdater.cpp 124-146; projectfileupdater.cpp 148-153; projectfileupdater.cpp 155-161; projectfileupdater.cpp 163-201
* `Verif/Wild/Model.lean`: language/language.cpp 733-841; tools/fileinfo.cpp 188-194; loader/productresolver.cpp 829-841; fileinfo.cpp 188-194; language.cpp 784-813; language.cpp 784-797; language.cpp 770-826; language.cpp 745-751; language.cpp 741-768; language.cpp 735-739; language.cpp 828-841; language.cpp 369

## What is not modelled

* Qt, QuickJS, the C++ compiler and the operating system: their behaviour enters as stated assumptions
  (for instance the QDataStream format, QLockFile's contract, `rmdir` refusing non-empty directories) or as
  arbitrary choices of the environment.
* The QML/JavaScript language front end (lexer, parser, AST, item readers, evaluator), the project resolver's
  handling of items other than what is listed above, the modules in share/qbs, the IDE generators, the
  scanners for C++ and Qt sources, and the command line tools except where listed.
* Threads: the model follows the event loop; what happens in worker threads is an event.
