{
 "claims": [
  {
   "property": "C01",
   "status": "partial",
   "theorems": [
    "Verif.SetT.C01_refines_math_set",
    "Verif.SetT.C01_queries",
    "Verif.SetT.C01_store_load",
    "Verif.SetT.C01_range_ctor_not_a_set",
    "Verif.SetT.C01_range_ctor_partial",
    "Verif.SetT.C01_subtract_aliasing"
   ],
   "note": "Proved for every operation history except the iterator-range constructor, which keeps duplicates (refuted by C01_range_ctor_not_a_set; the rest of it is C01_range_ctor_partial)."
  },
  {
   "property": "C02",
   "status": "proved",
   "theorems": [
    "Verif.Version.C02_compare_total_order",
    "Verif.Version.C02_parse_print",
    "Verif.Version.C02_accepts_exactly"
   ],
   "note": "Order laws, print/parse round trip, accepted language."
  },
  {
   "property": "C03",
   "status": "partial",
   "theorems": [
    "Verif.Version.C03_narrowDown_not_intersection",
    "Verif.Version.C03_narrowDown_partial",
    "Verif.Version.C03_accepts_iff_allows"
   ],
   "note": "The code violates the property for an unbounded receiver (C03_narrowDown_not_intersection); exact intersection is proved otherwise."
  },
  {
   "property": "C04",
   "status": "proved",
   "theorems": [
    "Verif.JobLimits.C04_limits_are_a_map",
    "Verif.JobLimits.C04_unique_entries"
   ],
   "note": ""
  },
  {
   "property": "C05",
   "status": "partial",
   "theorems": [
    "Verif.FileTime.C05_total_order",
    "Verif.FileTime.C05_epoch_findings",
    "Verif.FileTime.C05_invalid_minimum_partial"
   ],
   "note": "Total order proved outright; 'invalid is oldest' is false for times before 1970 (C05_epoch_findings) and proved for the others. Unix implementation."
  },
  {
   "property": "C06",
   "status": "partial",
   "theorems": [
    "Verif.Path.C06_split_recomposes",
    "Verif.Path.C06_base_and_suffix_partial",
    "Verif.Path.C06_suffix_without_dot",
    "Verif.Path.C06_path_of_file",
    "Verif.Path.C06_resolve_absolute",
    "Verif.Path.C06_resolve_walks_partial",
    "Verif.Path.C06_resolve_clean",
    "Verif.Path.C06_resolve_to_root_finding"
   ],
   "note": "Unix host. Two deviations, proved: suffix() of a name without a dot is the name (C06_suffix_without_dot), and resolving up to the root yields the empty string instead of '/' (C06_resolve_to_root_finding). Otherwise proved for all strings. QDir::cleanPath and the home directory are parameters."
  },
  {
   "property": "C07",
   "status": "proved",
   "theorems": [
    "Verif.Shell.C07_unix_round_trip",
    "Verif.Shell.C07_unix_command",
    "Verif.Shell.C07_unix_command_line",
    "Verif.Shell.C07_assignment_not_quoted"
   ],
   "note": "For all argument lists, without restriction on the characters. C07_assignment_not_quoted notes that a program name of the form NAME=text would be taken for an assignment."
  },
  {
   "property": "C08",
   "status": "partial",
   "theorems": [
    "Verif.Shell.C08_windows_round_trip_partial",
    "Verif.Shell.C08_windows_command_line_partial",
    "Verif.Shell.C08_direct_round_trip_partial",
    "Verif.Shell.C08_percent_finding",
    "Verif.Shell.C08_newline_finding",
    "Verif.Shell.C08_direct_call_finding"
   ],
   "note": "Through cmd.exe and the C run-time: proved for arguments without line breaks, percent signs and NUL; percent signs are not protected (C08_percent_finding). Without cmd.exe in between: proved for arguments without quotes and newlines, false otherwise (C08_direct_call_finding, C08_newline_finding)."
  },
  {
   "property": "C09",
   "status": "partial",
   "theorems": [
    "Verif.Launcher.C09_client_any_chunking",
    "Verif.Launcher.C09_launcher_any_chunking",
    "Verif.Launcher.C09_all_delivered",
    "Verif.Launcher.C09_payload_round_trip",
    "Verif.Launcher.C09_invalid_size_reported",
    "Verif.Launcher.C09_client_stops_after_error",
    "Verif.Launcher.C09_launcher_misparses_after_error",
    "Verif.Launcher.C09_oversized_packet"
   ],
   "note": "Proved for both ends for packets below 2 GB. Two limits, proved: a larger packet is reported as invalid (C09_oversized_packet), and after an invalid size the launcher end keeps the invalid size and mis-parses what follows (C09_launcher_misparses_after_error)."
  },
  {
   "property": "C10",
   "status": "partial",
   "theorems": [
    "Verif.Persist.C10_values_round_trip_partial",
    "Verif.Persist.C10_null_in_list_lost"
   ],
   "note": "All sequences of stores of all modelled types, byte by byte, with back references. Requires that strings in lists and environments are not null; otherwise false (C10_null_in_list_lost). Not modelled: QRegularExpression (only its pattern is stored), reuse of one pool object for several files. Qt's encoding of other QVariants is a parameter with a round-trip law."
  },
  {
   "property": "C11",
   "status": "proved",
   "theorems": [
    "Verif.Persist.C11_objects_round_trip",
    "Verif.Persist.C11_store_ends",
    "Verif.Persist.C11_mixed_pointers_break_identity"
   ],
   "note": "All heaps, shared and cyclic, and all sequences of stores. Premise: each object is referenced either through shared or through plain pointers (C11_mixed_pointers_break_identity shows it is needed), numbers of ids fit into int."
  },
  {
   "property": "C12",
   "status": "proved",
   "theorems": [
    "Verif.Persist.C12_partial_file_rejected",
    "Verif.Persist.C12_saving_can_finish"
   ],
   "note": "All crash points and all partial or failing writes, including a failing seek. The operating system is assumed to apply the process' writes in order (crash of the process, not loss of the disk cache)."
  },
  {
   "property": "C13",
   "status": "partial",
   "theorems": [
    "Verif.Saver.C13_old_or_new_partial",
    "Verif.Saver.C13_never_partial",
    "Verif.Saver.C13_success_partial",
    "Verif.Saver.C13_unchanged_not_written",
    "Verif.Saver.C13_failure",
    "Verif.Saver.C13_eexist_not_atomic",
    "Verif.Saver.C13_empty_file_not_created"
   ],
   "note": "Atomic wherever rename replaces files. Where it fails with EEXIST the target can be missing at a crash point (C13_eexist_not_atomic); it never has partial contents. An empty new file is not created although commit succeeds (C13_empty_file_not_created)."
  },
  {
   "property": "C14",
   "status": "partial",
   "theorems": [
    "Verif.Exec.C14_start_after_dependencies_partial",
    "Verif.Exec.C14_events_list_all_dependencies",
    "Verif.Exec.C14_apply_after_dependencies",
    "Verif.Exec.C14_completed_after_success",
    "Verif.Exec.Witness.C14_unequal_siblings_violation"
   ],
   "note": "Proved for every build of a graph whose transformers give all their outputs the same dependencies. For per-artifact explicitlyDependsOn the code violates the property (C14_unequal_siblings_violation). Rule applications are covered by a contract (SafeEffect)."
  },
  {
   "property": "C15",
   "status": "proved",
   "theorems": [
    "Verif.Exec.C15_max_jobs",
    "Verif.Exec.C15_pool_limit",
    "Verif.Exec.C15_running_is_started"
   ],
   "note": "maxJobs bound and pool limits for every schedule; a pool limit is enforced while a job of the product that sets it runs."
  },
  {
   "property": "C16",
   "status": "proved",
   "theorems": [
    "Verif.Exec.C16_at_most_once",
    "Verif.Exec.C16_started_completes_by_running"
   ],
   "note": "Every schedule; same graph assumption as C14 (siblings have equal dependencies)."
  },
  {
   "property": "C17",
   "status": "partial",
   "theorems": [
    "Verif.Exec.C17_terminates",
    "Verif.Exec.C17_not_stuck",
    "Verif.Exec.C17_success_means_complete",
    "Verif.Exec.C17_complete_partial",
    "Verif.Exec.Witness.C17_lost_dependency_hangs"
   ],
   "note": "Termination, absence of deadlock and 'success means everything is built' are proved. That an undisturbed build builds everything needs rule applications not to take the last unfinished dependency from a waiting node; otherwise it is false (C17_lost_dependency_hangs)."
  },
  {
   "property": "C18",
   "status": "partial",
   "theorems": [
    "Verif.Exec.C18_failure_contained",
    "Verif.Exec.C18_failure_reported",
    "Verif.Exec.C18_stop_on_failure",
    "Verif.Exec.C18_keep_going_builds_the_rest_partial",
    "Verif.Exec.Witness.C18_keep_going_failure_unreported"
   ],
   "note": "Containment, stop-on-failure and reporting for roots of primary products are proved. With keep-going a failure outside the primary products is not reported (C18_keep_going_failure_unreported)."
  },
  {
   "property": "C19",
   "status": "partial",
   "theorems": [
    "Verif.Exec.C19_no_work_after_cancel",
    "Verif.Exec.C19_cancel_reaches_all_jobs",
    "Verif.Exec.C19_finished_last",
    "Verif.Exec.C19_request_stops_new_work",
    "Verif.Exec.C16_at_most_once",
    "Verif.Exec.Witness.C19_request_during_pass",
    "Verif.Exec.Witness.C19_timer_cancel_unreported"
   ],
   "note": "Proved from the moment the executor acts on the request, or the request comes in while it waits. A request during a scheduling pass does not stop that pass (C19_request_during_pass), and a cancellation noticed by the timer is not reported as such (C19_timer_cancel_unreported)."
  },
  {
   "property": "C20",
   "status": "proved",
   "theorems": [
    "Verif.UpToDate.C20_skipped_iff_up_to_date",
    "Verif.UpToDate.C20_second_build_does_nothing",
    "Verif.UpToDate.C20_rebuilt_input_reruns",
    "Verif.UpToDate.C20_no_assertion",
    "Verif.UpToDate.C20_up_to_date_output_hides_another",
    "Verif.UpToDate.C20_deleted_output_unnoticed",
    "Verif.UpToDate.C20_rules_only_can_assert"
   ],
   "note": "All graphs and timestamps, all interleavings of job starts and ends. The second-build theorem assumes a clock that does not run backwards, that commands write an output, no forced timestamp check, and that the change tracker (C31) reports nothing. Limits of the check itself are recorded as findings."
  },
  {
   "property": "C21",
   "status": "proved",
   "theorems": [
    "Verif.Graph.C21_links_symmetric",
    "Verif.Graph.C21_destroyed_unreferenced",
    "Verif.Graph.C21_disconnect_exact",
    "Verif.Graph.C21_connect_exact",
    "Verif.Graph.C21_connect_refuses"
   ],
   "note": "All histories of the modelled graph operations, including destruction of any node at any time."
  },
  {
   "property": "C22",
   "status": "proved",
   "theorems": [
    "Verif.Graph.C22_safeConnect_decides",
    "Verif.Graph.C22_stays_acyclic",
    "Verif.Graph.C22_existsPath_exact",
    "Verif.Graph.C22_plain_connect_makes_cycle"
   ],
   "note": "Where the code uses the unguarded connect, absence of a path back is a premise of the step; C22_plain_connect_makes_cycle shows it is needed. safeConnect may also throw, without change, for a second child with the same path."
  },
  {
   "property": "C23",
   "status": "partial",
   "theorems": [
    "Verif.Graph.C23_detects_exactly_cycles",
    "Verif.Graph.C23_report_partial",
    "Verif.Graph.C23_reported_list_not_a_cycle"
   ],
   "note": "Detection is exact and terminates. The reported list need not be a cycle: C23_reported_list_not_a_cycle."
  },
  {
   "property": "C24",
   "status": "partial",
   "theorems": [
    "Verif.Graph.C24_lookup_artifacts_exact",
    "Verif.Graph.C24_lookup_sound_partial",
    "Verif.Graph.C24_generated_unique",
    "Verif.Graph.C24_second_insertion_rejected",
    "Verif.Graph.C24_vanished_dependency_not_found"
   ],
   "note": "Exact for artifacts; sound for file dependencies, which are dropped from the table when their file vanishes (C24_vanished_dependency_not_found)."
  },
  {
   "property": "C25",
   "status": "proved",
   "theorems": [
    "Verif.Graph.C25_tag_index_exact",
    "Verif.Graph.C25_nodes_have_product",
    "Verif.Graph.C25_roots_are_nodes",
    "Verif.Graph.C25_roots_have_type",
    "Verif.Graph.C25_tagged_becomes_root",
    "Verif.Graph.C25_stays_root",
    "Verif.Graph.C25_source_roots_depend_on_history"
   ],
   "note": "All histories of the modelled operations in which objects are destroyed after they have been taken out of the graph. Finding beyond the statement: whether a source file with a tag of the product's type is a target depends on when it got the tag."
  },
  {
   "property": "C26",
   "status": "partial",
   "theorems": [
    "Verif.Graph.C26_removes_exactly",
    "Verif.Graph.demo_removed",
    "Verif.Graph.C26_explicit_dependency_dangles",
    "Verif.Graph.C26_no_inputs_removed"
   ],
   "note": "Proved for graphs in order (links symmetric, transformer inputs are children of the outputs). Findings: a surviving transformer's explicitlyDependsOn keeps the removed artifact (C26_explicit_dependency_dangles); an artifact whose transformer has no inputs goes with any of its dependencies (C26_no_inputs_removed)."
  },
  {
   "property": "C27",
   "status": "partial",
   "theorems": [
    "Verif.RuleGraph.C27_children",
    "Verif.RuleGraph.C27_nodes",
    "Verif.RuleGraph.C27_cycle_iff",
    "Verif.RuleGraph.C27_reported_path",
    "Verif.RuleGraph.C27_output_tags",
    "Verif.RuleGraph.C27_tags_covered_partial",
    "Verif.RuleGraph.C27_dependencies",
    "Verif.RuleGraph.C27_installable_not_connected",
    "Verif.RuleGraph.C27_tags_by_name_not_connected",
    "Verif.RuleGraph.C27_excluded_not_connected",
    "Verif.RuleGraph.C27_exponential"
   ],
   "note": "Graph, nodes and cycles hold for all rule sets. That outputs carry only tags their rule is taken to produce fails for the tag installable and for outputs without declared tags (findings), so it is proved for the other outputs. Further findings: a producer that can also make an excluded tag is not connected, and the traversal visits exponentially many ways."
  },
  {
   "property": "C28",
   "status": "partial",
   "theorems": [
    "Verif.Reapply.C28_reapplied",
    "Verif.Reapply.C28_lost_input",
    "Verif.Reapply.C28_lost_dependency",
    "Verif.Reapply.C28_outputs",
    "Verif.Reapply.C28_second",
    "Verif.Reapply.C28_histories",
    "Verif.Reapply.C28_histories_second",
    "Verif.Reapply.C28_multiplex_reapplied",
    "Verif.Reapply.C28_multiplex_outputs",
    "Verif.Reapply.C28_multiplex_skipped",
    "Verif.Reapply.C28_multiplex_second",
    "Verif.Reapply.C28_failed_application_forgets_check",
    "Verif.Reapply.C28_failed_script_leaves_output_without_commands",
    "Verif.Reapply.C28_scanned_input_hides_rerun",
    "Verif.Reapply.C28_explicit_dependency_ignored_without_inputs",
    "Verif.Reapply.C28_stale_output_without_inputs",
    "Verif.Reapply.C28_stale_output_after_replacing_inputs",
    "Verif.Reapply.C28_removed_explicit_dependency_asserts",
    "Verif.Reapply.C28_change_during_application_missed",
    "Verif.Reapply.C28_stale_output_after_failure"
   ],
   "note": "Decision, outputs and skipped second application are proved for rules per input and for multiplex rules with inputs, for histories without errors and inputs that are not dependencies of outputs made from other inputs. Without these conditions, and for rules without inputs, the property is false: nine findings."
  },
  {
   "property": "C29",
   "status": "partial",
   "theorems": [
    "Verif.Clean.C29_removes_only",
    "Verif.Clean.C29_other_files_stay",
    "Verif.Clean.C29_removes_all",
    "Verif.Clean.C29_no_empty_directories",
    "Verif.Clean.C29_keep_going_partial",
    "Verif.Clean.C29_stops_at_failure",
    "Verif.Clean.C29_dry_run_partial",
    "Verif.Clean.C29_dry_run_removes_directories",
    "Verif.Clean.C29_dry_run_forgets",
    "Verif.Clean.C29_rescuable_failure_stops",
    "Verif.Clean.C29_broken_link_fails",
    "Verif.Clean.C29_rescuable_directory_stays"
   ],
   "note": "All file systems, products and failures. Missing: a dry run does remove empty directories and forgets rescuable data (findings); keepGoing does not cover rescuable data (finding)."
  },
  {
   "property": "C30",
   "status": "partial",
   "theorems": [
    "Verif.Install.C30_inside_partial",
    "Verif.Install.C30_not_refused",
    "Verif.Install.C30_source_base",
    "Verif.Install.C30_source_base_relative",
    "Verif.Install.C30_conflicts_reported",
    "Verif.Install.C30_refusal_fails",
    "Verif.Install.C30_changes_only_targets",
    "Verif.Install.C30_installed",
    "Verif.Install.C30_fresh_installation",
    "Verif.Install.C30_dry_run",
    "Verif.Install.C30_refuses_removal",
    "Verif.Install.C30_root",
    "Verif.Install.C30_sibling_directory",
    "Verif.Install.C30_no_test_with_source_base",
    "Verif.Install.C30_source_base_cuts_names",
    "Verif.Install.C30_no_root_no_test",
    "Verif.Install.C30_older_source_not_installed",
    "Verif.Install.C30_missing_source_accepted",
    "Verif.Install.C30_dry_run_misses_conflicts",
    "Verif.Install.C30_configured_root_removed",
    "Verif.Install.C30_build_removes_home"
   ],
   "note": "Targets are inside the install root for prefixes and directories that do not go up; what is missing is shown by the findings: the code accepts targets outside of the root in four ways. Conflicts are always reported, only targets change, and a successful installation leaves the sources' contents, except for sources that are older than the target or missing."
  },
  {
   "property": "C31",
   "status": "partial",
   "theorems": [
    "Verif.Track.C31_changed_answer_reruns_partial",
    "Verif.Track.C31_not_rerun_same_result_partial",
    "Verif.Track.C31_unchanged_not_rerun",
    "Verif.Track.C31_environment",
    "Verif.Track.C31_new_product_property",
    "Verif.Track.C31_module_artifacts_not_tracked",
    "Verif.Track.C31_target_of_module",
    "Verif.Track.C31_tag_of_module_targets",
    "Verif.Track.C31_product_replaced_by_module",
    "Verif.Track.C31_project_named_like_product"
   ],
   "note": "Completeness (nothing changed, no re-run) for all scripts. Soundness for all scripts that do not use artifacts of modules, and changes described by Comparable; for the six kinds of changes excluded the code is shown to miss them."
  },
  {
   "property": "C32",
   "status": "partial",
   "theorems": [
    "Verif.Scan.C32_matching_and_current",
    "Verif.Scan.C32_same_scanner_same_properties",
    "Verif.Scan.C32_result_for_existing_file",
    "Verif.Scan.C32_invalidated",
    "Verif.Scan.C32_no_interference",
    "Verif.Scan.C32_module_suffix_of_other_product",
    "Verif.Scan.C32_local_header_added",
    "Verif.Scan.C32_scanner_id_of_other_product",
    "Verif.Scan.C32_result_of_other_product",
    "Verif.Scan.C32_older_file_not_scanned"
   ],
   "note": "For histories in which a changed file gets the current time. Same scanner: provided ids are unique in the project, which is only checked per product (finding). Plugins' results are shared between all properties, though the C++ scanner's depend on one (finding)."
  },
  {
   "property": "C33",
   "status": "partial",
   "theorems": [
    "Verif.Track.C33_up_to_date_iff_same",
    "Verif.Track.C33_merge_notices_both_partial",
    "Verif.Track.C33_merge_loses_artifact_properties",
    "Verif.Track.C33_merge_loses_enumeration",
    "Verif.Track.C33_merge_loses_requests_without_artifacts"
   ],
   "note": "One record: for all histories of accesses. Merging: under the conditions of Mergeable; without each of them the code loses accesses (findings)."
  },
  {
   "property": "C34",
   "status": "proved",
   "theorems": [
    "Verif.Rescue.C34_rescued",
    "Verif.Rescue.C34_not_rescued",
    "Verif.Rescue.C34_removes_only",
    "Verif.Rescue.C34_no_assertion",
    "Verif.Rescue.C34_used_once",
    "Verif.Rescue.C34_unchanged_artifact_keeps_state",
    "Verif.Rescue.C34_wrong_path_recorded"
   ],
   "note": "The decision is characterised exactly; the way from the old product to the rescued artifact is covered by C34_unchanged_artifact_keeps_state. A finding: the wrong path is recorded for removed former children."
  },
  {
   "property": "C35",
   "status": "proved",
   "theorems": [
    "Verif.Dirs.C35_returns_iff_locked",
    "Verif.Dirs.C35_bounded",
    "Verif.Dirs.C35_already_locked",
    "Verif.Dirs.C35_exclusive",
    "Verif.Dirs.C35_removes_only_created_and_empty",
    "Verif.Dirs.C35_no_stray_directories",
    "Verif.Dirs.C35_leaves_no_trace",
    "Verif.Dirs.C35_waiting_process_leaves_directories"
   ],
   "note": "QLockFile's contract is assumed. The theorems about directories are about one process; C35_waiting_process_leaves_directories shows that with a second, waiting one an empty directory can stay."
  },
  {
   "property": "C36",
   "status": "partial",
   "theorems": [
    "Verif.Job.C36_accepted",
    "Verif.Job.C36_finished_once",
    "Verif.Job.C36_in_order",
    "Verif.Job.C36_success_is_sound",
    "Verif.Job.C36_no_assertion",
    "Verif.Job.C36_can_finish_partial",
    "Verif.Job.C36_timeout_can_hang",
    "Verif.Job.C36_old_timeout_hangs_later_run",
    "Verif.Job.C36_old_timeout_fails_later_run",
    "Verif.Job.C36_old_start_failure_fails_later_run",
    "Verif.Job.C36_crash_counts_as_success",
    "Verif.Job.C36_old_script_timeout_fails_later_run",
    "Verif.Job.C36_old_cancel_skips_later_script",
    "Verif.Job.C36_script_timeout_lost"
   ],
   "note": "Order, one report per run, soundness of success and absence of assertions: for all histories. Exact results: until the first run that was canceled, timed out or could not start a process; after that the code deviates (findings). Progress: unless a process timed out; with a timeout a job can hang (C36_timeout_can_hang)."
  },
  {
   "property": "C37",
   "status": "proved",
   "theorems": [
    "Verif.Progress.C37_build",
    "Verif.Progress.C37_build_all_but_one",
    "Verif.Progress.C37_loops"
   ],
   "note": "For orderly histories: each rule node of the build is applied at most once and each transformer finished at most once, after its rule."
  },
  {
   "property": "C38",
   "status": "partial",
   "theorems": [
    "Verif.Literal.C38_variant_partial",
    "Verif.Literal.C38_string_iff",
    "Verif.Literal.C38_string_list",
    "Verif.Literal.C38_line_end",
    "Verif.Literal.C38_double_is_string",
    "Verif.Literal.C38_large_integer",
    "Verif.Literal.C38_proto_lost",
    "Verif.Literal.C38_unconvertible"
   ],
   "note": "For all nested values of booleans, integers of at most 53 bits and strings without ends of lines; the other values are findings."
  },
  {
   "property": "C39",
   "status": "partial",
   "theorems": [
    "Verif.Edit.C39_error_iff_conflict",
    "Verif.Edit.C39_simultaneous_partial",
    "Verif.Edit.C39_order_of_calls",
    "Verif.Edit.C39_insert_after_replacement",
    "Verif.Edit.C39_insert_after_removal"
   ],
   "note": "Except for insertions at the start of a range that was replaced or removed by an earlier operation: these are not reported and go wrong (findings)."
  },
  {
   "property": "C40",
   "status": "partial",
   "theorems": [
    "Verif.Profile.C40_value_terminates",
    "Verif.Profile.C40_own_definitions",
    "Verif.Profile.C40_value_is_nearest",
    "Verif.Profile.C40_default_iff",
    "Verif.Profile.C40_cycle_iff",
    "Verif.Profile.C40_missing_iff",
    "Verif.Profile.C40_all_keys_partial",
    "Verif.Profile.C40_keys_of_overridden_profile_missing"
   ],
   "note": "Values: full. The list of keys is exact unless a profile given by the project also has stored settings: then the stored keys are missing (C40_keys_of_overridden_profile_missing)."
  },
  {
   "property": "C41",
   "status": "partial",
   "theorems": [
    "Verif.Settings.C41_reads_last_write",
    "Verif.Settings.C41_scopes_merge",
    "Verif.Settings.C41_all_keys_partial",
    "Verif.Settings.C41_key_listed_twice",
    "Verif.Settings.C41_innocent_profile_rejected"
   ],
   "note": "All histories of writes and removals. Two keys differing only in '.' and '/' read as one but can be listed twice; a profile whose name merely starts with 'none' cannot be written."
  },
  {
   "property": "C42",
   "status": "proved",
   "theorems": [
    "Verif.Multiplex.C42_cartesian_product"
   ],
   "note": "All lists of axes and values. The JavaScript evaluation that produces the lists is a parameter."
  },
  {
   "property": "C43",
   "status": "proved",
   "theorems": [
    "Verif.Ids.C43_ids_are_names",
    "Verif.Ids.C43_nul_breaks_names"
   ],
   "note": "All histories of names without NUL and every hash function; with NUL in a name the property fails (C43_nul_breaks_names)."
  },
  {
   "property": "C44",
   "status": "partial",
   "theorems": [
    "Verif.Merge.C44_priorities",
    "Verif.Merge.C44_highest_priority",
    "Verif.Merge.C44_any_order",
    "Verif.Merge.C44_any_order_unique_highest",
    "Verif.Merge.C44_command_line_kept",
    "Verif.Merge.C44_internal_wins",
    "Verif.Merge.C44_conflict_warning",
    "Verif.Merge.C44_constant_origin",
    "Verif.Merge.C44_order_matters",
    "Verif.Merge.C44_shared_boolean"
   ],
   "note": "For all values and orders, also if priorities change before the final merge. The order matters if the highest priority is shared after such a change (C44_order_matters). Boolean constants share their flags, so values from profiles can count as set on the command line (C44_shared_boolean)."
  },
  {
   "property": "C45",
   "status": "proved",
   "theorems": [
    "Verif.Session.C45_any_chunking",
    "Verif.Session.C45_all_delivered",
    "Verif.Session.C45_invalid_length_reported"
   ],
   "note": "JSON and Base64 are Qt's and not modelled: payloads are arbitrary bytes. Qt's number parsing is assumed to understand decimal numerals."
  },
  {
   "property": "C46",
   "status": "partial",
   "theorems": [
    "Verif.Subset.C46_buildable",
    "Verif.Subset.C46_fully_built",
    "Verif.Subset.C46_considered",
    "Verif.Subset.C46_priorities",
    "Verif.Subset.C46_dependencies_first",
    "Verif.Subset.C46_duplicates_hide_partial_build",
    "Verif.Subset.C46_effort_counted_twice",
    "Verif.Subset.C46_exponential"
   ],
   "note": "The list of products to build is exactly the closure of the request, and the order of priorities holds for all acyclic dependencies. That nodes of no other product are considered holds if no requested product depends on another one (C46_considered); otherwise products can be listed twice and C46_duplicates_hide_partial_build shows a build that considers nodes of a foreign product. Further findings: the effort counts products twice, and collecting dependencies takes exponentially many calls."
  },
  {
   "property": "C47",
   "status": "proved",
   "theorems": [
    "Verif.Arch.C47_idempotent",
    "Verif.Arch.C47_aliases",
    "Verif.Arch.C47_target_name_leads_back",
    "Verif.Arch.C47_armv7a_target_name",
    "Verif.Arch.C47_canonical_names_case_sensitive"
   ],
   "note": "All strings. QString::toLower is a parameter that leaves the lower-case names of the table alone."
  },
  {
   "property": "C48",
   "status": "partial",
   "theorems": [
    "Verif.Dirs.C48_only_empty_directories",
    "Verif.Dirs.C48_stays_inside",
    "Verif.Dirs.C48_removes_all_empty",
    "Verif.Dirs.C48_terminates",
    "Verif.Dirs.C48_sibling_directory_removed",
    "Verif.Dirs.C48_missing_directory_stops"
   ],
   "note": "Inside: provided the artifacts are inside the build directory; for others the code compares strings only (C48_sibling_directory_removed). Completely: provided the artifacts' own directories exist (C48_missing_directory_stops)."
  },
  {
   "property": "C49",
   "status": "proved",
   "theorems": [
    "Verif.Exec.C49_rules_only_launches_nothing"
   ],
   "note": "Same graph assumption as C14."
  },
  {
   "property": "C50",
   "status": "proved",
   "theorems": [
    "Verif.Exec.C50_only_selected_products"
   ],
   "note": "Same graph assumption as C14. Which products are selected is a parameter (see C46 for the auxiliary ones)."
  },
  {
   "property": "C51",
   "status": "partial",
   "theorems": [
    "Verif.Includes.C51_cpp_scan",
    "Verif.Includes.C51_place",
    "Verif.Includes.C51_place_dots",
    "Verif.Includes.C51_resolution",
    "Verif.Includes.C51_resolution_absolute",
    "Verif.Includes.C51_dependencies",
    "Verif.Includes.C51_terminates",
    "Verif.Includes.C51_unclean_search_path",
    "Verif.Includes.C51_file_in_root_directory",
    "Verif.Includes.C51_moved_header_lost",
    "Verif.Includes.C51_shadowing_header_missed",
    "Verif.Includes.C51_new_artifact_not_found",
    "Verif.Includes.C51_deleted_artifact_found",
    "Verif.Includes.C51_input_disconnected",
    "Verif.Includes.C51_unbuilt_not_followed",
    "Verif.Includes.C51_cycle_dropped"
   ],
   "note": "Holds for one update in an unchanging world with a cache that fits it. Across changes within a build (cache) and between builds (remembered scan results), and for unclean search paths or files in the root directory, it is false: findings."
  },
  {
   "property": "C52",
   "status": "partial",
   "theorems": [
    "Verif.Sched.C52_no_false_cycle",
    "Verif.Sched.C52_once",
    "Verif.Sched.C52_progress",
    "Verif.Sched.C52_terminates",
    "Verif.Sched.C52_exclusive",
    "Verif.Sched.C52_job_limit",
    "Verif.Sched.C52_disabled",
    "Verif.Sched.C52_order",
    "Verif.Sched.C52_dependencies_partial",
    "Verif.Sched.C52_missed",
    "Verif.Sched.C52_deterministic",
    "Verif.Sched.Locks.C52_no_lost_wakeup",
    "Verif.Sched.Locks.C52_cancel_partial",
    "Verif.Sched.Locks.C52_cancel_never_noticed",
    "Verif.Sched.Locks.C52_cancel_deadlock",
    "Verif.Sched.C52_cycle_resolved_twice",
    "Verif.Sched.C52_cycle_wrong_product",
    "Verif.Sched.C52_outcome_depends_on_timing",
    "Verif.Sched.C52_bulk_order"
   ],
   "note": "Everything except dependencies by type and canceling holds for all interleavings of acyclic projects. For dependencies by type the outcome depends on timing (finding), so they and determinism are proved for the case that no wanted product itself depends on a product with dependencies by type. Canceling can block forever in two ways (findings). With cycles, products are resolved twice and errors blame products on no cycle (findings)."
  },
  {
   "property": "C53",
   "status": "partial",
   "theorems": [
    "Verif.Stale.C53_sound_partial",
    "Verif.Stale.C53_load_partial",
    "Verif.Stale.C53_probes",
    "Verif.Stale.C53_canonical_path_forgotten",
    "Verif.Stale.C53_new_module_forgotten",
    "Verif.Stale.C53_text_file_forgotten",
    "Verif.Stale.C53_older_file_missed",
    "Verif.Stale.C53_vanished_source_missed",
    "Verif.Stale.C53_change_while_resolving_missed",
    "Verif.Stale.C53_probe_not_run_again",
    "Verif.Stale.C53_probe_questions_forgotten",
    "Verif.Stale.C53_import_modified_while_probing"
   ],
   "note": "Proved for projects that ask only tracked questions, resolved without reusing probes, with answers stable while resolving, honest time stamps and no vanished source files. Each of these conditions is needed: nine findings."
  },
  {
   "property": "C54",
   "status": "proved",
   "theorems": [
    "Verif.Stale.C54_quiet",
    "Verif.Stale.C54_forced"
   ],
   "note": ""
  },
  {
   "property": "C55",
   "status": "partial",
   "theorems": [
    "Verif.Wild.C55_expand",
    "Verif.Wild.C55_plain",
    "Verif.Wild.C55_parts",
    "Verif.Wild.C55_prefix",
    "Verif.Wild.C55_noticed",
    "Verif.Wild.C55_quiet_partial",
    "Verif.Wild.C55_resolved_each_time",
    "Verif.Wild.C55_sibling_ignored",
    "Verif.Wild.C55_generated_file_matched",
    "Verif.Wild.C55_empty_pattern",
    "Verif.Wild.C55_hidden_file_not_found",
    "Verif.Wild.C55_path_does_not_exist"
   ],
   "note": "Holds if no pattern is empty or contains '..', and no directory beside the build directory has a name beginning with that of the build directory; without these conditions it is false (findings). Noticing changes holds; that nothing is noticed without a change fails if other products have generated matching files (finding)."
  },
  {
   "property": "C56",
   "status": "partial",
   "theorems": [
    "Verif.Anew.C56_changed_iff",
    "Verif.Anew.C56_kept",
    "Verif.Anew.C56_set_up",
    "Verif.Anew.C56_removed",
    "Verif.Anew.C56_rescued",
    "Verif.Anew.C56_similar_rule_missed"
   ],
   "note": "The full property holds if no two rules of a product have the same key (and scanners and dependencies are unique). C56_similar_rule_missed: without that a changed rule is missed and then an assertion fails."
  },
  {
   "property": "C57",
   "status": "partial",
   "theorems": [
    "Verif.Anew.C57_update",
    "Verif.Anew.C57_sources",
    "Verif.Anew.C57_artifacts_current_partial",
    "Verif.Anew.C57_group_order_missed",
    "Verif.Anew.C57_tagger_missed",
    "Verif.Anew.C57_comma_missed"
   ],
   "note": "Which artifacts are updated is proved exactly. That artifacts have the tags and properties they would get now holds only if file taggers are the same and at most one group matches each artifact: three findings show changes that are missed."
  },
  {
   "property": "C58",
   "status": "partial",
   "theorems": [
    "Verif.Cpp.C58_found_partial",
    "Verif.Cpp.C58_bom",
    "Verif.Cpp.C58_terminates",
    "Verif.Cpp.C58_reads_mapped",
    "Verif.Cpp.C58_reads_past_the_end",
    "Verif.Cpp.C58_latin1_hides",
    "Verif.Cpp.C58_null_directive_hides",
    "Verif.Cpp.C58_splice_hides",
    "Verif.Cpp.C58_splice_in_word",
    "Verif.Cpp.C58_nul_hides",
    "Verif.Cpp.C58_digit_separator_hides",
    "Verif.Cpp.C58_digit_separator_shows",
    "Verif.Cpp.C58_module_function_hides",
    "Verif.Cpp.C58_include_next_missed",
    "Verif.Cpp.C58_comment_continues",
    "Verif.Cpp.C58_lone_quote",
    "Verif.Cpp.C58_unclosed_name"
   ],
   "note": "Proved for all files made of lines of directives, code, literals of all kinds, comments, raw strings and module declarations as specified in Spec.lean (FileOk). Each exclusion corresponds to a finding: invalid UTF-8, null directives, spliced lines, NUL, digit separators, declarations that begin with module, unclosed names. Termination holds for all byte sequences. Reads stay in mapped memory unless the size is a multiple of the page size (finding)."
  },
  {
   "property": "C59",
   "status": "partial",
   "theorems": [
    "Verif.Cpp.C59_modules_partial",
    "Verif.Cpp.C59_partition_cut",
    "Verif.Cpp.C59_header_unit_cut",
    "Verif.Cpp.C59_quoted_unit_missed",
    "Verif.Cpp.C59_second_on_line_missed"
   ],
   "note": "As for C58. Excluded and shown as findings: partitions with dots, header units with slashes or in quotes, and several imports in one line."
  },
  {
   "property": "C60",
   "status": "partial",
   "theorems": [
    "Verif.Eval.C60_scalar_partial",
    "Verif.Eval.C60_list_partial",
    "Verif.Eval.C60_accepted",
    "Verif.Eval.C60_evaluated_partial",
    "Verif.Eval.C60_names",
    "Verif.Eval.C60_var_lost",
    "Verif.Eval.C60_fallback_applies",
    "Verif.Eval.C60_two_fallbacks"
   ],
   "note": "Proved for scalar properties and lists of strings whose bindings do not use base or original. Excluded and shown as findings: properties of type var without a binding outside, list items that apply and are undefined, two fallbacks. That evaluation gives the value (C60_evaluated_partial) needs projects without overrideListProperties."
  },
  {
   "property": "C61",
   "status": "partial",
   "theorems": [
    "Verif.Eval.C61_terminates",
    "Verif.Eval.C61_unique",
    "Verif.Eval.C61_right_partial",
    "Verif.Eval.C61_cycle_partial",
    "Verif.Eval.C61_found_partial",
    "Verif.Eval.C61_any_order_partial",
    "Verif.Eval.C61_same_partial",
    "Verif.Eval.C61_false_cycle",
    "Verif.Eval.C61_order_dependent",
    "Verif.Eval.C61_failure_forgotten",
    "Verif.Eval.C61_failure_spreads",
    "Verif.Eval.C61_override_remains",
    "Verif.Eval.C61_error_ignored",
    "Verif.Eval.C61_path_of_other_product"
   ],
   "note": "Termination and uniqueness hold without restriction. A value found is right, and there is an error if there is none, after any evaluations that succeeded, in projects without overrideListProperties and without conditions in placeholders; that a value is found needs that no declaration is used in working out itself. The findings show that the restrictions are needed: failures, overriding, ignored errors and inherited declarations make results depend on the order."
  },
  {
   "property": "C62",
   "status": "proved",
   "theorems": [
    "Verif.Eval.C62_type",
    "Verif.Eval.C62_constant"
   ],
   "note": "Arrays that JavaScript code modifies in place are not modelled."
  },
  {
   "property": "C63",
   "status": "partial",
   "theorems": [
    "Verif.Files.C63_terminates",
    "Verif.Files.C63_removed",
    "Verif.Files.C63_succeeds",
    "Verif.Files.C63_others_kept_partial",
    "Verif.Files.C63_others_kept",
    "Verif.Files.C63_left",
    "Verif.Files.C63_reported",
    "Verif.Files.C63_directory",
    "Verif.Files.C63_link_makes_writable",
    "Verif.Files.C63_install_root_is_link"
   ],
   "note": "Holds for all trees, orders and refusals, except that files links lead to may become writable (finding). A link as the install root is removed, but not the installation (finding)."
  },
  {
   "property": "C64",
   "status": "partial",
   "theorems": [
    "Verif.Files.C64_copied_partial",
    "Verif.Files.C64_exact_partial",
    "Verif.Files.C64_source_kept",
    "Verif.Files.C64_others_kept",
    "Verif.Files.C64_succeeds",
    "Verif.Files.C64_empty_directory",
    "Verif.Files.C64_missing_source",
    "Verif.Files.C64_directory_in_the_way",
    "Verif.Files.C64_link_makes_writable"
   ],
   "note": "Holds for all trees without links in the target, except for empty directories, missing sources and newer directories in the place of files (findings)."
  },
  {
   "property": "C65",
   "status": "partial",
   "theorems": [
    "Verif.Files.C65_moved",
    "Verif.Files.C65_failed_partial",
    "Verif.Files.C65_succeeds",
    "Verif.Files.C65_same_path",
    "Verif.Files.C65_missing_source",
    "Verif.Files.C65_refused"
   ],
   "note": "If overwriting fails, the old target is lost (findings); that nothing changes on failure is proved for all other cases."
  },
  {
   "property": "C66",
   "status": "partial",
   "theorems": [
    "Verif.Deps.C66_fulfilled",
    "Verif.Deps.C66_by_type",
    "Verif.Deps.C66_order",
    "Verif.Deps.C66_acyclic",
    "Verif.Deps.C66_only_needed",
    "Verif.Deps.C66_right_one",
    "Verif.Deps.C66_absent",
    "Verif.Deps.C66_once",
    "Verif.Deps.C66_ends",
    "Verif.Deps.C66_ends_without_deferring",
    "Verif.Deps.C66_succeeds",
    "Verif.Deps.C66_cycle_real",
    "Verif.Deps.C66_missing_unnoticed",
    "Verif.Deps.C66_disabled_unnoticed",
    "Verif.Deps.C66_two_profiles",
    "Verif.Deps.C66_false_condition",
    "Verif.Deps.C66_loaded_twice",
    "Verif.Deps.C66_by_type_dropped",
    "Verif.Deps.C66_internal_error",
    "Verif.Deps.C66_dot_twice",
    "Verif.Deps.C66_submodule_variant",
    "Verif.Deps.C66_profile_module",
    "Verif.Deps.C66_no_end"
   ],
   "note": "Proved for all reachable states, with every interleaving of deferrals. What is missing: a required module that does not exist or a disabled product goes unnoticed if a Depends item that does not require it comes first; dependencies by type on variants may be dropped, doubled, fail or not end (findings). Uniqueness and termination are proved for dependencies by name."
  },
  {
   "property": "C67",
   "status": "partial",
   "theorems": [
    "Verif.Choose.C67_best",
    "Verif.Choose.C67_none",
    "Verif.Choose.C67_ambiguous",
    "Verif.Choose.C67_order",
    "Verif.Choose.C67_first_range"
   ],
   "note": "Holds for each look-up. Only the first Depends item counts for the look-up (finding)."
  },
  {
   "property": "C68",
   "status": "proved",
   "theorems": [
    "Verif.Deps.C68_wanted",
    "Verif.Deps.C68_none",
    "Verif.Deps.C68_one",
    "Verif.Deps.C68_ambiguous"
   ],
   "note": "For all projects."
  },
  {
   "property": "C69",
   "status": "partial",
   "theorems": [
    "Verif.Present.C69_complete",
    "Verif.Present.C69_checked",
    "Verif.Present.C69_imported",
    "Verif.Present.C69_kept",
    "Verif.Present.C69_required",
    "Verif.Present.C69_errors",
    "Verif.Present.C69_wf",
    "Verif.Present.C69_recorded",
    "Verif.Present.C69_resolved_complete",
    "Verif.Present.C69_resolved_fulfilled_partial",
    "Verif.Present.C69_resolved_present",
    "Verif.Present.C69_resolved_required",
    "Verif.Present.C69_first_item",
    "Verif.Present.C69_type_required",
    "Verif.Present.C69_second_profile"
   ],
   "note": "Proved for every state that resolving dependencies can end in. What is missing: of several Depends items for the same name in a module only the first one counts, and what an optional module asks for by product type counts as required (findings)."
  },
  {
   "property": "C70",
   "status": "partial",
   "theorems": [
    "Verif.Params.C70_value",
    "Verif.Params.C70_origin",
    "Verif.Params.C70_default",
    "Verif.Params.C70_conflict",
    "Verif.Params.C70_same_loader",
    "Verif.Params.C70_justified_partial",
    "Verif.Params.C70_no_conflict",
    "Verif.Params.C70_false_conflict",
    "Verif.Params.C70_overridden_conflict",
    "Verif.Params.C70_value_and_group",
    "Verif.Params.C70_undefined"
   ],
   "note": "Values and the reporting of conflicts are proved. That only conflicts are reported holds if items that are equally close set the same parameters; otherwise a value may be compared with the default or with one of a lower priority (findings)."
  },
  {
   "property": "C71",
   "status": "partial",
   "theorems": [
    "Verif.Pc.C71_lines",
    "Verif.Pc.C71_every_file",
    "Verif.Pc.C71_substitution",
    "Verif.Pc.C71_every_text",
    "Verif.Pc.C71_arguments",
    "Verif.Pc.C71_every_argument_list",
    "Verif.Pc.C71_arguments_round_trip",
    "Verif.Pc.C71_requires",
    "Verif.Pc.C71_variable",
    "Verif.Pc.C71_only",
    "Verif.Pc.C71_once",
    "Verif.Pc.C71_precedence",
    "Verif.Pc.C71_order",
    "Verif.Pc.C71_text_field",
    "Verif.Pc.C71_flags_field",
    "Verif.Pc.C71_packages_field",
    "Verif.Pc.C71_no_field",
    "Verif.Pc.C71_prefix",
    "Verif.Pc.C71_relocated",
    "Verif.Pc.C71_not_relocated",
    "Verif.Pc.C71_root",
    "Verif.Pc.C71_empty_argument",
    "Verif.Pc.C71_open_quote",
    "Verif.Pc.C71_last_comma",
    "Verif.Pc.C71_blanks",
    "Verif.Pc.C71_empty_field_twice",
    "Verif.Pc.C71_same_environment_variable",
    "Verif.Pc.C71_dollar_in_prefix",
    "Verif.Pc.C71_empty_prefix",
    "Verif.Pc.C71_directory_with_suffix",
    "Verif.Pc.C71_slash_after_prefix"
   ],
   "note": "Proved for all files. What is missing: empty arguments are lost, open quotes are accepted, commas at the end and operators without white space are not, an empty field may be repeated, and there are exceptions when the prefix is redefined (findings). Lists of packages are proved for those that are well-formed."
  },
  {
   "property": "C72",
   "status": "partial",
   "theorems": [
    "Verif.Pc.C72_libs",
    "Verif.Pc.C72_cflags",
    "Verif.Pc.C72_sysroot",
    "Verif.Pc.C72_no_sysroot",
    "Verif.Pc.C72_system_paths",
    "Verif.Pc.C72_found",
    "Verif.Pc.C72_no_boundary",
    "Verif.Pc.C72_two_arguments",
    "Verif.Pc.C72_same_path",
    "Verif.Pc.C72_last_directory",
    "Verif.Pc.C72_sorting_matters"
   ],
   "note": "Proved but for the order of directories: of packages with the same name, any may win, and for scripts normally the last one does; the sysroot is compared without regard to directories (findings)."
  },
  {
   "property": "C73",
   "status": "partial",
   "theorems": [
    "Verif.Pc.C73_versions_partial",
    "Verif.Pc.C73_equal_ignored",
    "Verif.Pc.C73_not_equal_refuses",
    "Verif.Pc.C73_not_checked",
    "Verif.Pc.C73_other_versions",
    "Verif.Pc.C73_less_than_zero"
   ],
   "note": "Holds for <, <=, > and >= with versions of up to three numbers. With =, != and other versions it does not (findings)."
  },
  {
   "property": "C75",
   "status": "partial",
   "theorems": [
    "Verif.Proc.C75_once",
    "Verif.Proc.C75_justified",
    "Verif.Proc.C75_exit_code_partial",
    "Verif.Proc.C75_stops_its_own_process",
    "Verif.Proc.C75_response_files_partial",
    "Verif.Proc.C75_ends_partial",
    "Verif.Proc.C75_stop_ends",
    "Verif.Proc.C75_cancel_before_start",
    "Verif.Proc.C75_timeout_armed",
    "Verif.Proc.C75_timeout_reported",
    "Verif.Proc.C75_stopped_only_if_asked",
    "Verif.Proc.C75_given_up",
    "Verif.Proc.C75_crash_is_success",
    "Verif.Proc.C75_negative_max",
    "Verif.Proc.C75_error_stays",
    "Verif.Proc.C75_timeout_stays",
    "Verif.Proc.C75_hangs",
    "Verif.Proc.C75_hangs_later",
    "Verif.Proc.C75_late_report",
    "Verif.Proc.C75_response_file_left"
   ],
   "note": "Reports, stopping of the right process and the end of processes that run are proved. Executors do not recover from a failure to start or a timeout, a timeout can make a command hang, and crashes can be successes (findings)."
  },
  {
   "property": "C74",
   "status": "partial",
   "theorems": [
    "Verif.Command.C74_others_kept",
    "Verif.Command.C74_value_set",
    "Verif.Command.C74_search_order",
    "Verif.Command.C74_new_list",
    "Verif.Command.C74_not_emptied"
   ],
   "note": "Holds for all entries with a value; an entry with an empty value is ignored (finding)."
  },
  {
   "property": "C76",
   "status": "partial",
   "theorems": [
    "Verif.Command.C76_absolute",
    "Verif.Command.C76_first_in_path_partial",
    "Verif.Command.C76_recorded",
    "Verif.Command.C76_other_working_directory",
    "Verif.Command.C76_not_found_again",
    "Verif.Command.C76_own_path_ignored",
    "Verif.Command.C76_relative_path"
   ],
   "note": "Holds as long as files and working directories stay the same. The cache ignores both, the PATH set by the command is not used, and relative paths are looked for in PATH (findings)."
  },
  {
   "property": "C77",
   "status": "partial",
   "theorems": [
    "Verif.Command.C77_when_used",
    "Verif.Command.C77_same_arguments_partial",
    "Verif.Command.C77_backslash_lost",
    "Verif.Command.C77_not_a_file",
    "Verif.Command.C77_separator",
    "Verif.Command.C77_negative_index"
   ],
   "note": "Holds for separators of white space and arguments without backslashes that are not mistaken for response files; otherwise it does not (findings)."
  },
  {
   "property": "C78",
   "status": "partial",
   "theorems": [
    "Verif.Command.C78_lines",
    "Verif.Command.C78_redirected",
    "Verif.Command.C78_empty_lines"
   ],
   "note": "Empty lines are not reported (finding). Filter functions are not modelled."
  },
  {
   "property": "C79",
   "status": "partial",
   "theorems": [
    "Verif.Command.C79_equal_iff_same",
    "Verif.Command.C79_list_equal",
    "Verif.Command.C79_equal_same_process",
    "Verif.Command.C79_javascript_partial",
    "Verif.Command.C79_import_scope"
   ],
   "note": "Proved for process commands; the file in whose scope the code of a JavaScript command runs is not compared (finding)."
  },
  {
   "property": "C80",
   "status": "partial",
   "theorems": [
    "Verif.Toolchain.C80_members",
    "Verif.Toolchain.C80_single",
    "Verif.Toolchain.C80_no_duplicates",
    "Verif.Toolchain.C80_custom_first",
    "Verif.Toolchain.C80_custom_order",
    "Verif.Toolchain.C80_order_irrelevant",
    "Verif.Toolchain.C80_idempotent",
    "Verif.Toolchain.C80_specific_first_partial",
    "Verif.Toolchain.C80_emscripten"
   ],
   "note": "Everything but the order of emscripten and gcc is proved: there the general toolchain comes first (finding)."
  },
  {
   "property": "C81",
   "status": "partial",
   "theorems": [
    "Verif.Override.C81_tree",
    "Verif.Override.C81_product_value",
    "Verif.Override.C81_module_value",
    "Verif.Override.C81_project_value",
    "Verif.Override.C81_product_name",
    "Verif.Override.C81_unknown_property",
    "Verif.Override.C81_undeclared_untouched",
    "Verif.Override.C81_key_understood",
    "Verif.Override.C81_unknown_names",
    "Verif.Override.C81_error_reason",
    "Verif.Override.C81_relaxed",
    "Verif.Override.C81_string_list",
    "Verif.Override.C81_kept",
    "Verif.Override.C81_dotted_name",
    "Verif.Override.C81_ambiguous_key",
    "Verif.Override.C81_unknown_module_ignored",
    "Verif.Override.C81_no_property_ignored",
    "Verif.Override.C81_path_list",
    "Verif.Override.C81_rename",
    "Verif.Override.C81_rename_modules"
   ],
   "note": "Values, precedence and errors are proved. Products with dots in their names cannot be addressed, keys can be ambiguous, unknown modules are ignored, products cannot be renamed and lists of paths cannot be given as text (findings)."
  },
  {
   "property": "C82",
   "status": "partial",
   "theorems": [
    "Verif.Override.C82_overridden_tree",
    "Verif.Override.C82_config_tree",
    "Verif.Override.C82_final_partial",
    "Verif.Override.C82_final_first",
    "Verif.Override.C82_expand",
    "Verif.Override.C82_expand_failed",
    "Verif.Override.C82_final_stale",
    "Verif.Override.C82_undotted_lost"
   ],
   "note": "Proved for the overridden values and the build configuration after every history. The final build configuration is not renewed if an expansion changes the build configuration after it was asked for (finding)."
  },
  {
   "property": "C83",
   "status": "partial",
   "theorems": [
    "Verif.Cli.C83_reads",
    "Verif.Cli.C83_unambiguous",
    "Verif.Cli.C83_group",
    "Verif.Cli.C83_terminates",
    "Verif.Cli.C83_command",
    "Verif.Cli.C83_default_command",
    "Verif.Cli.C83_help",
    "Verif.Cli.C83_version",
    "Verif.Cli.C83_run_arguments_partial",
    "Verif.Cli.C83_list",
    "Verif.Cli.C83_log_level",
    "Verif.Cli.C83_run_help",
    "Verif.Cli.C83_option_as_argument",
    "Verif.Cli.C83_late_help"
   ],
   "note": "Which lines are accepted and what is taken from them is characterised exactly. The arguments for a program that is run are passed on unless one of them is -h or --help (finding)."
  },
  {
   "property": "C84",
   "status": "partial",
   "theorems": [
    "Verif.Cli.C84_names",
    "Verif.Cli.C84_distinct",
    "Verif.Cli.C84_value",
    "Verif.Cli.C84_default",
    "Verif.Cli.C84_repeated",
    "Verif.Cli.C84_undotted_name"
   ],
   "note": "Names and values of the configurations are proved for every line; a second section for the same configuration is ignored (finding). The conversion of texts to values is not part of it."
  },
  {
   "property": "C85",
   "status": "proved",
   "theorems": [
    "Verif.Api.C85_one_reply",
    "Verif.Api.C85_no_spurious_reply",
    "Verif.Api.C85_job_reply",
    "Verif.Api.C85_busy",
    "Verif.Api.C85_busy_resolve",
    "Verif.Api.C85_needs_project",
    "Verif.Api.C85_cancel",
    "Verif.Api.C85_quit_silent",
    "Verif.Api.C85_quit_closes",
    "Verif.Api.C85_superseded",
    "Verif.Api.C85_release_during_job"
   ],
   "note": "Proved for every client that keeps to the documented protocol. What happens to clients that resolve again before a canceled resolve has ended, or release during a job, is stated separately (findings)."
  },
  {
   "property": "C86",
   "status": "partial",
   "theorems": [
    "Verif.Api.C86_named_products_partial",
    "Verif.Api.C86_default_products",
    "Verif.Api.C86_clean_all",
    "Verif.Api.C86_single_product",
    "Verif.Api.C86_unknown_products"
   ],
   "note": "Proved if at least one of the named products exists; otherwise the request is about the default products, or all (finding)."
  },
  {
   "property": "C87",
   "status": "partial",
   "theorems": [
    "Verif.Api.C87_client_data_partial",
    "Verif.Api.C87_data_mode",
    "Verif.Api.C87_add_files",
    "Verif.Api.C87_remove_files",
    "Verif.Api.C87_rename",
    "Verif.Api.C87_no_such_group",
    "Verif.Api.C87_dependencies",
    "Verif.Api.C87_failed_build",
    "Verif.Api.C87_failed_rename"
   ],
   "note": "Proved unless a build or a rename fails. Failing to add dependencies is reported as success, failed builds and renames leave the client with old data, and a failed rename loses the file (findings)."
  },
  {
   "property": "C88",
   "status": "partial",
   "theorems": [
    "Verif.EnvSetup.C88_order",
    "Verif.EnvSetup.C88_history_partial",
    "Verif.EnvSetup.C88_products_independent",
    "Verif.EnvSetup.C88_exponential",
    "Verif.EnvSetup.C88_asking_changes_builds"
   ],
   "note": "Proved if the build environment is only asked for on top of the project's environment: otherwise later builds use the environment of the first request (finding). Sorting the modules takes exponential time (finding)."
  },
  {
   "property": "C89",
   "status": "partial",
   "theorems": [
    "Verif.Updater.C89_add_to_array",
    "Verif.Updater.C89_add_to_string",
    "Verif.Updater.C89_add_to_expression",
    "Verif.Updater.C89_add_property",
    "Verif.Updater.C89_remove_partial",
    "Verif.Updater.C89_remove_missing",
    "Verif.Updater.C89_remove_only",
    "Verif.Updater.C89_add_group_partial",
    "Verif.Updater.C89_add_depends_partial",
    "Verif.Updater.C89_removing_changes_others",
    "Verif.Updater.C89_group_name",
    "Verif.Updater.C89_added_twice",
    "Verif.Updater.C89_added_not_removed",
    "Verif.Updater.C89_comments_lost"
   ],
   "note": "Adding files is proved for every form of the property. Removing files and adding groups is proved for names without quotes, backslashes and line ends: others are written without escapes (findings). Comments in lists get lost; files added before are not known (findings)."
  },
  {
   "property": "C90",
   "status": "partial",
   "theorems": [
    "Verif.Updater.C90_remove_partial",
    "Verif.Updater.C90_line_removed"
   ],
   "note": "Proved if the group is the first thing in its line, or the line before is not empty; otherwise the start of the line is removed as well (finding)."
  },
  {
   "property": "C91",
   "status": "partial",
   "theorems": [
    "Verif.Updater.C91_outside",
    "Verif.Updater.C91_mixed",
    "Verif.Updater.C91_lost",
    "Verif.Updater.C91_written_partial"
   ],
   "note": "Proved for files with the same line ends everywhere and if writing succeeds. Mixed line ends change, and a failure of writing loses the file while success is reported (findings)."
  },
  {
   "property": "C92",
   "status": "partial",
   "theorems": [
    "Verif.Read.C92_chain",
    "Verif.Read.C92_values_partial",
    "Verif.Read.C92_children",
    "Verif.Read.C92_allowed",
    "Verif.Read.C92_declared",
    "Verif.Read.C92_first_declaration",
    "Verif.Read.C92_readonly_partial",
    "Verif.Read.C92_readonly_derived",
    "Verif.Read.C92_once",
    "Verif.Read.C92_readonly_lost",
    "Verif.Read.C92_readonly_builtin",
    "Verif.Read.C92_order",
    "Verif.Read.C92_hidden"
   ],
   "note": "Values, children, types and duplicates are proved for all items and chains. The declaration farthest away counts, so a read-only property can be set after a redeclaration; built-in read-only properties can be set; a later declaration loses a value; a value for a whole item hides those in it (findings)."
  },
  {
   "property": "C93",
   "status": "proved",
   "theorems": [
    "Verif.Read.C93_terminates",
    "Verif.Read.C93_no_loop",
    "Verif.Read.C93_loop",
    "Verif.Read.C93_result"
   ],
   "note": "For all files and types; reading is modelled with fuel, and enough fuel is shown to exist."
  },
  {
   "property": "C94",
   "status": "partial",
   "theorems": [
    "Verif.Imports.C94_types_partial",
    "Verif.Imports.C94_scripts_partial",
    "Verif.Imports.C94_names",
    "Verif.Imports.C94_unnamed",
    "Verif.Imports.C94_order_partial",
    "Verif.Imports.C94_found",
    "Verif.Imports.C94_no_base",
    "Verif.Imports.C94_no_name",
    "Verif.Imports.C94_order_matters"
   ],
   "note": "Proved for all directories, search paths and imports, unless something is imported that is a type already: then the import does nothing, so qbs.qbs in a directory hides all types that come with qbs, a name after as is not known, and the order matters (findings)."
  },
  {
   "property": "C95",
   "status": "partial",
   "theorems": [
    "Verif.Tags.C95_tags",
    "Verif.Tags.C95_taggers",
    "Verif.Tags.C95_some_tag",
    "Verif.Tags.C95_tagger_on_tagged",
    "Verif.Tags.C95_tagger_in_group"
   ],
   "note": "Proved for all products with any nesting of groups, file taggers, filters and modules, and any order of taggers of equal priority. The documentation promises that taggers never apply to files with fileTags, which does not hold with overrideTags: false (finding)."
  },
  {
   "property": "C96",
   "status": "partial",
   "theorems": [
    "Verif.Tags.C96_sources",
    "Verif.Tags.C96_exists",
    "Verif.Tags.C96_missing",
    "Verif.Tags.C96_once_partial",
    "Verif.Tags.C96_filter_children",
    "Verif.Tags.C96_filter_children_lost",
    "Verif.Tags.C96_properties_internal",
    "Verif.Tags.C96_override_twice",
    "Verif.Tags.C96_exclude_listed"
   ],
   "note": "Proved for all products; that no file is there twice only if the values of files have locations, which those from the command line do not have (finding). Groups inside a group with fileTagsFilter are ignored, files set in Properties items end in an internal error, excludeFiles does not touch listed files (findings)."
  },
  {
   "property": "C97",
   "status": "partial",
   "theorems": [
    "Verif.Tags.C97_props_partial",
    "Verif.Tags.C97_generated_partial",
    "Verif.Tags.C97_wiped",
    "Verif.Tags.C97_product_changed",
    "Verif.Tags.C97_generated_first",
    "Verif.Tags.C97_order_of_filter"
   ],
   "note": "Proved if every group with a filter sets a module property and no two have the same list. Otherwise all module properties of matching files are lost, or those of the product are changed (findings)."
  },
  {
   "property": "C98",
   "status": "partial",
   "theorems": [
    "Verif.Provider.C98_asked",
    "Verif.Provider.C98_config",
    "Verif.Provider.C98_answers_partial",
    "Verif.Provider.C98_complete",
    "Verif.Provider.C98_once",
    "Verif.Provider.C98_search_paths",
    "Verif.Provider.C98_stale"
   ],
   "note": "Proved for all products, schedules of threads and histories of sessions if all products see the same provider files and these do not change. Results are remembered without the search paths, so otherwise the result depends on which product comes first; stored results outlive changes of the provider's file (findings). Probes inside providers are part of the provider's script."
  },
  {
   "property": "C99",
   "status": "partial",
   "theorems": [
    "Verif.Provider.C99_stored_partial",
    "Verif.Provider.C99_real_keeps",
    "Verif.Provider.C99_dry_partial",
    "Verif.Provider.C99_dry_removes",
    "Verif.Provider.C99_dangling"
   ],
   "note": "Proved for all real sessions. A dry run removes output of a provider that belongs to the stored build graph, and the next session uses search paths that are gone (findings)."
  },
  {
   "property": "C100",
   "status": "partial",
   "theorems": [
    "Verif.Front.C100_zero_partial",
    "Verif.Front.C100_success",
    "Verif.Front.C100_ends",
    "Verif.Front.C100_none_left",
    "Verif.Front.C100_interrupt_lost",
    "Verif.Front.C100_install_left"
   ],
   "note": "Proved for all histories of jobs and interrupts. For commands that install, an interrupt during the build is lost and the exit code can be 0, and the frontend can end while the installation runs (findings)."
  },
  {
   "property": "C101",
   "status": "partial",
   "theorems": [
    "Verif.Front.C101_phases",
    "Verif.Front.C101_failed_starts_nothing",
    "Verif.Front.C101_interrupted_partial",
    "Verif.Front.C101_cancels",
    "Verif.Front.C101_cancels_once",
    "Verif.Front.C101_installs_anyway",
    "Verif.Front.C101_generates_anyway"
   ],
   "note": "Proved for all histories, but for the installation after an interrupt during the build; generate writes files although a build has failed (findings)."
  },
  {
   "property": "C102",
   "status": "partial",
   "theorems": [
    "Verif.Front.C102_once",
    "Verif.Front.C102_products",
    "Verif.Front.C102_unknown",
    "Verif.Front.C102_jobs_partial",
    "Verif.Front.C102_jobs_of_another_profile"
   ],
   "note": "Proved for all histories. The number of jobs is that of the profile of the project that is resolved first (finding), so it is right only if the option is given or the preferences agree."
  },
  {
   "property": "C103",
   "status": "partial",
   "theorems": [
    "Verif.Makefile.C103_rules_partial",
    "Verif.Makefile.C103_spaces",
    "Verif.Makefile.C103_command",
    "Verif.Makefile.C103_below",
    "Verif.Makefile.C103_variable",
    "Verif.Makefile.Witness.project_plain",
    "Verif.Makefile.Witness.C103_reference",
    "Verif.Makefile.Witness.C103_line_break",
    "Verif.Makefile.Witness.C103_prefix",
    "Verif.Makefile.Witness.C103_where",
    "Verif.Makefile.Witness.C103_js",
    "Verif.Makefile.Witness.C103_clean_other_files",
    "Verif.Makefile.Witness.C103_quote_in_directory",
    "Verif.Makefile.Witness.C103_dollar_in_name",
    "Verif.Makefile.Witness.C103_not_installed"
   ],
   "note": "Proved for all projects with plain directories and names (a predicate in the specification); file names may contain spaces and quotes and arguments anything but line breaks and references. Outside of this it is wrong in the ways given by the findings."
  },
  {
   "property": "C104",
   "status": "partial",
   "theorems": [
    "Verif.Makefile.C104_targets_partial",
    "Verif.Makefile.C104_legal",
    "Verif.Makefile.C104_all_partial",
    "Verif.Makefile.Witness.C104_same_target",
    "Verif.Makefile.Witness.C104_same_target_configuration",
    "Verif.Makefile.Witness.C104_product_clean"
   ],
   "note": "Proved for names of letters, digits, dots and underscores without multiplexing; otherwise targets can collide (findings)."
  },
  {
   "property": "C105",
   "status": "partial",
   "theorems": [
    "Verif.Link.C105_complete",
    "Verif.Link.C105_objects_partial",
    "Verif.Link.C105_external",
    "Verif.Link.C105_only",
    "Verif.Link.C105_order",
    "Verif.Link.C105_external_last",
    "Verif.Link.C105_once",
    "Verif.Link.C105_rpath_link",
    "Verif.Link.app_fine",
    "Verif.Link.C105_whole_archive_lost",
    "Verif.Link.C105_object_library_order",
    "Verif.Link.C105_inherited_name",
    "Verif.Link.C105_variant_ignored",
    "Verif.Link.C105_external_library_of_product",
    "Verif.Link.C105_exponential"
   ],
   "note": "Proved for all trees of dependencies in which a name means one product, files belong to one product and names are none of those every JavaScript object has; object libraries only if no static library contains them. The findings show what happens otherwise, that linkWholeArchive can be lost, and that the time is exponential."
  },
  {
   "property": "C106",
   "status": "proved",
   "theorems": [
    "Verif.Link.C106_arguments",
    "Verif.Link.C106_linked"
   ],
   "note": "For all lists of libraries."
  },
  {
   "property": "C107",
   "status": "partial",
   "theorems": [
    "Verif.Create.C107_sources_partial",
    "Verif.Create.C107_existing",
    "Verif.Create.C107_flat",
    "Verif.Create.C107_names_partial",
    "Verif.Create.C107_order",
    "Verif.Create.leStr_order",
    "Verif.Create.tree_good",
    "Verif.Create.C107_pattern",
    "Verif.Create.C107_line_break",
    "Verif.Create.C107_qbs_directory",
    "Verif.Create.C107_same_names",
    "Verif.Create.C107_same_base_names",
    "Verif.Create.C107_hidden_directory"
   ],
   "note": "Proved for all trees whose names have no ends of lines and whose file names have no pattern characters; the names of products are different if those of the directories are, up to the first dot. The findings show what happens otherwise. Not modelled: failures to write, symbolic links."
  },
  {
   "property": "C108",
   "status": "partial",
   "theorems": [
    "Verif.Create.C108_depends",
    "Verif.Create.C108_type_partial",
    "Verif.Create.C108_main_header"
   ],
   "note": "The dependency is characterized exactly; the type up to files called main that are not for a compiler, for which the result depends on the order (finding)."
  },
  {
   "property": "C109",
   "status": "partial",
   "theorems": [
    "Verif.Config.C109_states",
    "Verif.Config.C109_text_partial",
    "Verif.Config.C109_json_partial",
    "Verif.Config.C109_both_partial",
    "Verif.Config.C109_line_break",
    "Verif.Config.C109_comment",
    "Verif.Config.C109_colon",
    "Verif.Config.C109_lists_grow",
    "Verif.Config.C109_failed_import",
    "Verif.Config.C109_json_not_valid",
    "Verif.Config.C109_json_group",
    "Verif.Config.C109_json_type",
    "Verif.Config.C109_json_map"
   ],
   "note": "Proved for all settings whose keys and values can be written in the format; the findings show what happens to the others. QSettings, QTextStream and QJsonDocument are assumed to read what they wrote."
  },
  {
   "property": "C110",
   "status": "partial",
   "theorems": [
    "Verif.Config.C110_add_profile_partial",
    "Verif.Config.C110_unset_partial",
    "Verif.Config.C110_set",
    "Verif.Config.C110_none",
    "Verif.Config.C110_dot",
    "Verif.Config.C110_unset_nothing"
   ],
   "note": "Names of profiles that begin with none or have dots, and empty names to be removed, are left out; findings show what happens."
  },
  {
   "property": "C111",
   "status": "partial",
   "theorems": [
    "Verif.Touch.C111_times",
    "Verif.Touch.C111_next_build_partial",
    "Verif.Touch.C111_later_edit",
    "Verif.Touch.C111_some_products",
    "Verif.Touch.C111_interrupted",
    "Verif.Touch.C111_check_timestamps"
   ],
   "note": "Proved when all products are updated, no transformer was left marked by an interrupted build and the next build does not check the times on the disk; the findings show what happens otherwise."
  },
  {
   "property": "C112",
   "status": "partial",
   "theorems": [
    "Verif.Lexer.C112_layout",
    "Verif.Lexer.C112_ends",
    "Verif.Lexer.C112_positions",
    "Verif.Lexer.C112_inserted",
    "Verif.Lexer.C112_restricted",
    "Verif.Lexer.C112_symbols",
    "Verif.Lexer.C112_symbols_found",
    "Verif.Lexer.C112_words",
    "Verif.Lexer.C112_words_found",
    "Verif.Lexer.C112_numbers_found",
    "Verif.Lexer.C112_no_oob_partial",
    "Verif.Lexer.C112_reads_behind_end",
    "Verif.Lexer.C112_nul",
    "Verif.Lexer.C112_open_comment",
    "Verif.Lexer.C112_inserted_place",
    "Verif.Lexer.C112_newline_in_comment",
    "Verif.Lexer.C112_increment"
   ],
   "note": "Proved but for texts that end inside an escape sequence, where the lexer reads out of bounds, and the place and presence of inserted semicolons; the findings show these. Regular expressions are not modelled."
  },
  {
   "property": "C113",
   "status": "partial",
   "theorems": [
    "Verif.Lexer.C113_value_partial",
    "Verif.Lexer.C113_roundtrip",
    "Verif.Lexer.C113_zero",
    "Verif.Lexer.C113_continuation",
    "Verif.Lexer.C113_upper_x",
    "Verif.Lexer.C113_doubled"
   ],
   "note": "Proved for all literals without line continuations, \\X, and a digit at the second place after \\0; the findings show that these are read wrongly."
  },
  {
   "property": "C114",
   "status": "partial",
   "theorems": [
    "Verif.Lsp.C114_delivered",
    "Verif.Lsp.C114_all",
    "Verif.Lsp.C114_no_error",
    "Verif.Lsp.C114_no_error_plain",
    "Verif.Lsp.C114_overwriting_partial",
    "Verif.Lsp.C114_split_header",
    "Verif.Lsp.C114_busy",
    "Verif.Lsp.C114_spurious_error",
    "Verif.Lsp.C114_spurious_charset",
    "Verif.Lsp.C114_unknown_charset",
    "Verif.Lsp.C114_bad_length",
    "Verif.Lsp.C114_no_length"
   ],
   "note": "Proved for all pieces if every write to the QBuffer goes to its end. If the flag Append only sets the first position (QBuffer is not part of the repository), only for pieces that do not begin in a header; the findings show the rest, and that errors are reported for correct messages."
  },
  {
   "property": "C115",
   "status": "partial",
   "theorems": [
    "Verif.Lsp.C115_position",
    "Verif.Lsp.C115_text_partial",
    "Verif.Lsp.C115_up_to_date",
    "Verif.Lsp.C115_first_line",
    "Verif.Lsp.C115_one_line",
    "Verif.Lsp.C115_first_line_joined",
    "Verif.Lsp.C115_up_to_date_first",
    "Verif.Lsp.C115_beyond_line"
   ],
   "note": "Proved for all edits that do not begin in the first line; the findings show that in the first line every edit is one character off."
  },
  {
   "property": "C116",
   "status": "partial",
   "theorems": [
    "Verif.Lsp.C116_answered",
    "Verif.Lsp.C116_served",
    "Verif.Lsp.C116_documents",
    "Verif.Lsp.C116_shutdown",
    "Verif.Lsp.C116_exit",
    "Verif.Lsp.C116_notification",
    "Verif.Lsp.C116_initialized_twice",
    "Verif.Lsp.C116_shutdown_first",
    "Verif.Lsp.C116_half_applied",
    "Verif.Lsp.C116_change_answered"
   ],
   "note": "Proved, but notifications are answered with errors, and shutdown is possible before initialize (findings)."
  },
  {
   "property": "C117",
   "status": "partial",
   "theorems": [
    "Verif.Lsp.C117_offered_partial",
    "Verif.Lsp.C117_first_line",
    "Verif.Lsp.C117_submodule"
   ],
   "note": "Proved behind the first line; in the first line the cursor is taken to be one character further on (finding)."
  },
  {
   "property": "C118",
   "status": "partial",
   "theorems": [
    "Verif.Status.C118_untracked",
    "Verif.Status.C118_missing",
    "Verif.Status.C118_listed",
    "Verif.Status.C118_accounted",
    "Verif.Status.C118_once",
    "Verif.Status.C118_build_partial",
    "Verif.Status.C118_ignore_line_partial",
    "Verif.Status.C118_finding_wildcards",
    "Verif.Status.C118_finding_relative_line",
    "Verif.Status.C118_finding_plus",
    "Verif.Status.C118_finding_builder",
    "Verif.Status.C118_finding_outside",
    "Verif.Status.C118_finding_reported"
   ],
   "note": "The report is proved to be exact relative to the ignore list. The ignore list itself is wrong: the built-in wildcards and the lines without a slash match nothing, and the project path is used as a regular expression (findings); the _partial theorems hold for paths without special characters."
  },
  {
   "property": "C119",
   "status": "partial",
   "theorems": [
    "Verif.SettingsTree.C119_distinct",
    "Verif.SettingsTree.C119_new_key",
    "Verif.SettingsTree.C119_saved_partial",
    "Verif.SettingsTree.C119_save_works",
    "Verif.SettingsTree.C119_clean",
    "Verif.SettingsTree.C119_read_partial",
    "Verif.SettingsTree.C119_set_value_partial",
    "Verif.SettingsTree.C119_remove_partial",
    "Verif.SettingsTree.C119_finding_value_lost",
    "Verif.SettingsTree.C119_finding_dots",
    "Verif.SettingsTree.C119_finding_last_child",
    "Verif.SettingsTree.C119_finding_none",
    "Verif.SettingsTree.C119_finding_nonesuch",
    "Verif.SettingsTree.C119_finding_add_below",
    "Verif.SettingsTree.C119_finding_additional",
    "Verif.SettingsTree.C119_finding_empty_additional"
   ],
   "note": "Proved for all histories in which no names with dots are entered and for settings in which no key has both a value and keys below it; the findings show that the property fails otherwise."
  },
  {
   "property": "C120",
   "status": "partial",
   "theorems": [
    "Verif.Moc.C120_headers_partial",
    "Verif.Moc.C120_sources_partial",
    "Verif.Moc.C120_touched_partial",
    "Verif.Moc.C120_included",
    "Verif.Moc.C120_null_build",
    "Verif.Moc.C120_unmocable",
    "Verif.Moc.C120_finding_include_removed",
    "Verif.Moc.C120_finding_include_added",
    "Verif.Moc.C120_finding_combined",
    "Verif.Moc.C120_finding_unmocable_source",
    "Verif.Moc.C120_finding_retag",
    "Verif.Moc.C120_finding_substring",
    "Verif.Moc.C120_finding_not_combined"
   ],
   "note": "Proved for all histories of builds and changes in which no file changes which generated code it includes and no tags change, if the files that include generated code are tagged cpp or objcpp; and, whatever changed, for headers that are touched. The findings show that the property fails otherwise."
  },
  {
   "property": "C121",
   "status": "partial",
   "theorems": [
    "Verif.Decl.C121_reports",
    "Verif.Decl.C121_once",
    "Verif.Decl.C121_names",
    "Verif.Decl.C121_strict",
    "Verif.Decl.C121_undeclared_partial",
    "Verif.Decl.C121_no_module_partial",
    "Verif.Decl.C121_declared",
    "Verif.Decl.C121_finding_block",
    "Verif.Decl.C121_finding_block_module",
    "Verif.Decl.C121_finding_artifact",
    "Verif.Decl.C121_finding_group",
    "Verif.Decl.C121_finding_module_group",
    "Verif.Decl.C121_finding_block_whole"
   ],
   "note": "What the check reports is characterised exactly, for all sets of items. The full property (everything undeclared is reported) fails for Properties items, Artifact items, groups that use unknown modules, and groups in modules; the findings show this."
  },
  {
   "property": "C122",
   "status": "partial",
   "theorems": [
    "Verif.TextF.C122_read_lines_partial",
    "Verif.TextF.C122_written",
    "Verif.TextF.C122_lines_partial",
    "Verif.TextF.C122_text_partial",
    "Verif.TextF.C122_closed",
    "Verif.TextF.C122_readonly",
    "Verif.TextF.C122_binary",
    "Verif.TextF.C122_utf8",
    "Verif.TextF.C122_set_codec",
    "Verif.TextF.C122_finding_write_errors",
    "Verif.TextF.C122_finding_codec",
    "Verif.TextF.C122_finding_read_writeonly",
    "Verif.TextF.C122_finding_bom",
    "Verif.TextF.C122_finding_cr",
    "Verif.TextF.C122_finding_cr_all",
    "Verif.TextF.C122_finding_utf16_pieces",
    "Verif.TextF.C122_finding_utf16_lines",
    "Verif.TextF.C122_finding_utf16_read",
    "Verif.TextF.C122_finding_disk_full"
   ],
   "note": "Proved for UTF-8 with all texts except for byte order marks and carriage returns in certain places, and for binary files as long as the disk does not get full. The findings show that the exceptions are needed, that UTF-16 does not work with lines, and that errors are not reported."
  },
  {
   "property": "C123",
   "status": "partial",
   "theorems": [
    "Verif.Exported.C123_unmapped",
    "Verif.Exported.C123_mapped",
    "Verif.Exported.C123_specific",
    "Verif.Exported.C123_boundary",
    "Verif.Exported.C123_empty",
    "Verif.Exported.C123_list",
    "Verif.Exported.C123_refers",
    "Verif.Exported.C123_names",
    "Verif.Exported.C123_values",
    "Verif.Exported.C123_string_refers",
    "Verif.Exported.C123_untyped",
    "Verif.Exported.C123_products",
    "Verif.Exported.C123_params",
    "Verif.Exported.C123_params_lost",
    "Verif.Exported.C123_modules_once",
    "Verif.Exported.C123_modules"
   ],
   "note": "The mapping, the names of products and the modules are characterised exactly. The findings show that the most specific prefix does not win, that strings outside lists and undeclared lists are not cleaned, and that the parameters of dependencies are lost."
  },
  {
   "property": "C124",
   "status": "partial",
   "theorems": [
    "Verif.JsImport.C124_provides",
    "Verif.JsImport.C124_names_partial",
    "Verif.JsImport.C124_second_function",
    "Verif.JsImport.C124_global",
    "Verif.JsImport.C124_block_constant",
    "Verif.JsImport.C124_not_declared"
   ],
   "note": "An import that works provides what is declared. It works if there is at most one function expression outside of variables and no constant in a block; the findings show that it does not in general."
  },
  {
   "property": "C125",
   "status": "partial",
   "theorems": [
    "Verif.JsImport.C125_require_partial",
    "Verif.JsImport.C125_next_partial",
    "Verif.JsImport.C125_cached",
    "Verif.JsImport.C125_circle",
    "Verif.JsImport.C125_caught",
    "Verif.JsImport.C125_not_required"
   ],
   "note": "Proved for files that do not require each other in a circle and do not catch errors of required files; the findings show that both conditions are needed."
  },
  {
   "property": "C126",
   "status": "partial",
   "theorems": [
    "Verif.PcExport.C126_read_back_partial",
    "Verif.PcExport.C126_required",
    "Verif.PcExport.C126_single_quote",
    "Verif.PcExport.C126_backslash",
    "Verif.PcExport.C126_dollar",
    "Verif.PcExport.C126_number_sign",
    "Verif.PcExport.C126_tab",
    "Verif.PcExport.C126_driver_flags"
   ],
   "note": "Proved for values without backslashes, single quotes, dollar and number signs and tabs, and driver flags without blanks and quotes; the findings show that each of these goes wrong."
  },
  {
   "property": "C127",
   "status": "partial",
   "theorems": [
    "Verif.CString.C127_cpp",
    "Verif.CString.C127_unique",
    "Verif.CString.C127_different",
    "Verif.CString.C127_c_partial",
    "Verif.CString.C127_c_control",
    "Verif.CString.C127_surrogate"
   ],
   "note": "Proved in full for C++. For C, proved without control characters that have no short escape sequence; the finding shows that these make invalid literals."
  },
  {
   "property": "C128",
   "status": "proved",
   "theorems": [
    "Verif.Template.C128_line",
    "Verif.Template.C128_every_line",
    "Verif.Template.C128_unknown",
    "Verif.Template.C128_quote",
    "Verif.Template.C128_file",
    "Verif.Template.C128_file_error",
    "Verif.Template.C128_unchanged",
    "Verif.Template.C128_own",
    "Verif.Template.C128_last_line",
    "Verif.Template.C128_inherited"
   ],
   "note": "Proved for all templates. The findings show that a newline is added to the last line and that names such as toString are never reported as undefined."
  },
  {
   "property": "C129",
   "status": "partial",
   "theorems": [
    "Verif.Desktop.C129_merge_partial",
    "Verif.Desktop.C129_equals",
    "Verif.Desktop.C129_empty_section",
    "Verif.Desktop.C129_space",
    "Verif.Desktop.C129_fragment"
   ],
   "note": "Proved for all valid files whose values have no equals sign and whose sections in front of others are not empty. The findings show that all four kinds of files that are left out are damaged or rejected."
  },
  {
   "property": "C130",
   "status": "partial",
   "theorems": [
    "Verif.PathProbe.C130_join",
    "Verif.PathProbe.C130_join_absolute",
    "Verif.PathProbe.C130_join_assoc",
    "Verif.PathProbe.C130_first",
    "Verif.PathProbe.C130_none",
    "Verif.PathProbe.C130_found_iff",
    "Verif.PathProbe.C130_parts",
    "Verif.PathProbe.C130_selectors",
    "Verif.PathProbe.C130_selector_kinds",
    "Verif.PathProbe.C130_names",
    "Verif.PathProbe.C130_selector_suffixes",
    "Verif.PathProbe.C130_relative",
    "Verif.PathProbe.C130_no_subdirectory"
   ],
   "note": "Proved: which file is found, and that joined paths mean what their parts mean. The findings show three places where this is not what the documentation says: suffixes of selectors, empty elements of PATH, and sub-directories."
  },
  {
   "property": "C131",
   "status": "partial",
   "theorems": [
    "Verif.CMakeExport.C131_read_back_partial",
    "Verif.CMakeExport.C131_again",
    "Verif.CMakeExport.C131_inside",
    "Verif.CMakeExport.C131_options",
    "Verif.CMakeExport.C131_repeated",
    "Verif.CMakeExport.C131_no_cpp",
    "Verif.CMakeExport.C131_not_installed",
    "Verif.CMakeExport.C131_double_quote",
    "Verif.CMakeExport.C131_backslash",
    "Verif.CMakeExport.C131_dollar",
    "Verif.CMakeExport.C131_semicolon",
    "Verif.CMakeExport.C131_root_prefix",
    "Verif.CMakeExport.C131_sibling",
    "Verif.CMakeExport.C131_case",
    "Verif.CMakeExport.C131_version"
   ],
   "note": "Proved for values without the characters that have a meaning in CMake, for paths outside of the project and for directories without separators at their ends. The findings show that the other cases go wrong, and that version files never accept a version."
  },
  {
   "property": "C132",
   "status": "partial",
   "theorems": [
    "Verif.Installed.C132_same_place_partial",
    "Verif.Installed.C132_same_text_partial",
    "Verif.Installed.C132_relative_base",
    "Verif.Installed.C132_unclean_base",
    "Verif.Installed.C132_different_cut",
    "Verif.Installed.C132_outside"
   ],
   "note": "Proved for files without installSourceBase, and for those with an absolute clean installSourceBase (with or without a separator at its end) that they are below. The findings show that the other cases go wrong."
  },
  {
   "property": "C133",
   "status": "partial",
   "theorems": [
    "Verif.Validator.C133_version_partial",
    "Verif.Validator.C133_suffix_partial",
    "Verif.Validator.C133_range_partial",
    "Verif.Validator.C133_range_whole",
    "Verif.Validator.C133_range_infinite",
    "Verif.Validator.C133_file_name",
    "Verif.Validator.C133_missing",
    "Verif.Validator.C133_invalid",
    "Verif.Validator.C133_validate",
    "Verif.Validator.C133_max_one",
    "Verif.Validator.C133_suffix_no_max",
    "Verif.Validator.C133_nan"
   ],
   "note": "Validation as a whole, missing properties, invalid values and file names are proved in full. Versions are proved for maxima other than one component, and ranges for finite numbers; the findings show that a maximum of one component, or any maximum together with suffixes, has no effect, and that the value that is not a number is in all ranges with fractions."
  },
  {
   "property": "C134",
   "status": "partial",
   "theorems": [
    "Verif.EnvVar.C134_entries_partial",
    "Verif.EnvVar.C134_append",
    "Verif.EnvVar.C134_no_name",
    "Verif.EnvVar.C134_unset",
    "Verif.EnvVar.C134_first_entry_lost",
    "Verif.EnvVar.C134_no_separator"
   ],
   "note": "Proved for variables whose value does not begin with the separator, and for additions that are not empty and do not begin with it. The finding shows that an empty first entry is lost by prepending."
  },
  {
   "property": "C135",
   "status": "partial",
   "theorems": [
    "Verif.Soname.C135_found_partial",
    "Verif.Soname.C135_so_version",
    "Verif.Soname.C135_three_parts",
    "Verif.Soname.C135_own_so_version",
    "Verif.Soname.C135_so_version_only",
    "Verif.Soname.C135_link_replaces_library",
    "Verif.Soname.C135_any_separator"
   ],
   "note": "Proved for the default versions, whatever the version of the product is, and for a soVersion that is a beginning of the version. The findings show that other values of the documented property cpp.soVersion give a soname that no file has."
  },
  {
   "property": "C136",
   "status": "partial",
   "theorems": [
    "Verif.Symbols.C136_relinked",
    "Verif.Symbols.C136_unchanged",
    "Verif.Symbols.C136_read_back",
    "Verif.Symbols.C136_words",
    "Verif.Symbols.C136_file",
    "Verif.Symbols.C136_nm_fails",
    "Verif.Symbols.C136_size"
   ],
   "note": "The statement is proved for the symbols that the code compares, names and types, in all histories. The findings show that changes are missed when nm fails, and that changes of the sizes of exported variables, which executables with copies of them depend on, are never seen."
  },
  {
   "property": "C137",
   "status": "partial",
   "theorems": [
    "Verif.ProtoOut.C137_declared_partial",
    "Verif.ProtoOut.C137_writes_one",
    "Verif.ProtoOut.C137_sibling",
    "Verif.ProtoOut.C137_dotted",
    "Verif.ProtoOut.C137_missing"
   ],
   "note": "Proved when the import paths exist, none is a mere textual prefix of the path of the input, and names of inputs have one dot. The findings show that the statement is false of the code otherwise: for directories beside an import path, for names such as api.v1.proto, and with missing import paths."
  },
  {
   "property": "C138",
   "status": "partial",
   "theorems": [
    "Verif.LexOut.C138_declared_partial",
    "Verif.LexOut.C138_unique",
    "Verif.LexOut.C138_later_setting",
    "Verif.LexOut.C138_absolute",
    "Verif.LexOut.C138_prefix_partial",
    "Verif.LexOut.C138_prefix_lost"
   ],
   "note": "Proved when outfile and prefix are the first settings of their lines and paths of outputs are relative. The findings show that the statement is false of the code otherwise: for several settings in one line, for absolute paths in lexOutputFilePath, and for the prefix of symbols if that property is set."
  }
 ]
}