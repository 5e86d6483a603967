{
 "claims": [
  {
   "property": "C01",
   "status": "partial",
   "theorems": [
    "C01_diff_reaches_target_partial",
    "C01_all_but_indexes_and_sequences",
    "C01_owned_sequence_false",
    "C01_index_attributes_false"
   ],
   "note": "Exact: reached content given in full; equals the target iff no same-key index differs and no owned sequence is new; refuted otherwise."
  },
  {
   "property": "C02",
   "status": "partial",
   "theorems": [
    "C02_diff_applies_iff_partial",
    "C02_only_indexes_fail",
    "C02_applies_in_every_order",
    "C02_new_index_false"
   ],
   "note": "Exact condition on iteration orders; order-free sufficient condition; refuted for every new schema with an index."
  },
  {
   "property": "C03",
   "status": "partial",
   "theorems": [
    "C03_empty_diff_iff_partial",
    "C03_equal_contents_empty_diff",
    "C03_empty_diff_equal_contents",
    "C03_index_attributes_false"
   ],
   "note": "Exact up to index table/uniqueness/method, which the diff ignores (refuted)."
  },
  {
   "property": "C04",
   "status": "partial",
   "theorems": [
    "C04_staging_idempotent_partial",
    "C04_idempotent_without_owned_sequences",
    "C04_owned_sequence_false"
   ],
   "note": "Exact: idempotent iff no owned sequence was staged; refuted otherwise."
  },
  {
   "property": "C05",
   "status": "proved",
   "theorems": [
    "C05_column_order",
    "C05_created_table_column_order"
   ],
   "note": "Full, plus column order of created tables."
  },
  {
   "property": "C06",
   "status": "proved",
   "theorems": [
    "C06_every_change_needed",
    "C06_targets_differ"
   ],
   "note": "Full: every change is needed, and every target differs."
  },
  {
   "property": "C07",
   "status": "partial",
   "theorems": [
    "C07_revert_undoes_change_partial",
    "C07_revert_undoes_lossless_kinds",
    "C07_lossy_changes_false",
    "C07_rename_never_undone"
   ],
   "note": "Exact: the revert undoes the change iff it is not one of five lossy cases; the full statement is refuted."
  },
  {
   "property": "C08",
   "status": "partial",
   "theorems": [
    "C08_reversed_reverts_undo_partial",
    "C08_diff_reverts_false",
    "C08_diff_undone_iff",
    "C08_order_false"
   ],
   "note": "Proved when no staged change is lossy at its point; refuted in full. For computed diffs an exact criterion on the staged snapshot and the definitions (C08_diff_undone_iff); it depends on map iteration order for dropped indexes (C08_order_false)."
  },
  {
   "property": "C09",
   "status": "proved",
   "theorems": [
    "C09_stage_no_revert_panic",
    "C09_stage_succeeds_iff"
   ],
   "note": "Full."
  },
  {
   "property": "C10",
   "status": "proved",
   "theorems": [
    "C10_reachable_wellFormed",
    "C10_replayed_wellFormed"
   ],
   "note": "All sequences, failing changes included."
  },
  {
   "property": "C11",
   "status": "partial",
   "theorems": [
    "C11_failed_change_leaves_snapshot_partial",
    "C11_applyMut_ok_iff",
    "C11_rename_false"
   ],
   "note": "All kinds except column rename; refuted for rename (the column is lost)."
  },
  {
   "property": "C12",
   "status": "proved",
   "theorems": [
    "C12_change_touches_only_its_targets"
   ],
   "note": "All kinds, all objects outside the targets."
  },
  {
   "property": "C13",
   "status": "proved",
   "theorems": [
    "C13_apply_depends_on_content",
    "C13_apply_meets_specification"
   ],
   "note": "By refinement to a content-level specification."
  },
  {
   "property": "C14",
   "status": "proved",
   "theorems": [
    "C14_load_order"
   ],
   "note": "All trees, all listing orders, at any depth; parser abstract (well-formed results, C46)."
  },
  {
   "property": "C15",
   "status": "proved",
   "theorems": [
    "C15_project_nothing_lost",
    "C15_nothing_lost",
    "C15_duplicates_fail"
   ],
   "note": "Exact on both sides: what is loaded, and when a load succeeds."
  },
  {
   "property": "C16",
   "status": "partial",
   "theorems": [
    "C16_name_reads_back_partial",
    "C16_reference_reads_back_partial",
    "C16_references_differ_partial",
    "C16_quote_false",
    "C16_doubling_would_do",
    "C16_object_iff_partial",
    "C16_long_false"
   ],
   "note": "Exact for all strings, without and with the limit of 63 bytes that PostgreSQL sets on names; refuted for names with quotes and for longer names; injectivity refuted."
  },
  {
   "property": "C17",
   "status": "partial",
   "theorems": [
    "C17_set_not_null_partial",
    "C17_create_table_partial",
    "C17_create_table_false",
    "C17_add_column_false"
   ],
   "note": "Alter: full. Create table: exact. Add column: refuted for every column (nullability inverted)."
  },
  {
   "property": "C18",
   "status": "partial",
   "theorems": [
    "C18_flags_stated_partial",
    "C18_alter_flags_partial",
    "C18_foreign_key_flags_false"
   ],
   "note": "Exact for every kind; refuted for foreign keys and altered checks."
  },
  {
   "property": "C19",
   "status": "proved",
   "theorems": [
    "C19_directory_order"
   ],
   "note": "Opening is invariant under the listing order, including non-termination."
  },
  {
   "property": "C20",
   "status": "partial",
   "theorems": [
    "C20_branches_any_names",
    "C20_opens_any_names",
    "C20_yaml_twice_false",
    "C20_branches_exact_partial",
    "C20_opens_iff"
   ],
   "note": "Partial: the statement is false with a file x.yaml.yaml beside x.yaml (C20_yaml_twice_false). C20_branches_any_names and C20_opens_any_names are exact for all directories."
  },
  {
   "property": "C21",
   "status": "partial",
   "theorems": [
    "C21_open_loops_any_names",
    "C21_open_terminates_partial",
    "C21_tool_histories_terminate",
    "C21_cycle_false",
    "C21_range_false",
    "C21_open_loops_iff",
    "C21_range_loops_iff"
   ],
   "note": "Full for directories podo produces (C21_tool_histories_terminate). For arbitrary ones exactly when opening (C21_open_loops_iff) and computing a range (C21_range_loops_iff) go on for ever; C21_cycle_false and C21_range_false exhibit such directories."
  },
  {
   "property": "C22",
   "status": "proved",
   "theorems": [
    "C22_range_any_files",
    "C22_range_is_path",
    "C22_range_fails"
   ],
   "note": "C22_range_any_files is exact for all directories, with cycles and with files not named after their versions."
  },
  {
   "property": "C23",
   "status": "partial",
   "theorems": [
    "C23_make_keeps_snapshot_partial",
    "C23_make_nothing",
    "C23_yaml_label_false"
   ],
   "note": "The snapshot, the current version and the new stage, for every reachable history and every free name that does not end in .yaml; C23_yaml_label_false: a label ending in .yaml leaves a history that cannot be opened."
  },
  {
   "property": "C24",
   "status": "proved",
   "theorems": [
    "C24_made_versions_immutable",
    "C24_any_labels_and_crashes",
    "C24_same_second_false"
   ],
   "note": "For all later command sequences with free names; C24_any_labels_and_crashes also for labels that end in .yaml and commands that die while saving; C24_same_second_false: the same label within one second overwrites a made version, which is the hypothesis on names."
  },
  {
   "property": "C25",
   "status": "partial",
   "theorems": [
    "C25_make_crash_partial",
    "C25_crash_false"
   ],
   "note": "False of the code: C25_crash_false gives, for every history with something staged, a crash point after which it cannot be opened; the partial theorem bounds what a crash can leave."
  },
  {
   "property": "C26",
   "status": "partial",
   "theorems": [
    "C26_stage_crash_partial",
    "C26_crash_false"
   ],
   "note": "False of the code: C26_crash_false; the partial theorem bounds what a crash can leave."
  },
  {
   "property": "C27",
   "status": "proved",
   "theorems": [
    "C27_history_replays"
   ],
   "note": "Proved for every reachable directory and every stored version."
  },
  {
   "property": "C28",
   "status": "proved",
   "theorems": [
    "C28_scripts_aligned"
   ],
   "note": "Proved for every stored version, with the reverts taken from the predecessor snapshot."
  },
  {
   "property": "C29",
   "status": "proved",
   "theorems": [
    "C29_reset"
   ],
   "note": "Proved for every reachable directory."
  },
  {
   "property": "C30",
   "status": "proved",
   "theorems": [
    "C30_up_all_or_nothing",
    "C30_down_all_or_nothing"
   ],
   "note": "up and down; PostgreSQL is a parameter (Pg.Behaviour), any statement, row or commit may fail"
  },
  {
   "property": "C31",
   "status": "partial",
   "theorems": [
    "C31_up_applies_missing_partial",
    "C31_up_succeeds",
    "C31_podo_up",
    "C31_up_any_files",
    "C31_renamed_files_false"
   ],
   "note": "what a successful up did, and that it succeeds where the way is free; partial: version files named after their versions, as podo writes them; any files in C31_up_any_files, and C31_renamed_files_false"
  },
  {
   "property": "C32",
   "status": "partial",
   "theorems": [
    "C32_up_idempotent_partial",
    "C32_renamed_files_false"
   ],
   "note": "shown with a database that would refuse every statement and commit; partial: version files named after their versions; refuted for others"
  },
  {
   "property": "C33",
   "status": "proved",
   "theorems": [
    "C33_down_reverts_later",
    "C33_down_succeeds",
    "C33_podo_down",
    "C33_down_any_files",
    "C33_down_succeeds_any_files"
   ],
   "note": "with version files of any names and contents in C33_down_any_files"
  },
  {
   "property": "C34",
   "status": "proved",
   "theorems": [
    "C34_down_undoes_up",
    "C34_down_undoes_up_any_files"
   ],
   "note": "with version files of any names and contents in C34_down_undoes_up_any_files"
  },
  {
   "property": "C35",
   "status": "partial",
   "theorems": [
    "C35_version_table_chain_partial",
    "C35_only_the_top_changes",
    "C35_table_sound_any_files",
    "C35_renamed_files_false",
    "C35_only_the_top_any_files"
   ],
   "note": "plus: rows are only added and removed at the end; partial: chain for version files named after their versions, refuted for others, for which the table is sound all the same"
  },
  {
   "property": "C36",
   "status": "partial",
   "theorems": [
    "C36_down_one_partial",
    "C36_down_one_succeeds",
    "C36_down_at_init",
    "C36_down_unknown",
    "C36_podo_down",
    "C36_podo_down_unknown",
    "C36_down_any_files",
    "C36_down_unknown_any_files",
    "C36_renamed_files_false"
   ],
   "note": "one version, at init, unknown version; partial: version files named after their versions; refuted for others, for which down goes to the recorded predecessor"
  },
  {
   "property": "C37",
   "status": "partial",
   "theorems": [
    "C37_stage_strands_false",
    "C37_recovered_by_down_partial"
   ],
   "note": "false in every project: C37_stage_strands_false; C37_recovered_by_down_partial shows the way out"
  },
  {
   "property": "C38",
   "status": "partial",
   "theorems": [
    "C38_column_expression_partial",
    "C38_column_expression_false"
   ],
   "note": "Exact set of columns that read back; the full statement is refuted."
  },
  {
   "property": "C39",
   "status": "partial",
   "theorems": [
    "C39_table_reference_partial",
    "C39_table_reference_false"
   ],
   "note": "Exact set of references that read back; refuted for names with dots."
  },
  {
   "property": "C40",
   "status": "partial",
   "theorems": [
    "C40_keys_partial",
    "C40_keys_false"
   ],
   "note": "Exact set of keys that read back; refuted for 'increment', 'using' and tables named delete…/update…."
  },
  {
   "property": "C41",
   "status": "partial",
   "theorems": [
    "C41_keys_panic_partial",
    "C41_keys_panic_false"
   ],
   "note": "Exact set of keys that panic (Kelvin sign); the full statement is refuted."
  },
  {
   "property": "C42",
   "status": "partial",
   "theorems": [
    "C42_trees_partial",
    "C42_trees_false"
   ],
   "note": "Exact set of trees of any depth that read back; the full statement is refuted."
  },
  {
   "property": "C43",
   "status": "partial",
   "theorems": [
    "C43_column_partial",
    "C43_constraint_partial",
    "C43_view_partial",
    "C43_index",
    "C43_function",
    "C43_sequence_partial",
    "C43_objects_false"
   ],
   "note": "Exact set of objects of each kind that read back; indexes and functions in full; the rest refuted in full."
  },
  {
   "property": "C44",
   "status": "partial",
   "theorems": [
    "C44_table_partial",
    "C44_schema_partial",
    "C44_table_false",
    "C44_schema_false"
   ],
   "note": "Exact set of well-formed tables and schemas that read back, given C43; refuted in full by two witnesses."
  },
  {
   "property": "C45",
   "status": "partial",
   "theorems": [
    "C45_saved_snapshot_loads_partial",
    "C45_saved_content_loads_iff",
    "C45_written_iff",
    "C45_nothing_to_stage_partial",
    "C45_increment_false",
    "C45_index_method_false",
    "C45_index_table_false"
   ],
   "note": "Exact: written at all iff C45_written_iff; read back (as the same snapshot, or one of the same content) iff SnapshotOk. Refuted in full by three witnesses."
  },
  {
   "property": "C46",
   "status": "proved",
   "theorems": [
    "C46_loaded_file_wf",
    "C46_loaded_directory_wf",
    "C46_parsed_schemas_wf",
    "C46_file_in_two_steps"
   ],
   "note": ""
  },
  {
   "property": "C47",
   "status": "partial",
   "theorems": [
    "C47_unknown_attributes_partial",
    "C47_unknown_attributes_false"
   ],
   "note": "Everything except the inside of index definitions, where it is refuted."
  },
  {
   "property": "C48",
   "status": "partial",
   "theorems": [
    "C48_no_panic_partial",
    "C48_panics_false",
    "C48_panics_iff",
    "C48_directory_panics_iff",
    "C48_directory_accepted"
   ],
   "note": "False as stated (C48_panics_false: eight shapes). C48_panics_iff and C48_directory_panics_iff say exactly which files and directories panic; C48_no_panic_partial is a simple sufficient condition for no panic. C48_directory_accepted ties the file-by-file loading to the one of C14, C15 and C74."
  },
  {
   "property": "C49",
   "status": "proved",
   "theorems": [
    "C49_sequence_defaults",
    "C49_other_defaults"
   ],
   "note": ""
  },
  {
   "property": "C50",
   "status": "proved",
   "theorems": [
    "C50_expansion"
   ],
   "note": "Expansion is characterised by a reading of the text into pieces (Spec/Project Reading); which characters belong to a name (\\w) is a parameter."
  },
  {
   "property": "C51",
   "status": "proved",
   "theorems": [
    "C51_nearest_project",
    "C51_same_from_below"
   ],
   "note": "Directories as lists of components; the nearest configuration file on the way up, and none found exactly when there is none."
  },
  {
   "property": "C52",
   "status": "partial",
   "theorems": [
    "C52_one_history_partial",
    "C52_profile_settings",
    "C52_database",
    "C52_one_definitions_partial",
    "C52_unknown_profile",
    "C52_one_history_false"
   ],
   "note": "False in full: up, status and clone use the default profile's history. The partial theorem says exactly for which projects and profiles all commands agree."
  },
  {
   "property": "C53",
   "status": "proved",
   "theorems": [
    "C53_succeeds_iff",
    "C53_represents",
    "C53_determined",
    "C53_wellformed"
   ],
   "note": "Rows are what the catalogue queries return (the SQL is not modelled). Consistent is exactly the set of catalogues on which introspection succeeds. Views are never queried."
  },
  {
   "property": "C54",
   "status": "proved",
   "theorems": [
    "C54_version_file",
    "C54_database_changes",
    "C54_written_apart",
    "C54_key_order",
    "C54_read_iff",
    "C54_database_read_iff"
   ],
   "note": "The code derived for serialization, over serde's trees of values, for all thirty kinds of change: what is written reads back, and exactly which trees are read as which version (C54_read_iff, C54_database_read_iff). The YAML and JSON text formats are trusted. Hypothesis FitsInt64 is what the Rust type i64 guarantees."
  },
  {
   "property": "C55",
   "status": "proved",
   "theorems": [
    "C55_init_clean"
   ],
   "note": "From the files init writes: the history opens, current version init, empty stage, and staging the written definitions finds nothing."
  },
  {
   "property": "C56",
   "status": "partial",
   "theorems": [
    "C56_sql_says_change_partial",
    "C56_add_column_false",
    "C56_create_table_false",
    "C56_deferrable_false",
    "C56_alter_constraint_false",
    "C56_refused_flags_false"
   ],
   "note": "Exact condition over all thirty kinds; refuted in full by six families of changes, among them all that alter the timing of a constraint that is not a foreign key (C56_alter_constraint_false) and deferrable checks (C56_refused_flags_false)."
  },
  {
   "property": "C57",
   "status": "partial",
   "theorems": [
    "C57_stage_reaches_definitions_partial",
    "C57_owned_sequence_false",
    "C57_index_false"
   ],
   "note": "Partial in the same way as C01: indexes changed in other than key expressions and owned sequences, with a witness for each."
  },
  {
   "property": "C58",
   "status": "proved",
   "theorems": [
    "C58_file_states",
    "C58_one_reading",
    "C58_directory_states"
   ],
   "note": "Spec/Reads.lean says how the YAML of a file is read as nodes, Spec/Stated.lean says for each sort of object when a node states it; neither uses the parser. YAML text to values is trusted."
  },
  {
   "property": "C59",
   "status": "partial",
   "theorems": [
    "C59_init_keeps_project_partial",
    "C59_init_overwrites_false"
   ],
   "note": "False in full: with a history but no readable configuration, init overwrites init.yaml and stage.yaml. With a configuration it changes nothing."
  },
  {
   "property": "C60",
   "status": "partial",
   "theorems": [
    "C60_cloned_file_partial",
    "C60_cloned_file_iff",
    "C60_succeeds_iff",
    "C60_nothing_else_changes",
    "C60_succeeds_partial",
    "C60_nothing_to_stage_partial",
    "C60_views_false",
    "C60_inexpressible_false"
   ],
   "note": "When clone succeeds, and when what it wrote loads as what the database holds, are both exact (C60_succeeds_iff, C60_cloned_file_iff), views apart. The full property is false otherwise (C60_views_false, C60_inexpressible_false)."
  },
  {
   "property": "C61",
   "status": "partial",
   "theorems": [
    "C61_status_only_looks",
    "C61_status_shows",
    "C61_no_changes_partial",
    "C61_no_changes_false"
   ],
   "note": "Proved: status changes nothing; its output is exactly as stated, for every history podo has written and definitions that load. Partial: 'No changes.' iff nothing is staged and the definitions equal the staged state except index attributes other than name and keys (C03); full statement refuted by C61_no_changes_false."
  },
  {
   "property": "C62",
   "status": "partial",
   "theorems": [
    "C62_exit_status_partial",
    "C62_failure_keeps_databases",
    "C62_failures_exit_zero_false"
   ],
   "note": "Proved: success exits 0, a nonzero exit (a panic) changed nothing, every failure leaves the databases as they were. The full property is refuted for every command: errors exit with 0."
  },
  {
   "property": "C63",
   "status": "partial",
   "theorems": [
    "C63_workflow_partial",
    "C63_owned_sequence_false"
   ],
   "note": "The four commands composed, over every project podo has written and any server behaviour that accepts the SQL. Partial: the final No changes. holds iff owned sequences are unchanged (C04), with a witness that it can fail."
  },
  {
   "property": "C64",
   "status": "proved",
   "theorems": [
    "C64_only_the_profile",
    "C64_init_frame"
   ],
   "note": "For every command and every state; SameServers-style frame over configuration, definition and version files, databases and metadata schemas."
  },
  {
   "property": "C65",
   "status": "partial",
   "theorems": [
    "C65_up_all",
    "C65_up_unopened",
    "C65_no_circles",
    "C65_down_all",
    "C65_reset_all",
    "C65_make_all",
    "C65_stage_panics_iff_partial",
    "C65_clash_panics_false",
    "C65_reset_make_report",
    "C65_init_reports",
    "C65_up_script_panics_false",
    "C65_up_endings",
    "C65_down_panics_iff",
    "C65_status_endings"
   ],
   "note": "Exactly when stage, status, up, down, make and reset succeed, report an error or panic, whatever version is asked for (C65_up_all, C65_down_all, C65_make_all, C65_reset_all), and when up goes on for ever; init, reset and make never panic. Full property refuted: clashing definitions panic (the Display of SnapshotError panics), and so do refused statements and versions that cannot be recorded."
  },
  {
   "property": "C66",
   "status": "partial",
   "theorems": [
    "C66_up_follows_partial",
    "C66_add_column_false",
    "C66_not_null_false",
    "C66_workflow_partial"
   ],
   "note": "Proved for every server that does what statements say (Obedient), on changes whose SQL text is right (C56) and whose effect holds no surprises on that server; C66_workflow_partial joins stage, make and up. C66_add_column_false and C66_not_null_false: where the text is wrong (not-null inverted or left out) the schema differs after every successful up."
  },
  {
   "property": "C67",
   "status": "partial",
   "theorems": [
    "C67_down_follows_partial",
    "C67_drop_column_false",
    "C67_workflow_partial"
   ],
   "note": "Proved for every server that does what statements say, on inverse changes whose SQL text is right. C67_workflow_partial: stage, make, up and down again, from the command line, gives back the old schema if the difference is Undoable (C08), and only then where the inverse changes apply. C67_drop_column_false: taking back a DropColumn brings the column back with the wrong nullability."
  },
  {
   "property": "C68",
   "status": "proved",
   "theorems": [
    "C68_never_applied_twice"
   ],
   "note": "Several up/down processes interleaved statement by statement on one database, any schedule, failures and refused rows included: no version is ever recorded twice."
  },
  {
   "property": "C69",
   "status": "partial",
   "theorems": [
    "C69_down_twice_false",
    "C69_two_histories_false",
    "C69_serial_partial",
    "C69_one_project_partial",
    "C69_ups_exactly_once",
    "C69_up_alone",
    "C69_down_alone",
    "C69_chain_partial"
   ],
   "note": "Serial equivalence is false in general (two witnesses: two downs both run the down script of one version; ups of two histories). Proved: every interleaving of ups, with at most one down, of one line of versions has the effect of a serial replay; with any number of downs the versions recorded still follow one another (C69_chain_partial); each up script runs exactly once; a process alone refines the sequential up/down of C31/C33."
  },
  {
   "property": "C70",
   "status": "partial",
   "theorems": [
    "C70_definable_partial",
    "C70_one_file",
    "C70_index_method_false",
    "C70_increment_false",
    "C70_names_false"
   ],
   "note": "C70_definable_partial says exactly which snapshots some directory of definition files defines, and C70_one_file that one file without repeated keys is enough. The full property is false: no file can state an index method, an increment, a name that is empty or has blanks at an end, and so on."
  },
  {
   "property": "C71",
   "status": "partial",
   "theorems": [
    "C71_plain_names_read",
    "C71_other_names_fail",
    "C71_other_names_status",
    "C71_first_up_partial",
    "C71_any_name_false"
   ],
   "note": "Partial because the full claim is false of the code: C71_any_name_false. C71_first_up_partial: with every name PostgreSQL reads as written the first up creates exactly that schema and records in it (later commands: C31_podo_up, C33_podo_down, C36_podo_down, which have the same hypothesis). C71_plain_names_read: plain lower-case names are such. C71_other_names_fail, C71_other_names_status: with every other name, on a database without a schema of that very name, up and down fail and change nothing and status says it is not initialized."
  },
  {
   "property": "C72",
   "status": "partial",
   "theorems": [
    "C72_same_changes_partial",
    "C72_same_outcome",
    "C72_order_false"
   ],
   "note": "Partial: the diff is the same up to its order for every listing of the maps (columns of the target's tables in the same order, since create table lists them), and the outcome is the same where it applies; the order is not determined (C72_order_false), and whether it applies at all may depend on it (C02_new_index_false)."
  },
  {
   "property": "C73",
   "status": "partial",
   "theorems": [
    "C73_made_kept",
    "C73_without_make_partial",
    "C73_one_writer",
    "C73_alone",
    "C73_stages_false",
    "C73_makes_false",
    "C73_make_stage_false"
   ],
   "note": "Partial: made versions are kept under every schedule, down to single file reads, emptyings and pieces written (C73_made_kept); without make, whatever is left of the stage, the made versions are the same, and if the stage can be read the history opens at the same version, all made snapshots are the same, and a reset repairs the stage (C73_without_make_partial); it can be read whenever nobody is writing, if no two write at once and none dies writing (C73_one_writer). Refuted for two stage (C73_stages_false), two make (C73_makes_false), make with stage (C73_make_stage_false). C73_alone ties the small steps to the commands of C23-C28. See DESIGN section 2 for what counts as one step."
  },
  {
   "property": "C74",
   "status": "proved",
   "theorems": [
    "C74_accepted_iff",
    "C74_directory_accepted_iff",
    "C74_project_accepted_iff"
   ],
   "note": "Exact in both directions. The specification (Spec/Accepts, Spec/Reads) states the shape of each kind of definition without the parser functions. It shows what is passed over: an index may have anything else under it (C47), a table may be empty."
  },
  {
   "property": "C75",
   "status": "partial",
   "theorems": [
    "C75_reads_partial",
    "C75_clone_partial",
    "C75_simple_match_false",
    "C75_target_order_false",
    "C75_key_order_false",
    "C75_partitioned_false",
    "C75_element_type_false",
    "C75_generated_false",
    "C75_unprivileged_false",
    "C75_foreign_table_false",
    "C75_unique_index_false",
    "C75_used_index_false",
    "C75_mixed_index_false",
    "C75_included_columns_false",
    "C75_temporary_false",
    "C75_modifier_false",
    "C75_owner_false",
    "C75_two_owners_false",
    "C75_view_false",
    "C75_parameters_false",
    "C75_overloaded_false"
   ],
   "note": "Read right for databases that are Readable, a list of conditions each of which is shown to be needed by a _false theorem (the order of aggregation, match type, partitioned tables, generated columns, indexes with expressions, parameters, temporary schemas, type modifiers, the owner of sequences and so on). The order of the columns of a table is not claimed: the query has no ORDER BY."
  },
  {
   "property": "C76",
   "status": "partial",
   "theorems": [
    "C76_read_back_partial",
    "C76_clone_back_partial",
    "C76_expressible_iff",
    "C76_clone_back_iff",
    "C76_usual_match_false",
    "C76_column_order_false",
    "C76_workflow_partial"
   ],
   "note": "Proved: for databases the queries read right (Readable), the snapshot that the system tables show is read back with the same content, nothing is seen to differ, and the file clone writes states it exactly when it can be written and read back (C76_clone_back_iff); the whole way from definitions over stage, make, up and clone likewise, with a condition on the definitions only, for servers that do what statements say and whose system tables tell their schema. Refuted: a foreign key of the usual match is read back as something else (C76_usual_match_false); columns can come back in another order (C76_column_order_false). Missing: databases outside Readable (C75 shows they are read wrong)."
  },
  {
   "property": "C77",
   "status": "partial",
   "theorems": [
    "C77_up_shows_what_ran",
    "C77_down_shows_what_ran",
    "C77_up_lines_partial",
    "C77_up_culprit",
    "C77_up_rolled_back_false",
    "C77_down_culprit",
    "C77_down_rolled_back_false",
    "C77_down_lines",
    "C77_down_one_lines",
    "C77_down_init_lines",
    "C77_stage_lines",
    "C77_stage_culprit",
    "C77_status_foretells_stage",
    "C77_make_lines_partial",
    "C77_make_false",
    "C77_init_lines",
    "C77_reset_lines"
   ],
   "note": "For every ending of `up` and `down` the SQL shown is what the server executed, in order; exact lines of successful `up`, `down`, `stage`, `make`, `init`, `reset`; the culprit when `up`, `down` or `stage` panics; `status` foretells `stage`. Refuted for commands that fail: `make` names a version it did not make, `up` and `down` show statements that are rolled back."
  },
  {
   "property": "C78",
   "status": "proved",
   "theorems": [
    "C78_apply_error",
    "C78_applies_iff",
    "C78_revert_error",
    "C78_replay_error",
    "C78_load_error"
   ],
   "note": "Exact for applying (C78_apply_error, C78_applies_iff), taking back (C78_revert_error) and replaying (C78_replay_error): the error is that of the first need that is not met. For loading, the error names something defined twice (C78_load_error). The command line never shows these errors: printing one panics (C65, DESIGN section 4)."
  },
  {
   "property": "C79",
   "status": "proved",
   "theorems": [
    "C79_one_at_a_time",
    "C79_waited_for_goes_on",
    "C79_no_deadlock",
    "C79_some_goes_on",
    "C79_waiting",
    "C79_one_project",
    "C79_two_histories_false"
   ],
   "note": "Waiting over the rows of the version table and over creating the metadata schema, as modelled in Model/Conc; locks that the scripts of the versions take on other tables are outside the model. C79_two_histories_false shows that one line of versions is needed: two projects with the same version names in different orders can deadlock. C79_waiting ties the waiting relation to the steps of the model."
  },
  {
   "property": "C80",
   "status": "partial",
   "theorems": [
    "C80_definition_error_partial",
    "C80_yaml_error",
    "C80_not_a_mapping",
    "C80_directory_error",
    "C80_same_outcome",
    "C80_message",
    "C80_message_sort",
    "C80_index_false",
    "C80_file_name_false"
   ],
   "note": "Exact: the error is the report of Spec/DefErrors on the first schema with a fault, for keys and values the first that is wrong, for directories that of the first file with one; the message contains every part. Partial because faults under an index are not reported (C80_index_false); the file is not named either (C80_file_name_false)."
  },
  {
   "property": "C81",
   "status": "partial",
   "theorems": [
    "C81_one_message",
    "C81_message_of",
    "C81_names_stand_in",
    "C81_message_tells_partial",
    "C81_no_project",
    "C81_directory_false",
    "C81_profile",
    "C81_profile_text",
    "C81_branch",
    "C81_unreachable_stage",
    "C81_unreachable_up",
    "C81_down_version",
    "C81_definitions",
    "C81_definitions_text",
    "C81_missing_version_false",
    "C81_not_initialized",
    "C81_cannot_connect"
   ],
   "note": "Whole commands. One message exactly if an error is reported; each sort of error is traced to its cause, exactly or with the conditions under which another error comes first; the messages about definitions are given in full or contain all that C80 says (C81_definitions_text). C81_message_tells_partial: names without quotes. C81_directory_false and C81_missing_version_false: the directory named is always the root, and a missing version file is not named. Errors of the server and of libraries are parameters."
  },
  {
   "property": "C82",
   "status": "partial",
   "theorems": [
    "C82_lines_iff",
    "C82_one_meaning",
    "C82_runs_iff",
    "C82_nothing_else",
    "C82_order",
    "C82_every_command",
    "C82_listed_false"
   ],
   "note": "Exact: which command lines run which command, with what (C82_lines_iff, C82_runs_iff). The rules by which clap reads arguments are written in Model/Cli and trusted; whether clap prints help, the version or a usage error is not modelled. C82_listed_false refutes the last sentence: `clone`, `print` and `sync` only panic."
  },
  {
   "property": "C83",
   "status": "partial",
   "theorems": [
    "C83_alone",
    "C83_all_or_nothing",
    "C83_as_if_alone_partial",
    "C83_to_made",
    "C83_newest_partial",
    "C83_chain_partial",
    "C83_stage_false",
    "C83_chain_false",
    "C83_newest_false"
   ],
   "note": "Partial: for every target and any other processes, a failing up changes nothing and a successful one records versions on top, runs exactly their statements, and records made versions as their files hold them (C83_all_or_nothing). Without make, and not to the stage, it is as if alone, or fails before it has done anything (C83_as_if_alone_partial); to a made version the same holds beside any commands (C83_to_made). Without a target beside make it is as if alone to some version that was there, or it is towards a version being made (C83_newest_partial). Without make the version table remains a chain for every target (C83_chain_partial). Refuted: up to the stage beside stage (C83_stage_false), up without a target beside make (C83_newest_false), the chain beside make (C83_chain_false). Nobody else uses the database meanwhile (for that see C68, C69 and C79). What counts as one step is in Model/FileConc and Model/UpConc."
  },
  {
   "property": "C84",
   "status": "partial",
   "theorems": [
    "C84_same_versions_partial",
    "C84_recorded_as_filed",
    "C84_same_data",
    "C84_stage_false"
   ],
   "note": "For databases that are not brought to the stage; C84_stage_false shows that two databases on the stage can differ. C84_recorded_as_filed ties the records to the files, C84_same_data gives the data."
  },
  {
   "property": "C85",
   "status": "partial",
   "theorems": [
    "C85_steps_at_once_partial",
    "C85_stage_false",
    "C85_at_once_steps",
    "C85_program_partial"
   ],
   "note": "Steps at once except for a first step to the stage (C85_stage_false); C85_at_once_steps is the converse, at any intermediate version."
  },
  {
   "property": "C86",
   "status": "proved",
   "theorems": [
    "C86_merge_opens_iff",
    "C86_merge_refused",
    "C86_merge_databases"
   ],
   "note": "C86_merge_opens_iff is an equivalence; C86_merge_refused gives what is reported and that nothing is changed; C86_merge_databases extends C84 to the databases of both copies. Merges are those without conflicts outside the stage file; no common origin of the copies is needed."
  },
  {
   "property": "C87",
   "status": "partial",
   "theorems": [
    "C87_diff_column_iff",
    "C87_diff_sequence_iff",
    "C87_sequence_false",
    "C87_version_iff",
    "C87_reset_stage_partial",
    "C87_restage_false"
   ],
   "note": "Exact for the diff (columns and sequences) and for every version. False in two ways: a sequence that changes is dropped and created (C87_sequence_false), and definitions staged on top of others keep the drops of the first (C87_restage_false). Proved in full for columns when the stage is reset first."
  },
  {
   "property": "C88",
   "status": "partial",
   "theorems": [
    "C88_applied_files_not_read",
    "C88_no_place_refused_partial",
    "C88_same_name_false",
    "C88_program_edited",
    "C88_program_refused_partial"
   ],
   "note": "Proved in full: edits of applied versions make no difference to up, and a database on a version without a file is refused. The last part, that up goes on only with the project own databases, is false (C88_same_name_false): only the name of the version is compared."
  },
  {
   "property": "C89",
   "status": "partial",
   "theorems": [
    "C89_program_up_partial",
    "C89_opens",
    "C89_stage_status_partial",
    "C89_up_named_partial",
    "C89_no_stage_false",
    "C89_made_false"
   ],
   "note": "Proved in part: for every set of missing files, stage and status fail (C89_stage_status_partial) and up to a named version does the same as with all files or fails (C89_up_named_partial). False for up without a target, which stops two versions before the missing one (C89_opens), so one short of the last version where only the stage is missing (C89_no_stage_false), and for make and reset (C89_made_false)."
  },
  {
   "property": "C90",
   "status": "proved",
   "theorems": [
    "C90_others_ignored",
    "C90_others_kept",
    "C90_definition_files"
   ],
   "note": "Whole program: the result, the output, the error message, and what is left behind. A file new.yml in the definitions directory is among the files that are ignored. A file whose name ends in .yaml in the history directory and that is no version is not: no history with it opens (C20)."
  },
  {
   "property": "C91",
   "status": "proved",
   "theorems": [
    "C91_health",
    "C91_usable",
    "C91_ends",
    "C91_kept",
    "C91_origin"
   ],
   "note": "Killed commands are included, if the history is put in order as in C93. Commands at the same time are the subject of C69, C73, C79 and C83."
  },
  {
   "property": "C92",
   "status": "partial",
   "theorems": [
    "C92_text",
    "C92_names_in_order_partial",
    "C92_clock_set_back_false"
   ],
   "note": "C92_clock_set_back_false is the part that does not hold. Comparison is by characters, as ls does in the C locale."
  },
  {
   "property": "C93",
   "status": "proved",
   "theorems": [
    "C93_repairable",
    "C93_repaired",
    "C93_reset",
    "C93_in_order",
    "C93_unnoticed_false",
    "C93_up_killed",
    "C93_up_killed_reach",
    "C93_down_killed"
   ],
   "note": "Repairs use only what is in the files. Crash states as in C25/C26 (a text cut short deserializes only when it is cut inside a non-empty down list). Interrupted init and clone are not covered."
  },
  {
   "property": "C94",
   "status": "proved",
   "theorems": [
    "C94_recorded_as_filed",
    "C94_nothing_recorded",
    "C94_same_versions",
    "C94_up_works",
    "C94_stage_false"
   ],
   "note": "Over the life of C91, where the database is brought up only from one project and not to the stage; C94_stage_false shows that the stage cannot be allowed as a target."
  },
  {
   "property": "C95",
   "status": "partial",
   "theorems": [
    "C95_schema_kept_partial",
    "C95_before",
    "C95_same_schema_partial",
    "C95_not_null_false"
   ],
   "note": "partial as C66 and C67 are: versions whose SQL text is not right (see C17, C56) or that lose something (C07) are excluded; C95_not_null_false shows what happens otherwise"
  },
  {
   "property": "C96",
   "status": "proved",
   "theorems": [
    "C96_init_again",
    "C96_not_deleted_false",
    "C96_harmless",
    "C96_stage_drops_false",
    "C96_life"
   ],
   "note": "Full, for the crash points of Spec/Initial: before anything is written, configuration file empty, cut short or complete, any point of saving the two versions, definition file with any content, end. The directory is in no project; C96_harmless and C96_stage_drops_false are about directories without version files and definitions. C96_life puts an interrupted and repeated init into the lives of C91."
  },
  {
   "property": "C97",
   "status": "proved",
   "theorems": [
    "C97_down_iff",
    "C97_down_result",
    "C97_up_again",
    "C97_records_sound",
    "C97_records_kept",
    "C97_down_iff_any_files",
    "C97_down_result_any_files"
   ],
   "note": "Full: when down succeeds (an iff), what it does, and that up works again afterwards. What is recorded, and down, also on lives in which version files are edited, renamed, deleted or torn in any way."
  },
  {
   "property": "C98",
   "status": "partial",
   "theorems": [
    "C98_diff_touches_iff",
    "C98_quote_false",
    "C98_up_keeps_partial",
    "C98_down_keeps_partial",
    "C98_workflow_partial"
   ],
   "note": "For servers that change the values of a column only at statements that say so, and for names without double quotes. C98_diff_touches_iff is exact and without conditions on names; C98_quote_false shows that the condition on names is needed. The workflow theorem is for definitions staged where nothing was staged (C87_restage_false shows what goes wrong otherwise)."
  },
  {
   "property": "C99",
   "status": "partial",
   "theorems": [
    "C99_statements_begin",
    "C99_statement_schema_partial",
    "C99_quote_false",
    "C99_up_apart_partial",
    "C99_down_apart_partial",
    "C99_own_schema_false"
   ],
   "note": "Partial: names with quotes. C99_up_apart_partial and C99_down_apart_partial are equalities of the whole result with the model the other properties are about; C99_own_schema_false and C99_quote_false show that the conditions are needed."
  },
  {
   "property": "C100",
   "status": "proved",
   "theorems": [
    "C100_all_lines_taken",
    "C100_lines_not_taken",
    "C100_stopped_or_done",
    "C100_ends"
   ],
   "note": "All of it, for every command; whole println! calls are counted, and standard error is taken to accept everything."
  },
  {
   "property": "C101",
   "status": "proved",
   "theorems": [
    "C101_fine",
    "C101_success",
    "C101_reported",
    "C101_left",
    "C101_any_crash",
    "C101_init_left",
    "C101_init_again",
    "C101_life",
    "C101_reset_false",
    "C101_make_false"
   ],
   "note": "Every write of a file may be refused or broken off (Model/Disk). C101_fine ties this model to that of the other properties; C101_left and C101_any_crash say that the states left are exactly those of killed commands; C101_reset_false and C101_make_false show the harm. Half-written files are unreadable ones, or, for make and reset, version files cut in the list of their down statements, as in CrashState."
  },
  {
   "property": "C102",
   "status": "proved",
   "theorems": [
    "C102_all_or_nothing",
    "C102_success",
    "C102_long_enough",
    "C102_others",
    "C102_unheard_false",
    "C102_befalls",
    "C102_life",
    "C102_up_again",
    "C102_down_to_again",
    "C102_down_again_false"
   ],
   "note": "The lines printed on a lost connection are not modelled. C102_unheard_false and C102_down_again_false are the two limits named in the statement, proved for every such up and down."
  },
  {
   "property": "C103",
   "status": "proved",
   "theorems": [
    "C103_kept",
    "C103_denotes",
    "C103_printable",
    "C103_read_iff",
    "C103_one_meaning",
    "C103_any_layout",
    "C103_apart"
   ],
   "note": "Text and tree of values for the changes in the version table. serde_json itself is not in /repo: the model follows its documented behaviour (version 1.0.108). Numbers with a fraction or an exponent are errors in the model before the tree is looked at; within entries that are skipped serde_json is more lenient (no limit on the depth)."
  },
  {
   "property": "C104",
   "status": "partial",
   "theorems": [
    "C104_column_false",
    "C104_still_there_partial",
    "C104_up_false"
   ],
   "note": "False where a column is removed together with a constraint over it, or the constraint is replaced: the script cannot be run (C104_column_false), and podo up cannot apply such a version (C104_up_false). Proved where no column of the constraint is removed. Assumes names without quotes and texts read as meant."
  },
  {
   "property": "C105",
   "status": "partial",
   "theorems": [
    "C105_table_first_false",
    "C105_some_order_false",
    "C105_index_first_partial",
    "C105_up_false"
   ],
   "note": "Proved for all pairs of well-formed snapshots and all servers that drop indexes along with their tables (Pg.IndexesAlong): with the index listed before the table the index is there when it is dropped (_partial); with the table first the script cannot be run (_false), also stated for podo up; and any snapshot can be relisted so that it fails (C105_some_order_false)."
  },
  {
   "property": "C106",
   "status": "partial",
   "theorems": [
    "C106_table_first_false",
    "C106_view_first_partial",
    "C106_new_view_first_false",
    "C106_new_table_first_partial",
    "C106_down_partial",
    "C106_down_removed_partial",
    "C106_some_order_false",
    "C106_some_new_order_false",
    "C106_up_false",
    "C106_up_removed_false"
   ],
   "note": "false in one of the two orders of the map, for removals and for additions, for the diff and for up; proved in the other order, for the down script too"
  },
  {
   "property": "C107",
   "status": "partial",
   "theorems": [
    "C107_view_left_alone_partial",
    "C107_type_false",
    "C107_up_false"
   ],
   "note": "the first half (an unchanged view is left alone) is proved; the second (its columns can change) is false for types, for the diff and for up"
  }
 ]
}