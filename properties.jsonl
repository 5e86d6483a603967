{"id": "C01", "title": "Staged diff reaches the target", "statement": "Applying, in order, the changes computed between a source snapshot and a target snapshot to the source yields a snapshot with exactly the schemas, relations, columns, constraints, functions and attributes of the target (column order aside).", "quantifier": "all pairs of well-formed snapshots, all hash-map iteration orders", "why_tests_cant": "the pair of snapshots is unbounded in every dimension and the iteration order of the maps is random per process; tests cover about thirty one-change pairs", "anchors": ["src/snapshot/diff.rs:compare_diff", "src/snapshot/changes/mod.rs:Change::apply", "src/cmd/stage.rs:stage"]}
{"id": "C02", "title": "Computed diff is always applicable", "statement": "Every change of a computed diff applies without error when the changes are applied in order to the source, for every iteration order of the maps.", "quantifier": "all pairs of well-formed snapshots, all iteration orders, every position in the change list", "why_tests_cant": "failure depends on the random map order in which relations are visited", "anchors": ["src/snapshot/diff.rs:compare_diff", "src/snapshot/changes/index/create_index_change.rs:CreateIndexChange::apply"]}
{"id": "C03", "title": "Empty diff exactly when nothing differs", "statement": "`compare_diff` returns no changes exactly when the two snapshots have the same objects with the same attributes (column order aside); so `status` says 'No changes.' only when that is true.", "quantifier": "all pairs of well-formed snapshots", "why_tests_cant": "needs every attribute of every object kind to be compared, in every combination", "anchors": ["src/snapshot/diff.rs:compare_diff", "src/cmd/status.rs:status"]}
{"id": "C04", "title": "Staging is idempotent", "statement": "Right after a successful stage, computing the diff again against the same definitions gives no changes.", "quantifier": "all pairs of well-formed snapshots for which staging succeeds, all iteration orders of the re-built snapshot", "why_tests_cant": "the second diff runs on a snapshot re-built by replay, over unbounded inputs", "anchors": ["src/snapshot/diff.rs:compare_diff", "src/cmd/stage.rs:stage"]}
{"id": "C05", "title": "Column order after an update", "statement": "After the diff is applied, the columns of an updated table are the surviving source columns in their source order followed by the new columns in definition order.", "quantifier": "all pairs of tables of the same name", "why_tests_cant": "order facts over lists of any length and any interleaving of kept, dropped and added columns", "anchors": ["src/snapshot/diff.rs:diff_table_update", "src/snapshot/types/table.rs:Table::add_column"]}
{"id": "C06", "title": "Diff touches only what differs", "statement": "No change of a computed diff mentions a schema, relation, column, constraint or function that is present with the same attributes on both sides.", "quantifier": "all pairs of well-formed snapshots, every change of the diff", "why_tests_cant": "a frame property over every object outside the difference", "anchors": ["src/snapshot/diff.rs:compare_diff"]}
{"id": "C07", "title": "Each change's revert undoes it", "statement": "For every change that applies to a snapshot, the revert computed from the snapshot before the change, applied to the snapshot after it, gives back a snapshot with the same content as before.", "quantifier": "all thirty kinds of change, all well-formed snapshots", "why_tests_cant": "thirty kinds of change times every possible surrounding snapshot", "anchors": ["src/snapshot/changes/mod.rs:Change::revert", "src/snapshot/changes/table/drop_table_change.rs:DropTableChange::revert"]}
{"id": "C08", "title": "Reversed reverts undo a whole stage", "statement": "Applying the reverts recorded while staging, last first, to the staged snapshot gives back the snapshot before staging.", "quantifier": "all change lists that apply to a well-formed snapshot, of any length", "why_tests_cant": "sequences of any length, where each revert is computed in a different intermediate state", "anchors": ["src/cmd/stage.rs:stage", "src/history/version.rs:Version::add_down"]}
{"id": "C09", "title": "Staging never panics on a revert", "statement": "`stage` unwraps the revert of every change it computed; that unwrap never panics.", "quantifier": "all pairs of well-formed snapshots, every position in the change list", "why_tests_cant": "a panic would need one particular intermediate state; there are unboundedly many", "anchors": ["src/cmd/stage.rs:stage", "src/snapshot/changes/mod.rs:Change::revert"]}
{"id": "C10", "title": "Changes keep snapshots well-formed", "statement": "Every snapshot reachable by applying changes to the empty database has unique names at every level and every object recorded under its own name and inside its own parent.", "quantifier": "all finite sequences of changes", "why_tests_cant": "invariant over unbounded histories", "anchors": ["src/snapshot/changes/mod.rs:Change::apply", "src/snapshot/types/schema.rs", "src/snapshot/types/table.rs"]}
{"id": "C11", "title": "A failing change leaves the snapshot as it was", "statement": "When applying a change returns an error, the snapshot it was applied to is unchanged.", "quantifier": "all changes, all snapshots", "why_tests_cant": "in-place mutation before an error needs the right pre-state to show", "anchors": ["src/snapshot/changes/mod.rs:Change::apply", "src/snapshot/changes/column/rename_column_change.rs:RenameColumnChange::apply"]}
{"id": "C12", "title": "A change affects only the object it names", "statement": "Applying a change leaves every other schema, relation, column, constraint and function as it was.", "quantifier": "all changes, all snapshots, every object not named by the change", "why_tests_cant": "frame property over everything not named", "anchors": ["src/snapshot/changes/mod.rs:Change::apply"]}
{"id": "C13", "title": "Changes act on content, not on map order", "statement": "Whether a change applies, and the content it gives, depend only on the content of the snapshot, not on the iteration order of its maps or on column order.", "quantifier": "all changes, all pairs of well-formed snapshots with the same content", "why_tests_cant": "hash order is random; equality of outcomes must hold for all orders", "anchors": ["src/snapshot/changes/mod.rs:Change::apply", "src/snapshot/types/database.rs"]}
{"id": "C14", "title": "Definition files load in any order", "statement": "Loading the definition files of a directory gives the same snapshot, or fails, whatever the order in which the files are visited.", "quantifier": "all lists of parsed files, all permutations", "why_tests_cant": "read_dir order is unspecified; permutations of any number of files", "anchors": ["src/definition/mod.rs:load_snpashot", "src/snapshot/types/database.rs:Database::merge"]}
{"id": "C15", "title": "No definition is lost or overwritten by loading", "statement": "A load that succeeds contains every relation and function of every file; a load fails when two files define the same relation or function of a schema.", "quantifier": "all lists of parsed files", "why_tests_cant": "any number of files, any overlap", "anchors": ["src/definition/mod.rs:load_snpashot", "src/snapshot/types/schema.rs:Schema::merge_schema"]}
{"id": "C16", "title": "Quoted identifiers denote the given names", "statement": "Reading a rendered quoted identifier (or schema-qualified pair) back by PostgreSQL's rule for quoted identifiers gives the given name(s); two different objects never render to the same reference.", "quantifier": "all names (all strings)", "why_tests_cant": "all strings, including ones with quotes and dots", "anchors": ["src/util/sqlfmt.rs:sql_qn", "src/util/sqlfmt.rs:sql_qa"]}
{"id": "C17", "title": "Rendered SQL states the right nullability", "statement": "The SQL for adding a column, creating a table or altering a column's nullability says NOT NULL exactly for not-null columns.", "quantifier": "all columns and tables", "why_tests_cant": "all combinations of attributes over unbounded tables", "anchors": ["src/snapshot/changes/column/add_column_change.rs:render_sql", "src/snapshot/changes/table/create_table_change.rs:render_sql", "src/snapshot/changes/column/alter_column_set_null_change.rs:render_sql"]}
{"id": "C18", "title": "Rendered SQL states the right deferrability", "statement": "The SQL that adds or alters a constraint states its DEFERRABLE and INITIALLY DEFERRED flags as given in the change.", "quantifier": "all constraints of the four kinds, all flag values", "why_tests_cant": "all names and expressions together with all flags", "anchors": ["src/snapshot/changes/primarykey", "src/snapshot/changes/unique", "src/snapshot/changes/foreignkey", "src/snapshot/changes/check"]}
{"id": "C19", "title": "History is read the same in any directory order", "statement": "Opening a history directory gives the same outcome (same successor relation and current version, or failure) whatever order the directory entries come in.", "quantifier": "all directories, all permutations of their entries", "why_tests_cant": "read_dir order is unspecified", "anchors": ["src/history/fsh.rs:FSHistory::from_dir"]}
{"id": "C20", "title": "Branches are detected exactly", "statement": "Opening a history directory reports a branch exactly when two version files name the same predecessor.", "quantifier": "all directories of readable version files", "why_tests_cant": "any number of files, any predecessor graph", "anchors": ["src/history/fsh.rs:FSHistory::from_dir"]}
{"id": "C21", "title": "Opening a history terminates", "statement": "Opening a history directory and computing a range of versions terminates.", "quantifier": "all directories; all directories the tool itself can produce", "why_tests_cant": "non-termination needs a cyclic predecessor graph; no test waits for ever", "anchors": ["src/history/fsh.rs:FSHistory::from_dir", "src/history/fsh.rs:FSHistory::get_upward_range"]}
{"id": "C22", "title": "Upward range is the path between two versions", "statement": "The upward range from A to B is the list of versions on the predecessor path from B back to A, oldest first, without A; it fails when A is not on that path.", "quantifier": "all directories with an acyclic predecessor relation, all pairs of versions", "why_tests_cant": "paths of any length", "anchors": ["src/history/fsh.rs:FSHistory::get_upward_range"]}
{"id": "C23", "title": "make keeps the staged snapshot", "statement": "`make` records exactly the staged changes under the new name and leaves an empty stage on top of it; the snapshot calculated for the stage is the same before and after.", "quantifier": "all histories, all fresh version names", "why_tests_cant": "any chain length and content", "anchors": ["src/cmd/make.rs:make", "src/history/snapshot.rs:calculate_snapshot"]}
{"id": "C24", "title": "Made versions are immutable", "statement": "No later init, stage, make or reset command changes the content of a version made earlier.", "quantifier": "all finite sequences of commands with fresh names", "why_tests_cant": "unbounded command histories", "anchors": ["src/cmd/make.rs:make", "src/cmd/stage.rs:stage", "src/cmd/reset.rs:reset"]}
{"id": "C25", "title": "make survives a crash", "statement": "If the process dies at any point during `make`, the history can still be opened and holds either the old or the new state.", "quantifier": "all histories, every crash point inside make", "why_tests_cant": "crash points cannot be scheduled by a unit test", "anchors": ["src/cmd/make.rs:make", "src/history/fsh.rs:FSHistory::save_version"]}
{"id": "C26", "title": "stage and reset survive a crash", "statement": "If the process dies at any point during `stage` or `reset`, the history can still be opened and holds either the old or the new stage.", "quantifier": "all histories, every crash point inside stage and reset", "why_tests_cant": "crash points cannot be scheduled by a unit test", "anchors": ["src/cmd/stage.rs:stage", "src/cmd/reset.rs:reset", "src/history/fsh.rs:FSHistory::save_version"]}
{"id": "C27", "title": "History always replays", "statement": "After any sequence of init, stage, make and reset commands, the snapshot of the stage can be calculated without error.", "quantifier": "all finite sequences of commands, all definitions", "why_tests_cant": "unbounded command histories, each step depending on the previous ones", "anchors": ["src/history/snapshot.rs:calculate_snapshot", "src/cmd/stage.rs:stage"]}
{"id": "C28", "title": "Scripts stay aligned with changes", "statement": "In every version file, the up script has one statement per change, in order, equal to that change's SQL; the down script has one statement per change, in reverse order.", "quantifier": "all versions in all histories produced by any sequence of commands", "why_tests_cant": "invariant over unbounded histories, including repeated staging into the same stage", "anchors": ["src/cmd/stage.rs:stage", "src/history/version.rs:Version"]}
{"id": "C29", "title": "reset drops exactly the staged changes", "statement": "After `reset`, the snapshot calculated for the stage equals the snapshot of the last made version and all other files are untouched.", "quantifier": "all histories", "why_tests_cant": "any chain length and content", "anchors": ["src/cmd/reset.rs:reset", "src/history/version.rs:Version::reset"]}
{"id": "C30", "title": "up is all or nothing", "statement": "If any statement or bookkeeping step of `up` fails, the database content and its version table are as before the command.", "quantifier": "all histories, all database behaviours, every failing position", "why_tests_cant": "failure at any position of any script", "anchors": ["src/cmd/up.rs:up"]}
{"id": "C31", "title": "up applies exactly the missing versions in order", "statement": "A successful `up` runs exactly the up scripts of the versions after the database's current version up to the target, oldest first, each once, and records them; the target is then current.", "quantifier": "all histories, all database states whose current version lies on the path to the target", "why_tests_cant": "any number of versions and statements", "anchors": ["src/cmd/up.rs:up", "src/history/dbh.rs:DBHistory::save_version"]}
{"id": "C32", "title": "up is idempotent", "statement": "A second `up` to the same target right after a successful one runs no statement and changes nothing.", "quantifier": "all histories and database states", "why_tests_cant": "quantifies over all states after a successful up", "anchors": ["src/cmd/up.rs:up"]}
{"id": "C33", "title": "down reverts exactly the later versions, newest first", "statement": "A successful `down` to a version runs exactly the recorded down scripts of the versions applied after it, newest first, and removes exactly these from the version table.", "quantifier": "all version tables reachable by up and down, all targets", "why_tests_cant": "any number of applied versions", "anchors": ["src/cmd/down.rs:down", "src/history/dbh.rs:DBHistory::get_downward_range"]}
{"id": "C34", "title": "down undoes up", "statement": "If each version's down script undoes its up script on the database, `down` back to the version current before an `up` restores the database content and the recorded versions.", "quantifier": "all histories, all databases on which the scripts are inverse", "why_tests_cant": "any number of versions between the two points", "anchors": ["src/cmd/up.rs:up", "src/cmd/down.rs:down"]}
{"id": "C35", "title": "Version table stays a chain", "statement": "After any sequence of up and down commands the version table starts at init, each row's predecessor is the row applied just before it, and the application order strictly increases.", "quantifier": "all finite sequences of up and down commands, failing ones included", "why_tests_cant": "invariant over unbounded histories", "anchors": ["src/history/dbh.rs", "src/cmd/up.rs:up", "src/cmd/down.rs:down"]}
{"id": "C36", "title": "down without target goes back one version", "statement": "`down` without a version removes exactly the current version; on the init version it does nothing; an unknown version is an error and changes nothing.", "quantifier": "all reachable version tables", "why_tests_cant": "all reachable states", "anchors": ["src/cmd/down.rs:down"]}
{"id": "C37", "title": "Applying the stage does not strand the database", "statement": "After `up --version stage`, a later `make` followed by `up` brings the database to the made version.", "quantifier": "all histories with a non-empty stage", "why_tests_cant": "interaction of three commands over all histories", "anchors": ["src/cmd/up.rs:up", "src/cmd/make.rs:make"]}
{"id": "C38", "title": "Column expressions round-trip", "statement": "Parsing the rendered expression of a column gives back its type, nullability and default.", "quantifier": "all types, defaults and nullabilities (all strings)", "why_tests_cant": "all strings; the failing ones contain separators, newlines or outer blanks", "anchors": ["src/definition/ddl/column.rs:parse_column_expression", "src/definition/ddl/column.rs:render_column_expression"]}
{"id": "C39", "title": "Table references round-trip", "statement": "Parsing the rendered reference to a table, seen from a schema, gives back the schema and table.", "quantifier": "all schema and table names (all strings)", "why_tests_cant": "all strings, including ones with dots", "anchors": ["src/definition/ddl/foreignkey.rs:parse_table_reference", "src/definition/ddl/foreignkey.rs:render_table_reference"]}
{"id": "C40", "title": "Definition keys round-trip", "statement": "Parsing the rendered mapping key of a definition node gives back its kind and name.", "quantifier": "all kinds and names (all strings)", "why_tests_cant": "all strings; collisions with two-word keywords are rare", "anchors": ["src/definition/base/yaml.rs:create_node_from_mapping_key", "src/definition/base/yaml.rs:render_node_to_mapping_key"]}
{"id": "C41", "title": "Reading a definition key never panics", "statement": "Turning any mapping key into a node returns a node or an error; it does not panic.", "quantifier": "all strings", "why_tests_cant": "byte slicing goes wrong only for rare non-ASCII keys", "anchors": ["src/definition/base/yaml.rs:create_node_from_mapping_key"]}
{"id": "C42", "title": "Definition trees round-trip", "statement": "Turning a tree of definition nodes into a mapping and back gives the same tree.", "quantifier": "all definition trees of any depth", "why_tests_cant": "unbounded trees", "anchors": ["src/definition/base/yaml.rs:parse_mapping_to_nodes", "src/definition/base/yaml.rs:render_nodes_to_mapping"]}
{"id": "C43", "title": "Object definitions round-trip", "statement": "Parsing the rendered definition of a constraint, column, sequence, index, function or view gives back the same object.", "quantifier": "all objects of each kind", "why_tests_cant": "all attribute values and combinations of defaults", "anchors": ["src/definition/ddl"]}
{"id": "C44", "title": "Table and schema definitions round-trip", "statement": "Parsing the rendered definition of a table or a schema gives back the same table or schema.", "quantifier": "all tables and schemas of any size, all iteration orders", "why_tests_cant": "unbounded nested content and random iteration order", "anchors": ["src/definition/ddl/table.rs", "src/definition/ddl/schema.rs"]}
{"id": "C45", "title": "A saved snapshot loads back", "statement": "Loading a definition file written from a snapshot gives the same snapshot; so staging right after clone or init with an equal history finds nothing to do.", "quantifier": "all well-formed snapshots, all iteration orders", "why_tests_cant": "whole snapshots of any size", "anchors": ["src/definition/mod.rs:save_snapshot", "src/definition/mod.rs:load_yaml_string", "src/cmd/clone.rs:clone"]}
{"id": "C46", "title": "Parsed definitions are well-formed", "statement": "Every snapshot obtained by loading definitions has unique names at every level and every object inside its own parent.", "quantifier": "all definition trees, all lists of files", "why_tests_cant": "all inputs the parser accepts", "anchors": ["src/definition/ddl/schema.rs:parse_schema_definition", "src/definition/mod.rs:load_yaml_string"]}
{"id": "C47", "title": "Unknown attributes are rejected, not ignored", "statement": "A definition that contains an attribute its kind does not have is never accepted.", "quantifier": "all definition nodes", "why_tests_cant": "all children in all positions", "anchors": ["src/definition/ddl"]}
{"id": "C48", "title": "Malformed definitions give errors, not panics", "statement": "Parsing any definition tree returns a snapshot or an error; it does not panic.", "quantifier": "all definition trees", "why_tests_cant": "panics hide behind particular shapes of input", "anchors": ["src/definition/ddl/constraint.rs:parse_constraint_definition", "src/definition/ddl/index.rs:parse_index_definition", "src/definition/ddl/schema.rs:parse_schema_definition", "src/definition/defaults.rs"]}
{"id": "C49", "title": "Omitted sequence attributes take PostgreSQL's defaults", "statement": "A sequence definition without minimum, maximum or start gets the bounds of its type and direction and starts at the bound it counts away from.", "quantifier": "all increments, types and combinations of omitted attributes", "why_tests_cant": "all integers", "anchors": ["src/definition/defaults.rs", "src/definition/ddl/sequence.rs:parse_sequence_definition"]}
{"id": "C50", "title": "Environment variables expand exactly once, in place", "statement": "Expanding a configuration string replaces each $NAME or ${NAME} by the variable's value (empty if unset), leaves all other text as it is and does not expand the inserted text again.", "quantifier": "all strings, all environments", "why_tests_cant": "all strings", "anchors": ["src/util/expand.rs:expand_envvar"]}
{"id": "C51", "title": "The nearest project is found", "statement": "Project discovery returns the closest ancestor directory with a configuration file, and fails exactly when there is none.", "quantifier": "all directory depths, all placements of configuration files", "why_tests_cant": "any depth", "anchors": ["src/project/mod.rs:discover_project"]}
{"id": "C52", "title": "Commands of one profile use one history", "statement": "All commands given the same profile work on that profile's history directory.", "quantifier": "all projects, profiles and commands", "why_tests_cant": "all profile configurations", "anchors": ["src/cmd/up.rs:up", "src/cmd/status.rs:status", "src/cmd/stage.rs:stage", "src/project/mod.rs:Project::resolve_history_dir"]}
{"id": "C53", "title": "Introspected rows are all represented", "statement": "Loading consistent catalogue rows succeeds and the snapshot contains exactly the objects the rows describe.", "quantifier": "all row sets of any size", "why_tests_cant": "unbounded row sets", "anchors": ["src/introspection/mod.rs:introspect"]}
{"id": "C54", "title": "Version files round-trip", "statement": "Writing a version to its file format and reading it back gives the same name, predecessor, changes and scripts.", "quantifier": "all versions, all thirty kinds of change", "why_tests_cant": "all field values and lists of any length", "anchors": ["src/history/version.rs:Version", "src/snapshot/changes/mod.rs:Change"]}
{"id": "C55", "title": "init leaves a clean project", "statement": "After `init`, opening the history succeeds, the current version is init, the stage is empty, and staging the definitions init wrote finds nothing to do.", "quantifier": "the state init writes, all iteration orders and directory orders", "why_tests_cant": "random orders", "anchors": ["src/cmd/init.rs:init"]}
{"id": "C56", "title": "Rendered SQL says what the change does", "statement": "The SQL text rendered for a change is a PostgreSQL statement whose effect is the change: it names the same objects and states the same attributes.", "quantifier": "all changes of all thirty kinds, with all names and attributes", "why_tests_cant": "unbounded names, column lists and attribute combinations", "anchors": ["src/snapshot/changes/mod.rs:Change::render_sql", "src/util/sqlfmt.rs"]}
{"id": "C57", "title": "stage brings the stage to the definitions", "statement": "Running `stage` on any history and any definitions either fails and changes no file, or leaves a stage whose snapshot has the content of the definitions; the changes staged before are kept in front of the new ones and no made version is touched.", "quantifier": "all histories produced by any sequence of commands, all definitions", "why_tests_cant": "any chain length and content, any pair of snapshots", "anchors": ["src/cmd/stage.rs:stage", "src/history/snapshot.rs:calculate_snapshot", "src/snapshot/diff.rs:compare_diff"]}
{"id": "C58", "title": "A loaded snapshot holds what its files state", "statement": "When definition files load, the snapshot holds exactly the schemas, tables, columns, constraints, views, indexes, sequences and functions that the files state, each attribute has the value the file gives it, and an attribute the file leaves out has PostgreSQL's default.", "quantifier": "all definition files and directories that load, all sorts of definitions, all attributes", "why_tests_cant": "any number of objects, any combination of given and omitted attributes, all texts", "anchors": ["src/definition/mod.rs:load_snpashot", "src/definition/ddl/*.rs", "src/definition/defaults.rs"]}
{"id": "C59", "title": "init does not damage an existing project", "statement": "Running `init` where a project exists changes nothing of it.", "quantifier": "all file system contents, all profiles", "why_tests_cant": "all histories and configurations that may be there", "anchors": ["src/cmd/init.rs:init"]}
{"id": "C60", "title": "clone captures the database", "statement": "After a successful clone, public.yaml in the default definitions directory loads as a snapshot holding exactly the objects of the database, and nothing else in the project has changed; a clone that does not succeed changes nothing.", "quantifier": "all databases, projects, working directories and profiles", "why_tests_cant": "unbounded catalogues and existing project contents; needs the composition of introspection, rendering and parsing", "anchors": ["src/cmd/clone.rs:clone", "src/introspection/mod.rs:introspect", "src/definition/mod.rs:save_snapshot"]}
{"id": "C61", "title": "status tells the truth", "statement": "`status` changes nothing, and prints the version of the database, the SQL of exactly the staged changes and the SQL of exactly the changes that are not staged; it says \"No changes.\" if and only if nothing is staged and the definitions equal the staged state.", "quantifier": "all projects, histories podo has written, definitions, database states", "why_tests_cant": "all definitions against all histories; needs replay, comparison and rendering together", "anchors": ["src/cmd/status.rs:status", "src/history/dbh.rs"]}
{"id": "C62", "title": "The exit status tells whether the command succeeded", "statement": "A command exits with zero if and only if it succeeded, and a command that failed leaves the databases as they were.", "quantifier": "all commands, file systems, servers and failures", "why_tests_cant": "every way each command can fail, on any state", "anchors": ["src/main.rs:main", "src/cmd/*.rs"]}
{"id": "C63", "title": "stage, make, up is the way from definitions to database", "statement": "In a project whose database is on the current version, when `stage` stages changes, `make` and `up` succeed, the database has then run exactly the staged SQL and is on the new version, and `status` says so and that nothing is left to do.", "quantifier": "all projects podo has written, all definitions, all databases and server behaviours that accept the SQL", "why_tests_cant": "the composition of four commands over arbitrary histories and databases", "anchors": ["src/cmd/stage.rs:stage", "src/cmd/make.rs:make", "src/cmd/up.rs:up", "src/cmd/status.rs:status"]}
{"id": "C64", "title": "A command touches only its own profile", "statement": "A command on a profile changes no configuration or definition file, no version files but those of the profile (and only stage, reset and make), and no database but the profile's (and only up and down); init works in the current directory only.", "quantifier": "all commands, profiles, file systems and servers", "why_tests_cant": "absence of effects on everything else, for all states", "anchors": ["src/main.rs:main", "src/cmd/*.rs"]}
{"id": "C65", "title": "Failures are reported, not panics", "statement": "A command that cannot do its work reports an error; it does not panic.", "quantifier": "all commands, definitions and histories", "why_tests_cant": "all clashing or ill-formed definitions, all histories", "anchors": ["src/error.rs", "src/snapshot/error.rs:SnapshotError", "src/cmd/stage.rs:stage"]}
{"id": "C66", "title": "After up, the database has the schema of its version", "statement": "On a server that does what SQL statements say, a database whose schema is that of its recorded version has, after a successful up, the schema of the version it is then recorded as being on.", "quantifier": "all servers that execute statements as they read, all histories podo has written, all targets and databases", "why_tests_cant": "every sequence of changes in every history, on every server", "anchors": ["src/cmd/up.rs:up", "src/history/dbh.rs:save_version", "src/snapshot/changes/*.rs:render_sql", "src/history/snapshot.rs:calculate_snapshot"]}
{"id": "C67", "title": "After down, the database has the schema of its version", "statement": "On a server that does what SQL statements say, a database whose schema is that of its recorded version has, after a successful down, the schema of the version it is then recorded as being on.", "quantifier": "all servers that execute statements as they read, all histories podo has written, all targets and databases", "why_tests_cant": "every sequence of inverse changes in every history, on every server", "anchors": ["src/cmd/down.rs:down", "src/history/dbh.rs:delete_version", "src/snapshot/changes/*.rs:revert", "src/snapshot/changes/*.rs:render_sql"]}
{"id": "C68", "title": "A version is never applied twice, whoever runs podo at the same time", "statement": "When any number of people run up and down on one database at the same time, with whatever version files, and however their commands fail: no version is recorded twice, the predecessor of every recorded version is recorded, every recorded version was applied, and between two committed runs of a version's up script there is a committed run of its down script.", "quantifier": "all numbers of processes, all version files and targets, all interleavings of their statements, all points of failure", "why_tests_cant": "every schedule of any number of processes; a test runs one", "anchors": ["src/cmd/up.rs:up", "src/cmd/down.rs:down", "src/history/dbh.rs:save_version", "src/history/dbh.rs:delete_version", "src/history/dbh.rs:ensure_initialized"]}
{"id": "C69", "title": "podo commands on one database at the same time act as if run one after the other", "statement": "When up and down are run on one database at the same time, what is committed is what some order of the same scripts, each run on the version it belongs to, leads to: every up script is run on the predecessor of its version, every down script on its version, and the recorded versions follow one another. A command that runs alone does what the sequential properties say.", "quantifier": "all numbers of processes, all version files and targets, all interleavings of their statements, all points of failure", "why_tests_cant": "every schedule of any number of processes; a test runs one", "anchors": ["src/cmd/up.rs:up", "src/cmd/down.rs:down", "src/history/dbh.rs:get_current_version", "src/history/dbh.rs:get_downward_range", "src/history/dbh.rs:save_version", "src/history/dbh.rs:delete_version"]}
{"id": "C70", "title": "Everything podo knows of can be defined", "statement": "For every snapshot of a database podo can hold, diff and apply, there is a directory of definition files that defines it: every attribute of every sort of object can be given.", "quantifier": "all well-formed snapshots, all directories of definition files", "why_tests_cant": "a claim that no file in any directory, however written, defines an object ranges over all files", "anchors": ["src/definition/mod.rs:load_snpashot", "src/definition/base/yaml.rs:KEYWORDS", "src/definition/ddl/index.rs", "src/definition/ddl/sequence.rs"]}
{"id": "C71", "title": "Any name can be given to the metadata schema", "statement": "Whatever name a profile gives the metadata schema, the first up on a database that has no such schema creates a schema of exactly that name and records the versions in it, and the later commands find them there; for names PostgreSQL cannot take, up and down fail and change nothing.", "quantifier": "all names of the metadata schema, all ways a server reads an unquoted name, all histories, targets and databases", "why_tests_cant": "a claim about every name, and about every later command on every database and history", "anchors": ["src/history/dbh.rs:ensure_initialized", "src/history/dbh.rs:meta_schema_exists", "src/history/dbh.rs:format_create_schema_sql", "src/cmd/up.rs", "src/cmd/down.rs", "src/cmd/status.rs:try_get_db_current_version"]}
{"id": "C72", "title": "The same definitions are staged the same way", "statement": "Diffing the same two snapshots always gives the same changes in the same order, whatever order the hash maps of the two happen to iterate in, so that running stage again on the same history and definitions writes the same version file.", "quantifier": "all pairs of well-formed snapshots, all iteration orders of their hash maps", "why_tests_cant": "the iteration order of a hash map is random per process, and a test sees only a few of them", "anchors": ["src/snapshot/diff.rs:compare_diff", "src/snapshot/types/schema.rs:Schema", "src/snapshot/types/database.rs:Database", "src/cmd/stage.rs:stage"]}
{"id": "C73", "title": "Commands at the same time leave a usable history", "statement": "However many stage, reset and make commands are run at the same time on one project, in whatever order they read and write the version files and wherever some of them die, the made versions stay as they are, and the history opens and replays afterwards as after some sequence of the same commands one after the other.", "quantifier": "all histories, any number of concurrent commands, all interleavings of their steps, all points at which they stop", "why_tests_cant": "the schedules are unbounded in number and cannot be forced from outside", "anchors": ["src/history/fsh.rs:FSHistory", "src/cmd/stage.rs:stage", "src/cmd/make.rs:make", "src/cmd/reset.rs:reset"]}
{"id": "C74", "title": "Which definition files are accepted", "statement": "A definition file is accepted exactly when it can be read as keys and values, every part of it is a schema whose tables, views, indexes, sequences and functions have the attributes their kind needs and no others, and no relation or function of a schema is defined twice; a directory is accepted exactly when each of its YAML files is and no two of them define the same thing.", "quantifier": "all parsed YAML documents and all directory trees of them", "why_tests_cant": "the documents are unbounded in depth and number, and acceptance is a claim about all of them in both directions", "anchors": ["src/definition/ddl/schema.rs:parse_schema_definition", "src/definition/ddl/table.rs:parse_table_definition", "src/definition/ddl/constraint.rs:parse_constraint_definition", "src/definition/mod.rs"]}
{"id": "C75", "title": "What is read from a database is what is in it", "statement": "Reading the schema of a database, as clone does, gives a snapshot that holds exactly the tables, columns, constraints, indexes, sequences, views and functions that PostgreSQL's own system tables record for the schemas asked for, whatever the order in which the server returns the rows of the queries.", "quantifier": "all contents of the system tables, all sets of schemas, all orders of rows and of aggregated values", "why_tests_cant": "the contents of the system tables are unbounded, and the order of rows without ORDER BY is up to the server", "anchors": ["src/introspection/column.sql", "src/introspection/foreignkey.sql", "src/introspection/index.sql", "src/introspection/sequence.sql", "src/introspection/function.sql", "src/introspection/mod.rs:introspect", "src/cmd/clone.rs:clone"]}
{"id": "C76", "title": "What podo brought into a database is what it reads from it", "statement": "If the schema of a database is what the definition files state (for example because it was staged, made and applied with podo), then cloning that database writes definition files that state the same snapshot, with the columns of each table in the same order, and podo sees no difference between the two.", "quantifier": "all snapshots, all system tables that show them, all orders of rows, all projects and histories on the way from the definitions to the database", "why_tests_cant": "the order of rows without ORDER BY is up to the server, and snapshots and histories are unbounded", "anchors": ["src/cmd/clone.rs:clone", "src/introspection/mod.rs:introspect", "src/introspection/column.sql", "src/introspection/foreignkey.sql", "src/snapshot/diff.rs:compare_diff", "src/definition/ddl/foreignkey.rs"]}
{"id": "C77", "title": "The output tells what was done", "statement": "What a command prints is what it did: `up` and `down` show the version the database was on, the one they go to, each version applied or reverted in order, and exactly the SQL statements the server executed; `stage` shows the SQL and the kind of each change the stage gains; `make` names the version under which the staged changes are then found; `init` in a project and `make` of an empty stage say that nothing was done and do nothing; what `status` lists as not staged is what `stage` then shows; and a command that fails does not show effects that nobody will ever see.", "quantifier": "all files, histories, databases, definitions and command lines, all endings of the command, all reactions of the server", "why_tests_cant": "the output is compared with the effects on files and databases in every state and for every point at which the server or the file system may fail", "anchors": ["src/cmd/up.rs:up", "src/cmd/down.rs:down", "src/cmd/stage.rs:stage", "src/cmd/make.rs:make", "src/cmd/init.rs:init", "src/cmd/status.rs:status", "src/snapshot/changes/mod.rs:display_name"]}
{"id": "C78", "title": "Errors say what is wrong", "statement": "When a change cannot be applied to a snapshot, or cannot be taken back, the error names the first thing it needs that the snapshot does not provide: the object that is missing, the object that is there already, or the object that is of another kind, with the kind it has and the kind that was needed; without such a thing there is no error. When a list of changes cannot be replayed, this is so for the first change that fails, in the snapshot reached before it. When definition files cannot be put together, the error names a relation or function that is defined twice.", "quantifier": "all changes, all snapshots, all lists of changes, all directories of definition files", "why_tests_cant": "thirty kinds of change, each with several ways to fail, on unboundedly many snapshots; a test sees one error at a time and not that nothing else was wrong before", "anchors": ["src/snapshot/error.rs:SnapshotError", "src/snapshot/changes/mod.rs:Change", "src/snapshot/types/database.rs:Database", "src/snapshot/types/schema.rs:Schema", "src/snapshot/types/table.rs:Table", "src/definition/mod.rs:load_snpashot"]}
{"id": "C79", "title": "Concurrent commands of one project do not deadlock", "statement": "When any number of processes run `up` and `down` on one database at the same time, with the version files of one project, no processes wait for each other in a circle over the version table: at most one of them has changes in it that are not committed, and the one that others wait for does not itself wait. So one that is running can always go on, and the versions recorded always follow one another.", "quantifier": "all interleavings of the statements of any number of processes, all projects, all targets, all points at which a process fails", "why_tests_cant": "a deadlock needs a certain order of the statements of several processes; a test sees some of the unboundedly many orders", "anchors": ["src/cmd/up.rs:up", "src/cmd/down.rs:down", "src/history/dbh.rs:DBHistory"]}
{"id": "C80", "title": "Errors in definition files point at the culprit", "statement": "When a definition file is refused because of what stands in it, the error names every faulty entry of the first faulty schema, nested as the entries are: the entries that do not belong there, the names and attributes that are lacking, the values of a wrong type with the type that was expected, the column types and table references that cannot be read. It names nothing that is not wrong, and there is no such error without a fault. When a key or a value cannot be understood, the error is about the first one. The printed message contains all of this.", "quantifier": "all YAML files, all directories of them", "why_tests_cant": "any number of faults at any depth can stand together in one file; a test sees some combinations and not that nothing is left out or made up", "anchors": ["src/definition/ddl/error.rs:Error", "src/definition/ddl/coerce.rs:coerce_name", "src/definition/ddl/schema.rs:parse_schema_definition", "src/definition/base/yaml.rs:parse_mapping_to_nodes", "src/definition/mod.rs:load_yaml_string"]}
{"id": "C81", "title": "The message on standard error names the cause", "statement": "A command that reports an error prints exactly one message on standard error, and one that does not prints none there. The message tells which error it is and names what it is about: that no directory from the current one upwards has a project; which profile is not configured; which version has two next versions, and which two; which version cannot be reached from which; which version was asked for that the database has not recorded; what is wrong in the definitions (C80). It says so only if it is the case.", "quantifier": "all commands with all their arguments, all projects, all version files and definitions, all database servers", "why_tests_cant": "the message must fit the cause in every combination of broken configurations, histories, definitions and databases, and must never be given without the cause", "anchors": ["src/main.rs:main", "src/project/mod.rs:ProjectError", "src/history/fsh.rs:FSHistoryError", "src/history/dbh.rs:DBHistoryError", "src/cmd/up.rs:up", "src/cmd/down.rs:down", "src/cmd/stage.rs:stage", "src/cmd/status.rs:status"]}
{"id": "C82", "title": "The command line says what is run", "statement": "A command is run exactly if the command line is its name followed by its options, in any order, each at most once, each as `--name value` or `--name=value`; it is run with the profile and version given, whatever characters they have, with the profile `database` when none is given, and without a version when none is given. No command line means two commands, every command can be given with every profile and version, and a command line that means no command changes nothing. Every command that podo lists does something.", "quantifier": "all command lines, all projects, all database servers", "why_tests_cant": "there are unboundedly many command lines, with any text as a value and in any order; a test cannot show that none of the others is taken for a command", "anchors": ["src/main.rs:main", "src/main.rs:get_profile", "src/main.rs:get_version", "src/cmd/sync.rs:sync"]}
{"id": "C83", "title": "up while version files are being written", "statement": "While other podo processes stage, reset and make versions in the same project, at any point of their work, `up` fails without having changed anything, or does exactly what it would do with nobody else there. What it records is what the version files hold, its statements have run exactly once, and the recorded versions remain one chain.", "quantifier": "all histories of version files, all databases, all targets, all interleavings of any number of processes down to single file reads and pieces written, with processes dying at any point", "why_tests_cant": "the outcome depends on where in the reading of several files, each read up to three times, the others write; there are unboundedly many interleavings and histories", "anchors": ["src/cmd/up.rs:up", "src/history/fsh.rs:from_dir", "src/history/fsh.rs:get_upward_range", "src/history/fsh.rs:save_version", "src/cmd/stage.rs:stage", "src/cmd/make.rs:make", "src/cmd/reset.rs:reset"]}
{"id": "C84", "title": "Databases of one project on the same version are alike", "statement": "However and whenever the databases of a project were brought to a version, on whatever servers, in whatever steps up and down, at whatever stages of the project's life and with whatever failures: any two of them have recorded versions of which one list begins the other; two on the same version have recorded the same versions in the same order with the same scripts, and these are the ones in the project's version files. If they started with the same data on servers that behave alike and were only brought up, their data is the same.", "quantifier": "all projects that podo's commands can have produced, all sequences of up and down on each database between all sequences of other commands, all servers and data", "why_tests_cant": "the histories of two databases and of the project between them are unboundedly many; a test compares one pair", "anchors": ["src/cmd/up.rs:up", "src/cmd/down.rs:down", "src/history/dbh.rs:DBHistory::get_current_version", "src/history/fsh.rs:get_upward_range", "src/cmd/make.rs:make"]}
{"id": "C85", "title": "Up in steps is up at once", "statement": "Bringing a database to one version and later, when the project may have gone on, to another leaves the very same database behind, recorded versions, their numbers and data, as bringing it to the last one at once. Conversely, where it can be brought up at once over a version, it can also be brought to that version first and then on, with the same result, if the data can be committed there.", "quantifier": "all projects, all databases podo can have left behind, all servers, all intermediate versions and all commands on the project in between", "why_tests_cant": "it compares two executions for every history, every database and every way of cutting the path into steps", "anchors": ["src/cmd/up.rs:up", "src/history/dbh.rs:DBHistory::save_version", "src/history/fsh.rs:get_upward_range"]}
{"id": "C86", "title": "Merging two copies of a project loses and mixes nothing unnoticed", "statement": "If two copies of a project have gone on, each by any commands, and their version files are merged, with the stage of either copy, then podo works with the merged project only if its version files are exactly those of one of the copies. Otherwise podo notices: it names the version that has two next versions and both of these, one from each copy, no command changes a version file, and up changes no database. Where the merged project works, the databases of both copies are on its one line of versions.", "quantifier": "all pairs of projects podo's commands can have produced, all merges of their files without a conflict outside the stage, all commands, all databases of either copy", "why_tests_cant": "the histories of both copies are unbounded and can have diverged at any version in any number of versions", "anchors": ["src/history/fsh.rs:from_dir", "src/cmd/make.rs:make", "src/cmd/stage.rs:stage", "src/cmd/up.rs:up"]}
{"id": "C87", "title": "Data for which the definitions still have a place is not dropped", "statement": "If a column is in the last made version and in the definitions, under the same names of schema, table and column, then what stage stages does not drop it, its table or its schema, whatever else is different about them, so that up keeps its data; and the same for the current value of a sequence.", "quantifier": "all pairs of snapshots, all histories podo's commands can have produced, all definitions, all columns and sequences", "why_tests_cant": "it is about every pair of snapshots and every sequence of stage and reset before a make; a test fixes a few", "anchors": ["src/snapshot/diff.rs:compare_diff", "src/snapshot/diff.rs:diff_table_update", "src/snapshot/diff.rs:diff_sequence_update", "src/cmd/stage.rs:stage", "src/cmd/reset.rs:reset"]}
{"id": "C88", "title": "up is for the databases of its project, and does not care what became of applied versions", "statement": "Editing the changes and scripts in the files of versions that a database has applied makes no difference to what any later up does with this database. up to whatever target refuses, with an error and without touching it, a database that is on a version of which the project has no file, and it goes on with a database only if what is recorded there are the project's own versions.", "quantifier": "all projects, all databases podo's commands have produced, all edits of applied versions, all targets, all directories of files", "why_tests_cant": "it compares two runs of up for every project, every edit and every database; a test fixes a few of each", "anchors": ["src/cmd/up.rs:up", "src/history/fsh.rs:get_upward_range", "src/history/fsh.rs:from_dir", "src/history/dbh.rs:get_current_version"]}
{"id": "C89", "title": "Missing version files are noticed", "statement": "If the file of a version of a project, made or the stage, is missing, no command succeeds as if the version had never been there: stage and status fail, up to a version that is named does exactly what it would have done with all files there, or fails without touching the database if it needs one that is missing, and up without a target brings the database to the newest version or fails.", "quantifier": "all projects, all sets of missing files, all definitions, all databases podo's commands have produced, all targets", "why_tests_cant": "it compares runs for every project and every subset of its files, in every order in which they are read", "anchors": ["src/history/fsh.rs:from_dir", "src/history/fsh.rs:get_upward_range", "src/history/fsh.rs:get_version", "src/history/snapshot.rs:calculate_snapshot", "src/cmd/up.rs:up", "src/cmd/stage.rs:stage", "src/cmd/status.rs:status"]}
{"id": "C90", "title": "Files that are not podo's make no difference", "statement": "Files and directories whose name does not end in .yaml, in the history directory or a definitions directory, change nothing about any command: it ends in the same way, prints and reports the same and leaves the same version files, definition files and databases with and without them. No command changes, removes or adds one. In a definitions directory the subdirectories a definition file is in make no difference either.", "quantifier": "all commands on all profiles, all states of the files and databases, all other files anywhere in the listings, all directory trees", "why_tests_cant": "it compares runs over every state of the files and every set of other files; a test has one of each", "anchors": ["src/history/fsh.rs:from_dir", "src/history/fsh.rs:get_version_file_path", "src/definition/mod.rs:collect_yaml_file", "src/definition/mod.rs:load_snpashot"]}
{"id": "C91", "title": "The life of a project", "statement": "On a machine on which podo has never run, let anything happen in any order: podo commands with any arguments, from any directory, on any profile, while any servers cannot be reached, ending in any way; edits of the configuration and the definitions; work in the databases outside podo's schemas; servers set up and taken down; directories listed in another order; commands killed at any point, after which the history is put in order with reset or by hand. As long as no command is run at the same time as another, init is not interrupted or run over a history without a project, and make is not run twice in the same second with the same label or with a label that ends in .yaml, then at any time: every history directory is empty or a history as podo's commands write it, which opens and has a stage whose snapshot can be calculated; every metadata schema is as up and down write it; every command ends; the file of a made version is never changed; and every version file goes back to one make.", "quantifier": "all sequences of commands, edits and changes on the servers, of any length, on any number of projects, profiles and databases", "why_tests_cant": "it is an invariant over unbounded histories of the whole machine; tests run a few commands", "anchors": ["src/main.rs:main", "src/cmd/init.rs:init", "src/cmd/make.rs:make", "src/cmd/stage.rs:stage", "src/cmd/reset.rs:reset", "src/cmd/up.rs:up", "src/cmd/down.rs:down"]}
{"id": "C92", "title": "Version files sort in the order of the versions", "statement": "As long as the local time goes on from one make to the next, sorting the files of the made versions by name gives the order in which the versions follow one another. Where the local time is set back, as in autumn, it does not.", "quantifier": "all sequences of commands, edits and changes on the servers as in C91, all local times of years with four digits, all labels, all pairs of made versions", "why_tests_cant": "it ranges over all pairs of times, all labels and all histories", "anchors": ["src/cmd/make.rs:make"]}
{"id": "C93", "title": "Interrupted commands can be put right", "statement": "If stage, reset or make is killed at any point and the history does not open afterwards, it can be repaired by hand with only the files to go by: a stage file that cannot be read is written anew, empty, on top of the version that none follows; any other file that cannot be read is deleted; a version that follows the same one as the stage is deleted. Whichever of these applies, the history then is what it was before, or what the command, or a reset, would have made of it; the same after a reset that succeeds; no made version is lost. Without either, a killed stage may go unnoticed and lack statements to go down. If up or down is killed at any point, the database is as before or the command is complete, and any command can follow.", "quantifier": "all histories, all points at which stage, reset, make, up and down can be killed, all repairs that apply, all database behaviours", "why_tests_cant": "it ranges over all crash points of all commands on all histories", "anchors": ["src/history/fsh.rs:save_version", "src/cmd/stage.rs:stage", "src/cmd/make.rs:make", "src/cmd/reset.rs:reset", "src/cmd/up.rs:up"]}
{"id": "C94", "title": "A database and its project stay in step", "statement": "Through the whole life of a machine (see C91), take a database that belongs to one project: it is brought up only from the version files of that project, and not to the stage; it may be taken down, an up may fail or be killed, and anything else may happen to the project, the files, the servers and the data. Then at any time the versions recorded in the database are exactly as the version files of the project hold them now: init and the way from there to the version the database is on. Of two such databases one has recorded the beginning of what the other has. And podo up is never stuck: what is recorded and what is missing are together all the made versions in their order, and if the server takes the missing ones, up succeeds and all of them are recorded.", "quantifier": "all sequences of events on a machine, all projects and databases, all database behaviours, all points at which commands can be killed", "why_tests_cant": "it ranges over unbounded histories of commands, failures and changes from outside", "anchors": ["src/cmd/up.rs:up", "src/cmd/down.rs:down", "src/history/dbh.rs", "src/history/fsh.rs", "src/cmd/make.rs:make", "src/main.rs:main"]}
{"id": "C95", "title": "The schema of a database through its life", "statement": "Through the whole life of a machine (see C91), take a database whose schema is left to podo and one project: it starts with nothing in it, it is brought up only from the version files of that project, and not to the stage, it may be taken down, an up may fail or be killed, its data may change in any way, and anything may happen to the project, the files and the other databases. Then at any time the database has exactly the schema of the version it is on, as the version files of the project have it now. Two databases of the project on the same version have the same schema, on whatever servers.", "quantifier": "all sequences of commands, edits, failures, interruptions and changes on the servers as in C91, all projects, all databases and metadata schemas, all servers that do what statements say", "why_tests_cant": "it is about every sequence of anything that can happen on a machine, of any length, with failures and kills at any point", "anchors": ["src/cmd/up.rs:up", "src/cmd/down.rs:down", "src/history/dbh.rs", "src/history/fsh.rs", "src/cmd/make.rs:make", "src/main.rs:main"]}
{"id": "C96", "title": "An interrupted init", "statement": "If init is killed at any point in a directory that is in no project, deleting the configuration file, if there is one, and running init again leaves exactly what an uninterrupted init leaves; where the configuration file is missing or cannot be read it need not be deleted, otherwise init says that the project exists and does nothing. Until the stage file is complete no harm is done: status, stage, reset and make report an error and change nothing, and up changes no file and no database. From then on until the definition file is written, stage takes the missing definitions for the wish to drop the schema public.", "quantifier": "all directories, environments and files that are there before, all points at which init can be killed, all commands and arguments afterwards, all servers", "why_tests_cant": "it ranges over all crash points of init and all that can be done afterwards", "anchors": ["src/cmd/init.rs:init", "src/project/mod.rs:initialize_project", "src/project/mod.rs:discover_project", "src/history/fsh.rs:save_version", "src/definition/mod.rs:save_snapshot"]}
{"id": "C97", "title": "A database can be taken back at any time", "statement": "Through the whole life of a machine (see C91), whatever has happened to the project and its files in the meantime, a database in which podo has recorded versions can be taken back to any of them: down to that version succeeds exactly if the server runs the recorded down scripts of the later versions, newest first, and commits. Then exactly the later versions are no longer recorded, exactly these scripts have run, and no file and nothing else on any server has changed. A database of one project (see C94) can then be brought up again: if the server takes the versions taken back and those missing before, up succeeds and all versions made are recorded. Even if the version files are edited, renamed, deleted or torn in any way, what is recorded is only ever added to or taken back at its end, no recorded version is altered, and down works in the same way.", "quantifier": "every life of a machine, every database, every recorded version, every behaviour of the server; for what is recorded and for down also every life in which anything whatever happens to the files", "why_tests_cant": "it ranges over everything that may have happened before, over all histories and servers", "anchors": ["src/cmd/down.rs:down", "src/cmd/up.rs:up", "src/history/dbh.rs", "src/main.rs:main"]}
{"id": "C98", "title": "The values in columns are kept", "statement": "podo does away with the values in a column only where the definitions ask for it: the changes it stages are about the values of a column exactly if the definitions no longer have the column or give it another type. When up or down has ended, in whichever way, the values in every column that no change of the versions it has applied or taken back is about are what they were; and after stage, make and up they are what they were in every column that the version before and the definitions both have with the same type. This holds for every server that changes the values of a column only at statements that say so, and for names without double quotes; a name with quotes can make a statement convert the values of an unrelated column.", "quantifier": "all snapshots, all projects, databases, versions and targets, all columns, all servers that change values only at CREATE TABLE, DROP TABLE, ADD, DROP, RENAME COLUMN and SET DATA TYPE of the column", "why_tests_cant": "it ranges over all pairs of schemas, all histories and all servers, and says what never happens", "anchors": ["src/snapshot/diff.rs", "src/snapshot/changes", "src/util/sqlfmt.rs", "src/cmd/up.rs:up", "src/cmd/down.rs:down", "src/cmd/stage.rs:stage"]}
{"id": "C99", "title": "podo's records are out of reach of its scripts", "statement": "The statements of the versions podo makes cannot reach podo's own records in the database: each begins with CREATE, ALTER or DROP, so none ends the transaction up and down run it in, and each works in the schema of the object the change is for, however it is read. So as long as the definitions are not for the metadata schema, up and down do on a server where any statement may do anything to its own schema, the version table included, exactly what they do where no statement can reach the version table. With the metadata in a schema the definitions are for this is false: up can panic after its own statement has done away with the version table; and a name with a double quote can make a statement for one schema work in the metadata schema.", "quantifier": "all histories podo makes, all versions, statements, targets and databases, all names of the metadata schema, all servers that keep the schema apart", "why_tests_cant": "it ranges over all changes and names and over everything a server may do at a statement", "anchors": ["src/cmd/up.rs:up", "src/cmd/down.rs:down", "src/history/dbh.rs", "src/util/sqlfmt.rs", "src/snapshot/changes"]}
{"id": "C100", "title": "A standard output that stops taking lines", "statement": "If standard output stops taking lines while a command runs (podo up | head, a pipe whose reader is gone, a full disk), the command panics at the first line that is not taken: what was taken are the first of the lines it prints otherwise, and it has changed no file and nothing a user of a database can see, not even by SQL that was executed and shown. If all its lines are taken, the command does what it does otherwise. No command that ends otherwise is kept from ending, and a podo up that would go on for ever but is stopped in this way has changed nothing either.", "quantifier": "all commands, settings, files, databases and servers, and all numbers of lines the output takes", "why_tests_cant": "it ranges over every command and state and over every point at which the output can stop", "anchors": ["src/cmd/init.rs:init", "src/cmd/status.rs:status", "src/cmd/stage.rs:stage", "src/cmd/make.rs:make", "src/cmd/up.rs:up", "src/cmd/down.rs:down"]}
{"id": "C101", "title": "Writes that fail", "statement": "Whatever files the system refuses to create or breaks off while they are written: a command that reports success has written all it writes and has left and printed what it leaves and prints where no write fails. A command that has not reports an error (init panics if and only if there is no project yet and the configuration file cannot be written), prints what it prints otherwise and changes no database. What is left behind is one of the things the command can leave behind when it is killed, and each of those comes about on some disk; so after a failed init it is enough to delete the configuration file and run init again, and after another failed command all that is known of killed commands applies. A failed write can do harm: on some disk reset, and make whenever something is staged, reports an error and leaves a history that does not open any more.", "quantifier": "all commands, settings, files, databases and servers, and all disks: every choice of which writes are refused, broken off or done", "why_tests_cant": "it ranges over every state and every combination of failing writes", "anchors": ["src/history/fsh.rs:save_version", "src/project/mod.rs:initialize_project", "src/cmd/init.rs:init", "src/cmd/stage.rs:stage", "src/cmd/make.rs:make", "src/cmd/reset.rs:reset"]}
{"id": "C102", "title": "A connection that is lost", "statement": "Wherever up or down loses its connection to the server, and whether or not the statement sent last has still arrived: the command ends as it does on a good connection; or it does not report success, and no file and nothing that a user of the databases can see has changed; or it reports an error although everything has been done, and this only if the commit has arrived and its answer has not. So a command that reports success has done what it does on a good connection; and if the connection holds long enough the command ends as it does on a good one. No other command that changes something depends on it. Lost connections are among the mishaps after which histories and records stay sound (C91 to C97). Repeating up, or down to a version, on a good connection gives what the first would have given. Not everything can be told from an error: every up and down that changes something reports, on some connection, an error although all is done, and repeating a down without a version then takes back one version too many.", "quantifier": "all commands, settings, files, databases and servers, every number of exchanges after which the connection is lost, and both fates of the statement sent last", "why_tests_cant": "it ranges over every state, every script and every point at which a connection can break", "anchors": ["src/cmd/up.rs:up", "src/cmd/down.rs:down", "src/history/dbh.rs:ensure_initialized", "src/history/dbh.rs:save_version", "src/history/dbh.rs:delete_version"]}
{"id": "C103", "title": "The text of the changes in the version table", "statement": "The text that podo stores in the version table for the changes of a version is JSON for these changes after RFC 8259 and holds no control characters, whatever characters are in the names, types, expressions and bodies. Read again it gives exactly the same changes, and so does every other text that is JSON for them, with other blanks or other escapes; different changes have different texts. A text is accepted exactly if it is JSON, without numbers that are no integers, and has at most 127 sequences and mappings within each other, and it has one meaning only.", "quantifier": "all lists of changes, with any characters in any of their strings and any numbers of 64 bits; all texts; all trees of values of any size and depth", "why_tests_cant": "There are infinitely many strings and trees; a test shows the escapes it thought of, not that no character, pair of escapes, depth or layout is read as something else.", "anchors": ["src/history/dbh.rs: save_version, populate_row", "src/snapshot/changes/mod.rs: Change"]}
{"id": "C104", "title": "A constraint is still there when it is to be dropped", "statement": "When the script of a version comes to drop a constraint of a table, the constraint is still there: no earlier statement of the script has dropped it along with something else. PostgreSQL drops a constraint along with any of its columns, so this holds where no column of the constraint is removed, and fails where one is: the script that podo writes drops columns before constraints, and a version that removes a column and also removes or replaces a constraint over it can be made, but never be applied.", "quantifier": "all pairs of well-formed snapshots, in every order of their maps; every constraint and column of a table that is in both; all servers that drop constraints along with their columns and refuse to drop a constraint that is not there; all states of the server; names without quotes in them", "why_tests_cant": "podo's own tests compare lists of changes, and podo applies changes to its snapshots one by one without such dependencies; which of all combinations of removed columns and constraints fail on a server is a statement about all snapshots and all servers.", "anchors": ["src/snapshot/diff.rs: diff_table_update, diff_constraint_update", "src/snapshot/changes/column/drop_column_change.rs: render_sql", "src/cmd/up.rs: up"]}
{"id": "C105", "title": "A table can be removed together with its indexes", "statement": "When the script of a version comes to drop an index, the index is still there: no earlier statement of the script has dropped it along with its table. PostgreSQL drops an index along with its table, so this holds where podo lists the index before the table, and fails where it lists the table first: the version can be made, but never be applied. podo lists the relations of a schema in the order of a hash map, so for the same definitions it is chance which of the two happens.", "quantifier": "all pairs of well-formed snapshots, in every order of their maps; every table and index that are removed together, with or without their schema; all servers that drop indexes along with their tables and refuse to drop an index that is not there; all states of the server; names without quotes in them", "why_tests_cant": "A test sees one order of a hash map, which changes from run to run, and podo applies changes to its own snapshots without such dependencies; that one order always works and another never does is a statement about all snapshots, orders and servers.", "anchors": ["src/snapshot/diff.rs: diff_schema_update, diff_schema_drop, diff_relation_drop", "src/snapshot/changes/index/drop_index_change.rs: render_sql", "src/cmd/up.rs: up"]}
{"id": "C106", "title": "A view and the tables it reads can be added and removed together", "statement": "When the script of a version comes to drop a table, no view that reads the table is left, and when it comes to create a view, the tables it reads are there. PostgreSQL refuses to drop a table that a view reads and to create a view over a table that is not there, so this holds where podo lists the view first, for a removal, or the table first, for an addition, and fails in the other order: the version can be made, but never be applied. podo lists the relations of a schema in the order of a hash map, so for the same definitions it is chance which of the two happens.", "quantifier": "all pairs of well-formed snapshots, in every order of their maps; every table and view of a schema that are removed together or added together, with or without their schema; all servers that keep to those two rules; all states of the server; names without quotes in them", "why_tests_cant": "A test sees one order of a hash map, which changes from run to run, and podo applies changes to its own snapshots without knowing what a view reads; that an order always fails is a statement about all snapshots, orders and servers.", "anchors": ["src/snapshot/diff.rs: diff_schema_create, diff_schema_update, diff_schema_drop, diff_relation_create, diff_relation_drop", "src/snapshot/changes/view/create_view_change.rs: render_sql", "src/snapshot/changes/view/drop_view_change.rs: render_sql", "src/cmd/up.rs: up"]}
{"id": "C107", "title": "A view that does not change stays, and its tables can change under it", "statement": "While a version is applied, a view whose definition the version does not change is neither dropped nor created again and reads the columns it read; and the columns it reads can be changed under it. The first half holds at every point of the script. The second fails for the type of a column: PostgreSQL refuses to alter the type of a column that a view reads, and podo does not drop the view around the change, so that the version can be made, but never be applied, whatever the order in which podo lists the objects.", "quantifier": "all pairs of well-formed snapshots, in every order of their maps; every view that is the same in both, and every column whose type differs; all servers that hold the columns of views and change views only by statements that name them; all states of the server; every point of the script; names without quotes in them", "why_tests_cant": "podo applies changes to its own snapshots without knowing what a view reads, so no test on snapshots fails; that no snapshot, order and state of the server lets the script through is a statement about all of them.", "anchors": ["src/snapshot/diff.rs: compare_diff, diff_relation_update, diff_view_update, diff_column_update", "src/snapshot/changes/column/alter_column_set_data_type_change.rs: render_sql", "src/cmd/up.rs: up"]}
