# Formal model of podo (hanpama/podo) in Lean 4: design

## 1. What podo does, in one paragraph

podo keeps a database schema as YAML *definitions* and a chain of *version* files (the history
directory). `stage` replays the chain into a *snapshot*, compares it with the definitions, and
records the differences as *changes* together with the SQL to run (`up`) and to undo them
(`down`). `make` freezes the stage under a name. `up` and `down` run the recorded SQL on a
PostgreSQL database inside one transaction and keep a version table there.

## 2. Shape of the model

All Lean modules are under `lean/Verif/`. No Mathlib module is imported.

| directory | content |
|---|---|
| `Verif/Base` | association maps and their lemmas |
| `Verif/Model` | the model, function by function, each definition citing `/repo` file and lines |
| `Verif/Spec` | small independent specifications used in theorem statements |
| `Verif/Proofs` | helper lemmas |
| `Verif/Props` | the property theorems, one file per group, with non-vacuity examples |

| model | code |
|---|---|
| `Types`, `Changes`, `Mutation` | `snapshot/types/*`, `snapshot/mod.rs`, `snapshot/changes/*` (`apply`, `revert`, the state left by a failed `apply`) |
| `Diff` | `snapshot/diff.rs` |
| `Sql` | `render_sql` of the thirty changes, `util/sqlfmt.rs` |
| `Serde` | the derived (de)serialization of `Version` and `Change` |
| `History`, `Stage`, `Commands` | `history/fsh.rs`, `history/snapshot.rs`, `history/version.rs`, `cmd/stage.rs`, `cmd/make.rs`, `cmd/reset.rs` with crash points |
| `Clock` | the local time in the names of `cmd/make.rs` |
| `Pg` | `history/dbh.rs`, `cmd/up.rs`, `cmd/down.rs` over an abstract PostgreSQL |
| `Conc` | `cmd/up.rs`, `cmd/down.rs`, `history/dbh.rs` statement by statement, for several processes |
| `Text`, `Node`, `Ddl` | `definition/base/*`, `definition/ddl/*`, `definition/defaults.rs` |
| `DdlErrors` | the same with what the errors say: `definition/ddl/error.rs`, `definition/ddl/coerce.rs`, `definition/base/yaml.rs` |
| `Load` | `definition/mod.rs`, `Database::merge` |
| `Project` | `project/mod.rs`, `util/expand.rs`, `cmd/init.rs` |
| `Introspect`, `Clone` | `introspection/*.rs`, `cmd/clone.rs` |
| `Queries` | `introspection/*.sql`, over PostgreSQL's system tables |
| `Output` | what the commands print: `println!` in `cmd/*.rs`, `Change::display_name` |
| `Pipe` | the same commands on a standard output that stops taking lines |
| `Disk` | the same commands on a disk that refuses or breaks off writes |
| `Wire` | `up` and `down` on a connection to the server that is lost |
| `Json` | the JSON text of the changes in the version table, written and read |
| `Program` | `main.rs`, `cmd/*` with what they print |

Modelling decisions:

* **Hash maps** are association lists. The list order stands for the iteration order. Theorems
  quantify over all lists, hence over all iteration orders; where a map is re-built by replay,
  theorems quantify over every list with the same content.
* **Content of a snapshot** (`Spec/Content`): nested partial functions from names to objects.
  Two snapshots are "the same up to order" when their contents are equal.
* **Result / panic**: `Except` with the crate's error values; panics (`unwrap`, `unreachable!`,
  `todo!`, `assert_eq!`, slicing a string inside a character) are an explicit outcome where the Rust
  code can reach them.
* **`&mut`**: a function that mutates returns the new value. `Change.applyMut` also keeps the
  value left behind after an error.
* **Non-termination**: the `while let`/`loop` of `fsh.rs` are modelled by fuel-indexed functions;
  "terminates" means some fuel suffices, "loops" means none does. Theorems never mention a
  particular amount of fuel.
* **Files**: a history directory is a list of entries (file name, content), content being a
  version or unreadable text. `File::create` (truncate) and the write are separate steps, so a
  crash can fall between them; a crash during the write leaves unreadable text.
* **PostgreSQL that obeys** (`Pg.Obedient`, C66/C67 only): the database state has a schema (`cat`), and executing a
  text that *says* a change (`Spec.Says`) has the change's specified effect on it, wherever the change is free of
  side effects on that server (`free`, arbitrary: cascades, implicit indexes and so on lie outside it).
* **PostgreSQL** (`Pg.Behaviour`): a type of database states with an arbitrary partial execution of
  statements (each text sent is one prepared statement, so that a server may refuse a text with several commands
  in it), arbitrary refusal of rows and commits; the version table with its keys and serial
  counter; a transaction that is not committed leaves everything but the serial counter as it was.
* **Strings** are Lean `String`/`List Char` (Unicode scalar values, as Rust `String`); integers
  `i64` are `Int` (the code does no arithmetic on them; `FitsInt64` is stated where it matters).
* **Regular expressions** of `util/expand.rs` and `definition/base` are rewritten as algorithms;
  which characters `\w` matches is a parameter. Lower-casing of keys is exact as far as it can produce
  ASCII (`A`–`Z`, U+212A, U+0130); other characters stand for their own lower case.

* **Several processes** (`Conc`, C68/C69/C79 only): transactions at `READ COMMITTED`; a statement sees what is committed
  and what its own transaction did, and waits while another transaction has a row of the same key, or a row the
  foreign key needs, in its hands. Of the scripts only the fact of having been run is kept. Any process may
  leave without commit at any point (errors, panics, crashes, deadlocks, scripts that fail).
* **Several processes on the version files** (`FConc`, C73 and C83): listing the directory, reading one file, emptying
  one file and writing a piece of text are the single steps; other processes may come in between any two of them.
  Simplified: one file is read at once, the directory is listed at once, and the first piece written to a file holds
  the name and the predecessor of the version. While two processes write one file at the same time, the model says of
  the text only that it does not load, or loads with that name and predecessor.

## 3. Plan and result per property

"exact" means: the theorem is an equivalence, and the cases in which the property fails are precisely
the ones it names. `_false` theorems refute the full property of the code as it is.

| id | modelled | proof, result |
|---|---|---|
| C01 | `compare_diff`, `Change::apply` | induction over the relation/column/constraint lists; exact; refuted for owned sequences and index attributes |
| C02 | same | exact condition on orders; refuted (index visited before its table) |
| C03 | `compare_diff` | exact up to index attributes; refuted for these |
| C04 | same + replay | from C01 and C03; exact; refuted for owned sequences |
| C05 | `diff_table_update` | induction on the column lists; full |
| C06 | `compare_diff` | membership analysis of the change list; full |
| C07 | `apply`, `revert`, 30 kinds | case analysis over contents; exact; five lossy cases refute it |
| C08 | list of changes | induction with congruence of `apply` on contents; refuted in full; for computed diffs an exact criterion on the two snapshots, since nothing of a relation is changed before it is dropped and a schema is empty when it is dropped |
| C09 | `stage` loop | invariant along the run; full |
| C10 | `apply` | induction on the change list; full |
| C11 | `applyMut` | case analysis; refuted for column rename |
| C12 | `apply` | case analysis on contents; full |
| C13 | `apply` | refinement to a content-level semantics; full |
| C14, C15 | `merge`, `merge_schema`, `load_snpashot` | induction on files, permutation; full |
| C16 | `sql_qn`, `sql_qa` | independent reader of quoted identifiers, and the first 63 bytes that PostgreSQL keeps of a name; exact; refuted for names with `"` and for long names |
| C17, C18 | `render_sql` | token-level reading of the rendered text; exact; refuted |
| C19–C22 | `from_dir`, `get_upward_range` | induction over entries / paths; C20 and C21 exact (when opening ends, and how); C21 refuted on cycles; files of any names and contents (`Spec/AnyNames`) by way of a directory with plain names that holds what podo reads; C20 refuted for `x.yaml.yaml` |
| C23–C29 | `stage`, `make`, `reset`, `init` with crash points | invariants over command sequences; C25, C26 refuted |
| C30–C37 | `up`, `down` over a parametric database | induction over versions and statements, invariant over command sequences; C37 refuted; C31, C32, C35 and C36 partial: for files named after their versions, as podo writes them; for files of any names and contents (`ReachAny`, `IsSound` in `Spec/Renamed`) what still holds is proved by a weaker invariant (`*_any_files`), what does not is refuted (`*_renamed_files_false`) |
| C38–C42 | column expression, table reference, YAML keys and trees | string lemmas, structural induction; exact; refuted |
| C43–C48 | `ddl/*` parse and render | per kind round trip, then lists; exact; refuted except C46. C48: each reader panics exactly when the shape of `Spec/Panics` holds (`*_panic`), upwards from attributes to directories |
| C49 | `defaults.rs` | case analysis; full |
| C50 | `expand_envvar` | induction over segments; full |
| C51, C52 | `project/mod.rs`, directory resolution in `cmd/*` | induction on path; C52 refuted |
| C53 | `introspect` over row lists | induction on rows; exact |
| C54 | serde derive on `Version`/`Change` as a value tree | case analysis, list induction; full, with exactly which trees are read as which version (`Has`, Spec/Serde) |
| C55 | `init` | direct, over all orders; full |
| C56 | `render_sql` of 30 kinds | rendered text against an independent grammar of the statements (`Spec/Sql`); exact |
| C57 | `stage` | from C01, C09, C27; exact as C01 |
| C58 | `ddl/*` parse, `base/yaml.rs` | independent reading of YAML as nodes (`Spec/Reads`) and of nodes as objects (`Spec/Stated`), induction; full |
| C59 | `init` | direct; refuted for a project without readable configuration |
| C60 | `clone` | composition of C53, C45, C58, in both directions; refuted for views and for objects definitions cannot express |
| C61 | `status` and its output | from C03, C27; exact; refuted for index attributes |
| C62 | `main` | case analysis over all commands; refuted (errors exit with 0) |
| C63 | `stage`; `make`; `up`; `status` | composition of C57, C23, C31, C61 |
| C64 | `main` | frame, case analysis over all commands; full |
| C65 | `main`, `stage`, `status`, `up`, `down` | exact for `stage`, `status`, `up`, `down`, `make` and `reset`: when each succeeds, reports an error, panics (and when `up` goes on for ever), whatever version is asked for; refuted for clashing definitions and refused statements |
| C66 | `up` on an obedient server | `Pg.Obedient`: executing a text that says a change does that change; the schema after `up` is the snapshot of the version reached, and (workflow) the definitions'; refuted for `AddColumn` and not-null columns |
| C67 | `down` on an obedient server | same, for the inverse changes; the whole way `stage`, `make`, `up`, `down` gives back the old schema iff the difference is undoable (C08); refuted for `DropColumn` |
| C68 | several processes running `up` and `down`, statement by statement (`Model/Conc`) | invariants over all interleavings: transactions keep apart (`Inv`), the log of committed scripts (`LogInv`) |
| C69 | same | invariant `Ser`: on one line of versions and with one `down` at a time, at most one transaction has changed the version table, and the log replays; refuted for two `down` at once and for two histories; a process alone refines the sequential model |
| C70 | `ddl/*`, `base/yaml.rs` | exact condition: the converse from C58 and the keyword table, existence by writing a file with every attribute and two blanks after each keyword |
| C71 | `history/dbh.rs`, `cmd/up.rs`, `down.rs`, `status.rs` | how the server reads the unquoted name is a parameter of the program model (`Setting.ident`), with `readSchema` as the reading of words and quoted names; case analysis of `run`; refuted for `Podo` |
| C72 | `snapshot/diff.rs` | two listings of the same maps are matched key by key (`values_flatMap_perm`), upwards from constraints to databases; the outcome is from the exact content of the result (C01); refuted for the order |
| C73 | `cmd/stage.rs`, `make.rs`, `reset.rs` as processes on one directory (`Model/FileConc`) | invariants over all interleavings: what is still to be saved is the stage or a version just made (`Inv`), the predecessor of the stage does not change without `make` (`StageInv`); the stage is readable whenever nobody is writing, if writers take turns (`OrderlyRun`); refuted for two `stage`, two `make`, and `make` with `stage` |
| C74 | `ddl/*`, `definition/mod.rs` | for each kind of definition the reader succeeds exactly when the shape of `Spec/Accepts` holds (`*_accepts`), upwards from attributes to files; full |
| C75 | `introspection/*.sql` over the system tables (`Model/Queries`) | each query is a list comprehension over the system tables, with the order of rows and of `array_agg` open; its rows are compared with what the system tables mean (`Spec/Queries`), then C53; refuted in fifteen ways |
| C76 | the same, with `Diff`, `Def` and `Program` | the system tables determine the content of a well-formed snapshot (`shows_unique`); with C75, C60, C66 the content comes back; refuted for foreign keys of the usual match and for the order of columns |
| C77 | `cmd/*.rs` with their `println!` (`Model/Output`) | the printing functions follow the loops of `up`, `down` and `stage`, and are compared with what these leave behind, for every ending, by induction over the loops; refuted for commands that fail |
| C78 | errors of `Change::apply`, `revert`, `merge` (`Model/Types`, `Model/Changes`, `Model/Load`) | each change has a list of needs (`Spec/Errors`); exact: the error is that of the first need not met, and there is one exactly when a need is not met |
| C79 | same as C68 (`Model/Conc`); who waits for whom is `Waits` in `Spec/Conc` | invariant `Line`: on one line of versions, with any number of `up` and `down`, at most one transaction has changed the version table, so who is waited for does not wait; `Waits` is exactly what keeps a statement from being executed; refuted for two histories |
| C80 | error values and their text in `definition/ddl/*`, `definition/base/yaml.rs`, `definition/mod.rs` (`Model/DdlErrors`) | reading with errors is shown to agree with reading without them (`erase_*`); each parser tells what the report of `Spec/DefErrors` says (`tells_*`), upwards from attributes to directories; exact; refuted for index definitions and for the name of the file |
| C81 | the errors of the whole commands and their text: `main.rs:88-90`, `project/mod.rs`, `history/fsh.rs`, `history/dbh.rs` `fmt` (`Model/Stderr`) | errors are shown to fit the endings of `Model/Program` (`report_agrees`) and not to depend on how long a command is watched (`run_settled`); each sort of error is then traced to its cause in terms of the specifications of C20, C22, C35, C51, C52, C80; refuted for the directory in "project not found" and for missing version files |
| C82 | `main.rs` with the rules by which clap 4.4.0 reads the arguments of its commands (`Model/Cli`) | the reading is a loop with a state, the command lines a grammar (`Spec/Cli`: `Written`, `Line`); induction over the arguments; exact; refuted for three commands that only panic |
| C83 | `cmd/up.rs` step by step beside the processes of C73 (`Model/UpConc`) | how `up` would end from each of its points if the files stayed as they were at the start (`rest`) is kept by every step, because the files it still has to read are touched by nobody (`Same`); for any target, what is recorded so far and the links between the files read (`Trace`), with the predecessor of the stage unchanged without `make`; without a target, `up` is as with the version it finds (`chosen`), which was there or is being made (`Known`); refuted for `up` without a target beside `make`, for `up --version stage` beside `stage`, and for the chain beside `make` |
| C84 | the databases of a project: any `up`, `down` and other commands between (`Spec/Fleet`) | what a database has recorded is a beginning of the project's chain of made versions, an invariant of `up` (not to the stage), `down` and the project's own growth; names are unique in the chain, so the last name fixes the beginning; `C84_stage_false` for the stage |
| C85 | two runs of `up` against one | the ways of the two runs join to the way of the one run, in the later project too; the loop of `up` over the joined way is the loops one after the other, on the same version table; `C85_stage_false` for a first step to the stage; for `podo up` as the user runs it, `C85_program_partial` (`Props/FleetProg`), by `ends_up_iff` |
| C86 | the union of two directories of version files with one of the stages (`Spec/Merge`) | the two chains have a longest common beginning; if both go on, their next versions name the same predecessor, and if one stops there, so do its stage and the next version of the other; C20 then gives the refusal; full |
| C87 | which changes take data away (`Spec/Data`), beside the diff and the stage | for the diff exactly: a column is taken iff the target lacks it (C06 one way, the branches of the diff the other), a sequence iff the target does not have the very same one; for a version exactly: iff after some of its changes it is not there (induction over the changes with the specification of each change of C13); after `reset`, staging takes exactly the missing columns; partial: sequences, and definitions staged on top of others |
| C88 | a directory with edited files (`Spec/Edited`) beside the unedited one | opening and ranges read names and predecessors only (induction over the loops); the versions `up` goes over come after the recorded ones in the chain of the project, so they are not edited; refusal: a range that is found starts at a file; partial: that a database is the project's own is checked by the name of its version only; for `podo up` as the user runs it, `C88_program_edited`, `C88_program_refused_partial` (`Props/FleetProg`), by `ends_up_iff` |
| C89 | a directory with fewer files (`Spec/Missing`) beside the whole one | which version it opens at: the characterization of opening (C20) on the files that are left, along the chain of the project; `stage` and `status`: a path from init to the stage in the smaller directory is the path in the whole one, so nothing is missing; `up`: the range is found in the smaller directory iff all its files are there; partial: `up` without a target, `make` and `reset`; for `podo up` as the user runs it, `C89_program_up_partial` (`Props/FleetProg`), by `ends_up_iff` |
| C90 | two worlds whose listings differ in entries of other names only (`Spec/Foreign`) | every function of the model that reads a history directory does so through opening it and reading `name.yaml`; both agree by induction on the two listings, and then the program command by command; saving keeps the listings alike; definitions: what is collected from a tree is the filtered list of its files |
| C91 | all that happens on a machine, from the state in which podo has never run (`Spec/Life`): edits, work in the databases, and commands of `Model/Program` with any servers out of reach | an invariant of single steps: each directory is empty or reachable with version names from the log of `make`s, and each metadata schema reachable; a name with a new time and label is free because the text of a time has 15 characters and tells the time; endings: opening and ranges end without cycles |
| C92 | the text of a local time (`Model/Clock`), the same machine | the text is a row of pairs of digits of fixed places, compared place by place; the invariant keeps the made versions in the order of their times; set back: a concrete life |
| C93 | the crash states of C25 and C26; three repairs by hand that use only what is in the files (`Spec/Repair`), and `reset`; `up` killed at any point (`Pg.UpDies`), and `down` (`Pg.DownDies`, in `Spec/Wild`), after which the server undoes all but the numbers drawn | the crash states of a command on a chain come down to seven, each of which admits at most one repair; its outcome is computed and compared; C91 includes the steps killed-and-put-right |
| C94 | the life of C91, with one metadata schema of one database singled out (`Spec/Tended`): what happens leaves its record alone, or is an `up` from the directory `p` with an allowed target, such an `up` killed, or a `down` | invariant: the database is `Deployed` (C84) on the version files of `p`, or on those of a new project where there are none yet; each event gives a later directory (C24) and a step of `Deployed`; with the stage allowed as a target it is false (`C94_stage_false`) |
| C95 | the life of C94 with the schema of the database (a function `cat` of its data) changed only by podo (`Spec/Minded`): what happens leaves record and schema alone, whatever becomes of the data, or is an `up` of the project, such an `up` killed, or a `down` of this database; `UpsPlain` and `DownsPlain` say of the version files that their texts are right (C56) and that they lose nothing (C07) | invariant `Held` over the life; the schema then follows by C66 and C67 for the commands that succeed, C30 for those that fail, and C24 for versions made meanwhile; false where a version creates a column that is not null, as C66 is (`C95_not_null_false`) |
| C96 | the states of the files in which `init` can die (`Spec/Initial`), beside `init` | saving versions again after an interruption leads where the first attempt would have led (over all crash states and listings); the other files by the idempotence of writing them; what the commands do with a history that has no stage, by their plans; the finding about missing definitions by running the model in an arbitrary new directory; full |
| C97 | `down` and `up` on the life of C91 and C94 (words in `Spec/Minded`); lives on which anything happens to the files (`Prog.WildLife` in `Spec/Wild`) | the records of any life are as `up` and `down` write them (C91), so C33 applies at any time; for bringing up again the life goes on with the `down`, and C94 applies after it; on a wild life the tables stay sound (C35 for any files), and C33 for any files applies; full |
| C98 | what a change is about (`Change.Touches`) and servers that change values only at statements that say so (`Pg.Careful`, in `Spec/Keep`) | the text podo writes for a change with plain names can be read only as a change about the same values (`reads_touches`); then by the changes of the versions `up` and `down` run (C28, C31, C33) and by the exact diff (C06); partial: names with quotes (`C98_quote_false`), definitions staged on top of others |
| C99 | `up` and `down` again, without the simplification that scripts leave the metadata schema alone and do not end the transaction (`Model/Wide`); servers that keep a schema apart (`Wide.Apart`, in `Spec/Apart`) | the text of a change is decoded: whatever statement it is read as has the schema of the change (`reads_schema`); the reverts of a change are in its schema; so the two models run in step (`up_apart`, `down_apart`); partial: names with quotes (`C99_quote_false`); needed: another schema (`C99_own_schema_false`) |
| C100 | every `println!` at its place among the effects of the commands, on a standard output that takes `k` of them (`Model/Pipe`): `println!` panics at the next one, and the panic drops the transaction | the loops of `up`, `down` and `stage` on such an output are compared with those without, by induction (`upLoopPiped_eq`, `downLoopPiped_eq`, `stageLoopPiped_eq`); what was printed is the first `k` lines, and nothing has been saved or committed before the last line |
| C101 | every write of a file with what the system makes of it: done, refused, broken off (`Model/Disk`); the commands stop at the first that fails, `init` by a panic if it is the configuration file | saving on a disk is compared with `CrashState` in both directions by induction over the versions (`saveAllOn_crash`, `crash_disk`), `initOn` with `InitDies`; the rest is C25, C26, C91 and C96 |
| C102 | `up` and `down` on a connection that is lost (`Model/Wire`): the exchanges with the server are counted, so many go well, and the statement of the next may or may not have arrived; the server undoes what is not committed | each loop is compared with the one on a good connection in both directions by induction over the versions (`upLoopOver_cases`, `upLoopOver_enough`, the same for `down`); a lost command is one that was killed (`UpDies`, `DownDies`), so C91-C97 apply; `up` again by C32 and by showing that only numbers of rows depend on the numbering (`up_renumbered`), `down` again by C33 and C36 |
| C103 | the text of the changes in the version table (`Model/Json`): `serde_json::to_string` and `serde_json::from_str` between text and trees of values, with all escapes, blanks, duplicate keys and the limit on the depth; `Spec/Json` is the grammar of RFC 8259 as a relation between trees and texts | the parser reads every text of the grammar, by induction over the derivation, and nothing else, by induction over the fuel (`reads_of_says`, `says_of_reads`); what is written is in the grammar, by induction over the tree; the rest by C54 |
| C104 | the changes of a diff in their order, and servers that drop constraints along with their columns: `Spec/Along`, `Pg.DropsAlong`, four rules about statements as C56 reads them and about `cons`, the columns each constraint of the database is over | everything a diff says about a table stands in one place, and in it everything about a constraint (`Around`, by induction over the maps' lists); what a text can be read as, inverted for constraints (`says_adds`, `says_drops`); then invariants along the script, backwards from the refused statement for `_false` and forwards for `_partial`; for `up` by C28 and C31 |
| C105 | the changes of a diff in the order of the maps, and servers that drop indexes along with their tables: `Spec/TableIndex`, `Pg.IndexesAlong`, four rules about statements as C56 reads them and about `idx`, the table each index of the database is on | the drops of a schema's relations stand in the diff in the order in which the schema lists them (`drops_in_order`); invariants along the script, backwards from the refused `DROP INDEX` for `_false`, forwards from the start for `_partial`; `C105_some_order_false` moves the index to the end of the map; for `up` by C28 and C31 |
| C106 | the changes of a diff in the order of the maps, and servers that know which tables their views read: `Spec/Views`, `Pg.ViewsRead`, eight rules about statements as C56 reads them and about the views and tables of the database; which tables a query reads is left open | the drops, and the creations, of a schema's relations stand in the diff in the order in which the schema lists them (`drops_in_order`, `creates_in_order`), and nothing else in the diff touches those two relations (`drop_around`, `create_around`); then invariants along the script, as for C105; another order of the same snapshot by moving one relation to the end of its map (`listed_last`), with the same changes in another order (`compareDiff_same`); for `up` by C28 and C31; for the down script by splitting the reverts as the changes are split (`takenFrom_split`), each about the same objects as its change |
| C107 | the changes of a diff, and servers that know which columns their views read: `Spec/ViewColumns`, `Pg.ViewsHold`, two rules about statements as C56 reads them and about the views of the database | no change of the diff names a view that is the same on both sides (C06), so that the view stays along the script, by induction; a column whose type differs is altered by the diff (`setDataType_mem`), which the server refuses at that point; for `up` by C28 and C31 |

## 4. Disagreements found between the code and the properties

Each is witnessed by a theorem named in MANIFEST.json unless marked (not modelled).

* `snapshot/diff.rs`: an index whose table, uniqueness or method changed is not noticed (C01, C03,
  C61); a sequence owned by a column is created but its owner is never set, so that it is staged again
  and again (C01, C04, C63); a new index is created before its table, depending on the hash order, and
  then `stage` panics (C02, C65).
* `snapshot/changes`: the revert of dropping a schema that is not empty, a table with constraints, or an
  owned sequence gives back less than there was; when a table and its index go together, the down script
  fails if the hash order had the table first (C08); the revert of a column rename fails (C07); a failing
  rename loses the column (C11).
* SQL text: AddColumn inverts nullability; CreateTable never says NOT NULL (C17); AddForeignKey lacks
  MATCH/ON UPDATE/ON DELETE keywords and flags, AlterForeignKey/AlterCheck take their flags from
  `deferrable` only (C18, C56); identifiers are not escaped, and names of more than 63 bytes are taken as they are although PostgreSQL cuts them short (C16); CREATE FUNCTION is malformed (C56);
  altering the timing of a primary key, a unique constraint or a check asks for `ALTER CONSTRAINT`, which PostgreSQL
  refuses for all but foreign keys, and a deferrable check, which it does not have, is rendered as such (C56).
* History: opening loops forever on a cycle (C21); `make`, `stage` and `reset` are not crash-safe (C25, C26);
  a label ending in `.yaml` makes the history unopenable (C23), and a file `x.yaml.yaml` beside `x.yaml` is reported as a branch
  between `x` and itself, whatever it holds (`C20_yaml_twice_false`); making the same label within one second
  overwrites a version (C24).
* `up`: applying `stage` strands the database (C37).
* `up` and `down` at the same time take no lock: two `down` commands run the down script of one version twice,
  since deleting a row that is gone is no error; `up` from two histories leaves a branched version table, from
  which neither can go on (C69); with the same version names in different orders the two wait for each
  other (C79).
* `stage`, `make` and `reset` at the same time take no lock: two `stage` commands record the same changes twice, and
  the stage can then not be replayed; two `make` commands, or `make` and `stage`, leave two versions with one predecessor,
  and no command opens the history any more (C73).
* The order of the staged changes, and whether a new index comes before its table, is up to the random order of hash
  maps (C02, C72).
* A statement of a script that the server refuses makes `up` and `down` panic (C65).
* Definitions: column expressions, references with dots, keys `increment`/`using`, names like
  `deleted` do not read back (C38–C45); since `increment` and `using` are not keywords, no file at all defines
  a sequence with another increment than 1 or an index of another method than `btree` (C70); a key containing the Kelvin sign panics (C41)
  or gives two letters of the word `key` to the name (`KeySays.kelvin` in `Spec/Reads`, C58), and other malformed
  shapes panic too (C48: `Spec/Panics` lists them all, for a file and for a directory); errors inside index definitions are ignored (C47).
* Commands: `up`, `status` and `clone` use the default profile's history and definitions (C52);
  `init` without readable configuration overwrites a history (C59); `clone`, `print` and `sync` always
  panic; errors exit with status 0 (C62); printing a `SnapshotError` panics (C65).
* `clone`: never sees views; writes files that cannot be loaded for increments other than 1 or index
  methods other than btree (C60). Overloaded functions make introspection fail, a foreign key to a
  unique index or a type modifier that is not handled make it panic (C53).
* The catalogue queries (C75). `foreignkey.sql` calls the usual match of a foreign key `NONE` and takes the columns
  referred to in the order of the table; `primarykey.sql`, `unique.sql` and `foreignkey.sql` aggregate the columns of a
  key in no particular order; `column.sql` skips partitioned tables, takes `point` and the like for arrays, and reads
  generated columns as plain ones; `index.sql` loses the columns of an index that has expressions too, takes
  `INCLUDE` columns for keys, and leaves out an index that a foreign key uses; `function.sql` drops parameters and reads
  procedures as functions. Introspection fails when there is a table without privileges, a check on a foreign table, a
  foreign key to a unique index, or an overloaded function. `sequence.sql` looks up the owner in `pg_depend`
  without saying what kind of object depends, so that something else with the oid of a sequence gives it a wrong owner or
  makes introspection fail.
* Defining, applying and cloning (C76): a foreign key whose definition says nothing about `match` is `SIMPLE` in the
  definitions (`definition/defaults.rs:10`) and `NONE` when read back, so that podo sees a difference where there is none;
  `column.sql` has no `ORDER BY`, so that columns can come back in another order.
* The name of the metadata schema is written into the statements without quotes (`dbh.rs:160-214`) but looked up as a
  value (`dbh.rs:118-124`). With a name PostgreSQL reads otherwise, such as `Podo`, every `up` and `down` on a new database
  fails and `status` says that it is not initialized (C71).
* Errors in definition files (C80) do not say which file they are in; only the first schema with faults is told of; what
  is wrong under an index is not told; a panic hides all errors; errors of all depths are indented by two spaces, so that
  one cannot see to which definition an error belongs.
* Messages (C81): "project not found in directory tree" names the root directory wherever podo was started; an error about
  a version file that is missing or cannot be read does not say which one it is.
* Output (C77): `make` says that a version was made before it saves it, so also when saving fails; `up` and `down` show
  statements as executed that are rolled back when a later one is refused.
* `up` beside other processes (C83): `up --version stage` reads the stage twice without a lock. Beside a `stage` that
  writes the same stage again it may record the stage without the statements that undo it, and `down` then leaves its
  effects in place; beside a delayed `reset` and a `make`, it may record the stage with a predecessor that is not the
  last version applied.
  Without a target, `up` beside a `make` may find an older version to be the newest: it lists the directory before
  the new file is there, and reads the stage after it names the new version (`C83_newest_false`). On a new database it
  then ends well with nothing applied.
* Databases on the stage (C84, C85): `up --version stage` records whatever the stage holds then. Two databases on the
  version `stage` may have recorded and run different scripts, if the stage was reset or staged anew in between
  (`C84_stage_false`), and a later `up --version stage` of the first one succeeds without doing anything, so it never
  becomes what it would be if brought there at once (`C85_stage_false`).
* Commands (C82): `clone`, `print` and `sync` are listed by `podo help` and only panic, with every command line.
* Data and staging again (C87): a column that is taken out of the definitions, staged, put back and staged again is
  dropped and added by the staged version, so `up` loses its data although the last version and the definitions both
  have it (`C87_restage_false`); `reset` before `stage` avoids this (`C87_reset_stage_partial`).  A sequence is dropped
  and created when any attribute or its owner changes, so its current value is lost (`C87_sequence_false`).
* Databases of other projects (C88): `up` compares nothing but the name of the version a database is on with the files.
  A database of another project that is on a version of the same name (versions made in the same second with the same
  label, or edited files) is taken on, and the project's versions are recorded on top of the other's
  (`C88_same_name_false`).  Edits of applied versions are not noticed (`C88_applied_files_not_read`).
* Missing version files (C89): opening a history takes the last version found from init for the stage, whatever it is
  called, so with the file of a version missing the history opens two versions before that one (`C89_opens`), and where
  only `stage.yaml` is missing, `up` without a target stops one version short and reports success
  (`C89_no_stage_false`).  `make` and `reset` do not notice either (`C89_made_false`).
* Version names contain the local time without its offset: when the clocks are set back, files of later versions
  sort before those of earlier ones (C92), and in the hour that comes twice a name can come twice (C24).
* A `stage` that is killed while it writes may leave a stage file that reads well but ends too early, with statements
  to go down missing; nothing notices, and `make` would make a version of it (`C93_unnoticed_false`).
* Interrupted `init` (C96): once the configuration file is written, `init` only says that the project exists, although
  there may be no version files and no definitions yet; without the definition file, `stage` stages `DROP SCHEMA public`.
* Names are quoted without doubling quotes in them: dropping a constraint of a table in a schema with such a name can be
  a statement that converts the values of another table's column (`C98_quote_false`), one of podo's own version table
  included (`C99_quote_false`).
* The metadata schema may be one the definitions are for (C99); then a statement of a version can do away with the
  version table, and `up` panics (`C99_own_schema_false`).
* `up` goes back through the files by predecessors, but then reads the files named after the versions *in* them. Where a
  version file was renamed by hand, a successful `up` can record other versions than the one asked for
  (`C31_renamed_files_false`), a second `up` then fails (`C32_renamed_files_false`), the version table is not a chain
  (`C35_renamed_files_false`), and `down` without a version can do nothing and say it succeeded
  (`C36_renamed_files_false`). `down` to a version recorded, and undoing an `up`, work all the same (`C33_down_any_files`,
  `C34_down_undoes_up_any_files`).
* `init` panics when it cannot write the configuration file (`.unwrap()` in `src/project/mod.rs`) instead of reporting
  an error, and a broken-off configuration file is in the way of the next `init`; a `make` or `reset` whose file cannot
  be written can leave a history that does not open any more (C101).
* `up` and `down` report an error although they have done everything when the answer to the commit is lost; whoever then
  runs `down` without a version again takes back two versions (C102).
* A version that removes a column and also removes or replaces a constraint over it cannot be applied: `diff_table_update`
  drops columns before constraints, PostgreSQL drops the constraint along with the column, and then refuses to drop the
  constraint (`C104_column_false`, `C104_up_false`). podo's own snapshots know no such dependency, so `stage` and `make`
  succeed.
* C105: a table removed together with an index on it. The drops of a schema's relations come in the order of a hash map
  (`diff.rs:67-74`, `96-98`). Where the table comes first, `DROP TABLE` takes the index along and `DROP INDEX` is refused, so
  the version can be made but never applied (`C105_table_first_false`, `C105_up_false`); where the index comes first all is
  well (`C105_index_first_partial`). Any snapshot with a table and an index can be listed in the bad order
  (`C105_some_order_false`).
* **C106.** A table and a view that reads it are removed, or added, in the order in which the hash map of the schema happens to list them. Where the table is listed first, `DROP TABLE` comes while the view is there and PostgreSQL refuses it (`C106_table_first_false`); where the view is listed first, a new view is created before its table and PostgreSQL refuses that (`C106_new_view_first_false`). Of every pair of snapshots with such a table and view there is an order in which this happens (`C106_some_order_false`, `C106_some_new_order_false`). `up` then never applies the version (`C106_up_false`, `C106_up_removed_false`). Proved: where the view is listed first, it is gone when the table is dropped (`C106_view_first_partial`), and where the table is listed first, it is there when the view is created (`C106_new_table_first_partial`) and the view is gone again when the down script drops the table (`C106_down_partial`); for a removal the table is there again when the down script creates the view (`C106_down_removed_partial`).
* **C107.** podo alters the type of a column without dropping the views that read the column. PostgreSQL refuses that, so that such a version can never be applied while the view is there (`C107_type_false`, `C107_up_false`). Proved: a view that does not change is left alone at every point of the script (`C107_view_left_alone_partial`).

## 5. Trusted base

* Lean 4.33.0's kernel. Every theorem depends on at most `propext`, `Classical.choice` and
  `Quot.sound` (see `#print axioms`; the list per property theorem is in section 6). No axiom is added, and neither
  `sorry`, `native_decide`, `bv_decide`, `implemented_by` nor `unsafe` is used.
* That the model reflects the Rust code: each definition cites file and lines; simplifications are
  stated at the definition.
* The specifications under `Verif/Spec`: in particular the reading of quoted identifiers and the
  grammar of the thirty kinds of statement (`Spec/Sql`), written from the PostgreSQL manual.
* The behaviour of PostgreSQL's keys and foreign keys under concurrency, as far as `Conc.Step` states it (which
  statements wait for which uncommitted rows), written from the PostgreSQL manual.
* What PostgreSQL keeps true of its system tables (`Sys.Sound`, C75 and C76 only), what they mean (`Spec/Queries`), and the
  meaning of the SQL of the queries (joins, filters and aggregates as list comprehensions, functions of the server by
  their values), written from the PostgreSQL manual.
* `Model/Pg` takes scripts to leave the metadata schema alone and not to end the transaction. C99 shows that this is no
  loss, for names without quotes, where the metadata schema is not one the definitions are for (`Wide.Apart`).
* How chrono writes a local time with `%Y%m%d_%H%M%S`, for years with four digits (`Model/Clock`; C91 and C92 only).
* The rules by which clap 4.4.0 reads arguments, as written in `Model/Cli` (C82 only).
* Not modelled: YAML text syntax (serde_yaml: text <-> value tree; for JSON it is in `Model/Json`, C103, written after
  the documentation of serde_json 1.0.108, whose source is not in /repo), PostgreSQL
  itself (see `Pg.Behaviour`), what clap prints itself (help, version, usage errors), terminal colours, the texts of the errors of libraries
  and of the server (parameters, `Texts`), the messages of panics,
  file permissions, symbolic links, version names that contain a slash (taken as names of no file), other programs changing files at the same time (for podo's own commands see `Model/FileConc`), file names that are not UTF-8, the clock (its
  formatted text is a parameter), a system that refuses to create or write a file (a name too long, a full disk) except
  in `Model/Disk` (C101) and for the reasons in `HDir.save`, a lost connection to the server except in `Model/Wire` (C102;
  without the lines printed), a standard
  error that cannot be written, a line of standard output of which only a part is taken (`Model/Pipe` counts whole
  `println!`s).

## 6. Axioms of each property theorem

Generated with `#print axioms`.

* propext: C22_range_any_files, C43_view_partial, C43_function, C52_one_history_partial, C52_one_definitions_partial

* propext, Classical.choice, Quot.sound: C01_diff_reaches_target_partial, C01_all_but_indexes_and_sequences, C01_owned_sequence_false, C01_index_attributes_false, C02_diff_applies_iff_partial, C02_only_indexes_fail, C02_applies_in_every_order, C02_new_index_false, C03_empty_diff_iff_partial, C03_equal_contents_empty_diff, C03_empty_diff_equal_contents, C03_index_attributes_false, C04_staging_idempotent_partial, C04_idempotent_without_owned_sequences, C04_owned_sequence_false, C05_column_order, C05_created_table_column_order, C06_every_change_needed, C06_targets_differ, C07_revert_undoes_change_partial, C07_revert_undoes_lossless_kinds, C07_lossy_changes_false, C07_rename_never_undone, C08_reversed_reverts_undo_partial, C08_diff_reverts_false, C08_diff_undone_iff, C08_order_false, C09_stage_no_revert_panic, C09_stage_succeeds_iff, C10_reachable_wellFormed, C10_replayed_wellFormed, C11_failed_change_leaves_snapshot_partial, C11_applyMut_ok_iff, C11_rename_false, C12_change_touches_only_its_targets, C13_apply_depends_on_content, C13_apply_meets_specification, C14_load_order, C15_project_nothing_lost, C15_nothing_lost, C15_duplicates_fail, C16_name_reads_back_partial, C16_reference_reads_back_partial, C16_references_differ_partial, C16_quote_false, C16_doubling_would_do, C16_object_iff_partial, C16_long_false, C17_set_not_null_partial, C17_create_table_partial, C17_create_table_false, C17_add_column_false, C18_flags_stated_partial, C18_alter_flags_partial, C18_foreign_key_flags_false, C19_directory_order, C20_branches_any_names, C20_opens_any_names, C20_yaml_twice_false, C20_branches_exact_partial, C20_opens_iff, C21_open_loops_any_names, C21_open_terminates_partial, C21_tool_histories_terminate, C21_cycle_false, C21_range_false, C21_open_loops_iff, C21_range_loops_iff, C22_range_fails, C23_make_keeps_snapshot_partial, C23_make_nothing, C23_yaml_label_false, C24_made_versions_immutable, C24_any_labels_and_crashes, C24_same_second_false, C25_make_crash_partial, C25_crash_false, C26_stage_crash_partial, C26_crash_false, C27_history_replays, C28_scripts_aligned, C29_reset, C30_up_all_or_nothing, C30_down_all_or_nothing, C31_up_applies_missing_partial, C31_up_succeeds, C31_podo_up, C31_up_any_files, C31_renamed_files_false, C32_up_idempotent_partial, C32_renamed_files_false, C33_down_reverts_later, C33_down_succeeds, C33_podo_down, C33_down_any_files, C33_down_succeeds_any_files, C34_down_undoes_up, C34_down_undoes_up_any_files, C35_version_table_chain_partial, C35_only_the_top_changes, C35_table_sound_any_files, C35_renamed_files_false, C35_only_the_top_any_files, C36_down_one_partial, C36_down_one_succeeds, C36_down_at_init, C36_down_unknown, C36_podo_down, C36_podo_down_unknown, C36_down_any_files, C36_down_unknown_any_files, C36_renamed_files_false, C37_stage_strands_false, C37_recovered_by_down_partial, C38_column_expression_partial, C38_column_expression_false, C39_table_reference_partial, C39_table_reference_false, C40_keys_partial, C40_keys_false, C41_keys_panic_partial, C41_keys_panic_false, C42_trees_partial, C42_trees_false, C43_column_partial, C43_constraint_partial, C43_index, C43_objects_false, C44_table_partial, C44_schema_partial, C44_table_false, C44_schema_false, C45_saved_snapshot_loads_partial, C45_saved_content_loads_iff, C45_nothing_to_stage_partial, C45_increment_false, C45_index_method_false, C45_index_table_false, C46_loaded_file_wf, C46_loaded_directory_wf, C46_parsed_schemas_wf, C46_file_in_two_steps, C47_unknown_attributes_partial, C47_unknown_attributes_false, C48_no_panic_partial, C48_panics_false, C48_panics_iff, C48_directory_panics_iff, C48_directory_accepted, C49_sequence_defaults, C49_other_defaults, C51_nearest_project, C51_same_from_below, C52_profile_settings, C52_database, C52_unknown_profile, C52_one_history_false, C53_succeeds_iff, C53_represents, C53_wellformed, C54_version_file, C54_database_changes, C54_written_apart, C54_key_order, C54_read_iff, C54_database_read_iff, C55_init_clean, C56_sql_says_change_partial, C56_add_column_false, C56_create_table_false, C56_deferrable_false, C56_alter_constraint_false, C56_refused_flags_false, C57_stage_reaches_definitions_partial, C57_owned_sequence_false, C57_index_false, C58_file_states, C58_one_reading, C58_directory_states, C59_init_keeps_project_partial, C59_init_overwrites_false, C60_cloned_file_partial, C60_cloned_file_iff, C60_succeeds_iff, C60_nothing_else_changes, C60_succeeds_partial, C60_nothing_to_stage_partial, C60_views_false, C60_inexpressible_false, C61_status_only_looks, C61_status_shows, C61_no_changes_partial, C61_no_changes_false, C62_exit_status_partial, C62_failure_keeps_databases, C62_failures_exit_zero_false, C63_workflow_partial, C63_owned_sequence_false, C64_only_the_profile, C64_init_frame, C65_up_all, C65_up_unopened, C65_no_circles, C65_down_all, C65_reset_all, C65_make_all, C65_stage_panics_iff_partial, C65_clash_panics_false, C65_reset_make_report, C65_init_reports, C65_up_script_panics_false, C65_up_endings, C65_down_panics_iff, C65_status_endings, C66_up_follows_partial, C66_add_column_false, C66_not_null_false, C66_workflow_partial, C67_down_follows_partial, C67_drop_column_false, C67_workflow_partial, C68_never_applied_twice, C69_down_twice_false, C69_two_histories_false, C69_serial_partial, C69_one_project_partial, C69_ups_exactly_once, C69_up_alone, C69_down_alone, C69_chain_partial, C70_definable_partial, C70_one_file, C70_index_method_false, C70_increment_false, C70_names_false, C71_plain_names_read, C71_other_names_fail, C71_other_names_status, C71_first_up_partial, C71_any_name_false, C72_same_changes_partial, C72_same_outcome, C72_order_false, C73_made_kept, C73_without_make_partial, C73_one_writer, C73_alone, C73_stages_false, C73_makes_false, C73_make_stage_false, C74_accepted_iff, C74_directory_accepted_iff, C74_project_accepted_iff, C75_reads_partial, C75_clone_partial, C75_simple_match_false, C75_target_order_false, C75_key_order_false, C75_partitioned_false, C75_element_type_false, C75_generated_false, C75_unprivileged_false, C75_foreign_table_false, C75_unique_index_false, C75_used_index_false, C75_mixed_index_false, C75_included_columns_false, C75_temporary_false, C75_modifier_false, C75_owner_false, C75_two_owners_false, C75_view_false, C75_parameters_false, C75_overloaded_false, C76_read_back_partial, C76_clone_back_partial, C76_expressible_iff, C76_clone_back_iff, C76_usual_match_false, C76_column_order_false, C76_workflow_partial, C77_up_shows_what_ran, C77_down_shows_what_ran, C77_up_lines_partial, C77_up_culprit, C77_up_rolled_back_false, C77_down_culprit, C77_down_rolled_back_false, C77_down_lines, C77_down_one_lines, C77_down_init_lines, C77_stage_lines, C77_stage_culprit, C77_status_foretells_stage, C77_make_lines_partial, C77_make_false, C77_init_lines, C77_reset_lines, C78_apply_error, C78_applies_iff, C78_revert_error, C78_replay_error, C78_load_error, C79_one_at_a_time, C79_waited_for_goes_on, C79_no_deadlock, C79_some_goes_on, C79_waiting, C79_one_project, C79_two_histories_false, C80_definition_error_partial, C80_yaml_error, C80_not_a_mapping, C80_directory_error, C80_same_outcome, C80_message_sort, C80_index_false, C80_file_name_false, C81_one_message, C81_message_of, C81_message_tells_partial, C81_no_project, C81_directory_false, C81_profile, C81_profile_text, C81_branch, C81_unreachable_stage, C81_unreachable_up, C81_down_version, C81_definitions, C81_definitions_text, C81_missing_version_false, C81_not_initialized, C81_cannot_connect, C82_lines_iff, C82_one_meaning, C82_runs_iff, C82_nothing_else, C82_order, C82_every_command, C82_listed_false, C83_alone, C83_all_or_nothing, C83_as_if_alone_partial, C83_to_made, C83_newest_partial, C83_chain_partial, C83_stage_false, C83_chain_false, C83_newest_false, C84_same_versions_partial, C84_recorded_as_filed, C84_same_data, C84_stage_false, C85_steps_at_once_partial, C85_stage_false, C85_at_once_steps, C85_program_partial, C86_merge_opens_iff, C86_merge_refused, C86_merge_databases, C87_diff_column_iff, C87_diff_sequence_iff, C87_sequence_false, C87_version_iff, C87_reset_stage_partial, C87_restage_false, C88_applied_files_not_read, C88_no_place_refused_partial, C88_same_name_false, C88_program_edited, C88_program_refused_partial, C89_program_up_partial, C89_opens, C89_stage_status_partial, C89_up_named_partial, C89_no_stage_false, C89_made_false, C90_others_ignored, C90_others_kept, C90_definition_files, C91_health, C91_usable, C91_ends, C91_kept, C91_origin, C92_text, C92_names_in_order_partial, C92_clock_set_back_false, C93_repairable, C93_repaired, C93_reset, C93_in_order, C93_unnoticed_false, C93_up_killed, C93_up_killed_reach, C93_down_killed, C94_recorded_as_filed, C94_nothing_recorded, C94_same_versions, C94_up_works, C94_stage_false, C95_schema_kept_partial, C95_before, C95_same_schema_partial, C95_not_null_false, C96_init_again, C96_not_deleted_false, C96_harmless, C96_stage_drops_false, C96_life, C97_down_iff, C97_down_result, C97_up_again, C97_records_sound, C97_records_kept, C97_down_iff_any_files, C97_down_result_any_files, C98_diff_touches_iff, C98_quote_false, C98_up_keeps_partial, C98_down_keeps_partial, C98_workflow_partial, C99_statements_begin, C99_statement_schema_partial, C99_quote_false, C99_up_apart_partial, C99_down_apart_partial, C99_own_schema_false, C100_all_lines_taken, C100_lines_not_taken, C100_stopped_or_done, C100_ends, C101_fine, C101_success, C101_reported, C101_left, C101_any_crash, C101_init_left, C101_init_again, C101_life, C101_reset_false, C101_make_false, C102_all_or_nothing, C102_success, C102_long_enough, C102_others, C102_unheard_false, C102_befalls, C102_life, C102_up_again, C102_down_to_again, C102_down_again_false, C103_kept, C103_denotes, C103_printable, C103_read_iff, C103_one_meaning, C103_any_layout, C103_apart, C104_column_false, C104_still_there_partial, C104_up_false, C105_table_first_false, C105_some_order_false, C105_index_first_partial, C105_up_false, C106_table_first_false, C106_view_first_partial, C106_new_view_first_false, C106_new_table_first_partial, C106_down_partial, C106_down_removed_partial, C106_some_order_false, C106_some_new_order_false, C106_up_false, C106_up_removed_false, C107_view_left_alone_partial, C107_type_false, C107_up_false

* propext, Quot.sound: C22_range_is_path, C43_sequence_partial, C45_written_iff, C50_expansion, C53_determined, C80_message, C81_names_stand_in

## 7. What the seeded-bug log shows, and what it does not

Each line of `seeded/LOG.jsonl` has a field `evidence`. A build stops at the first modules that fail, so for most edits
the log names only helper lemmas (`only helper lemmas seen to fail`): their proofs broke, and nothing that uses them was
built. That alone does not show that the property theorem is false of the edited model: a proof may break while its
theorem is still true. Only `property theorem failed` names the theorem of a property, and even there it is the proof
that failed. `falsified` means more: an instance of the property theorem's statement was evaluated on the edited model
and found false. `unresolved` means no theorem was seen to fail and the build did not finish.
The claim ids of lines 176 to 238 were corrected by hand after the run.
