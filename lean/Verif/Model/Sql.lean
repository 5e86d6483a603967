import Verif.Model.Changes
/-
Model of /repo/src/util/sqlfmt.rs and of `render_sql` of every change
(/repo/src/snapshot/changes/mod.rs:43-47 dispatches).
`format!("{}", n)` of an `i64` is `toString` of the integer.
-/
namespace Podo
namespace Sql

/-- /repo/src/util/sqlfmt.rs:2-4 `sql_qn` -/
def qn (s : String) : String := "\"" ++ s ++ "\""

/-- /repo/src/util/sqlfmt.rs:7-9 `sql_qa` -/
def qa (schema name : String) : String := qn schema ++ "." ++ qn name

/-- `[String]::join` (used by /repo/src/util/sqlfmt.rs:25-34 and the column renderers). -/
def join (sep : String) : List String → String
  | [] => ""
  | [x] => x
  | x :: y :: rest => x ++ sep ++ join sep (y :: rest)

/-- /repo/src/util/sqlfmt.rs:25-34 `sql_l` -/
def l (xs : List String) : String := join ", " xs

/-- /repo/src/util/sqlfmt.rs:12-22 `sql_ql` -/
def ql (xs : List String) : String := join ", " (xs.map qn)

/-- The flags as rendered in
/repo/src/snapshot/changes/primarykey/add_primary_key_change.rs:54-63 (and the same text in
alter_primary_key_change.rs:45-54, add_unique_change.rs:52-61, alter_unique_change.rs:43-52,
add_check_change.rs:53-62). -/
def flags (deferrable initiallyDeferred : Bool) : String :=
  (if deferrable then "DEFERRABLE" else "NOT DEFERRABLE") ++ " " ++
    (if initiallyDeferred then "INITIALLY DEFERRED" else "INITIALLY IMMEDIATE")

/-- The flags as rendered in
/repo/src/snapshot/changes/foreignkey/alter_foreign_key_change.rs:44-48 and
/repo/src/snapshot/changes/check/alter_check_change.rs:42-46. -/
def flagsOne (deferrable : Bool) : String :=
  if deferrable then "DEFERRABLE INITIALLY DEFERRED" else "NOT DEFERRABLE INITIALLY IMMEDIATE"

/-- /repo/src/snapshot/changes/table/create_table_change.rs:69-78: one column of `CREATE TABLE`. -/
def newColumn (c : NewColumn) : String :=
  join " " ([qn c.name, c.dataType] ++ (if c.notNull then [] else ["NULL"]) ++
    (match c.default with
     | some d => ["DEFAULT " ++ d]
     | none => []))

end Sql

open Sql in
/-- `render_sql` of each change; every case cites its file. -/
def Change.renderSql : Change → String
  -- /repo/src/snapshot/changes/schema/create_schema_change.rs:22-24
  | .createSchema s => "CREATE SCHEMA " ++ s ++ ";"
  -- /repo/src/snapshot/changes/schema/drop_schema_change.rs:22-24
  | .dropSchema s => "DROP SCHEMA " ++ s ++ ";"
  -- /repo/src/snapshot/changes/table/create_table_change.rs:65-80
  | .createTable s t cols => "CREATE TABLE " ++ qa s t ++ " (" ++ l (cols.map newColumn) ++ ");"
  -- /repo/src/snapshot/changes/table/drop_table_change.rs:29-31
  | .dropTable s t => "DROP TABLE " ++ qa s t ++ ";"
  -- /repo/src/snapshot/changes/column/add_column_change.rs:45-60
  | .addColumn s t c ty nn df =>
    join " " (["ALTER TABLE " ++ qa s t ++ " ADD COLUMN " ++ qn c ++ " " ++ ty] ++
      (if !nn then ["NOT NULL"] else []) ++
      (match df with
       | some d => ["DEFAULT " ++ d]
       | none => [])) ++ ";"
  -- /repo/src/snapshot/changes/column/alter_column_set_data_type_change.rs:33-40
  | .setDataType s t c ty =>
    "ALTER TABLE " ++ qa s t ++ " ALTER COLUMN " ++ qn c ++ " SET DATA TYPE " ++ ty ++ ";"
  -- /repo/src/snapshot/changes/column/alter_column_set_default_change.rs:33-48
  | .setDefault s t c (some d) =>
    "ALTER TABLE " ++ qa s t ++ " ALTER COLUMN " ++ qn c ++ " SET DEFAULT " ++ d ++ ";"
  | .setDefault s t c none => "ALTER TABLE " ++ qa s t ++ " ALTER COLUMN " ++ qn c ++ " DROP DEFAULT;"
  -- /repo/src/snapshot/changes/column/alter_column_set_null_change.rs:33-47
  | .setNotNull s t c nn =>
    if nn then "ALTER TABLE " ++ qa s t ++ " ALTER COLUMN " ++ qn c ++ " SET NOT NULL;"
    else "ALTER TABLE " ++ qa s t ++ " ALTER COLUMN " ++ qn c ++ " DROP NOT NULL;"
  -- /repo/src/snapshot/changes/column/drop_column_change.rs:31-37
  | .dropColumn s t c => "ALTER TABLE " ++ qa s t ++ " DROP COLUMN " ++ qn c ++ ";"
  -- /repo/src/snapshot/changes/column/rename_column_change.rs:35-42
  | .renameColumn s t a b =>
    "ALTER TABLE " ++ qa s t ++ " RENAME COLUMN " ++ qn a ++ " TO " ++ qn b ++ ";"
  -- /repo/src/snapshot/changes/primarykey/add_primary_key_change.rs:48-65
  | .addPrimaryKey s t n cols d i =>
    "ALTER TABLE " ++ qa s t ++ " ADD CONSTRAINT " ++ qn n ++ " PRIMARY KEY (" ++ ql cols ++ ") "
      ++ flags d i ++ ";"
  -- /repo/src/snapshot/changes/primarykey/alter_primary_key_change.rs:40-56
  | .alterPrimaryKey s t n d i =>
    "ALTER TABLE " ++ qa s t ++ " ALTER CONSTRAINT " ++ qn n ++ " " ++ flags d i ++ ";"
  -- /repo/src/snapshot/changes/primarykey/drop_primary_key_change.rs:32-38
  | .dropPrimaryKey s t n => "ALTER TABLE " ++ qa s t ++ " DROP CONSTRAINT " ++ qn n ++ ";"
  -- /repo/src/snapshot/changes/unique/add_unique_change.rs:46-63
  | .addUnique s t n cols d i =>
    "ALTER TABLE " ++ qa s t ++ " ADD CONSTRAINT " ++ qn n ++ " UNIQUE (" ++ ql cols ++ ") "
      ++ flags d i ++ ";"
  -- /repo/src/snapshot/changes/unique/alter_unique_change.rs:38-54
  | .alterUnique s t n d i =>
    "ALTER TABLE " ++ qa s t ++ " ALTER CONSTRAINT " ++ qn n ++ " " ++ flags d i ++ ";"
  -- /repo/src/snapshot/changes/unique/drop_unique_change.rs:32-38
  | .dropUnique s t n => "ALTER TABLE " ++ qa s t ++ " DROP CONSTRAINT " ++ qn n ++ ";"
  -- /repo/src/snapshot/changes/foreignkey/add_foreign_key_change.rs:65-77
  | .addForeignKey s t n cols ts tt tcols m u d _ _ =>
    "ALTER TABLE " ++ qa s t ++ " ADD CONSTRAINT " ++ qn n ++ " FOREIGN KEY (" ++ ql cols
      ++ ") REFERENCES " ++ qa ts tt ++ " (" ++ ql tcols ++ ") " ++ m ++ " " ++ u ++ " " ++ d ++ ";"
  -- /repo/src/snapshot/changes/foreignkey/alter_foreign_key_change.rs:39-50
  | .alterForeignKey s t n d _ =>
    "ALTER TABLE " ++ qa s t ++ " ALTER CONSTRAINT " ++ qn n ++ " " ++ flagsOne d
  -- /repo/src/snapshot/changes/foreignkey/drop_foreign_key_change.rs:31-37
  | .dropForeignKey s t n => "ALTER TABLE " ++ qa s t ++ " DROP CONSTRAINT " ++ qn n
  -- /repo/src/snapshot/changes/check/add_check_change.rs:47-64
  | .addCheck s t n e d i =>
    "ALTER TABLE " ++ qa s t ++ " ADD CONSTRAINT " ++ qn n ++ " CHECK " ++ e ++ " "
      ++ flags d i ++ ";"
  -- /repo/src/snapshot/changes/check/alter_check_change.rs:37-48
  | .alterCheck s t n d _ =>
    "ALTER TABLE " ++ qa s t ++ " ALTER CONSTRAINT " ++ qn n ++ " " ++ flagsOne d
  -- /repo/src/snapshot/changes/check/drop_check_change.rs:31-37
  | .dropCheck s t n => "ALTER TABLE " ++ qa s t ++ " DROP CONSTRAINT " ++ qn n ++ ";"
  -- /repo/src/snapshot/changes/function/create_functon_change.rs:42-51
  | .createFunction s f b la r v =>
    "CREATE FUNCTION " ++ qa s f ++ " " ++ b ++ " RETURNS " ++ r ++ " LANGUAGE " ++ la ++ " " ++ v
      ++ ";"
  -- /repo/src/snapshot/changes/function/drop_function_change.rs:27-29
  | .dropFunction s f => "DROP FUNCTION " ++ qa s f ++ ";"
  -- /repo/src/snapshot/changes/view/create_view_change.rs:32-38
  | .createView s v q => "CREATE VIEW " ++ qa s v ++ " AS " ++ q
  -- /repo/src/snapshot/changes/view/drop_view_change.rs:29-31
  | .dropView s v => "DROP VIEW " ++ qa s v
  -- /repo/src/snapshot/changes/index/create_index_change.rs:48-57
  | .createIndex s t i u m ks =>
    "CREATE " ++ (if u then "UNIQUE INDEX" else "INDEX") ++ " " ++ qn i ++ " ON " ++ qa s t
      ++ " USING " ++ m ++ " (" ++ l ks ++ ");"
  -- /repo/src/snapshot/changes/index/drop_index_change.rs:29-31
  | .dropIndex s i => "DROP INDEX " ++ qa s i ++ ";"
  -- /repo/src/snapshot/changes/sequence/create_sequence_change.rs:59-71
  | .createSequence s n ty inc mn mx st ca cy =>
    "CREATE SEQUENCE " ++ qa s n ++ " AS " ++ ty ++ " INCREMENT BY " ++ toString inc
      ++ " MINVALUE " ++ toString mn ++ " MAXVALUE " ++ toString mx ++ " START WITH " ++ toString st
      ++ " CACHE " ++ toString ca ++ " " ++ (if cy then "CYCLE" else "NO CYCLE") ++ ";"
  -- /repo/src/snapshot/changes/sequence/drop_sequence_change.rs:29-31
  | .dropSequence s n => "DROP SEQUENCE " ++ qa s n ++ ";"

end Podo
