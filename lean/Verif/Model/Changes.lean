import Verif.Model.Types
/-
Model of /repo/src/snapshot/changes/mod.rs and of every change file below it:
construction (`new`), `apply` and `revert`.  `render_sql` is in `Verif.Model.Sql`.
-/
namespace Podo

/-- /repo/src/snapshot/changes/table/create_table_change.rs:18-23 `CreateTableChangeColumn`. -/
structure NewColumn where
  name : String
  dataType : String
  notNull : Bool
  default : Option String
deriving DecidableEq, Repr

/-- /repo/src/snapshot/changes/mod.rs:29-101 `Change`; the fields are those of the change structs
(field lists cited at `Change.apply`). -/
inductive Change where
  | createSchema (schema : String)
  | dropSchema (schema : String)
  | createTable (schema table : String) (columns : List NewColumn)
  | dropTable (schema table : String)
  | addColumn (schema table column dataType : String) (notNull : Bool) (default : Option String)
  | setDataType (schema table column dataType : String)
  | setDefault (schema table column : String) (default : Option String)
  | setNotNull (schema table column : String) (notNull : Bool)
  | dropColumn (schema table column : String)
  | renameColumn (schema table fromColumn toColumn : String)
  | addPrimaryKey (schema table constraint : String) (columns : List String)
      (deferrable initiallyDeferred : Bool)
  | alterPrimaryKey (schema table constraint : String) (deferrable initiallyDeferred : Bool)
  | dropPrimaryKey (schema table constraint : String)
  | addUnique (schema table constraint : String) (columns : List String)
      (deferrable initiallyDeferred : Bool)
  | alterUnique (schema table constraint : String) (deferrable initiallyDeferred : Bool)
  | dropUnique (schema table constraint : String)
  | addForeignKey (schema table constraint : String) (columns : List String)
      (targetSchema targetTable : String) (targetColumns : List String)
      (matchOption updateRule deleteRule : String) (deferrable initiallyDeferred : Bool)
  | alterForeignKey (schema table constraint : String) (deferrable initiallyDeferred : Bool)
  | dropForeignKey (schema table constraint : String)
  | addCheck (schema table constraint expression : String) (deferrable initiallyDeferred : Bool)
  | alterCheck (schema table constraint : String) (deferrable initiallyDeferred : Bool)
  | dropCheck (schema table constraint : String)
  | createFunction (schema function body language returns volatility : String)
  | dropFunction (schema function : String)
  | createView (schema view query : String)
  | dropView (schema view : String)
  | createIndex (schema table index : String) (unique : Bool) (method : String)
      (keyExpressions : List String)
  | dropIndex (schema index : String)
  | createSequence (schema sequence dataType : String)
      (increment minValue maxValue start cache : Int) (cycle : Bool)
  | dropSequence (schema sequence : String)
deriving DecidableEq, Repr

/-- The pattern `let schema = source.get_schema_mut(s)?; <mutate schema>` shared by every `apply`
below (e.g. /repo/src/snapshot/changes/view/create_view_change.rs:22-29). -/
def Database.withSchema (d : Database) (s : String) (f : Schema → SResult Schema) :
    SResult Database :=
  match d.getSchema s with
  | .error e => .error e
  | .ok sc =>
    match f sc with
    | .error e => .error e
    | .ok sc' => .ok (d.setSchema s sc')

/-- The pattern `let table = schema.get_relation_mut(t)?.as_table_mut()?; <mutate table>`
(e.g. /repo/src/snapshot/changes/column/add_column_change.rs:31-41). -/
def Schema.withTable (sc : Schema) (t : String) (f : Table → SResult Table) : SResult Schema :=
  match sc.getRelation t with
  | .error e => .error e
  | .ok rel =>
    match rel.asTable with
    | .error e => .error e
    | .ok tb =>
      match f tb with
      | .error e => .error e
      | .ok tb' => .ok (sc.setRelation t (.table tb'))

/-- Both patterns in a row. -/
def Database.withTable (d : Database) (s t : String) (f : Table → SResult Table) :
    SResult Database := d.withSchema s fun sc => sc.withTable t f

/-- The pattern `let c = table.get_constraint_mut(n)?.as_x_mut()?; <assign fields>`
(e.g. /repo/src/snapshot/changes/primarykey/alter_primary_key_change.rs:30-35); `conv` is `as_x`
followed by the assignment and re-wrapping. -/
def Table.alterConstraint (t : Table) (n : String) (conv : Constraint → SResult Constraint) :
    SResult Table :=
  match t.getConstraint n with
  | .error e => .error e
  | .ok c =>
    match conv c with
    | .error e => .error e
    | .ok c' => .ok (t.setConstraint n c')

/-- The pattern `table.get_constraint(n)?.as_x()?; table.remove_constraint(n)?`
(e.g. /repo/src/snapshot/changes/primarykey/drop_primary_key_change.rs:27-28). -/
def Table.dropConstraint {α : Type} (t : Table) (n : String) (as : Constraint → SResult α) :
    SResult Table :=
  match t.getConstraint n with
  | .error e => .error e
  | .ok c =>
    match as c with
    | .error e => .error e
    | .ok _ => t.removeConstraint n

/-- The pattern `schema.get_relation(n)?.as_x()?; schema.remove_relation(n)?`
(e.g. /repo/src/snapshot/changes/view/drop_view_change.rs:24-25). -/
def Schema.dropRelationAs {α : Type} (sc : Schema) (n : String) (as : Relation → SResult α) :
    SResult Schema :=
  match sc.getRelation n with
  | .error e => .error e
  | .ok r =>
    match as r with
    | .error e => .error e
    | .ok _ => sc.removeRelation n

/-- /repo/src/snapshot/changes/column/rename_column_change.rs:27-30 on the table: remove the
column, rename it, add it again (at the end). -/
def Table.renameColumn (t : Table) (a b : String) : SResult Table :=
  match t.removeColumn a with
  | .error e => .error e
  | .ok (col, t') => t'.addColumn { col with name := b }

/-- /repo/src/snapshot/changes/table/create_table_change.rs:46-58: build the new table, column by
column, stopping at the first duplicate name. -/
def Table.buildColumns (schema table : String) : Table → List NewColumn → SResult Table
  | t, [] => .ok t
  | t, c :: cs =>
    match t.addColumn ⟨schema, table, c.name, c.dataType, c.notNull, c.default⟩ with
    | .error e => .error e
    | .ok t' => Table.buildColumns schema table t' cs

namespace Change

/-- /repo/src/snapshot/changes/mod.rs:38-42 `Change::apply`, dispatching to the change files; each case
cites its file and lines. The returned database is the state after `Ok(())`; the state left behind
after an error is modelled in `Verif.Model.Mutation`. -/
def apply : Change → Database → SResult Database
  -- schema/create_schema_change.rs:17-20
  | createSchema s, d => d.addSchema (Schema.new s)
  -- schema/drop_schema_change.rs:17-20
  | dropSchema s, d => d.removeSchema s
  -- table/create_table_change.rs:43-63
  | createTable s t cols, d => d.withSchema s fun sc =>
      match Table.buildColumns s t (Table.new s t) cols with
      | .error e => .error e
      | .ok tb => sc.addRelation (.table tb)
  -- table/drop_table_change.rs:23-27 (no check that the relation is a table)
  | dropTable s t, d => d.withSchema s fun sc => sc.removeRelation t
  -- column/add_column_change.rs:29-43
  | addColumn s t c ty nn df, d => d.withTable s t fun tb => tb.addColumn ⟨s, t, c, ty, nn, df⟩
  -- column/alter_column_set_data_type_change.rs:24-31
  | setDataType s t c ty, d => d.withTable s t fun tb =>
      tb.modifyColumn c fun col => { col with dataType := ty }
  -- column/alter_column_set_default_change.rs:24-31
  | setDefault s t c df, d => d.withTable s t fun tb =>
      tb.modifyColumn c fun col => { col with default := df }
  -- column/alter_column_set_null_change.rs:24-31
  | setNotNull s t c nn, d => d.withTable s t fun tb =>
      tb.modifyColumn c fun col => { col with notNull := nn }
  -- column/drop_column_change.rs:23-29
  | dropColumn s t c, d => d.withTable s t fun tb =>
      match tb.removeColumn c with
      | .error e => .error e
      | .ok (_, tb') => .ok tb'
  -- column/rename_column_change.rs:24-33
  | renameColumn s t a b, d => d.withTable s t fun tb => tb.renameColumn a b
  -- primarykey/add_primary_key_change.rs:30-46
  | addPrimaryKey s t c cols df ini, d => d.withTable s t fun tb =>
      tb.addConstraint (.primaryKey ⟨s, t, c, cols, df, ini⟩)
  -- primarykey/alter_primary_key_change.rs:27-38
  | alterPrimaryKey s t c df ini, d => d.withTable s t fun tb =>
      tb.alterConstraint c fun con =>
        match con.asPrimaryKey with
        | .error e => .error e
        | .ok k => .ok (.primaryKey { k with deferrable := df, initiallyDeferred := ini })
  -- primarykey/drop_primary_key_change.rs:24-30
  | dropPrimaryKey s t c, d => d.withTable s t fun tb => tb.dropConstraint c Constraint.asPrimaryKey
  -- unique/add_unique_change.rs:30-44
  | addUnique s t c cols df ini, d => d.withTable s t fun tb =>
      tb.addConstraint (.unique ⟨s, t, c, cols, df, ini⟩)
  -- unique/alter_unique_change.rs:27-36
  | alterUnique s t c df ini, d => d.withTable s t fun tb =>
      tb.alterConstraint c fun con =>
        match con.asUnique with
        | .error e => .error e
        | .ok k => .ok (.unique { k with deferrable := df, initiallyDeferred := ini })
  -- unique/drop_unique_change.rs:24-30
  | dropUnique s t c, d => d.withTable s t fun tb => tb.dropConstraint c Constraint.asUnique
  -- foreignkey/add_foreign_key_change.rs:41-63
  | addForeignKey s t c cols ts tt tcols mo ur dr df ini, d => d.withTable s t fun tb =>
      tb.addConstraint (.foreignKey ⟨s, t, c, cols, ts, tt, tcols, mo, ur, dr, df, ini⟩)
  -- foreignkey/alter_foreign_key_change.rs:26-37
  | alterForeignKey s t c df ini, d => d.withTable s t fun tb =>
      tb.alterConstraint c fun con =>
        match con.asForeignKey with
        | .error e => .error e
        | .ok k => .ok (.foreignKey { k with deferrable := df, initiallyDeferred := ini })
  -- foreignkey/drop_foreign_key_change.rs:23-29
  | dropForeignKey s t c, d => d.withTable s t fun tb => tb.dropConstraint c Constraint.asForeignKey
  -- check/add_check_change.rs:29-45
  | addCheck s t c ex df ini, d => d.withTable s t fun tb =>
      tb.addConstraint (.check ⟨s, t, c, ex, df, ini⟩)
  -- check/alter_check_change.rs:26-35
  | alterCheck s t c df ini, d => d.withTable s t fun tb =>
      tb.alterConstraint c fun con =>
        match con.asCheck with
        | .error e => .error e
        | .ok k => .ok (.check { k with deferrable := df, initiallyDeferred := ini })
  -- check/drop_check_change.rs:23-29
  | dropCheck s t c, d => d.withTable s t fun tb => tb.dropConstraint c Constraint.asCheck
  -- function/create_functon_change.rs:28-40
  | createFunction s f b l r v, d => d.withSchema s fun sc => sc.addFunction ⟨s, f, b, l, r, v⟩
  -- function/drop_function_change.rs:20-25
  | dropFunction s f, d => d.withSchema s fun sc => sc.removeFunction f
  -- view/create_view_change.rs:21-30
  | createView s v q, d => d.withSchema s fun sc => sc.addRelation (.view ⟨s, v, q⟩)
  -- view/drop_view_change.rs:22-27
  | dropView s v, d => d.withSchema s fun sc => sc.dropRelationAs v Relation.asView
  -- index/create_index_change.rs:31-46
  | createIndex s t i u m ks, d => d.withSchema s fun sc =>
      match sc.getRelation t with
      | .error e => .error e
      | .ok rel =>
        match rel.asTable with
        | .error e => .error e
        | .ok tb => sc.addRelation (.index ⟨s, i, tb.name, u, m, ks⟩)
  -- index/drop_index_change.rs:22-27
  | dropIndex s i, d => d.withSchema s fun sc => sc.dropRelationAs i Relation.asIndex
  -- sequence/create_sequence_change.rs:38-57
  | createSequence s q ty inc mn mx st ca cy, d => d.withSchema s fun sc =>
      sc.addRelation (.sequence ⟨s, q, ty, inc, mn, mx, st, ca, cy, none, none⟩)
  -- sequence/drop_sequence_change.rs:22-27
  | dropSequence s q, d => d.withSchema s fun sc => sc.dropRelationAs q Relation.asSequence

/-- /repo/src/snapshot/changes/schema/create_schema_change.rs:11-15 -/
def newCreateSchema (t : Schema) : Change := createSchema t.name
/-- /repo/src/snapshot/changes/schema/drop_schema_change.rs:11-15 -/
def newDropSchema (s : Schema) : Change := dropSchema s.name
/-- /repo/src/snapshot/changes/table/create_table_change.rs:26-41 -/
def newCreateTable (t : Table) : Change :=
  createTable t.schemaName t.name
    (t.columns.map fun c => ⟨c.name, c.dataType, c.notNull, c.default⟩)
/-- /repo/src/snapshot/changes/table/drop_table_change.rs:16-21 -/
def newDropTable (t : Table) : Change := dropTable t.schemaName t.name
/-- /repo/src/snapshot/changes/column/add_column_change.rs:18-27 -/
def newAddColumn (t : Column) : Change :=
  addColumn t.schemaName t.tableName t.name t.dataType t.notNull t.default
/-- /repo/src/snapshot/changes/column/alter_column_set_data_type_change.rs:15-22 -/
def newSetDataType (t : Column) : Change := setDataType t.schemaName t.tableName t.name t.dataType
/-- /repo/src/snapshot/changes/column/alter_column_set_default_change.rs:15-22 -/
def newSetDefault (t : Column) : Change := setDefault t.schemaName t.tableName t.name t.default
/-- /repo/src/snapshot/changes/column/alter_column_set_null_change.rs:15-22 -/
def newSetNotNull (t : Column) : Change := setNotNull t.schemaName t.tableName t.name t.notNull
/-- /repo/src/snapshot/changes/column/drop_column_change.rs:15-21 -/
def newDropColumn (s : Column) : Change := dropColumn s.schemaName s.tableName s.name
/-- /repo/src/snapshot/changes/primarykey/add_primary_key_change.rs:19-28 -/
def newAddPrimaryKey (t : PrimaryKey) : Change :=
  addPrimaryKey t.schemaName t.tableName t.name t.columns t.deferrable t.initiallyDeferred
/-- /repo/src/snapshot/changes/primarykey/alter_primary_key_change.rs:17-25 -/
def newAlterPrimaryKey (t : PrimaryKey) : Change :=
  alterPrimaryKey t.schemaName t.tableName t.name t.deferrable t.initiallyDeferred
/-- /repo/src/snapshot/changes/primarykey/drop_primary_key_change.rs:16-22 -/
def newDropPrimaryKey (s : PrimaryKey) : Change := dropPrimaryKey s.schemaName s.tableName s.name
/-- /repo/src/snapshot/changes/unique/add_unique_change.rs:19-28 -/
def newAddUnique (t : Unique) : Change :=
  addUnique t.schemaName t.tableName t.name t.columns t.deferrable t.initiallyDeferred
/-- /repo/src/snapshot/changes/unique/alter_unique_change.rs:17-25 -/
def newAlterUnique (t : Unique) : Change :=
  alterUnique t.schemaName t.tableName t.name t.deferrable t.initiallyDeferred
/-- /repo/src/snapshot/changes/unique/drop_unique_change.rs:16-22 -/
def newDropUnique (s : Unique) : Change := dropUnique s.schemaName s.tableName s.name
/-- /repo/src/snapshot/changes/foreignkey/add_foreign_key_change.rs:24-39 -/
def newAddForeignKey (t : ForeignKey) : Change :=
  addForeignKey t.schemaName t.tableName t.name t.columns t.targetSchema t.targetTable
    t.targetColumns t.matchOption t.updateRule t.deleteRule t.deferrable t.initiallyDeferred
/-- /repo/src/snapshot/changes/foreignkey/alter_foreign_key_change.rs:16-24 -/
def newAlterForeignKey (t : ForeignKey) : Change :=
  alterForeignKey t.schemaName t.tableName t.name t.deferrable t.initiallyDeferred
/-- /repo/src/snapshot/changes/foreignkey/drop_foreign_key_change.rs:15-21 -/
def newDropForeignKey (s : ForeignKey) : Change := dropForeignKey s.schemaName s.tableName s.name
/-- /repo/src/snapshot/changes/check/add_check_change.rs:18-27 -/
def newAddCheck (t : Check) : Change :=
  addCheck t.schemaName t.tableName t.name t.expression t.deferrable t.initiallyDeferred
/-- /repo/src/snapshot/changes/check/alter_check_change.rs:16-24 -/
def newAlterCheck (t : Check) : Change :=
  alterCheck t.schemaName t.tableName t.name t.deferrable t.initiallyDeferred
/-- /repo/src/snapshot/changes/check/drop_check_change.rs:15-21 -/
def newDropCheck (s : Check) : Change := dropCheck s.schemaName s.tableName s.name
/-- /repo/src/snapshot/changes/function/create_functon_change.rs:17-26 -/
def newCreateFunction (t : Function) : Change :=
  createFunction t.schemaName t.name t.body t.language t.returns t.volatility
/-- /repo/src/snapshot/changes/function/drop_function_change.rs:13-18 -/
def newDropFunction (s : Function) : Change := dropFunction s.schemaName s.name
/-- /repo/src/snapshot/changes/view/create_view_change.rs:13-19 -/
def newCreateView (t : View) : Change := createView t.schemaName t.name t.query
/-- /repo/src/snapshot/changes/view/drop_view_change.rs:15-20 -/
def newDropView (s : View) : Change := dropView s.schemaName s.name
/-- /repo/src/snapshot/changes/index/create_index_change.rs:20-29 -/
def newCreateIndex (t : Index) : Change :=
  createIndex t.schemaName t.tableName t.name t.unique t.method t.keyExpressions
/-- /repo/src/snapshot/changes/index/drop_index_change.rs:15-20 -/
def newDropIndex (s : Index) : Change := dropIndex s.schemaName s.name
/-- /repo/src/snapshot/changes/sequence/create_sequence_change.rs:23-36 -/
def newCreateSequence (t : Sequence) : Change :=
  createSequence t.schemaName t.name t.dataType t.increment t.minValue t.maxValue t.start t.cache
    t.cycle
/-- /repo/src/snapshot/changes/sequence/drop_sequence_change.rs:15-20 -/
def newDropSequence (s : Sequence) : Change := dropSequence s.schemaName s.name

/-- The lookups `target.get_schema(s)?` … of `revert`, with a continuation. -/
def lookSchema (d : Database) (s : String) (k : Schema → SResult Change) : SResult Change :=
  match d.getSchema s with
  | .error e => .error e
  | .ok sc => k sc

/-- `target.get_schema(s)?` then `schema.get_relation(t)?.as_table()?`, with a continuation. -/
def lookTable (d : Database) (s t : String) (k : Schema → Table → SResult Change) :
    SResult Change :=
  lookSchema d s fun sc =>
    match sc.getRelation t with
    | .error e => .error e
    | .ok rel =>
      match rel.asTable with
      | .error e => .error e
      | .ok tb => k sc tb

/-- … then `table.get_column(c)?`. -/
def lookColumn (d : Database) (s t c : String) (k : Schema → Table → Column → SResult Change) :
    SResult Change :=
  lookTable d s t fun sc tb =>
    match tb.getColumn c with
    | .error e => .error e
    | .ok col => k sc tb col

/-- … then `table.get_constraint(c)?.as_x()?`. -/
def lookConstraint {α : Type} (d : Database) (s t c : String) (as : Constraint → SResult α)
    (k : Schema → Table → α → SResult Change) : SResult Change :=
  lookTable d s t fun sc tb =>
    match tb.getConstraint c with
    | .error e => .error e
    | .ok con =>
      match as con with
      | .error e => .error e
      | .ok x => k sc tb x

/-- `target.get_schema(s)?` then `schema.get_relation(r)?.as_x()?`. -/
def lookRelation {α : Type} (d : Database) (s r : String) (as : Relation → SResult α)
    (k : Schema → α → SResult Change) : SResult Change :=
  lookSchema d s fun sc =>
    match sc.getRelation r with
    | .error e => .error e
    | .ok rel =>
      match as rel with
      | .error e => .error e
      | .ok x => k sc x

/-- /repo/src/snapshot/changes/mod.rs:48-52 `Change::revert`, dispatching to the change files; each case
cites its file and lines. -/
def revert : Change → Database → SResult Change
  -- schema/create_schema_change.rs:26-31
  | createSchema s, _ => .ok (dropSchema s)
  -- schema/drop_schema_change.rs:26-31
  | dropSchema s, _ => .ok (createSchema s)
  -- table/create_table_change.rs:82-90
  | createTable s t _, d => lookSchema d s fun sc => .ok (dropTable sc.name t)
  -- table/drop_table_change.rs:33-38
  | dropTable s t, d => lookTable d s t fun _ tb => .ok (newCreateTable tb)
  -- column/add_column_change.rs:62-72
  | addColumn s t c _ _ _, d => lookTable d s t fun sc tb => .ok (dropColumn sc.name tb.name c)
  -- column/alter_column_set_data_type_change.rs:42-54
  | setDataType s t c _, d => lookColumn d s t c fun sc tb col =>
      .ok (setDataType sc.name tb.name col.name col.dataType)
  -- column/alter_column_set_default_change.rs:50-62
  | setDefault s t c _, d => lookColumn d s t c fun sc tb col =>
      .ok (setDefault sc.name tb.name col.name col.default)
  -- column/alter_column_set_null_change.rs:49-61
  | setNotNull s t c _, d => lookColumn d s t c fun sc tb col =>
      .ok (setNotNull sc.name tb.name col.name col.notNull)
  -- column/drop_column_change.rs:39-53
  | dropColumn s t c, d => lookColumn d s t c fun sc tb col =>
      .ok (addColumn sc.name tb.name col.name col.dataType col.notNull col.default)
  -- column/rename_column_change.rs:44-56
  | renameColumn s t a b, d => lookColumn d s t b fun sc tb col =>
      .ok (renameColumn sc.name tb.name col.name a)
  -- primarykey/add_primary_key_change.rs:67-77
  | addPrimaryKey s t c _ _ _, d => lookTable d s t fun sc tb =>
      .ok (dropPrimaryKey sc.name tb.name c)
  -- primarykey/alter_primary_key_change.rs:58-71
  | alterPrimaryKey s t c _ _, d => lookConstraint d s t c Constraint.asPrimaryKey fun sc tb k =>
      .ok (alterPrimaryKey sc.name tb.name k.name k.deferrable k.initiallyDeferred)
  -- primarykey/drop_primary_key_change.rs:40-54
  | dropPrimaryKey s t c, d => lookConstraint d s t c Constraint.asPrimaryKey fun sc tb k =>
      .ok (addPrimaryKey sc.name tb.name k.name k.columns k.deferrable k.initiallyDeferred)
  -- unique/add_unique_change.rs:65-75
  | addUnique s t c _ _ _, d => lookTable d s t fun sc tb => .ok (dropUnique sc.name tb.name c)
  -- unique/alter_unique_change.rs:56-69
  | alterUnique s t c _ _, d => lookConstraint d s t c Constraint.asUnique fun sc tb k =>
      .ok (alterUnique sc.name tb.name k.name k.deferrable k.initiallyDeferred)
  -- unique/drop_unique_change.rs:40-54
  | dropUnique s t c, d => lookConstraint d s t c Constraint.asUnique fun sc tb k =>
      .ok (addUnique sc.name tb.name k.name k.columns k.deferrable k.initiallyDeferred)
  -- foreignkey/add_foreign_key_change.rs:79-89
  | addForeignKey s t c _ _ _ _ _ _ _ _ _, d => lookTable d s t fun sc tb =>
      .ok (dropForeignKey sc.name tb.name c)
  -- foreignkey/alter_foreign_key_change.rs:52-65
  | alterForeignKey s t c _ _, d => lookConstraint d s t c Constraint.asForeignKey fun sc tb k =>
      .ok (alterForeignKey sc.name tb.name k.name k.deferrable k.initiallyDeferred)
  -- foreignkey/drop_foreign_key_change.rs:39-59
  | dropForeignKey s t c, d => lookConstraint d s t c Constraint.asForeignKey fun sc tb k =>
      .ok (addForeignKey sc.name tb.name k.name k.columns k.targetSchema k.targetTable
        k.targetColumns k.matchOption k.updateRule k.deleteRule k.deferrable k.initiallyDeferred)
  -- check/add_check_change.rs:66-76
  | addCheck s t c _ _ _, d => lookTable d s t fun sc tb => .ok (dropCheck sc.name tb.name c)
  -- check/alter_check_change.rs:50-63
  | alterCheck s t c _ _, d => lookConstraint d s t c Constraint.asCheck fun sc tb k =>
      .ok (alterCheck sc.name tb.name k.name k.deferrable k.initiallyDeferred)
  -- check/drop_check_change.rs:39-53
  | dropCheck s t c, d => lookConstraint d s t c Constraint.asCheck fun _ _ k =>
      .ok (addCheck s t c k.expression k.deferrable k.initiallyDeferred)
  -- function/create_functon_change.rs:53-61
  | createFunction s f _ _ _ _, d => lookSchema d s fun sc => .ok (dropFunction sc.name f)
  -- function/drop_function_change.rs:31-44
  | dropFunction s f, d => lookSchema d s fun sc =>
      match sc.getFunction f with
      | .error e => .error e
      | .ok fn => .ok (createFunction sc.name f fn.body fn.language fn.returns fn.volatility)
  -- view/create_view_change.rs:40-48
  | createView s v _, d => lookSchema d s fun sc => .ok (dropView sc.name v)
  -- view/drop_view_change.rs:33-43
  | dropView s v, d => lookRelation d s v Relation.asView fun _ x => .ok (createView s v x.query)
  -- index/create_index_change.rs:59-67
  | createIndex s _ i _ _ _, d => lookSchema d s fun sc => .ok (dropIndex sc.name i)
  -- index/drop_index_change.rs:33-46
  | dropIndex s i, d => lookRelation d s i Relation.asIndex fun sc x =>
      .ok (createIndex sc.name x.tableName x.name x.unique x.method x.keyExpressions)
  -- sequence/create_sequence_change.rs:73-81
  | createSequence s q _ _ _ _ _ _ _, d => lookSchema d s fun sc => .ok (dropSequence sc.name q)
  -- sequence/drop_sequence_change.rs:33-37
  | dropSequence s q, d => lookRelation d s q Relation.asSequence fun _ x =>
      .ok (newCreateSequence x)

/-- Applying a list of changes in order, stopping at the first error: the loops of
/repo/src/history/snapshot.rs:10-18. -/
def applyAll : List Change → Database → SResult Database
  | [], d => .ok d
  | c :: cs, d =>
    match c.apply d with
    | .error e => .error e
    | .ok d' => applyAll cs d'

end Change
end Podo
