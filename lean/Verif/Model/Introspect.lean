import Verif.Model.Changes
import Verif.Model.Node
/-
Model of /repo/src/introspection: from the rows the catalogue queries return to a snapshot.

The queries themselves (/repo/src/introspection/*.sql) are modelled in `Model/Queries`, the connection is
not: a `Catalog` holds what the queries returned.  A column of a row is optional here where its query can give NULL;
reading NULL into a field that is not an `Option` (`row.get`) panics.  Fields that introspection reads
and drops (`att_num`, `key_length`, `key_options`, `table_schema`) are left out.
-/
namespace Podo
namespace Introspect
open Def (Fail)

/-- /repo/src/introspection/sequence.rs:4-16 `Sequence`. -/
structure SequenceRow where
  schema : String
  name : String
  dataType : String
  increment : Int
  minValue : Int
  maxValue : Int
  start : Int
  cache : Int
  cycle : Bool
  ownedByTableName : Option String
  ownedByColumnName : Option String
deriving DecidableEq, Repr

/-- /repo/src/introspection/table.rs:4-7 `Table`. -/
structure TableRow where
  schema : String
  name : String
deriving DecidableEq, Repr

/-- /repo/src/introspection/column.rs:4-12 `Column`; column.sql:18-47 gives NULL as the data type of a
column with a type modifier it has no case for. -/
structure ColumnRow where
  schema : String
  table : String
  name : String
  default : String
  notNull : Bool
  dataType : Option String
deriving DecidableEq, Repr

/-- /repo/src/introspection/primarykey.rs:4-12 `PrimaryKey` and unique.rs:4-12 `Unique`. -/
structure KeyRow where
  schema : String
  name : String
  tableName : String
  tableColumns : List String
  deferrable : Bool
  initiallyDeferred : Bool
deriving DecidableEq, Repr

/-- /repo/src/introspection/foreignkey.rs:4-17 `ForeignKey`; foreignkey.sql:11-26,60-61 gives NULL as
the schema and the columns of the target of a key that refers to an index which is not a constraint. -/
structure ForeignKeyRow where
  constraintName : String
  constraintSchema : String
  constraintTableName : String
  columns : List String
  targetTableName : String
  targetTableSchema : Option String
  targetTableColumns : Option (List String)
  deferrable : Bool
  initiallyDeferred : Bool
  matchOption : String
  updateRule : String
  deleteRule : String
deriving DecidableEq, Repr

/-- /repo/src/introspection/check.rs:4-11 `Check`. -/
structure CheckRow where
  schema : String
  table : String
  name : String
  checkClause : String
  isDeferrable : Bool
  initiallyDeferred : Bool
deriving DecidableEq, Repr

/-- /repo/src/introspection/function.rs:4-11 `Function`. -/
structure FunctionRow where
  schema : String
  name : String
  body : String
  language : String
  returns : String
  volatility : String
deriving DecidableEq, Repr

/-- /repo/src/introspection/index.rs:4-14 `Index`. -/
structure IndexRow where
  schemaName : String
  indexName : String
  tableName : String
  unique : Bool
  method : String
  keyColumns : Option (List String)
  expressions : Option String
deriving DecidableEq, Repr

/-- /repo/src/introspection/view.rs:4-14 `View`: the fields a snapshot could use. -/
structure ViewRow where
  schema : String
  name : String
  viewDefinition : String
deriving DecidableEq, Repr

/-- What the queries return for the schemas asked for.  `views` is what view.sql would return: the
program has the query and never runs it. -/
structure Catalog where
  schemas : List String
  sequences : List SequenceRow
  tables : List TableRow
  columns : List ColumnRow
  primaryKeys : List KeyRow
  foreignKeys : List ForeignKeyRow
  functions : List FunctionRow
  uniques : List KeyRow
  checks : List CheckRow
  indexes : List IndexRow
  views : List ViewRow
deriving DecidableEq, Repr

/-- `for row in rows { .. ? }` over a mutable database. -/
def loop {α : Type} (step : Database → α → SResult Database) (d : Database) :
    List α → Except Fail Database
  | [] => .ok d
  | x :: xs =>
    match step d x with
    | .error _ => .error .error
    | .ok d' => loop step d' xs

/-- The loop of the `introspect_xs` functions (e.g. /repo/src/introspection/column.rs:20-32): every row
is read before any is used; `none` is a panic of `row.get`. -/
def readRows {α β : Type} (read : α → Option β) : List α → Except Fail (List β)
  | [] => .ok []
  | x :: xs =>
    match read x with
    | none => .error .panic
    | some y =>
      match readRows read xs with
      | .error e => .error e
      | .ok ys => .ok (y :: ys)

/-- /repo/src/introspection/mod.rs:40-50 `load_schemas`. -/
def loadSchemas (d : Database) (rows : List String) : Except Fail Database :=
  loop (fun d s => d.addSchema (Schema.new s)) d rows

/-- /repo/src/introspection/mod.rs:58-70. -/
def sequenceOf (r : SequenceRow) : Sequence :=
  { name := r.name, schemaName := r.schema, dataType := r.dataType, start := r.start,
    minValue := r.minValue, maxValue := r.maxValue, increment := r.increment, cycle := r.cycle,
    cache := r.cache, ownedByColumn := r.ownedByColumnName, ownedByTable := r.ownedByTableName }

/-- /repo/src/introspection/mod.rs:52-76 `load_sequences`. -/
def loadSequences (d : Database) (rows : List SequenceRow) : Except Fail Database :=
  loop (fun d (q : Sequence) => d.withSchema q.schemaName fun sc => sc.addRelation (.sequence q)) d
    (rows.map sequenceOf)

/-- /repo/src/introspection/mod.rs:78-90 `load_tables`. -/
def loadTables (d : Database) (rows : List TableRow) : Except Fail Database :=
  loop (fun d (r : TableRow) => d.withSchema r.schema fun sc =>
    sc.addRelation (.table (Table.new r.schema r.name))) d rows

/-- /repo/src/introspection/column.rs:21-31 and mod.rs:98-109. -/
def columnOf (r : ColumnRow) : Option Column :=
  match r.dataType with
  | none => none
  | some ty => some
    { name := r.name, schemaName := r.schema, tableName := r.table, dataType := ty,
      default := if r.default = "" then none else some r.default, notNull := r.notNull }

/-- /repo/src/introspection/mod.rs:92-117 `load_columns`. -/
def loadColumns (d : Database) (rows : List ColumnRow) : Except Fail Database :=
  match readRows columnOf rows with
  | .error e => .error e
  | .ok cs =>
    loop (fun d (c : Column) => d.withTable c.schemaName c.tableName fun t => t.addColumn c) d cs

/-- `get_schema_mut(..)?.get_relation_mut(..)?.as_table_mut()?.add_constraint(..)?`
(e.g. /repo/src/introspection/mod.rs:134-138) for each constraint. -/
def loadConstraints (d : Database) (cs : List Constraint) : Except Fail Database :=
  loop (fun d (c : Constraint) => d.withTable c.schemaName c.tableName fun t => t.addConstraint c) d cs

/-- /repo/src/introspection/mod.rs:125-132. -/
def primaryKeyOf (r : KeyRow) : PrimaryKey :=
  { name := r.name, schemaName := r.schema, tableName := r.tableName, columns := r.tableColumns,
    deferrable := r.deferrable, initiallyDeferred := r.initiallyDeferred }

/-- /repo/src/introspection/mod.rs:119-141 `load_primary_keys`. -/
def loadPrimaryKeys (d : Database) (rows : List KeyRow) : Except Fail Database :=
  loadConstraints d (rows.map fun r => .primaryKey (primaryKeyOf r))

/-- /repo/src/introspection/mod.rs:149-156. -/
def uniqueOf (r : KeyRow) : Unique :=
  { name := r.name, schemaName := r.schema, tableName := r.tableName, columns := r.tableColumns,
    deferrable := r.deferrable, initiallyDeferred := r.initiallyDeferred }

/-- /repo/src/introspection/mod.rs:143-165 `load_unique`. -/
def loadUnique (d : Database) (rows : List KeyRow) : Except Fail Database :=
  loadConstraints d (rows.map fun r => .unique (uniqueOf r))

/-- /repo/src/introspection/foreignkey.rs:28-42 and mod.rs:173-186. -/
def foreignKeyOf (r : ForeignKeyRow) : Option ForeignKey :=
  match r.targetTableSchema, r.targetTableColumns with
  | some ts, some tcs => some
    { name := r.constraintName, schemaName := r.constraintSchema, tableName := r.constraintTableName,
      columns := r.columns, targetSchema := ts, targetTable := r.targetTableName,
      targetColumns := tcs, deferrable := r.deferrable, initiallyDeferred := r.initiallyDeferred,
      matchOption := r.matchOption, updateRule := r.updateRule, deleteRule := r.deleteRule }
  | _, _ => none

/-- /repo/src/introspection/mod.rs:167-195 `load_foreign_keys`. -/
def loadForeignKeys (d : Database) (rows : List ForeignKeyRow) : Except Fail Database :=
  match readRows foreignKeyOf rows with
  | .error e => .error e
  | .ok ks => loadConstraints d (ks.map .foreignKey)

/-- /repo/src/introspection/mod.rs:203-210. -/
def checkOf (r : CheckRow) : Check :=
  { name := r.name, schemaName := r.schema, tableName := r.table, expression := r.checkClause,
    deferrable := r.isDeferrable, initiallyDeferred := r.initiallyDeferred }

/-- /repo/src/introspection/mod.rs:197-218 `load_checks`. -/
def loadChecks (d : Database) (rows : List CheckRow) : Except Fail Database :=
  loadConstraints d (rows.map fun r => .check (checkOf r))

/-- /repo/src/introspection/mod.rs:226-239: `none` is the panic of `key_columns.unwrap()`. -/
def indexOf (r : IndexRow) : Option Index :=
  let keys := match r.expressions with
    | some e => some [e]
    | none => r.keyColumns
  match keys with
  | none => none
  | some ks => some
    { name := r.indexName, schemaName := r.schemaName, tableName := r.tableName,
      keyExpressions := ks, unique := r.unique, method := r.method }

/-- /repo/src/introspection/mod.rs:220-245 `load_indexes`.  Unlike the panics of `row.get`, that of
`unwrap` comes in the loop, after the rows before it were added. -/
def loadIndexes (d : Database) : List IndexRow → Except Fail Database
  | [] => .ok d
  | r :: rows =>
    match indexOf r with
    | none => .error .panic
    | some i =>
      match d.withSchema i.schemaName fun sc => sc.addRelation (.index i) with
      | .error _ => .error .error
      | .ok d' => loadIndexes d' rows

/-- /repo/src/introspection/mod.rs:253-260. -/
def functionOf (r : FunctionRow) : Function :=
  { name := r.name, schemaName := r.schema, language := r.language, returns := r.returns,
    volatility := r.volatility, body := r.body }

/-- /repo/src/introspection/mod.rs:247-266 `load_functions`. -/
def loadFunctions (d : Database) (rows : List FunctionRow) : Except Fail Database :=
  loop (fun d (f : Function) => d.withSchema f.schemaName fun sc => sc.addFunction f) d
    (rows.map functionOf)

/-- `?` between two loading steps. -/
def andThen (x : Except Fail Database) (f : Database → Except Fail Database) : Except Fail Database :=
  match x with
  | .error e => .error e
  | .ok d => f d

/-- /repo/src/introspection/mod.rs:23-38 `introspect`. -/
def introspect (c : Catalog) : Except Fail Database :=
  andThen (andThen (andThen (andThen (andThen (andThen (andThen (andThen (andThen
    (loadSchemas Database.new c.schemas)
    (loadSequences · c.sequences))
    (loadTables · c.tables))
    (loadColumns · c.columns))
    (loadPrimaryKeys · c.primaryKeys))
    (loadForeignKeys · c.foreignKeys))
    (loadFunctions · c.functions))
    (loadUnique · c.uniques))
    (loadChecks · c.checks))
    (loadIndexes · c.indexes)

end Introspect
end Podo
