import Verif.Model.Introspect
import Verif.Spec.Def
/-
Specification for C53: which catalogues are consistent, and what a snapshot of one has to hold.
-/
namespace Podo
namespace Introspect

/-- A row and the object it describes. -/
structure SequenceRow.Describes (r : SequenceRow) (q : Sequence) : Prop where
  schema : q.schemaName = r.schema
  name : q.name = r.name
  dataType : q.dataType = r.dataType
  increment : q.increment = r.increment
  minValue : q.minValue = r.minValue
  maxValue : q.maxValue = r.maxValue
  start : q.start = r.start
  cache : q.cache = r.cache
  cycle : q.cycle = r.cycle
  ownedByTable : q.ownedByTable = r.ownedByTableName
  ownedByColumn : q.ownedByColumn = r.ownedByColumnName

/-- The integers of a row are of 64 bits (in the code they are `i64`). -/
structure SequenceRow.Int64 (r : SequenceRow) : Prop where
  increment : Def.Int64 r.increment
  minValue : Def.Int64 r.minValue
  maxValue : Def.Int64 r.maxValue
  start : Def.Int64 r.start
  cache : Def.Int64 r.cache

/-- The sequence of a row can be written to a definition file. -/
structure SequenceRow.Writable (r : SequenceRow) : Prop where
  type : r.dataType = "int2" ∨ r.dataType = "int4" ∨ r.dataType = "int8"
  owner : r.ownedByColumnName = none → r.ownedByTableName = none

/-- The catalogue writes "no default" as the empty string. -/
structure ColumnRow.Describes (r : ColumnRow) (c : Column) : Prop where
  schema : c.schemaName = r.schema
  table : c.tableName = r.table
  name : c.name = r.name
  dataType : some c.dataType = r.dataType
  notNull : c.notNull = r.notNull
  default : c.default.getD "" = r.default
  nonempty : c.default ≠ some ""

structure KeyRow.DescribesPrimaryKey (r : KeyRow) (k : PrimaryKey) : Prop where
  schema : k.schemaName = r.schema
  table : k.tableName = r.tableName
  name : k.name = r.name
  columns : k.columns = r.tableColumns
  deferrable : k.deferrable = r.deferrable
  initiallyDeferred : k.initiallyDeferred = r.initiallyDeferred

structure KeyRow.DescribesUnique (r : KeyRow) (k : Unique) : Prop where
  schema : k.schemaName = r.schema
  table : k.tableName = r.tableName
  name : k.name = r.name
  columns : k.columns = r.tableColumns
  deferrable : k.deferrable = r.deferrable
  initiallyDeferred : k.initiallyDeferred = r.initiallyDeferred

structure ForeignKeyRow.Describes (r : ForeignKeyRow) (k : ForeignKey) : Prop where
  schema : k.schemaName = r.constraintSchema
  table : k.tableName = r.constraintTableName
  name : k.name = r.constraintName
  columns : k.columns = r.columns
  targetSchema : some k.targetSchema = r.targetTableSchema
  targetTable : k.targetTable = r.targetTableName
  targetColumns : some k.targetColumns = r.targetTableColumns
  matchOption : k.matchOption = r.matchOption
  updateRule : k.updateRule = r.updateRule
  deleteRule : k.deleteRule = r.deleteRule
  deferrable : k.deferrable = r.deferrable
  initiallyDeferred : k.initiallyDeferred = r.initiallyDeferred

structure CheckRow.Describes (r : CheckRow) (k : Check) : Prop where
  schema : k.schemaName = r.schema
  table : k.tableName = r.table
  name : k.name = r.name
  expression : k.expression = r.checkClause
  deferrable : k.deferrable = r.isDeferrable
  initiallyDeferred : k.initiallyDeferred = r.initiallyDeferred

structure FunctionRow.Describes (r : FunctionRow) (f : Function) : Prop where
  schema : f.schemaName = r.schema
  name : f.name = r.name
  body : f.body = r.body
  language : f.language = r.language
  returns : f.returns = r.returns
  volatility : f.volatility = r.volatility

/-- An index of expressions has them in one text; otherwise it is of columns. -/
structure IndexRow.Describes (r : IndexRow) (i : Index) : Prop where
  schema : i.schemaName = r.schemaName
  name : i.name = r.indexName
  table : i.tableName = r.tableName
  unique : i.unique = r.unique
  method : i.method = r.method
  expressions : ∀ e, r.expressions = some e → i.keyExpressions = [e]
  columns : r.expressions = none → some i.keyExpressions = r.keyColumns

/-- The constraints a catalogue lists. -/
inductive Lists (c : Catalog) : Constraint → Prop
  | primaryKey {r k} : r ∈ c.primaryKeys → r.DescribesPrimaryKey k → Lists c (.primaryKey k)
  | unique {r k} : r ∈ c.uniques → r.DescribesUnique k → Lists c (.unique k)
  | foreignKey {r k} : r ∈ c.foreignKeys → r.Describes k → Lists c (.foreignKey k)
  | check {r k} : r ∈ c.checks → r.Describes k → Lists c (.check k)

/-- The places (schema and name) of the relations a catalogue lists. -/
def Catalog.relationPlaces (c : Catalog) : List (String × String) :=
  c.sequences.map (fun r => (r.schema, r.name)) ++ c.tables.map (fun r => (r.schema, r.name)) ++
  c.indexes.map (fun r => (r.schemaName, r.indexName))

/-- The places (schema and name) of the functions a catalogue lists. -/
def Catalog.functionPlaces (c : Catalog) : List (String × String) :=
  c.functions.map fun r => (r.schema, r.name)

/-- The tables of the columns a catalogue lists, and the names of the columns in them. -/
def Catalog.columnPlaces (c : Catalog) : List ((String × String) × String) :=
  c.columns.map fun r => ((r.schema, r.table), r.name)

/-- The tables of the constraints a catalogue lists, and the names of the constraints on them. -/
def Catalog.constraintPlaces (c : Catalog) : List ((String × String) × String) :=
  c.primaryKeys.map (fun r => ((r.schema, r.tableName), r.name)) ++
  c.foreignKeys.map (fun r => ((r.constraintSchema, r.constraintTableName), r.constraintName)) ++
  c.uniques.map (fun r => ((r.schema, r.tableName), r.name)) ++
  c.checks.map (fun r => ((r.schema, r.table), r.name))

/-- A consistent catalogue: nothing is listed twice, everything is in a schema or on a table that is
listed, and the rows are complete.  (PostgreSQL keeps one name space per schema for tables, sequences,
indexes and views.  It allows functions of one name and different arguments: a catalogue with such
functions is not consistent.) -/
structure Catalog.Consistent (c : Catalog) : Prop where
  schemas : c.schemas.Nodup
  relations : c.relationPlaces.Nodup
  functions : c.functionPlaces.Nodup
  columns : c.columnPlaces.Nodup
  constraints : c.constraintPlaces.Nodup
  relation_schema : ∀ p ∈ c.relationPlaces, p.1 ∈ c.schemas
  function_schema : ∀ p ∈ c.functionPlaces, p.1 ∈ c.schemas
  column_table : ∀ p ∈ c.columnPlaces, ⟨p.1.1, p.1.2⟩ ∈ c.tables
  constraint_table : ∀ p ∈ c.constraintPlaces, ⟨p.1.1, p.1.2⟩ ∈ c.tables
  column_type : ∀ r ∈ c.columns, r.dataType ≠ none
  target : ∀ r ∈ c.foreignKeys, r.targetTableSchema ≠ none ∧ r.targetTableColumns ≠ none
  index_keys : ∀ r ∈ c.indexes, r.expressions ≠ none ∨ r.keyColumns ≠ none

/-- A snapshot holds a relation, a function, under a name in a schema. -/
def HasRelation (d : Database) (s n : String) (r : Relation) : Prop :=
  ∃ sc, d.schemas.get? s = some sc ∧ sc.relations.get? n = some r

def HasFunction (d : Database) (s n : String) (f : Function) : Prop :=
  ∃ sc, d.schemas.get? s = some sc ∧ sc.functions.get? n = some f

/-- Rows and the columns they describe, in the same order. -/
inductive DescribeColumns : List ColumnRow → List Column → Prop
  | nil : DescribeColumns [] []
  | cons {r c rs cs} : r.Describes c → DescribeColumns rs cs → DescribeColumns (r :: rs) (c :: cs)

/-- A snapshot holds exactly the objects a catalogue lists, views apart, each with the attributes
listed, and the columns of a table in the order listed. -/
structure Represents (c : Catalog) (d : Database) : Prop where
  schemas : ∀ s, (∃ sc, d.schemas.get? s = some sc) ↔ s ∈ c.schemas
  schema_name : ∀ s sc, d.schemas.get? s = some sc → sc.name = s
  sequences : ∀ s n q, HasRelation d s n (.sequence q) ↔
    q.schemaName = s ∧ q.name = n ∧ ∃ r ∈ c.sequences, r.Describes q
  indexes : ∀ s n i, HasRelation d s n (.index i) ↔
    i.schemaName = s ∧ i.name = n ∧ ∃ r ∈ c.indexes, r.Describes i
  views : ∀ s n v, ¬ HasRelation d s n (.view v)
  functions : ∀ s n f, HasFunction d s n f ↔
    f.schemaName = s ∧ f.name = n ∧ ∃ r ∈ c.functions, r.Describes f
  tables : ∀ s n, (∃ t, HasRelation d s n (.table t)) ↔ ⟨s, n⟩ ∈ c.tables
  table_home : ∀ s n t, HasRelation d s n (.table t) → t.schemaName = s ∧ t.name = n
  columns : ∀ s n t, HasRelation d s n (.table t) →
    DescribeColumns (c.columns.filter fun r => r.schema = s ∧ r.table = n) t.columns
  constraints : ∀ s n t, HasRelation d s n (.table t) → ∀ m k,
    t.constraints.get? m = some k ↔
      k.schemaName = s ∧ k.tableName = n ∧ k.name = m ∧ Lists c k

/-- The catalogues whose objects definition files can express: names are not empty and have no blanks
around them; sequences are of one of three types, have an increment of 1 and are owned by a column or
nothing; indexes use `btree` and their tables have names that can follow `on`; types and defaults fit
the column expression; keys have columns, and tables they refer to have no dot in their names. -/
structure Catalog.Expressible (c : Catalog) : Prop where
  schemas : ∀ s ∈ c.schemas, Def.NameOk s
  sequences : ∀ r ∈ c.sequences, Def.NameOk r.name ∧ r.increment = 1 ∧
    (r.dataType = "int2" ∨ r.dataType = "int4" ∨ r.dataType = "int8") ∧
    (r.ownedByTableName = none ↔ r.ownedByColumnName = none) ∧
    ∀ t, r.ownedByTableName = some t → Def.NameOk t
  tables : ∀ r ∈ c.tables, Def.NameOk r.name
  columns : ∀ r ∈ c.columns, Def.NameOk r.name ∧ ∀ ty, r.dataType = some ty →
    Def.ExprOk ty r.notNull (if r.default = "" then none else some r.default)
  primaryKeys : ∀ r ∈ c.primaryKeys, Def.NameOk r.name
  uniques : ∀ r ∈ c.uniques, Def.NameOk r.name ∧ r.tableColumns ≠ []
  foreignKeys : ∀ r ∈ c.foreignKeys, Def.NameOk r.constraintName ∧ r.targetTableColumns ≠ some [] ∧
    ∀ s, r.targetTableSchema = some s → Def.RefOk r.constraintSchema s r.targetTableName ∧
      Def.NameOk (if s = r.constraintSchema then r.targetTableName else s ++ "." ++ r.targetTableName)
  checks : ∀ r ∈ c.checks, Def.NameOk r.name
  functions : ∀ r ∈ c.functions, Def.NameOk r.name
  indexes : ∀ r ∈ c.indexes, Def.NameOk r.indexName ∧ Def.NameOk r.tableName ∧ r.method = "btree" ∧
    ¬ Def.StartsWith "delete" r.tableName ∧ ¬ Def.StartsWith "update" r.tableName

end Introspect
end Podo
