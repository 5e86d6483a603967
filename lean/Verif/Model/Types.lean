import Verif.Base.AMap
/-
Model of /repo/src/snapshot/types/* and /repo/src/snapshot/error.rs.
`i64` fields are `Int` (the crate does no arithmetic on them).
-/
namespace Podo

/-- /repo/src/snapshot/types/column.rs:2-10 `Column`. -/
structure Column where
  schemaName : String
  tableName : String
  name : String
  dataType : String
  notNull : Bool
  default : Option String
deriving DecidableEq, Repr

/-- /repo/src/snapshot/types/primarykey.rs:2-11 `PrimaryKey`. -/
structure PrimaryKey where
  schemaName : String
  tableName : String
  name : String
  columns : List String
  deferrable : Bool
  initiallyDeferred : Bool
deriving DecidableEq, Repr

/-- /repo/src/snapshot/types/unique.rs:2-11 `Unique`. -/
structure Unique where
  schemaName : String
  tableName : String
  name : String
  columns : List String
  deferrable : Bool
  initiallyDeferred : Bool
deriving DecidableEq, Repr

/-- /repo/src/snapshot/types/foreignkey.rs:2-17 `ForeignKey`. -/
structure ForeignKey where
  schemaName : String
  tableName : String
  name : String
  columns : List String
  targetSchema : String
  targetTable : String
  targetColumns : List String
  matchOption : String
  updateRule : String
  deleteRule : String
  deferrable : Bool
  initiallyDeferred : Bool
deriving DecidableEq, Repr

/-- /repo/src/snapshot/types/check.rs:2-9 `Check`. -/
structure Check where
  schemaName : String
  tableName : String
  name : String
  expression : String
  deferrable : Bool
  initiallyDeferred : Bool
deriving DecidableEq, Repr

/-- /repo/src/snapshot/types/constraint.rs:6-11 `Constraint`. -/
inductive Constraint where
  | primaryKey (pk : PrimaryKey)
  | foreignKey (fk : ForeignKey)
  | unique (u : Unique)
  | check (c : Check)
deriving DecidableEq, Repr

/-- /repo/src/snapshot/types/table.rs:8-14 `Table`. -/
structure Table where
  schemaName : String
  name : String
  columns : List Column
  constraints : AMap Constraint
deriving DecidableEq, Repr

/-- /repo/src/snapshot/types/view.rs:2-6 `View`. -/
structure View where
  schemaName : String
  name : String
  query : String
deriving DecidableEq, Repr

/-- /repo/src/snapshot/types/index.rs:2-10 `Index`. -/
structure Index where
  schemaName : String
  name : String
  tableName : String
  unique : Bool
  method : String
  keyExpressions : List String
deriving DecidableEq, Repr

/-- /repo/src/snapshot/types/sequence.rs:2-15 `Sequence`. -/
structure Sequence where
  schemaName : String
  name : String
  dataType : String
  increment : Int
  minValue : Int
  maxValue : Int
  start : Int
  cache : Int
  cycle : Bool
  ownedByTable : Option String
  ownedByColumn : Option String
deriving DecidableEq, Repr

/-- /repo/src/snapshot/types/function.rs:2-11 `Function`. -/
structure Function where
  schemaName : String
  name : String
  body : String
  language : String
  returns : String
  volatility : String
deriving DecidableEq, Repr

/-- /repo/src/snapshot/types/relation.rs:6-11 `Relation`. -/
inductive Relation where
  | table (t : Table)
  | view (v : View)
  | index (i : Index)
  | sequence (s : Sequence)
deriving DecidableEq, Repr

/-- /repo/src/snapshot/types/schema.rs:8-12 `Schema`. -/
structure Schema where
  name : String
  relations : AMap Relation
  functions : AMap Function
deriving DecidableEq, Repr

/-- /repo/src/snapshot/types/database.rs:8-10 `Database`. -/
structure Database where
  schemas : AMap Schema
deriving DecidableEq, Repr

/-- /repo/src/snapshot/error.rs:2-16 `SnapshotError`. -/
inductive SnapshotError where
  | objectNotFound (path : List String) (type : String)
  | objectAlreadyExists (path : List String) (type : String)
  | objectHasUnexpectedType (path : List String) (expected actual : String)
deriving DecidableEq, Repr

/-- `Result<_, SnapshotError>`. -/
abbrev SResult (α : Type) := Except SnapshotError α

namespace SnapshotError
/-- /repo/src/snapshot/error.rs:26-28 -/
def schemaNotFound (s : String) : SnapshotError := .objectNotFound [s] "schema"
/-- /repo/src/snapshot/error.rs:29-31 -/
def schemaAlreadyExists (s : String) : SnapshotError := .objectAlreadyExists [s] "schema"
/-- /repo/src/snapshot/error.rs:33-35 -/
def relationNotFound (s r : String) : SnapshotError := .objectNotFound [s, r] "relation"
/-- /repo/src/snapshot/error.rs:36-38 -/
def relationAlreadyExists (s r : String) : SnapshotError := .objectAlreadyExists [s, r] "relation"
/-- /repo/src/snapshot/error.rs:40-42 -/
def functionNotFound (s f : String) : SnapshotError := .objectNotFound [s, f] "function"
/-- /repo/src/snapshot/error.rs:43-45 -/
def functionAlreadyExists (s f : String) : SnapshotError := .objectAlreadyExists [s, f] "function"
/-- /repo/src/snapshot/error.rs:60-63 -/
def columnNotFound (s r c : String) : SnapshotError := .objectNotFound [s, r, c] "column"
/-- /repo/src/snapshot/error.rs:64-67 -/
def columnAlreadyExists (s r c : String) : SnapshotError := .objectAlreadyExists [s, r, c] "column"
/-- /repo/src/snapshot/error.rs:69-76 -/
def constraintNotFound (s r c : String) : SnapshotError := .objectNotFound [s, r, c] "constraint"
/-- /repo/src/snapshot/error.rs:77-84 -/
def constraintAlreadyExists (s r c : String) : SnapshotError :=
  .objectAlreadyExists [s, r, c] "constraint"
end SnapshotError

namespace Constraint
/-- /repo/src/snapshot/types/constraint.rs:32-39 `get_name`. -/
def name : Constraint → String
  | primaryKey pk => pk.name
  | foreignKey fk => fk.name
  | unique u => u.name
  | check c => c.name

/-- /repo/src/snapshot/types/constraint.rs:14-21 `get_schema_name`. -/
def schemaName : Constraint → String
  | primaryKey pk => pk.schemaName
  | foreignKey fk => fk.schemaName
  | unique u => u.schemaName
  | check c => c.schemaName

/-- /repo/src/snapshot/types/constraint.rs:23-30 `get_table_name`. -/
def tableName : Constraint → String
  | primaryKey pk => pk.tableName
  | foreignKey fk => fk.tableName
  | unique u => u.tableName
  | check c => c.tableName

/-- /repo/src/snapshot/types/constraint.rs:93-100 `get_type`. -/
def typeName : Constraint → String
  | primaryKey _ => "primary key"
  | foreignKey _ => "foreign key"
  | unique _ => "unique"
  | check _ => "check"

/-- /repo/src/snapshot/types/constraint.rs:102-110 `format_unexpected_type_error`. -/
def unexpected (c : Constraint) (expected : String) : SnapshotError :=
  .objectHasUnexpectedType [c.schemaName, c.tableName, c.name] expected c.typeName

/-- /repo/src/snapshot/types/constraint.rs:41-52 `as_primary_key(_mut)`. -/
def asPrimaryKey : Constraint → SResult PrimaryKey
  | primaryKey pk => .ok pk
  | c => .error (c.unexpected "primary key")

/-- /repo/src/snapshot/types/constraint.rs:54-65 `as_foreign_key(_mut)`. -/
def asForeignKey : Constraint → SResult ForeignKey
  | foreignKey fk => .ok fk
  | c => .error (c.unexpected "foreign key")

/-- /repo/src/snapshot/types/constraint.rs:67-78 `as_unique(_mut)`. -/
def asUnique : Constraint → SResult Unique
  | unique u => .ok u
  | c => .error (c.unexpected "unique")

/-- /repo/src/snapshot/types/constraint.rs:80-91 `as_check(_mut)`. -/
def asCheck : Constraint → SResult Check
  | check k => .ok k
  | c => .error (c.unexpected "check")
end Constraint

namespace Relation
/-- /repo/src/snapshot/types/relation.rs:23-30 `get_name`. -/
def name : Relation → String
  | table t => t.name
  | view v => v.name
  | index i => i.name
  | sequence s => s.name

/-- /repo/src/snapshot/types/relation.rs:14-21 `get_schema_name`. -/
def schemaName : Relation → String
  | table t => t.schemaName
  | view v => v.schemaName
  | index i => i.schemaName
  | sequence s => s.schemaName

/-- /repo/src/snapshot/types/relation.rs:81-88 `get_type`. -/
def typeName : Relation → String
  | table _ => "table"
  | view _ => "view"
  | index _ => "index"
  | sequence _ => "sequence"

/-- /repo/src/snapshot/types/relation.rs:90-97 `format_unexpected_type_error`. -/
def unexpected (r : Relation) (expected : String) : SnapshotError :=
  .objectHasUnexpectedType [r.schemaName, r.name] expected r.typeName

/-- /repo/src/snapshot/types/relation.rs:32-43 `as_table(_mut)`. -/
def asTable : Relation → SResult Table
  | table t => .ok t
  | r => .error (r.unexpected "table")

/-- /repo/src/snapshot/types/relation.rs:44-55 `as_view(_mut)`. -/
def asView : Relation → SResult View
  | view v => .ok v
  | r => .error (r.unexpected "view")

/-- /repo/src/snapshot/types/relation.rs:56-67 `as_index(_mut)`. -/
def asIndex : Relation → SResult Index
  | index i => .ok i
  | r => .error (r.unexpected "index")

/-- /repo/src/snapshot/types/relation.rs:68-79 `as_sequence(_mut)`. -/
def asSequence : Relation → SResult Sequence
  | sequence s => .ok s
  | r => .error (r.unexpected "sequence")
end Relation

namespace Table
/-- /repo/src/snapshot/types/table.rs:17-24 `Table::new`. -/
def new (schemaName name : String) : Table := ⟨schemaName, name, [], []⟩

/-- First column of a given name in a column vector (the `find` of
/repo/src/snapshot/types/table.rs:31-33). -/
def findCol : List Column → String → Option Column
  | [], _ => none
  | c :: cs, n => if c.name = n then some c else findCol cs n

/-- /repo/src/snapshot/types/table.rs:30-39 `get_column`. -/
def getColumn (t : Table) (c : String) : SResult Column :=
  match findCol t.columns c with
  | some col => .ok col
  | none => .error (.columnNotFound t.schemaName t.name c)

/-- /repo/src/snapshot/types/table.rs:50-52 `has_column`. -/
def hasColumn (t : Table) (c : String) : Bool := (findCol t.columns c).isSome

/-- /repo/src/snapshot/types/table.rs:53-64 `add_column`. -/
def addColumn (t : Table) (col : Column) : SResult Table :=
  if t.hasColumn col.name then .error (.columnAlreadyExists t.schemaName t.name col.name)
  else .ok { t with columns := t.columns ++ [col] }

/-- `Vec::remove` at the first position of a column name (/repo/src/snapshot/types/table.rs:66-75). -/
def eraseCol : List Column → String → List Column
  | [], _ => []
  | c :: cs, n => if c.name = n then cs else c :: eraseCol cs n

/-- /repo/src/snapshot/types/table.rs:65-76 `remove_column`; returns the removed column too. -/
def removeColumn (t : Table) (c : String) : SResult (Column × Table) :=
  match findCol t.columns c with
  | some col => .ok (col, { t with columns := eraseCol t.columns c })
  | none => .error (.columnNotFound t.schemaName t.name c)

/-- Overwriting the first column of a given name in place. -/
def setCol : List Column → String → (Column → Column) → List Column
  | [], _, _ => []
  | c :: cs, n, f => if c.name = n then f c :: cs else c :: setCol cs n f

/-- Assignment through /repo/src/snapshot/types/table.rs:40-49 `get_column_mut`. -/
def modifyColumn (t : Table) (c : String) (f : Column → Column) : SResult Table :=
  match findCol t.columns c with
  | some _ => .ok { t with columns := setCol t.columns c f }
  | none => .error (.columnNotFound t.schemaName t.name c)

/-- /repo/src/snapshot/types/table.rs:82-90 `get_constraint`. -/
def getConstraint (t : Table) (c : String) : SResult Constraint :=
  match t.constraints.get? c with
  | some con => .ok con
  | none => .error (.constraintNotFound t.schemaName t.name c)

/-- /repo/src/snapshot/types/table.rs:103-105 `has_constraint`. -/
def hasConstraint (t : Table) (c : String) : Bool := t.constraints.has c

/-- /repo/src/snapshot/types/table.rs:106-117 `add_constraint`. -/
def addConstraint (t : Table) (con : Constraint) : SResult Table :=
  if t.constraints.has con.name then
    .error (.constraintAlreadyExists t.schemaName t.name con.name)
  else .ok { t with constraints := t.constraints.insertNew con.name con }

/-- /repo/src/snapshot/types/table.rs:118-126 `remove_constraint`. -/
def removeConstraint (t : Table) (c : String) : SResult Table :=
  match t.constraints.get? c with
  | some _ => .ok { t with constraints := t.constraints.erase c }
  | none => .error (.constraintNotFound t.schemaName t.name c)

/-- Assignment through /repo/src/snapshot/types/table.rs:91-102 `get_constraint_mut`. -/
def setConstraint (t : Table) (c : String) (con : Constraint) : Table :=
  { t with constraints := t.constraints.set c con }
end Table

namespace Schema
/-- /repo/src/snapshot/types/schema.rs:15-21 `Schema::new`. -/
def new (name : String) : Schema := ⟨name, [], []⟩

/-- /repo/src/snapshot/types/schema.rs:28-32 `get_relation`, 36-40 `get_relation_mut`. -/
def getRelation (s : Schema) (r : String) : SResult Relation :=
  match s.relations.get? r with
  | some rel => .ok rel
  | none => .error (.relationNotFound s.name r)

/-- /repo/src/snapshot/types/schema.rs:41-43 `has_relation`. -/
def hasRelation (s : Schema) (r : String) : Bool := s.relations.has r

/-- /repo/src/snapshot/types/schema.rs:44-51 `add_relation`. -/
def addRelation (s : Schema) (rel : Relation) : SResult Schema :=
  if s.relations.has rel.name then .error (.relationAlreadyExists s.name rel.name)
  else .ok { s with relations := s.relations.insertNew rel.name rel }

/-- /repo/src/snapshot/types/schema.rs:52-56 `remove_relation`. -/
def removeRelation (s : Schema) (r : String) : SResult Schema :=
  match s.relations.get? r with
  | some _ => .ok { s with relations := s.relations.erase r }
  | none => .error (.relationNotFound s.name r)

/-- Assignment through /repo/src/snapshot/types/schema.rs:36-40 `get_relation_mut`. -/
def setRelation (s : Schema) (r : String) (rel : Relation) : Schema :=
  { s with relations := s.relations.set r rel }

/-- /repo/src/snapshot/types/schema.rs:58-62 `get_function`. -/
def getFunction (s : Schema) (f : String) : SResult Function :=
  match s.functions.get? f with
  | some fn => .ok fn
  | none => .error (.functionNotFound s.name f)

/-- /repo/src/snapshot/types/schema.rs:71-73 `has_function`. -/
def hasFunction (s : Schema) (f : String) : Bool := s.functions.has f

/-- /repo/src/snapshot/types/schema.rs:74-84 `add_function`. -/
def addFunction (s : Schema) (fn : Function) : SResult Schema :=
  if s.functions.has fn.name then .error (.functionAlreadyExists s.name fn.name)
  else .ok { s with functions := s.functions.insertNew fn.name fn }

/-- /repo/src/snapshot/types/schema.rs:85-89 `remove_function`. -/
def removeFunction (s : Schema) (f : String) : SResult Schema :=
  match s.functions.get? f with
  | some _ => .ok { s with functions := s.functions.erase f }
  | none => .error (.functionNotFound s.name f)
end Schema

namespace Database
/-- /repo/src/snapshot/types/database.rs:13-17 `Database::new`. -/
def new : Database := ⟨[]⟩

/-- /repo/src/snapshot/types/database.rs:22-31 `get_schema`, `get_schema_mut`. -/
def getSchema (d : Database) (s : String) : SResult Schema :=
  match d.schemas.get? s with
  | some sc => .ok sc
  | none => .error (.schemaNotFound s)

/-- /repo/src/snapshot/types/database.rs:32-34 `has_schema`. -/
def hasSchema (d : Database) (s : String) : Bool := d.schemas.has s

/-- /repo/src/snapshot/types/database.rs:35-41 `add_schema`. -/
def addSchema (d : Database) (sc : Schema) : SResult Database :=
  if d.schemas.has sc.name then .error (.schemaAlreadyExists sc.name)
  else .ok { schemas := d.schemas.insertNew sc.name sc }

/-- /repo/src/snapshot/types/database.rs:42-46 `remove_schema`. -/
def removeSchema (d : Database) (s : String) : SResult Database :=
  match d.schemas.get? s with
  | some _ => .ok { schemas := d.schemas.erase s }
  | none => .error (.schemaNotFound s)

/-- Assignment through /repo/src/snapshot/types/database.rs:27-31 `get_schema_mut`. -/
def setSchema (d : Database) (s : String) (sc : Schema) : Database :=
  { schemas := d.schemas.set s sc }
end Database
end Podo
