import Verif.Model.Types
/-
Specification of "the content of a snapshot", independent of the order of hash maps and of the
order of columns: nested partial functions from names to objects.
-/
namespace Podo

/-- Content of a table: its columns and constraints by name. -/
structure TableContent where
  schemaName : String
  name : String
  columns : String → Option Column
  constraints : String → Option Constraint

/-- Content of a relation. -/
inductive RelContent where
  | table (t : TableContent)
  | view (v : View)
  | index (i : Index)
  | sequence (s : Sequence)

/-- Content of a schema: its relations and functions by name. -/
structure SchemaContent where
  name : String
  relations : String → Option RelContent
  functions : String → Option Function

/-- Content of a database: its schemas by name. -/
abbrev Content := String → Option SchemaContent

/-- The column of a given name. -/
def columnNamed (cols : List Column) (n : String) : Option Column := cols.find? (·.name == n)

def Table.content (t : Table) : TableContent :=
  ⟨t.schemaName, t.name, columnNamed t.columns, fun c => t.constraints.get? c⟩

def Relation.content : Relation → RelContent
  | .table t => .table t.content
  | .view v => .view v
  | .index i => .index i
  | .sequence s => .sequence s

def Schema.content (s : Schema) : SchemaContent :=
  ⟨s.name, fun r => (s.relations.get? r).map Relation.content, fun f => s.functions.get? f⟩

def Database.content (d : Database) : Content := fun s => (d.schemas.get? s).map Schema.content

/-- Well-formed tables: column names and constraint names are unique, every column and constraint
is recorded inside its own table and schema. -/
structure Table.WF (t : Table) : Prop where
  cols_nodup : (t.columns.map Column.name).Nodup
  cols_home : ∀ c ∈ t.columns, c.schemaName = t.schemaName ∧ c.tableName = t.name
  cons_nodup : t.constraints.NodupKeys
  cons_home : ∀ p ∈ t.constraints,
    p.2.name = p.1 ∧ p.2.schemaName = t.schemaName ∧ p.2.tableName = t.name

/-- Well-formed relations: tables are well-formed. -/
def Relation.WF : Relation → Prop
  | .table t => t.WF
  | _ => True

/-- Well-formed schemas: names are unique, every relation and function is recorded under its own
name and inside its own schema, relations are well-formed. -/
structure Schema.WF (s : Schema) : Prop where
  rels_nodup : s.relations.NodupKeys
  rels_home : ∀ p ∈ s.relations, p.2.name = p.1 ∧ p.2.schemaName = s.name ∧ p.2.WF
  funs_nodup : s.functions.NodupKeys
  funs_home : ∀ p ∈ s.functions, p.2.name = p.1 ∧ p.2.schemaName = s.name

/-- Well-formed databases: schema names are unique, every schema is recorded under its own name,
schemas are well-formed. -/
structure Database.WF (d : Database) : Prop where
  nodup : d.schemas.NodupKeys
  home : ∀ p ∈ d.schemas, p.2.name = p.1 ∧ p.2.WF

end Podo
