import Verif.Spec.Stated
/-
Which snapshots definition files can define.
-/
namespace Podo
namespace Def

/-- A column: no `=` or `!` in the type, no blanks around it or the default, and a default of one line. -/
structure ColumnDefinable (c : Column) : Prop where
  name : NameOk c.name
  type : '=' ∉ c.dataType.toList ∧ '!' ∉ c.dataType.toList ∧ Trimmed c.dataType
  default : ∀ d, c.default = some d → Trimmed d ∧ '\n' ∉ d.toList

/-- A constraint: a unique constraint is on some column; a foreign key refers to some column, of a table
that a key can name. -/
def ConstraintDefinable (c : Constraint) : Prop :=
  NameOk c.name ∧ match c with
    | .primaryKey _ => True
    | .unique k => k.columns ≠ []
    | .foreignKey k => k.targetColumns ≠ [] ∧
        ∃ name, NameOk name ∧ RefersTo k.schemaName name k.targetSchema k.targetTable
    | .check _ => True

/-- A relation: indexes are of method `btree`; sequences count up by one, in 64 bits. -/
def RelationDefinable (r : Relation) : Prop :=
  NameOk r.name ∧ match r with
    | .table t => (∀ c ∈ t.columns, ColumnDefinable c) ∧ ∀ p ∈ t.constraints, ConstraintDefinable p.2
    | .view _ => True
    | .index i => NameOk i.tableName ∧ i.method = "btree"
    | .sequence s => s.increment = 1 ∧ Int64 s.minValue ∧ Int64 s.maxValue ∧ Int64 s.start ∧ Int64 s.cache ∧
        (s.ownedByTable = none ↔ s.ownedByColumn = none) ∧ ∀ t, s.ownedByTable = some t → NameOk t

/-- A snapshot of such relations; of functions and schemas only the name matters. -/
def Definable (d : Database) : Prop :=
  ∀ p ∈ d.schemas, NameOk p.2.name ∧ (∀ q ∈ p.2.relations, RelationDefinable q.2) ∧
    ∀ q ∈ p.2.functions, NameOk q.2.name

mutual
/-- A YAML value in which no mapping has a key twice. -/
def Proper : Yaml → Prop
  | .map ks vs => ks.Nodup ∧ ks.length = vs.length ∧ Propers vs
  | .seq vs => Propers vs
  | _ => True
/-- Each of a list of values is so. -/
def Propers : List Yaml → Prop
  | [] => True
  | v :: vs => Proper v ∧ Propers vs
end

end Def
end Podo
