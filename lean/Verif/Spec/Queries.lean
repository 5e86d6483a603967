import Verif.Model.Queries
import Verif.Spec.Introspect
/-
Specification for C75: what PostgreSQL's system tables say about a database, in the terms of snapshots.
Written from the chapter "System Catalogs" of the PostgreSQL manual.
-/
namespace Podo
namespace Sys
open Introspect (HasRelation HasFunction)

variable (g : System)

/-- The relation `n` of the schema `s`. -/
def System.Rel (s n : String) (c : Class) : Prop :=
  c ∈ g.classes ∧ c.relname = n ∧ ∃ ns ∈ g.namespaces, ns.oid = c.relnamespace ∧ ns.nspname = s

/-- The columns of a relation with the given numbers, in the order of the numbers. -/
inductive System.Named (rel : Nat) : List Int → List String → Prop
  | nil : Named rel [] []
  | cons {a n ns ss} : a ∈ g.attributes → a.attrelid = rel → a.attnum = n → Named rel ns ss →
      Named rel (n :: ns) (a.attname :: ss)

/-- The modifier of a type, as PostgreSQL writes it after the name. -/
def System.modifier (b : String) (m : Int) : String := if m = -1 then "" else g.typmodout b m

/-- How a type with a modifier is written.  An array type has an element type and no fixed length; there
are types with a fixed length and an element type, such as `point`, that are no arrays. -/
inductive System.Spelled : Nat → Int → String → Prop
  | plain {t m} : t ∈ g.types → (t.typelem = 0 ∨ t.typlen ≠ -1) →
      Spelled t.oid m (t.typname ++ g.modifier t.typname m)
  | array {t e m} : t ∈ g.types → t.typelem = e.oid → t.typelem ≠ 0 → t.typlen = -1 → e ∈ g.types →
      Spelled t.oid m (e.typname ++ g.modifier e.typname m ++ "[]")

/-- A column of the table `c` of the schema `s`. -/
def System.IsColumn (s : String) (c : Class) (col : Column) : Prop :=
  col.schemaName = s ∧ col.tableName = c.relname ∧
  ∃ a ∈ g.attributes, a.attrelid = c.oid ∧ a.attnum > 0 ∧ a.attisdropped = false ∧
    a.generated = false ∧ a.attname = col.name ∧ g.Spelled a.atttypid a.atttypmod col.dataType ∧
    (col.notNull = true ↔ a.attnotnull = true ∨
      ∃ t ∈ g.types, t.oid = a.atttypid ∧ t.typdomain = true ∧ t.typnotnull = true) ∧
    ∀ e, col.default = some e ↔
      ∃ ad ∈ g.attrdefs, ad.adrelid = a.attrelid ∧ ad.adnum = a.attnum ∧ ad.expr = e

/-- How the behaviours of a foreign key are written in SQL. -/
def MatchType.sql : MatchType → String
  | .full => "FULL"
  | .partial_ => "PARTIAL"
  | .simple => "SIMPLE"

def Action.sql : Action → String
  | .cascade => "CASCADE"
  | .setNull => "SET NULL"
  | .setDefault => "SET DEFAULT"
  | .restrict => "RESTRICT"
  | .noAction => "NO ACTION"

/-- A constraint of the table `c` of the schema `s`. -/
inductive System.IsConstraint (s : String) (c : Class) : Constraint → Prop
  | primaryKey {k cols} : k ∈ g.constraints → k.contype = .primaryKey → k.conrelid = c.oid →
      g.Named c.oid k.conkey cols →
      IsConstraint s c (.primaryKey {
        schemaName := s, tableName := c.relname, name := k.conname,
        columns := cols, deferrable := k.condeferrable, initiallyDeferred := k.condeferred })
  | unique {k cols} : k ∈ g.constraints → k.contype = .unique → k.conrelid = c.oid →
      g.Named c.oid k.conkey cols →
      IsConstraint s c (.unique {
        schemaName := s, tableName := c.relname, name := k.conname,
        columns := cols, deferrable := k.condeferrable, initiallyDeferred := k.condeferred })
  | foreignKey {k cols ts tt fc tcols} : k ∈ g.constraints → k.contype = .foreignKey →
      k.conrelid = c.oid → g.Named c.oid k.conkey cols → g.Rel ts tt fc → fc.oid = k.confrelid →
      g.Named fc.oid k.confkey tcols →
      IsConstraint s c (.foreignKey {
        schemaName := s, tableName := c.relname, name := k.conname,
        columns := cols, targetSchema := ts, targetTable := tt, targetColumns := tcols,
        matchOption := k.confmatchtype.sql, updateRule := k.confupdtype.sql,
        deleteRule := k.confdeltype.sql, deferrable := k.condeferrable,
        initiallyDeferred := k.condeferred })
  | check {k e} : k ∈ g.constraints → k.contype = .check → k.conrelid = c.oid →
      k.condef = "CHECK " ++ e →
      IsConstraint s c (.check {
        schemaName := s, tableName := c.relname, name := k.conname,
        expression := e, deferrable := k.condeferrable, initiallyDeferred := k.condeferred })

/-- The keys of an index: a number that is not 0 is a column, 0 stands for the next expression. -/
inductive System.Keys (rel : Nat) : List Int → List String → List String → Prop
  | nil : Keys rel [] [] []
  | column {a n ns es ss} : n ≠ 0 → a ∈ g.attributes → a.attrelid = rel → a.attnum = n →
      Keys rel ns es ss → Keys rel (n :: ns) es (a.attname :: ss)
  | expression {e ns es ss} : Keys rel ns es ss → Keys rel (0 :: ns) (e :: es) (e :: ss)

/-- A constraint owns its index.  (A foreign key only uses the index of the table it refers to.) -/
def System.OwnedIndex (i : Nat) : Prop :=
  ∃ k ∈ g.constraints, k.conindid = i ∧ k.contype ≠ .foreignKey

/-- An index of the schema `s` that is not part of a constraint.  What is in the index besides its keys is
left out, as snapshots have no place for it. -/
def System.IsIndex (s : String) (i : Index) : Prop :=
  ∃ c, g.Rel s i.name c ∧ i.schemaName = s ∧ ¬ g.OwnedIndex c.oid ∧
  ∃ x ∈ g.indexes, x.indexrelid = c.oid ∧ i.unique = x.indisunique ∧
  ∃ t ∈ g.classes, t.oid = x.indrelid ∧ t.relname = i.tableName ∧
  ∃ am ∈ g.ams, am.oid = c.relam ∧ am.amname = i.method ∧
    g.Keys x.indrelid (x.indkey.take x.indnkeyatts) x.indexprs i.keyExpressions

/-- The column `a` owns the sequence with this oid. -/
def System.Owner (seq : Nat) (a : Attribute) : Prop :=
  a ∈ g.attributes ∧ ∃ d ∈ g.depends, d.classid = .class_ ∧ d.objid = seq ∧ d.refclassid = .class_ ∧
    d.refobjid = a.attrelid ∧ d.refobjsubid = a.attnum

/-- A sequence of the schema `s`. -/
def System.IsSequence (s : String) (q : Sequence) : Prop :=
  ∃ c, g.Rel s q.name c ∧ q.schemaName = s ∧
  ∃ x ∈ g.sequences, x.seqrelid = c.oid ∧ q.increment = x.seqincrement ∧ q.minValue = x.seqmin ∧
    q.maxValue = x.seqmax ∧ q.start = x.seqstart ∧ q.cache = x.seqcache ∧ q.cycle = x.seqcycle ∧
  (∃ t ∈ g.types, t.oid = x.seqtypid ∧ t.typname = q.dataType) ∧
  (∀ n, q.ownedByColumn = some n ↔ ∃ a, g.Owner c.oid a ∧ a.attname = n) ∧
  ∀ n, q.ownedByTable = some n ↔
    ∃ a, g.Owner c.oid a ∧ ∃ t ∈ g.classes, t.oid = a.attrelid ∧ t.relname = n

/-- How the volatility of a function is written in SQL. -/
def Volatility.sql : Volatility → String
  | .immutable => "IMMUTABLE"
  | .stable => "STABLE"
  | .volatile => "VOLATILE"

/-- A function without parameters of the schema `s`. -/
def System.IsFunction (s : String) (f : Function) : Prop :=
  f.schemaName = s ∧ ∃ p ∈ g.procs, p.function = true ∧ p.pronargs = 0 ∧ p.proname = f.name ∧
  (∃ ns ∈ g.namespaces, ns.oid = p.pronamespace ∧ ns.nspname = s) ∧
  (∃ l ∈ g.langs, l.oid = p.prolang ∧ l.lanname = f.language) ∧ f.body = p.prosrc ∧
  f.returns = (if p.proretset then "setof " else "") ++ p.prorettype ∧
  f.volatility = p.provolatile.sql

/-- The snapshot holds what is in the schemas `S` of the database, and nothing else. -/
structure Shows (S : List String) (d : Database) : Prop where
  schemas : ∀ s, (∃ sc, d.schemas.get? s = some sc) ↔ s ∈ S ∧ ∃ ns ∈ g.namespaces, ns.nspname = s
  tables : ∀ s n, (∃ t, HasRelation d s n (.table t)) ↔
    s ∈ S ∧ ∃ c, g.Rel s n c ∧ (c.relkind = .table ∨ c.relkind = .partitioned)
  columns : ∀ s n t, HasRelation d s n (.table t) → ∀ col,
    col ∈ t.columns ↔ ∃ c, g.Rel s n c ∧ g.IsColumn s c col
  constraints : ∀ s n t, HasRelation d s n (.table t) → ∀ m k,
    t.constraints.get? m = some k ↔ k.name = m ∧ ∃ c, g.Rel s n c ∧ g.IsConstraint s c k
  indexes : ∀ s n i, HasRelation d s n (.index i) ↔ s ∈ S ∧ i.name = n ∧ g.IsIndex s i
  sequences : ∀ s n q, HasRelation d s n (.sequence q) ↔ s ∈ S ∧ q.name = n ∧ g.IsSequence s q
  views : ∀ s n v, HasRelation d s n (.view v) ↔ s ∈ S ∧ v.schemaName = s ∧ v.name = n ∧
    ∃ c, g.Rel s n c ∧ c.relkind = .view ∧ c.viewdef = v.query
  functions : ∀ s n f, HasFunction d s n f ↔ s ∈ S ∧ f.name = n ∧ g.IsFunction s f

/-- What PostgreSQL keeps true of its system tables: the columns that identify rows do, references lead to
rows, and what depends on what is recorded. -/
structure Sound : Prop where
  ns_oid : (g.namespaces.map (·.oid)).Nodup
  ns_name : (g.namespaces.map (·.nspname)).Nodup
  class_oid : (g.classes.map (·.oid)).Nodup
  class_name : (g.classes.map fun c => (c.relnamespace, c.relname)).Nodup
  class_ns : ∀ c ∈ g.classes, ∃ ns ∈ g.namespaces, ns.oid = c.relnamespace
  type_oid : (g.types.map (·.oid)).Nodup
  type_zero : ∀ t ∈ g.types, t.oid ≠ 0
  type_ns : ∀ t ∈ g.types, ∃ ns ∈ g.namespaces, ns.oid = t.typnamespace
  type_elem : ∀ t ∈ g.types, t.typelem ≠ 0 → ∃ e ∈ g.types, e.oid = t.typelem
  attr_num : (g.attributes.map fun a => (a.attrelid, a.attnum)).Nodup
  attr_name : (g.attributes.map fun a => (a.attrelid, a.attname)).Nodup
  attr_class : ∀ a ∈ g.attributes, ∃ c ∈ g.classes, c.oid = a.attrelid
  attr_type : ∀ a ∈ g.attributes, a.attisdropped = false → ∃ t ∈ g.types, t.oid = a.atttypid
  /-- there is no column with the number 0 -/
  attr_zero : ∀ a ∈ g.attributes, a.attnum ≠ 0
  attrdef : (g.attrdefs.map fun ad => (ad.adrelid, ad.adnum)).Nodup
  attrdef_text : ∀ ad ∈ g.attrdefs, ad.expr ≠ ""
  con_oid : (g.constraints.map (·.oid)).Nodup
  con_name : (g.constraints.map fun k => (k.conrelid, k.conname)).Nodup
  con_class : ∀ k ∈ g.constraints, ∃ c ∈ g.classes, c.oid = k.conrelid ∧
    c.relnamespace = k.connamespace ∧ (k.contype ≠ .check → c.relkind = .table ∨ c.relkind = .partitioned)
  con_zero : ∀ k ∈ g.constraints, k.conrelid ≠ 0
  con_key : ∀ k ∈ g.constraints, k.contype ≠ .check → k.contype ≠ .other → k.conkey ≠ [] ∧
    ∀ n ∈ k.conkey, ∃ a ∈ g.attributes, a.attrelid = k.conrelid ∧ a.attnum = n ∧ a.attisdropped = false
  con_check : ∀ k ∈ g.constraints, k.contype = .check → ∃ e, k.condef = "CHECK " ++ e
  fk_class : ∀ k ∈ g.constraints, k.contype = .foreignKey → ∃ c ∈ g.classes, c.oid = k.confrelid
  fk_key : ∀ k ∈ g.constraints, k.contype = .foreignKey →
    ∀ n ∈ k.confkey, ∃ a ∈ g.attributes, a.attrelid = k.confrelid ∧ a.attnum = n ∧ a.attisdropped = false
  /-- a foreign key depends on the index it uses, and on no other relation as a whole -/
  fk_index : ∀ k ∈ g.constraints, k.contype = .foreignKey →
    ∃ d, (g.depends.filter fun d => d.classid = .constraint ∧ d.objid = k.oid ∧
      d.refclassid = .class_ ∧ d.refobjsubid = 0) = [d] ∧ d.refobjid = k.conindid
  /-- that index is on the table the foreign key refers to -/
  fk_table : ∀ k ∈ g.constraints, k.contype = .foreignKey →
    ∃ x ∈ g.indexes, x.indexrelid = k.conindid ∧ x.indrelid = k.confrelid
  /-- the index of a key depends on the key, internally -/
  key_index : ∀ k ∈ g.constraints, k.contype = .primaryKey ∨ k.contype = .unique →
    ∃ d, (g.depends.filter fun d => d.classid = .class_ ∧ d.objid = k.conindid ∧ d.objsubid = 0 ∧
      d.refclassid = .constraint ∧ d.internal = true) = [d] ∧ d.refobjid = k.oid
  /-- a foreign key refers to the columns of the key whose index it uses -/
  fk_columns : ∀ k ∈ g.constraints, k.contype = .foreignKey → ∀ p ∈ g.constraints,
    p.contype = .primaryKey ∨ p.contype = .unique → p.conindid = k.conindid →
    p.conrelid = k.confrelid ∧ k.confkey.Perm p.conkey
  index_oid : (g.indexes.map (·.indexrelid)).Nodup
  index_class : ∀ x ∈ g.indexes, ∃ c ∈ g.classes, c.oid = x.indexrelid ∧ c.relkind = .index ∧
    ∃ am ∈ g.ams, am.oid = c.relam
  /-- an index is in the schema of its table -/
  index_table : ∀ x ∈ g.indexes, ∃ t ∈ g.classes, t.oid = x.indrelid ∧
    ∀ c ∈ g.classes, c.oid = x.indexrelid → c.relnamespace = t.relnamespace
  index_key : ∀ x ∈ g.indexes, x.indkey ≠ [] ∧
    ∀ n ∈ x.indkey, n = 0 ∨ ∃ a ∈ g.attributes, a.attrelid = x.indrelid ∧ a.attnum = n
  index_exprs : ∀ x ∈ g.indexes, x.indexprs.length = x.indkey.countP (· = 0)
  am_oid : (g.ams.map (·.oid)).Nodup
  seq_oid : (g.sequences.map (·.seqrelid)).Nodup
  seq_class : ∀ x ∈ g.sequences, ∃ c ∈ g.classes, c.oid = x.seqrelid ∧ c.relkind = .sequence
  seq_type : ∀ x ∈ g.sequences, ∃ t ∈ g.types, t.oid = x.seqtypid
  lang_oid : (g.langs.map (·.oid)).Nodup
  proc_ns : ∀ p ∈ g.procs, ∃ ns ∈ g.namespaces, ns.oid = p.pronamespace
  proc_lang : ∀ p ∈ g.procs, ∃ l ∈ g.langs, l.oid = p.prolang

/-- `array_agg` gets the rows it has to aggregate, in some order. -/
structure Lawful (o : Aggs) : Prop where
  key : ∀ i xs, (o.key i xs).Perm xs
  target : ∀ i xs, (o.target i xs).Perm xs
  index : ∀ i xs, (o.index i xs).Perm xs

/-- The types the query for columns knows the modifiers of. -/
def modifiable : List String :=
  ["bpchar", "varchar", "time", "timestamp", "timestamptz", "interval", "timetz", "bit", "varbit", "numeric"]

/-- The relation is in one of the schemas. -/
def System.In (S : List String) (c : Class) : Prop :=
  ∃ ns ∈ g.namespaces, ns.oid = c.relnamespace ∧ ns.nspname ∈ S

/-- The databases whose schemas `S` the queries read right. -/
structure Readable (S : List String) (o : Aggs) : Prop where
  /-- the schemas are not those of the temporary tables of somebody else -/
  temp : ∀ ns ∈ g.namespaces, ns.nspname ∈ S → ns.otherTemp = false
  /-- the user owns what is in them -/
  owned : ∀ c ∈ g.classes, g.In S c → c.owned = true
  /-- there are no views and no partitioned tables -/
  kinds : ∀ c ∈ g.classes, g.In S c → c.relkind ≠ .view ∧ c.relkind ≠ .partitioned
  /-- checks are on tables (not on foreign tables) -/
  checks : ∀ k ∈ g.constraints, k.contype = .check → ∀ c ∈ g.classes, c.oid = k.conrelid → g.In S c →
    c.relkind = .table
  /-- columns are not generated; their types are no fixed-length types with elements, and if they have
  modifiers they are among the types known -/
  columns : ∀ a ∈ g.attributes, a.attisdropped = false → ∀ c ∈ g.classes, c.oid = a.attrelid →
    g.In S c → c.relkind = .table → a.generated = false ∧
    ∀ t ∈ g.types, t.oid = a.atttypid → (t.typelem ≠ 0 → t.typlen = -1) ∧
      (a.atttypmod ≠ -1 → ∃ b ∈ modifiable, (t.typelem = 0 ∧ t.typname = b) ∨
        ∃ e ∈ g.types, e.oid = t.typelem ∧ e.typname = b ∧ t.typname = "_" ++ b)
  /-- keys are of one column, or their columns are aggregated in the order of the key -/
  keys : ∀ k ∈ g.constraints, ∀ c ∈ g.classes, c.oid = k.conrelid → g.In S c →
    k.conkey.length = 1 ∨ ∀ xs, o.key k.oid xs = xs
  /-- foreign keys on tables in the schemas and to them refer to keys (not to unique indexes) -/
  fk_key : ∀ k ∈ g.constraints, k.contype = .foreignKey → ∀ c ∈ g.classes,
    c.oid = k.conrelid ∨ c.oid = k.confrelid → g.In S c →
    ∃ p ∈ g.constraints, (p.contype = .primaryKey ∨ p.contype = .unique) ∧ p.conindid = k.conindid
  /-- foreign keys are not of the usual sort of match; they refer to one column, or the columns are
  aggregated as stored and stored in the order in which the foreign key refers to them -/
  fk : ∀ k ∈ g.constraints, k.contype = .foreignKey → ∀ c ∈ g.classes, c.oid = k.conrelid → g.In S c →
    k.confmatchtype ≠ .simple ∧ (k.confkey.length = 1 ∨ (∀ xs, o.target k.oid xs = xs) ∧
      (g.attributes.filter fun a => a.attrelid = k.confrelid ∧ a.attnum ∈ k.confkey).map (·.attnum) =
        k.confkey)
  /-- indexes that are not part of a constraint have no further columns besides their keys, and are of
  columns, aggregated in order, or of one expression -/
  indexes : ∀ x ∈ g.indexes, ∀ c ∈ g.classes, c.oid = x.indexrelid → g.In S c → ¬ g.OwnedIndex c.oid →
    x.indnkeyatts = x.indkey.length ∧ (x.indkey = [0] ∨ 0 ∉ x.indkey ∧
      (x.indkey.length = 1 ∨ ∀ xs, o.index x.indexrelid xs = xs))
  /-- nothing else that depends on a column has the oid of a sequence, and a sequence has one owner -/
  owners : ∀ x ∈ g.sequences, ∀ c ∈ g.classes, c.oid = x.seqrelid → g.In S c →
    (g.depends.filter fun d => d.objid = x.seqrelid ∧ d.refobjsubid ≠ 0).length ≤ 1 ∧
    ∀ d ∈ g.depends, d.objid = x.seqrelid → d.refobjsubid ≠ 0 →
      d.classid = .class_ ∧ d.refclassid = .class_
  /-- functions have no parameters and different names, and there are no procedures and aggregates -/
  functions : ∀ p ∈ g.procs, (∃ ns ∈ g.namespaces, ns.oid = p.pronamespace ∧ ns.nspname ∈ S) →
    p.function = true ∧ p.pronargs = 0
  function_names : (g.procs.filter fun p => g.namespaces.any fun ns => ns.oid = p.pronamespace ∧
    ns.nspname ∈ S).Pairwise fun p q => (p.pronamespace, p.proname) ≠ (q.pronamespace, q.proname)

end Sys
end Podo
