import Verif.Model.Introspect
/-
Model of the catalogue queries /repo/src/introspection/*.sql: from PostgreSQL's system tables to the rows
that introspection reads (`Introspect.Catalog`).

Of the system tables, the columns are kept that the queries use, and those that say what a row means to
PostgreSQL (the specification needs them).  The one-letter codes are enumerations.  Where a query calls a
function of the server, its value is kept with the row the query calls it on: privileges of the connected
user, `pg_is_other_temp_schema`, `pg_get_expr`, `pg_get_constraintdef`, `pg_get_viewdef`, `format_type`.

SQL says nothing about the order of the rows of a query without `ORDER BY`, and none of these queries has
one: `Gives` leaves the order open.  Nor does it about the order in which `array_agg` gets its rows: `Aggs`.
-/
namespace Podo
namespace Sys
open Introspect

/-- `pg_namespace`; `otherTemp` is `pg_is_other_temp_schema`. -/
structure Namespace where
  oid : Nat
  nspname : String
  otherTemp : Bool := false
deriving DecidableEq, Repr

/-- `pg_class.relkind`. -/
inductive RelKind where
  | table
  | partitioned
  | index
  | sequence
  | view
  | other
deriving DecidableEq, Repr

/-- `pg_class`; `owned`: the user has the privileges of the owner; `readable`, `writable`: the user has
one of the privileges table.sql:14-15, and one of those primarykey.sql:27-28 asks for; `viewdef`:
`pg_get_viewdef`, trimmed and without the semicolon. -/
structure Class where
  oid : Nat
  relname : String
  relnamespace : Nat
  relkind : RelKind
  relam : Nat := 0
  reloftype : Nat := 0
  owned : Bool := true
  readable : Bool := true
  writable : Bool := true
  viewdef : String := ""
deriving DecidableEq, Repr

/-- `pg_type`; `typdomain`: `typtype = 'd'`. -/
structure Typ where
  oid : Nat
  typname : String
  typnamespace : Nat
  typlen : Int := -1
  typelem : Nat := 0
  typdomain : Bool := false
  typnotnull : Bool := false
deriving DecidableEq, Repr

/-- `pg_attribute`; `generated`: `attgenerated <> ''`. -/
structure Attribute where
  attrelid : Nat
  attnum : Int
  attname : String
  atttypid : Nat
  atttypmod : Int := -1
  attnotnull : Bool := false
  attisdropped : Bool := false
  generated : Bool := false
deriving DecidableEq, Repr

/-- `pg_attrdef`, with `pg_get_expr` of the expression. -/
structure Attrdef where
  adrelid : Nat
  adnum : Int
  expr : String
deriving DecidableEq, Repr

/-- `pg_constraint.contype`. -/
inductive ConType where
  | primaryKey
  | unique
  | foreignKey
  | check
  | other
deriving DecidableEq, Repr

/-- `pg_constraint.confmatchtype`. -/
inductive MatchType where
  | full
  | partial_
  | simple
deriving DecidableEq, Repr

/-- `pg_constraint.confupdtype` and `confdeltype`. -/
inductive Action where
  | cascade
  | setNull
  | setDefault
  | restrict
  | noAction
deriving DecidableEq, Repr

/-- `pg_constraint`, with `pg_get_constraintdef`. -/
structure Con where
  oid : Nat
  conname : String
  connamespace : Nat
  contype : ConType
  conrelid : Nat
  conindid : Nat := 0
  confrelid : Nat := 0
  conkey : List Int := []
  confkey : List Int := []
  condeferrable : Bool := false
  condeferred : Bool := false
  confmatchtype : MatchType := .simple
  confupdtype : Action := .noAction
  confdeltype : Action := .noAction
  condef : String := ""
deriving DecidableEq, Repr

/-- `pg_index`; `indexprs`: the text of each expression. -/
structure Idx where
  indexrelid : Nat
  indrelid : Nat
  indisunique : Bool
  indnkeyatts : Nat
  indkey : List Int
  indexprs : List String := []
deriving DecidableEq, Repr

/-- `pg_am`. -/
structure Am where
  oid : Nat
  amname : String
deriving DecidableEq, Repr

/-- `pg_sequence`. -/
structure Seq where
  seqrelid : Nat
  seqtypid : Nat
  seqstart : Int
  seqincrement : Int
  seqmax : Int
  seqmin : Int
  seqcache : Int
  seqcycle : Bool
deriving DecidableEq, Repr

/-- The system table a `pg_depend` row is about: `classid`, `refclassid`. -/
inductive Kind where
  | class_
  | constraint
  | other
deriving DecidableEq, Repr

/-- `pg_depend`; `internal`: `deptype = 'i'`. -/
structure Depend where
  classid : Kind
  objid : Nat
  objsubid : Int := 0
  refclassid : Kind
  refobjid : Nat
  refobjsubid : Int := 0
  internal : Bool := false
deriving DecidableEq, Repr

/-- `pg_proc.provolatile`. -/
inductive Volatility where
  | immutable
  | stable
  | volatile
deriving DecidableEq, Repr

/-- `pg_proc`; `prorettype`: `format_type` of the type; `function`: `prokind = 'f'`. -/
structure Proc where
  proname : String
  pronamespace : Nat
  prosrc : String
  prolang : Nat
  prorettype : String
  proretset : Bool := false
  provolatile : Volatility := .volatile
  pronargs : Nat := 0
  function : Bool := true
deriving DecidableEq, Repr

/-- `pg_language`. -/
structure Lang where
  oid : Nat
  lanname : String
deriving DecidableEq, Repr

/-- The system tables.  `typmodout b m` is what the server's function for modifiers of the type `b`
(`varchartypmodout`, for instance) makes of `m`. -/
structure System where
  namespaces : List Namespace
  classes : List Class
  types : List Typ
  attributes : List Attribute
  attrdefs : List Attrdef
  constraints : List Con
  indexes : List Idx
  ams : List Am
  sequences : List Seq
  depends : List Depend
  procs : List Proc
  langs : List Lang
  typmodout : String → Int → String

/-- The order in which `array_agg` gets its rows, for each row the query gives (by oid): the columns of a
key, the columns a foreign key refers to, the columns of an index. -/
structure Aggs where
  key : Nat → List String → List String
  target : Nat → List String → List String
  index : Nat → List String → List String

/-- `LEFT JOIN`: the rows that match, or one without values. -/
def leftJoin {α : Type} : List α → List (Option α)
  | [] => [none]
  | xs => xs.map some

/-- `array_agg`: NULL for no rows. -/
def arrayAgg (order : List String → List String) : List String → Option (List String)
  | [] => none
  | xs => some (order xs)

variable (g : System) (S : List String)

/-- `UNNEST(keys) ck(attnum) JOIN pg_attribute pa ON pa.attrelid = rel AND pa.attnum = ck.attnum`, the
names: /repo/src/introspection/primarykey.sql:7-9, unique.sql:7-9, foreignkey.sql:6-8, index.sql:15-19. -/
def keyNames (rel : Nat) (keys : List Int) : List String :=
  keys.flatMap fun n =>
    (g.attributes.filter fun a => a.attrelid = rel ∧ a.attnum = n).map (·.attname)

/-- /repo/src/introspection/schema.sql:1-5. -/
def schemaRows : List String :=
  (g.namespaces.filter fun n => n.nspname ∈ S).map (·.nspname)

/-- /repo/src/introspection/sequence.sql:35-40: the columns a sequence depends on, as joined there (with
no regard to which system tables the dependency is about). -/
def owners (seq : Nat) : List Attribute :=
  (g.depends.filter fun d => d.objid = seq).flatMap fun d =>
    g.attributes.filter fun a => a.attrelid = d.refobjid ∧ a.attnum = d.refobjsubid

/-- /repo/src/introspection/sequence.sql:1-41.  Simplified: a sequence without a type gives no row, where
the query gives one with NULL (there is none: `seqtypid` refers to `pg_type`). -/
def sequenceRows : List SequenceRow :=
  g.sequences.flatMap fun ps =>
  (g.classes.filter fun pc => ps.seqrelid = pc.oid).flatMap fun pc =>
  (g.namespaces.filter fun pn => pn.oid = pc.relnamespace).flatMap fun pn =>
  (leftJoin (owners g ps.seqrelid)).flatMap fun pa =>
  ((g.types.find? fun pt => pt.oid = ps.seqtypid).toList).flatMap fun pt =>
  if pn.nspname ∈ S then
    [{ schema := pn.nspname, name := pc.relname, dataType := pt.typname,
       increment := ps.seqincrement, minValue := ps.seqmin, maxValue := ps.seqmax,
       start := ps.seqstart, cache := ps.seqcache, cycle := ps.seqcycle,
       ownedByTableName :=
         (pa.bind fun a => g.classes.find? fun c => a.attrelid = c.oid).map (·.relname),
       ownedByColumnName := pa.map (·.attname) }]
  else []

/-- /repo/src/introspection/table.sql:1-17. -/
def tableRows : List TableRow :=
  g.classes.flatMap fun c =>
  (g.namespaces.filter fun nc => nc.oid = c.relnamespace).flatMap fun nc =>
  (leftJoin ((g.types.filter fun t => c.reloftype = t.oid).flatMap fun t =>
    (g.namespaces.filter fun nt => t.typnamespace = nt.oid).map fun _ => t)).flatMap fun _ =>
  if (c.relkind = .table ∨ c.relkind = .partitioned) ∧ ¬ nc.otherTemp ∧ (c.owned ∨ c.readable) ∧
      nc.nspname ∈ S then
    [{ schema := nc.nspname, name := c.relname }]
  else []

/-- The names of types in /repo/src/introspection/column.sql:21-40, with the type whose function is
called. -/
def modified : List (String × String) :=
  [("bpchar", "bpchar"), ("_bpchar", "bpchar"), ("varchar", "varchar"), ("_varchar", "varchar"),
   ("time", "time"), ("_time", "time"), ("timestamp", "timestamp"), ("_timestamp", "timestamp"),
   ("timestamptz", "timestamptz"), ("_timestamptz", "timestamptz"), ("interval", "interval"),
   ("_interval", "interval"), ("timetz", "timetz"), ("_timetz", "timetz"), ("bit", "bit"),
   ("_bit", "bit"), ("varbit", "varbit"), ("_varbit", "varbit"), ("numeric", "numeric"),
   ("_numeric", "numeric")]

/-- /repo/src/introspection/column.sql:14-17. -/
def typeName (t : Typ) : Option String :=
  if t.typelem ≠ 0 then (g.types.find? fun e => e.oid = t.typelem).map (·.typname) else some t.typname

/-- /repo/src/introspection/column.sql:19-44. -/
def typeModifier (a : Attribute) (t : Typ) : Option String :=
  if a.atttypmod ≠ -1 then (AMap.get? modified t.typname).map fun b => g.typmodout b a.atttypmod
  else some ""

/-- /repo/src/introspection/column.sql:14-47: `||` of three texts, NULL if one of them is. -/
def typeText (a : Attribute) (t : Typ) : Option String :=
  match typeName g t, typeModifier g a t with
  | some n, some m => some (n ++ m ++ if t.typelem ≠ 0 then "[]" else "")
  | _, _ => none

/-- /repo/src/introspection/column.sql:10: the default; that of a generated column is its expression and
is left out. -/
def defaultText (a : Attribute) (ad : Option Attrdef) : String :=
  if a.generated then "" else (ad.map (·.expr)).getD ""

/-- /repo/src/introspection/column.sql:1-56. -/
def columnRows : List ColumnRow :=
  g.attributes.flatMap fun a =>
  (leftJoin (g.attrdefs.filter fun ad => a.attrelid = ad.adrelid ∧ a.attnum = ad.adnum)).flatMap fun ad =>
  (g.classes.filter fun c => a.attrelid = c.oid).flatMap fun c =>
  (g.namespaces.filter fun nc => c.relnamespace = nc.oid).flatMap fun nc =>
  (g.types.filter fun t => a.atttypid = t.oid).flatMap fun t =>
  (g.namespaces.filter fun nt => t.typnamespace = nt.oid).flatMap fun _ =>
  if ¬ nc.otherTemp ∧ a.attnum > 0 ∧ ¬ a.attisdropped ∧ c.relkind = .table ∧ nc.nspname ∈ S then
    [{ schema := nc.nspname, table := c.relname, name := a.attname,
       default := defaultText a ad, notNull := a.attnotnull || (t.typdomain && t.typnotnull),
       dataType := typeText g a t }]
  else []

/-- /repo/src/introspection/primarykey.sql:1-30 and unique.sql:1-30, which differ in the type of the
constraint.  Simplified: a key without columns gets an empty list, where the query gives NULL (there is
none). -/
def keyRows (o : Aggs) (ty : ConType) : List KeyRow :=
  g.constraints.flatMap fun c =>
  (g.namespaces.filter fun nc => nc.oid = c.connamespace).flatMap fun nc =>
  (g.classes.filter fun r => c.conrelid = r.oid).flatMap fun r =>
  (g.namespaces.filter fun nr => nr.oid = r.relnamespace).flatMap fun nr =>
  if c.contype = ty ∧ (r.relkind = .table ∨ r.relkind = .partitioned) ∧ ¬ nr.otherTemp ∧
      (r.owned ∨ r.writable) ∧ nc.nspname ∈ S then
    [{ schema := nc.nspname, name := c.conname, tableName := r.relname,
       tableColumns := (arrayAgg (o.key c.oid) (keyNames g c.conrelid c.conkey)).getD [],
       deferrable := c.condeferrable, initiallyDeferred := c.condeferred }]
  else []

/-- /repo/src/introspection/foreignkey.sql:29-34. -/
def matchText : MatchType → String
  | .full => "FULL"
  | .partial_ => "PARTIAL"
  | .simple => "NONE"

/-- /repo/src/introspection/foreignkey.sql:35-50. -/
def actionText : Action → String
  | .cascade => "CASCADE"
  | .setNull => "SET NULL"
  | .setDefault => "SET DEFAULT"
  | .restrict => "RESTRICT"
  | .noAction => "NO ACTION"

/-- /repo/src/introspection/foreignkey.sql:54-55,57: the key constraint behind the index a foreign key
depends on, as joined there. -/
def targetKeys (con : Con) : List (Option Con) :=
  (leftJoin (g.depends.filter fun d1 => d1.objid = con.oid ∧ d1.classid = .constraint ∧
    d1.refclassid = .class_ ∧ d1.refobjsubid = 0)).flatMap fun d1 =>
  (leftJoin (g.depends.filter fun d2 => d2.refclassid = .constraint ∧ d2.classid = .class_ ∧
    some d2.objid = d1.map (·.refobjid) ∧ d2.objsubid = 0 ∧ d2.internal)).flatMap fun d2 =>
  leftJoin (g.constraints.filter fun pkc => some pkc.oid = d2.map (·.refobjid) ∧
    (pkc.contype = .primaryKey ∨ pkc.contype = .unique) ∧ pkc.conrelid = con.confrelid)

/-- /repo/src/introspection/foreignkey.sql:13-26: the columns of the table referred to that are in the
key behind the index, in no order that has to do with the foreign key. -/
def targetNames (fc : Class) (pkc : Con) : List String :=
  (g.attributes.filter fun pa => fc.oid = pa.attrelid ∧ fc.oid = pkc.conrelid ∧
    pa.attnum ∈ pkc.conkey ∧ ¬ pa.attisdropped).map (·.attname)

/-- /repo/src/introspection/foreignkey.sql:1-60.  Simplified as `keyRows`; a foreign key whose target
table is not in `pg_class` gives no row (there is none). -/
def foreignKeyRows (o : Aggs) : List ForeignKeyRow :=
  g.constraints.flatMap fun con =>
  (g.namespaces.filter fun ncon => ncon.oid = con.connamespace).flatMap fun ncon =>
  (g.classes.filter fun c => con.conrelid = c.oid).flatMap fun c =>
  (g.classes.filter fun fc => con.confrelid = fc.oid).flatMap fun fc =>
  (targetKeys g con).flatMap fun pkc =>
  (leftJoin (g.namespaces.filter fun npkc => pkc.map (·.connamespace) = some npkc.oid)).flatMap fun npkc =>
  if con.contype = .foreignKey ∧ (c.owned ∨ c.writable) ∧ ncon.nspname ∈ S then
    [{ constraintName := con.conname, constraintSchema := ncon.nspname,
       constraintTableName := c.relname,
       columns := (arrayAgg (o.key con.oid) (keyNames g con.conrelid con.conkey)).getD [],
       targetTableName := fc.relname, targetTableSchema := npkc.map (·.nspname),
       targetTableColumns := pkc.bind fun k => arrayAgg (o.target con.oid) (targetNames g fc k),
       deferrable := con.condeferrable, initiallyDeferred := con.condeferred,
       matchOption := matchText con.confmatchtype, updateRule := actionText con.confupdtype,
       deleteRule := actionText con.confdeltype }]
  else []

/-- /repo/src/introspection/function.sql:10-14. -/
def volatilityText : Volatility → String
  | .immutable => "IMMUTABLE"
  | .stable => "STABLE"
  | .volatile => "VOLATILE"

/-- /repo/src/introspection/function.sql:1-19. -/
def functionRows : List FunctionRow :=
  g.procs.flatMap fun p =>
  (g.namespaces.filter fun n => p.pronamespace = n.oid).flatMap fun n =>
  (g.langs.filter fun l => p.prolang = l.oid).flatMap fun l =>
  if n.nspname ∈ S then
    [{ schema := n.nspname, name := p.proname, body := p.prosrc, language := l.lanname,
       returns := if p.proretset then "setof " ++ p.prorettype else p.prorettype,
       volatility := volatilityText p.provolatile }]
  else []

/-- `SUBSTRING(text, 7)`: /repo/src/introspection/check.sql:8. -/
def afterCheck (s : String) : String := String.ofList (s.toList.drop 6)

/-- /repo/src/introspection/check.sql:1-20.  Simplified: constraints of domains, which line 19 leaves out,
are not here, and a constraint whose schema or table does not exist gives no row. -/
def checkRows : List CheckRow :=
  g.constraints.flatMap fun con =>
  (g.namespaces.filter fun rs => rs.oid = con.connamespace).flatMap fun rs =>
  (g.classes.filter fun c => c.oid = con.conrelid).flatMap fun c =>
  if c.owned ∧ con.contype = .check ∧ con.conrelid ≠ 0 ∧ rs.nspname ∈ S then
    [{ schema := rs.nspname, table := c.relname, name := con.conname,
       checkClause := afterCheck con.condef, isDeferrable := con.condeferrable,
       initiallyDeferred := con.condeferred }]
  else []

/-- `pg_get_expr(pi.indexprs, pi.indrelid)`: the expressions with commas between them; NULL if there are
none (/repo/src/introspection/index.sql:25). -/
def exprsText : List String → Option String
  | [] => none
  | es => some (", ".intercalate es)

/-- /repo/src/introspection/index.sql:1-34. -/
def indexRows (o : Aggs) : List IndexRow :=
  g.indexes.flatMap fun pi =>
  (g.classes.filter fun pc => pc.oid = pi.indexrelid).flatMap fun pcIndex =>
  (g.namespaces.filter fun pn => pcIndex.relnamespace = pn.oid).flatMap fun pn =>
  (g.classes.filter fun pc => pc.oid = pi.indrelid).flatMap fun pcTable =>
  (g.ams.filter fun am => am.oid = pcIndex.relam).flatMap fun am =>
  (leftJoin (g.constraints.filter fun pc => pc.conindid = pcIndex.oid)).flatMap fun pc =>
  if pc = none ∧ pn.nspname ∈ S then
    [{ schemaName := pn.nspname, indexName := pcIndex.relname, tableName := pcTable.relname,
       unique := pi.indisunique, method := am.amname,
       keyColumns := arrayAgg (o.index pi.indexrelid) (keyNames g pi.indrelid pi.indkey),
       expressions := exprsText pi.indexprs }]
  else []

/-- /repo/src/introspection/view.sql:1-46, the columns a snapshot could use.  Simplified: the definition
is there whoever asks. -/
def viewRows : List ViewRow :=
  g.classes.flatMap fun c =>
  (g.namespaces.filter fun nc => c.relnamespace = nc.oid).flatMap fun nc =>
  if c.relkind = .view ∧ ¬ nc.otherTemp ∧ (c.owned ∨ c.readable) ∧ nc.nspname ∈ S then
    [{ schema := nc.nspname, name := c.relname, viewDefinition := c.viewdef }]
  else []

/-- What the queries give for the schemas `S`: `c` is a possible outcome of
/repo/src/introspection/mod.rs:23-36 reading the system tables `g`. -/
structure Gives (o : Aggs) (c : Catalog) : Prop where
  schemas : c.schemas.Perm (schemaRows g S)
  sequences : c.sequences.Perm (sequenceRows g S)
  tables : c.tables.Perm (tableRows g S)
  columns : c.columns.Perm (columnRows g S)
  primaryKeys : c.primaryKeys.Perm (keyRows g S o .primaryKey)
  foreignKeys : c.foreignKeys.Perm (foreignKeyRows g S o)
  functions : c.functions.Perm (functionRows g S)
  uniques : c.uniques.Perm (keyRows g S o .unique)
  checks : c.checks.Perm (checkRows g S)
  indexes : c.indexes.Perm (indexRows g S o)
  views : c.views.Perm (viewRows g S)

end Sys
end Podo
