import Verif.Spec.Reads
import Verif.Spec.Load
/-
What a definition file says: for each sort of object, when a node of the file states that object.  What
is omitted takes PostgreSQL's default.  A reader who knows the file format can check this without
knowing how the files are parsed.
-/
namespace Podo
namespace Def

open Text

/-- A column text: a type without `=` and `!`; an exclamation mark when the column is not null; and, when
there is a default, an equals sign and the default, of one line, with any blanks around. -/
def ColumnText (text type : String) (notNull : Bool) (default : Option String) : Prop :=
  ∃ ty rest : List Char, text.toList = ty ++ (if notNull then ['!'] else []) ++ rest ∧
    (∀ c ∈ ty, c ≠ '=' ∧ c ≠ '!') ∧ ty ≠ [] ∧ Around ty type.toList ∧
    match default with
    | none => rest = []
    | some d => ∃ blanks body, rest = blanks ++ '=' :: body ∧ (∀ c ∈ blanks, Blank c) ∧
        body ≠ [] ∧ Around body d.toList ∧ '\n' ∉ d.toList

/-- `column <name>: <text>`. -/
structure ColumnStated (schema table : String) (n : Node) (c : Column) : Prop where
  kind : n.kind = "column"
  name : n.name = some c.name
  inSchema : c.schemaName = schema
  ofTable : c.tableName = table
  text : ∃ text, textOf n = some text ∧ ColumnText text c.dataType c.notNull c.default

/-- The two flags of a constraint, each no when it is omitted. -/
def FlagsStated (n : Node) (deferrable initiallyDeferred : Bool) : Prop :=
  deferrable = (stated n "deferrable" flagOf).getD false ∧
    initiallyDeferred = (stated n "initially deferred" flagOf).getD false

/-- `constraint <name>:` with the sort of constraint first and then its attributes.  A foreign key that
does not say otherwise matches `SIMPLE` and takes `NO ACTION`.  A unique constraint is on some column,
and a foreign key refers to some column. -/
structure ConstraintStated (schema table : String) (n : Node) (c : Constraint) : Prop where
  kind : n.kind = "constraint"
  name : n.name = some c.name
  inSchema : c.schemaName = schema
  ofTable : c.tableName = table
  body : ∃ first rest, inner n = some (first :: rest) ∧
    match c with
    | .primaryKey k => first.kind = "primary key" ∧
        stated n "primary key" textsOf = some k.columns ∧
        FlagsStated n k.deferrable k.initiallyDeferred
    | .unique k => first.kind = "unique" ∧ stated n "unique" textsOf = some k.columns ∧
        k.columns ≠ [] ∧ FlagsStated n k.deferrable k.initiallyDeferred
    | .check k => first.kind = "check" ∧ stated n "check" textOf = some k.expression ∧
        FlagsStated n k.deferrable k.initiallyDeferred
    | .foreignKey k => first.kind = "foreign key" ∧
        stated n "foreign key" textsOf = some k.columns ∧
        (∃ name, stated n "references" (named textsOf) = some (name, k.targetColumns) ∧
          RefersTo schema name k.targetSchema k.targetTable) ∧ k.targetColumns ≠ [] ∧
        k.matchOption = (stated n "match" textOf).getD "SIMPLE" ∧
        k.updateRule = (stated n "on update" textOf).getD "NO ACTION" ∧
        k.deleteRule = (stated n "on delete" textOf).getD "NO ACTION" ∧
        FlagsStated n k.deferrable k.initiallyDeferred

/-- `table <name>:` with columns, in their order, and constraints, and nothing else. -/
structure TableStated (schema : String) (n : Node) (t : Table) : Prop where
  kind : n.kind = "table"
  name : n.name = some t.name
  inSchema : t.schemaName = schema
  body : ∃ ms, inner n = some ms
  children : ∀ ms, inner n = some ms → ∀ m ∈ ms, m.kind = "column" ∨ m.kind = "constraint"
  count : (childrenOf n "column").length = t.columns.length
  columns : ∀ (i : Nat) m c, (childrenOf n "column")[i]? = some m → t.columns[i]? = some c →
    ColumnStated schema t.name m c
  every : ∀ m ∈ childrenOf n "constraint", ∃ c,
    t.constraints.get? c.name = some c ∧ ConstraintStated schema t.name m c
  only : ∀ k c, t.constraints.get? k = some c → c.name = k ∧
    ∃ m ∈ childrenOf n "constraint", ConstraintStated schema t.name m c

/-- `view <name>:` with a query. -/
structure ViewStated (schema : String) (n : Node) (v : View) : Prop where
  kind : n.kind = "view"
  name : n.name = some v.name
  inSchema : v.schemaName = schema
  query : stated n "as" textOf = some v.query

/-- `index <name>:` on the columns of a table; not unique and of method `btree` unless said. -/
structure IndexStated (schema : String) (n : Node) (i : Index) : Prop where
  kind : n.kind = "index"
  name : n.name = some i.name
  inSchema : i.schemaName = schema
  on : stated n "on" (named textsOf) = some (i.tableName, i.keyExpressions)
  unique : i.unique = (stated n "unique" flagOf).getD false
  method : i.method = (stated n "using" textOf).getD "btree"

/-- `sequence <name>:`; a sequence of `int8` that counts up by one from one, and so on, unless said. -/
structure SequenceStated (schema : String) (n : Node) (s : Sequence) : Prop where
  kind : n.kind = "sequence"
  name : n.name = some s.name
  inSchema : s.schemaName = schema
  type : s.dataType = (stated n "as" textOf).getD "int8"
  increment : s.increment = (stated n "increment" integerOf).getD 1
  min : match stated n "minvalue" integerOf with
    | some v => s.minValue = v
    | none => if s.increment < 0 then ∃ max, typeRange s.dataType = some (s.minValue, max)
        else s.minValue = 1
  max : match stated n "maxvalue" integerOf with
    | some v => s.maxValue = v
    | none => if s.increment < 0 then s.maxValue = -1
        else ∃ min, typeRange s.dataType = some (min, s.maxValue)
  start : s.start = (stated n "start" integerOf).getD (if s.increment < 0 then s.maxValue else s.minValue)
  cache : s.cache = (stated n "cache" integerOf).getD 1
  cycle : s.cycle = (stated n "cycle" flagOf).getD false
  owner : (s.ownedByTable = none ∧ s.ownedByColumn = none ∧
      stated n "owned by" (named textOf) = none) ∨
    ∃ t c, s.ownedByTable = some t ∧ s.ownedByColumn = some c ∧
      stated n "owned by" (named textOf) = some (t, c)

/-- `function <name>:` with a body; a volatile SQL function that returns nothing unless said. -/
structure FunctionStated (schema : String) (n : Node) (f : Function) : Prop where
  kind : n.kind = "function"
  name : n.name = some f.name
  inSchema : f.schemaName = schema
  body : stated n "as" textOf = some f.body
  language : f.language = (stated n "language" textOf).getD "SQL"
  returns : f.returns = (stated n "returns" textOf).getD "void"
  volatility : f.volatility = (stated n "volatility" textOf).getD "VOLATILE"

/-- Any of the four sorts of relation. -/
def RelationStated (schema : String) (n : Node) : Relation → Prop
  | .table t => TableStated schema n t
  | .view v => ViewStated schema n v
  | .index i => IndexStated schema n i
  | .sequence s => SequenceStated schema n s

/-- Somewhere in a file, under a `schema <name>:`, there is a node. -/
def InSchema (ns : List Node) (schema : String) (m : Node) : Prop :=
  ∃ n ∈ ns, n.kind = "schema" ∧ n.name = some schema ∧ ∃ ms, inner n = some ms ∧ m ∈ ms

/-- A file states a database: its schemas, and under each schema its relations and functions, are stated
by the nodes of the file, and every node of the file states one. -/
structure FileStates (ns : List Node) (d : Database) : Prop where
  kind : ∀ n ∈ ns, n.kind = "schema"
  schemas : ∀ s, s ∈ d.schemas.keys ↔ ∃ n ∈ ns, n.name = some s
  relation : ∀ s k r, d.relationAt s k = some r →
    r.name = k ∧ ∃ m, InSchema ns s m ∧ RelationStated s m r
  function : ∀ s k f, d.functionAt s k = some f →
    f.name = k ∧ ∃ m, InSchema ns s m ∧ FunctionStated s m f
  every : ∀ s m, InSchema ns s m →
    (∃ r, d.relationAt s r.name = some r ∧ RelationStated s m r) ∨
    (∃ f, d.functionAt s f.name = some f ∧ FunctionStated s m f)

end Def
end Podo
