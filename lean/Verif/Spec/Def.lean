import Verif.Model.Ddl
/-
Vocabulary for the properties of definition files.
-/
namespace Podo
namespace Def
open Text

/-- White space, as Unicode defines it. -/
def Blank (c : Char) : Prop :=
  (9 ≤ c.toNat ∧ c.toNat ≤ 13) ∨ c.toNat = 32 ∨ c.toNat = 0x85 ∨ c.toNat = 0xA0 ∨ c.toNat = 0x1680 ∨
  (0x2000 ≤ c.toNat ∧ c.toNat ≤ 0x200A) ∨ c.toNat = 0x2028 ∨ c.toNat = 0x2029 ∨ c.toNat = 0x202F ∨
  c.toNat = 0x205F ∨ c.toNat = 0x3000

/-- No white space at either end. -/
def Trimmed (s : String) : Prop :=
  (∀ c, s.toList.head? = some c → ¬ Blank c) ∧ (∀ c, s.toList.getLast? = some c → ¬ Blank c)

/-- The words a key of a definition file can begin with. -/
def keyWords : List String :=
  ["schema", "table", "column", "constraint", "primary key", "unique", "foreign key", "references",
   "match", "on update", "on delete", "check", "deferrable", "initially deferred", "not null", "default",
   "type", "view", "as", "index", "on", "method", "sequence", "minvalue", "maxvalue", "start", "cache",
   "cycle", "owned by", "function", "language", "returns", "volatility"]

/-- A character is a given letter (or blank), in upper or lower case. -/
def SameLetter (c letter : Char) : Prop :=
  c = letter ∨ ('A'.toNat ≤ c.toNat ∧ c.toNat ≤ 'Z'.toNat ∧ c.toNat + 32 = letter.toNat)

/-- The text is the letters, in upper or lower case. -/
def SameLetters : List Char → List Char → Prop
  | [], [] => True
  | c :: cs, l :: ls => SameLetter c l ∧ SameLetters cs ls
  | _, _ => False

/-- The smallest and the largest integer of 64 bits. -/
def least : Int := -(2 ^ 63)
def greatest : Int := 2 ^ 63 - 1

/-- What a node holds inside: its nodes, or none when nothing stands under its key. -/
def inner : Node → Option (List Node)
  | .branch _ _ ns => some ns
  | .leaf _ _ none => some []
  | .leaf _ _ (some _) => none

/-- The text that stands under a key. -/
def textOf : Node → Option String
  | .leaf _ _ (some (.string s)) => some s
  | _ => none

/-- The flag that stands under a key. -/
def flagOf : Node → Option Bool
  | .leaf _ _ (some (.boolean b)) => some b
  | _ => none

/-- The integer that stands under a key. -/
def integerOf : Node → Option Int
  | .leaf _ _ (some (.number (.integer i))) => some i
  | _ => none

/-- A list of values that are all texts. -/
def allTexts (vs : List Value) : Option (List String) :=
  vs.mapM fun v => match v with
    | .string s => some s
    | _ => none

/-- The texts that stand under a key: one text, or a list of texts. -/
def textsOf : Node → Option (List String)
  | .leaf _ _ (some (.string s)) => some [s]
  | .leaf _ _ (some (.list vs)) => allTexts vs
  | _ => none

/-- The columns whose written expression can be read back: the type has no `=` or `!` in it and no
blanks around it, it is not empty unless there is a default and no `!`; the default has no blanks
around it and fits on a line. -/
structure ExprOk (type : String) (notNull : Bool) (default : Option String) : Prop where
  no_eq : '=' ∉ type.toList
  no_bang : '!' ∉ type.toList
  trimmed : Trimmed type
  nonempty : type ≠ "" ∨ (notNull = false ∧ default ≠ none)
  default : ∀ d, default = some d → Trimmed d ∧ '\n' ∉ d.toList

/-- The table references that can be read back in the schema `ctx`. -/
def RefOk (ctx schema table : String) : Prop :=
  '.' ∉ table.toList ∧ (schema ≠ ctx → '.' ∉ schema.toList)

/-- A text begins with a word, in upper or lower case. -/
def StartsWith (word s : String) : Prop :=
  ∃ front rest, s.toList = front ++ rest ∧ SameLetters front word.toList

/-- The keys that can be read back. -/
structure KeyOk (kind : String) (name : Option String) : Prop where
  keyword : kind ∈ keyWords
  name : ∀ n, name = some n → n ≠ "" ∧ Trimmed n ∧
    (kind = "on" → ¬ StartsWith "delete" n ∧ ¬ StartsWith "update" n)

/-- The columns whose definition can be read back. -/
def ColumnOk (c : Column) : Prop := ExprOk c.dataType c.notNull c.default

/-- The constraints whose definition can be read back: a unique constraint has a column; a foreign
key has a target column and a target whose name can be read back in the schema of the table. -/
def ConstraintOk : Constraint → Prop
  | .primaryKey _ => True
  | .unique u => u.columns ≠ []
  | .foreignKey k => k.targetColumns ≠ [] ∧ RefOk k.schemaName k.targetSchema k.targetTable
  | .check _ => True

/-- The sequences whose definition can be read back: one of three types, and an owner that is a
column of a table or nothing. -/
structure SequenceOk (s : Sequence) : Prop where
  type : s.dataType = "int2" ∨ s.dataType = "int4" ∨ s.dataType = "int8"
  owner : s.ownedByTable = none ↔ s.ownedByColumn = none

/-- The relations whose definition can be read back. -/
def RelationOk : Relation → Prop
  | .table t => (∀ c ∈ t.columns, ColumnOk c) ∧ ∀ p ∈ t.constraints, ConstraintOk p.2
  | .view v => v.query ≠ ""
  | .index _ => True
  | .sequence s => SequenceOk s

mutual
/-- The values that can be read back: every integer fits in 64 bits. -/
def ValueOk : Value → Prop
  | .number (.integer i) => least ≤ i ∧ i ≤ greatest
  | .list vs => ValuesOk vs
  | _ => True
/-- Each of a list of values can be read back. -/
def ValuesOk : List Value → Prop
  | [] => True
  | v :: vs => ValueOk v ∧ ValuesOk vs
end

mutual
/-- The nodes that can be read back: key, value and children can, and the children differ in kind or
name. -/
def NodeOk : Node → Prop
  | .leaf k n none => KeyOk k n
  | .leaf k n (some v) => KeyOk k n ∧ ValueOk v
  | .branch k n ns =>
    KeyOk k n ∧ NodesOk ns ∧ (ns.map fun m => (m.kind, m.name)).Nodup
/-- Each of a list of nodes can be read back. -/
def NodesOk : List Node → Prop
  | [] => True
  | n :: ns => NodeOk n ∧ NodesOk ns
end

/-- The lists of nodes that can be written to one mapping and read back. -/
def TreeOk (ns : List Node) : Prop := NodesOk ns ∧ (ns.map fun m => (m.kind, m.name)).Nodup

/-- A name that survives as the end of a mapping key. -/
def NameOk (s : String) : Prop := s ≠ "" ∧ Trimmed s

/-- An integer of 64 bits. -/
def Int64 (i : Int) : Prop := least ≤ i ∧ i ≤ greatest

/-- The integers of a sequence are of 64 bits (in the code they are `i64`). -/
structure SequenceInt64 (s : Sequence) : Prop where
  increment : Int64 s.increment
  minValue : Int64 s.minValue
  maxValue : Int64 s.maxValue
  start : Int64 s.start
  cache : Int64 s.cache

/-- The names in the definition of a constraint can be read back from a file: its own, and the
reference to the target table of a foreign key. -/
def ConstraintNamesOk : Constraint → Prop
  | .foreignKey k => NameOk k.name ∧
      NameOk (if k.targetSchema = k.schemaName then k.targetTable
        else k.targetSchema ++ "." ++ k.targetTable)
  | c => NameOk c.name

/-- The names and attributes in the definition of a relation can be read back from a file.  There is
no way to write the method of an index other than `btree`, an increment of a sequence other than 1, or
an index on a table whose name begins with "delete" or "update". -/
def RelationFileOk : Relation → Prop
  | .table t => NameOk t.name ∧ (∀ c ∈ t.columns, NameOk c.name) ∧
      ∀ p ∈ t.constraints, ConstraintNamesOk p.2
  | .view v => NameOk v.name
  | .index i => NameOk i.name ∧ NameOk i.tableName ∧ i.method = "btree" ∧
      ¬ StartsWith "delete" i.tableName ∧ ¬ StartsWith "update" i.tableName
  | .sequence s => NameOk s.name ∧ s.increment = 1 ∧ ∀ t, s.ownedByTable = some t → NameOk t

/-- The snapshots that can be written to a definition file and read back. -/
def SnapshotOk (d : Database) : Prop :=
  ∀ p ∈ d.schemas, NameOk p.2.name ∧
    (∀ q ∈ p.2.relations, RelationOk q.2 ∧ RelationFileOk q.2) ∧
    ∀ q ∈ p.2.functions, NameOk q.2.name

/-- The sequences that can be written to a definition file, whether or not they can be read back. -/
structure SequenceWritable (s : Sequence) : Prop where
  type : s.dataType = "int2" ∨ s.dataType = "int4" ∨ s.dataType = "int8"
  owner : s.ownedByColumn = none → s.ownedByTable = none

/-- The snapshots that can be written to a definition file, whether or not they can be read back. -/
def SnapshotWritable (d : Database) : Prop :=
  ∀ p ∈ d.schemas, ∀ q ∈ p.2.relations, ∀ s, q.2 = .sequence s → SequenceWritable s

/-- The integers of all sequences of a snapshot are of 64 bits. -/
def SnapshotInt64 (d : Database) : Prop :=
  ∀ p ∈ d.schemas, ∀ q ∈ p.2.relations, ∀ s, q.2 = .sequence s → SequenceInt64 s

/-- The attributes each kind of definition has, other than constraints.  A kind that is not listed is
an attribute, which has a value and no attributes of its own. -/
def attributesOf (kind : String) : List String :=
  if kind = "schema" then ["table", "view", "sequence", "index", "function"]
  else if kind = "table" then ["column", "constraint"]
  else if kind = "view" then ["as"]
  else if kind = "index" then ["unique", "on", "using"]
  else if kind = "function" then ["as", "language", "returns", "volatility"]
  else if kind = "sequence" then
    ["as", "increment", "minvalue", "maxvalue", "start", "cache", "cycle", "owned by"]
  else []

/-- The attributes of a constraint, by its first attribute, which says what constraint it is. -/
def constraintAttributesOf (first : String) : List String :=
  if first = "primary key" then ["primary key", "deferrable", "initially deferred"]
  else if first = "unique" then ["unique", "deferrable", "initially deferred"]
  else if first = "check" then ["check", "deferrable", "initially deferred"]
  else if first = "foreign key" then
    ["foreign key", "references", "deferrable", "initially deferred", "match", "on update",
     "on delete"]
  else []

/-- Somewhere in a definition there is an attribute its kind does not have.  Definitions of the kinds
`skip` are not looked at. -/
inductive HasUnknown (skip : List String) : Node → Prop
  | here {kind name nodes m} : kind ∉ skip → kind ≠ "constraint" → m ∈ nodes →
      m.kind ∉ attributesOf kind → HasUnknown skip (.branch kind name nodes)
  | constraint {name first nodes m} : "constraint" ∉ skip → m ∈ first :: nodes →
      m.kind ∉ constraintAttributesOf first.kind →
      HasUnknown skip (.branch "constraint" name (first :: nodes))
  | inside {kind name nodes m} : kind ∉ skip → m ∈ nodes → HasUnknown skip m →
      HasUnknown skip (.branch kind name nodes)

/-- The children of a node of one kind. -/
def childrenOf (n : Node) (kind : String) : List Node :=
  match inner n with
  | some ns => ns.filter fun m => m.kind = kind
  | none => []

/-- A constraint that says first what constraint it is. -/
def ConstraintOrderly (n : Node) : Prop :=
  ∀ ns, inner n = some ns → ∃ first rest, ns = first :: rest ∧
    first.kind ∈ ["primary key", "unique", "foreign key", "check"]

/-- A table with distinct columns and constraints, each of which says what it is. -/
structure TableOrderly (n : Node) : Prop where
  columns : ((childrenOf n "column").map Node.name).Nodup
  constraints : ((childrenOf n "constraint").map Node.name).Nodup
  each : ∀ c ∈ childrenOf n "constraint", ConstraintOrderly c

/-- An index that says what it is on. -/
def IndexOrderly (n : Node) : Prop :=
  ∃ m ∈ childrenOf n "on", m.name ≠ none ∧ textsOf m ≠ none

/-- A sequence of one of the three types, or of no type said. -/
def SequenceOrderly (n : Node) : Prop :=
  ∀ m ∈ childrenOf n "as", ∀ v, textOf m = some v → v = "int2" ∨ v = "int4" ∨ v = "int8"

/-- A schema with distinct relations and functions, each orderly. -/
structure SchemaOrderly (n : Node) : Prop where
  kind : n.kind = "schema"
  relations : ∀ ns, inner n = some ns →
    ((ns.filter fun m => m.kind ≠ "function").map Node.name).Nodup
  functions : ((childrenOf n "function").map Node.name).Nodup
  tables : ∀ m ∈ childrenOf n "table", TableOrderly m
  indexes : ∀ m ∈ childrenOf n "index", IndexOrderly m
  sequences : ∀ m ∈ childrenOf n "sequence", SequenceOrderly m

mutual
/-- No mapping at all in a value. -/
def NoMapInside : Yaml → Prop
  | .map _ _ => False
  | .seq vs => NoMapInsides vs
  | _ => True
/-- No mapping in any of a list of values. -/
def NoMapInsides : List Yaml → Prop
  | [] => True
  | v :: vs => NoMapInside v ∧ NoMapInsides vs
end

/-- The keys on which reading panics (C41): "chec", in any mix of cases, and then the Kelvin sign. -/
def KelvinCheck (key : String) : Prop :=
  ∃ a b c d rest, key.toList = a :: b :: c :: d :: '\u212a' :: rest ∧
    (a = 'c' ∨ a = 'C') ∧ (b = 'h' ∨ b = 'H') ∧ (c = 'e' ∨ c = 'E') ∧ (d = 'c' ∨ d = 'C')

mutual
/-- A YAML value without a mapping inside a sequence and without such a key. -/
def YamlOrderly : Yaml → Prop
  | .map ks vs => (∀ key, some key ∈ ks → ¬ KelvinCheck key) ∧ YamlsOrderly vs
  | .seq vs => NoMapInsides vs
  | _ => True
/-- Each of a list of values is so. -/
def YamlsOrderly : List Yaml → Prop
  | [] => True
  | v :: vs => YamlOrderly v ∧ YamlsOrderly vs
end

/-- What a definition states for an attribute: the value, of the right sort, of the last child of that
kind that has one. -/
def stated {β : Type} (n : Node) (kind : String) (value : Node → Option β) : Option β :=
  ((childrenOf n kind).filterMap value).getLast?

/-- A value together with the name in the key: `on t: [a, b]`. -/
def named {β : Type} (value : Node → Option β) (n : Node) : Option (String × β) :=
  match n.name, value n with
  | some a, some b => some (a, b)
  | _, _ => none

/-- A name, in a schema, refers to a table: `t` to the table of that schema, `s.t` to the table `t` of
the schema `s`. -/
def RefersTo (ctx name schema table : String) : Prop :=
  '.' ∉ table.toList ∧
    ((name = table ∧ schema = ctx) ∨ (name = schema ++ "." ++ table ∧ '.' ∉ schema.toList))

/-- PostgreSQL's smallest and largest value of a sequence type. -/
def typeRange (type : String) : Option (Int × Int) :=
  if type = "int2" then some (-32768, 32767)
  else if type = "int4" then some (-2147483648, 2147483647)
  else if type = "int8" then some (-9223372036854775808, 9223372036854775807)
  else none

end Def
end Podo
