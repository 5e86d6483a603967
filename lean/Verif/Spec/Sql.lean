import Verif.Model.Changes
/-
Specification for C16-C18 and C56: the part of PostgreSQL's statement grammar that podo targets, as an
abstract syntax with its text, and what each statement does.  Written from the PostgreSQL manual
(sections on lexical structure, CREATE/DROP/ALTER ...), not from podo's renderer.  One spelling of
white space, and one order of optional clauses, is fixed.  The effects of statements (C56) take names as
they are written; that PostgreSQL cuts names of more than 63 bytes short and has no empty names is in
`objectName` and `readQuoted` only (C16).
-/
namespace Podo
namespace Pg

/-- Reading the rest of a quoted identifier, after the opening quote: `""` stands for a quote, a
single `"` ends it.  Gives the name and what follows. -/
def readQuotedRest : List Char → Option (List Char × List Char)
  | [] => none
  | '"' :: '"' :: cs => (readQuotedRest cs).map fun (n, rest) => ('"' :: n, rest)
  | '"' :: cs => some ([], cs)
  | c :: cs => (readQuotedRest cs).map fun (n, rest) => (c :: n, rest)

/-- Reading a quoted identifier at the start of a text; it must not be empty. -/
def readQuoted : List Char → Option (String × List Char)
  | '"' :: cs =>
    match readQuotedRest cs with
    | some (c :: n, rest) => some (String.ofList (c :: n), rest)
    | _ => none
  | _ => none

/-- Reading a whole text as a schema-qualified name `"schema"."name"`. -/
def readQualified (text : String) : Option (String × String) :=
  match readQuoted text.toList with
  | some (s, '.' :: rest) =>
    match readQuoted rest with
    | some (n, []) => some (s, n)
    | _ => none
  | _ => none

/-- Reading a whole text as one quoted identifier. -/
def readName (text : String) : Option String :=
  match readQuoted text.toList with
  | some (n, []) => some n
  | _ => none

/-- How many bytes a text takes in UTF-8. -/
def bytes (cs : List Char) : Nat := (cs.map Char.utf8Size).sum

/-- As much of a text, in whole characters, as there is room for. -/
def fit : Nat → List Char → List Char
  | _, [] => []
  | room, c :: cs => if c.utf8Size ≤ room then c :: fit (room - c.utf8Size) cs else []

/-- The name an object gets that is created under a given name: PostgreSQL keeps the first 63 bytes, and looks
objects up in the same way. -/
def objectName (n : String) : String := String.ofList (fit 63 n.toList)

/-- The text of a quoted identifier: quotes in the name are doubled. -/
def quoted (n : String) : String :=
  "\"" ++ String.ofList (n.toList.flatMap fun c => if c = '"' then ['"', '"'] else [c]) ++ "\""

/-- Key words that cannot be used as unquoted names of tables, columns and schemas: the reserved ones, and
those reserved except as names of functions and types. -/
def reserved : List String :=
  ["all", "analyse", "analyze", "and", "any", "array", "as", "asc", "asymmetric", "both", "case",
   "cast", "check", "collate", "column", "constraint", "create", "current_catalog", "current_date",
   "current_role", "current_time", "current_timestamp", "current_user", "default", "deferrable",
   "desc", "distinct", "do", "else", "end", "except", "false", "fetch", "for", "foreign", "from",
   "grant", "group", "having", "in", "initially", "intersect", "into", "lateral", "leading",
   "limit", "localtime", "localtimestamp", "not", "null", "offset", "on", "only", "or", "order",
   "placing", "primary", "references", "returning", "select", "session_user", "some", "symmetric",
   "system_user", "table", "then", "to", "trailing", "true", "union", "unique", "user", "using",
   "variadic", "when", "where", "window", "with",
   "authorization", "binary", "collation", "concurrently", "cross", "current_schema", "freeze", "full",
   "ilike", "inner", "is", "isnull", "join", "left", "like", "natural", "notnull", "outer", "overlaps",
   "right", "similar", "tablesample", "verbose"]

def lower (c : Char) : Bool := 'a' ≤ c && c ≤ 'z'

/-- Names that may be written without quotes and denote themselves: ASCII lower-case letters, digits,
`_` and `$`, not starting with a digit or `$`, and not a reserved word. -/
def bare (n : String) : Bool :=
  (match n.toList with
   | [] => false
   | c :: cs => (lower c || c = '_') &&
      cs.all fun c => lower c || ('0' ≤ c && c ≤ '9') || c = '_' || c = '$')
  && !(reserved.contains n)

/-- How a name is written. -/
inductive Name where
  | quotedName (n : String)
  | bareName (n : String) (ok : bare n = true)

def Name.text : Name → String
  | .quotedName n => quoted n
  | .bareName n _ => n

/-- The object a written name denotes. -/
def Name.denotes : Name → String
  | .quotedName n => n
  | .bareName n _ => n

def qualified (s n : String) : String := quoted s ++ "." ++ quoted n

def commaList : List String → String
  | [] => ""
  | [x] => x
  | x :: y :: rest => x ++ ", " ++ commaList (y :: rest)

/-- `[ DEFERRABLE | NOT DEFERRABLE ] [ INITIALLY DEFERRED | INITIALLY IMMEDIATE ]` -/
structure Timing where
  deferrable : Option Bool
  initiallyDeferred : Option Bool

def Timing.text (k : Timing) : String :=
  (match k.deferrable with
   | none => ""
   | some true => " DEFERRABLE"
   | some false => " NOT DEFERRABLE") ++
  (match k.initiallyDeferred with
   | none => ""
   | some true => " INITIALLY DEFERRED"
   | some false => " INITIALLY IMMEDIATE")

/-- What is left out is not deferrable, initially immediate; `INITIALLY DEFERRED` alone implies
`DEFERRABLE`. -/
def Timing.states (k : Timing) (deferrable initiallyDeferred : Bool) : Prop :=
  deferrable = k.deferrable.getD (k.initiallyDeferred == some true) ∧
    initiallyDeferred = k.initiallyDeferred.getD false

/-- PostgreSQL refuses `NOT DEFERRABLE INITIALLY DEFERRED`. -/
def Timing.legal (k : Timing) : Prop := ¬ (k.deferrable = some false ∧ k.initiallyDeferred = some true)

/-- `name type [ NOT NULL | NULL ] [ DEFAULT e ]` -/
structure ColumnDef where
  name : String
  dataType : String
  /-- `some true` is `NOT NULL`, `some false` is `NULL` -/
  null : Option Bool
  default : Option String

def ColumnDef.text (c : ColumnDef) : String :=
  quoted c.name ++ " " ++ c.dataType ++
  (match c.null with
   | none => ""
   | some true => " NOT NULL"
   | some false => " NULL") ++
  (match c.default with
   | none => ""
   | some e => " DEFAULT " ++ e)

/-- A column is nullable unless it says `NOT NULL`. -/
def ColumnDef.notNull (c : ColumnDef) : Bool := c.null == some true

/-- Statements. Types, expressions, queries and index keys are kept as text. -/
inductive Stmt where
  | createSchema (n : Name)
  | dropSchema (n : Name)
  | createTable (s t : String) (cols : List ColumnDef)
  | dropTable (s t : String)
  | addColumn (s t : String) (c : ColumnDef)
  | setDataType (s t c ty : String)
  | setDefault (s t c e : String)
  | dropDefault (s t c : String)
  | setNotNull (s t c : String)
  | dropNotNull (s t c : String)
  | dropColumn (s t c : String)
  | renameColumn (s t a b : String)
  | addPrimaryKey (s t n : String) (cols : List String) (k : Timing)
  | addUnique (s t n : String) (cols : List String) (k : Timing)
  | addForeignKey (s t n : String) (cols : List String) (ts tt : String) (tcols : List String)
      (matching onUpdate onDelete : Option String) (k : Timing)
  | addCheck (s t n e : String) (k : Timing)
  | alterConstraint (s t n : String) (k : Timing)
  | dropConstraint (s t n : String)
  | createFunction (s f : String) (spaces : Nat) (args returns language volatility source : String)
  | dropFunction (s f : String)
  | createView (s v q : String)
  | dropView (s v : String)
  | createIndex (unique : Bool) (i s t m : String) (keys : List String)
  | dropIndex (s i : String)
  | createSequence (s n ty : String) (inc mn mx start cache : Int) (cycle : Bool)
  | dropSequence (s n : String)

/-- The text of a statement (without the `;` that may end it). -/
def Stmt.text : Stmt → String
  | createSchema n => "CREATE SCHEMA " ++ n.text
  | dropSchema n => "DROP SCHEMA " ++ n.text
  | createTable s t cols =>
    "CREATE TABLE " ++ qualified s t ++ " (" ++ commaList (cols.map ColumnDef.text) ++ ")"
  | dropTable s t => "DROP TABLE " ++ qualified s t
  | addColumn s t c => "ALTER TABLE " ++ qualified s t ++ " ADD COLUMN " ++ c.text
  | setDataType s t c ty =>
    "ALTER TABLE " ++ qualified s t ++ " ALTER COLUMN " ++ quoted c ++ " SET DATA TYPE " ++ ty
  | setDefault s t c e =>
    "ALTER TABLE " ++ qualified s t ++ " ALTER COLUMN " ++ quoted c ++ " SET DEFAULT " ++ e
  | dropDefault s t c =>
    "ALTER TABLE " ++ qualified s t ++ " ALTER COLUMN " ++ quoted c ++ " DROP DEFAULT"
  | setNotNull s t c =>
    "ALTER TABLE " ++ qualified s t ++ " ALTER COLUMN " ++ quoted c ++ " SET NOT NULL"
  | dropNotNull s t c =>
    "ALTER TABLE " ++ qualified s t ++ " ALTER COLUMN " ++ quoted c ++ " DROP NOT NULL"
  | dropColumn s t c => "ALTER TABLE " ++ qualified s t ++ " DROP COLUMN " ++ quoted c
  | renameColumn s t a b =>
    "ALTER TABLE " ++ qualified s t ++ " RENAME COLUMN " ++ quoted a ++ " TO " ++ quoted b
  | addPrimaryKey s t n cols k =>
    "ALTER TABLE " ++ qualified s t ++ " ADD CONSTRAINT " ++ quoted n ++ " PRIMARY KEY ("
      ++ commaList (cols.map quoted) ++ ")" ++ k.text
  | addUnique s t n cols k =>
    "ALTER TABLE " ++ qualified s t ++ " ADD CONSTRAINT " ++ quoted n ++ " UNIQUE ("
      ++ commaList (cols.map quoted) ++ ")" ++ k.text
  | addForeignKey s t n cols ts tt tcols m u d k =>
    "ALTER TABLE " ++ qualified s t ++ " ADD CONSTRAINT " ++ quoted n ++ " FOREIGN KEY ("
      ++ commaList (cols.map quoted) ++ ") REFERENCES " ++ qualified ts tt ++ " ("
      ++ commaList (tcols.map quoted) ++ ")"
      ++ (match m with
          | none => ""
          | some m => " MATCH " ++ m)
      ++ (match u with
          | none => ""
          | some u => " ON UPDATE " ++ u)
      ++ (match d with
          | none => ""
          | some d => " ON DELETE " ++ d)
      ++ k.text
  | addCheck s t n e k =>
    "ALTER TABLE " ++ qualified s t ++ " ADD CONSTRAINT " ++ quoted n ++ " CHECK (" ++ e ++ ")"
      ++ k.text
  | alterConstraint s t n k =>
    "ALTER TABLE " ++ qualified s t ++ " ALTER CONSTRAINT " ++ quoted n ++ k.text
  | dropConstraint s t n => "ALTER TABLE " ++ qualified s t ++ " DROP CONSTRAINT " ++ quoted n
  | createFunction s f sp args r la v src =>
    "CREATE FUNCTION " ++ qualified s f ++ String.ofList (List.replicate sp ' ') ++ "(" ++ args
      ++ ") RETURNS " ++ r ++ " LANGUAGE " ++ la ++ " " ++ v ++ " AS " ++ src
  | dropFunction s f => "DROP FUNCTION " ++ qualified s f
  | createView s v q => "CREATE VIEW " ++ qualified s v ++ " AS " ++ q
  | dropView s v => "DROP VIEW " ++ qualified s v
  | createIndex u i s t m keys =>
    "CREATE " ++ (if u then "UNIQUE INDEX " else "INDEX ") ++ quoted i ++ " ON " ++ qualified s t
      ++ " USING " ++ m ++ " (" ++ commaList keys ++ ")"
  | dropIndex s i => "DROP INDEX " ++ qualified s i
  | createSequence s n ty inc mn mx st ca cy =>
    "CREATE SEQUENCE " ++ qualified s n ++ " AS " ++ ty ++ " INCREMENT BY " ++ toString inc
      ++ " MINVALUE " ++ toString mn ++ " MAXVALUE " ++ toString mx ++ " START WITH " ++ toString st
      ++ " CACHE " ++ toString ca ++ (if cy then " CYCLE" else " NO CYCLE")
  | dropSequence s n => "DROP SEQUENCE " ++ qualified s n

/-- The statement does, to a database, what the change says.  `DROP CONSTRAINT` names a constraint of any
kind; `ALTER CONSTRAINT` is refused for all but foreign keys, so that no statement alters the timing of
another constraint; check constraints cannot be deferrable; keys and indexes have at least one column.  The expression of a check constraint is kept
with its parentheses, and a function's arguments and source (everything that can follow `AS`) are left open, so that more
statements count for a function than should. -/
def Does (st : Stmt) : Change → Prop
  | .createSchema s => ∃ n : Name, n.denotes = s ∧ st = .createSchema n
  | .dropSchema s => ∃ n : Name, n.denotes = s ∧ st = .dropSchema n
  | .createTable s t cols => ∃ defs : List ColumnDef, st = .createTable s t defs ∧
      cols = defs.map fun c => ⟨c.name, c.dataType, c.notNull, c.default⟩
  | .dropTable s t => st = .dropTable s t
  | .addColumn s t c ty nn df => ∃ null, st = .addColumn s t ⟨c, ty, null, df⟩ ∧
      nn = (ColumnDef.mk c ty null df).notNull
  | .setDataType s t c ty => st = .setDataType s t c ty
  | .setDefault s t c (some e) => st = .setDefault s t c e
  | .setDefault s t c none => st = .dropDefault s t c
  | .setNotNull s t c true => st = .setNotNull s t c
  | .setNotNull s t c false => st = .dropNotNull s t c
  | .dropColumn s t c => st = .dropColumn s t c
  | .renameColumn s t a b => st = .renameColumn s t a b
  | .addPrimaryKey s t n cols d i => ∃ k : Timing, k.states d i ∧ k.legal ∧ cols ≠ [] ∧
      st = .addPrimaryKey s t n cols k
  | .addUnique s t n cols d i => ∃ k : Timing, k.states d i ∧ k.legal ∧ cols ≠ [] ∧
      st = .addUnique s t n cols k
  | .addForeignKey s t n cols ts tt tcols m u d df i =>
      ∃ (m' u' d' : Option String) (k : Timing), k.states df i ∧ k.legal ∧
        m = m'.getD "SIMPLE" ∧ u = u'.getD "NO ACTION" ∧ d = d'.getD "NO ACTION" ∧
        st = .addForeignKey s t n cols ts tt tcols m' u' d' k
  | .addCheck s t n e d i => ∃ (x : String) (k : Timing), k.states d i ∧ (d = false ∧ i = false) ∧
      e = "(" ++ x ++ ")" ∧ st = .addCheck s t n x k
  | .alterPrimaryKey .. => False
  | .alterUnique .. => False
  | .alterForeignKey s t n d i => ∃ k : Timing, k.states d i ∧ k.legal ∧ st = .alterConstraint s t n k
  | .alterCheck .. => False
  | .dropPrimaryKey s t n => st = .dropConstraint s t n
  | .dropUnique s t n => st = .dropConstraint s t n
  | .dropForeignKey s t n => st = .dropConstraint s t n
  | .dropCheck s t n => st = .dropConstraint s t n
  | .createFunction s f _ la r v =>
      ∃ (sp : Nat) (args src : String), st = .createFunction s f sp args r la v src
  | .dropFunction s f => st = .dropFunction s f
  | .createView s v q => st = .createView s v q
  | .dropView s v => st = .dropView s v
  | .createIndex s t i u m ks => ks ≠ [] ∧ st = .createIndex u i s t m ks
  | .dropIndex s i => st = .dropIndex s i
  | .createSequence s n ty inc mn mx start ca cy =>
      st = .createSequence s n ty inc mn mx start ca cy
  | .dropSequence s n => st = .dropSequence s n

/-- The text is a statement that does what the change says. -/
def Says (sql : String) (c : Change) : Prop :=
  ∃ st, Does st c ∧ (sql = st.text ∨ sql = st.text ++ ";")

/-- A name without quotes in it. -/
def plain (n : String) : Prop := '"' ∉ n.toList

end Pg

/-- The names a change writes between quotes (all but the name of a created or dropped schema). -/
def Change.quotedNames : Change → List String
  | .createSchema _ => []
  | .dropSchema _ => []
  | .createTable s t cols => s :: t :: cols.map NewColumn.name
  | .dropTable s t => [s, t]
  | .addColumn s t c _ _ _ => [s, t, c]
  | .setDataType s t c _ => [s, t, c]
  | .setDefault s t c _ => [s, t, c]
  | .setNotNull s t c _ => [s, t, c]
  | .dropColumn s t c => [s, t, c]
  | .renameColumn s t a b => [s, t, a, b]
  | .addPrimaryKey s t n cols _ _ => s :: t :: n :: cols
  | .alterPrimaryKey s t n _ _ => [s, t, n]
  | .dropPrimaryKey s t n => [s, t, n]
  | .addUnique s t n cols _ _ => s :: t :: n :: cols
  | .alterUnique s t n _ _ => [s, t, n]
  | .dropUnique s t n => [s, t, n]
  | .addForeignKey s t n cols ts tt tcols _ _ _ _ _ => s :: t :: n :: ts :: tt :: (cols ++ tcols)
  | .alterForeignKey s t n _ _ => [s, t, n]
  | .dropForeignKey s t n => [s, t, n]
  | .addCheck s t n _ _ _ => [s, t, n]
  | .alterCheck s t n _ _ => [s, t, n]
  | .dropCheck s t n => [s, t, n]
  | .createFunction s f _ _ _ _ => [s, f]
  | .dropFunction s f => [s, f]
  | .createView s v _ => [s, v]
  | .dropView s v => [s, v]
  | .createIndex s t i _ _ _ => [s, t, i]
  | .dropIndex s i => [s, i]
  | .createSequence s n .. => [s, n]
  | .dropSequence s n => [s, n]

/-- The conditions under which podo's text for a change is right (see C56). -/
def Change.TextRight : Change → Prop
  | .createSchema s => Pg.bare s = true
  | .dropSchema s => Pg.bare s = true
  | .createTable _ _ cols => ∀ c ∈ cols, c.notNull = false
  | .addColumn .. => False
  | .addForeignKey .. => False
  | .addPrimaryKey _ _ _ cols d i => cols ≠ [] ∧ (i = true → d = true)
  | .addUnique _ _ _ cols d i => cols ≠ [] ∧ (i = true → d = true)
  | .createIndex _ _ _ _ _ keys => keys ≠ []
  | .alterPrimaryKey .. => False
  | .alterUnique .. => False
  | .alterForeignKey _ _ _ d i => d = i
  | .alterCheck .. => False
  | .addCheck _ _ _ e d i => (∃ x, e = "(" ++ x ++ ")") ∧ d = false ∧ i = false
  | .createFunction .. => False
  | _ => True

end Podo
