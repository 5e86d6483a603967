import Verif.Model.History
/-
Model of how versions are written to and read from files and the version table: the code that
`#[derive(Serialize, Deserialize)]` generates for /repo/src/history/version.rs:7-14 `Version`, for
/repo/src/snapshot/changes/mod.rs:31-36 `Change` (tag `type`, content `change`) and for the structs of the
changes, over the trees of values that `serde_yaml` and `serde_json` write as text and read back.
Simplified: the text formats themselves are not modelled, numbers are integers, and the short form that
lists the fields of a struct in a sequence, which podo never writes, is not read.
-/
namespace Podo
namespace Serde

/-- A tree of values, as `serde` passes it between the derived code and a text format. -/
inductive Doc where
  | null
  | bool (b : Bool)
  | int (i : Int)
  | str (s : String)
  | seq (ds : List Doc)
  | map (es : List (String × Doc))
deriving Repr

/-- `Deserialize` for `String`. -/
def str : Doc → Option String
  | .str s => some s
  | _ => none

/-- `Deserialize` for `bool`. -/
def bool : Doc → Option Bool
  | .bool b => some b
  | _ => none

/-- `Deserialize` for `i64`: a number out of range is an error. -/
def int : Doc → Option Int
  | .int i => if -9223372036854775808 ≤ i ∧ i ≤ 9223372036854775807 then some i else none
  | _ => none

/-- `Deserialize` for `Option<String>`. -/
def opt : Doc → Option (Option String)
  | .null => some none
  | .str s => some (some s)
  | _ => none

/-- The elements of a sequence; one that cannot be read is an error. -/
def readAll {α : Type} (f : Doc → Option α) : List Doc → Option (List α)
  | [] => some []
  | d :: ds =>
    match f d, readAll f ds with
    | some a, some as => some (a :: as)
    | _, _ => none

/-- `Deserialize` for `Vec<T>`. -/
def list {α : Type} (f : Doc → Option α) : Doc → Option (List α)
  | .seq ds => readAll f ds
  | _ => none

/-- The values given for a key. -/
def given (k : String) (es : List (String × Doc)) : List Doc :=
  (es.filter fun e => e.1 = k).map Prod.snd

/-- One field in the derived `Deserialize` of a struct: a field given twice and a missing one are errors;
keys that are no field are ignored. -/
def field {α : Type} (f : Doc → Option α) (k : String) : Doc → Option α
  | .map es =>
    match given k es with
    | [d] => f d
    | _ => none
  | _ => none

/-- The same for a field of type `Option<String>`, which may be missing. -/
def optField (k : String) : Doc → Option (Option String)
  | .map es =>
    match given k es with
    | [] => some none
    | [d] => opt d
    | _ => none
  | _ => none

/-- `Serialize` for `Option<String>`. -/
def optDoc : Option String → Doc
  | none => .null
  | some s => .str s

/-- `Serialize` for `Vec<String>`. -/
def strsDoc (ss : List String) : Doc := .seq (ss.map .str)

/-- /repo/src/snapshot/changes/table/create_table_change.rs:17-23 `CreateTableChangeColumn`, written. -/
def columnDoc (c : NewColumn) : Doc :=
  .map [("name", .str c.name), ("data_type", .str c.dataType), ("not_null", .bool c.notNull),
    ("default", optDoc c.default)]

/-- /repo/src/snapshot/changes/table/create_table_change.rs:17-23 `CreateTableChangeColumn`, read. -/
def column (d : Doc) : Option NewColumn := do
  let n ← field str "name" d
  let ty ← field str "data_type" d
  let nn ← field bool "not_null" d
  let df ← optField "default" d
  some ⟨n, ty, nn, df⟩

/-- /repo/src/snapshot/changes/mod.rs:32: the tag and the content of a change. -/
def tagged (tag : String) (fields : List (String × Doc)) : Doc :=
  .map [("type", .str tag), ("change", .map fields)]

/-- `Serialize` of /repo/src/snapshot/changes/mod.rs:31-36 `Change` and of the structs of the changes
(/repo/src/snapshot/changes/*/*_change.rs, each below its `derive`), fields in the order they are
declared. -/
def changeDoc : Change → Doc
  | .addCheck s t c e d i => tagged "AddCheckChange" [("schema", .str s), ("table", .str t),
      ("constraint", .str c), ("expression", .str e), ("deferrable", .bool d), ("initially_deferred",
      .bool i)]
  | .addColumn s t c ty n d => tagged "AddColumnChange" [("schema", .str s), ("table", .str t),
      ("column", .str c), ("data_type", .str ty), ("not_null", .bool n), ("default", optDoc d)]
  | .addForeignKey s t c cs ts tt tcs m u dr d i => tagged "AddForeignKeyChange" [("schema", .str s),
      ("table", .str t), ("constraint", .str c), ("columns", strsDoc cs), ("target_schema", .str ts),
      ("target_table", .str tt), ("target_columns", strsDoc tcs), ("match_option", .str m),
      ("update_rule", .str u), ("delete_rule", .str dr), ("deferrable", .bool d), ("initially_deferred",
      .bool i)]
  | .addPrimaryKey s t c cs d i => tagged "AddPrimaryKeyChange" [("schema", .str s), ("table", .str t),
      ("constraint", .str c), ("columns", strsDoc cs), ("deferrable", .bool d), ("initially_deferred",
      .bool i)]
  | .addUnique s t c cs d i => tagged "AddUniqueChange" [("schema", .str s), ("table", .str t),
      ("constraint", .str c), ("columns", strsDoc cs), ("deferrable", .bool d), ("initially_deferred",
      .bool i)]
  | .alterCheck s t c d i => tagged "AlterCheckChange" [("schema", .str s), ("table", .str t),
      ("constraint", .str c), ("deferrable", .bool d), ("initially_deferred", .bool i)]
  | .setDataType s t c ty => tagged "AlterColumnSetDataTypeChange" [("schema", .str s), ("table", .str
      t), ("column", .str c), ("data_type", .str ty)]
  | .setDefault s t c d => tagged "AlterColumnSetDefaultChange" [("schema", .str s), ("table", .str t),
      ("column", .str c), ("default", optDoc d)]
  | .setNotNull s t c n => tagged "AlterColumnSetNotNullChange" [("schema", .str s), ("table", .str t),
      ("column", .str c), ("not_null", .bool n)]
  | .alterForeignKey s t c d i => tagged "AlterForeignKeyChange" [("schema", .str s), ("table", .str t),
      ("constraint", .str c), ("deferrable", .bool d), ("initially_deferred", .bool i)]
  | .alterPrimaryKey s t c d i => tagged "AlterPrimaryKeyChange" [("schema", .str s), ("table", .str t),
      ("constraint", .str c), ("deferrable", .bool d), ("initially_deferred", .bool i)]
  | .alterUnique s t c d i => tagged "AlterUniqueChange" [("schema", .str s), ("table", .str t),
      ("constraint", .str c), ("deferrable", .bool d), ("initially_deferred", .bool i)]
  | .createFunction s f b l r v => tagged "CreateFunctionChange" [("schema", .str s), ("function", .str
      f), ("body", .str b), ("language", .str l), ("returns", .str r), ("volatility", .str v)]
  | .createIndex s t x u m ks => tagged "CreateIndexChange" [("schema", .str s), ("table", .str t),
      ("index", .str x), ("unique", .bool u), ("method", .str m), ("key_expressions", strsDoc ks)]
  | .createSchema s => tagged "CreateSchemaChange" [("schema_name", .str s)]
  | .createSequence s q ty i mn mx st ca cy => tagged "CreateSequenceChange" [("schema", .str s),
      ("sequence", .str q), ("data_type", .str ty), ("increment", .int i), ("min_value", .int mn),
      ("max_value", .int mx), ("start", .int st), ("cache", .int ca), ("cycle", .bool cy)]
  | .createTable s t cs => tagged "CreateTableChange" [("schema", .str s), ("table", .str t),
      ("columns", .seq (cs.map columnDoc))]
  | .createView s v q => tagged "CreateViewChange" [("schema", .str s), ("view", .str v), ("query", .str
      q)]
  | .dropCheck s t c => tagged "DropCheckChange" [("schema", .str s), ("table", .str t), ("constraint",
      .str c)]
  | .dropColumn s t c => tagged "DropColumnChange" [("schema", .str s), ("table", .str t), ("column",
      .str c)]
  | .dropForeignKey s t c => tagged "DropForeignKeyChange" [("schema", .str s), ("table", .str t),
      ("constraint", .str c)]
  | .dropFunction s f => tagged "DropFunctionChange" [("schema", .str s), ("function", .str f)]
  | .dropIndex s x => tagged "DropIndexChange" [("schema", .str s), ("index", .str x)]
  | .dropPrimaryKey s t c => tagged "DropPrimaryKeyChange" [("schema", .str s), ("table", .str t),
      ("constraint", .str c)]
  | .dropSchema s => tagged "DropSchemaChange" [("schema_name", .str s)]
  | .dropSequence s q => tagged "DropSequenceChange" [("schema", .str s), ("sequence", .str q)]
  | .dropTable s t => tagged "DropTableChange" [("schema", .str s), ("table", .str t)]
  | .dropUnique s t c => tagged "DropUniqueChange" [("schema", .str s), ("table", .str t),
      ("constraint", .str c)]
  | .dropView s v => tagged "DropViewChange" [("schema", .str s), ("view", .str v)]
  | .renameColumn s t fc tc => tagged "RenameColumnChange" [("from_schema", .str s), ("from_table", .str
      t), ("from_column", .str fc), ("to_column", .str tc)]

/-- `Deserialize` of the structs of the changes, by the name of the variant. -/
def changeOf (tag : String) (doc : Doc) : Option Change :=
  if tag = "AddCheckChange" then do
    let s ← field str "schema" doc
    let t ← field str "table" doc
    let c ← field str "constraint" doc
    let e ← field str "expression" doc
    let d ← field bool "deferrable" doc
    let i ← field bool "initially_deferred" doc
    some (.addCheck s t c e d i)
  else if tag = "AddColumnChange" then do
    let s ← field str "schema" doc
    let t ← field str "table" doc
    let c ← field str "column" doc
    let ty ← field str "data_type" doc
    let n ← field bool "not_null" doc
    let d ← optField "default" doc
    some (.addColumn s t c ty n d)
  else if tag = "AddForeignKeyChange" then do
    let s ← field str "schema" doc
    let t ← field str "table" doc
    let c ← field str "constraint" doc
    let cs ← field (list str) "columns" doc
    let ts ← field str "target_schema" doc
    let tt ← field str "target_table" doc
    let tcs ← field (list str) "target_columns" doc
    let m ← field str "match_option" doc
    let u ← field str "update_rule" doc
    let dr ← field str "delete_rule" doc
    let d ← field bool "deferrable" doc
    let i ← field bool "initially_deferred" doc
    some (.addForeignKey s t c cs ts tt tcs m u dr d i)
  else if tag = "AddPrimaryKeyChange" then do
    let s ← field str "schema" doc
    let t ← field str "table" doc
    let c ← field str "constraint" doc
    let cs ← field (list str) "columns" doc
    let d ← field bool "deferrable" doc
    let i ← field bool "initially_deferred" doc
    some (.addPrimaryKey s t c cs d i)
  else if tag = "AddUniqueChange" then do
    let s ← field str "schema" doc
    let t ← field str "table" doc
    let c ← field str "constraint" doc
    let cs ← field (list str) "columns" doc
    let d ← field bool "deferrable" doc
    let i ← field bool "initially_deferred" doc
    some (.addUnique s t c cs d i)
  else if tag = "AlterCheckChange" then do
    let s ← field str "schema" doc
    let t ← field str "table" doc
    let c ← field str "constraint" doc
    let d ← field bool "deferrable" doc
    let i ← field bool "initially_deferred" doc
    some (.alterCheck s t c d i)
  else if tag = "AlterColumnSetDataTypeChange" then do
    let s ← field str "schema" doc
    let t ← field str "table" doc
    let c ← field str "column" doc
    let ty ← field str "data_type" doc
    some (.setDataType s t c ty)
  else if tag = "AlterColumnSetDefaultChange" then do
    let s ← field str "schema" doc
    let t ← field str "table" doc
    let c ← field str "column" doc
    let d ← optField "default" doc
    some (.setDefault s t c d)
  else if tag = "AlterColumnSetNotNullChange" then do
    let s ← field str "schema" doc
    let t ← field str "table" doc
    let c ← field str "column" doc
    let n ← field bool "not_null" doc
    some (.setNotNull s t c n)
  else if tag = "AlterForeignKeyChange" then do
    let s ← field str "schema" doc
    let t ← field str "table" doc
    let c ← field str "constraint" doc
    let d ← field bool "deferrable" doc
    let i ← field bool "initially_deferred" doc
    some (.alterForeignKey s t c d i)
  else if tag = "AlterPrimaryKeyChange" then do
    let s ← field str "schema" doc
    let t ← field str "table" doc
    let c ← field str "constraint" doc
    let d ← field bool "deferrable" doc
    let i ← field bool "initially_deferred" doc
    some (.alterPrimaryKey s t c d i)
  else if tag = "AlterUniqueChange" then do
    let s ← field str "schema" doc
    let t ← field str "table" doc
    let c ← field str "constraint" doc
    let d ← field bool "deferrable" doc
    let i ← field bool "initially_deferred" doc
    some (.alterUnique s t c d i)
  else if tag = "CreateFunctionChange" then do
    let s ← field str "schema" doc
    let f ← field str "function" doc
    let b ← field str "body" doc
    let l ← field str "language" doc
    let r ← field str "returns" doc
    let v ← field str "volatility" doc
    some (.createFunction s f b l r v)
  else if tag = "CreateIndexChange" then do
    let s ← field str "schema" doc
    let t ← field str "table" doc
    let x ← field str "index" doc
    let u ← field bool "unique" doc
    let m ← field str "method" doc
    let ks ← field (list str) "key_expressions" doc
    some (.createIndex s t x u m ks)
  else if tag = "CreateSchemaChange" then do
    let s ← field str "schema_name" doc
    some (.createSchema s)
  else if tag = "CreateSequenceChange" then do
    let s ← field str "schema" doc
    let q ← field str "sequence" doc
    let ty ← field str "data_type" doc
    let i ← field int "increment" doc
    let mn ← field int "min_value" doc
    let mx ← field int "max_value" doc
    let st ← field int "start" doc
    let ca ← field int "cache" doc
    let cy ← field bool "cycle" doc
    some (.createSequence s q ty i mn mx st ca cy)
  else if tag = "CreateTableChange" then do
    let s ← field str "schema" doc
    let t ← field str "table" doc
    let cs ← field (list column) "columns" doc
    some (.createTable s t cs)
  else if tag = "CreateViewChange" then do
    let s ← field str "schema" doc
    let v ← field str "view" doc
    let q ← field str "query" doc
    some (.createView s v q)
  else if tag = "DropCheckChange" then do
    let s ← field str "schema" doc
    let t ← field str "table" doc
    let c ← field str "constraint" doc
    some (.dropCheck s t c)
  else if tag = "DropColumnChange" then do
    let s ← field str "schema" doc
    let t ← field str "table" doc
    let c ← field str "column" doc
    some (.dropColumn s t c)
  else if tag = "DropForeignKeyChange" then do
    let s ← field str "schema" doc
    let t ← field str "table" doc
    let c ← field str "constraint" doc
    some (.dropForeignKey s t c)
  else if tag = "DropFunctionChange" then do
    let s ← field str "schema" doc
    let f ← field str "function" doc
    some (.dropFunction s f)
  else if tag = "DropIndexChange" then do
    let s ← field str "schema" doc
    let x ← field str "index" doc
    some (.dropIndex s x)
  else if tag = "DropPrimaryKeyChange" then do
    let s ← field str "schema" doc
    let t ← field str "table" doc
    let c ← field str "constraint" doc
    some (.dropPrimaryKey s t c)
  else if tag = "DropSchemaChange" then do
    let s ← field str "schema_name" doc
    some (.dropSchema s)
  else if tag = "DropSequenceChange" then do
    let s ← field str "schema" doc
    let q ← field str "sequence" doc
    some (.dropSequence s q)
  else if tag = "DropTableChange" then do
    let s ← field str "schema" doc
    let t ← field str "table" doc
    some (.dropTable s t)
  else if tag = "DropUniqueChange" then do
    let s ← field str "schema" doc
    let t ← field str "table" doc
    let c ← field str "constraint" doc
    some (.dropUnique s t c)
  else if tag = "DropViewChange" then do
    let s ← field str "schema" doc
    let v ← field str "view" doc
    some (.dropView s v)
  else if tag = "RenameColumnChange" then do
    let s ← field str "from_schema" doc
    let t ← field str "from_table" doc
    let fc ← field str "from_column" doc
    let tc ← field str "to_column" doc
    some (.renameColumn s t fc tc)
  else none

/-- `Deserialize` of /repo/src/snapshot/changes/mod.rs:31-36 `Change`. -/
def change (d : Doc) : Option Change :=
  match field str "type" d with
  | some tag => field (changeOf tag) "change" d
  | none => none

/-- /repo/src/history/dbh.rs:25: the changes of a version in the version table, written. -/
def changesDoc (cs : List Change) : Doc := .seq (cs.map changeDoc)

/-- /repo/src/history/dbh.rs:148: the changes of a version in the version table, read. -/
def changes : Doc → Option (List Change) := list change

/-- /repo/src/history/version.rs:7-14 `Version`, written (/repo/src/history/fsh.rs:105). -/
def versionDoc (v : Version) : Doc :=
  .map [("name", .str v.name), ("previous", optDoc v.previous), ("changes", changesDoc v.changes),
    ("up", strsDoc v.up), ("down", strsDoc v.down)]

/-- /repo/src/history/version.rs:7-14 `Version`, read (/repo/src/history/fsh.rs:73). -/
def version (d : Doc) : Option Version := do
  let n ← field str "name" d
  let p ← optField "previous" d
  let cs ← field changes "changes" d
  let up ← field (list str) "up" d
  let dn ← field (list str) "down" d
  some ⟨n, p, cs, up, dn⟩

end Serde
end Podo
