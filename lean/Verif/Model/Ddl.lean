import Verif.Model.Node
import Verif.Model.Load
/-
Model of /repo/src/definition/ddl/*.rs, /repo/src/definition/defaults.rs and the file level of
/repo/src/definition/mod.rs.  What the errors say is left out
here and added in `Verif.Model.DdlErrors`.
-/
namespace Podo
namespace Def
open Text

/-- `ok_or_else(|| Error…)`. -/
def orErr {α : Type} : Option α → Except Fail α
  | some a => .ok a
  | none => .error .error

/-- /repo/src/definition/ddl/coerce.rs:4-6 `coerce_name`. -/
def coerceName (n : Node) : Except Fail String := orErr n.name
/-- /repo/src/definition/ddl/coerce.rs:8-11 `coerce_nodes`. -/
def coerceNodes (n : Node) : Except Fail (List Node) := orErr n.nodes
/-- /repo/src/definition/ddl/coerce.rs:13-16 `coerce_string_value`. -/
def coerceStr (n : Node) : Except Fail String := orErr n.str
/-- /repo/src/definition/ddl/coerce.rs:18-29 `coerce_name_and_string_value`. -/
def coerceNameStr (n : Node) : Except Fail (String × String) :=
  match n.name, n.str with
  | some a, some s => .ok (a, s)
  | _, _ => .error .error
/-- /repo/src/definition/ddl/coerce.rs:31-42 `coerce_name_and_string_varargs_value`. -/
def coerceNameVarargs (n : Node) : Except Fail (String × List String) :=
  match n.name, n.varargs with
  | some a, some s => .ok (a, s)
  | _, _ => .error .error
/-- /repo/src/definition/ddl/coerce.rs:44-47 `coerce_boolean_value`. -/
def coerceBool (n : Node) : Except Fail Bool := orErr n.bool
/-- /repo/src/definition/ddl/coerce.rs:49-52 `coerce_integer_value`. -/
def coerceInt (n : Node) : Except Fail Int := orErr n.int
/-- /repo/src/definition/ddl/coerce.rs:59-62 `coerce_string_varargs_value`. -/
def coerceVarargs (n : Node) : Except Fail (List String) := orErr n.varargs

/-- `assert_eq!(n.type, kind)` in front of the rest of a parser. -/
def assertKind {α : Type} (n : Node) (kind : String) (k : Except Fail α) : Except Fail α :=
  if n.kind = kind then k else .error .panic

/-- The loop every parser runs over the child nodes (`for cn in child_nodes { if let Err(e) = match
cn.type {…} { errors.push(e); } }`): `step` is the `match`, the flag says whether `errors` is
non-empty; a panic ends the loop. -/
def readAttrs {α : Type} (step : α → Node → Except Fail α) :
    α → Bool → List Node → Except Fail (α × Bool)
  | a, bad, [] => .ok (a, bad)
  | a, bad, n :: ns =>
    match step a n with
    | .ok a' => readAttrs step a' bad ns
    | .error .error => readAttrs step a true ns
    | .error .panic => .error .panic

/-- The shape all parsers below share: check the kind, take the name and the child nodes, read the
children one by one with `step`, then build the object from what was read and from whether there was
an error (`assert_eq!(n.type, …); let name = coerce_name(n)?; let child_nodes = coerce_nodes(n)?; for
cn in child_nodes {…} …`). -/
def readNode {α β : Type} (kind : String) (step : String → α → Node → Except Fail α) (init : α)
    (finish : String → α → Bool → Except Fail β) (n : Node) : Except Fail β :=
  assertKind n kind <|
  match coerceName n with
  | .error e => .error e
  | .ok name =>
    match coerceNodes n with
    | .error e => .error e
    | .ok ns =>
      match readAttrs (step name) init false ns with
      | .error e => .error e
      | .ok (a, bad) => finish name a bad

/-! ### Columns -/

/-- /repo/src/definition/ddl/column.rs:35-48 `parse_column_expression`: what the regular expression
`^([^=!]+)(!)?(?:\s*=\s*(.+))?$` captures, written out as an algorithm (the longest run without `=`
and `!`; an exclamation mark or not; then the end, or an equals sign and a non-empty rest of one
line). -/
def parseColumnExpr (input : List Char) : Except Fail (List Char × Bool × Option (List Char)) :=
  let inType := fun c : Char => c != '=' && c != '!'
  let ty := input.takeWhile inType
  let rest := input.dropWhile inType
  if ty = [] then .error .error
  else
    let notNull := rest.head? = some '!'
    let rest' := if notNull then rest.tail else rest
    match rest' with
    | [] => .ok (trim ty, notNull, none)
    | _ =>
      match rest'.dropWhile isWs with
      | '=' :: body =>
        match body.dropWhile isWs with
        | [] =>
          match body.getLast? with
          | none => .error .error
          | some c => if c = '\n' then .error .error else .ok (trim ty, notNull, some [])
        | b => if '\n' ∈ b then .error .error else .ok (trim ty, notNull, some (trim b))
      | _ => .error .error

/-- /repo/src/definition/ddl/column.rs:50-64 `render_column_expression`. -/
def renderColumnExpr (ty : String) (notNull : Bool) (default : Option String) : String :=
  ty ++ (if notNull then "!" else "") ++
    (match default with
     | none => ""
     | some d => " = " ++ d)

/-- /repo/src/definition/ddl/column.rs:9-25 `parse_column_definition`. -/
def parseColumn (schema table : String) (n : Node) : Except Fail Column :=
  assertKind n "column" <|
  match coerceName n with
  | .error e => .error e
  | .ok name =>
    match coerceStr n with
    | .error e => .error e
    | .ok s =>
      match parseColumnExpr s.toList with
      | .error e => .error e
      | .ok (ty, notNull, d) =>
        .ok ⟨schema, table, name, String.ofList ty, notNull, d.map String.ofList⟩

/-- /repo/src/definition/ddl/column.rs:27-33 `render_column_definition`. -/
def renderColumn (c : Column) : Node :=
  .leaf "column" (some c.name) (some (.string (renderColumnExpr c.dataType c.notNull c.default)))

/-! ### Constraints -/

/-- /repo/src/definition/ddl/check.rs:23-25: the attributes read so far. -/
structure CheckAttrs where
  expression : Option String := none
  deferrable : Option Bool := none
  initiallyDeferred : Option Bool := none

/-- /repo/src/definition/ddl/check.rs:28-39. -/
def checkStep (a : CheckAttrs) (n : Node) : Except Fail CheckAttrs :=
  if n.kind = "check" then
    match coerceStr n with
    | .ok v => .ok { a with expression := some v }
    | .error e => .error e
  else if n.kind = "deferrable" then
    match coerceBool n with
    | .ok v => .ok { a with deferrable := some v }
    | .error e => .error e
  else if n.kind = "initially deferred" then
    match coerceBool n with
    | .ok v => .ok { a with initiallyDeferred := some v }
    | .error e => .error e
  else .error .error

/-- /repo/src/definition/ddl/check.rs:44-65, with the defaults of /repo/src/definition/defaults.rs:1-7. -/
def finishCheck (schema table name : String) (a : CheckAttrs) (bad : Bool) : Except Fail Check :=
  match a.expression, bad with
  | some e, false =>
    .ok ⟨schema, table, name, e, a.deferrable.getD false, a.initiallyDeferred.getD false⟩
  | _, _ => .error .error

/-- /repo/src/definition/ddl/check.rs:12-66 `parse_check_constraint_definition`. -/
def parseCheck (schema table : String) (n : Node) : Except Fail Check :=
  readNode "constraint" (fun _ => checkStep) {} (finishCheck schema table) n

/-- The nodes for the two flags of a constraint, when they are not the default
(/repo/src/definition/ddl/check.rs:73-80 and the like, /repo/src/definition/defaults.rs:1-7). -/
def renderFlags (deferrable initiallyDeferred : Bool) : List Node :=
  (if deferrable != false then [Node.ofBool "deferrable" deferrable] else []) ++
  (if initiallyDeferred != false then [Node.ofBool "initially deferred" initiallyDeferred] else [])

/-- /repo/src/definition/ddl/check.rs:68-85 `render_check_constraint_definition`. -/
def renderCheck (c : Check) : Node :=
  .branch "constraint" (some c.name)
    (Node.ofStr "check" c.expression :: renderFlags c.deferrable c.initiallyDeferred)

/-- /repo/src/definition/ddl/primarykey.rs:25-27: the attributes read so far. -/
structure PrimaryKeyAttrs where
  columns : Option (List String) := none
  deferrable : Option Bool := none
  initiallyDeferred : Option Bool := none

/-- /repo/src/definition/ddl/primarykey.rs:30-37. -/
def primaryKeyStep (a : PrimaryKeyAttrs) (n : Node) : Except Fail PrimaryKeyAttrs :=
  if n.kind = "primary key" then
    match coerceVarargs n with
    | .ok v => .ok { a with columns := some v }
    | .error e => .error e
  else if n.kind = "deferrable" then
    match coerceBool n with
    | .ok v => .ok { a with deferrable := some v }
    | .error e => .error e
  else if n.kind = "initially deferred" then
    match coerceBool n with
    | .ok v => .ok { a with initiallyDeferred := some v }
    | .error e => .error e
  else .error .error

/-- /repo/src/definition/ddl/primarykey.rs:42-63. -/
def finishPrimaryKey (schema table name : String) (a : PrimaryKeyAttrs) (bad : Bool) :
    Except Fail PrimaryKey :=
  match a.columns, bad with
  | some cs, false =>
    .ok ⟨schema, table, name, cs, a.deferrable.getD false, a.initiallyDeferred.getD false⟩
  | _, _ => .error .error

/-- /repo/src/definition/ddl/primarykey.rs:14-64 `parse_primary_key_definition`. -/
def parsePrimaryKey (schema table : String) (n : Node) : Except Fail PrimaryKey :=
  readNode "constraint" (fun _ => primaryKeyStep) {} (finishPrimaryKey schema table) n

/-- /repo/src/definition/ddl/primarykey.rs:66-81 `render_primary_key_definition`. -/
def renderPrimaryKey (k : PrimaryKey) : Node :=
  .branch "constraint" (some k.name)
    (Node.ofVarargs "primary key" none k.columns :: renderFlags k.deferrable k.initiallyDeferred)

/-- /repo/src/definition/ddl/unique.rs:25-27: the attributes read so far. -/
structure UniqueAttrs where
  columns : List String := []
  deferrable : Option Bool := none
  initiallyDeferred : Option Bool := none

/-- /repo/src/definition/ddl/unique.rs:30-37. -/
def uniqueStep (a : UniqueAttrs) (n : Node) : Except Fail UniqueAttrs :=
  if n.kind = "unique" then
    match coerceVarargs n with
    | .ok v => .ok { a with columns := v }
    | .error e => .error e
  else if n.kind = "deferrable" then
    match coerceBool n with
    | .ok v => .ok { a with deferrable := some v }
    | .error e => .error e
  else if n.kind = "initially deferred" then
    match coerceBool n with
    | .ok v => .ok { a with initiallyDeferred := some v }
    | .error e => .error e
  else .error .error

/-- /repo/src/definition/ddl/unique.rs:42-63. -/
def finishUnique (schema table name : String) (a : UniqueAttrs) (bad : Bool) : Except Fail Unique :=
  match a.columns, bad with
  | c :: cs, false =>
    .ok ⟨schema, table, name, c :: cs, a.deferrable.getD false, a.initiallyDeferred.getD false⟩
  | _, _ => .error .error

/-- /repo/src/definition/ddl/unique.rs:14-64 `parse_unique_definition`. -/
def parseUnique (schema table : String) (n : Node) : Except Fail Unique :=
  readNode "constraint" (fun _ => uniqueStep) {} (finishUnique schema table) n

/-- /repo/src/definition/ddl/unique.rs:66-79 `render_unique_definition`. -/
def renderUnique (u : Unique) : Node :=
  .branch "constraint" (some u.name)
    (Node.ofVarargs "unique" none u.columns :: renderFlags u.deferrable u.initiallyDeferred)

/-- /repo/src/definition/ddl/foreignkey.rs:101-108 `parse_table_reference`. -/
def parseTableRef (searchPath input : String) : Except Fail (String × String) :=
  match splitDot input.toList with
  | [t] => .ok (searchPath, String.ofList t)
  | [s, t] => .ok (String.ofList s, String.ofList t)
  | _ => .error .error

/-- /repo/src/definition/ddl/foreignkey.rs:110-116 `render_table_reference`. -/
def renderTableRef (ctx schema table : String) : String :=
  if schema = ctx then table else schema ++ "." ++ table

/-- /repo/src/definition/ddl/foreignkey.rs:25-33: the attributes read so far (the target schema and
table are always set together). -/
structure ForeignKeyAttrs where
  columns : Option (List String) := none
  target : Option (String × String) := none
  targetColumns : List String := []
  deferrable : Option Bool := none
  initiallyDeferred : Option Bool := none
  matchOption : Option String := none
  updateRule : Option String := none
  deleteRule : Option String := none

/-- /repo/src/definition/ddl/foreignkey.rs:38-55. -/
def foreignKeyStep (schema : String) (a : ForeignKeyAttrs) (n : Node) :
    Except Fail ForeignKeyAttrs :=
  if n.kind = "foreign key" then
    match coerceVarargs n with
    | .ok v => .ok { a with columns := some v }
    | .error e => .error e
  else if n.kind = "references" then
    match coerceNameVarargs n with
    | .ok (name, v) =>
      match parseTableRef schema name with
      | .ok r => .ok { a with target := some r, targetColumns := v }
      | .error e => .error e
    | .error e => .error e
  else if n.kind = "deferrable" then
    match coerceBool n with
    | .ok v => .ok { a with deferrable := some v }
    | .error e => .error e
  else if n.kind = "initially deferred" then
    match coerceBool n with
    | .ok v => .ok { a with initiallyDeferred := some v }
    | .error e => .error e
  else if n.kind = "match" then
    match coerceStr n with
    | .ok v => .ok { a with matchOption := some v }
    | .error e => .error e
  else if n.kind = "on update" then
    match coerceStr n with
    | .ok v => .ok { a with updateRule := some v }
    | .error e => .error e
  else if n.kind = "on delete" then
    match coerceStr n with
    | .ok v => .ok { a with deleteRule := some v }
    | .error e => .error e
  else .error .error

/-- /repo/src/definition/ddl/foreignkey.rs:59-98, with the defaults of /repo/src/definition/defaults.rs:1-19. -/
def finishForeignKey (schema table name : String) (a : ForeignKeyAttrs) (bad : Bool) :
    Except Fail ForeignKey :=
  match a.columns, a.target, a.targetColumns, bad with
  | some cs, some (ts, tt), t :: tcs, false =>
    .ok { schemaName := schema, tableName := table, name := name, columns := cs,
          targetSchema := ts, targetTable := tt, targetColumns := t :: tcs,
          matchOption := a.matchOption.getD "SIMPLE",
          updateRule := a.updateRule.getD "NO ACTION",
          deleteRule := a.deleteRule.getD "NO ACTION",
          deferrable := a.deferrable.getD false,
          initiallyDeferred := a.initiallyDeferred.getD false }
  | _, _, _, _ => .error .error

/-- /repo/src/definition/ddl/foreignkey.rs:15-99 `parse_foreign_key_constraint_definition`, with the
defaults of /repo/src/definition/defaults.rs:1-19. -/
def parseForeignKey (schema table : String) (n : Node) : Except Fail ForeignKey :=
  readNode "constraint" (fun _ => foreignKeyStep schema) {} (finishForeignKey schema table) n

/-- A node for a string attribute when it is not the default. -/
def strUnless (kind default v : String) : List Node :=
  if v != default then [Node.ofStr kind v] else []

/-- /repo/src/definition/ddl/foreignkey.rs:118-151 `render_foreign_key_constraint_definition`. -/
def renderForeignKey (ctx : String) (k : ForeignKey) : Node :=
  .branch "constraint" (some k.name)
    (Node.ofVarargs "foreign key" none k.columns ::
     Node.ofVarargs "references" (some (renderTableRef ctx k.targetSchema k.targetTable))
       k.targetColumns ::
     (renderFlags k.deferrable k.initiallyDeferred ++
      strUnless "match" "SIMPLE" k.matchOption ++
      strUnless "on update" "NO ACTION" k.updateRule ++
      strUnless "on delete" "NO ACTION" k.deleteRule))

/-- /repo/src/definition/ddl/constraint.rs:20-49 `parse_constraint_definition`: the first child decides;
another kind, or no child, reaches `unreachable!`. -/
def parseConstraint (schema table : String) (n : Node) : Except Fail Constraint :=
  match coerceNodes n with
  | .error e => .error e
  | .ok [] => .error .panic
  | .ok (cn :: _) =>
    if cn.kind = "primary key" then
      match parsePrimaryKey schema table n with
      | .ok d => .ok (.primaryKey d)
      | .error e => .error e
    else if cn.kind = "unique" then
      match parseUnique schema table n with
      | .ok d => .ok (.unique d)
      | .error e => .error e
    else if cn.kind = "foreign key" then
      match parseForeignKey schema table n with
      | .ok d => .ok (.foreignKey d)
      | .error e => .error e
    else if cn.kind = "check" then
      match parseCheck schema table n with
      | .ok d => .ok (.check d)
      | .error e => .error e
    else .error .panic

/-- /repo/src/definition/ddl/constraint.rs:51-58 `render_constraint_definition`. -/
def renderConstraint (ctx : String) : Constraint → Node
  | .primaryKey k => renderPrimaryKey k
  | .unique u => renderUnique u
  | .foreignKey k => renderForeignKey ctx k
  | .check c => renderCheck c

/-! ### Tables -/

/-- /repo/src/definition/ddl/table.rs:27-35; the columns and constraints parsed so far. -/
def tableStep (schema name : String) (a : List Column × List Constraint) (n : Node) :
    Except Fail (List Column × List Constraint) :=
  if n.kind = "column" then
    match parseColumn schema name n with
    | .ok c => .ok (a.1 ++ [c], a.2)
    | .error e => .error e
  else if n.kind = "constraint" then
    match parseConstraint schema name n with
    | .ok c => .ok (a.1, a.2 ++ [c])
    | .error e => .error e
  else .error .error

/-- /repo/src/definition/ddl/table.rs:45-47: `add_column(…).unwrap()` for each column. -/
def addColumns : Table → List Column → Except Fail Table
  | t, [] => .ok t
  | t, c :: cs =>
    match t.addColumn c with
    | .error _ => .error .panic
    | .ok t' => addColumns t' cs

/-- /repo/src/definition/ddl/table.rs:48-50: `add_constraint(…).unwrap()` for each constraint. -/
def addConstraints : Table → List Constraint → Except Fail Table
  | t, [] => .ok t
  | t, c :: cs =>
    match t.addConstraint c with
    | .error _ => .error .panic
    | .ok t' => addConstraints t' cs

/-- /repo/src/definition/ddl/table.rs:40-52. -/
def finishTable (schema name : String) (a : List Column × List Constraint) (bad : Bool) :
    Except Fail Table :=
  if bad then .error .error
  else
    match addColumns (Table.new schema name) a.1 with
    | .error e => .error e
    | .ok t => addConstraints t a.2

/-- /repo/src/definition/ddl/table.rs:16-53 `parse_table_definition`. -/
def parseTable (schema : String) (n : Node) : Except Fail Table :=
  readNode "table" (tableStep schema) ([], []) (finishTable schema) n

/-- /repo/src/definition/ddl/table.rs:55-68 `render_table_definition`. -/
def renderTable (ctx : String) (t : Table) : Node :=
  .branch "table" (some t.name)
    (t.columns.map renderColumn ++ t.constraints.values.map (renderConstraint ctx))

/-! ### Views, indexes, functions, sequences -/

/-- /repo/src/definition/ddl/view.rs:21-24; the query read so far. -/
def viewStep (_a : Option String) (n : Node) : Except Fail (Option String) :=
  if n.kind = "as" then
    match coerceStr n with
    | .ok v => .ok (some v)
    | .error e => .error e
  else .error .error

/-- /repo/src/definition/ddl/view.rs:29-41. -/
def finishView (ctx name : String) (a : Option String) (bad : Bool) : Except Fail View :=
  match a, bad with
  | some q, false => .ok ⟨ctx, name, q⟩
  | _, _ => .error .error

/-- /repo/src/definition/ddl/view.rs:11-42 `parse_view_definition`. -/
def parseView (ctx : String) (n : Node) : Except Fail View :=
  readNode "view" (fun _ => viewStep) none (finishView ctx) n

/-- /repo/src/definition/ddl/view.rs:44-57 `render_view_definition`; the assertion can panic. -/
def renderView (ctx : String) (v : View) : Except Fail Node :=
  if v.schemaName = ctx then
    .ok (.branch "view" (some v.name) (if v.query != "" then [Node.ofStr "as" v.query] else []))
  else .error .panic

/-- /repo/src/definition/ddl/index.rs:22-25: the attributes read so far (table and keys are always set
together). -/
structure IndexAttrs where
  on : Option (String × List String) := none
  unique : Option Bool := none
  method : Option String := none

/-- /repo/src/definition/ddl/index.rs:28-37. -/
def indexStep (a : IndexAttrs) (n : Node) : Except Fail IndexAttrs :=
  if n.kind = "unique" then
    match coerceBool n with
    | .ok v => .ok { a with unique := some v }
    | .error e => .error e
  else if n.kind = "on" then
    match coerceNameVarargs n with
    | .ok v => .ok { a with on := some v }
    | .error e => .error e
  else if n.kind = "using" then
    match coerceStr n with
    | .ok v => .ok { a with method := some v }
    | .error e => .error e
  else .error .error

/-- /repo/src/definition/ddl/index.rs:42-59: the errors are collected and then dropped; a missing table is
unwrapped. -/
def finishIndex (ctx name : String) (a : IndexAttrs) (_bad : Bool) : Except Fail Index :=
  match a.on with
  | none => .error .panic
  | some (table, keys) =>
    .ok { schemaName := ctx, name := name, tableName := table,
          unique := a.unique.getD false, method := a.method.getD "btree",
          keyExpressions := keys }

/-- /repo/src/definition/ddl/index.rs:15-60 `parse_index_definition`: the errors are collected and then
dropped; a missing table is unwrapped. -/
def parseIndex (ctx : String) (n : Node) : Except Fail Index :=
  readNode "index" (fun _ => indexStep) {} (finishIndex ctx) n

/-- /repo/src/definition/ddl/index.rs:62-80 `render_index_definition`. -/
def renderIndex (i : Index) : Node :=
  .branch "index" (some i.name)
    ((if i.unique != false then [Node.ofBool "unique" i.unique] else []) ++
     strUnless "using" "btree" i.method ++
     [Node.ofVarargs "on" (some i.tableName) i.keyExpressions])

/-- /repo/src/definition/ddl/function.rs:19-22: the attributes read so far. -/
structure FunctionAttrs where
  body : Option String := none
  language : Option String := none
  returns : Option String := none
  volatility : Option String := none

/-- /repo/src/definition/ddl/function.rs:25-31. -/
def functionStep (a : FunctionAttrs) (n : Node) : Except Fail FunctionAttrs :=
  if n.kind = "as" then
    match coerceStr n with
    | .ok v => .ok { a with body := some v }
    | .error e => .error e
  else if n.kind = "language" then
    match coerceStr n with
    | .ok v => .ok { a with language := some v }
    | .error e => .error e
  else if n.kind = "returns" then
    match coerceStr n with
    | .ok v => .ok { a with returns := some v }
    | .error e => .error e
  else if n.kind = "volatility" then
    match coerceStr n with
    | .ok v => .ok { a with volatility := some v }
    | .error e => .error e
  else .error .error

/-- /repo/src/definition/ddl/function.rs:36-60, with the defaults of /repo/src/definition/defaults.rs:49-59. -/
def finishFunction (ctx name : String) (a : FunctionAttrs) (bad : Bool) : Except Fail Function :=
  match a.body, bad with
  | some b, false =>
    .ok { schemaName := ctx, name := name, body := b, language := a.language.getD "SQL",
          returns := a.returns.getD "void", volatility := a.volatility.getD "VOLATILE" }
  | _, _ => .error .error

/-- /repo/src/definition/ddl/function.rs:12-61 `parse_function_definition`, with the defaults of
/repo/src/definition/defaults.rs:49-59. -/
def parseFunction (ctx : String) (n : Node) : Except Fail Function :=
  readNode "function" (fun _ => functionStep) {} (finishFunction ctx) n

/-- /repo/src/definition/ddl/function.rs:63-81 `render_function_definition`. -/
def renderFunction (f : Function) : Node :=
  .branch "function" (some f.name)
    (Node.ofStr "as" f.body ::
     (strUnless "language" "SQL" f.language ++ strUnless "returns" "void" f.returns ++
      strUnless "volatility" "VOLATILE" f.volatility))

/-- /repo/src/definition/defaults.rs:77-87 `get_sequence_min_value`. -/
def seqMin (increment : Int) (dataType : String) : Except Fail Int :=
  if increment ≥ 0 then .ok 1
  else if dataType = "int2" then .ok (-32768)
  else if dataType = "int4" then .ok (-2147483648)
  else if dataType = "int8" then .ok (-9223372036854775808)
  else .error .panic

/-- /repo/src/definition/defaults.rs:89-99 `get_sequence_max_value`. -/
def seqMax (increment : Int) (dataType : String) : Except Fail Int :=
  if increment < 0 then .ok (-1)
  else if dataType = "int2" then .ok 32767
  else if dataType = "int4" then .ok 2147483647
  else if dataType = "int8" then .ok 9223372036854775807
  else .error .panic

/-- /repo/src/definition/defaults.rs:101-107 `get_sequence_start`. -/
def seqStart (increment min max : Int) : Int := if increment ≥ 0 then min else max

/-- /repo/src/definition/ddl/sequence.rs:22-30: the attributes read so far (table and column of the
owner are always set together). -/
structure SequenceAttrs where
  dataType : Option String := none
  increment : Option Int := none
  minValue : Option Int := none
  maxValue : Option Int := none
  start : Option Int := none
  cache : Option Int := none
  cycle : Option Bool := none
  ownedBy : Option (String × String) := none

/-- /repo/src/definition/ddl/sequence.rs:33-47. -/
def sequenceStep (a : SequenceAttrs) (n : Node) : Except Fail SequenceAttrs :=
  if n.kind = "as" then
    match coerceStr n with
    | .ok v => .ok { a with dataType := some v }
    | .error e => .error e
  else if n.kind = "increment" then
    match coerceInt n with
    | .ok v => .ok { a with increment := some v }
    | .error e => .error e
  else if n.kind = "minvalue" then
    match coerceInt n with
    | .ok v => .ok { a with minValue := some v }
    | .error e => .error e
  else if n.kind = "maxvalue" then
    match coerceInt n with
    | .ok v => .ok { a with maxValue := some v }
    | .error e => .error e
  else if n.kind = "start" then
    match coerceInt n with
    | .ok v => .ok { a with start := some v }
    | .error e => .error e
  else if n.kind = "cache" then
    match coerceInt n with
    | .ok v => .ok { a with cache := some v }
    | .error e => .error e
  else if n.kind = "cycle" then
    match coerceBool n with
    | .ok v => .ok { a with cycle := some v }
    | .error e => .error e
  else if n.kind = "owned by" then
    match coerceNameStr n with
    | .ok v => .ok { a with ownedBy := some v }
    | .error e => .error e
  else .error .error

/-- `if x.is_none() { x = Some(default) }` where computing the default may panic. -/
def orDefault {α : Type} (x : Option α) (default : Except Fail α) : Except Fail α :=
  match x with
  | some v => .ok v
  | none => default

/-- /repo/src/definition/ddl/sequence.rs:52-100, with the defaults of
/repo/src/definition/defaults.rs:61-107; the defaults are computed before the errors are looked at. -/
def finishSequence (ctx name : String) (a : SequenceAttrs) (bad : Bool) : Except Fail Sequence :=
  let dataType := a.dataType.getD "int8"
  let increment := a.increment.getD 1
  match orDefault a.minValue (seqMin increment dataType) with
  | .error e => .error e
  | .ok min =>
    match orDefault a.maxValue (seqMax increment dataType) with
    | .error e => .error e
    | .ok max =>
      if bad then .error .error
      else
        .ok { schemaName := ctx, name := name, dataType := dataType, increment := increment,
              minValue := min, maxValue := max,
              start := a.start.getD (seqStart increment min max),
              cache := a.cache.getD 1, cycle := a.cycle.getD false,
              ownedByTable := a.ownedBy.map Prod.fst,
              ownedByColumn := a.ownedBy.map Prod.snd }

/-- /repo/src/definition/ddl/sequence.rs:15-101 `parse_sequence_definition`, with the defaults of
/repo/src/definition/defaults.rs:61-75; the defaults are computed before the errors are looked at. -/
def parseSequence (ctx : String) (n : Node) : Except Fail Sequence :=
  readNode "sequence" (fun _ => sequenceStep) {} (finishSequence ctx) n

/-- A node for an integer attribute when it is not the default. -/
def intUnless (kind : String) (default v : Int) : List Node :=
  if v != default then [Node.ofInt kind v] else []

/-- /repo/src/definition/ddl/sequence.rs:127-133: the owner; a table without a column is unwrapped. -/
def renderOwner (s : Sequence) : Except Fail (List Node) :=
  match s.ownedByTable, s.ownedByColumn with
  | none, _ => .ok []
  | some t, some c => .ok [.leaf "owned by" (some t) (some (.string c))]
  | some _, none => .error .panic

/-- /repo/src/definition/ddl/sequence.rs:103-138 `render_sequence_definition`. -/
def renderSequence (s : Sequence) : Except Fail Node :=
  match seqMin s.increment s.dataType with
  | .error e => .error e
  | .ok min =>
    match seqMax s.increment s.dataType with
    | .error e => .error e
    | .ok max =>
      match renderOwner s with
      | .error e => .error e
      | .ok owner =>
        .ok (.branch "sequence" (some s.name)
          (strUnless "as" "int8" s.dataType ++ intUnless "increment" 1 s.increment ++
           intUnless "minvalue" min s.minValue ++ intUnless "maxvalue" max s.maxValue ++
           intUnless "start" (seqStart s.increment s.minValue s.maxValue) s.start ++
           intUnless "cache" 1 s.cache ++
           (if s.cycle != false then [Node.ofBool "cycle" s.cycle] else []) ++ owner))

/-! ### Schemas and files -/

/-- /repo/src/definition/ddl/schema.rs:36-53; the relations and functions parsed so far. -/
def schemaStep (name : String) (a : List Relation × List Function) (n : Node) :
    Except Fail (List Relation × List Function) :=
  if n.kind = "table" then
    match parseTable name n with
    | .ok t => .ok (a.1 ++ [.table t], a.2)
    | .error e => .error e
  else if n.kind = "view" then
    match parseView name n with
    | .ok v => .ok (a.1 ++ [.view v], a.2)
    | .error e => .error e
  else if n.kind = "sequence" then
    match parseSequence name n with
    | .ok s => .ok (a.1 ++ [.sequence s], a.2)
    | .error e => .error e
  else if n.kind = "index" then
    match parseIndex name n with
    | .ok i => .ok (a.1 ++ [.index i], a.2)
    | .error e => .error e
  else if n.kind = "function" then
    match parseFunction name n with
    | .ok f => .ok (a.1, a.2 ++ [f])
    | .error e => .error e
  else .error .error

/-- /repo/src/definition/ddl/schema.rs:58-70; adding to the schema is unwrapped. -/
def finishSchema (name : String) (a : List Relation × List Function) (bad : Bool) :
    Except Fail Schema :=
  if bad then .error .error
  else
    match (Schema.new name).addRelations a.1 with
    | .error _ => .error .panic
    | .ok s =>
      match s.addFunctions a.2 with
      | .error _ => .error .panic
      | .ok s' => .ok s'

/-- /repo/src/definition/ddl/schema.rs:23-71 `parse_schema_definition`; adding to the schema is
unwrapped. -/
def parseSchema (n : Node) : Except Fail Schema :=
  readNode "schema" schemaStep ([], []) finishSchema n

/-- /repo/src/definition/ddl/schema.rs:79-92. -/
def renderRelation (ctx : String) : Relation → Except Fail Node
  | .table t => .ok (renderTable ctx t)
  | .view v => renderView ctx v
  | .index i => .ok (renderIndex i)
  | .sequence s => renderSequence s

/-- /repo/src/definition/ddl/schema.rs:78-93: the loop over the relations. -/
def renderRelations (ctx : String) : List Relation → Except Fail (List Node)
  | [] => .ok []
  | r :: rs =>
    match renderRelation ctx r with
    | .error e => .error e
    | .ok n =>
      match renderRelations ctx rs with
      | .error e => .error e
      | .ok ns => .ok (n :: ns)

/-- /repo/src/definition/ddl/schema.rs:73-101 `render_schema_definition`. -/
def renderSchema (s : Schema) : Except Fail Node :=
  match renderRelations s.name s.relations.values with
  | .error e => .error e
  | .ok ns =>
    .ok (.branch "schema" (some s.name) (ns ++ s.functions.values.map renderFunction))

/-- /repo/src/definition/mod.rs:21-23: the loop over the schemas. -/
def renderSchemas : List Schema → Except Fail (List Node)
  | [] => .ok []
  | s :: ss =>
    match renderSchema s with
    | .error e => .error e
    | .ok n =>
      match renderSchemas ss with
      | .error e => .error e
      | .ok ns => .ok (n :: ns)

/-- /repo/src/definition/mod.rs:18-26 `save_snapshot` up to the YAML value that is written. -/
def saveDoc (d : Database) : Except Fail Yaml :=
  match renderSchemas d.schemas.values with
  | .error e => .error e
  | .ok ns => .ok (mapOf (renderMapping ns))

/-- /repo/src/definition/mod.rs:59-60: parsing each node of a file as a schema. -/
def parseSchemas : List Node → Except Fail (List Schema)
  | [] => .ok []
  | n :: ns =>
    match parseSchema n with
    | .error e => .error e
    | .ok s =>
      match parseSchemas ns with
      | .error e => .error e
      | .ok ss => .ok (s :: ss)

/-- An error of the parser as a result of loading. -/
def loadFail : Fail → LoadError
  | .error => .parse ""
  | .panic => .panic

/-- /repo/src/definition/mod.rs:54-60 on the YAML value of a file: a document that is not a mapping is
an error of `serde_yaml`. -/
def parseDoc (y : Yaml) : Except LoadError (List Schema) :=
  match y with
  | .map ks vs =>
    match parseMapping ks vs with
    | .error e => .error (loadFail e)
    | .ok ns =>
      match parseSchemas ns with
      | .error e => .error (loadFail e)
      | .ok ss => .ok ss
  | _ => .error (.parse "")

/-- /repo/src/definition/mod.rs:57-69: the loop of `load_yaml_string` over the nodes of a file. -/
def loadNodes : Database → List Node → Except LoadError Database
  | d, [] => .ok d
  | d, n :: ns =>
    match parseSchema n with
    | .error e => .error (loadFail e)
    | .ok s =>
      match d.mergeOne s.name s with
      | .error e => .error (.snapshot e)
      | .ok d' => loadNodes d' ns

/-- /repo/src/definition/mod.rs:53-70 `load_yaml_string` on the YAML value of a file. -/
def loadDoc (y : Yaml) : Except LoadError Database :=
  match y with
  | .map ks vs =>
    match parseMapping ks vs with
    | .error e => .error (loadFail e)
    | .ok ns => loadNodes Database.new ns
  | _ => .error (.parse "")

/-- /repo/src/definition/mod.rs:38-40 and 45-51: the loop over the collected files with
`load_yaml_file_into`, each file parsed and added node by node before it is merged.  (`Load.snapshot` is
the same with all nodes of a file parsed first, which accepts the same directories.) -/
def loadFiles : Database → List Yaml → Except LoadError Database
  | d, [] => .ok d
  | d, f :: fs =>
    match loadDoc f with
    | .error e => .error e
    | .ok fd =>
      match d.merge fd with
      | .error e => .error (.snapshot e)
      | .ok d' => loadFiles d' fs

/-- /repo/src/definition/mod.rs:33-43 `load_snpashot` on a directory. -/
def loadDir (es : List (DirTree Yaml)) : Except LoadError Database :=
  loadFiles Database.new (Load.collect es)

end Def
end Podo
