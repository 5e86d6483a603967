import Verif.Model.Ddl
/-
Model of the errors of the definition parser: /repo/src/definition/ddl/error.rs,
/repo/src/definition/ddl/coerce.rs and the error branches of the parsers of `Verif.Model.Ddl`.  The
functions here are those of `Verif.Model.Ddl` and `Verif.Model.Node` with the errors they return; that
they agree in everything else is proved in `Verif.Proofs.DdlErrors`.
-/
namespace Podo
namespace Def
open Text

/-- /repo/src/definition/ddl/error.rs:4-34 `Error`. -/
inductive DefError where
  | unexpectedNode (node : String)
  | nameRequired (node : String)
  | childNodesRequired (node : String)
  | attributeRequired (node attr : String)
  | invalidTypeAttribute (node expected : String)
  | invalidTypeExpression (text : String)
  | invalidTableReference (text : String)
  | invalidColumnReference (text : String)
  | hasErrors (node : String) (errors : List DefError)
deriving Repr

mutual
/-- /repo/src/definition/ddl/error.rs:82-141 `fmt`. -/
def DefError.text : DefError → String
  | .unexpectedNode n => "unexpected node: " ++ n
  | .nameRequired n => "name required: " ++ n
  | .childNodesRequired n => "child nodes required: " ++ n
  | .attributeRequired n a => "attribute required: " ++ n ++ " " ++ a
  | .invalidTypeAttribute n e => "invalid type attribute: " ++ n ++ " expected " ++ e
  | .invalidTypeExpression t => "invalid type expression: " ++ t
  | .invalidTableReference t => "invalid table reference: " ++ t
  | .invalidColumnReference t => "invalid column reference: " ++ t
  | .hasErrors n es => "has errors: " ++ n ++ textsOfErrors es
/-- /repo/src/definition/ddl/error.rs:133-135: the loop over the errors. -/
def textsOfErrors : List DefError → String
  | [] => ""
  | e :: es => "\n  " ++ e.text ++ textsOfErrors es
end

/-- /repo/src/definition/base/node.rs:81-89 `display_string`. -/
def Node.display (n : Node) : String :=
  n.kind ++ (match n.name with
    | some name => " " ++ name
    | none => "")

/-- Why reading a definition ends without a result, with the error. -/
inductive FailE where
  | error (e : DefError)
  | panic
deriving Repr

/-- `ok_or_else(|| e)`. -/
def orErrE {α : Type} (o : Option α) (e : DefError) : Except FailE α :=
  match o with
  | some a => .ok a
  | none => .error (.error e)

/-- /repo/src/definition/ddl/coerce.rs:4-6 `coerce_name`. -/
def coerceNameE (n : Node) : Except FailE String := orErrE n.name (.nameRequired n.display)
/-- /repo/src/definition/ddl/coerce.rs:8-11 `coerce_nodes`. -/
def coerceNodesE (n : Node) : Except FailE (List Node) := orErrE n.nodes (.childNodesRequired n.display)
/-- /repo/src/definition/ddl/coerce.rs:13-16 `coerce_string_value`. -/
def coerceStrE (n : Node) : Except FailE String :=
  orErrE n.str (.invalidTypeAttribute n.display "string")
/-- /repo/src/definition/ddl/coerce.rs:18-29 `coerce_name_and_string_value`. -/
def coerceNameStrE (n : Node) : Except FailE (String × String) :=
  match n.name with
  | none => .error (.error (.nameRequired n.display))
  | some a =>
    match n.str with
    | none => .error (.error (.invalidTypeAttribute n.display "string"))
    | some s => .ok (a, s)
/-- /repo/src/definition/ddl/coerce.rs:31-42 `coerce_name_and_string_varargs_value`. -/
def coerceNameVarargsE (n : Node) : Except FailE (String × List String) :=
  match n.name with
  | none => .error (.error (.nameRequired n.display))
  | some a =>
    match n.varargs with
    | none => .error (.error (.invalidTypeAttribute n.display "...string"))
    | some s => .ok (a, s)
/-- /repo/src/definition/ddl/coerce.rs:44-47 `coerce_boolean_value`. -/
def coerceBoolE (n : Node) : Except FailE Bool :=
  orErrE n.bool (.invalidTypeAttribute n.display "boolean")
/-- /repo/src/definition/ddl/coerce.rs:49-52 `coerce_integer_value`. -/
def coerceIntE (n : Node) : Except FailE Int :=
  orErrE n.int (.invalidTypeAttribute n.display "integer")
/-- /repo/src/definition/ddl/coerce.rs:59-62 `coerce_string_varargs_value`. -/
def coerceVarargsE (n : Node) : Except FailE (List String) :=
  orErrE n.varargs (.invalidTypeAttribute n.display "...string")

/-- `_ => Err(Error::new_unexpected_node(cn))`, the last arm of every `match` over the children. -/
def unexpected {α : Type} (n : Node) : Except FailE α := .error (.error (.unexpectedNode n.display))

/-- The loop every parser runs over the child nodes, with the vector `errors`. -/
def readAttrsE {α : Type} (step : α → Node → Except FailE α) :
    α → List DefError → List Node → Except FailE (α × List DefError)
  | a, errors, [] => .ok (a, errors)
  | a, errors, n :: ns =>
    match step a n with
    | .ok a' => readAttrsE step a' errors ns
    | .error (.error e) => readAttrsE step a (errors ++ [e]) ns
    | .error .panic => .error .panic

/-- The shape all parsers below share: the assertion, the name, the child nodes, the loop, and the rest. -/
def readNodeE {α β : Type} (kind : String) (step : String → α → Node → Except FailE α) (init : α)
    (finish : String → α → List DefError → Except FailE β) (n : Node) : Except FailE β :=
  if n.kind = kind then
    match coerceNameE n with
    | .error e => .error e
    | .ok name =>
      match coerceNodesE n with
      | .error e => .error e
      | .ok ns =>
        match readAttrsE (step name) init [] ns with
        | .error e => .error e
        | .ok (a, errors) => finish name a errors
  else .error .panic

/-- `if !errors.is_empty() { return Err(Error::new_has_errors(n, errors)); }` in front of the rest. -/
def unlessErrors {β : Type} (n : Node) (errors : List DefError) (k : Except FailE β) : Except FailE β :=
  match errors with
  | [] => k
  | e :: es => .error (.error (.hasErrors n.display (e :: es)))

/-- `if x.is_none() { errors.push(Error::new_attribute_required(n, attr)); }`. -/
def needs (n : Node) (attr : String) (missing : Bool) (errors : List DefError) : List DefError :=
  if missing then errors ++ [.attributeRequired n.display attr] else errors

/-- `x.unwrap()`. -/
def unwrapE {α : Type} : Option α → Except FailE α
  | some a => .ok a
  | none => .error .panic

/-! ### Columns and constraints -/

/-- /repo/src/definition/ddl/column.rs:35-48 `parse_column_expression`. -/
def parseColumnExprE (input : String) : Except FailE (List Char × Bool × Option (List Char)) :=
  match parseColumnExpr input.toList with
  | .ok x => .ok x
  | .error _ => .error (.error (.invalidTypeExpression input))

/-- /repo/src/definition/ddl/column.rs:9-25 `parse_column_definition`. -/
def parseColumnE (schema table : String) (n : Node) : Except FailE Column :=
  if n.kind = "column" then
    match coerceNameE n with
    | .error e => .error e
    | .ok name =>
      match coerceStrE n with
      | .error e => .error e
      | .ok s =>
        match parseColumnExprE s with
        | .error (.error e) => .error (.error (.hasErrors n.display [e]))
        | .error .panic => .error .panic
        | .ok (ty, notNull, d) =>
          .ok ⟨schema, table, name, String.ofList ty, notNull, d.map String.ofList⟩
  else .error .panic

/-- /repo/src/definition/ddl/check.rs:28-39. -/
def checkStepE (a : CheckAttrs) (n : Node) : Except FailE CheckAttrs :=
  if n.kind = "check" then (coerceStrE n).map fun v => { a with expression := some v }
  else if n.kind = "deferrable" then (coerceBoolE n).map fun v => { a with deferrable := some v }
  else if n.kind = "initially deferred" then
    (coerceBoolE n).map fun v => { a with initiallyDeferred := some v }
  else unexpected n

/-- /repo/src/definition/ddl/check.rs:44-65. -/
def finishCheckE (schema table : String) (n : Node) (name : String) (a : CheckAttrs)
    (errors : List DefError) : Except FailE Check :=
  unlessErrors n (needs n "expression" a.expression.isNone errors) <|
  (unwrapE a.expression).map fun e =>
    ⟨schema, table, name, e, a.deferrable.getD false, a.initiallyDeferred.getD false⟩

/-- /repo/src/definition/ddl/check.rs:12-66 `parse_check_constraint_definition`. -/
def parseCheckE (schema table : String) (n : Node) : Except FailE Check :=
  readNodeE "constraint" (fun _ => checkStepE) {} (finishCheckE schema table n) n

/-- /repo/src/definition/ddl/primarykey.rs:30-37. -/
def primaryKeyStepE (a : PrimaryKeyAttrs) (n : Node) : Except FailE PrimaryKeyAttrs :=
  if n.kind = "primary key" then (coerceVarargsE n).map fun v => { a with columns := some v }
  else if n.kind = "deferrable" then (coerceBoolE n).map fun v => { a with deferrable := some v }
  else if n.kind = "initially deferred" then
    (coerceBoolE n).map fun v => { a with initiallyDeferred := some v }
  else unexpected n

/-- /repo/src/definition/ddl/primarykey.rs:42-63. -/
def finishPrimaryKeyE (schema table : String) (n : Node) (name : String) (a : PrimaryKeyAttrs)
    (errors : List DefError) : Except FailE PrimaryKey :=
  unlessErrors n (needs n "primary key" a.columns.isNone errors) <|
  (unwrapE a.columns).map fun cs =>
    ⟨schema, table, name, cs, a.deferrable.getD false, a.initiallyDeferred.getD false⟩

/-- /repo/src/definition/ddl/primarykey.rs:14-64 `parse_primary_key_definition`. -/
def parsePrimaryKeyE (schema table : String) (n : Node) : Except FailE PrimaryKey :=
  readNodeE "constraint" (fun _ => primaryKeyStepE) {} (finishPrimaryKeyE schema table n) n

/-- /repo/src/definition/ddl/unique.rs:30-37. -/
def uniqueStepE (a : UniqueAttrs) (n : Node) : Except FailE UniqueAttrs :=
  if n.kind = "unique" then (coerceVarargsE n).map fun v => { a with columns := v }
  else if n.kind = "deferrable" then (coerceBoolE n).map fun v => { a with deferrable := some v }
  else if n.kind = "initially deferred" then
    (coerceBoolE n).map fun v => { a with initiallyDeferred := some v }
  else unexpected n

/-- /repo/src/definition/ddl/unique.rs:42-63. -/
def finishUniqueE (schema table : String) (n : Node) (name : String) (a : UniqueAttrs)
    (errors : List DefError) : Except FailE Unique :=
  unlessErrors n (needs n "unique" a.columns.isEmpty errors) <|
  .ok ⟨schema, table, name, a.columns, a.deferrable.getD false, a.initiallyDeferred.getD false⟩

/-- /repo/src/definition/ddl/unique.rs:14-64 `parse_unique_definition`. -/
def parseUniqueE (schema table : String) (n : Node) : Except FailE Unique :=
  readNodeE "constraint" (fun _ => uniqueStepE) {} (finishUniqueE schema table n) n

/-- /repo/src/definition/ddl/foreignkey.rs:101-108 `parse_table_reference`. -/
def parseTableRefE (searchPath input : String) : Except FailE (String × String) :=
  match splitDot input.toList with
  | [t] => .ok (searchPath, String.ofList t)
  | [s, t] => .ok (String.ofList s, String.ofList t)
  | _ => .error (.error (.invalidTableReference input))

/-- /repo/src/definition/ddl/foreignkey.rs:38-55. -/
def foreignKeyStepE (schema : String) (a : ForeignKeyAttrs) (n : Node) : Except FailE ForeignKeyAttrs :=
  if n.kind = "foreign key" then (coerceVarargsE n).map fun v => { a with columns := some v }
  else if n.kind = "references" then
    (coerceNameVarargsE n).bind fun x =>
      (parseTableRefE schema x.1).map fun r => { a with target := some r, targetColumns := x.2 }
  else if n.kind = "deferrable" then (coerceBoolE n).map fun v => { a with deferrable := some v }
  else if n.kind = "initially deferred" then
    (coerceBoolE n).map fun v => { a with initiallyDeferred := some v }
  else if n.kind = "match" then (coerceStrE n).map fun v => { a with matchOption := some v }
  else if n.kind = "on update" then (coerceStrE n).map fun v => { a with updateRule := some v }
  else if n.kind = "on delete" then (coerceStrE n).map fun v => { a with deleteRule := some v }
  else unexpected n

/-- /repo/src/definition/ddl/foreignkey.rs:59-98. -/
def finishForeignKeyE (schema table : String) (n : Node) (name : String) (a : ForeignKeyAttrs)
    (errors : List DefError) : Except FailE ForeignKey :=
  unlessErrors n (needs n "references" (a.target.isNone || a.targetColumns.isEmpty)
    (needs n "columns" a.columns.isNone errors)) <|
  (unwrapE a.columns).bind fun cs => (unwrapE a.target).map fun t =>
    { schemaName := schema, tableName := table, name := name, columns := cs,
      targetSchema := t.1, targetTable := t.2, targetColumns := a.targetColumns,
      matchOption := a.matchOption.getD "SIMPLE",
      updateRule := a.updateRule.getD "NO ACTION",
      deleteRule := a.deleteRule.getD "NO ACTION",
      deferrable := a.deferrable.getD false,
      initiallyDeferred := a.initiallyDeferred.getD false }

/-- /repo/src/definition/ddl/foreignkey.rs:15-99 `parse_foreign_key_constraint_definition`. -/
def parseForeignKeyE (schema table : String) (n : Node) : Except FailE ForeignKey :=
  readNodeE "constraint" (fun _ => foreignKeyStepE schema) {} (finishForeignKeyE schema table n) n

/-- /repo/src/definition/ddl/constraint.rs:20-49 `parse_constraint_definition`. -/
def parseConstraintE (schema table : String) (n : Node) : Except FailE Constraint :=
  match coerceNodesE n with
  | .error e => .error e
  | .ok [] => .error .panic
  | .ok (cn :: _) =>
    if cn.kind = "primary key" then (parsePrimaryKeyE schema table n).map .primaryKey
    else if cn.kind = "unique" then (parseUniqueE schema table n).map .unique
    else if cn.kind = "foreign key" then (parseForeignKeyE schema table n).map .foreignKey
    else if cn.kind = "check" then (parseCheckE schema table n).map .check
    else .error .panic

/-! ### Relations and functions -/

/-- `.unwrap()` on a result of the model without error values. -/
def unwrapFail {α : Type} : Except Fail α → Except FailE α
  | .ok a => .ok a
  | .error _ => .error .panic

/-- /repo/src/definition/ddl/table.rs:27-35. -/
def tableStepE (schema name : String) (a : List Column × List Constraint) (n : Node) :
    Except FailE (List Column × List Constraint) :=
  if n.kind = "column" then (parseColumnE schema name n).map fun c => (a.1 ++ [c], a.2)
  else if n.kind = "constraint" then (parseConstraintE schema name n).map fun c => (a.1, a.2 ++ [c])
  else unexpected n

/-- /repo/src/definition/ddl/table.rs:40-52. -/
def finishTableE (schema : String) (n : Node) (name : String) (a : List Column × List Constraint)
    (errors : List DefError) : Except FailE Table :=
  unlessErrors n errors <|
  (unwrapFail (addColumns (Table.new schema name) a.1)).bind fun t => unwrapFail (addConstraints t a.2)

/-- /repo/src/definition/ddl/table.rs:16-53 `parse_table_definition`. -/
def parseTableE (schema : String) (n : Node) : Except FailE Table :=
  readNodeE "table" (tableStepE schema) ([], []) (finishTableE schema n) n

/-- /repo/src/definition/ddl/view.rs:21-24. -/
def viewStepE (_a : Option String) (n : Node) : Except FailE (Option String) :=
  if n.kind = "as" then (coerceStrE n).map some else unexpected n

/-- /repo/src/definition/ddl/view.rs:29-41. -/
def finishViewE (ctx : String) (n : Node) (name : String) (a : Option String) (errors : List DefError) :
    Except FailE View :=
  unlessErrors n (needs n "as" a.isNone errors) <| (unwrapE a).map fun q => ⟨ctx, name, q⟩

/-- /repo/src/definition/ddl/view.rs:11-42 `parse_view_definition`. -/
def parseViewE (ctx : String) (n : Node) : Except FailE View :=
  readNodeE "view" (fun _ => viewStepE) none (finishViewE ctx n) n

/-- /repo/src/definition/ddl/index.rs:28-37. -/
def indexStepE (a : IndexAttrs) (n : Node) : Except FailE IndexAttrs :=
  if n.kind = "unique" then (coerceBoolE n).map fun v => { a with unique := some v }
  else if n.kind = "on" then (coerceNameVarargsE n).map fun v => { a with on := some v }
  else if n.kind = "using" then (coerceStrE n).map fun v => { a with method := some v }
  else unexpected n

/-- /repo/src/definition/ddl/index.rs:42-59: the errors, also the one for a missing `on`, are not used. -/
def finishIndexE (ctx : String) (name : String) (a : IndexAttrs) (_errors : List DefError) :
    Except FailE Index :=
  (unwrapE a.on).map fun x =>
    { schemaName := ctx, name := name, tableName := x.1,
      unique := a.unique.getD false, method := a.method.getD "btree", keyExpressions := x.2 }

/-- /repo/src/definition/ddl/index.rs:15-60 `parse_index_definition`. -/
def parseIndexE (ctx : String) (n : Node) : Except FailE Index :=
  readNodeE "index" (fun _ => indexStepE) {} (finishIndexE ctx) n

/-- /repo/src/definition/ddl/function.rs:25-31. -/
def functionStepE (a : FunctionAttrs) (n : Node) : Except FailE FunctionAttrs :=
  if n.kind = "as" then (coerceStrE n).map fun v => { a with body := some v }
  else if n.kind = "language" then (coerceStrE n).map fun v => { a with language := some v }
  else if n.kind = "returns" then (coerceStrE n).map fun v => { a with returns := some v }
  else if n.kind = "volatility" then (coerceStrE n).map fun v => { a with volatility := some v }
  else unexpected n

/-- /repo/src/definition/ddl/function.rs:36-60. -/
def finishFunctionE (ctx : String) (n : Node) (name : String) (a : FunctionAttrs)
    (errors : List DefError) : Except FailE Function :=
  unlessErrors n (needs n "body" a.body.isNone errors) <|
  (unwrapE a.body).map fun b =>
    { schemaName := ctx, name := name, body := b, language := a.language.getD "SQL",
      returns := a.returns.getD "void", volatility := a.volatility.getD "VOLATILE" }

/-- /repo/src/definition/ddl/function.rs:12-61 `parse_function_definition`. -/
def parseFunctionE (ctx : String) (n : Node) : Except FailE Function :=
  readNodeE "function" (fun _ => functionStepE) {} (finishFunctionE ctx n) n

/-- /repo/src/definition/ddl/sequence.rs:33-47. -/
def sequenceStepE (a : SequenceAttrs) (n : Node) : Except FailE SequenceAttrs :=
  if n.kind = "as" then (coerceStrE n).map fun v => { a with dataType := some v }
  else if n.kind = "increment" then (coerceIntE n).map fun v => { a with increment := some v }
  else if n.kind = "minvalue" then (coerceIntE n).map fun v => { a with minValue := some v }
  else if n.kind = "maxvalue" then (coerceIntE n).map fun v => { a with maxValue := some v }
  else if n.kind = "start" then (coerceIntE n).map fun v => { a with start := some v }
  else if n.kind = "cache" then (coerceIntE n).map fun v => { a with cache := some v }
  else if n.kind = "cycle" then (coerceBoolE n).map fun v => { a with cycle := some v }
  else if n.kind = "owned by" then (coerceNameStrE n).map fun v => { a with ownedBy := some v }
  else unexpected n

/-- /repo/src/definition/ddl/sequence.rs:52-100; the defaults, which may panic, come before the errors. -/
def finishSequenceE (ctx : String) (n : Node) (name : String) (a : SequenceAttrs)
    (errors : List DefError) : Except FailE Sequence :=
  let dataType := a.dataType.getD "int8"
  let increment := a.increment.getD 1
  (unwrapFail (orDefault a.minValue (seqMin increment dataType))).bind fun min =>
  (unwrapFail (orDefault a.maxValue (seqMax increment dataType))).bind fun max =>
  unlessErrors n errors <|
  .ok { schemaName := ctx, name := name, dataType := dataType, increment := increment,
        minValue := min, maxValue := max,
        start := a.start.getD (seqStart increment min max),
        cache := a.cache.getD 1, cycle := a.cycle.getD false,
        ownedByTable := a.ownedBy.map Prod.fst,
        ownedByColumn := a.ownedBy.map Prod.snd }

/-- /repo/src/definition/ddl/sequence.rs:15-101 `parse_sequence_definition`. -/
def parseSequenceE (ctx : String) (n : Node) : Except FailE Sequence :=
  readNodeE "sequence" (fun _ => sequenceStepE) {} (finishSequenceE ctx n) n

/-! ### Schemas and files -/

/-- /repo/src/definition/ddl/schema.rs:36-53. -/
def schemaStepE (name : String) (a : List Relation × List Function) (n : Node) :
    Except FailE (List Relation × List Function) :=
  if n.kind = "table" then (parseTableE name n).map fun t => (a.1 ++ [.table t], a.2)
  else if n.kind = "view" then (parseViewE name n).map fun v => (a.1 ++ [.view v], a.2)
  else if n.kind = "sequence" then (parseSequenceE name n).map fun s => (a.1 ++ [.sequence s], a.2)
  else if n.kind = "index" then (parseIndexE name n).map fun i => (a.1 ++ [.index i], a.2)
  else if n.kind = "function" then (parseFunctionE name n).map fun f => (a.1, a.2 ++ [f])
  else unexpected n

/-- /repo/src/definition/ddl/schema.rs:58-70; adding to the schema is unwrapped. -/
def finishSchemaE (n : Node) (name : String) (a : List Relation × List Function)
    (errors : List DefError) : Except FailE Schema :=
  unlessErrors n errors <| unwrapFail (finishSchema name a false)

/-- /repo/src/definition/ddl/schema.rs:23-71 `parse_schema_definition`. -/
def parseSchemaE (n : Node) : Except FailE Schema :=
  readNodeE "schema" schemaStepE ([], []) (finishSchemaE n) n

/-- The errors of /repo/src/definition/base/yaml.rs.  Simplified: the values that are shown with `{:?}` are
left out, for which `serde_yaml` chooses the text. -/
inductive YamlError where
  /-- `Invalid key: {:?}` (47-49). -/
  | keyNotText
  /-- `Invalid key: {}` (86). -/
  | invalidKey (key : String)
  /-- `Invalid value: {:?}` (124). -/
  | invalidValue
  /-- `Invalid number: {:?}` (136). -/
  | invalidNumber (i : Int)
deriving DecidableEq, Repr

/-- What loading definitions can end in instead of a snapshot, with the errors. -/
inductive LoadErrorE where
  /-- `serde_yaml` does not find a mapping (/repo/src/definition/mod.rs:54). -/
  | notMapping
  | yaml (e : YamlError)
  | definition (e : DefError)
  | snapshot (e : SnapshotError)
  | panic
deriving Repr

/-- /repo/src/definition/base/yaml.rs:74-93 `create_node_from_mapping_key`. -/
def parseKeyE (key : String) : Except LoadErrorE (String × Option String) :=
  match parseKey key with
  | .ok x => .ok x
  | .error .error => .error (.yaml (.invalidKey key))
  | .error .panic => .error .panic

/-- /repo/src/definition/base/yaml.rs:129-137 `parse_serde_number_to_ddl_number`. -/
def parseNumE : Num → Except LoadErrorE Num
  | .float b => .ok (.float b)
  | .integer i =>
    if i64Min ≤ i ∧ i ≤ i64Max then .ok (.integer i) else .error (.yaml (.invalidNumber i))

mutual
/-- /repo/src/definition/base/yaml.rs:104-127 `parse_serde_value_to_ddl_value`. -/
def parseValueE : Yaml → Except LoadErrorE Value
  | .str s => .ok (.string s)
  | .num n =>
    match parseNumE n with
    | .error e => .error e
    | .ok m => .ok (.number m)
  | .bool b => .ok (.boolean b)
  | .map _ _ => .error .panic
  | .seq vs =>
    match parseValuesE vs with
    | .error e => .error e
    | .ok l => .ok (.list l)
  | .null => .error (.yaml .invalidValue)
  | .tagged => .error (.yaml .invalidValue)
/-- /repo/src/definition/base/yaml.rs:95-102 `parse_serde_sequence_to_ddl_list`. -/
def parseValuesE : List Yaml → Except LoadErrorE (List Value)
  | [] => .ok []
  | v :: vs =>
    match parseValueE v with
    | .error e => .error e
    | .ok x =>
      match parseValuesE vs with
      | .error e => .error e
      | .ok xs => .ok (x :: xs)
end

mutual
/-- /repo/src/definition/base/yaml.rs:55-67: one entry of a mapping, its key already read. -/
def parseEntryE (kind : String) (name : Option String) : Yaml → Except LoadErrorE Node
  | .map ks vs =>
    match parseMappingE ks vs with
    | .error e => .error e
    | .ok ns => .ok (.branch kind name ns)
  | .null => .ok (.leaf kind name none)
  | .bool b => .ok (.leaf kind name (some (.boolean b)))
  | .num n =>
    match parseNumE n with
    | .error e => .error e
    | .ok m => .ok (.leaf kind name (some (.number m)))
  | .str s => .ok (.leaf kind name (some (.string s)))
  | .seq vs =>
    match parseValuesE vs with
    | .error e => .error e
    | .ok l => .ok (.leaf kind name (some (.list l)))
  | .tagged => .error (.yaml .invalidValue)
/-- /repo/src/definition/base/yaml.rs:44-72 `parse_mapping_to_nodes`, entry by entry. -/
def parseMappingE : List (Option String) → List Yaml → Except LoadErrorE (List Node)
  | [], _ => .ok []
  | _ :: _, [] => .ok []
  | k :: ks, v :: vs =>
    match k with
    | none => .error (.yaml .keyNotText)
    | some key =>
      match parseKeyE key with
      | .error e => .error e
      | .ok (kind, name) =>
        match parseEntryE kind name v with
        | .error e => .error e
        | .ok n =>
          match parseMappingE ks vs with
          | .error e => .error e
          | .ok ns => .ok (n :: ns)
end

/-- An error of a parser as a result of loading. -/
def loadFailE : FailE → LoadErrorE
  | .error e => .definition e
  | .panic => .panic

/-- /repo/src/definition/mod.rs:57-69: the loop of `load_yaml_string` over the nodes of a file. -/
def loadNodesE : Database → List Node → Except LoadErrorE Database
  | d, [] => .ok d
  | d, n :: ns =>
    match parseSchemaE n with
    | .error e => .error (loadFailE e)
    | .ok s =>
      match d.mergeOne s.name s with
      | .error e => .error (.snapshot e)
      | .ok d' => loadNodesE d' ns

/-- /repo/src/definition/mod.rs:53-70 `load_yaml_string` on the YAML value of a file. -/
def loadDocE (y : Yaml) : Except LoadErrorE Database :=
  match y with
  | .map ks vs =>
    match parseMappingE ks vs with
    | .error e => .error e
    | .ok ns => loadNodesE Database.new ns
  | _ => .error .notMapping

/-- /repo/src/definition/mod.rs:38-40 and 45-51: the loop over the collected files. -/
def loadFilesE : Database → List Yaml → Except LoadErrorE Database
  | d, [] => .ok d
  | d, f :: fs =>
    match loadDocE f with
    | .error e => .error e
    | .ok fd =>
      match d.merge fd with
      | .error e => .error (.snapshot e)
      | .ok d' => loadFilesE d' fs

/-- /repo/src/definition/mod.rs:33-43 `load_snpashot` on a directory. -/
def loadDirE (es : List (DirTree Yaml)) : Except LoadErrorE Database :=
  loadFilesE Database.new (Load.collect es)

end Def
end Podo
