import Verif.Model.Changes
/-
Model of /repo/src/snapshot/diff.rs.  A `Changeset` (diff.rs:4-18) is the list of its changes.
`for x in xs { if .. { changes.append(..) } }` is `List.flatMap`.
-/
namespace Podo
namespace Diff
open Change

/-- /repo/src/snapshot/diff.rs:208-214 -/
def columnCreate (t : Column) : List Change := [newAddColumn t]
/-- /repo/src/snapshot/diff.rs:216-230 -/
def columnUpdate (s t : Column) : List Change :=
  (if s.dataType ≠ t.dataType then [newSetDataType t] else []) ++
  (if s.default ≠ t.default then [newSetDefault t] else []) ++
  (if s.notNull ≠ t.notNull then [newSetNotNull t] else [])
/-- /repo/src/snapshot/diff.rs:232-238 -/
def columnDrop (s : Column) : List Change := [newDropColumn s]

/-- /repo/src/snapshot/diff.rs:271-275 -/
def primaryKeyCreate (t : PrimaryKey) : List Change := [newAddPrimaryKey t]
/-- /repo/src/snapshot/diff.rs:277-288 -/
def primaryKeyUpdate (s t : PrimaryKey) : List Change :=
  if s.columns ≠ t.columns then [newDropPrimaryKey s, newAddPrimaryKey t]
  else if s.deferrable ≠ t.deferrable ∨ s.initiallyDeferred ≠ t.initiallyDeferred then
    [newAlterPrimaryKey t]
  else []
/-- /repo/src/snapshot/diff.rs:290-300 -/
def primaryKeyDrop (s : PrimaryKey) : List Change := [newDropPrimaryKey s]

/-- /repo/src/snapshot/diff.rs:302-308 -/
def uniqueCreate (t : Unique) : List Change := [newAddUnique t]
/-- /repo/src/snapshot/diff.rs:310-321 -/
def uniqueUpdate (s t : Unique) : List Change :=
  if s.columns ≠ t.columns then [newDropUnique s, newAddUnique t]
  else if s.deferrable ≠ t.deferrable ∨ s.initiallyDeferred ≠ t.initiallyDeferred then
    [newAlterUnique t]
  else []
/-- /repo/src/snapshot/diff.rs:323-333 -/
def uniqueDrop (s : Unique) : List Change := [newDropUnique s]

/-- /repo/src/snapshot/diff.rs:335-339 -/
def foreignKeyCreate (t : ForeignKey) : List Change := [newAddForeignKey t]
/-- /repo/src/snapshot/diff.rs:341-359 -/
def foreignKeyUpdate (s t : ForeignKey) : List Change :=
  if s.columns ≠ t.columns ∨ s.targetSchema ≠ t.targetSchema ∨ s.targetTable ≠ t.targetTable
      ∨ s.targetColumns ≠ t.targetColumns ∨ s.matchOption ≠ t.matchOption
      ∨ s.updateRule ≠ t.updateRule ∨ s.deleteRule ≠ t.deleteRule then
    [newDropForeignKey s, newAddForeignKey t]
  else if s.deferrable ≠ t.deferrable ∨ s.initiallyDeferred ≠ t.initiallyDeferred then
    [newAlterForeignKey t]
  else []
/-- /repo/src/snapshot/diff.rs:361-365 -/
def foreignKeyDrop (s : ForeignKey) : List Change := [newDropForeignKey s]

/-- /repo/src/snapshot/diff.rs:367-371 -/
def checkCreate (t : Check) : List Change := [newAddCheck t]
/-- /repo/src/snapshot/diff.rs:373-384 -/
def checkUpdate (s t : Check) : List Change :=
  if s.expression ≠ t.expression then [newDropCheck s, newAddCheck t]
  else if s.deferrable ≠ t.deferrable ∨ s.initiallyDeferred ≠ t.initiallyDeferred then
    [newAlterCheck t]
  else []
/-- /repo/src/snapshot/diff.rs:386-390 -/
def checkDrop (s : Check) : List Change := [newDropCheck s]

/-- /repo/src/snapshot/diff.rs:240-247 -/
def constraintCreate : Constraint → List Change
  | .primaryKey t => primaryKeyCreate t
  | .unique t => uniqueCreate t
  | .foreignKey t => foreignKeyCreate t
  | .check t => checkCreate t
/-- /repo/src/snapshot/diff.rs:262-269 -/
def constraintDrop : Constraint → List Change
  | .primaryKey s => primaryKeyDrop s
  | .unique s => uniqueDrop s
  | .foreignKey s => foreignKeyDrop s
  | .check s => checkDrop s
/-- /repo/src/snapshot/diff.rs:248-261 -/
def constraintUpdate : Constraint → Constraint → List Change
  | .primaryKey s, .primaryKey t => primaryKeyUpdate s t
  | .unique s, .unique t => uniqueUpdate s t
  | .foreignKey s, .foreignKey t => foreignKeyUpdate s t
  | .check s, .check t => checkUpdate s t
  | s, t => constraintDrop s ++ constraintCreate t

/-- /repo/src/snapshot/diff.rs:392-396 -/
def viewCreate (t : View) : List Change := [newCreateView t]
/-- /repo/src/snapshot/diff.rs:398-407 -/
def viewUpdate (s t : View) : List Change :=
  if s.query ≠ t.query then [newDropView s, newCreateView t] else []
/-- /repo/src/snapshot/diff.rs:409-413 -/
def viewDrop (s : View) : List Change := [newDropView s]

/-- /repo/src/snapshot/diff.rs:415-419 -/
def functionCreate (t : Function) : List Change := [newCreateFunction t]
/-- /repo/src/snapshot/diff.rs:421-434 -/
def functionUpdate (s t : Function) : List Change :=
  if s.body ≠ t.body ∨ s.language ≠ t.language ∨ s.returns ≠ t.returns
      ∨ s.volatility ≠ t.volatility then
    [newDropFunction s, newCreateFunction t]
  else []
/-- /repo/src/snapshot/diff.rs:436-440 -/
def functionDrop (s : Function) : List Change := [newDropFunction s]

/-- /repo/src/snapshot/diff.rs:442-446 -/
def indexCreate (t : Index) : List Change := [newCreateIndex t]
/-- /repo/src/snapshot/diff.rs:448-457 -/
def indexUpdate (s t : Index) : List Change :=
  if s.keyExpressions ≠ t.keyExpressions then [newDropIndex s, newCreateIndex t] else []
/-- /repo/src/snapshot/diff.rs:459-463 -/
def indexDrop (s : Index) : List Change := [newDropIndex s]

/-- /repo/src/snapshot/diff.rs:465-469 -/
def sequenceCreate (t : Sequence) : List Change := [newCreateSequence t]
/-- /repo/src/snapshot/diff.rs:471-489 -/
def sequenceUpdate (s t : Sequence) : List Change :=
  if s.dataType ≠ t.dataType ∨ s.increment ≠ t.increment ∨ s.minValue ≠ t.minValue
      ∨ s.maxValue ≠ t.maxValue ∨ s.start ≠ t.start ∨ s.cache ≠ t.cache ∨ s.cycle ≠ t.cycle
      ∨ s.ownedByTable ≠ t.ownedByTable ∨ s.ownedByColumn ≠ t.ownedByColumn then
    [newDropSequence s, newCreateSequence t]
  else []
/-- /repo/src/snapshot/diff.rs:491-495 -/
def sequenceDrop (s : Sequence) : List Change := [newDropSequence s]

/-- /repo/src/snapshot/diff.rs:151-162 -/
def tableCreate (t : Table) : List Change :=
  newCreateTable t :: t.constraints.values.flatMap constraintCreate

/-- /repo/src/snapshot/diff.rs:164-198. `has_column` followed by `get_column(..).unwrap()` is one
match on the lookup. -/
def tableUpdate (s t : Table) : List Change :=
  (t.columns.flatMap fun ti =>
    match Table.findCol s.columns ti.name with
    | some si => columnUpdate si ti
    | none => columnCreate ti) ++
  (s.columns.flatMap fun si => if t.hasColumn si.name then [] else columnDrop si) ++
  (t.constraints.values.flatMap fun ti =>
    match s.constraints.get? ti.name with
    | some si => constraintUpdate si ti
    | none => constraintCreate ti) ++
  (s.constraints.values.flatMap fun si =>
    if t.hasConstraint si.name then [] else constraintDrop si)

/-- /repo/src/snapshot/diff.rs:200-206 -/
def tableDrop (s : Table) : List Change := [newDropTable s]

/-- /repo/src/snapshot/diff.rs:108-115 -/
def relationCreate : Relation → List Change
  | .table t => tableCreate t
  | .view t => viewCreate t
  | .sequence t => sequenceCreate t
  | .index t => indexCreate t
/-- /repo/src/snapshot/diff.rs:142-149 -/
def relationDrop : Relation → List Change
  | .table t => tableDrop t
  | .view t => viewDrop t
  | .sequence t => sequenceDrop t
  | .index t => indexDrop t
/-- /repo/src/snapshot/diff.rs:117-140 -/
def relationUpdate : Relation → Relation → List Change
  | .table s, .table t => tableUpdate s t
  | .view s, .view t => viewUpdate s t
  | .sequence s, .sequence t => sequenceUpdate s t
  | .index s, .index t => indexUpdate s t
  | s, t => relationDrop s ++ relationCreate t

/-- /repo/src/snapshot/diff.rs:44-57 -/
def schemaCreate (t : Schema) : List Change :=
  newCreateSchema t :: (t.relations.values.flatMap relationCreate
    ++ t.functions.values.flatMap functionCreate)

/-- /repo/src/snapshot/diff.rs:59-91 -/
def schemaUpdate (s t : Schema) : List Change :=
  (t.relations.values.flatMap fun ti => if s.hasRelation ti.name then [] else relationCreate ti) ++
  (s.relations.values.flatMap fun si =>
    match t.relations.get? si.name with
    | some ti => relationUpdate si ti
    | none => relationDrop si) ++
  (t.functions.values.flatMap fun ti => if s.hasFunction ti.name then [] else functionCreate ti) ++
  (s.functions.values.flatMap fun si =>
    match t.functions.get? si.name with
    | some ti => functionUpdate si ti
    | none => functionDrop si)

/-- /repo/src/snapshot/diff.rs:93-106 -/
def schemaDrop (s : Schema) : List Change :=
  s.relations.values.flatMap relationDrop ++ s.functions.values.flatMap functionDrop
    ++ [newDropSchema s]

/-- /repo/src/snapshot/diff.rs:20-42 `compare_diff` / `diff_database_update`. -/
def compareDiff (s t : Database) : List Change :=
  (t.schemas.values.flatMap fun ti => if s.hasSchema ti.name then [] else schemaCreate ti) ++
  (s.schemas.values.flatMap fun si =>
    match t.schemas.get? si.name with
    | some ti => schemaUpdate si ti
    | none => schemaDrop si)

end Diff
end Podo
