import Verif.Model.Changes
/-
`Change::apply` takes `&mut Database`: this file models the value left behind, also after an error.
-/
namespace Podo

/-- A Rust function on `&mut σ` returning `Result<(), SnapshotError>`: the value left behind and
the error, if any. -/
abbrev Mut (σ : Type) := σ → σ × Option SnapshotError

/-- A mutator that checks before it mutates, as all of these do: `add_column` table.rs:53-64,
`remove_column` 65-76, `add_constraint` 106-117, `remove_constraint` 118-126, `add_relation`
schema.rs:44-51, `remove_relation` 52-56, `add_function` 74-84, `remove_function` 85-89,
`add_schema` database.rs:35-41, `remove_schema` 42-46; and the assignments after a successful
`get_column_mut` / `get_constraint_mut` + `as_x_mut` (all under /repo/src/snapshot/types). -/
def Mut.checked {σ : Type} (f : σ → SResult σ) : Mut σ := fun x =>
  match f x with
  | .ok y => (y, none)
  | .error e => (x, some e)

/-- `let schema = source.get_schema_mut(s)?;` then a mutation through that reference: whatever it
leaves behind is in place in the database (/repo/src/snapshot/types/database.rs:27-31). -/
def Mut.inSchema (s : String) (m : Mut Schema) : Mut Database := fun d =>
  match d.getSchema s with
  | .error e => (d, some e)
  | .ok sc => (d.setSchema s (m sc).1, (m sc).2)

/-- `schema.get_relation_mut(t)?.as_table_mut()?` then a mutation through that reference
(/repo/src/snapshot/types/schema.rs:36-40, relation.rs:38-43). -/
def Mut.inTable (t : String) (m : Mut Table) : Mut Schema := fun sc =>
  match sc.getRelation t with
  | .error e => (sc, some e)
  | .ok rel =>
    match rel.asTable with
    | .error e => (sc, some e)
    | .ok tb => (sc.setRelation t (.table (m tb).1), (m tb).2)

/-- /repo/src/snapshot/changes/column/rename_column_change.rs:27-30: `remove_column(a)?` mutates the
table before `add_column(..)?` can fail. -/
def Mut.renameColumn (a b : String) : Mut Table := fun t =>
  match t.removeColumn a with
  | .error e => (t, some e)
  | .ok (col, t') => Mut.checked (fun x => x.addColumn { col with name := b }) t'

/-- The table mutation of a change inside a table, as a checked step; cases as in `Change.apply`. -/
def Change.tableStep : Change → Option (String × String × Mut Table)
  | .addColumn s t c ty nn df => some (s, t, .checked fun tb => tb.addColumn ⟨s, t, c, ty, nn, df⟩)
  | .setDataType s t c ty => some (s, t, .checked fun tb =>
      tb.modifyColumn c fun col => { col with dataType := ty })
  | .setDefault s t c df => some (s, t, .checked fun tb =>
      tb.modifyColumn c fun col => { col with default := df })
  | .setNotNull s t c nn => some (s, t, .checked fun tb =>
      tb.modifyColumn c fun col => { col with notNull := nn })
  | .dropColumn s t c => some (s, t, .checked fun tb =>
      match tb.removeColumn c with
      | .error e => .error e
      | .ok (_, tb') => .ok tb')
  | .renameColumn s t a b => some (s, t, .renameColumn a b)
  | .addPrimaryKey s t c cols df ini => some (s, t, .checked fun tb =>
      tb.addConstraint (.primaryKey ⟨s, t, c, cols, df, ini⟩))
  | .alterPrimaryKey s t c df ini => some (s, t, .checked fun tb =>
      tb.alterConstraint c fun con =>
        match con.asPrimaryKey with
        | .error e => .error e
        | .ok k => .ok (.primaryKey { k with deferrable := df, initiallyDeferred := ini }))
  | .dropPrimaryKey s t c =>
      some (s, t, .checked fun tb => tb.dropConstraint c Constraint.asPrimaryKey)
  | .addUnique s t c cols df ini => some (s, t, .checked fun tb =>
      tb.addConstraint (.unique ⟨s, t, c, cols, df, ini⟩))
  | .alterUnique s t c df ini => some (s, t, .checked fun tb =>
      tb.alterConstraint c fun con =>
        match con.asUnique with
        | .error e => .error e
        | .ok k => .ok (.unique { k with deferrable := df, initiallyDeferred := ini }))
  | .dropUnique s t c => some (s, t, .checked fun tb => tb.dropConstraint c Constraint.asUnique)
  | .addForeignKey s t c cols ts tt tcols mo ur dr df ini => some (s, t, .checked fun tb =>
      tb.addConstraint (.foreignKey ⟨s, t, c, cols, ts, tt, tcols, mo, ur, dr, df, ini⟩))
  | .alterForeignKey s t c df ini => some (s, t, .checked fun tb =>
      tb.alterConstraint c fun con =>
        match con.asForeignKey with
        | .error e => .error e
        | .ok k => .ok (.foreignKey { k with deferrable := df, initiallyDeferred := ini }))
  | .dropForeignKey s t c =>
      some (s, t, .checked fun tb => tb.dropConstraint c Constraint.asForeignKey)
  | .addCheck s t c ex df ini => some (s, t, .checked fun tb =>
      tb.addConstraint (.check ⟨s, t, c, ex, df, ini⟩))
  | .alterCheck s t c df ini => some (s, t, .checked fun tb =>
      tb.alterConstraint c fun con =>
        match con.asCheck with
        | .error e => .error e
        | .ok k => .ok (.check { k with deferrable := df, initiallyDeferred := ini }))
  | .dropCheck s t c => some (s, t, .checked fun tb => tb.dropConstraint c Constraint.asCheck)
  | _ => none

/-- The schema mutation of a change inside a schema but not inside a table; cases as in
`Change.apply`. -/
def Change.schemaStep : Change → Option (String × Mut Schema)
  | .createTable s t cols => some (s, .checked fun sc =>
      match Table.buildColumns s t (Table.new s t) cols with
      | .error e => .error e
      | .ok tb => sc.addRelation (.table tb))
  | .dropTable s t => some (s, .checked fun sc => sc.removeRelation t)
  | .createFunction s f b l r v => some (s, .checked fun sc => sc.addFunction ⟨s, f, b, l, r, v⟩)
  | .dropFunction s f => some (s, .checked fun sc => sc.removeFunction f)
  | .createView s v q => some (s, .checked fun sc => sc.addRelation (.view ⟨s, v, q⟩))
  | .dropView s v => some (s, .checked fun sc => sc.dropRelationAs v Relation.asView)
  | .createIndex s t i u m ks => some (s, .checked fun sc =>
      match sc.getRelation t with
      | .error e => .error e
      | .ok rel =>
        match rel.asTable with
        | .error e => .error e
        | .ok tb => sc.addRelation (.index ⟨s, i, tb.name, u, m, ks⟩))
  | .dropIndex s i => some (s, .checked fun sc => sc.dropRelationAs i Relation.asIndex)
  | .createSequence s q ty inc mn mx st ca cy => some (s, .checked fun sc =>
      sc.addRelation (.sequence ⟨s, q, ty, inc, mn, mx, st, ca, cy, none, none⟩))
  | .dropSequence s q => some (s, .checked fun sc => sc.dropRelationAs q Relation.asSequence)
  | _ => none

/-- /repo/src/snapshot/changes/mod.rs:38-42 `Change::apply` on `&mut Database`: the database left
behind and the error, if any. -/
def Change.applyMut (c : Change) : Mut Database :=
  match c with
  | .createSchema s => .checked fun d => d.addSchema (Schema.new s)
  | .dropSchema s => .checked fun d => d.removeSchema s
  | c =>
    match c.tableStep with
    | some (s, t, m) => .inSchema s (.inTable t m)
    | none =>
      match c.schemaStep with
      | some (s, m) => .inSchema s m
      | none => fun d => (d, none)

/-- A sequence of changes applied to one mutable database, carrying on after errors. -/
def Change.applyMutAll : List Change → Database → Database
  | [], d => d
  | c :: cs, d => Change.applyMutAll cs (c.applyMut d).1

end Podo
