import Verif.Model.Changes
import Verif.Spec.Content
/-
Names of objects inside a snapshot, the object found under a name, and the objects a change names.
-/
namespace Podo

/-- The full name of an object. -/
inductive Path where
  | schema (s : String)
  | relation (s r : String)
  | function (s f : String)
  | column (s t c : String)
  | constraint (s t c : String)
deriving DecidableEq, Repr

namespace Path
/-- `q.Contains p`: `p` is `q` or lies inside `q`. -/
def Contains : Path → Path → Prop
  | .schema s, .schema s' => s' = s
  | .schema s, .relation s' _ => s' = s
  | .schema s, .function s' _ => s' = s
  | .schema s, .column s' _ _ => s' = s
  | .schema s, .constraint s' _ _ => s' = s
  | .relation s r, .relation s' r' => s' = s ∧ r' = r
  | .relation s r, .column s' r' _ => s' = s ∧ r' = r
  | .relation s r, .constraint s' r' _ => s' = s ∧ r' = r
  | .function s f, .function s' f' => s' = s ∧ f' = f
  | .column s t c, .column s' t' c' => s' = s ∧ t' = t ∧ c' = c
  | .constraint s t c, .constraint s' t' c' => s' = s ∧ t' = t ∧ c' = c
  | _, _ => False
end Path

/-- An object with its own attributes, without the objects inside it. -/
inductive Obj where
  | schema (name : String)
  | table (schema name : String)
  | view (v : View)
  | index (i : Index)
  | sequence (q : Sequence)
  | function (f : Function)
  | column (c : Column)
  | constraint (c : Constraint)

/-- A relation with its own attributes only. -/
def RelContent.obj : RelContent → Obj
  | .table t => .table t.schemaName t.name
  | .view v => .view v
  | .index i => .index i
  | .sequence q => .sequence q

/-- The table content of a relation that is a table. -/
def RelContent.table? : RelContent → Option TableContent
  | .table t => some t
  | _ => none

/-- The table of a given name. -/
def Content.tableAt (C : Content) (s t : String) : Option TableContent :=
  (C s).bind fun sc => (sc.relations t).bind RelContent.table?

/-- The object of a given name, with its own attributes only. -/
def Content.objAt (C : Content) : Path → Option Obj
  | .schema s => (C s).map fun sc => .schema sc.name
  | .relation s r => ((C s).bind fun sc => sc.relations r).map RelContent.obj
  | .function s f => ((C s).bind fun sc => sc.functions f).map .function
  | .column s t c => ((C.tableAt s t).bind fun tb => tb.columns c).map .column
  | .constraint s t c => ((C.tableAt s t).bind fun tb => tb.constraints c).map .constraint

/-- An object with everything inside it. -/
inductive Whole where
  | schema (s : SchemaContent)
  | relation (r : RelContent)
  | function (f : Function)
  | column (c : Column)
  | constraint (c : Constraint)

/-- The object of a given name, with everything inside it. -/
def Content.wholeAt (C : Content) : Path → Option Whole
  | .schema s => (C s).map .schema
  | .relation s r => ((C s).bind fun sc => sc.relations r).map .relation
  | .function s f => ((C s).bind fun sc => sc.functions f).map .function
  | .column s t c => ((C.tableAt s t).bind fun tb => tb.columns c).map .column
  | .constraint s t c => ((C.tableAt s t).bind fun tb => tb.constraints c).map .constraint

/-- The objects a change creates, alters or drops. -/
def Change.targets : Change → List Path
  | .createSchema s | .dropSchema s => [.schema s]
  | .createTable s t _ | .dropTable s t => [.relation s t]
  | .addColumn s t c _ _ _ | .setDataType s t c _ | .setDefault s t c _ | .setNotNull s t c _
  | .dropColumn s t c => [.column s t c]
  | .renameColumn s t a b => [.column s t a, .column s t b]
  | .addPrimaryKey s t c _ _ _ | .alterPrimaryKey s t c _ _ | .dropPrimaryKey s t c
  | .addUnique s t c _ _ _ | .alterUnique s t c _ _ | .dropUnique s t c
  | .addForeignKey s t c _ _ _ _ _ _ _ _ _ | .alterForeignKey s t c _ _ | .dropForeignKey s t c
  | .addCheck s t c _ _ _ | .alterCheck s t c _ _ | .dropCheck s t c => [.constraint s t c]
  | .createFunction s f _ _ _ _ | .dropFunction s f => [.function s f]
  | .createView s v _ | .dropView s v => [.relation s v]
  | .createIndex s _ i _ _ _ | .dropIndex s i => [.relation s i]
  | .createSequence s q _ _ _ _ _ _ _ | .dropSequence s q => [.relation s q]

end Podo
