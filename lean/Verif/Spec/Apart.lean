import Verif.Spec.Sql
import Verif.Model.Wide
/-
Words for C99: which schema a statement works in, and servers that keep schemas apart.
-/
namespace Podo

/-- The schema a change works in; none for changes that make or drop a whole schema: PostgreSQL makes no schema that is
there, and drops none with a table in it. -/
def Change.schema : Change → Option String
  | .createSchema _ => none
  | .dropSchema _ => none
  | .createTable s _ _ => some s
  | .dropTable s _ => some s
  | .addColumn s _ _ _ _ _ => some s
  | .setDataType s _ _ _ => some s
  | .setDefault s _ _ _ => some s
  | .setNotNull s _ _ _ => some s
  | .dropColumn s _ _ => some s
  | .renameColumn s _ _ _ => some s
  | .addPrimaryKey s _ _ _ _ _ => some s
  | .alterPrimaryKey s _ _ _ _ => some s
  | .dropPrimaryKey s _ _ => some s
  | .addUnique s _ _ _ _ _ => some s
  | .alterUnique s _ _ _ _ => some s
  | .dropUnique s _ _ => some s
  | .addForeignKey s _ _ _ _ _ _ _ _ _ _ _ => some s
  | .alterForeignKey s _ _ _ _ => some s
  | .dropForeignKey s _ _ => some s
  | .addCheck s _ _ _ _ _ => some s
  | .alterCheck s _ _ _ _ => some s
  | .dropCheck s _ _ => some s
  | .createFunction s _ _ _ _ _ => some s
  | .dropFunction s _ => some s
  | .createView s _ _ => some s
  | .dropView s _ => some s
  | .createIndex s _ _ _ _ _ => some s
  | .dropIndex s _ => some s
  | .createSequence s _ _ _ _ _ _ _ _ => some s
  | .dropSequence s _ => some s

/-- The names that come first in the statement of a change: that of the schema, and that of an index. -/
def Change.leading : Change → List String
  | .createSchema s => [s]
  | .dropSchema s => [s]
  | .createIndex s _ i _ _ _ => [s, i]
  | .dropIndex s i => [s, i]
  | c => c.schema.toList

namespace Pg
variable {σ : Type}

/-- The schema a statement works in. -/
def Stmt.schema : Stmt → Option String
  | .createSchema _ => none
  | .dropSchema _ => none
  | .createTable s _ _ => some s
  | .dropTable s _ => some s
  | .addColumn s _ _ => some s
  | .setDataType s _ _ _ => some s
  | .setDefault s _ _ _ => some s
  | .dropDefault s _ _ => some s
  | .setNotNull s _ _ => some s
  | .dropNotNull s _ _ => some s
  | .dropColumn s _ _ => some s
  | .renameColumn s _ _ _ => some s
  | .addPrimaryKey s _ _ _ _ => some s
  | .addUnique s _ _ _ _ => some s
  | .addForeignKey s _ _ _ _ _ _ _ _ _ _ => some s
  | .addCheck s _ _ _ _ => some s
  | .alterConstraint s _ _ _ => some s
  | .dropConstraint s _ _ => some s
  | .createFunction s _ _ _ _ _ _ _ => some s
  | .dropFunction s _ => some s
  | .createView s _ _ => some s
  | .dropView s _ => some s
  | .createIndex _ _ s _ _ _ => some s
  | .dropIndex s _ => some s
  | .createSequence s _ _ _ _ _ _ _ _ => some s
  | .dropSequence s _ => some s

/-- The text is a statement that works in this schema. -/
def WorksIn (q m : String) : Prop := ∃ st : Stmt, (q = st.text ∨ q = st.text ++ ";") ∧ st.schema = some m

/-- The server `W` keeps the metadata schema `m` apart from the rest, on which it does what `B` says: wherever a text is
read as it is meant to be (`clean`: types, expressions and queries in it are just that, and they and foreign keys have
nothing to do with the version table), and it is no statement that works in `m`, what the server does does not depend
on what is in the version table, and leaves the version table alone. -/
structure Wide.Apart (W : Wide σ) (B : Behaviour σ) (m : String) (clean : String → Prop) : Prop where
  exec : ∀ q t x, clean q → ¬ WorksIn q m → W.exec ⟨.table t, x⟩ q = (B.exec x q).map fun y => ⟨.table t, y⟩
  commits : ∀ t x, W.commits ⟨.table t, x⟩ = B.commits x
  accepts : W.accepts = B.accepts
  creates : W.creates = B.creates

end Pg
end Podo
