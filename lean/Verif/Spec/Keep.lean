import Verif.Spec.Sql
import Verif.Spec.Pg
/-
Words for C98: the values in the columns of a database.
-/
namespace Podo

/-- A statement for this change is about the values of this column (of schema, table, name): it makes them, takes them
away, gives them another name, or converts them.  `DROP SCHEMA` is not among them, since PostgreSQL refuses to drop a
schema with tables in it. -/
def Change.Touches : Change → String → String → String → Prop
  | .createTable s t _, s', t', _ => s' = s ∧ t' = t
  | .dropTable s t, s', t', _ => s' = s ∧ t' = t
  | .addColumn s t c _ _ _, s', t', c' => s' = s ∧ t' = t ∧ c' = c
  | .setDataType s t c _, s', t', c' => s' = s ∧ t' = t ∧ c' = c
  | .dropColumn s t c, s', t', c' => s' = s ∧ t' = t ∧ c' = c
  | .renameColumn s t a b, s', t', c' => s' = s ∧ t' = t ∧ (c' = a ∨ c' = b)
  | _, _, _, _ => False

/-- The names of the schema, the table and the columns that a change to a table is about. -/
def Change.place : Change → List String
  | .createTable s t _ => [s, t]
  | .dropTable s t => [s, t]
  | .addColumn s t c _ _ _ => [s, t, c]
  | .setDataType s t c _ => [s, t, c]
  | .setDefault s t c _ => [s, t, c]
  | .setNotNull s t c _ => [s, t, c]
  | .dropColumn s t c => [s, t, c]
  | .renameColumn s t a b => [s, t, a, b]
  | .addPrimaryKey s t _ _ _ _ => [s, t]
  | .alterPrimaryKey s t _ _ _ => [s, t]
  | .dropPrimaryKey s t _ => [s, t]
  | .addUnique s t _ _ _ _ => [s, t]
  | .alterUnique s t _ _ _ => [s, t]
  | .dropUnique s t _ => [s, t]
  | .addForeignKey s t _ _ _ _ _ _ _ _ _ _ => [s, t]
  | .alterForeignKey s t _ _ _ => [s, t]
  | .dropForeignKey s t _ => [s, t]
  | .addCheck s t _ _ _ _ => [s, t]
  | .alterCheck s t _ _ _ => [s, t]
  | .dropCheck s t _ => [s, t]
  | _ => []

namespace Pg
variable {σ α : Type}

/-- A server that is careful with the values in columns (`vals`): wherever a text is read as it is meant to be
(`clean`: types, expressions and queries in it are just that, and names not too long), and it changes the
values of a column, the text is a statement about the values of this column. -/
def Careful (B : Behaviour σ) (vals : σ → String → String → String → α) (clean : String → Prop) : Prop :=
  ∀ q x x' s t c, clean q → B.exec x q = some x' → vals x' s t c ≠ vals x s t c → ∃ k, Says q k ∧ k.Touches s t c

end Pg
end Podo
