import Verif.Spec.Keep
/-
Words for C104: the constraints of a database, and what goes along with a column that is dropped.
-/
namespace Podo

/-- A statement for this change adds this constraint (of schema, table, name). -/
def Change.AddsConstraint : Change → String → String → String → Prop
  | .addPrimaryKey s t n _ _ _, s', t', n' => s' = s ∧ t' = t ∧ n' = n
  | .addUnique s t n _ _ _, s', t', n' => s' = s ∧ t' = t ∧ n' = n
  | .addForeignKey s t n _ _ _ _ _ _ _ _ _, s', t', n' => s' = s ∧ t' = t ∧ n' = n
  | .addCheck s t n _ _ _, s', t', n' => s' = s ∧ t' = t ∧ n' = n
  | _, _, _, _ => False

/-- A statement for this change drops this constraint (of schema, table, name) by name. -/
def Change.DropsConstraint : Change → String → String → String → Prop
  | .dropPrimaryKey s t n, s', t', n' => s' = s ∧ t' = t ∧ n' = n
  | .dropUnique s t n, s', t', n' => s' = s ∧ t' = t ∧ n' = n
  | .dropForeignKey s t n, s', t', n' => s' = s ∧ t' = t ∧ n' = n
  | .dropCheck s t n, s', t', n' => s' = s ∧ t' = t ∧ n' = n
  | _, _, _, _ => False

/-- The constraint without its timing: what it says but for `DEFERRABLE` and `INITIALLY DEFERRED`. -/
def Constraint.untimed : Constraint → Constraint
  | .primaryKey c => .primaryKey { c with deferrable := false, initiallyDeferred := false }
  | .unique c => .unique { c with deferrable := false, initiallyDeferred := false }
  | .foreignKey c => .foreignKey { c with deferrable := false, initiallyDeferred := false }
  | .check c => .check { c with deferrable := false, initiallyDeferred := false }

namespace Pg
variable {σ : Type}

/-- A server that drops constraints along with columns, as PostgreSQL does ("indexes and table constraints involving
the column will be automatically dropped as well").  `cons` gives the columns that a constraint (primary key, unique,
foreign key or check; of schema, table, name) is over, if there is such a constraint. -/
structure DropsAlong (B : Behaviour σ) (cons : σ → String → String → String → Option (List String))
    (clean : String → Prop) : Prop where
  /-- `DROP COLUMN`, where it is not refused, takes along every constraint over the column. -/
  along : ∀ q x x' s t k n cols, Says q (.dropColumn s t k) → B.exec x q = some x' → cons x s t n = some cols →
    k ∈ cols → cons x' s t n = none
  /-- `DROP CONSTRAINT` for a constraint that is not there is refused. -/
  refused : ∀ q x s t n c, Says q c → c.DropsConstraint s t n → cons x s t n = none → B.exec x q = none
  /-- A constraint comes to be over certain columns only by a statement that adds it, or one that renames columns of
  the table, wherever a text is read as it is meant to be (`clean`, as in C98). -/
  comes : ∀ q x x' s t n cols, clean q → B.exec x q = some x' → cons x' s t n = some cols → cons x s t n ≠ some cols →
    ∃ c, Says q c ∧ (c.AddsConstraint s t n ∨ ∃ a b, c = .renameColumn s t a b)
  /-- A constraint goes, or comes to be over other columns, only by a statement that drops it, drops one of its columns
  or its table, or renames columns of the table. -/
  goes : ∀ q x x' s t n cols, clean q → B.exec x q = some x' → cons x s t n = some cols → cons x' s t n ≠ some cols →
    ∃ c, Says q c ∧ (c.DropsConstraint s t n ∨ (∃ k ∈ cols, c = .dropColumn s t k) ∨
      c = .dropTable s t ∨ ∃ a b, c = .renameColumn s t a b)

end Pg
end Podo
