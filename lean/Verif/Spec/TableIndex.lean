import Verif.Spec.Along
/-
Words for C105: the indexes of a database, and what goes along with a table that is dropped.
-/
namespace Podo
namespace Pg
variable {σ : Type}

/-- A server that drops indexes along with their tables, as PostgreSQL does.  `idx` gives the table that an index (of
schema, name) is on, if there is such an index; an index is in the schema of its table. -/
structure IndexesAlong (B : Behaviour σ) (idx : σ → String → String → Option String) (clean : String → Prop) : Prop where
  /-- `DROP TABLE`, where it is not refused, takes along every index on the table. -/
  along : ∀ q x x' s r i, Says q (.dropTable s r) → B.exec x q = some x' → idx x s i = some r → idx x' s i = none
  /-- `DROP INDEX` for an index that is not there is refused. -/
  refused : ∀ q x s i, Says q (.dropIndex s i) → idx x s i = none → B.exec x q = none
  /-- An index comes to be on a table only by a statement that creates it, or one that adds a constraint with its name,
  wherever a text is read as it is meant to be (`clean`, as in C98). -/
  comes : ∀ q x x' s i r, clean q → B.exec x q = some x' → idx x' s i = some r → idx x s i ≠ some r →
    ∃ c, Says q c ∧ ((∃ r' u m ks, c = .createIndex s r' i u m ks) ∨ ∃ r', c.AddsConstraint s r' i)
  /-- An index goes only by a statement that drops it, or its table, a column of its table, or a constraint of its
  table. -/
  goes : ∀ q x x' s i r, clean q → B.exec x q = some x' → idx x s i = some r → idx x' s i ≠ some r →
    ∃ c, Says q c ∧ (c = .dropIndex s i ∨ c = .dropTable s r ∨ (∃ k, c = .dropColumn s r k) ∨
      ∃ m, c.DropsConstraint s r m)

end Pg
end Podo
