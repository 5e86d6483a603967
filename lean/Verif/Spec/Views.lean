import Verif.Spec.Along
/-
Words for C106: the views of a database, and the tables they read.
-/
namespace Podo
namespace Pg
variable {σ : Type}

/-- A server that knows which tables its views read, as PostgreSQL does.  `view` gives the tables (of schema, name) that
a view (of schema, name) reads, if there is such a view; `table` says which tables there are; `reads` which tables the
text of a query reads. -/
structure ViewsRead (B : Behaviour σ) (view : σ → String → String → Option (List (String × String)))
    (table : σ → String → String → Prop) (reads : String → String → String → Prop) (clean : String → Prop) : Prop where
  /-- `DROP TABLE` for a table that a view reads is refused. -/
  held : ∀ q x s r s' v rs, Says q (.dropTable s r) → view x s' v = some rs → (s, r) ∈ rs → B.exec x q = none
  /-- `DROP VIEW`, where it is not refused, drops the view. -/
  gone : ∀ q x x' s v, Says q (.dropView s v) → B.exec x q = some x' → view x' s v = none
  /-- A view goes, or comes to read other tables, only by a statement that drops or creates it, wherever a text is read
  as it is meant to be (`clean`, as in C98). -/
  goes : ∀ q x x' s v rs, clean q → B.exec x q = some x' → view x s v = some rs → view x' s v ≠ some rs →
    ∃ c, Says q c ∧ (c = .dropView s v ∨ ∃ d, c = .createView s v d)
  /-- A view comes only by a statement that creates it. -/
  comes : ∀ q x x' s v, clean q → B.exec x q = some x' → view x s v = none → view x' s v ≠ none →
    ∃ c, Says q c ∧ ∃ d, c = .createView s v d
  /-- `CREATE VIEW` with a query that reads a table that is not there is refused. -/
  needs : ∀ q x s v d s' r, Says q (.createView s v d) → reads d s' r → ¬ table x s' r → B.exec x q = none
  /-- A table comes only by a statement that creates it. -/
  made : ∀ q x x' s r, clean q → B.exec x q = some x' → ¬ table x s r → table x' s r →
    ∃ c, Says q c ∧ ∃ cols, c = .createTable s r cols
  /-- `CREATE TABLE`, where it is not refused, leaves the table there. -/
  built : ∀ q x x' s r cols, Says q (.createTable s r cols) → B.exec x q = some x' → table x' s r
  /-- A table goes only by a statement that drops it. -/
  lost : ∀ q x x' s r, clean q → B.exec x q = some x' → table x s r → ¬ table x' s r → Says q (.dropTable s r)

end Pg
end Podo
