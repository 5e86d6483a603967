import Verif.Spec.Along
/-
Words for C107: the views of a database, and the columns they read.
-/
namespace Podo
namespace Pg
variable {σ : Type}

/-- A server that knows which columns its views read, as PostgreSQL does.  `view` gives the columns (of schema, table,
name) that a view (of schema, name) reads, if there is such a view. -/
structure ViewsHold (B : Behaviour σ) (view : σ → String → String → Option (List (String × String × String)))
    (clean : String → Prop) : Prop where
  /-- `ALTER COLUMN … TYPE` for a column that a view reads is refused ("cannot alter type of a column used by a view or
  rule"). -/
  held : ∀ q x s r k ty s' v cols, Says q (.setDataType s r k ty) → view x s' v = some cols → (s, r, k) ∈ cols →
    B.exec x q = none
  /-- A view goes, or comes to read other columns, only by a statement that drops or creates it or renames a column,
  wherever a text is read as it is meant to be (`clean`, as in C98). -/
  goes : ∀ q x x' s v cols, clean q → B.exec x q = some x' → view x s v = some cols → view x' s v ≠ some cols →
    ∃ c, Says q c ∧ (c = .dropView s v ∨ (∃ d, c = .createView s v d) ∨ ∃ s' r a b, c = .renameColumn s' r a b)

end Pg
end Podo
