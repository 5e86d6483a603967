import Verif.Spec.Path
/-
Specification for C87: what of a database holds data, and which changes take data away.
-/
namespace Podo

/-- What holds data: a column of a table holds its values, a sequence its current value. -/
def Content.Holds (C : Content) : Path → Prop
  | .column s t c => C.objAt (.column s t c) ≠ none
  | .relation s q => ∃ x, C.objAt (.relation s q) = some (.sequence x)
  | _ => False

/-- The data that is gone, or no longer under its name, when a change has been made: dropping a schema or a table
takes everything inside it. -/
def Change.Discards : Change → Path → Prop
  | .dropSchema s, p => (Path.schema s).Contains p
  | .dropTable s t, p => (Path.relation s t).Contains p
  | .dropColumn s t c, p => p = .column s t c
  | .renameColumn s t a b, p => p = .column s t a ∧ a ≠ b
  | .dropSequence s q, p => p = .relation s q
  | _, _ => False

end Podo
