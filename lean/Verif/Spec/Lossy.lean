import Verif.Model.Changes
import Verif.Spec.Content
/-
Specification for reverting: which changes lose information that their recorded revert does not
restore.
-/
namespace Podo

/-- The recorded revert of change `c`, computed from the snapshot `C` before the change, does not
bring `C` back:
* a renamed column (its revert is looked up under the new name in the old snapshot);
* a dropped schema that is not empty;
* a dropped table that has constraints, or a "table" that is not a table;
* a dropped sequence that is owned by a column;
* a dropped index whose table is gone. -/
def Lossy (C : Content) : Change → Prop
  | .renameColumn _ _ a b => a ≠ b
  | .dropSchema s => ∃ sc, C s = some sc ∧
      ((∃ r, sc.relations r ≠ none) ∨ (∃ f, sc.functions f ≠ none))
  | .dropTable s t => ∃ sc r, C s = some sc ∧ sc.relations t = some r ∧
      ∀ tb, r = .table tb → ∃ c, tb.constraints c ≠ none
  | .dropSequence s q => ∃ sc x, C s = some sc ∧ sc.relations q = some (.sequence x) ∧
      (x.ownedByTable ≠ none ∨ x.ownedByColumn ≠ none)
  | .dropIndex s i => ∃ sc x, C s = some sc ∧ sc.relations i = some (.index x) ∧
      ∀ tb, sc.relations x.tableName ≠ some (.table tb)
  | _ => False

end Podo
