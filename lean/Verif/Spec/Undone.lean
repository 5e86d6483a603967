import Verif.Spec.Path
import Verif.Model.Types
/-
Specification for undoing a staged diff: which differences between the staged snapshot `s` and the
definitions `t` are recorded in a way that the down script can give back.
-/
namespace Podo

/-- The down script of the diff from `s` to `t` loses nothing:
* a table with constraints stays a table;
* a sequence owned by a column stays exactly as it is;
* an index that goes, or that gets other keys, still has its table at that moment.  The relations of
  a schema are visited in the order of the source: those visited before are then as in `t`, the
  others still as in `s`. -/
structure Undoable (s t : Database) : Prop where
  tables : ∀ n r tb c, s.content.tableAt n r = some tb → tb.constraints c ≠ none →
    ∃ tb', t.content.tableAt n r = some tb'
  sequences : ∀ n r q, s.content.objAt (.relation n r) = some (.sequence q) →
    (q.ownedByTable ≠ none ∨ q.ownedByColumn ≠ none) →
    t.content.objAt (.relation n r) = some (.sequence q)
  indexes : ∀ n sc pre i ix post, s.schemas.get? n = some sc →
    sc.relations = pre ++ (i, .index ix) :: post →
    (∀ jx, t.content.objAt (.relation n i) = some (.index jx) →
      jx.keyExpressions ≠ ix.keyExpressions) →
    ((ix.tableName ∈ AMap.keys pre ∨ sc.relations.get? ix.tableName = none) →
      ∃ tb, t.content.tableAt n ix.tableName = some tb) ∧
    ((ix.tableName ∉ AMap.keys pre ∧ sc.relations.get? ix.tableName ≠ none) →
      ∃ tb, s.content.tableAt n ix.tableName = some tb)

end Podo
