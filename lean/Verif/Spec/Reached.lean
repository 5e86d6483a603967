import Verif.Model.Diff
import Verif.Spec.Content
import Verif.Spec.Path
/-
Specification for diffing: the content that applying a computed diff reaches, and when the diff can
be applied at all.
-/
namespace Podo

/-- What the diff makes of a target relation, given the source relation of the same name (if any):
the target relation itself, except that
* a sequence that has to be (re-)created loses its owner;
* an index whose key expressions did not change stays as it was in the source. -/
def reachedRel : Option RelContent → RelContent → RelContent
  | some (.sequence p), .sequence q =>
      if p = q then .sequence q
      else .sequence { q with ownedByTable := none, ownedByColumn := none }
  | _, .sequence q => .sequence { q with ownedByTable := none, ownedByColumn := none }
  | some (.index p), .index q =>
      if p.keyExpressions = q.keyExpressions then .index p else .index q
  | _, r => r

/-- What the diff makes of a target schema, given the source schema of the same name (if any). -/
def reachedSchema (s : Option SchemaContent) (t : SchemaContent) : SchemaContent :=
  ⟨t.name, fun r => (t.relations r).map (reachedRel (s.bind fun sc => sc.relations r)),
    t.functions⟩

/-- The content reached by applying the diff from `S` to `T`. -/
def reached (S T : Content) : Content := fun n => (T n).map (reachedSchema (S n))

/-- The list of relations of a schema that is created from scratch mentions the table of every
index before the index. -/
def ReadyNew (rels : AMap Relation) : Prop :=
  ∀ pre i ix post, rels = pre ++ (i, Relation.index ix) :: post →
    ∃ tb, (ix.tableName, Relation.table tb) ∈ pre

/-- While relations missing in the source are created (in target order, before anything is
dropped), the table of every new index is a table of the source, or was created before it. -/
def ReadyAdded (s t : Schema) : Prop :=
  ∀ pre i ix post, t.relations = pre ++ (i, Relation.index ix) :: post →
    s.relations.get? i = none →
    (∃ tb, s.relations.get? ix.tableName = some (.table tb)) ∨
    (s.relations.get? ix.tableName = none ∧ ∃ tb, (ix.tableName, Relation.table tb) ∈ pre)

/-- While the source relations are updated (in source order), the table of every re-created index
is a table at that moment: by then the relations visited before are as in the target, the others
still as in the source. -/
def ReadyUpdated (s t : Schema) : Prop :=
  ∀ pre i r post ix, s.relations = pre ++ (i, r) :: post →
    t.relations.get? i = some (.index ix) →
    (∀ ix₀, r = .index ix₀ → ix₀.keyExpressions ≠ ix.keyExpressions) →
    ix.tableName ≠ i ∧
    ((ix.tableName ∈ AMap.keys pre ∨ s.relations.get? ix.tableName = none) →
      ∃ tb, t.relations.get? ix.tableName = some (.table tb)) ∧
    ((ix.tableName ∉ AMap.keys pre ∧ s.relations.get? ix.tableName ≠ none) →
      ∃ tb, s.relations.get? ix.tableName = some (.table tb))

/-- Every index that the diff from `s` to `t` creates finds its table at that moment. -/
structure IndexReady (s t : Database) : Prop where
  new : ∀ n tsc, t.schemas.get? n = some tsc → s.schemas.get? n = none → ReadyNew tsc.relations
  added : ∀ n ssc tsc, s.schemas.get? n = some ssc → t.schemas.get? n = some tsc →
    ReadyAdded ssc tsc
  updated : ∀ n ssc tsc, s.schemas.get? n = some ssc → t.schemas.get? n = some tsc →
    ReadyUpdated ssc tsc

/-- A relation, forgetting the table, uniqueness and method of an index. -/
def RelContent.keyOnly : RelContent → RelContent
  | .index i => .index { i with tableName := "", unique := false, method := "" }
  | r => r

/-- A content in which the table, uniqueness and method of every index are forgotten. -/
def Content.keyOnly (C : Content) : Content := fun n =>
  (C n).map fun sc => { sc with relations := fun r => (sc.relations r).map RelContent.keyOnly }

/-- No index of the content differs from an index of the same name and key expressions in `T`. -/
def SameKeyIndexesAgree (S T : Content) : Prop :=
  ∀ n r p q, (∃ sc, S n = some sc ∧ sc.relations r = some (.index p)) →
    (∃ sc, T n = some sc ∧ sc.relations r = some (.index q)) →
    p.keyExpressions = q.keyExpressions → p = q

/-- Every sequence of `T` owned by a column is in `S` already, exactly as it is in `T`. -/
def OwnedSequencesUnchanged (S T : Content) : Prop :=
  ∀ n r q, (∃ sc, T n = some sc ∧ sc.relations r = some (.sequence q)) →
    (q.ownedByTable ≠ none ∨ q.ownedByColumn ≠ none) →
    ∃ sc, S n = some sc ∧ sc.relations r = some (.sequence q)

/-- Every index that `t` defines is on a relation that is a table of the same schema in `s` and in
`t`.  This does not depend on any iteration order. -/
def IndexTablesKept (S T : Content) : Prop :=
  ∀ n i ix, (∃ sc, T n = some sc ∧ sc.relations i = some (.index ix)) →
    (∃ tb, S.tableAt n ix.tableName = some tb) ∧ (∃ tb, T.tableAt n ix.tableName = some tb)

end Podo
