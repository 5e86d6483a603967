import Verif.Spec.TableIndex
import Verif.Proofs.Along
/-
What the text of a change can be read as, for indexes; and where the changes of a diff stand.
-/
namespace Podo
open Pg Change

theorem reads_createIndex {c : Change} (hp : ∀ n ∈ c.quotedNames, plain n) {s t i : String} {r : List Char}
    (hr : r.head? = some ' ')
    (e : c.renderSql.toList = "CREATE INDEX ".toList ++ ((quoted i).toList ++ (" ON ".toList ++ ((qualified s t).toList ++ r)))) :
    ∃ t u m ks, c = .createIndex s t i u m ks := by
  cases ht : alterTail c with
  | some x =>
    rw [(alterTail_some ht).1] at e
    replace e := congrArg (List.take 1) e
    simp at e
  | none =>
    cases c
    case setDefault d => cases d <;> cases ht
    case addColumn => cases ht
    case setNotNull => cases ht
    case setDataType => cases ht
    case dropColumn => cases ht
    case renameColumn => cases ht
    case addPrimaryKey => cases ht
    case alterPrimaryKey => cases ht
    case dropPrimaryKey => cases ht
    case addUnique => cases ht
    case alterUnique => cases ht
    case dropUnique => cases ht
    case addForeignKey => cases ht
    case alterForeignKey => cases ht
    case dropForeignKey => cases ht
    case addCheck => cases ht
    case alterCheck => cases ht
    case dropCheck => cases ht
    case createSchema =>
      rw [render_createSchema] at e
      replace e := congrArg (List.take 8) e
      simp at e
    case dropSchema =>
      rw [render_dropSchema] at e
      replace e := congrArg (List.take 8) e
      simp at e
    case createTable =>
      rw [render_createTable] at e
      replace e := congrArg (List.take 8) e
      simp at e
    case dropTable =>
      rw [render_dropTable] at e
      replace e := congrArg (List.take 8) e
      simp at e
    case createFunction =>
      rw [render_createFunction] at e
      replace e := congrArg (List.take 8) e
      simp at e
    case dropFunction =>
      rw [render_dropFunction] at e
      replace e := congrArg (List.take 8) e
      simp at e
    case createView =>
      rw [render_createView] at e
      replace e := congrArg (List.take 8) e
      simp at e
    case dropView =>
      rw [render_dropView] at e
      replace e := congrArg (List.take 8) e
      simp at e
    case createIndex s' t' i' u' m' ks' =>
      rw [render_createIndex] at e
      cases u' with
      | true =>
        replace e := congrArg (List.take 8) e
        simp at e
      | false =>
        simp only [Bool.false_eq_true, if_false, String.toList_append, List.append_assoc] at e
        have e' : (Sql.qn i').toList ++ (" ON ".toList ++ ((Sql.qa s' t').toList ++ (" USING ".toList ++ (m'.toList ++
            (" (".toList ++ ((Sql.l ks').toList ++ ");".toList)))))) =
            (quoted i).toList ++ (" ON ".toList ++ ((qualified s t).toList ++ r)) := by
          apply List.append_cancel_left (as := "CREATE INDEX ".toList)
          rw [← e]
          simp
        obtain ⟨rfl, e1⟩ := quoted_split (hp _ (.tail _ (.tail _ (.head _)))) (by simp) (by simp) e'.symm
        obtain ⟨rfl, rfl, _⟩ := qualified_split (hp _ (.head _)) (hp _ (.tail _ (.head _))) (by rw [hr]; decide)
          (by simp) (List.append_cancel_left e1)
        exact ⟨_, _, _, _, rfl⟩
    case dropIndex =>
      rw [render_dropIndex] at e
      replace e := congrArg (List.take 8) e
      simp at e
    case createSequence =>
      rw [render_createSequence] at e
      replace e := congrArg (List.take 8) e
      simp at e
    case dropSequence =>
      rw [render_dropSequence] at e
      replace e := congrArg (List.take 8) e
      simp at e

theorem reads_createUniqueIndex {c : Change} (hp : ∀ n ∈ c.quotedNames, plain n) {s t i : String} {r : List Char}
    (hr : r.head? = some ' ')
    (e : c.renderSql.toList = "CREATE UNIQUE INDEX ".toList ++ ((quoted i).toList ++ (" ON ".toList ++ ((qualified s t).toList ++ r)))) :
    ∃ t u m ks, c = .createIndex s t i u m ks := by
  cases ht : alterTail c with
  | some x =>
    rw [(alterTail_some ht).1] at e
    replace e := congrArg (List.take 1) e
    simp at e
  | none =>
    cases c
    case setDefault d => cases d <;> cases ht
    case addColumn => cases ht
    case setNotNull => cases ht
    case setDataType => cases ht
    case dropColumn => cases ht
    case renameColumn => cases ht
    case addPrimaryKey => cases ht
    case alterPrimaryKey => cases ht
    case dropPrimaryKey => cases ht
    case addUnique => cases ht
    case alterUnique => cases ht
    case dropUnique => cases ht
    case addForeignKey => cases ht
    case alterForeignKey => cases ht
    case dropForeignKey => cases ht
    case addCheck => cases ht
    case alterCheck => cases ht
    case dropCheck => cases ht
    case createSchema =>
      rw [render_createSchema] at e
      replace e := congrArg (List.take 8) e
      simp at e
    case dropSchema =>
      rw [render_dropSchema] at e
      replace e := congrArg (List.take 8) e
      simp at e
    case createTable =>
      rw [render_createTable] at e
      replace e := congrArg (List.take 8) e
      simp at e
    case dropTable =>
      rw [render_dropTable] at e
      replace e := congrArg (List.take 8) e
      simp at e
    case createFunction =>
      rw [render_createFunction] at e
      replace e := congrArg (List.take 8) e
      simp at e
    case dropFunction =>
      rw [render_dropFunction] at e
      replace e := congrArg (List.take 8) e
      simp at e
    case createView =>
      rw [render_createView] at e
      replace e := congrArg (List.take 8) e
      simp at e
    case dropView =>
      rw [render_dropView] at e
      replace e := congrArg (List.take 8) e
      simp at e
    case createIndex s' t' i' u' m' ks' =>
      rw [render_createIndex] at e
      cases u' with
      | false =>
        replace e := congrArg (List.take 8) e
        simp at e
      | true =>
        simp only [if_true, String.toList_append, List.append_assoc] at e
        have e' : (Sql.qn i').toList ++ (" ON ".toList ++ ((Sql.qa s' t').toList ++ (" USING ".toList ++ (m'.toList ++
            (" (".toList ++ ((Sql.l ks').toList ++ ");".toList)))))) =
            (quoted i).toList ++ (" ON ".toList ++ ((qualified s t).toList ++ r)) := by
          apply List.append_cancel_left (as := "CREATE UNIQUE INDEX ".toList)
          rw [← e]
          simp
        obtain ⟨rfl, e1⟩ := quoted_split (hp _ (.tail _ (.tail _ (.head _)))) (by simp) (by simp) e'.symm
        obtain ⟨rfl, rfl, _⟩ := qualified_split (hp _ (.head _)) (hp _ (.tail _ (.head _))) (by rw [hr]; decide)
          (by simp) (List.append_cancel_left e1)
        exact ⟨_, _, _, _, rfl⟩
    case dropIndex =>
      rw [render_dropIndex] at e
      replace e := congrArg (List.take 8) e
      simp at e
    case createSequence =>
      rw [render_createSequence] at e
      replace e := congrArg (List.take 8) e
      simp at e
    case dropSequence =>
      rw [render_dropSequence] at e
      replace e := congrArg (List.take 8) e
      simp at e

theorem reads_dropIndex {c : Change} (hp : ∀ n ∈ c.quotedNames, plain n) {s t : String} {r : List Char}
    (hr : r.head? ≠ some '"')
    (e : c.renderSql.toList = "DROP INDEX ".toList ++ ((qualified s t).toList ++ r)) : c = .dropIndex s t := by
  cases ht : alterTail c with
  | some x =>
    rw [(alterTail_some ht).1] at e
    replace e := congrArg (List.take 1) e
    simp at e
  | none =>
    cases c
    case setDefault d => cases d <;> cases ht
    case addColumn => cases ht
    case setNotNull => cases ht
    case setDataType => cases ht
    case dropColumn => cases ht
    case renameColumn => cases ht
    case addPrimaryKey => cases ht
    case alterPrimaryKey => cases ht
    case dropPrimaryKey => cases ht
    case addUnique => cases ht
    case alterUnique => cases ht
    case dropUnique => cases ht
    case addForeignKey => cases ht
    case alterForeignKey => cases ht
    case dropForeignKey => cases ht
    case addCheck => cases ht
    case alterCheck => cases ht
    case dropCheck => cases ht
    case createSchema =>
      rw [render_createSchema] at e
      replace e := congrArg (List.take 7) e
      simp at e
    case dropSchema =>
      rw [render_dropSchema] at e
      replace e := congrArg (List.take 7) e
      simp at e
    case createTable =>
      rw [render_createTable] at e
      replace e := congrArg (List.take 7) e
      simp at e
    case dropTable =>
      rw [render_dropTable] at e
      replace e := congrArg (List.take 7) e
      simp at e
    case createFunction =>
      rw [render_createFunction] at e
      replace e := congrArg (List.take 7) e
      simp at e
    case dropFunction =>
      rw [render_dropFunction] at e
      replace e := congrArg (List.take 7) e
      simp at e
    case createView =>
      rw [render_createView] at e
      replace e := congrArg (List.take 7) e
      simp at e
    case dropView =>
      rw [render_dropView] at e
      replace e := congrArg (List.take 7) e
      simp at e
    case createIndex =>
      rw [render_createIndex] at e
      replace e := congrArg (List.take 7) e
      simp at e
    case dropIndex s' t' =>
      rw [render_dropIndex] at e
      simp only [String.toList_append, List.append_assoc] at e
      obtain ⟨rfl, rfl, _⟩ := qualified_split (hp _ (.head _)) (hp _ (.tail _ (.head _))) hr
        (by simp) (List.append_cancel_left e).symm
      rfl
    case createSequence =>
      rw [render_createSequence] at e
      replace e := congrArg (List.take 7) e
      simp at e
    case dropSequence =>
      rw [render_dropSequence] at e
      replace e := congrArg (List.take 7) e
      simp at e

theorem says_createsIndex {c : Change} (hp : ∀ n ∈ c.quotedNames, plain n) {s t i m : String} {u : Bool} {ks : List String}
    (h : Says c.renderSql (.createIndex s t i u m ks)) : ∃ t u m ks, c = .createIndex s t i u m ks := by
  obtain ⟨st, e, hd, he, hq⟩ := says_text h
  obtain ⟨_, rfl⟩ := hd
  rw [text_createIndex] at hq
  cases u with
  | false =>
    exact reads_createIndex (t := t) (r := " USING ".toList ++ (m.toList ++ (" (".toList ++ ((commaList ks).toList ++
      (")".toList ++ e.toList))))) hp (by simp) (by rw [hq]; simp)
  | true =>
    exact reads_createUniqueIndex (t := t) (r := " USING ".toList ++ (m.toList ++ (" (".toList ++ ((commaList ks).toList ++
      (")".toList ++ e.toList))))) hp (by simp) (by rw [hq]; simp)

theorem says_dropsIndex {c : Change} (hp : ∀ n ∈ c.quotedNames, plain n) {s i : String}
    (h : Says c.renderSql (.dropIndex s i)) : c = .dropIndex s i := by
  obtain ⟨st, e, hd, he, hq⟩ := says_text h
  cases hd
  rw [text_dropIndex] at hq
  simp only [String.toList_append, List.append_assoc] at hq
  exact reads_dropIndex hp he hq
end Podo
