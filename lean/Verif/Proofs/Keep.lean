import Verif.Spec.Keep
import Verif.Proofs.Sql
import Verif.Proofs.SqlEqns
/-
What the text of a change can be read as.
-/
namespace Podo
open Pg

theorem quoted_toList (n : String) : (quoted n).toList =
    '"' :: (n.toList.flatMap (fun c => if c = '"' then ['"', '"'] else [c]) ++ ['"']) := by
  simp [quoted]

theorem quoted_split {n m : String} {a b : List Char} (hm : plain m) (ha : a.head? ≠ some '"')
    (hb : b.head? ≠ some '"') (h : (quoted n).toList ++ a = (Sql.qn m).toList ++ b) : n = m ∧ a = b := by
  rw [quoted_toList, qn_toList] at h
  simp only [List.cons_append, List.cons.injEq, true_and, List.append_assoc, List.nil_append] at h
  have h1 := readQuotedRest_escape n.toList a ha
  have h2 := readQuotedRest_plain (rest := b) hm hb
  rw [h, h2] at h1
  simp only [Option.some.injEq, Prod.mk.injEq] at h1
  exact ⟨String.toList_injective h1.1.symm, h1.2.symm⟩

theorem qualified_split {s t s' t' : String} {a b : List Char} (hs : plain s') (ht : plain t') (ha : a.head? ≠ some '"')
    (hb : b.head? ≠ some '"') (h : (qualified s t).toList ++ a = (Sql.qa s' t').toList ++ b) :
    s = s' ∧ t = t' ∧ a = b := by
  simp only [qualified, Sql.qa, String.toList_append, List.append_assoc] at h
  obtain ⟨h1, h2⟩ := quoted_split hs (by simp) (by simp) h
  obtain ⟨h3, h4⟩ := quoted_split ht ha hb (List.append_cancel_left h2)
  exact ⟨h1, h3, h4⟩

/-- What `ALTER TABLE` is followed by, after the name of the table. -/
def alterTail : Change → Option (String × String × String)
  | .addColumn s t c ty nn df => some (s, t, " ADD COLUMN " ++ Sql.qn c ++ " " ++ (ty ++
      (if !nn then " NOT NULL" else "") ++ (match df with | some d => " DEFAULT " ++ d | none => "")) ++ ";")
  | .setDataType s t c ty => some (s, t, " ALTER COLUMN " ++ Sql.qn c ++ " SET DATA TYPE " ++ ty ++ ";")
  | .setDefault s t c (some d) => some (s, t, " ALTER COLUMN " ++ Sql.qn c ++ " SET DEFAULT " ++ d ++ ";")
  | .setDefault s t c none => some (s, t, " ALTER COLUMN " ++ Sql.qn c ++ " DROP DEFAULT;")
  | .setNotNull s t c nn => some (s, t, " ALTER COLUMN " ++ Sql.qn c ++
      (if nn then " SET NOT NULL;" else " DROP NOT NULL;"))
  | .dropColumn s t c => some (s, t, " DROP COLUMN " ++ Sql.qn c ++ ";")
  | .renameColumn s t a b => some (s, t, " RENAME COLUMN " ++ Sql.qn a ++ " TO " ++ Sql.qn b ++ ";")
  | .addPrimaryKey s t n cols d i => some (s, t, " ADD CONSTRAINT " ++ Sql.qn n ++ " PRIMARY KEY (" ++ Sql.ql cols
      ++ ") " ++ Sql.flags d i ++ ";")
  | .alterPrimaryKey s t n d i => some (s, t, " ALTER CONSTRAINT " ++ Sql.qn n ++ " " ++ Sql.flags d i ++ ";")
  | .dropPrimaryKey s t n => some (s, t, " DROP CONSTRAINT " ++ Sql.qn n ++ ";")
  | .addUnique s t n cols d i => some (s, t, " ADD CONSTRAINT " ++ Sql.qn n ++ " UNIQUE (" ++ Sql.ql cols
      ++ ") " ++ Sql.flags d i ++ ";")
  | .alterUnique s t n d i => some (s, t, " ALTER CONSTRAINT " ++ Sql.qn n ++ " " ++ Sql.flags d i ++ ";")
  | .dropUnique s t n => some (s, t, " DROP CONSTRAINT " ++ Sql.qn n ++ ";")
  | .addForeignKey s t n cols ts tt tcols m u d _ _ => some (s, t, " ADD CONSTRAINT " ++ Sql.qn n ++
      " FOREIGN KEY (" ++ Sql.ql cols ++ ") REFERENCES " ++ Sql.qa ts tt ++ " (" ++ Sql.ql tcols ++ ") " ++ m ++ " "
      ++ u ++ " " ++ d ++ ";")
  | .alterForeignKey s t n d _ => some (s, t, " ALTER CONSTRAINT " ++ Sql.qn n ++ " " ++ Sql.flagsOne d)
  | .dropForeignKey s t n => some (s, t, " DROP CONSTRAINT " ++ Sql.qn n)
  | .addCheck s t n e d i => some (s, t, " ADD CONSTRAINT " ++ Sql.qn n ++ " CHECK " ++ e ++ " " ++ Sql.flags d i
      ++ ";")
  | .alterCheck s t n d _ => some (s, t, " ALTER CONSTRAINT " ++ Sql.qn n ++ " " ++ Sql.flagsOne d)
  | .dropCheck s t n => some (s, t, " DROP CONSTRAINT " ++ Sql.qn n ++ ";")
  | _ => none

theorem alterTail_some {c : Change} {s t r : String} (h : alterTail c = some (s, t, r)) :
    c.renderSql = "ALTER TABLE " ++ Sql.qa s t ++ r ∧ s ∈ c.place ∧ t ∈ c.place ∧
      r.toList.head? = some ' ' := by
  cases c
  case addColumn s t c ty nn df =>
    cases h
    refine ⟨?_, .head _, .tail _ (.head _), by simp⟩
    rw [render_addColumn]
    cases nn <;> cases df <;> simp [Sql.join, ← String.toList_inj]
  case setDefault s t c d =>
    cases d with
    | none => cases h; exact ⟨by rw [render_setDefault_none]; simp only [String.append_assoc], .head _, .tail _ (.head _), by simp⟩
    | some d => cases h; exact ⟨by rw [render_setDefault]; simp only [String.append_assoc], .head _, .tail _ (.head _), by simp⟩
  case setNotNull s t c nn =>
    cases h
    refine ⟨?_, .head _, .tail _ (.head _), by simp⟩
    rw [render_setNotNull]
    cases nn <;> simp [String.append_assoc]
  case setDataType => cases h; exact ⟨by rw [render_setDataType]; simp only [String.append_assoc], .head _, .tail _ (.head _), by simp⟩
  case dropColumn => cases h; exact ⟨by rw [render_dropColumn]; simp only [String.append_assoc], .head _, .tail _ (.head _), by simp⟩
  case renameColumn => cases h; exact ⟨by rw [render_renameColumn]; simp only [String.append_assoc], .head _, .tail _ (.head _), by simp⟩
  case addPrimaryKey => cases h; exact ⟨by rw [render_addPrimaryKey]; simp only [String.append_assoc], .head _, .tail _ (.head _), by simp⟩
  case alterPrimaryKey => cases h; exact ⟨by rw [render_alterPrimaryKey]; simp only [String.append_assoc], .head _, .tail _ (.head _), by simp⟩
  case dropPrimaryKey => cases h; exact ⟨by rw [render_dropPrimaryKey]; simp only [String.append_assoc], .head _, .tail _ (.head _), by simp⟩
  case addUnique => cases h; exact ⟨by rw [render_addUnique]; simp only [String.append_assoc], .head _, .tail _ (.head _), by simp⟩
  case alterUnique => cases h; exact ⟨by rw [render_alterUnique]; simp only [String.append_assoc], .head _, .tail _ (.head _), by simp⟩
  case dropUnique => cases h; exact ⟨by rw [render_dropUnique]; simp only [String.append_assoc], .head _, .tail _ (.head _), by simp⟩
  case addForeignKey => cases h; exact ⟨by rw [render_addForeignKey]; simp only [String.append_assoc], .head _, .tail _ (.head _), by simp⟩
  case alterForeignKey => cases h; exact ⟨by rw [render_alterForeignKey]; simp only [String.append_assoc], .head _, .tail _ (.head _), by simp⟩
  case dropForeignKey => cases h; exact ⟨by rw [render_dropForeignKey]; simp only [String.append_assoc], .head _, .tail _ (.head _), by simp⟩
  case addCheck => cases h; exact ⟨by rw [render_addCheck]; simp only [String.append_assoc], .head _, .tail _ (.head _), by simp⟩
  case alterCheck => cases h; exact ⟨by rw [render_alterCheck]; simp only [String.append_assoc], .head _, .tail _ (.head _), by simp⟩
  case dropCheck => cases h; exact ⟨by rw [render_dropCheck]; simp only [String.append_assoc], .head _, .tail _ (.head _), by simp⟩
  case createSchema => cases h
  case dropSchema => cases h
  case createTable => cases h
  case dropTable => cases h
  case createFunction => cases h
  case dropFunction => cases h
  case createView => cases h
  case dropView => cases h
  case createIndex => cases h
  case dropIndex => cases h
  case createSequence => cases h
  case dropSequence => cases h

theorem alterTail_none {c : Change} (h : alterTail c = none) {r : List Char}
    (e : c.renderSql.toList = "ALTER TABLE ".toList ++ r) : False := by
  replace e := congrArg (List.take 1) e
  cases c
  case setDefault d => cases d <;> cases h
  case addColumn => cases h
  case setNotNull => cases h
  case setDataType => cases h
  case dropColumn => cases h
  case renameColumn => cases h
  case addPrimaryKey => cases h
  case alterPrimaryKey => cases h
  case dropPrimaryKey => cases h
  case addUnique => cases h
  case alterUnique => cases h
  case dropUnique => cases h
  case addForeignKey => cases h
  case alterForeignKey => cases h
  case dropForeignKey => cases h
  case addCheck => cases h
  case alterCheck => cases h
  case dropCheck => cases h
  case createSchema => rw [render_createSchema] at e; simp at e
  case dropSchema => rw [render_dropSchema] at e; simp at e
  case createTable => rw [render_createTable] at e; simp at e
  case dropTable => rw [render_dropTable] at e; simp at e
  case createFunction => rw [render_createFunction] at e; simp at e
  case dropFunction => rw [render_dropFunction] at e; simp at e
  case createView => rw [render_createView] at e; simp at e
  case dropView => rw [render_dropView] at e; simp at e
  case createIndex => rw [render_createIndex] at e; simp at e
  case dropIndex => rw [render_dropIndex] at e; simp at e
  case createSequence => rw [render_createSequence] at e; simp at e
  case dropSequence => rw [render_dropSequence] at e; simp at e

theorem alter_inv {c : Change} (hp : ∀ n ∈ c.place, plain n) {s t : String} {r : List Char}
    (hr : r.head? = some ' ')
    (e : c.renderSql.toList = "ALTER TABLE ".toList ++ ((qualified s t).toList ++ r)) :
    ∃ r', alterTail c = some (s, t, r') ∧ r'.toList = r := by
  cases h : alterTail c with
  | none => exact (alterTail_none h e).elim
  | some x =>
    obtain ⟨s', t', r'⟩ := x
    obtain ⟨h1, h2, h3, h4⟩ := alterTail_some h
    rw [h1, String.toList_append, String.toList_append, List.append_assoc] at e
    obtain ⟨rfl, rfl, e'⟩ := qualified_split (hp _ h2) (hp _ h3) (by rw [hr]; decide) (by rw [h4]; decide)
      (List.append_cancel_left e).symm
    exact ⟨r', rfl, e'.symm⟩

theorem reads_createTable {c : Change} (hp : ∀ n ∈ c.place, plain n) {s t : String} {r : List Char}
    (hr : r.head? = some ' ')
    (e : c.renderSql.toList = "CREATE TABLE ".toList ++ ((qualified s t).toList ++ r)) :
    ∃ cols, c = .createTable s t cols := by
  cases ht : alterTail c with
  | some x =>
    rw [(alterTail_some ht).1] at e
    replace e := congrArg (List.take 1) e
    simp at e
  | none =>
    cases c
    case setDefault d => cases d <;> cases ht
    case createTable s' t' cols =>
      rw [render_createTable] at e
      simp only [String.toList_append, List.append_assoc] at e
      obtain ⟨rfl, rfl, _⟩ := qualified_split (hp _ (.head _)) (hp _ (.tail _ (.head _))) (by rw [hr]; decide)
        (by simp) (List.append_cancel_left e).symm
      exact ⟨cols, rfl⟩
    case addColumn => cases ht
    case setNotNull => cases ht
    case setDataType => cases ht
    case dropColumn => cases ht
    case renameColumn => cases ht
    case addPrimaryKey => cases ht
    case alterPrimaryKey => cases ht
    case dropPrimaryKey => cases ht
    case addUnique => cases ht
    case alterUnique => cases ht
    case dropUnique => cases ht
    case addForeignKey => cases ht
    case alterForeignKey => cases ht
    case dropForeignKey => cases ht
    case addCheck => cases ht
    case alterCheck => cases ht
    case dropCheck => cases ht
    case createIndex s' t' i u m ks =>
      rw [render_createIndex] at e
      replace e := congrArg (List.take 9) e
      cases u <;> simp at e
    case createSchema =>
      rw [render_createSchema] at e
      replace e := congrArg (List.take 9) e
      simp at e
    case dropSchema =>
      rw [render_dropSchema] at e
      replace e := congrArg (List.take 9) e
      simp at e
    case dropTable =>
      rw [render_dropTable] at e
      replace e := congrArg (List.take 9) e
      simp at e
    case createFunction =>
      rw [render_createFunction] at e
      replace e := congrArg (List.take 9) e
      simp at e
    case dropFunction =>
      rw [render_dropFunction] at e
      replace e := congrArg (List.take 9) e
      simp at e
    case createView =>
      rw [render_createView] at e
      replace e := congrArg (List.take 9) e
      simp at e
    case dropView =>
      rw [render_dropView] at e
      replace e := congrArg (List.take 9) e
      simp at e
    case dropIndex =>
      rw [render_dropIndex] at e
      replace e := congrArg (List.take 9) e
      simp at e
    case createSequence =>
      rw [render_createSequence] at e
      replace e := congrArg (List.take 9) e
      simp at e
    case dropSequence =>
      rw [render_dropSequence] at e
      replace e := congrArg (List.take 9) e
      simp at e

theorem reads_dropTable {c : Change} (hp : ∀ n ∈ c.place, plain n) {s t : String} {r : List Char}
    (hr : r.head? ≠ some '"')
    (e : c.renderSql.toList = "DROP TABLE ".toList ++ ((qualified s t).toList ++ r)) : c = .dropTable s t := by
  cases ht : alterTail c with
  | some x =>
    rw [(alterTail_some ht).1] at e
    replace e := congrArg (List.take 1) e
    simp at e
  | none =>
    cases c
    case setDefault d => cases d <;> cases ht
    case dropTable s' t' =>
      rw [render_dropTable] at e
      simp only [String.toList_append, List.append_assoc] at e
      obtain ⟨rfl, rfl, _⟩ := qualified_split (hp _ (.head _)) (hp _ (.tail _ (.head _))) hr
        (by simp) (List.append_cancel_left e).symm
      rfl
    case addColumn => cases ht
    case setNotNull => cases ht
    case setDataType => cases ht
    case dropColumn => cases ht
    case renameColumn => cases ht
    case addPrimaryKey => cases ht
    case alterPrimaryKey => cases ht
    case dropPrimaryKey => cases ht
    case addUnique => cases ht
    case alterUnique => cases ht
    case dropUnique => cases ht
    case addForeignKey => cases ht
    case alterForeignKey => cases ht
    case dropForeignKey => cases ht
    case addCheck => cases ht
    case alterCheck => cases ht
    case dropCheck => cases ht
    case createSchema =>
      rw [render_createSchema] at e
      replace e := congrArg (List.take 7) e
      simp at e
    case dropSchema =>
      rw [render_dropSchema] at e
      replace e := congrArg (List.take 7) e
      simp at e
    case createTable =>
      rw [render_createTable] at e
      replace e := congrArg (List.take 7) e
      simp at e
    case createFunction =>
      rw [render_createFunction] at e
      replace e := congrArg (List.take 7) e
      simp at e
    case dropFunction =>
      rw [render_dropFunction] at e
      replace e := congrArg (List.take 7) e
      simp at e
    case createView =>
      rw [render_createView] at e
      replace e := congrArg (List.take 7) e
      simp at e
    case dropView =>
      rw [render_dropView] at e
      replace e := congrArg (List.take 7) e
      simp at e
    case createIndex =>
      rw [render_createIndex] at e
      replace e := congrArg (List.take 7) e
      simp at e
    case dropIndex =>
      rw [render_dropIndex] at e
      replace e := congrArg (List.take 7) e
      simp at e
    case createSequence =>
      rw [render_createSequence] at e
      replace e := congrArg (List.take 7) e
      simp at e
    case dropSequence =>
      rw [render_dropSequence] at e
      replace e := congrArg (List.take 7) e
      simp at e

theorem reads_addColumn {c : Change} (hp : ∀ n ∈ c.place, plain n) {s t k : String} {r : List Char}
    (hr : r.head? = some ' ')
    (e : c.renderSql.toList = "ALTER TABLE ".toList ++ ((qualified s t).toList ++
      (" ADD COLUMN ".toList ++ ((quoted k).toList ++ r)))) : ∃ ty nn df, c = .addColumn s t k ty nn df := by
  obtain ⟨r', h, e⟩ := alter_inv hp (by simp) e
  cases c
  case addColumn =>
    cases h
    simp only [String.toList_append, List.append_assoc] at e
    obtain ⟨rfl, e1⟩ := quoted_split (hp _ (.tail _ (.tail _ (.head _)))) (by rw [hr]; decide) (by simp) (List.append_cancel_left e).symm
    exact ⟨_, _, _, rfl⟩
  case setNotNull => cases h; replace e := congrArg (List.take 8) e; simp at e
  case setDataType => cases h; replace e := congrArg (List.take 8) e; simp at e
  case dropColumn => cases h; replace e := congrArg (List.take 8) e; simp at e
  case renameColumn => cases h; replace e := congrArg (List.take 8) e; simp at e
  case addPrimaryKey => cases h; replace e := congrArg (List.take 8) e; simp at e
  case alterPrimaryKey => cases h; replace e := congrArg (List.take 8) e; simp at e
  case dropPrimaryKey => cases h; replace e := congrArg (List.take 8) e; simp at e
  case addUnique => cases h; replace e := congrArg (List.take 8) e; simp at e
  case alterUnique => cases h; replace e := congrArg (List.take 8) e; simp at e
  case dropUnique => cases h; replace e := congrArg (List.take 8) e; simp at e
  case addForeignKey => cases h; replace e := congrArg (List.take 8) e; simp at e
  case alterForeignKey => cases h; replace e := congrArg (List.take 8) e; simp at e
  case dropForeignKey => cases h; replace e := congrArg (List.take 8) e; simp at e
  case addCheck => cases h; replace e := congrArg (List.take 8) e; simp at e
  case alterCheck => cases h; replace e := congrArg (List.take 8) e; simp at e
  case dropCheck => cases h; replace e := congrArg (List.take 8) e; simp at e
  case setDefault d => cases d <;> (cases h; replace e := congrArg (List.take 8) e; simp at e)
  case createSchema => cases h
  case dropSchema => cases h
  case createTable => cases h
  case dropTable => cases h
  case createFunction => cases h
  case dropFunction => cases h
  case createView => cases h
  case dropView => cases h
  case createIndex => cases h
  case dropIndex => cases h
  case createSequence => cases h
  case dropSequence => cases h

theorem reads_dropColumn {c : Change} (hp : ∀ n ∈ c.place, plain n) {s t k : String} {r : List Char}
    (hr : r.head? ≠ some '"')
    (e : c.renderSql.toList = "ALTER TABLE ".toList ++ ((qualified s t).toList ++
      (" DROP COLUMN ".toList ++ ((quoted k).toList ++ r)))) : c = .dropColumn s t k := by
  obtain ⟨r', h, e⟩ := alter_inv hp (by simp) e
  cases c
  case addColumn => cases h; replace e := congrArg (List.take 9) e; simp at e
  case setNotNull => cases h; replace e := congrArg (List.take 9) e; simp at e
  case setDataType => cases h; replace e := congrArg (List.take 9) e; simp at e
  case dropColumn =>
    cases h
    simp only [String.toList_append, List.append_assoc] at e
    obtain ⟨rfl, e1⟩ := quoted_split (hp _ (.tail _ (.tail _ (.head _)))) hr (by simp) (List.append_cancel_left e).symm
    rfl
  case renameColumn => cases h; replace e := congrArg (List.take 9) e; simp at e
  case addPrimaryKey => cases h; replace e := congrArg (List.take 9) e; simp at e
  case alterPrimaryKey => cases h; replace e := congrArg (List.take 9) e; simp at e
  case dropPrimaryKey => cases h; replace e := congrArg (List.take 9) e; simp at e
  case addUnique => cases h; replace e := congrArg (List.take 9) e; simp at e
  case alterUnique => cases h; replace e := congrArg (List.take 9) e; simp at e
  case dropUnique => cases h; replace e := congrArg (List.take 9) e; simp at e
  case addForeignKey => cases h; replace e := congrArg (List.take 9) e; simp at e
  case alterForeignKey => cases h; replace e := congrArg (List.take 9) e; simp at e
  case dropForeignKey => cases h; replace e := congrArg (List.take 9) e; simp at e
  case addCheck => cases h; replace e := congrArg (List.take 9) e; simp at e
  case alterCheck => cases h; replace e := congrArg (List.take 9) e; simp at e
  case dropCheck => cases h; replace e := congrArg (List.take 9) e; simp at e
  case setDefault d => cases d <;> (cases h; replace e := congrArg (List.take 9) e; simp at e)
  case createSchema => cases h
  case dropSchema => cases h
  case createTable => cases h
  case dropTable => cases h
  case createFunction => cases h
  case dropFunction => cases h
  case createView => cases h
  case dropView => cases h
  case createIndex => cases h
  case dropIndex => cases h
  case createSequence => cases h
  case dropSequence => cases h

theorem reads_renameColumn {c : Change} (hp : ∀ n ∈ c.place, plain n) {s t k : String} {r : List Char}
    (hr : r.head? = some ' ')
    (e : c.renderSql.toList = "ALTER TABLE ".toList ++ ((qualified s t).toList ++
      (" RENAME COLUMN ".toList ++ ((quoted k).toList ++ r)))) : ∃ b, c = .renameColumn s t k b ∧ (Sql.qn b).toList ++ [';'] = r.drop 4 := by
  obtain ⟨r', h, e⟩ := alter_inv hp (by simp) e
  cases c
  case addColumn => cases h; replace e := congrArg (List.take 3) e; simp at e
  case setNotNull => cases h; replace e := congrArg (List.take 3) e; simp at e
  case setDataType => cases h; replace e := congrArg (List.take 3) e; simp at e
  case dropColumn => cases h; replace e := congrArg (List.take 3) e; simp at e
  case renameColumn =>
    cases h
    simp only [String.toList_append, List.append_assoc] at e
    obtain ⟨rfl, e1⟩ := quoted_split (hp _ (.tail _ (.tail _ (.head _)))) (by rw [hr]; decide) (by simp) (List.append_cancel_left e).symm
    exact ⟨_, rfl, by rw [e1]; simp⟩
  case addPrimaryKey => cases h; replace e := congrArg (List.take 3) e; simp at e
  case alterPrimaryKey => cases h; replace e := congrArg (List.take 3) e; simp at e
  case dropPrimaryKey => cases h; replace e := congrArg (List.take 3) e; simp at e
  case addUnique => cases h; replace e := congrArg (List.take 3) e; simp at e
  case alterUnique => cases h; replace e := congrArg (List.take 3) e; simp at e
  case dropUnique => cases h; replace e := congrArg (List.take 3) e; simp at e
  case addForeignKey => cases h; replace e := congrArg (List.take 3) e; simp at e
  case alterForeignKey => cases h; replace e := congrArg (List.take 3) e; simp at e
  case dropForeignKey => cases h; replace e := congrArg (List.take 3) e; simp at e
  case addCheck => cases h; replace e := congrArg (List.take 3) e; simp at e
  case alterCheck => cases h; replace e := congrArg (List.take 3) e; simp at e
  case dropCheck => cases h; replace e := congrArg (List.take 3) e; simp at e
  case setDefault d => cases d <;> (cases h; replace e := congrArg (List.take 3) e; simp at e)
  case createSchema => cases h
  case dropSchema => cases h
  case createTable => cases h
  case dropTable => cases h
  case createFunction => cases h
  case dropFunction => cases h
  case createView => cases h
  case dropView => cases h
  case createIndex => cases h
  case dropIndex => cases h
  case createSequence => cases h
  case dropSequence => cases h

theorem reads_setDataType {c : Change} (hp : ∀ n ∈ c.place, plain n) {s t k : String} {r : List Char}
    (hr : r.head? = some ' ') (hd : r.take 7 = " SET DA".toList)
    (e : c.renderSql.toList = "ALTER TABLE ".toList ++ ((qualified s t).toList ++
      (" ALTER COLUMN ".toList ++ ((quoted k).toList ++ r)))) : ∃ ty, c = .setDataType s t k ty := by
  obtain ⟨r', h, e⟩ := alter_inv hp (by simp) e
  cases c
  case addColumn => cases h; replace e := congrArg (List.take 10) e; simp at e
  case setNotNull nn =>
    cases h
    simp only [String.toList_append, List.append_assoc] at e
    obtain ⟨rfl, e1⟩ := quoted_split (hp _ (.tail _ (.tail _ (.head _)))) (by rw [hr]; decide) (by cases nn <;> simp)
      (List.append_cancel_left e).symm
    rw [e1] at hd
    cases nn <;> simp at hd
  case setDataType =>
    cases h
    simp only [String.toList_append, List.append_assoc] at e
    obtain ⟨rfl, e1⟩ := quoted_split (hp _ (.tail _ (.tail _ (.head _)))) (by rw [hr]; decide) (by simp)
      (List.append_cancel_left e).symm
    exact ⟨_, rfl⟩
  case dropColumn => cases h; replace e := congrArg (List.take 10) e; simp at e
  case renameColumn => cases h; replace e := congrArg (List.take 10) e; simp at e
  case addPrimaryKey => cases h; replace e := congrArg (List.take 10) e; simp at e
  case alterPrimaryKey => cases h; replace e := congrArg (List.take 10) e; simp at e
  case dropPrimaryKey => cases h; replace e := congrArg (List.take 10) e; simp at e
  case addUnique => cases h; replace e := congrArg (List.take 10) e; simp at e
  case alterUnique => cases h; replace e := congrArg (List.take 10) e; simp at e
  case dropUnique => cases h; replace e := congrArg (List.take 10) e; simp at e
  case addForeignKey => cases h; replace e := congrArg (List.take 10) e; simp at e
  case alterForeignKey => cases h; replace e := congrArg (List.take 10) e; simp at e
  case dropForeignKey => cases h; replace e := congrArg (List.take 10) e; simp at e
  case addCheck => cases h; replace e := congrArg (List.take 10) e; simp at e
  case alterCheck => cases h; replace e := congrArg (List.take 10) e; simp at e
  case dropCheck => cases h; replace e := congrArg (List.take 10) e; simp at e
  case setDefault d =>
    cases d with
    | none =>
      cases h
      simp only [String.toList_append, List.append_assoc] at e
      obtain ⟨rfl, e1⟩ := quoted_split (b := " DROP DEFAULT;".toList) (hp _ (.tail _ (.tail _ (.head _)))) (by rw [hr]; decide) (by simp)
        (List.append_cancel_left e).symm
      rw [e1] at hd
      simp at hd
    | some d =>
      cases h
      simp only [String.toList_append, List.append_assoc] at e
      obtain ⟨rfl, e1⟩ := quoted_split (hp _ (.tail _ (.tail _ (.head _)))) (by rw [hr]; decide) (by simp)
        (List.append_cancel_left e).symm
      rw [e1] at hd
      simp at hd
  case createSchema => cases h
  case dropSchema => cases h
  case createTable => cases h
  case dropTable => cases h
  case createFunction => cases h
  case dropFunction => cases h
  case createView => cases h
  case dropView => cases h
  case createIndex => cases h
  case dropIndex => cases h
  case createSequence => cases h
  case dropSequence => cases h

/-- The text of a change is about the values of no column that the change is not about. -/
theorem reads_touches {c k : Change} (hp : ∀ n ∈ c.place, plain n) (h : Says c.renderSql k)
    {s t n : String} (ht : k.Touches s t n) : c.Touches s t n := by
  obtain ⟨st, hd, h⟩ := h
  obtain ⟨e, he, hq⟩ : ∃ e : String, (e = "" ∨ e = ";") ∧ c.renderSql = st.text ++ e := by
    rcases h with h | h
    · exact ⟨"", .inl rfl, by rw [h]; simp⟩
    · exact ⟨";", .inr rfl, h⟩
  have hh : e.toList.head? ≠ some '"' := by rcases he with rfl | rfl <;> simp
  have hq := congrArg String.toList hq
  cases k
  case createTable a b cols =>
    obtain ⟨defs, rfl, _⟩ := hd
    obtain ⟨rfl, rfl⟩ := ht
    rw [text_createTable] at hq
    simp only [String.toList_append, List.append_assoc] at hq
    obtain ⟨cs, rfl⟩ := reads_createTable hp (by simp) hq
    exact ⟨rfl, rfl⟩
  case dropTable a b =>
    cases hd
    obtain ⟨rfl, rfl⟩ := ht
    rw [text_dropTable] at hq
    simp only [String.toList_append, List.append_assoc] at hq
    cases reads_dropTable hp hh hq
    exact ⟨rfl, rfl⟩
  case addColumn a b k ty nn df =>
    obtain ⟨null, rfl, _⟩ := hd
    obtain ⟨rfl, rfl, rfl⟩ := ht
    rw [text_addColumn] at hq
    simp only [ColumnDef.text, String.toList_append, List.append_assoc] at hq
    obtain ⟨_, _, _, rfl⟩ := reads_addColumn hp (by simp) hq
    exact ⟨rfl, rfl, rfl⟩
  case setDataType a b k ty =>
    cases hd
    obtain ⟨rfl, rfl, rfl⟩ := ht
    rw [text_setDataType] at hq
    simp only [String.toList_append, List.append_assoc] at hq
    obtain ⟨_, rfl⟩ := reads_setDataType hp (by simp) (by simp) hq
    exact ⟨rfl, rfl, rfl⟩
  case dropColumn a b k =>
    cases hd
    obtain ⟨rfl, rfl, rfl⟩ := ht
    rw [text_dropColumn] at hq
    simp only [String.toList_append, List.append_assoc] at hq
    cases reads_dropColumn hp hh hq
    exact ⟨rfl, rfl, rfl⟩
  case renameColumn a b k l =>
    cases hd
    obtain ⟨rfl, rfl, ht⟩ := ht
    rw [text_renameColumn] at hq
    simp only [String.toList_append, List.append_assoc] at hq
    obtain ⟨l', rfl, h2⟩ := reads_renameColumn hp (by simp) hq
    have : l = l' := (quoted_split (a := e.toList) (b := [';']) (hp _ (by simp [Change.place])) hh (by simp) (by
      rw [h2]; simp)).1
    subst this
    exact ⟨rfl, rfl, ht⟩
  case setDefault => exact ht.elim
  case setNotNull => exact ht.elim
  case addPrimaryKey => exact ht.elim
  case alterPrimaryKey => exact ht.elim
  case dropPrimaryKey => exact ht.elim
  case addUnique => exact ht.elim
  case alterUnique => exact ht.elim
  case dropUnique => exact ht.elim
  case addForeignKey => exact ht.elim
  case alterForeignKey => exact ht.elim
  case dropForeignKey => exact ht.elim
  case addCheck => exact ht.elim
  case alterCheck => exact ht.elim
  case dropCheck => exact ht.elim
  case createSchema => exact ht.elim
  case dropSchema => exact ht.elim
  case createFunction => exact ht.elim
  case dropFunction => exact ht.elim
  case createView => exact ht.elim
  case dropView => exact ht.elim
  case createIndex => exact ht.elim
  case dropIndex => exact ht.elim
  case createSequence => exact ht.elim
  case dropSequence => exact ht.elim

end Podo
