import Verif.Spec.Apart
import Verif.Proofs.Sql
import Verif.Proofs.SqlEqns
import Verif.Proofs.Keep
/-
Which schema the text of a statement names.
-/
namespace Podo
open Pg

/-- The schema that comes first in a text: the first quoted name, if a dot follows it, or the second, if ` ON ` does. -/
def firstSchema (cs : List Char) : Option String :=
  match cs.dropWhile (· != '"') with
  | [] => none
  | _ :: rest =>
    match readQuotedRest rest with
    | some (n, '.' :: _) => some (String.ofList n)
    | some (_, ' ' :: 'O' :: 'N' :: ' ' :: '"' :: rest') =>
      match readQuotedRest rest' with
      | some (n, '.' :: _) => some (String.ofList n)
      | _ => none
    | _ => none

theorem dropWhile_quote {p r : List Char} (h : p.all (· != '"') = true) :
    (p ++ '"' :: r).dropWhile (· != '"') = '"' :: r := by
  induction p with
  | nil => rfl
  | cons c p ih =>
    simp only [List.all_cons, Bool.and_eq_true] at h
    simp only [List.cons_append, List.dropWhile_cons, h.1, if_true]
    exact ih h.2

theorem dropWhile_none {p : List Char} (h : p.all (· != '"') = true) : p.dropWhile (· != '"') = [] := by
  induction p with
  | nil => rfl
  | cons c p ih =>
    simp only [List.all_cons, Bool.and_eq_true] at h
    simp only [List.dropWhile_cons, h.1, if_true]
    exact ih h.2

theorem firstSchema_none {p : List Char} (h : p.all (· != '"') = true) : firstSchema p = none := by
  unfold firstSchema
  rw [dropWhile_none h]

theorem plain_all {n : String} (h : plain n) : n.toList.all (· != '"') = true := by
  rw [List.all_eq_true]
  intro c hc
  simp only [bne_iff_ne, ne_eq]
  rintro rfl
  exact h hc

theorem firstSchema_qualified {p r : List Char} {s t : String} (h : p.all (· != '"') = true) :
    firstSchema (p ++ ((qualified s t).toList ++ r)) = some s := by
  unfold firstSchema
  rw [qualified, String.toList_append, String.toList_append, quoted_toList]
  simp only [List.cons_append, List.append_assoc]
  rw [dropWhile_quote h]
  simp only
  rw [List.nil_append, readQuotedRest_escape _ _ (by simp)]
  simp

theorem firstSchema_qa {p r : List Char} {s t : String} (hs : plain s) (h : p.all (· != '"') = true) :
    firstSchema (p ++ ((Sql.qa s t).toList ++ r)) = some s := by
  unfold firstSchema
  rw [Sql.qa, String.toList_append, String.toList_append, qn_toList]
  simp only [List.cons_append, List.append_assoc]
  rw [dropWhile_quote h]
  simp only
  rw [List.nil_append, readQuotedRest_plain hs (by simp)]
  simp

theorem firstSchema_index {p r : List Char} {i s t : String} (h : p.all (· != '"') = true) :
    firstSchema (p ++ ((quoted i).toList ++ (" ON ".toList ++ ((qualified s t).toList ++ r)))) = some s := by
  unfold firstSchema
  rw [qualified, String.toList_append, String.toList_append, quoted_toList, quoted_toList]
  simp only [List.cons_append, List.append_assoc]
  rw [dropWhile_quote h]
  simp only
  rw [List.nil_append, readQuotedRest_escape _ _ (by simp)]
  simp only [show " ON ".toList = [' ', 'O', 'N', ' '] from rfl, List.cons_append, List.nil_append]
  rw [readQuotedRest_escape _ _ (by simp)]
  simp

theorem firstSchema_indexQa {p r : List Char} {i s t : String} (hi : plain i) (hs : plain s)
    (h : p.all (· != '"') = true) :
    firstSchema (p ++ ((Sql.qn i).toList ++ (" ON ".toList ++ ((Sql.qa s t).toList ++ r)))) = some s := by
  unfold firstSchema
  rw [Sql.qa, String.toList_append, String.toList_append, qn_toList, qn_toList]
  simp only [List.cons_append, List.append_assoc]
  rw [dropWhile_quote h]
  simp only
  rw [List.nil_append, readQuotedRest_plain hi (by simp)]
  simp only [show " ON ".toList = [' ', 'O', 'N', ' '] from rfl, List.cons_append, List.nil_append]
  rw [readQuotedRest_plain hs (by simp)]
  simp

theorem bare_all {n : String} (h : bare n = true) : n.toList.all (· != '"') = true := by
  unfold bare at h
  rw [Bool.and_eq_true] at h
  have h := h.1
  rw [List.all_eq_true]
  intro c hc
  cases hn : n.toList with
  | nil => rw [hn] at hc; cases hc
  | cons a l =>
    rw [hn] at h hc
    simp only [Bool.and_eq_true, List.all_eq_true] at h
    simp only [bne_iff_ne, ne_eq]
    rintro rfl
    rcases List.mem_cons.1 hc with rfl | hm
    · exact absurd h.1 (by decide)
    · exact absurd (h.2 _ hm) (by decide)

/-- A statement names the schema it works in. -/
theorem firstSchema_stmt (st : Stmt) (r : List Char) (hr : r = [] ∨ r = [';']) :
    firstSchema (st.text.toList ++ r) = st.schema := by
  cases st
  case createSchema n =>
    rw [text_createSchema, String.toList_append, List.append_assoc]
    cases n with
    | quotedName n =>
      simp only [Name.text, Stmt.schema]
      unfold firstSchema
      rw [quoted_toList]
      simp only [List.cons_append, List.append_assoc]
      rw [dropWhile_quote (by decide)]
      simp only
      rw [List.nil_append, readQuotedRest_escape _ _ (by rcases hr with rfl | rfl <;> simp)]
      rcases hr with rfl | rfl <;> simp
    | bareName n ok =>
      simp only [Name.text, Stmt.schema]
      apply firstSchema_none
      rw [List.all_append, List.all_append, bare_all ok]
      rcases hr with rfl | rfl <;> decide
  case dropSchema n =>
    rw [text_dropSchema, String.toList_append, List.append_assoc]
    cases n with
    | quotedName n =>
      simp only [Name.text, Stmt.schema]
      unfold firstSchema
      rw [quoted_toList]
      simp only [List.cons_append, List.append_assoc]
      rw [dropWhile_quote (by decide)]
      simp only
      rw [List.nil_append, readQuotedRest_escape _ _ (by rcases hr with rfl | rfl <;> simp)]
      rcases hr with rfl | rfl <;> simp
    | bareName n ok =>
      simp only [Name.text, Stmt.schema]
      apply firstSchema_none
      rw [List.all_append, List.all_append, bare_all ok]
      rcases hr with rfl | rfl <;> decide
  case createIndex u i s t m ks =>
    rw [text_createIndex]
    simp only [String.toList_append, List.append_assoc]
    rw [← List.append_assoc]
    exact firstSchema_index (by cases u <;> decide)
  case createTable =>
    rw [text_createTable]
    simp only [String.toList_append, List.append_assoc]
    exact firstSchema_qualified (by decide)
  case dropTable =>
    rw [text_dropTable]
    simp only [String.toList_append, List.append_assoc]
    exact firstSchema_qualified (by decide)
  case addColumn =>
    rw [text_addColumn]
    simp only [String.toList_append, List.append_assoc]
    exact firstSchema_qualified (by decide)
  case setDataType =>
    rw [text_setDataType]
    simp only [String.toList_append, List.append_assoc]
    exact firstSchema_qualified (by decide)
  case setDefault =>
    rw [text_setDefault]
    simp only [String.toList_append, List.append_assoc]
    exact firstSchema_qualified (by decide)
  case dropDefault =>
    rw [text_dropDefault]
    simp only [String.toList_append, List.append_assoc]
    exact firstSchema_qualified (by decide)
  case setNotNull =>
    rw [text_setNotNull]
    simp only [String.toList_append, List.append_assoc]
    exact firstSchema_qualified (by decide)
  case dropNotNull =>
    rw [text_dropNotNull]
    simp only [String.toList_append, List.append_assoc]
    exact firstSchema_qualified (by decide)
  case dropColumn =>
    rw [text_dropColumn]
    simp only [String.toList_append, List.append_assoc]
    exact firstSchema_qualified (by decide)
  case renameColumn =>
    rw [text_renameColumn]
    simp only [String.toList_append, List.append_assoc]
    exact firstSchema_qualified (by decide)
  case addPrimaryKey =>
    rw [text_addPrimaryKey]
    simp only [String.toList_append, List.append_assoc]
    exact firstSchema_qualified (by decide)
  case addUnique =>
    rw [text_addUnique]
    simp only [String.toList_append, List.append_assoc]
    exact firstSchema_qualified (by decide)
  case addForeignKey =>
    rw [text_addForeignKey]
    simp only [String.toList_append, List.append_assoc]
    exact firstSchema_qualified (by decide)
  case addCheck =>
    rw [text_addCheck]
    simp only [String.toList_append, List.append_assoc]
    exact firstSchema_qualified (by decide)
  case alterConstraint =>
    rw [text_alterConstraint]
    simp only [String.toList_append, List.append_assoc]
    exact firstSchema_qualified (by decide)
  case dropConstraint =>
    rw [text_dropConstraint]
    simp only [String.toList_append, List.append_assoc]
    exact firstSchema_qualified (by decide)
  case createFunction =>
    rw [text_createFunction]
    simp only [String.toList_append, List.append_assoc]
    exact firstSchema_qualified (by decide)
  case dropFunction =>
    rw [text_dropFunction]
    simp only [String.toList_append, List.append_assoc]
    exact firstSchema_qualified (by decide)
  case createView =>
    rw [text_createView]
    simp only [String.toList_append, List.append_assoc]
    exact firstSchema_qualified (by decide)
  case dropView =>
    rw [text_dropView]
    simp only [String.toList_append, List.append_assoc]
    exact firstSchema_qualified (by decide)
  case dropIndex =>
    rw [text_dropIndex]
    simp only [String.toList_append, List.append_assoc]
    exact firstSchema_qualified (by decide)
  case createSequence =>
    rw [text_createSequence]
    simp only [String.toList_append, List.append_assoc]
    exact firstSchema_qualified (by decide)
  case dropSequence =>
    rw [text_dropSequence]
    simp only [String.toList_append, List.append_assoc]
    exact firstSchema_qualified (by decide)

/-- What podo writes for a change names the schema of the change. -/
theorem firstSchema_render {c : Change} (hp : ∀ n ∈ c.leading, plain n) : firstSchema c.renderSql.toList = c.schema := by
  cases c
  case createSchema s =>
    rw [render_createSchema]
    simp only [String.toList_append, Change.schema]
    apply firstSchema_none
    rw [List.all_append, List.all_append, plain_all (hp _ (.head _))]
    decide
  case dropSchema s =>
    rw [render_dropSchema]
    simp only [String.toList_append, Change.schema]
    apply firstSchema_none
    rw [List.all_append, List.all_append, plain_all (hp _ (.head _))]
    decide
  case createIndex s t i u m ks =>
    rw [render_createIndex]
    simp only [String.toList_append, List.append_assoc]
    rw [← List.append_assoc, ← List.append_assoc]
    exact firstSchema_indexQa (hp _ (.tail _ (.head _))) (hp _ (.head _)) (by cases u <;> decide)
  case addColumn s t c ty nn df =>
    rw [render_addColumn]
    have : ∀ l : List String, (Sql.join " " (("ALTER TABLE " ++ Sql.qa s t ++ " ADD COLUMN " ++ Sql.qn c ++ " " ++ ty) :: l) ++
        ";").toList = "ALTER TABLE ".toList ++ ((Sql.qa s t).toList ++ (((" ADD COLUMN " ++ Sql.qn c ++ " " ++ ty ++
          (match l with | [] => "" | x :: xs => " " ++ Sql.join " " (x :: xs)) ++ ";").toList))) := by
      intro l
      cases l <;> simp [Sql.join, String.append_assoc]
    rw [List.cons_append, List.cons_append, this]
    exact firstSchema_qa (hp _ (.head _)) (by decide)
  case setDefault s t c d =>
    cases d with
    | none =>
      rw [render_setDefault_none]
      simp only [String.toList_append, List.append_assoc]
      exact firstSchema_qa (hp _ (.head _)) (by decide)
    | some d =>
      rw [render_setDefault]
      simp only [String.toList_append, List.append_assoc]
      exact firstSchema_qa (hp _ (.head _)) (by decide)
  case setNotNull s t c nn =>
    rw [render_setNotNull]
    cases nn <;> simp only [if_true, if_false, Bool.false_eq_true, String.toList_append, List.append_assoc] <;>
      exact firstSchema_qa (hp _ (.head _)) (by decide)
  case createTable =>
    rw [render_createTable]
    simp only [String.toList_append, List.append_assoc]
    exact firstSchema_qa (hp _ (.head _)) (by decide)
  case dropTable =>
    rw [render_dropTable]
    simp only [String.toList_append, List.append_assoc]
    exact firstSchema_qa (hp _ (.head _)) (by decide)
  case setDataType =>
    rw [render_setDataType]
    simp only [String.toList_append, List.append_assoc]
    exact firstSchema_qa (hp _ (.head _)) (by decide)
  case dropColumn =>
    rw [render_dropColumn]
    simp only [String.toList_append, List.append_assoc]
    exact firstSchema_qa (hp _ (.head _)) (by decide)
  case renameColumn =>
    rw [render_renameColumn]
    simp only [String.toList_append, List.append_assoc]
    exact firstSchema_qa (hp _ (.head _)) (by decide)
  case addPrimaryKey =>
    rw [render_addPrimaryKey]
    simp only [String.toList_append, List.append_assoc]
    exact firstSchema_qa (hp _ (.head _)) (by decide)
  case alterPrimaryKey =>
    rw [render_alterPrimaryKey]
    simp only [String.toList_append, List.append_assoc]
    exact firstSchema_qa (hp _ (.head _)) (by decide)
  case dropPrimaryKey =>
    rw [render_dropPrimaryKey]
    simp only [String.toList_append, List.append_assoc]
    exact firstSchema_qa (hp _ (.head _)) (by decide)
  case addUnique =>
    rw [render_addUnique]
    simp only [String.toList_append, List.append_assoc]
    exact firstSchema_qa (hp _ (.head _)) (by decide)
  case alterUnique =>
    rw [render_alterUnique]
    simp only [String.toList_append, List.append_assoc]
    exact firstSchema_qa (hp _ (.head _)) (by decide)
  case dropUnique =>
    rw [render_dropUnique]
    simp only [String.toList_append, List.append_assoc]
    exact firstSchema_qa (hp _ (.head _)) (by decide)
  case addForeignKey =>
    rw [render_addForeignKey]
    simp only [String.toList_append, List.append_assoc]
    exact firstSchema_qa (hp _ (.head _)) (by decide)
  case alterForeignKey =>
    rw [render_alterForeignKey]
    simp only [String.toList_append, List.append_assoc]
    exact firstSchema_qa (hp _ (.head _)) (by decide)
  case dropForeignKey =>
    rw [render_dropForeignKey]
    simp only [String.toList_append, List.append_assoc]
    exact firstSchema_qa (hp _ (.head _)) (by decide)
  case addCheck =>
    rw [render_addCheck]
    simp only [String.toList_append, List.append_assoc]
    exact firstSchema_qa (hp _ (.head _)) (by decide)
  case alterCheck =>
    rw [render_alterCheck]
    simp only [String.toList_append, List.append_assoc]
    exact firstSchema_qa (hp _ (.head _)) (by decide)
  case dropCheck =>
    rw [render_dropCheck]
    simp only [String.toList_append, List.append_assoc]
    exact firstSchema_qa (hp _ (.head _)) (by decide)
  case createFunction =>
    rw [render_createFunction]
    simp only [String.toList_append, List.append_assoc]
    exact firstSchema_qa (hp _ (.head _)) (by decide)
  case dropFunction =>
    rw [render_dropFunction]
    simp only [String.toList_append, List.append_assoc]
    exact firstSchema_qa (hp _ (.head _)) (by decide)
  case createView =>
    rw [render_createView]
    simp only [String.toList_append, List.append_assoc]
    exact firstSchema_qa (hp _ (.head _)) (by decide)
  case dropView s v =>
    rw [render_dropView, String.toList_append, ← List.append_nil (Sql.qa s v).toList]
    exact firstSchema_qa (hp _ (.head _)) (by decide)
  case createSequence =>
    rw [render_createSequence]
    simp only [String.toList_append, List.append_assoc]
    exact firstSchema_qa (hp _ (.head _)) (by decide)
  case dropSequence =>
    rw [render_dropSequence]
    simp only [String.toList_append, List.append_assoc]
    exact firstSchema_qa (hp _ (.head _)) (by decide)
  case dropIndex =>
    rw [render_dropIndex]
    simp only [String.toList_append, List.append_assoc]
    exact firstSchema_qa (hp _ (.head _)) (by decide)

/-- Read as a statement, what podo writes for a change works in the schema of the change. -/
theorem reads_schema {c : Change} (hp : ∀ n ∈ c.leading, plain n) {st : Stmt}
    (h : c.renderSql = st.text ∨ c.renderSql = st.text ++ ";") : st.schema = c.schema := by
  rw [← firstSchema_render hp]
  rcases h with h | h
  · rw [h, ← firstSchema_stmt st [] (.inl rfl), List.append_nil]
  · rw [h, ← firstSchema_stmt st [';'] (.inr rfl), String.toList_append]
    rfl

end Podo
