import Verif.Model.Sql
import Verif.Spec.Sql
/-
The defining equations of `Change.renderSql` and `Stmt.text`, case by case.
-/
namespace Podo
open Pg

section
open Sql
theorem render_createSchema (s) : (Change.createSchema s).renderSql =
    ("CREATE SCHEMA " ++ s ++ ";") := rfl
theorem render_dropSchema (s) : (Change.dropSchema s).renderSql =
    ("DROP SCHEMA " ++ s ++ ";") := rfl
theorem render_createTable (s t cols) : (Change.createTable s t cols).renderSql =
    ("CREATE TABLE " ++ qa s t ++ " (" ++ l (cols.map newColumn) ++ ");") := rfl
theorem render_dropTable (s t) : (Change.dropTable s t).renderSql =
    ("DROP TABLE " ++ qa s t ++ ";") := rfl
theorem render_addColumn (s t c ty nn df) : (Change.addColumn s t c ty nn df).renderSql =
    (join " " (["ALTER TABLE " ++ qa s t ++ " ADD COLUMN " ++ qn c ++ " " ++ ty] ++
      (if !nn then ["NOT NULL"] else []) ++
      (match df with
       | some d => ["DEFAULT " ++ d]
       | none => [])) ++ ";") := rfl
theorem render_setDataType (s t c ty) : (Change.setDataType s t c ty).renderSql =
    ("ALTER TABLE " ++ qa s t ++ " ALTER COLUMN " ++ qn c ++ " SET DATA TYPE " ++ ty ++ ";") := rfl
theorem render_setDefault (s t c d) : (Change.setDefault s t c (some d)).renderSql =
    ("ALTER TABLE " ++ qa s t ++ " ALTER COLUMN " ++ qn c ++ " SET DEFAULT " ++ d ++ ";") := rfl
theorem render_setDefault_none (s t c) : (Change.setDefault s t c none).renderSql =
    ("ALTER TABLE " ++ qa s t ++ " ALTER COLUMN " ++ qn c ++ " DROP DEFAULT;") := rfl
theorem render_setNotNull (s t c nn) : (Change.setNotNull s t c nn).renderSql =
    (if nn then "ALTER TABLE " ++ qa s t ++ " ALTER COLUMN " ++ qn c ++ " SET NOT NULL;"
    else "ALTER TABLE " ++ qa s t ++ " ALTER COLUMN " ++ qn c ++ " DROP NOT NULL;") := rfl
theorem render_dropColumn (s t c) : (Change.dropColumn s t c).renderSql =
    ("ALTER TABLE " ++ qa s t ++ " DROP COLUMN " ++ qn c ++ ";") := rfl
theorem render_renameColumn (s t a b) : (Change.renameColumn s t a b).renderSql =
    ("ALTER TABLE " ++ qa s t ++ " RENAME COLUMN " ++ qn a ++ " TO " ++ qn b ++ ";") := rfl
theorem render_addPrimaryKey (s t n cols d i) : (Change.addPrimaryKey s t n cols d i).renderSql =
    ("ALTER TABLE " ++ qa s t ++ " ADD CONSTRAINT " ++ qn n ++ " PRIMARY KEY (" ++ ql cols ++ ") "
      ++ flags d i ++ ";") := rfl
theorem render_alterPrimaryKey (s t n d i) : (Change.alterPrimaryKey s t n d i).renderSql =
    ("ALTER TABLE " ++ qa s t ++ " ALTER CONSTRAINT " ++ qn n ++ " " ++ flags d i ++ ";") := rfl
theorem render_dropPrimaryKey (s t n) : (Change.dropPrimaryKey s t n).renderSql =
    ("ALTER TABLE " ++ qa s t ++ " DROP CONSTRAINT " ++ qn n ++ ";") := rfl
theorem render_addUnique (s t n cols d i) : (Change.addUnique s t n cols d i).renderSql =
    ("ALTER TABLE " ++ qa s t ++ " ADD CONSTRAINT " ++ qn n ++ " UNIQUE (" ++ ql cols ++ ") "
      ++ flags d i ++ ";") := rfl
theorem render_alterUnique (s t n d i) : (Change.alterUnique s t n d i).renderSql =
    ("ALTER TABLE " ++ qa s t ++ " ALTER CONSTRAINT " ++ qn n ++ " " ++ flags d i ++ ";") := rfl
theorem render_dropUnique (s t n) : (Change.dropUnique s t n).renderSql =
    ("ALTER TABLE " ++ qa s t ++ " DROP CONSTRAINT " ++ qn n ++ ";") := rfl
theorem render_addForeignKey (s t n cols ts tt tcols m u d x1 x2) : (Change.addForeignKey s t n cols ts tt tcols m u d x1 x2).renderSql =
    ("ALTER TABLE " ++ qa s t ++ " ADD CONSTRAINT " ++ qn n ++ " FOREIGN KEY (" ++ ql cols
      ++ ") REFERENCES " ++ qa ts tt ++ " (" ++ ql tcols ++ ") " ++ m ++ " " ++ u ++ " " ++ d ++ ";") := rfl
theorem render_alterForeignKey (s t n d x1) : (Change.alterForeignKey s t n d x1).renderSql =
    ("ALTER TABLE " ++ qa s t ++ " ALTER CONSTRAINT " ++ qn n ++ " " ++ flagsOne d) := rfl
theorem render_dropForeignKey (s t n) : (Change.dropForeignKey s t n).renderSql =
    ("ALTER TABLE " ++ qa s t ++ " DROP CONSTRAINT " ++ qn n) := rfl
theorem render_addCheck (s t n e d i) : (Change.addCheck s t n e d i).renderSql =
    ("ALTER TABLE " ++ qa s t ++ " ADD CONSTRAINT " ++ qn n ++ " CHECK " ++ e ++ " "
      ++ flags d i ++ ";") := rfl
theorem render_alterCheck (s t n d x1) : (Change.alterCheck s t n d x1).renderSql =
    ("ALTER TABLE " ++ qa s t ++ " ALTER CONSTRAINT " ++ qn n ++ " " ++ flagsOne d) := rfl
theorem render_dropCheck (s t n) : (Change.dropCheck s t n).renderSql =
    ("ALTER TABLE " ++ qa s t ++ " DROP CONSTRAINT " ++ qn n ++ ";") := rfl
theorem render_createFunction (s f b la r v) : (Change.createFunction s f b la r v).renderSql =
    ("CREATE FUNCTION " ++ qa s f ++ " " ++ b ++ " RETURNS " ++ r ++ " LANGUAGE " ++ la ++ " " ++ v
      ++ ";") := rfl
theorem render_dropFunction (s f) : (Change.dropFunction s f).renderSql =
    ("DROP FUNCTION " ++ qa s f ++ ";") := rfl
theorem render_createView (s v q) : (Change.createView s v q).renderSql =
    ("CREATE VIEW " ++ qa s v ++ " AS " ++ q) := rfl
theorem render_dropView (s v) : (Change.dropView s v).renderSql =
    ("DROP VIEW " ++ qa s v) := rfl
theorem render_createIndex (s t i u m ks) : (Change.createIndex s t i u m ks).renderSql =
    ("CREATE " ++ (if u then "UNIQUE INDEX" else "INDEX") ++ " " ++ qn i ++ " ON " ++ qa s t
      ++ " USING " ++ m ++ " (" ++ l ks ++ ");") := rfl
theorem render_dropIndex (s i) : (Change.dropIndex s i).renderSql =
    ("DROP INDEX " ++ qa s i ++ ";") := rfl
theorem render_createSequence (s n ty inc mn mx st ca cy) : (Change.createSequence s n ty inc mn mx st ca cy).renderSql =
    ("CREATE SEQUENCE " ++ qa s n ++ " AS " ++ ty ++ " INCREMENT BY " ++ toString inc
      ++ " MINVALUE " ++ toString mn ++ " MAXVALUE " ++ toString mx ++ " START WITH " ++ toString st
      ++ " CACHE " ++ toString ca ++ " " ++ (if cy then "CYCLE" else "NO CYCLE") ++ ";") := rfl
theorem render_dropSequence (s n) : (Change.dropSequence s n).renderSql =
    ("DROP SEQUENCE " ++ qa s n ++ ";") := rfl
end

section
theorem text_createSchema (n) : (Stmt.createSchema n).text =
    ("CREATE SCHEMA " ++ n.text) := rfl
theorem text_dropSchema (n) : (Stmt.dropSchema n).text =
    ("DROP SCHEMA " ++ n.text) := rfl
theorem text_createTable (s t cols) : (Stmt.createTable s t cols).text =
    ("CREATE TABLE " ++ qualified s t ++ " (" ++ commaList (cols.map ColumnDef.text) ++ ")") := rfl
theorem text_dropTable (s t) : (Stmt.dropTable s t).text =
    ("DROP TABLE " ++ qualified s t) := rfl
theorem text_addColumn (s t c) : (Stmt.addColumn s t c).text =
    ("ALTER TABLE " ++ qualified s t ++ " ADD COLUMN " ++ c.text) := rfl
theorem text_setDataType (s t c ty) : (Stmt.setDataType s t c ty).text =
    ("ALTER TABLE " ++ qualified s t ++ " ALTER COLUMN " ++ quoted c ++ " SET DATA TYPE " ++ ty) := rfl
theorem text_setDefault (s t c e) : (Stmt.setDefault s t c e).text =
    ("ALTER TABLE " ++ qualified s t ++ " ALTER COLUMN " ++ quoted c ++ " SET DEFAULT " ++ e) := rfl
theorem text_dropDefault (s t c) : (Stmt.dropDefault s t c).text =
    ("ALTER TABLE " ++ qualified s t ++ " ALTER COLUMN " ++ quoted c ++ " DROP DEFAULT") := rfl
theorem text_setNotNull (s t c) : (Stmt.setNotNull s t c).text =
    ("ALTER TABLE " ++ qualified s t ++ " ALTER COLUMN " ++ quoted c ++ " SET NOT NULL") := rfl
theorem text_dropNotNull (s t c) : (Stmt.dropNotNull s t c).text =
    ("ALTER TABLE " ++ qualified s t ++ " ALTER COLUMN " ++ quoted c ++ " DROP NOT NULL") := rfl
theorem text_dropColumn (s t c) : (Stmt.dropColumn s t c).text =
    ("ALTER TABLE " ++ qualified s t ++ " DROP COLUMN " ++ quoted c) := rfl
theorem text_renameColumn (s t a b) : (Stmt.renameColumn s t a b).text =
    ("ALTER TABLE " ++ qualified s t ++ " RENAME COLUMN " ++ quoted a ++ " TO " ++ quoted b) := rfl
theorem text_addPrimaryKey (s t n cols k) : (Stmt.addPrimaryKey s t n cols k).text =
    ("ALTER TABLE " ++ qualified s t ++ " ADD CONSTRAINT " ++ quoted n ++ " PRIMARY KEY ("
      ++ commaList (cols.map quoted) ++ ")" ++ k.text) := rfl
theorem text_addUnique (s t n cols k) : (Stmt.addUnique s t n cols k).text =
    ("ALTER TABLE " ++ qualified s t ++ " ADD CONSTRAINT " ++ quoted n ++ " UNIQUE ("
      ++ commaList (cols.map quoted) ++ ")" ++ k.text) := rfl
theorem text_addForeignKey (s t n cols ts tt tcols m u d k) : (Stmt.addForeignKey s t n cols ts tt tcols m u d k).text =
    ("ALTER TABLE " ++ qualified s t ++ " ADD CONSTRAINT " ++ quoted n ++ " FOREIGN KEY ("
      ++ commaList (cols.map quoted) ++ ") REFERENCES " ++ qualified ts tt ++ " ("
      ++ commaList (tcols.map quoted) ++ ")"
      ++ (match m with
          | none => ""
          | some m => " MATCH " ++ m)
      ++ (match u with
          | none => ""
          | some u => " ON UPDATE " ++ u)
      ++ (match d with
          | none => ""
          | some d => " ON DELETE " ++ d)
      ++ k.text) := rfl
theorem text_addCheck (s t n e k) : (Stmt.addCheck s t n e k).text =
    ("ALTER TABLE " ++ qualified s t ++ " ADD CONSTRAINT " ++ quoted n ++ " CHECK (" ++ e ++ ")"
      ++ k.text) := rfl
theorem text_alterConstraint (s t n k) : (Stmt.alterConstraint s t n k).text =
    ("ALTER TABLE " ++ qualified s t ++ " ALTER CONSTRAINT " ++ quoted n ++ k.text) := rfl
theorem text_dropConstraint (s t n) : (Stmt.dropConstraint s t n).text =
    ("ALTER TABLE " ++ qualified s t ++ " DROP CONSTRAINT " ++ quoted n) := rfl
theorem text_createFunction (s f sp args r la v src) : (Stmt.createFunction s f sp args r la v src).text =
    ("CREATE FUNCTION " ++ qualified s f ++ String.ofList (List.replicate sp ' ') ++ "(" ++ args
      ++ ") RETURNS " ++ r ++ " LANGUAGE " ++ la ++ " " ++ v ++ " AS " ++ src) := rfl
theorem text_dropFunction (s f) : (Stmt.dropFunction s f).text =
    ("DROP FUNCTION " ++ qualified s f) := rfl
theorem text_createView (s v q) : (Stmt.createView s v q).text =
    ("CREATE VIEW " ++ qualified s v ++ " AS " ++ q) := rfl
theorem text_dropView (s v) : (Stmt.dropView s v).text =
    ("DROP VIEW " ++ qualified s v) := rfl
theorem text_createIndex (u i s t m keys) : (Stmt.createIndex u i s t m keys).text =
    ("CREATE " ++ (if u then "UNIQUE INDEX " else "INDEX ") ++ quoted i ++ " ON " ++ qualified s t
      ++ " USING " ++ m ++ " (" ++ commaList keys ++ ")") := rfl
theorem text_dropIndex (s i) : (Stmt.dropIndex s i).text =
    ("DROP INDEX " ++ qualified s i) := rfl
theorem text_createSequence (s n ty inc mn mx st ca cy) : (Stmt.createSequence s n ty inc mn mx st ca cy).text =
    ("CREATE SEQUENCE " ++ qualified s n ++ " AS " ++ ty ++ " INCREMENT BY " ++ toString inc
      ++ " MINVALUE " ++ toString mn ++ " MAXVALUE " ++ toString mx ++ " START WITH " ++ toString st
      ++ " CACHE " ++ toString ca ++ (if cy then " CYCLE" else " NO CYCLE")) := rfl
theorem text_dropSequence (s n) : (Stmt.dropSequence s n).text =
    ("DROP SEQUENCE " ++ qualified s n) := rfl
end
end Podo
