import Verif.Spec.Path
/-
Specification for diffing: when a change is called for by a difference between two contents, and
the tables of a snapshot with the order of their columns.
-/
namespace Podo

/-- `Needed S T c`: change `c` is called for by a difference between source `S` and target `T`, and
says what the target says. -/
def Needed (S T : Content) : Change → Prop
  | .createSchema n => S n = none ∧ T n ≠ none
  | .dropSchema n => S n ≠ none ∧ T n = none
  | .createTable s t cols => S.tableAt s t = none ∧ ∃ tb, T.tableAt s t = some tb ∧
      tb.columns = columnNamed (cols.map fun n => ⟨s, t, n.name, n.dataType, n.notNull, n.default⟩)
  | .dropTable s t => S.tableAt s t ≠ none ∧ T.tableAt s t = none
  | .addColumn s t c ty nn df => S.objAt (.column s t c) = none ∧
      T.objAt (.column s t c) = some (.column ⟨s, t, c, ty, nn, df⟩)
  | .setDataType s t c ty => ∃ a b, S.objAt (.column s t c) = some (.column a) ∧
      T.objAt (.column s t c) = some (.column b) ∧ a.dataType ≠ b.dataType ∧ ty = b.dataType
  | .setDefault s t c df => ∃ a b, S.objAt (.column s t c) = some (.column a) ∧
      T.objAt (.column s t c) = some (.column b) ∧ a.default ≠ b.default ∧ df = b.default
  | .setNotNull s t c nn => ∃ a b, S.objAt (.column s t c) = some (.column a) ∧
      T.objAt (.column s t c) = some (.column b) ∧ a.notNull ≠ b.notNull ∧ nn = b.notNull
  | .dropColumn s t c => S.objAt (.column s t c) ≠ none ∧ T.objAt (.column s t c) = none
  | .renameColumn _ _ _ _ => False
  | .addPrimaryKey s t c cols df ini =>
      T.objAt (.constraint s t c) = some (.constraint (.primaryKey ⟨s, t, c, cols, df, ini⟩)) ∧
      S.objAt (.constraint s t c) ≠ T.objAt (.constraint s t c)
  | .alterPrimaryKey s t c df ini => ∃ a,
      S.objAt (.constraint s t c) = some (.constraint (.primaryKey a)) ∧
      T.objAt (.constraint s t c) = some (.constraint
        (.primaryKey { a with deferrable := df, initiallyDeferred := ini })) ∧
      (a.deferrable ≠ df ∨ a.initiallyDeferred ≠ ini)
  | .dropPrimaryKey s t c => (∃ a,
      S.objAt (.constraint s t c) = some (.constraint (.primaryKey a))) ∧
      S.objAt (.constraint s t c) ≠ T.objAt (.constraint s t c)
  | .addUnique s t c cols df ini =>
      T.objAt (.constraint s t c) = some (.constraint (.unique ⟨s, t, c, cols, df, ini⟩)) ∧
      S.objAt (.constraint s t c) ≠ T.objAt (.constraint s t c)
  | .alterUnique s t c df ini => ∃ a,
      S.objAt (.constraint s t c) = some (.constraint (.unique a)) ∧
      T.objAt (.constraint s t c) = some (.constraint
        (.unique { a with deferrable := df, initiallyDeferred := ini })) ∧
      (a.deferrable ≠ df ∨ a.initiallyDeferred ≠ ini)
  | .dropUnique s t c => (∃ a,
      S.objAt (.constraint s t c) = some (.constraint (.unique a))) ∧
      S.objAt (.constraint s t c) ≠ T.objAt (.constraint s t c)
  | .addForeignKey s t c cols ts tt tcols mo ur dr df ini =>
      T.objAt (.constraint s t c) = some (.constraint
        (.foreignKey ⟨s, t, c, cols, ts, tt, tcols, mo, ur, dr, df, ini⟩)) ∧
      S.objAt (.constraint s t c) ≠ T.objAt (.constraint s t c)
  | .alterForeignKey s t c df ini => ∃ a,
      S.objAt (.constraint s t c) = some (.constraint (.foreignKey a)) ∧
      T.objAt (.constraint s t c) = some (.constraint
        (.foreignKey { a with deferrable := df, initiallyDeferred := ini })) ∧
      (a.deferrable ≠ df ∨ a.initiallyDeferred ≠ ini)
  | .dropForeignKey s t c => (∃ a,
      S.objAt (.constraint s t c) = some (.constraint (.foreignKey a))) ∧
      S.objAt (.constraint s t c) ≠ T.objAt (.constraint s t c)
  | .addCheck s t c ex df ini =>
      T.objAt (.constraint s t c) = some (.constraint (.check ⟨s, t, c, ex, df, ini⟩)) ∧
      S.objAt (.constraint s t c) ≠ T.objAt (.constraint s t c)
  | .alterCheck s t c df ini => ∃ a,
      S.objAt (.constraint s t c) = some (.constraint (.check a)) ∧
      T.objAt (.constraint s t c) = some (.constraint
        (.check { a with deferrable := df, initiallyDeferred := ini })) ∧
      (a.deferrable ≠ df ∨ a.initiallyDeferred ≠ ini)
  | .dropCheck s t c => (∃ a,
      S.objAt (.constraint s t c) = some (.constraint (.check a))) ∧
      S.objAt (.constraint s t c) ≠ T.objAt (.constraint s t c)
  | .createFunction s f b l r v =>
      T.objAt (.function s f) = some (.function ⟨s, f, b, l, r, v⟩) ∧
      S.objAt (.function s f) ≠ T.objAt (.function s f)
  | .dropFunction s f => S.objAt (.function s f) ≠ none ∧
      S.objAt (.function s f) ≠ T.objAt (.function s f)
  | .createView s v q => T.objAt (.relation s v) = some (.view ⟨s, v, q⟩) ∧
      S.objAt (.relation s v) ≠ T.objAt (.relation s v)
  | .dropView s v => (∃ a, S.objAt (.relation s v) = some (.view a)) ∧
      S.objAt (.relation s v) ≠ T.objAt (.relation s v)
  | .createIndex s t i u m ks => T.objAt (.relation s i) = some (.index ⟨s, i, t, u, m, ks⟩) ∧
      S.objAt (.relation s i) ≠ T.objAt (.relation s i)
  | .dropIndex s i => (∃ a, S.objAt (.relation s i) = some (.index a)) ∧
      S.objAt (.relation s i) ≠ T.objAt (.relation s i)
  | .createSequence s q ty inc mn mx st ca cy => (∃ ot oc, T.objAt (.relation s q) =
        some (.sequence ⟨s, q, ty, inc, mn, mx, st, ca, cy, ot, oc⟩)) ∧
      S.objAt (.relation s q) ≠ T.objAt (.relation s q)
  | .dropSequence s q => (∃ a, S.objAt (.relation s q) = some (.sequence a)) ∧
      S.objAt (.relation s q) ≠ T.objAt (.relation s q)

/-- The table of a given name, with its columns in order. -/
def Database.tableNamed (d : Database) (s t : String) : Option Table :=
  (d.schemas.get? s).bind fun sc => (sc.relations.get? t).bind fun
    | .table tb => some tb
    | _ => none

end Podo
