import Verif.Spec.Path
import Verif.Spec.Load
/-
Specification for C78: what each change needs of the snapshot, in the order in which it is looked at, and
what is to be reported when a need is not met.
-/
namespace Podo

/-- How an error names an object: the names that lead to it. -/
def Path.names : Path → List String
  | .schema s => [s]
  | .relation s r => [s, r]
  | .function s f => [s, f]
  | .column s t c => [s, t, c]
  | .constraint s t c => [s, t, c]

/-- How an error names an object: the sort of thing it is. -/
def Path.sort : Path → String
  | .schema _ => "schema"
  | .relation _ _ => "relation"
  | .function _ _ => "function"
  | .column _ _ _ => "column"
  | .constraint _ _ _ => "constraint"

/-- The kind of an object. -/
def Obj.kind : Obj → String
  | .schema _ => "schema"
  | .table _ _ => "table"
  | .view _ => "view"
  | .index _ => "index"
  | .sequence _ => "sequence"
  | .function _ => "function"
  | .column _ => "column"
  | .constraint (.primaryKey _) => "primary key"
  | .constraint (.foreignKey _) => "foreign key"
  | .constraint (.unique _) => "unique"
  | .constraint (.check _) => "check"

/-- Something a change needs. -/
inductive Need where
  /-- the object is there -/
  | there (p : Path)
  /-- the object, if it is there, is of this kind -/
  | kind (p : Path) (k : String)
  /-- no object of this name is there -/
  | free (p : Path)
  /-- the columns given for a new table have different names -/
  | distinct (s t : String) (columns : List String)

/-- The need is met. -/
def Need.Met (C : Content) : Need → Prop
  | .there p => C.objAt p ≠ none
  | .kind p k => ∀ o, C.objAt p = some o → o.kind = k
  | .free p => C.objAt p = none
  | .distinct _ _ columns => columns.Nodup

/-- What is reported when the need is not met. -/
inductive Need.Reports (C : Content) : Need → SnapshotError → Prop where
  | there (p) : Reports C (.there p) (.objectNotFound p.names p.sort)
  | kind (p k) {o} (h : C.objAt p = some o) :
      Reports C (.kind p k) (.objectHasUnexpectedType p.names k o.kind)
  | free (p) : Reports C (.free p) (.objectAlreadyExists p.names p.sort)
  | distinct (s t) {before after c} (h : before.Nodup) (hc : c ∈ before) :
      Reports C (.distinct s t (before ++ c :: after)) (.objectAlreadyExists [s, t, c] "column")

/-- The error names the first of the needs that is not met. -/
def FirstUnmet (C : Content) (needs : List Need) (e : SnapshotError) : Prop :=
  ∃ before n after, needs = before ++ n :: after ∧ (∀ m ∈ before, m.Met C) ∧ ¬ n.Met C ∧ n.Reports C e

/-- A table of this name. -/
def Need.table (s t : String) : List Need :=
  [.there (.schema s), .there (.relation s t), .kind (.relation s t) "table"]

/-- A relation of this name and kind. -/
def Need.relation (s r k : String) : List Need :=
  [.there (.schema s), .there (.relation s r), .kind (.relation s r) k]

/-- A table of this name, with a column. -/
def Need.column (s t c : String) : List Need := Need.table s t ++ [.there (.column s t c)]

/-- A table of this name, with a constraint of this kind. -/
def Need.constraint (s t c k : String) : List Need :=
  Need.table s t ++ [.there (.constraint s t c), .kind (.constraint s t c) k]

/-- What a change needs to be applied. -/
def Change.needs : Change → List Need
  | .createSchema s => [.free (.schema s)]
  | .dropSchema s => [.there (.schema s)]
  | .createTable s t cols =>
      [.there (.schema s), .distinct s t (cols.map NewColumn.name), .free (.relation s t)]
  | .dropTable s t => [.there (.schema s), .there (.relation s t)]
  | .addColumn s t c _ _ _ => Need.table s t ++ [.free (.column s t c)]
  | .setDataType s t c _ | .setDefault s t c _ | .setNotNull s t c _ | .dropColumn s t c =>
      Need.column s t c
  | .renameColumn s t a b => Need.column s t a ++ if a = b then [] else [.free (.column s t b)]
  | .addPrimaryKey s t c _ _ _ | .addUnique s t c _ _ _ | .addForeignKey s t c _ _ _ _ _ _ _ _ _
  | .addCheck s t c _ _ _ => Need.table s t ++ [.free (.constraint s t c)]
  | .alterPrimaryKey s t c _ _ | .dropPrimaryKey s t c => Need.constraint s t c "primary key"
  | .alterUnique s t c _ _ | .dropUnique s t c => Need.constraint s t c "unique"
  | .alterForeignKey s t c _ _ | .dropForeignKey s t c => Need.constraint s t c "foreign key"
  | .alterCheck s t c _ _ | .dropCheck s t c => Need.constraint s t c "check"
  | .createFunction s f _ _ _ _ => [.there (.schema s), .free (.function s f)]
  | .dropFunction s f => [.there (.schema s), .there (.function s f)]
  | .createView s v _ => [.there (.schema s), .free (.relation s v)]
  | .dropView s v => Need.relation s v "view"
  | .createIndex s t i _ _ _ => Need.table s t ++ [.free (.relation s i)]
  | .dropIndex s i => Need.relation s i "index"
  | .createSequence s q _ _ _ _ _ _ _ => [.there (.schema s), .free (.relation s q)]
  | .dropSequence s q => Need.relation s q "sequence"

/-- What the snapshot before a change needs to hold for the change to be taken back. -/
def Change.revertNeeds : Change → List Need
  | .createSchema _ | .dropSchema _ => []
  | .createTable s _ _ => [.there (.schema s)]
  | .dropTable s t => Need.table s t
  | .addColumn s t _ _ _ _ => Need.table s t
  | .setDataType s t c _ | .setDefault s t c _ | .setNotNull s t c _ | .dropColumn s t c =>
      Need.column s t c
  | .renameColumn s t _ b => Need.column s t b
  | .addPrimaryKey s t _ _ _ _ | .addUnique s t _ _ _ _ | .addForeignKey s t _ _ _ _ _ _ _ _ _ _
  | .addCheck s t _ _ _ _ => Need.table s t
  | .alterPrimaryKey s t c _ _ | .dropPrimaryKey s t c => Need.constraint s t c "primary key"
  | .alterUnique s t c _ _ | .dropUnique s t c => Need.constraint s t c "unique"
  | .alterForeignKey s t c _ _ | .dropForeignKey s t c => Need.constraint s t c "foreign key"
  | .alterCheck s t c _ _ | .dropCheck s t c => Need.constraint s t c "check"
  | .createFunction s _ _ _ _ _ => [.there (.schema s)]
  | .dropFunction s f => [.there (.schema s), .there (.function s f)]
  | .createView s _ _ => [.there (.schema s)]
  | .dropView s v => Need.relation s v "view"
  | .createIndex s _ _ _ _ _ => [.there (.schema s)]
  | .dropIndex s i => Need.relation s i "index"
  | .createSequence s _ _ _ _ _ _ _ _ => [.there (.schema s)]
  | .dropSequence s q => Need.relation s q "sequence"

/-- Two schema definitions define the relation, or the function, that the error says is there already. -/
def ClashReported (a b : Schema) (e : SnapshotError) : Prop :=
  a.name = b.name ∧
    ((∃ r, r ∈ a.relations.keys ∧ r ∈ b.relations.keys ∧ e = .objectAlreadyExists [a.name, r] "relation") ∨
     (∃ f, f ∈ a.functions.keys ∧ f ∈ b.functions.keys ∧ e = .objectAlreadyExists [a.name, f] "function"))

end Podo
