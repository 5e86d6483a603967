import Verif.Model.Changes
import Verif.Spec.Content
/-
Specification of what each change is meant to do, on contents only (partial functions from names
to objects).  `none` means the change is refused.
-/
namespace Podo
namespace Spec

/-- Update of a function at one name. -/
def upd {α : Type} (m : String → Option α) (k : String) (v : Option α) : String → Option α :=
  fun j => if j = k then v else m j

/-- Add an entry under an unused name. -/
def putNew {α : Type} (m : String → Option α) (k : String) (v : α) : Option (String → Option α) :=
  match m k with
  | some _ => none
  | none => some (upd m k (some v))

/-- Remove an entry that exists and satisfies `p`. -/
def remove {α : Type} (p : α → Bool) (m : String → Option α) (k : String) :
    Option (String → Option α) :=
  match m k with
  | some x => if p x then some (upd m k none) else none
  | none => none

/-- Replace an entry that exists by `f` of it. -/
def alter {α : Type} (f : α → Option α) (m : String → Option α) (k : String) :
    Option (String → Option α) :=
  match m k with
  | some x => (f x).map fun y => upd m k (some y)
  | none => none

/-- Act on one schema. -/
def inSchema (c : Content) (s : String) (f : SchemaContent → Option SchemaContent) :
    Option Content := alter f c s

/-- Act on the relations of a schema. -/
def onRels (f : (String → Option RelContent) → Option (String → Option RelContent))
    (sc : SchemaContent) : Option SchemaContent :=
  (f sc.relations).map fun r => { sc with relations := r }

/-- Act on the functions of a schema. -/
def onFuns (f : (String → Option Function) → Option (String → Option Function))
    (sc : SchemaContent) : Option SchemaContent :=
  (f sc.functions).map fun r => { sc with functions := r }

/-- Act on one table. -/
def inTable (c : Content) (s t : String) (f : TableContent → Option TableContent) :
    Option Content :=
  inSchema c s <| onRels fun rels => alter (fun
    | .table tb => (f tb).map .table
    | _ => none) rels t

/-- Act on the columns of a table. -/
def onCols (f : (String → Option Column) → Option (String → Option Column))
    (tb : TableContent) : Option TableContent :=
  (f tb.columns).map fun r => { tb with columns := r }

/-- Act on the constraints of a table. -/
def onCons (f : (String → Option Constraint) → Option (String → Option Constraint))
    (tb : TableContent) : Option TableContent :=
  (f tb.constraints).map fun r => { tb with constraints := r }

def isTable : RelContent → Bool | .table _ => true | _ => false
def isView : RelContent → Bool | .view _ => true | _ => false
def isIndex : RelContent → Bool | .index _ => true | _ => false
def isSequence : RelContent → Bool | .sequence _ => true | _ => false
def isPrimaryKey : Constraint → Bool | .primaryKey _ => true | _ => false
def isUnique : Constraint → Bool | .unique _ => true | _ => false
def isForeignKey : Constraint → Bool | .foreignKey _ => true | _ => false
def isCheck : Constraint → Bool | .check _ => true | _ => false

/-- The intended effect of each change on the content of a snapshot. -/
def effect : Change → Content → Option Content
  | .createSchema s, c => putNew c s ⟨s, fun _ => none, fun _ => none⟩
  | .dropSchema s, c => remove (fun _ => true) c s
  | .createTable s t cols, c => inSchema c s <| onRels fun rels =>
      if (cols.map NewColumn.name).Nodup then
        putNew rels t (.table ⟨s, t,
          columnNamed (cols.map fun n => ⟨s, t, n.name, n.dataType, n.notNull, n.default⟩),
          fun _ => none⟩)
      else none
  | .dropTable s t, c => inSchema c s <| onRels fun rels => remove (fun _ => true) rels t
  | .addColumn s t n ty nn df, c => inTable c s t <| onCols fun m =>
      putNew m n ⟨s, t, n, ty, nn, df⟩
  | .setDataType s t n ty, c => inTable c s t <| onCols fun m =>
      alter (fun col => some { col with dataType := ty }) m n
  | .setDefault s t n df, c => inTable c s t <| onCols fun m =>
      alter (fun col => some { col with default := df }) m n
  | .setNotNull s t n nn, c => inTable c s t <| onCols fun m =>
      alter (fun col => some { col with notNull := nn }) m n
  | .dropColumn s t n, c => inTable c s t <| onCols fun m => remove (fun _ => true) m n
  | .renameColumn s t a b, c => inTable c s t <| onCols fun m =>
      match m a with
      | some col => putNew (upd m a none) b { col with name := b }
      | none => none
  | .addPrimaryKey s t n cols df ini, c => inTable c s t <| onCons fun m =>
      putNew m n (.primaryKey ⟨s, t, n, cols, df, ini⟩)
  | .alterPrimaryKey s t n df ini, c => inTable c s t <| onCons fun m => alter (fun
      | .primaryKey k => some (.primaryKey { k with deferrable := df, initiallyDeferred := ini })
      | _ => none) m n
  | .dropPrimaryKey s t n, c => inTable c s t <| onCons fun m => remove isPrimaryKey m n
  | .addUnique s t n cols df ini, c => inTable c s t <| onCons fun m =>
      putNew m n (.unique ⟨s, t, n, cols, df, ini⟩)
  | .alterUnique s t n df ini, c => inTable c s t <| onCons fun m => alter (fun
      | .unique k => some (.unique { k with deferrable := df, initiallyDeferred := ini })
      | _ => none) m n
  | .dropUnique s t n, c => inTable c s t <| onCons fun m => remove isUnique m n
  | .addForeignKey s t n cols ts tt tcols mo ur dr df ini, c => inTable c s t <| onCons fun m =>
      putNew m n (.foreignKey ⟨s, t, n, cols, ts, tt, tcols, mo, ur, dr, df, ini⟩)
  | .alterForeignKey s t n df ini, c => inTable c s t <| onCons fun m => alter (fun
      | .foreignKey k => some (.foreignKey { k with deferrable := df, initiallyDeferred := ini })
      | _ => none) m n
  | .dropForeignKey s t n, c => inTable c s t <| onCons fun m => remove isForeignKey m n
  | .addCheck s t n ex df ini, c => inTable c s t <| onCons fun m =>
      putNew m n (.check ⟨s, t, n, ex, df, ini⟩)
  | .alterCheck s t n df ini, c => inTable c s t <| onCons fun m => alter (fun
      | .check k => some (.check { k with deferrable := df, initiallyDeferred := ini })
      | _ => none) m n
  | .dropCheck s t n, c => inTable c s t <| onCons fun m => remove isCheck m n
  | .createFunction s f b l r v, c => inSchema c s <| onFuns fun m => putNew m f ⟨s, f, b, l, r, v⟩
  | .dropFunction s f, c => inSchema c s <| onFuns fun m => remove (fun _ => true) m f
  | .createView s v q, c => inSchema c s <| onRels fun rels => putNew rels v (.view ⟨s, v, q⟩)
  | .dropView s v, c => inSchema c s <| onRels fun rels => remove isView rels v
  | .createIndex s t i u m ks, c => inSchema c s <| onRels fun rels =>
      match rels t with
      | some (.table _) => putNew rels i (.index ⟨s, i, t, u, m, ks⟩)
      | _ => none
  | .dropIndex s i, c => inSchema c s <| onRels fun rels => remove isIndex rels i
  | .createSequence s q ty inc mn mx st ca cy, c => inSchema c s <| onRels fun rels =>
      putNew rels q (.sequence ⟨s, q, ty, inc, mn, mx, st, ca, cy, none, none⟩)
  | .dropSequence s q, c => inSchema c s <| onRels fun rels => remove isSequence rels q

/-- Effects of a list of changes, in order. -/
def effects : List Change → Content → Option Content
  | [], c => some c
  | x :: xs, c => (effect x c).bind (effects xs)

end Spec
end Podo
