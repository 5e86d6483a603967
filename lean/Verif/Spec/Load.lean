import Verif.Model.Load
import Verif.Spec.Content
/-
Specification for C14 and C15: what definition files define, and when they clash.
-/
namespace Podo

/-- The relation of a given name in a given schema of a snapshot, columns in their order. -/
def Database.relationAt (d : Database) (s r : String) : Option Relation :=
  match d.schemas.get? s with
  | some sc => sc.relations.get? r
  | none => none

/-- The function of a given name in a given schema of a snapshot. -/
def Database.functionAt (d : Database) (s f : String) : Option Function :=
  match d.schemas.get? s with
  | some sc => sc.functions.get? f
  | none => none

/-- Two snapshots hold the same schemas, relations (with the same column order) and functions. -/
def SameSnapshot (a b : Database) : Prop :=
  (∀ s, s ∈ a.schemas.keys ↔ s ∈ b.schemas.keys) ∧ (∀ s r, a.relationAt s r = b.relationAt s r) ∧
    (∀ s f, a.functionAt s f = b.functionAt s f)

/-- Two schema definitions define the same relation, or the same function, of the same schema. -/
def DefinitionsClash (a b : Schema) : Prop :=
  a.name = b.name ∧
    ((∃ r, r ∈ a.relations.keys ∧ r ∈ b.relations.keys) ∨
     (∃ f, f ∈ a.functions.keys ∧ f ∈ b.functions.keys))

/-- Listing the same directory tree in another order, at any depth. -/
inductive Relisted {F : Type} : List (DirTree F) → List (DirTree F) → Prop
  | refl (es) : Relisted es es
  | swap (a b es) : Relisted (a :: b :: es) (b :: a :: es)
  | cons (a) {es es'} : Relisted es es' → Relisted (a :: es) (a :: es')
  | inside (n es) {xs ys} : Relisted xs ys → Relisted (.dir n xs :: es) (.dir n ys :: es)
  | trans {xs ys zs} : Relisted xs ys → Relisted ys zs → Relisted xs zs

/-- A file with a name and content is somewhere in the directory tree. -/
inductive InTree {F : Type} (n : String) (c : F) : List (DirTree F) → Prop
  | here (es) : InTree n c (.file n c :: es)
  | inside (m es) {xs} : InTree n c xs → InTree n c (.dir m xs :: es)
  | later (e) {es} : InTree n c es → InTree n c (e :: es)

/-- A file name with the extension `yaml`. -/
def YamlName (n : String) : Prop := ∃ stem, stem ≠ "" ∧ n = stem ++ ".yaml"

mutual
/-- The files of one entry of a directory tree, at any depth. -/
def filesOfEntry {F : Type} : DirTree F → List (String × F)
  | .file n c => [(n, c)]
  | .dir _ es => filesOf es
/-- All files of a directory tree, at any depth, in the order they are listed. -/
def filesOf {F : Type} : List (DirTree F) → List (String × F)
  | [] => []
  | e :: es => filesOfEntry e ++ filesOf es
end

end Podo
