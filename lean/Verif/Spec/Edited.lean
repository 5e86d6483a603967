import Verif.Spec.Fleet
/-
Words for C88: version files that are edited.
-/
namespace Podo

/-- A version file edited by `f`; what cannot be read stays as it is. -/
def Entry.edit (f : Version → Version) : Entry → Entry
  | .file (some v) => .file (some (f v))
  | .file none => .file none
  | .dir => .dir

/-- The directory in which every readable version file has been edited by `f`. -/
def HDir.edit (f : Version → Version) (d : HDir) : HDir := d.map fun e => (e.1, e.2.edit f)

/-- An edit of the changes and scripts of versions that `db` has applied, and of nothing else. -/
structure EditsApplied {σ : Type} (db : Pg.DB σ) (f : Version → Version) : Prop where
  name : ∀ v, (f v).name = v.name
  previous : ∀ v, (f v).previous = v.previous
  applied : ∀ v, (∀ w ∈ db.applied, w.name ≠ v.name) → f v = v

end Podo
