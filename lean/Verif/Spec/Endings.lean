import Verif.Spec.Pg
/-
Words for the ways in which `up` and `down` can end.
-/
namespace Podo
namespace Pg

/-- The versions `ws` are, in this order, the way from the version `a` to the version `n`: each names the one
before it as its predecessor, the first of them names `a`, and the last is `n`. -/
structure Way (d : HDir) (a n : String) (ws : List Version) : Prop where
  path : VersionPath d a n (ws.map Version.name)
  once : a ∉ ws.map Version.name
  stored : ∀ v ∈ ws, Stored d v.name v

/-- The predecessors of `n`, followed from `n` on, run into a circle. -/
def Circular (d : HDir) (n : String) : Prop :=
  ∃ c v p, OnPath d c n ∧ Stored d c v ∧ v.previous = some p ∧ OnPath d c p

/-- The versions `post`, oldest first, are those that `down` has to take back: those recorded after the version
asked for, or, if none is asked for, the last one unless it is the only one. -/
def TakesBack {σ : Type} (db : DB σ) (target : Option String) (post : List Version) : Prop :=
  ∃ pre v, db.applied = pre ++ v :: post ∧
    (target = some v.name ∨ target = none ∧ ((∃ x, post = [x]) ∨ pre = [] ∧ post = []))

/-- The metadata schema is there or can be created. -/
def CanStart {σ : Type} (B : Behaviour σ) (db : DB σ) : Prop :=
  db.metaSchema = .absent → B.creates db.data = true ∧ B.accepts Version.newInit = true

end Pg
end Podo
