import Verif.Spec.Life
import Verif.Spec.Fleet
/-
Words for C94: a database that belongs to one project, through the life of a machine.
-/
namespace Podo
namespace Prog
open Proj
variable {σ : Type}

/-- `podo up`, run in `cwd` with the profile `name`, is for the version files in `p` and for the metadata schema
`m` of the database behind `url`. -/
def UpFor (S : Setting σ) (w : World σ) (cwd : Proj.Path) (name : String) (p : Proj.Path) (url m : String) : Prop :=
  S.Reads m ∧ ∃ q₀ q, ProfileAt S.env w.fs cwd "database" q₀ ∧ ProfileAt S.env w.fs cwd name q ∧ q₀.history = p ∧
    q.databaseUrl = url ∧ q.metadataSchema = m

/-- What is recorded in the database remains as it is, or there is a new database, without anything recorded. -/
def LeavesRecord (w w' : World σ) (url m : String) : Prop :=
  ∀ s', w'.servers url = some s' → s'.metas m = .absent ∨ ∃ s, w.servers url = some s ∧ s'.metas m = s.metas m

/-- One thing that happens where the database belongs to the project with its version files in `p`: anything
whatever (see `Happens`) that leaves alone what is recorded in this database; or `up`, from this project and
with a target among `to`, whichever way it ends; or such an `up` is killed; or any `down`. -/
inductive Tends (B : Pg.Behaviour σ) (ok : Makes → LocalTime × String → Prop) (to : Option String → Prop) (p : Proj.Path) (url m : String) :
    Makes → World σ → Makes → World σ → Prop where
  | apart {log log' : Makes} {w w' : World σ} : Happens B ok log w log' w' → LeavesRecord w w' url m →
      Tends B ok to p url m log w log' w'
  | up {log : Makes} {w w₁ : World σ} {S : Setting σ} {t : LocalTime} {cwd : Proj.Path} {name : String}
      {target : Option String} {away : String → Bool} {out : List String} {e : Ending} : S.B = B → S.now = t.text →
      UpFor S w cwd name p url m → to target →
      Ends S (w.without away) cwd (.up name target) w₁ out e → Tends B ok to p url m log w log (w₁.back w away)
  | killed {log : Makes} {w : World σ} {s : Server σ} {target : Option String} {db : Pg.DB σ} :
      w.servers url = some s → to target → Pg.UpDies B (w.fs.history p) target (s.db m) db →
      Tends B ok to p url m log w log (putServer w url m s db)
  | down {log : Makes} {w w₁ : World σ} {S : Setting σ} {t : LocalTime} {cwd : Proj.Path} {name : String}
      {target : Option String} {away : String → Bool} {out : List String} {e : Ending} : S.B = B → S.now = t.text →
      Ends S (w.without away) cwd (.down name target) w₁ out e → Tends B ok to p url m log w log (w₁.back w away)

/-- Any target but the stage. -/
def NotStage (target : Option String) : Prop := target ≠ some "stage"

/-- The states of a machine, with all that may happen on it (see `Life`), where the metadata schema `m` of the
database behind `url` belongs to the project with its version files in `p` and is only brought up to targets among `to`. -/
inductive Tended (B : Pg.Behaviour σ) (ok : Makes → LocalTime × String → Prop) (to : Option String → Prop) (p : Proj.Path) (url m : String) :
    Makes → World σ → Prop where
  | new {w : World σ} : Untouched w → Tended B ok to p url m [] w
  | on {log log' : Makes} {w w' : World σ} : Tended B ok to p url m log w → Tends B ok to p url m log w log' w' →
      Tended B ok to p url m log' w'

end Prog

namespace Pg
variable {σ : Type}

/-- The server takes the versions: it runs their scripts to the end and commits what comes of them; their names
fit, their rows are acceptable, the numbering is not exhausted, and where the metadata schema is absent it can be
created. -/
structure Takes (B : Behaviour σ) (db : DB σ) (ws : List Version) : Prop where
  runs : ∃ s', Script B db.data (ws.flatMap Version.up) s' ∧ B.commits s' = true
  short : ∀ w ∈ ws, w.name.length ≤ 128 ∧ ∀ p, w.previous = some p → p.length ≤ 128
  accepted : ∀ w ∈ ws, B.accepts w = true
  room : ∀ t, db.metaSchema = .table t → t.next + ws.length ≤ 2147483648
  creates : db.metaSchema = .absent → B.creates db.data = true ∧ B.accepts Version.newInit = true ∧
    ws.length + 2 ≤ 2147483648

end Pg
end Podo
