import Verif.Spec.Tended
import Verif.Spec.Follow
import Verif.Spec.Lossy
/-
Words for C95: a database whose schema is changed only by podo, through the life of a machine.
-/
namespace Podo
namespace Pg

/-- The schema of a new database: there is nothing in it but a schema `public`, which is empty. -/
def newSchema : Content := (⟨[("public", Schema.new "public")]⟩ : Database).content

/-- Every version made is one whose changes, applied to the version before it, have SQL texts that are right (C56)
and free of surprises. -/
def UpsPlain (free : Change → Content → Prop) (d : HDir) : Prop :=
  ∀ n v p s₀, n ≠ "stage" → Stored d n v → v.previous = some p → SnapshotOf d p s₀ → Plain free s₀ v.changes

/-- And whose changes lose nothing (C07), while the SQL texts of those that revert them are right and free of
surprises, too. -/
def DownsPlain (free : Change → Content → Prop) (d : HDir) : Prop :=
  ∀ n v p s₀ rs s₁, n ≠ "stage" → Stored d n v → v.previous = some p → SnapshotOf d p s₀ →
    TakenFrom v.changes s₀ rs s₁ →
    (∀ a c b s₂, v.changes = a ++ c :: b → Change.applyAll a s₀ = .ok s₂ → ¬ Lossy s₂.content c) ∧
    Plain free s₁ rs.reverse

end Pg

namespace Prog
open Proj
variable {σ : Type}

/-- `podo down`, run in `cwd` with the profile `name`, is for the metadata schema `m` of the database behind
`url`. -/
def DownFor (S : Setting σ) (w : World σ) (cwd : Proj.Path) (name : String) (url m : String) : Prop :=
  S.Reads m ∧ ∃ q, ProfileAt S.env w.fs cwd name q ∧ q.databaseUrl = url ∧ q.metadataSchema = m

/-- What is recorded in the database and its schema (`cat`) remain as they are, whatever becomes of the data; or
there is a new database, with nothing recorded and nothing in it. -/
def LeavesSchema (cat : σ → Content) (w w' : World σ) (url m : String) : Prop :=
  ∀ s', w'.servers url = some s' → (s'.metas m = .absent ∧ cat s'.data = Pg.newSchema) ∨
    ∃ s, w.servers url = some s ∧ s'.metas m = s.metas m ∧ cat s'.data = cat s.data

/-- One thing that happens where the schema of the database is left to podo and the project with its version files
in `p`: anything whatever (see `Happens`) that leaves alone what is recorded in this database, and its schema; or
`up`, from this project and not to the stage, whichever way it ends; or such an `up` is killed; or `down`, whichever
way it ends, if the database is taken down at all (`dn`). -/
inductive Minds (B : Pg.Behaviour σ) (cat : σ → Content) (ok : Makes → LocalTime × String → Prop) (dn : Prop)
    (p : Proj.Path) (url m : String) : Makes → World σ → Makes → World σ → Prop where
  | apart {log log' : Makes} {w w' : World σ} : Happens B ok log w log' w' → LeavesSchema cat w w' url m →
      Minds B cat ok dn p url m log w log' w'
  | up {log : Makes} {w w₁ : World σ} {S : Setting σ} {t : LocalTime} {cwd : Proj.Path} {name : String}
      {target : Option String} {away : String → Bool} {out : List String} {e : Ending} : S.B = B → S.now = t.text →
      UpFor S w cwd name p url m → target ≠ some "stage" →
      Ends S (w.without away) cwd (.up name target) w₁ out e →
      Minds B cat ok dn p url m log w log (w₁.back w away)
  | killed {log : Makes} {w : World σ} {s : Server σ} {target : Option String} {db : Pg.DB σ} :
      w.servers url = some s → target ≠ some "stage" → Pg.UpDies B (w.fs.history p) target (s.db m) db →
      Minds B cat ok dn p url m log w log (putServer w url m s db)
  | down {log : Makes} {w w₁ : World σ} {S : Setting σ} {t : LocalTime} {cwd : Proj.Path} {name : String}
      {target : Option String} {away : String → Bool} {out : List String} {e : Ending} : dn → S.B = B →
      S.now = t.text → DownFor S w cwd name url m →
      Ends S (w.without away) cwd (.down name target) w₁ out e →
      Minds B cat ok dn p url m log w log (w₁.back w away)

/-- The states of a machine, with all that may happen on it (see `Life`), where the schema of the database behind
`url` is left to podo, with the metadata schema `m` and the project with its version files in `p`. -/
inductive Minded (B : Pg.Behaviour σ) (cat : σ → Content) (ok : Makes → LocalTime × String → Prop) (dn : Prop)
    (p : Proj.Path) (url m : String) : Makes → World σ → Prop where
  | new {w : World σ} : Untouched w → (∀ s, w.servers url = some s → cat s.data = Pg.newSchema) →
      Minded B cat ok dn p url m [] w
  | on {log log' : Makes} {w w' : World σ} : Minded B cat ok dn p url m log w →
      Minds B cat ok dn p url m log w log' w' → Minded B cat ok dn p url m log' w'

end Prog
end Podo
