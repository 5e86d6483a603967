import Verif.Spec.Pg
/-
Words for C84 and C85: the databases of a project.
-/
namespace Podo
namespace Pg
variable {σ : Type}

/-- The databases of a project: `Deployed B d db` holds if the project, whose version files are now those in `d`,
has been used with the database `db`, new at some time, by any `up` and `down` commands, failing ones included,
but not by `up` to the stage.  Between these commands the project goes on with any other commands, others may
change the data, and commands that died may have used up numbers for the rows. -/
inductive Deployed (B : Behaviour σ) : HDir → DB σ → Prop where
  | new {d : HDir} (s : σ) : Reachable d → Deployed B d ⟨.absent, s⟩
  | later {d d' : HDir} {db : DB σ} : Deployed B d db → Later d d' → Deployed B d' db
  | up {d : HDir} {db db' : DB σ} {fuel : Nat} {target : Option String} {o : Outcome} : Deployed B d db →
      target ≠ some "stage" → up B fuel d target db = some (db', o) → Deployed B d db'
  | down {d : HDir} {db : DB σ} (target : Option String) : Deployed B d db → Deployed B d (down B target db).1
  | elsewhere {d : HDir} {db : DB σ} (s : σ) : Deployed B d db → Deployed B d ⟨db.metaSchema, s⟩
  | used {d : HDir} {db : DB σ} {t : VTable} {n : Nat} : Deployed B d db → db.metaSchema = .table t → t.next ≤ n →
      Deployed B d ⟨.table { t with next := n }, db.data⟩

/-- The databases of a project that have only been brought up, from the data `s₀`, in whatever steps and at
whatever times, and that nobody else has changed. -/
inductive Brought (B : Behaviour σ) (s₀ : σ) : HDir → DB σ → Prop where
  | new {d : HDir} : Reachable d → Brought B s₀ d ⟨.absent, s₀⟩
  | later {d d' : HDir} {db : DB σ} : Brought B s₀ d db → Later d d' → Brought B s₀ d' db
  | up {d : HDir} {db db' : DB σ} {fuel : Nat} {target : Option String} {o : Outcome} : Brought B s₀ d db →
      target ≠ some "stage" → up B fuel d target db = some (db', o) → Brought B s₀ d db'

/-- The name of the version a database is recorded to be on. -/
def DB.version? (db : DB σ) : Option String := db.applied.getLast?.map Version.name

end Pg
end Podo
