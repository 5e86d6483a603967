import Verif.Spec.Life
import Verif.Spec.Minded
import Verif.Spec.Renamed
/-
Words for C93 and C97: `down` killed, and lives of a machine on which anything whatever may happen to the files.
-/
namespace Podo
namespace Pg
variable {σ : Type}

/-- The version tables a process that takes versions back (/repo/src/cmd/down.rs:39-47) gets to before it dies. -/
inductive DownTo (B : Behaviour σ) : List String → VTable → σ → VTable → Prop where
  | here {ns : List String} {t : VTable} {s : σ} : DownTo B ns t s t
  | on {n : String} {ns : List String} {t t' t'' : VTable} {s s' : σ} {v : Version} : t.getVersion n = some v →
      execAll B s v.down = some s' → t.delete v = some t' → DownTo B ns t' s' t'' → DownTo B (n :: ns) t s t''

/-- What a database is after the process that runs `down` has died at some point of it: the server undoes what has
not been committed, all but the numbers drawn from a sequence. -/
inductive DownDies (B : Behaviour σ) (target : Option String) (db : DB σ) : DB σ → Prop where
  /-- before it has taken anything back -/
  | before : DownDies B target db db
  /-- while it takes versions back, with the last statement still to come or the commit -/
  | within {t t' : VTable} {current : Version} {versions : List String} :
      ensureInitialized B db = (.table t, true) → t.current = some current →
      t.downwardRange current.name (target.getD (current.previous.getD "")) = some versions →
      DownTo B versions t db.data t' → DownDies B target db (db.rollback (.table t'))
  /-- when it has committed, or failed -/
  | after : DownDies B target db (down B target db).1

end Pg

namespace Prog
open Proj
variable {σ : Type}

/-- One thing that happens on a machine where no care is taken: anything whatever becomes of the files, version files
among them: they are edited, renamed, deleted, torn, restored; or somebody works in a database, outside of podo's
schemas, and servers are set up or taken down; or a podo command is run, with any arguments, on whatever profile, from
whatever directory, while any servers cannot be reached, and ends in whatever way; or one is killed while it brings a
database up or takes it back. -/
inductive Befalls (B : Pg.Behaviour σ) (w : World σ) : World σ → Prop where
  | files (fs : Fs) : Befalls B w ⟨fs, w.servers⟩
  | database {w' : World σ} :
      (∀ url s', w'.servers url = some s' → (∃ s, w.servers url = some s ∧ s'.metas = s.metas) ∨
        (w.servers url = none ∧ ∀ m, s'.metas m = .absent)) → Befalls B w w'
  | command {w₁ : World σ} {S : Setting σ} {cwd : Proj.Path} {a : Args} {away : String → Bool} {out : List String}
      {e : Ending} : S.B = B → Ends S (w.without away) cwd a w₁ out e → Befalls B w (w₁.back w away)
  | upKilled {d : HDir} {url m : String} {s : Server σ} {target : Option String} {db : Pg.DB σ} :
      w.servers url = some s → Pg.UpDies B d target (s.db m) db → Befalls B w (putServer w url m s db)
  | downKilled {url m : String} {s : Server σ} {target : Option String} {db : Pg.DB σ} :
      w.servers url = some s → Pg.DownDies B target (s.db m) db → Befalls B w (putServer w url m s db)

/-- The states of a machine where no care is taken, from one on whose servers podo has never run. -/
inductive WildLife (B : Pg.Behaviour σ) : World σ → Prop where
  | new {w : World σ} : (∀ url s, w.servers url = some s → ∀ m, s.metas m = .absent) → WildLife B w
  | on {w w' : World σ} : WildLife B w → Befalls B w w' → WildLife B w'

end Prog
end Podo
