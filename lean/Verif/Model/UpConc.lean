import Verif.Model.FileConc
import Verif.Model.Pg
/-
Model of `podo up` (/repo/src/cmd/up.rs) at work while other processes write version files
(`Model/FileConc`).  One step of `up` reads at most one file.  Simplified: nobody else uses the database
meanwhile (for that see `Model/Conc`); the script of a version and the recording of it are one step.
-/
namespace Podo
namespace UConc
open Pg

/-- How far `up` has come. -/
inductive Phase (σ : Type) where
  | started
  /-- in the loop /repo/src/history/fsh.rs:33-55: entries left, and the map so far -/
  | scanning (left : List (String × Entry)) (nextMap : AMap String)
  /-- the history is open, with the current version: /repo/src/cmd/up.rs:19 -/
  | opened (cv : String)
  /-- in the loop /repo/src/history/fsh.rs:82-96: the version table, both ends, the version to read, the
  names so far -/
  | ranging (t : VTable) (source to curr : String) (acc : List String)
  /-- in the loop /repo/src/cmd/up.rs:41-49: the names left -/
  | applying (t : VTable) (s : σ) (names : List String)
  /-- The process has ended. -/
  | done (db : DB σ) (o : Outcome)

/-- The next step of `up` (/repo/src/cmd/up.rs:19-53), when the version files are those of `d`. -/
def Phase.next {σ : Type} (B : Behaviour σ) (fuel : Nat) (target : Option String) (db : DB σ) (d : HDir) :
    Phase σ → Option (Phase σ)
  | .started => some (.scanning d [])
  | .scanning (e :: es) nm =>
    match HDir.scan d [e] nm with
    | .error _ => some (.done db .error)
    | .ok nm' => some (.scanning es nm')
  | .scanning [] nm =>
    match HDir.walk nm fuel "init" Version.INIT with
    | none => none
    | some cv => some (.opened cv)
  | .opened cv =>
    match ensureInitialized B db with
    | (m, false) => some (.done (db.rollback m) .error)
    | (.absent, true) => some (.done db .error)
    | (.noTable, true) => some (.done db .error)
    | (.table t, true) =>
      match t.current with
      | none => some (.done (db.rollback (.table t)) .error)
      | some current =>
        match d.getVersion (target.getD cv) with
        | .error _ => some (.done (db.rollback (.table t)) .error)
        | .ok to => some (.ranging t current.name to.name to.name [])
  | .ranging t source to curr acc =>
    match d.getVersion curr with
    | .error _ => some (.done (db.rollback (.table t)) .error)
    | .ok v =>
      if curr = source then
        if acc = [] then some (.done (db.rollback (.table t)) .ok)
        else some (.applying t db.data acc.reverse)
      else
        match v.previous with
        | some p => some (.ranging t source to p (acc ++ [v.name]))
        | none => some (.done (db.rollback (.table t)) .error)
  | .applying t s [] =>
    if B.commits s then some (.done ⟨.table t, s⟩ .ok)
    else some (.done (db.rollback (.table t)) .error)
  | .applying t s (n :: ns) =>
    match d.getVersion n with
    | .error _ => some (.done (db.rollback (.table t)) .error)
    | .ok v =>
      match execAll B s v.up with
      | none => some (.done (db.rollback (.table t)) .panic)
      | some s' =>
        match t.insert B v with
        | (t', false) => some (.done (db.rollback (.table t')) .panic)
        | (t', true) => some (.applying t' s' ns)
  | .done _ _ => none

/-- Other processes at the version files, and `up` beside them, started on the database `db`: any number of
steps in any order. -/
inductive Beside {σ : Type} (B : Behaviour σ) (target : Option String) (db : DB σ) (P : HistCmd → Prop)
    (s₀ : FConc.State) : FConc.State → Phase σ → Prop where
  | start : Beside B target db P s₀ s₀ .started
  | other {s t : FConc.State} {p : Phase σ} : Beside B target db P s₀ s p → FConc.Step P s t →
      Beside B target db P s₀ t p
  | up {s : FConc.State} {p p' : Phase σ} {fuel : Nat} : Beside B target db P s₀ s p →
      p.next B fuel target db s.dir = some p' → Beside B target db P s₀ s p'

end UConc
end Podo
