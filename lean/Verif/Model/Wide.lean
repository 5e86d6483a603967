import Verif.Model.Pg
/-
`up` and `down` as in Model/Pg (/repo/src/cmd/up.rs, /repo/src/cmd/down.rs, /repo/src/history/dbh.rs), without the
simplification that the scripts leave the metadata schema alone: what a statement does, and whether it is refused, can
depend on the metadata schema, and it can change it.
-/
namespace Podo
namespace Pg
variable {σ : Type}

/-- How the server reacts, metadata schema included. -/
structure Wide (σ : Type) where
  /-- running one statement; `none`: the server reports an error -/
  exec : DB σ → String → Option (DB σ)
  /-- whether committing succeeds -/
  commits : DB σ → Bool
  /-- whether a row can be written, as far as the table's own constraints do not decide it -/
  accepts : Version → Bool
  /-- whether schema and version table can be created -/
  creates : σ → Bool

namespace Wide

/-- The parts of it that recording versions rests on. -/
def records (W : Wide σ) : Behaviour σ := ⟨fun _ _ => none, fun _ => false, W.accepts, W.creates⟩

/-- `for stmt in stmts { tx.execute(stmt, &[]).unwrap(); }` (/repo/src/cmd/up.rs:44-47, down.rs:42-45). -/
def execAll (W : Wide σ) : DB σ → List String → Option (DB σ)
  | db, [] => some db
  | db, q :: qs =>
    match W.exec db q with
    | none => none
    | some db' => execAll W db' qs

/-- /repo/src/history/dbh.rs:20-38 `save_version`, which fails if there is no version table any more. -/
def insert (W : Wide σ) (db : DB σ) (v : Version) : DB σ × Bool :=
  match db.metaSchema with
  | .table t => (⟨.table (t.insert W.records v).1, db.data⟩, (t.insert W.records v).2)
  | _ => (db, false)

/-- The loop of /repo/src/cmd/up.rs:41-49. -/
def upLoop (W : Wide σ) (d : HDir) : List String → DB σ → DB σ × Outcome
  | [], db => (db, .ok)
  | n :: ns, db =>
    match d.getVersion n with
    | .error _ => (db, .error)
    | .ok v =>
      match W.execAll db v.up with
      | none => (db, .panic)
      | some db' =>
        match W.insert db' v with
        | (db'', false) => (db'', .panic)
        | (db'', true) => upLoop W d ns db''

/-- /repo/src/cmd/up.rs:19-53 `up` inside its transaction.  Simplified: where the scripts have made another version
table, what is left of the sequence after a rollback is that of the new one. -/
def up (W : Wide σ) (fuel : Nat) (d : HDir) (target : Option String) (db : DB σ) : Option (DB σ × Outcome) :=
  match HDir.fromDir fuel d with
  | none => none
  | some (.error _) => some (db, .error)
  | some (.ok opened) =>
    match ensureInitialized W.records db with
    | (m, false) => some (db.rollback m, .error)
    | (.absent, true) => some (db, .error)
    | (.noTable, true) => some (db, .error)
    | (.table t, true) =>
      match t.current with
      | none => some (db.rollback (.table t), .error)
      | some current =>
        match d.getVersion (target.getD opened.currentVersion) with
        | .error _ => some (db.rollback (.table t), .error)
        | .ok to =>
          match HDir.upwardRange fuel d current.name to.name with
          | none => none
          | some (.error _) => some (db.rollback (.table t), .error)
          | some (.ok []) => some (db.rollback (.table t), .ok)
          | some (.ok versions) =>
            match W.upLoop d versions ⟨.table t, db.data⟩ with
            | (db', .ok) => if W.commits db' then some (db', .ok) else some (db.rollback db'.metaSchema, .error)
            | (db', o) => some (db.rollback db'.metaSchema, o)

/-- /repo/src/history/dbh.rs:52-63 `get_version`. -/
def getVersion (db : DB σ) (name : String) : Option Version :=
  match db.metaSchema with
  | .table t => t.getVersion name
  | _ => none

/-- /repo/src/history/dbh.rs:40-50 `delete_version`. -/
def delete (db : DB σ) (v : Version) : Option (DB σ) :=
  match db.metaSchema with
  | .table t => (t.delete v).map fun t' => ⟨.table t', db.data⟩
  | _ => none

/-- The loop of /repo/src/cmd/down.rs:39-47. -/
def downLoop (W : Wide σ) : List String → DB σ → DB σ × Outcome
  | [], db => (db, .ok)
  | n :: ns, db =>
    match getVersion db n with
    | none => (db, .panic)
    | some v =>
      match W.execAll db v.down with
      | none => (db, .panic)
      | some db' =>
        match delete db' v with
        | none => (db', .panic)
        | some db'' => downLoop W ns db''

/-- /repo/src/cmd/down.rs:13-52 `down` inside its transaction. -/
def down (W : Wide σ) (target : Option String) (db : DB σ) : DB σ × Outcome :=
  match ensureInitialized W.records db with
  | (m, false) => (db.rollback m, .error)
  | (.absent, true) => (db, .error)
  | (.noTable, true) => (db, .error)
  | (.table t, true) =>
    match t.current with
    | none => (db.rollback (.table t), .error)
    | some current =>
      match target, current.previous with
      | none, none => (db.rollback (.table t), .ok)
      | target, previous =>
        match t.downwardRange current.name (target.getD (previous.getD "")) with
        | none => (db.rollback (.table t), .error)
        | some [] => (db.rollback (.table t), .ok)
        | some versions =>
          match W.downLoop versions ⟨.table t, db.data⟩ with
          | (db', .ok) => if W.commits db' then (db', .ok) else (db.rollback db'.metaSchema, .error)
          | (db', o) => (db.rollback db'.metaSchema, o)

end Wide
end Pg
end Podo
