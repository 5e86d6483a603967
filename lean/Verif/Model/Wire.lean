import Verif.Model.Program
/-
Model of `up` and `down` on a connection that is lost: the server is restarted, the network fails, an administrator
ends the session.  The functions follow those of Model/Pg and Model/Program, with the exchanges with the server (a
statement and its answer) counted: so many go well, the next and all later ones fail.  The statement of the one that
fails may have reached the server all the same.  A server that has lost its client undoes what is not committed.
Simplified: a statement the client first has the server prepare is one exchange; the server has noticed by the time
the command ends; the lines printed are left out.
-/
namespace Podo
namespace Pg

/-- /repo/src/cmd/up.rs:44-47, down.rs:42-45: the statements of a script, with `k` exchanges to go well: what is left
of these and the data, or `none` if a statement fails for one reason or the other (`.unwrap()` in both cases). -/
def execOver {σ : Type} (B : Behaviour σ) : Nat → σ → List String → Option (Nat × σ)
  | k, s, [] => some (k, s)
  | 0, _, _ :: _ => none
  | k + 1, s, q :: qs =>
    match B.exec s q with
    | none => none
    | some s' => execOver B k s' qs

/-- /repo/src/history/dbh.rs:104-124 `ensure_initialized` with `meta_schema_exists` (one exchange) and
`create_meta_schema` (three): as `ensureInitialized`, and the exchanges left. -/
def ensureOver {σ : Type} (B : Behaviour σ) (k : Nat) (db : DB σ) : Meta × Bool × Nat :=
  match k, db.metaSchema with
  | 0, m => (m, false, 0)
  | k + 1, .absent =>
    match k with
    | k + 3 =>
      if B.creates db.data then
        let (t, ok) := VTable.insert B ⟨[], 1⟩ Version.newInit
        (.table t, ok, k)
      else (.absent, false, k)
    | _ => (.absent, false, 0)
  | k + 1, m => (m, true, k)

/-- The loop of /repo/src/cmd/up.rs:41-49: as `upLoop`, and the exchanges left.  The number for a row may have been
drawn although the answer is lost. -/
def upLoopOver {σ : Type} (B : Behaviour σ) (arrived : Bool) (d : HDir) :
    Nat → List String → VTable → σ → VTable × σ × Outcome × Nat
  | k, [], t, s => (t, s, .ok, k)
  | k, n :: ns, t, s =>
    match d.getVersion n with
    | .error _ => (t, s, .error, k)
    | .ok v =>
      match execOver B k s v.up with
      | none => (t, s, .panic, 0)
      | some (0, s') => (if arrived then (t.insert B v).1 else t, s', .panic, 0)
      | some (k' + 1, s') =>
        match t.insert B v with
        | (t', false) => (t', s', .panic, k')
        | (t', true) => upLoopOver B arrived d k' ns t' s'

/-- `tx.commit()?` (up.rs:51, down.rs:49): whether or not it is heard of. -/
def commitOver {σ : Type} (B : Behaviour σ) (arrived : Bool) (db : DB σ) (k : Nat) (t : VTable) (s : σ) :
    DB σ × Outcome :=
  match k with
  | 0 => (if arrived && B.commits s then ⟨.table t, s⟩ else db.rollback (.table t), .error)
  | _ + 1 => if B.commits s then (⟨.table t, s⟩, .ok) else (db.rollback (.table t), .error)

/-- /repo/src/cmd/up.rs:16-53 `up` on such a connection: beginning the transaction is one exchange (up.rs:17), reading
the current version two (dbh.rs:65-72).  Undoing the transaction where nothing is to be applied may fail unnoticed. -/
def upOver {σ : Type} (B : Behaviour σ) (arrived : Bool) (fuel : Nat) (k : Nat) (d : HDir) (target : Option String)
    (db : DB σ) : Option (DB σ × Outcome) :=
  match k with
  | 0 => some (db, .error)
  | k + 1 =>
    match HDir.fromDir fuel d with
    | none => none
    | some (.error _) => some (db, .error)
    | some (.ok opened) =>
      match ensureOver B k db with
      | (m, false, _) => some (db.rollback m, .error)
      | (.absent, true, _) => some (db, .error)
      | (.noTable, true, _) => some (db, .error)
      | (.table t, true, k) =>
        match k with
        | k + 2 =>
          match t.current with
          | none => some (db.rollback (.table t), .error)
          | some current =>
            match d.getVersion (target.getD opened.currentVersion) with
            | .error _ => some (db.rollback (.table t), .error)
            | .ok to =>
              match HDir.upwardRange fuel d current.name to.name with
              | none => none
              | some (.error _) => some (db.rollback (.table t), .error)
              | some (.ok []) => some (db.rollback (.table t), .ok)
              | some (.ok (n :: ns)) =>
                match upLoopOver B arrived d k (n :: ns) t db.data with
                | (t', s, .ok, k) => some (commitOver B arrived db k t' s)
                | (t', _, o, _) => some (db.rollback (.table t'), o)
        | _ => some (db.rollback (.table t), .error)

/-- The loop of /repo/src/cmd/down.rs:39-47: as `downLoop`, and the exchanges left. -/
def downLoopOver {σ : Type} (B : Behaviour σ) : Nat → List String → VTable → σ → VTable × σ × Outcome × Nat
  | k, [], t, s => (t, s, .ok, k)
  | 0, _ :: _, t, s => (t, s, .panic, 0)
  | k + 1, n :: ns, t, s =>
    match t.getVersion n with
    | none => (t, s, .panic, k)
    | some v =>
      match execOver B k s v.down with
      | none => (t, s, .panic, 0)
      | some (0, s') => (t, s', .panic, 0)
      | some (k' + 1, s') =>
        match t.delete v with
        | none => (t, s', .panic, k')
        | some t' => downLoopOver B k' ns t' s'

/-- /repo/src/cmd/down.rs:32-51, once the version to go back to is known: the versions to take back are found with
three exchanges (dbh.rs:74-102; two if one of the versions is not recorded, which is an error as well). -/
def downToOver {σ : Type} (B : Behaviour σ) (arrived : Bool) (db : DB σ) (k : Nat) (t : VTable) (source to : String) :
    DB σ × Outcome :=
  match k with
  | k + 3 =>
    match t.downwardRange source to with
    | none => (db.rollback (.table t), .error)
    | some [] => (db.rollback (.table t), .ok)
    | some (n :: ns) =>
      match downLoopOver B k (n :: ns) t db.data with
      | (t', s, .ok, k) => commitOver B arrived db k t' s
      | (t', _, o, _) => (db.rollback (.table t'), o)
  | _ => (db.rollback (.table t), .error)

/-- /repo/src/cmd/down.rs:12-52 `down` on such a connection. -/
def downOver {σ : Type} (B : Behaviour σ) (arrived : Bool) (k : Nat) (target : Option String) (db : DB σ) :
    DB σ × Outcome :=
  match k with
  | 0 => (db, .error)
  | k + 1 =>
    match ensureOver B k db with
    | (m, false, _) => (db.rollback m, .error)
    | (.absent, true, _) => (db, .error)
    | (.noTable, true, _) => (db, .error)
    | (.table t, true, k) =>
      match k with
      | k + 2 =>
        match t.current with
        | none => (db.rollback (.table t), .error)
        | some current =>
          match target, current.previous with
          | none, none => (db.rollback (.table t), .ok)
          | target, previous =>
            downToOver B arrived db k t current.name (target.getD (previous.getD ""))
      | _ => (db.rollback (.table t), .error)

end Pg

namespace Prog
open Proj

/-- A connection to a server: how many exchanges go well, and whether the statement of the first that does not has
reached the server. -/
structure Wire where
  good : Nat
  arrived : Bool

/-- /repo/src/main.rs:72-91 with `up` and `down` on such a connection, without the lines printed; the other commands
are those of `run` (`status` shows why it could not read the current version, and goes on: status.rs:29-34). -/
def runOver {σ : Type} (S : Setting σ) (c : Wire) (fuel : Nat) (w : World σ) (cwd : Path) (a : Args) :
    Option (World σ × Ending) :=
  match a with
  | .up profile version =>
    match discover S.env w.fs cwd with
    | .error _ => some (w, .error)
    | .ok p =>
      match p.historyDir DEFAULT_PROFILE, p.databaseUrl profile, p.metadataSchema profile with
      | .ok h, .ok url, .ok ms =>
        match w.servers url with
        | none => some (w, .error)
        | some s =>
          match openMeta S s ms with
          | none =>
            match c.good with
            | 0 => some (w, .error)
            | _ + 1 =>
              match HDir.fromDir fuel (w.fs.history h) with
              | none => none
              | some _ => some (w, .error)
          | some m =>
            match Pg.upOver S.B c.arrived fuel c.good (w.fs.history h) version ⟨s.metas m, s.data⟩ with
            | none => none
            | some (db, o) => some (putServer w url m s db, pgEnding o)
      | _, _, _ => some (w, .error)
  | .down profile version =>
    match discover S.env w.fs cwd with
    | .error _ => some (w, .error)
    | .ok p =>
      match p.databaseUrl profile, p.metadataSchema profile with
      | .ok url, .ok ms =>
        match w.servers url with
        | none => some (w, .error)
        | some s =>
          match openMeta S s ms with
          | none => some (w, .error)
          | some m =>
            match Pg.downOver S.B c.arrived c.good version ⟨s.metas m, s.data⟩ with
            | (db, o) => some (putServer w url m s db, pgEnding o)
      | _, _ => some (w, .error)
  | a => (run S fuel w cwd a).map fun (w', _, e) => (w', e)

end Prog
end Podo
