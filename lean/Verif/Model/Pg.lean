import Verif.Model.Commands
/-
Model of /repo/src/history/dbh.rs, /repo/src/cmd/up.rs and /repo/src/cmd/down.rs on a PostgreSQL
database.

What PostgreSQL does with the statements of the scripts is a parameter (`Pg.Behaviour`): the rest of
the database is a state of any type, a statement is any partial function on it.  The version table
is modelled with the constraints its definition (dbh.rs:163-176) gives it.  Simplified: the scripts do
not touch the metadata schema and do not end the transaction; connecting to the server succeeds; the
JSON and arrays read back are those written; nobody else uses the database.
-/
namespace Podo
namespace Pg

/-- How the database reacts to what podo does not control. -/
structure Behaviour (σ : Type) where
  /-- running one statement; `none`: the server reports an error -/
  exec : σ → String → Option σ
  /-- whether committing succeeds (deferred constraints) -/
  commits : σ → Bool
  /-- whether a row can be written, as far as the table's own constraints do not decide it -/
  accepts : Version → Bool
  /-- whether schema and version table can be created -/
  creates : σ → Bool

/-- A row of the version table (dbh.rs:163-176), without the time. -/
structure Row where
  version : Version
  order : Nat
deriving DecidableEq, Repr

/-- The version table: its rows in the order of insertion, and the next value of the sequence behind
the `SERIAL` column. -/
structure VTable where
  rows : List Row
  next : Nat
deriving DecidableEq, Repr

/-- The metadata schema: absent, there but without the version table, or there with it. -/
inductive Meta where
  | absent
  | noTable
  | table (t : VTable)
deriving DecidableEq, Repr

/-- The database. -/
structure DB (σ : Type) where
  metaSchema : Meta
  data : σ

/-- How a command ends. -/
inductive Outcome where
  | ok
  | error
  | panic
deriving DecidableEq, Repr

/-- What is left after a transaction that is not committed: everything as before, except that a
sequence does not go back (PostgreSQL, `nextval`). -/
def Meta.rolledBack : Meta → Meta → Meta
  | .table t, .table t' => .table { t with next := t'.next }
  | m, _ => m

/-- Leaving a command without commit. -/
def DB.rollback {σ : Type} (db : DB σ) (m : Meta) : DB σ := ⟨db.metaSchema.rolledBack m, db.data⟩

/-- The length limit of `VARCHAR(128)` (dbh.rs:166-167).  Simplified: trailing spaces beyond the limit
count. -/
def fits (s : String) : Bool := s.length ≤ 128

/-- The largest value of the `SERIAL` column (dbh.rs:172). -/
def maxOrder : Nat := 2147483647

/-- Whether the constraints of the table let a row in: lengths, primary key, foreign key to the table
itself (dbh.rs:166-167). -/
def VTable.admits (t : VTable) (v : Version) : Bool :=
  fits v.name && (v.previous.all fits) && !(t.rows.any fun r => r.version.name == v.name) &&
    (v.previous.all fun p => p == v.name || t.rows.any fun r => r.version.name == p)

/-- /repo/src/history/dbh.rs:20-38 `save_version`: the table afterwards and whether it succeeded.  The
sequence advances in either case.  Simplified: PostgreSQL casts the values first, so a name that is too long
or JSON it rejects leaves the sequence where it is; no query reads its value, only the order of the rows. -/
def VTable.insert {σ : Type} (B : Behaviour σ) (t : VTable) (v : Version) : VTable × Bool :=
  if t.next > maxOrder then (t, false)
  else if t.admits v && B.accepts v then (⟨t.rows ++ [⟨v, t.next⟩], t.next + 1⟩, true)
  else (⟨t.rows, t.next + 1⟩, false)

/-- /repo/src/history/dbh.rs:40-50 `delete_version`: `none` when another row names the version as its
predecessor. -/
def VTable.delete (t : VTable) (v : Version) : Option VTable :=
  if t.rows.any fun r => r.version.name != v.name && r.version.previous == some v.name then none
  else some { t with rows := t.rows.filter fun r => r.version.name != v.name }

/-- /repo/src/history/dbh.rs:52-63 `get_version`. -/
def VTable.getVersion (t : VTable) (name : String) : Option Version :=
  (t.rows.find? fun r => r.version.name == name).map Row.version

/-- The newer of two rows. -/
def newer (best : Option Row) (r : Row) : Option Row :=
  match best with
  | none => some r
  | some b => if b.order < r.order then some r else some b

/-- /repo/src/history/dbh.rs:65-72 `get_current_version` once the schema exists:
`ORDER BY applied_order DESC LIMIT 1` (dbh.rs:184-189); an empty table is an error. -/
def VTable.current (t : VTable) : Option Version := (t.rows.foldl newer none).map Row.version

/-- /repo/src/history/dbh.rs:126-139 `get_applied_order`. -/
def VTable.order (t : VTable) (name : String) : Option Nat :=
  (t.rows.find? fun r => r.version.name == name).map Row.order

/-- /repo/src/history/dbh.rs:74-102 `get_downward_range`; the query is dbh.rs:195-200. -/
def VTable.downwardRange (t : VTable) (source to : String) : Option (List String) :=
  match t.order source, t.order to with
  | some f, some o =>
    some (((t.rows.filter fun r => decide (f ≥ r.order) && decide (r.order > o)).mergeSort
      (fun a b => decide (b.order ≤ a.order))).map fun r => r.version.name)
  | _, _ => none

/-- /repo/src/history/dbh.rs:104-116 `ensure_initialized` and `create_meta_schema`: the metadata schema
afterwards and whether it succeeded.  `SERIAL` starts at 1. -/
def ensureInitialized {σ : Type} (B : Behaviour σ) (db : DB σ) : Meta × Bool :=
  match db.metaSchema with
  | .absent =>
    if B.creates db.data then
      let (t, ok) := VTable.insert B ⟨[], 1⟩ Version.newInit
      (.table t, ok)
    else (.absent, false)
  | m => (m, true)

/-- `for stmt in stmts { tx.execute(stmt, &[]).unwrap(); }` (up.rs:44-47, down.rs:42-45). -/
def execAll {σ : Type} (B : Behaviour σ) : σ → List String → Option σ
  | s, [] => some s
  | s, q :: qs =>
    match B.exec s q with
    | none => none
    | some s' => execAll B s' qs

/-- The loop of /repo/src/cmd/up.rs:41-49 over the versions to apply. -/
def upLoop {σ : Type} (B : Behaviour σ) (d : HDir) : List String → VTable → σ → VTable × σ × Outcome
  | [], t, s => (t, s, .ok)
  | n :: ns, t, s =>
    match d.getVersion n with
    | .error _ => (t, s, .error)
    | .ok v =>
      match execAll B s v.up with
      | none => (t, s, .panic)
      | some s' =>
        match t.insert B v with
        | (t', false) => (t', s', .panic)
        | (t', true) => upLoop B d ns t' s'

/-- /repo/src/cmd/up.rs:19-53 `up` inside its transaction; `none` while it is still running.  Reading
the current version fails when the schema has no version table. -/
def up {σ : Type} (B : Behaviour σ) (fuel : Nat) (d : HDir) (target : Option String) (db : DB σ) :
    Option (DB σ × Outcome) :=
  match HDir.fromDir fuel d with
  | none => none
  | some (.error _) => some (db, .error)
  | some (.ok opened) =>
    match ensureInitialized B db with
    | (m, false) => some (db.rollback m, .error)
    | (.absent, true) => some (db, .error)
    | (.noTable, true) => some (db, .error)
    | (.table t, true) =>
      match t.current with
      | none => some (db.rollback (.table t), .error)
      | some current =>
        match d.getVersion (target.getD opened.currentVersion) with
        | .error _ => some (db.rollback (.table t), .error)
        | .ok to =>
          match HDir.upwardRange fuel d current.name to.name with
          | none => none
          | some (.error _) => some (db.rollback (.table t), .error)
          | some (.ok []) => some (db.rollback (.table t), .ok)
          | some (.ok versions) =>
            match upLoop B d versions t db.data with
            | (t', s, .ok) =>
              if B.commits s then some (⟨.table t', s⟩, .ok)
              else some (db.rollback (.table t'), .error)
            | (t', _, o) => some (db.rollback (.table t'), o)

/-- The loop of /repo/src/cmd/down.rs:39-47 over the versions to revert. -/
def downLoop {σ : Type} (B : Behaviour σ) : List String → VTable → σ → VTable × σ × Outcome
  | [], t, s => (t, s, .ok)
  | n :: ns, t, s =>
    match t.getVersion n with
    | none => (t, s, .panic)
    | some v =>
      match execAll B s v.down with
      | none => (t, s, .panic)
      | some s' =>
        match t.delete v with
        | none => (t, s', .panic)
        | some t' => downLoop B ns t' s'

/-- /repo/src/cmd/down.rs:13-52 `down` inside its transaction. -/
def down {σ : Type} (B : Behaviour σ) (target : Option String) (db : DB σ) : DB σ × Outcome :=
  match ensureInitialized B db with
  | (m, false) => (db.rollback m, .error)
  | (.absent, true) => (db, .error)
  | (.noTable, true) => (db, .error)
  | (.table t, true) =>
    match t.current with
    | none => (db.rollback (.table t), .error)
    | some current =>
      match target, current.previous with
      | none, none => (db.rollback (.table t), .ok)
      | target, previous =>
        match t.downwardRange current.name (target.getD (previous.getD "")) with
        | none => (db.rollback (.table t), .error)
        | some [] => (db.rollback (.table t), .ok)
        | some versions =>
          match downLoop B versions t db.data with
          | (t', s, .ok) =>
            if B.commits s then (⟨.table t', s⟩, .ok)
            else (db.rollback (.table t'), .error)
          | (t', _, o) => (db.rollback (.table t'), o)

end Pg
end Podo
