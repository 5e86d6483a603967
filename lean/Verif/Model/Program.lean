import Verif.Model.Clone
import Verif.Model.Output
/-
Model of the whole program: /repo/src/main.rs with /repo/src/cmd, run on a file system and database
servers.  What is printed on standard output is a string per `println!`, without colours.
-/
namespace Podo
namespace Prog
open Proj

/-- A database server behind a URL: the metadata schema of each name, and the rest. -/
structure Server (σ : Type) where
  metas : String → Pg.Meta
  data : σ

/-- What podo works on.  `servers url` is `none` when connecting fails. -/
structure World (σ : Type) where
  fs : Fs
  servers : String → Option (Server σ)

/-- What podo does not control: the environment, how PostgreSQL reacts, how it reads a text written
where a statement has the name of a schema (`none`: the statement is an error), the catalogue of a
database (`none`: a query fails), the text of the errors of the server, and the formatted local time. -/
structure Setting (σ : Type) where
  env : Env
  B : Pg.Behaviour σ
  ident : String → Option String
  catalog : σ → Option Introspect.Catalog
  serverError : String
  now : String

/-- How the process ends.  An error is printed to standard error. -/
inductive Ending where
  | success
  | error
  | panic
deriving DecidableEq, Repr

/-- The exit status: /repo/src/main.rs:88-90 prints an error and returns; a panic gives 101. -/
def Ending.code : Ending → Nat
  | .success => 0
  | .error => 0
  | .panic => 101

/-- The command line, after `clap` (/repo/src/main.rs:15-72; `Model/Cli` has the way there). -/
inductive Args where
  | init
  | status (profile : String)
  | stage (profile : String)
  | reset (profile : String)
  | make (profile : String) (version : Option String)
  | up (profile : String) (version : Option String)
  | down (profile : String) (version : Option String)
  | clone
  | print
  | sync (profile : String)
deriving DecidableEq, Repr

/-- Printing an error at /repo/src/main.rs:89: that of a snapshot error
(/repo/src/snapshot/error.rs:105-109) panics. -/
def CmdFail.ending : CmdFail → Ending
  | .error (.fs _) => .error
  | .error (.snapshot _) => .panic
  | .load (.parse _) => .error
  | .load (.snapshot _) => .panic
  | .load .panic => .panic
  | .panic => .panic

/-- `load_snpashot` on a definitions directory (/repo/src/definition/mod.rs:33-43). -/
def definitions (fs : Fs) (ds : Path) : Except LoadError Database :=
  Def.loadDir ((fs.definitions ds).map fun f => .file f.1 f.2)

/-- /repo/src/history/dbh.rs:65-72 `get_current_version`, as text: the name or the error. -/
def currentVersion {σ : Type} (S : Setting σ) : Pg.Meta → Except String Version
  | .absent => .error "database history is not initialized"
  | .noTable => .error S.serverError
  | .table t =>
    match t.current with
    | none => .error S.serverError
    | some v => .ok v

/-- /repo/src/cmd/status.rs:58-67 `try_get_db_current_version` with /repo/src/history/dbh.rs:65-72: whether
the metadata schema exists is asked with its name as a value (dbh.rs:118-124), the version with its name
as part of the statement (dbh.rs:184-189). -/
def tryCurrentVersion {σ : Type} (S : Setting σ) (w : World σ) (url metaSchema : String) :
    Except String Version :=
  match w.servers url with
  | none => .error S.serverError
  | some server =>
    match server.metas metaSchema with
    | .absent => .error "database history is not initialized"
    | _ =>
      match S.ident metaSchema with
      | none => .error S.serverError
      | some name =>
        match server.metas name with
        | .absent => .error S.serverError
        | m => currentVersion S m

/-- The metadata schema `up` and `down` work on, `none` when its name makes them fail.  Whether it exists is
asked with its name as a value (dbh.rs:118-124), before creating it (dbh.rs:104-109) and again before
reading the current version (dbh.rs:65-68); all other statements contain the name as it stands
(dbh.rs:160-214).  So where both are not the same, either no schema of the configured name exists, and
creating one fails or leaves it not existing; or it does, and the statements fail unless the other exists
as well. -/
def openMeta {σ : Type} (S : Setting σ) (s : Server σ) (metaSchema : String) : Option String :=
  match S.ident metaSchema with
  | none => none
  | some name =>
    if name = metaSchema then some name
    else if s.metas metaSchema = .absent ∨ s.metas name = .absent then none
    else some name

/-- /repo/src/cmd/status.rs:31-52: what `status` prints. -/
def statusLines (db : Except String Version) (staged notStaged : List Change) : List String :=
  (match db with
    | .ok v => ["On database version: " ++ v.name]
    | .error e => ["On database version: " ++ e]) ++
  (if staged.length > 0 then
    "Changes staged:" :: staged.map (fun c => "    " ++ c.renderSql) else []) ++
  (if notStaged.length > 0 then
    "Changes not staged:" :: notStaged.map (fun c => "    " ++ c.renderSql) else []) ++
  (if staged.length == 0 && notStaged.length == 0 then ["No changes."] else [])

/-- /repo/src/cmd/status.rs:15-55 `status` once the directories are known. -/
def statusIn {σ : Type} (S : Setting σ) (fuel : Nat) (w : World σ) (h ds : Path)
    (url metaSchema : String) : Option (List String × Ending) :=
  match HDir.fromDir fuel (w.fs.history h) with
  | none => none
  | some (.error _) => some ([], .error)
  | some (.ok _) =>
    match definitions w.fs ds with
    | .error e => some ([], CmdFail.ending (.load e))
    | .ok target =>
      match (w.fs.history h).getVersion Version.STAGE with
      | .error _ => some ([], .error)
      | .ok stage =>
        match calculateSnapshot fuel (w.fs.history h) Version.STAGE with
        | none => none
        | some (.error e) => some ([], CmdFail.ending (.error e))
        | some (.ok snapshot) =>
          some (statusLines (tryCurrentVersion S w url metaSchema) stage.changes
            (Diff.compareDiff snapshot target), .success)

/-- A history command (`HistCmd`) in a history directory; the error of saving a version is one of the
file system. -/
def runHist {σ : Type} (fuel : Nat) (w : World σ) (h : Path) (c : HistCmd) :
    Option (World σ × List String × Ending) :=
  match c.plan fuel (w.fs.history h) with
  | none => none
  | some (.error e) => some (w, c.printed fuel (w.fs.history h), CmdFail.ending e)
  | some (.ok vs) =>
    some (⟨{ w.fs with history := update w.fs.history h ((w.fs.history h).saveAll vs).1 }, w.servers⟩,
      c.printed fuel (w.fs.history h),
      if ((w.fs.history h).saveAll vs).2 then .success else .error)

/-- How `up` and `down` end. -/
def pgEnding : Pg.Outcome → Ending
  | .ok => .success
  | .error => .error
  | .panic => .panic

/-- The server after a command on one of its metadata schemas. -/
def putServer {σ : Type} (w : World σ) (url metaSchema : String) (s : Server σ) (db : Pg.DB σ) :
    World σ :=
  ⟨w.fs, update w.servers url (some ⟨update s.metas metaSchema db.metaSchema, db.data⟩)⟩

/-- /repo/src/main.rs:72-91 with the commands; `none` while the process is still running. -/
def run {σ : Type} (S : Setting σ) (fuel : Nat) (w : World σ) (cwd : Path) :
    Args → Option (World σ × List String × Ending)
  | .init =>
    match Proj.init S.env w.fs cwd with
    | (fs, .exists_ base) => some ({ w with fs := fs }, ["Project already exists at: " ++ Path.display base], .success)
    | (fs, .done) => some ({ w with fs := fs }, [], .success)
    | (fs, .failed) => some ({ w with fs := fs }, [], .error)
    | (fs, .panic) => some ({ w with fs := fs }, [], .panic)
  | .status profile =>
    match discover S.env w.fs cwd with
    | .error _ => some (w, [], .error)
    | .ok p =>
      match p.historyDir DEFAULT_PROFILE, p.definitionsDir DEFAULT_PROFILE, p.databaseUrl profile,
          p.metadataSchema profile with
      | .ok h, .ok ds, .ok url, .ok ms =>
        match statusIn S fuel w h ds url ms with
        | none => none
        | some (out, e) => some (w, out, e)
      | _, _, _, _ => some (w, [], .error)
  | .stage profile =>
    match discover S.env w.fs cwd with
    | .error _ => some (w, [], .error)
    | .ok p =>
      match p.historyDir profile, p.definitionsDir profile with
      | .ok h, .ok ds => runHist fuel w h (.stage (definitions w.fs ds))
      | _, _ => some (w, [], .error)
  | .reset profile =>
    match discover S.env w.fs cwd with
    | .error _ => some (w, [], .error)
    | .ok p =>
      match p.historyDir profile with
      | .ok h => runHist fuel w h .reset
      | .error _ => some (w, [], .error)
  | .make profile version =>
    match discover S.env w.fs cwd with
    | .error _ => some (w, [], .error)
    | .ok p =>
      match p.historyDir profile with
      | .ok h => runHist fuel w h (.make S.now version)
      | .error _ => some (w, [], .error)
  | .up profile version =>
    match discover S.env w.fs cwd with
    | .error _ => some (w, [], .error)
    | .ok p =>
      match p.historyDir DEFAULT_PROFILE, p.databaseUrl profile, p.metadataSchema profile with
      | .ok h, .ok url, .ok ms =>
        match w.servers url with
        | none => some (w, [], .error)
        | some s =>
          match openMeta S s ms with
          | none =>
            match HDir.fromDir fuel (w.fs.history h) with
            | none => none
            | some _ => some (w, [], .error)
          | some m =>
            match Pg.up S.B fuel (w.fs.history h) version ⟨s.metas m, s.data⟩ with
            | none => none
            | some (db, o) =>
              some (putServer w url m s db, Pg.upPrinted S.B fuel (w.fs.history h) version ⟨s.metas m, s.data⟩,
                pgEnding o)
      | _, _, _ => some (w, [], .error)
  | .down profile version =>
    match discover S.env w.fs cwd with
    | .error _ => some (w, [], .error)
    | .ok p =>
      match p.databaseUrl profile, p.metadataSchema profile with
      | .ok url, .ok ms =>
        match w.servers url with
        | none => some (w, [], .error)
        | some s =>
          match openMeta S s ms with
          | none => some (w, [], .error)
          | some m =>
            match Pg.down S.B version ⟨s.metas m, s.data⟩ with
            | (db, o) =>
              some (putServer w url m s db, Pg.downPrinted S.B version ⟨s.metas m, s.data⟩, pgEnding o)
      | _, _ => some (w, [], .error)
  -- main.rs:58-61,82,93-95: `clone` has no argument `profile`, so that getting it panics
  | .clone => some (w, [], .panic)
  -- main.rs:62-65,84-86: no arm for `print`
  | .print => some (w, [], .panic)
  -- cmd/sync.rs:5-7: `todo!()`
  | .sync _ => some (w, [], .panic)

end Prog
end Podo
