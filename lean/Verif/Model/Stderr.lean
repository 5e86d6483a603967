import Verif.Model.Program
import Verif.Model.DdlErrors
/-
Model of what podo prints on standard error: the error a command returns (/repo/src/main.rs:88-90) and its
text.  The functions follow those of Model/Program, Model/Commands and Model/Pg; a command that is still
running, succeeds or panics returns no error.
-/
namespace Podo
namespace Prog
open Proj

/-- The errors that commands return (`AnyError`, /repo/src/error.rs:1): those of
/repo/src/project/mod.rs:172-178, /repo/src/history/fsh.rs:115-127, /repo/src/definition/mod.rs:53-70 and
/repo/src/history/dbh.rs:216-222, and those of `postgres`. -/
inductive Report where
  | project (e : ProjectError)
  | history (e : FSError)
  | definitions (e : Def.LoadErrorE)
  | notInitialized
  | noMatchingVersion (version : String)
  | server

/-- The texts that come from libraries.  A command reports one error only, so that there is one text of each
sort: a configuration file that cannot be read or parsed (/repo/src/project/mod.rs:205-210), a file error of
`std::io` or an error of `serde_yaml` about a version file (/repo/src/history/fsh.rs:161-162), an error of
`serde_yaml` about a definition file (/repo/src/definition/mod.rs:54), and a value shown with `{:?}`
(/repo/src/definition/base/yaml.rs:48,124,136). -/
structure Texts where
  config : String
  io : String
  versionFile : String
  definitionFile : String
  shown : String

/-- /repo/src/project/mod.rs:192-213 `fmt`. -/
def projectText (T : Texts) : ProjectError → String
  | .projectNotFound dir => "project not found in directory tree: " ++ Path.display dir
  | .profileNotFound name => "profile not found: " ++ name
  | .config => T.config

/-- /repo/src/history/fsh.rs:144-165 `fmt`. -/
def historyText (T : Texts) : FSError → String
  | .branched parent a b =>
    "version \"" ++ parent ++ "\" has two next versions: \"" ++ a ++ "\" and \"" ++ b ++ "\""
  | .unreachable high low => "version \"" ++ high ++ "\" is not reachable from version \"" ++ low ++ "\""
  | .fileSystem => T.io
  | .yaml => T.versionFile

/-- /repo/src/definition/base/error.rs:14-18 `fmt` of the errors of /repo/src/definition/base/yaml.rs. -/
def yamlText (T : Texts) : Def.YamlError → String
  | .keyNotText => "Invalid key: " ++ T.shown
  | .invalidKey key => "Invalid key: " ++ key
  | .invalidValue => "Invalid value: " ++ T.shown
  | .invalidNumber _ => "Invalid number: " ++ T.shown

/-- The error of loading definitions; the text of that of a snapshot is never finished
(/repo/src/snapshot/error.rs:105-109). -/
def definitionsText (T : Texts) : Def.LoadErrorE → String
  | .notMapping => T.definitionFile
  | .yaml e => yamlText T e
  | .definition e => e.text
  | .snapshot _ => ""
  | .panic => ""

/-- What /repo/src/main.rs:89 prints; the last two are /repo/src/history/dbh.rs:227-230. -/
def Report.text (T : Texts) (serverError : String) : Report → String
  | .project e => projectText T e
  | .history e => historyText T e
  | .definitions e => definitionsText T e
  | .notInitialized => "database history is not initialized"
  | .noMatchingVersion v => "no version matching \"" ++ v ++ "\" found"
  | .server => serverError

/-- The error of `load_snpashot`, where it is printed without a panic. -/
def loadReport : Def.LoadErrorE → Option Report
  | .snapshot _ => none
  | .panic => none
  | e => some (.definitions e)

/-- `load_snpashot` on a definitions directory (/repo/src/definition/mod.rs:33-43), with the errors. -/
def definitionsE (fs : Fs) (ds : Path) : Except Def.LoadErrorE Database :=
  Def.loadDirE ((fs.definitions ds).map fun f => .file f.1 f.2)

/-- The error of `calculate_snapshot` (/repo/src/history/snapshot.rs:5-22), where it is printed without a
panic. -/
def replayReport : CmdError → Option Report
  | .fs e => some (.history e)
  | .snapshot _ => none

/-- Saving versions with `?` (/repo/src/history/fsh.rs:101-108). -/
def saveReport (d : HDir) (vs : List Version) : Option Report :=
  if (d.saveAll vs).2 then none else some (.history .fileSystem)

/-- /repo/src/cmd/stage.rs:14-41 `stage`: the error it returns. -/
def stageReport (fuel : Nat) (defs : Except Def.LoadErrorE Database) (d : HDir) : Option Report :=
  match HDir.fromDir fuel d with
  | none => none
  | some (.error e) => some (.history e)
  | some (.ok _) =>
    match defs with
    | .error e => loadReport e
    | .ok target =>
      match calculateSnapshot fuel d Version.STAGE with
      | none => none
      | some (.error e) => replayReport e
      | some (.ok source) =>
        match d.getVersion Version.STAGE with
        | .error e => some (.history e)
        | .ok stage =>
          match stageVersion (Diff.compareDiff source target) source stage with
          | .error _ => none
          | .ok stage' => saveReport d [stage']

/-- /repo/src/cmd/make.rs:13-31 `make`: the error it returns. -/
def makeReport (fuel : Nat) (stamp : String) (label : Option String) (d : HDir) : Option Report :=
  match HDir.fromDir fuel d with
  | none => none
  | some (.error e) => some (.history e)
  | some (.ok _) =>
    match d.getVersion "stage" with
    | .error e => some (.history e)
    | .ok toMake =>
      if toMake.isEmpty then none
      else saveReport d [{ toMake with name := madeName stamp label }, Version.newStage (madeName stamp label)]

/-- /repo/src/cmd/reset.rs:12-17 `reset`: the error it returns. -/
def resetReport (fuel : Nat) (d : HDir) : Option Report :=
  match HDir.fromDir fuel d with
  | none => none
  | some (.error e) => some (.history e)
  | some (.ok _) =>
    match d.getVersion Version.STAGE with
    | .error e => some (.history e)
    | .ok stage => saveReport d [stage.reset]

/-- /repo/src/cmd/status.rs:22-28 `status`: the error it returns. -/
def statusReport (fuel : Nat) (defs : Except Def.LoadErrorE Database) (d : HDir) : Option Report :=
  match HDir.fromDir fuel d with
  | none => none
  | some (.error e) => some (.history e)
  | some (.ok _) =>
    match defs with
    | .error e => loadReport e
    | .ok _ =>
      match d.getVersion Version.STAGE with
      | .error e => some (.history e)
      | .ok _ =>
        match calculateSnapshot fuel d Version.STAGE with
        | none => none
        | some (.error e) => replayReport e
        | some (.ok _) => none

/-- The loop of /repo/src/cmd/up.rs:41-49: the error of reading a version file, `none` when it ends without
one or panics. -/
def upLoopReport {σ : Type} (B : Pg.Behaviour σ) (d : HDir) : List String → Pg.VTable → σ → Option FSError
  | [], _, _ => none
  | n :: ns, t, s =>
    match d.getVersion n with
    | .error e => some e
    | .ok v =>
      match Pg.execAll B s v.up with
      | none => none
      | some s' =>
        match t.insert B v with
        | (_, false) => none
        | (t', true) => upLoopReport B d ns t' s'

/-- /repo/src/cmd/up.rs:19-53 `up`: the error it returns. -/
def upReport {σ : Type} (B : Pg.Behaviour σ) (fuel : Nat) (d : HDir) (target : Option String)
    (db : Pg.DB σ) : Option Report :=
  match HDir.fromDir fuel d with
  | none => none
  | some (.error e) => some (.history e)
  | some (.ok opened) =>
    match Pg.ensureInitialized B db with
    | (_, false) => some .server
    | (.absent, true) => some .notInitialized
    | (.noTable, true) => some .server
    | (.table t, true) =>
      match t.current with
      | none => some .server
      | some current =>
        match d.getVersion (target.getD opened.currentVersion) with
        | .error e => some (.history e)
        | .ok to =>
          match HDir.upwardRange fuel d current.name to.name with
          | none => none
          | some (.error e) => some (.history e)
          | some (.ok []) => none
          | some (.ok versions) =>
            match Pg.upLoop B d versions t db.data with
            | (_, s, .ok) => if B.commits s then none else some .server
            | _ => (upLoopReport B d versions t db.data).map .history

/-- /repo/src/cmd/down.rs:13-52 `down`: the error it returns.  /repo/src/history/dbh.rs:83-88 names the first
of the two versions that is not in the table. -/
def downReport {σ : Type} (B : Pg.Behaviour σ) (target : Option String) (db : Pg.DB σ) : Option Report :=
  match Pg.ensureInitialized B db with
  | (_, false) => some .server
  | (.absent, true) => some .notInitialized
  | (.noTable, true) => some .server
  | (.table t, true) =>
    match t.current with
    | none => some .server
    | some current =>
      match target, current.previous with
      | none, none => none
      | target, previous =>
        match t.order current.name, t.order (target.getD (previous.getD "")) with
        | none, _ => some (.noMatchingVersion current.name)
        | some _, none => some (.noMatchingVersion (target.getD (previous.getD "")))
        | some _, some _ =>
          match t.downwardRange current.name (target.getD (previous.getD "")) with
          | none => none
          | some [] => none
          | some versions =>
            match Pg.downLoop B versions t db.data with
            | (_, s, .ok) => if B.commits s then none else some .server
            | _ => none

/-- Where the name of the metadata schema makes `up` and `down` fail (`openMeta`): no schema of the
configured name is there, and the one the statements name could be made, but is not found afterwards
(/repo/src/history/dbh.rs:65-68); or a statement fails. -/
def openMetaReport {σ : Type} (S : Setting σ) (s : Server σ) (metaSchema : String) : Report :=
  match S.ident metaSchema with
  | none => .server
  | some name =>
    if s.metas metaSchema = .absent ∧ s.metas name = .absent then
      if (Pg.ensureInitialized S.B ⟨.absent, s.data⟩).2 then .notInitialized else .server
    else .server

/-- The first of some results of looking at the configuration that is an error. -/
def configReport : List (Option ProjectError) → Option Report
  | [] => none
  | some e :: _ => some (.project e)
  | none :: rest => configReport rest

/-- The error in a result. -/
def errorOf {α : Type} : Except ProjectError α → Option ProjectError
  | .error e => some e
  | .ok _ => none

/-- /repo/src/main.rs:72-90: the error the command returns. -/
def report {σ : Type} (S : Setting σ) (fuel : Nat) (w : World σ) (cwd : Path) : Args → Option Report
  | .init =>
    match Proj.init S.env w.fs cwd with
    | (_, .failed) => some (.history .fileSystem)
    | _ => none
  | .status profile =>
    match discover S.env w.fs cwd with
    | .error e => some (.project e)
    | .ok p =>
      match p.historyDir DEFAULT_PROFILE, p.definitionsDir DEFAULT_PROFILE, p.databaseUrl profile with
      | .ok h, .ok ds, .ok _ => statusReport fuel (definitionsE w.fs ds) (w.fs.history h)
      | h, ds, url => configReport [errorOf h, errorOf ds, errorOf url]
  | .stage profile =>
    match discover S.env w.fs cwd with
    | .error e => some (.project e)
    | .ok p =>
      match p.historyDir profile, p.definitionsDir profile with
      | .ok h, .ok ds => stageReport fuel (definitionsE w.fs ds) (w.fs.history h)
      | h, ds => configReport [errorOf h, errorOf ds]
  | .reset profile =>
    match discover S.env w.fs cwd with
    | .error e => some (.project e)
    | .ok p =>
      match p.historyDir profile with
      | .ok h => resetReport fuel (w.fs.history h)
      | .error e => some (.project e)
  | .make profile version =>
    match discover S.env w.fs cwd with
    | .error e => some (.project e)
    | .ok p =>
      match p.historyDir profile with
      | .ok h => makeReport fuel S.now version (w.fs.history h)
      | .error e => some (.project e)
  | .up profile version =>
    match discover S.env w.fs cwd with
    | .error e => some (.project e)
    | .ok p =>
      match p.historyDir DEFAULT_PROFILE, p.databaseUrl profile, p.metadataSchema profile with
      | .ok h, .ok url, .ok ms =>
        match w.servers url with
        | none => some .server
        | some s =>
          match openMeta S s ms with
          | none =>
            match HDir.fromDir fuel (w.fs.history h) with
            | none => none
            | some (.error e) => some (.history e)
            | some (.ok _) => some (openMetaReport S s ms)
          | some m => upReport S.B fuel (w.fs.history h) version ⟨s.metas m, s.data⟩
      | h, url, ms => configReport [errorOf h, errorOf url, errorOf ms]
  | .down profile version =>
    match discover S.env w.fs cwd with
    | .error e => some (.project e)
    | .ok p =>
      match p.databaseUrl profile, p.metadataSchema profile with
      | .ok url, .ok ms =>
        match w.servers url with
        | none => some .server
        | some s =>
          match openMeta S s ms with
          | none => some (openMetaReport S s ms)
          | some m => downReport S.B version ⟨s.metas m, s.data⟩
      | url, ms => configReport [errorOf url, errorOf ms]
  | .clone => none
  | .print => none
  | .sync _ => none

/-- /repo/src/main.rs:88-90: the line on standard error. -/
def stderr {σ : Type} (S : Setting σ) (T : Texts) (fuel : Nat) (w : World σ) (cwd : Path) (a : Args) :
    Option String :=
  (report S fuel w cwd a).map (Report.text T S.serverError)

end Prog
end Podo
