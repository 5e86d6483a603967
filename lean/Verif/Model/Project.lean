import Verif.Model.Text
import Verif.Model.Commands
import Verif.Model.Ddl
/-
Model of /repo/src/util/expand.rs, /repo/src/project/mod.rs, the choice of directories of the commands in
/repo/src/cmd, /repo/src/cmd/init.rs and the dispatch of /repo/src/main.rs.
-/
namespace Podo
namespace Proj
open Text

/-- What the process sees of its environment: the variables (`env::var`; not set and not Unicode are
both `none`), and which characters `\w` matches in the `regex` crate (letters, digits, marks and
connectors of Unicode: a parameter, of which the theorems assume only what they state). -/
structure Env where
  var : List Char → Option (List Char)
  word : Char → Bool

/-- What the regular expression `\$(\w+|\{\w+\})` of /repo/src/util/expand.rs:6 captures right after a
dollar sign, without the braces (line 9 trims them), and the text behind it. -/
def reference (word : Char → Bool) (cs : List Char) : Option (List Char × List Char) :=
  match cs.takeWhile word with
  | c :: w => some (c :: w, cs.dropWhile word)
  | [] =>
    match cs with
    | '{' :: r =>
      match r.takeWhile word, r.dropWhile word with
      | c :: w, '}' :: rest => some (c :: w, rest)
      | _, _ => none
    | _ => none

/-- /repo/src/util/expand.rs:5-13 `expand_envvar`: `replace_all` written out as a scan from left to
right; the first argument bounds the length of the text. -/
def expandLoop (env : Env) : Nat → List Char → List Char
  | 0, _ => []
  | _ + 1, [] => []
  | n + 1, c :: cs =>
    if c = '$' then
      match reference env.word cs with
      | some (name, rest) => (env.var name).getD [] ++ expandLoop env n rest
      | none => c :: expandLoop env n cs
    else c :: expandLoop env n cs

/-- /repo/src/util/expand.rs:5-13 `expand_envvar`. -/
def expand (env : Env) (s : List Char) : List Char := expandLoop env (s.length + 1) s

/-- An absolute path, by its components; two paths are equal in `std::path` when these are.  Simplified: `..`
is an entry like any other, so that two texts can name one directory of the file system and differ here. -/
abbrev Path := List String

/-- The components of a path text: empty ones and `.` do not count. -/
def splitSlash : List Char → List (List Char)
  | [] => [[]]
  | c :: cs =>
    if c = '/' then [] :: splitSlash cs
    else
      match splitSlash cs with
      | [] => [[c]]
      | p :: ps => (c :: p) :: ps

/-- `Path::components` of a text, as strings. -/
def components (s : List Char) : Path :=
  ((splitSlash s).filter fun p => p ≠ [] ∧ p ≠ ['.']).map String.ofList

/-- `PathBuf::join`: an absolute path replaces the base. -/
def join (base : Path) (s : List Char) : Path :=
  match s with
  | '/' :: _ => components s
  | _ => base ++ components s

/-- /repo/src/project/mod.rs:94-100 `YAMLProjectProfile`. -/
structure YProfile where
  databaseUrl : String
  history : String
  definitions : String
  metadataSchema : String
deriving DecidableEq, Repr

/-- /repo/src/project/mod.rs:89-92 `YAMLProject`: the profiles by name, in the order the hash map gives
them. -/
abbrev YProject := AMap YProfile

/-- /repo/src/project/mod.rs:80-87 `Profile`. -/
structure Profile where
  name : String
  databaseUrl : String
  history : Path
  definitions : Path
  metadataSchema : String
deriving DecidableEq, Repr

/-- /repo/src/project/mod.rs:38-42 `Project`. -/
structure Project where
  baseDir : Path
  profiles : List Profile
deriving DecidableEq, Repr

/-- /repo/src/project/mod.rs:172-178 `ProjectError`; the two wrapped errors are one. -/
inductive ProjectError where
  | projectNotFound (currentDir : Path)
  | profileNotFound (name : String)
  | config
deriving DecidableEq, Repr

/-- /repo/src/project/mod.rs:143-151: one profile. -/
def loadProfile (env : Env) (base : Path) (name : String) (y : YProfile) : Profile :=
  { name := name
    databaseUrl := String.ofList (expand env y.databaseUrl.toList)
    history := join base (expand env y.history.toList)
    definitions := join base (expand env y.definitions.toList)
    metadataSchema := y.metadataSchema }

/-- /repo/src/project/mod.rs:139-154 `load_project_from_str` on the deserialized file (`none`: the file
cannot be read or does not deserialize). -/
def loadProject (env : Env) (base : Path) : Option YProject → Except ProjectError Project
  | none => .error .config
  | some y => .ok ⟨base, y.map fun e => loadProfile env base e.1 e.2⟩

/-- The loop of /repo/src/project/mod.rs:46-50. -/
def findProfile (name : String) : List Profile → Option Profile
  | [] => none
  | p :: ps => if p.name = name then some p else findProfile name ps

/-- /repo/src/project/mod.rs:45-54 `get_profile`. -/
def Project.profile (p : Project) (name : String) : Except ProjectError Profile :=
  match findProfile name p.profiles with
  | some q => .ok q
  | none => .error (.profileNotFound name)

/-- /repo/src/project/mod.rs:103 -/
def DEFAULT_PROFILE : String := "database"

/-- /repo/src/project/mod.rs:60-63 `resolve_history_dir`. -/
def Project.historyDir (p : Project) (name : String) : Except ProjectError Path :=
  match p.profile name with
  | .ok q => .ok q.history
  | .error e => .error e

/-- /repo/src/project/mod.rs:64-67 `resolve_definitions_dir`. -/
def Project.definitionsDir (p : Project) (name : String) : Except ProjectError Path :=
  match p.profile name with
  | .ok q => .ok q.definitions
  | .error e => .error e

/-- /repo/src/project/mod.rs:56-59 `resolve_database_url`. -/
def Project.databaseUrl (p : Project) (name : String) : Except ProjectError String :=
  match p.profile name with
  | .ok q => .ok q.databaseUrl
  | .error e => .error e

/-- /repo/src/project/mod.rs:74-77 `resolve_metadata_schema`. -/
def Project.metadataSchema (p : Project) (name : String) : Except ProjectError String :=
  match p.profile name with
  | .ok q => .ok q.metadataSchema
  | .error e => .error e

/-- The files podo looks at: the configuration file of a directory (`none`: there is none; `some none`:
there is one that cannot be read or does not deserialize), the version files of a history directory and
the definition files of a definitions directory by file name.  Simplified: a directory that does not
exist has no files, a history directory is not also a definitions directory. -/
structure Fs where
  config : Path → Option (Option YProject)
  history : Path → HDir
  definitions : Path → AMap Def.Yaml

/-- The loop of /repo/src/project/mod.rs:105-121 `discover_project`; the first argument is the current
directory from its last component to its first, so that `PathBuf::pop` takes the head. -/
def discoverUp (env : Env) (config : Path → Option (Option YProject)) :
    List String → Except ProjectError Project
  | [] =>
    match config [] with
    | some y => loadProject env [] y
    | none => .error (.projectNotFound [])
  | d :: ds =>
    match config (d :: ds).reverse with
    | some y => loadProject env (d :: ds).reverse y
    | none => discoverUp env config ds

/-- /repo/src/project/mod.rs:105-121 `discover_project`. -/
def discover (env : Env) (fs : Fs) (cwd : Path) : Except ProjectError Project :=
  discoverUp env fs.config cwd.reverse

/-- The subcommands of /repo/src/main.rs:21-70. -/
inductive Cmd where
  | init | status | stage | reset | make | up | down | clone | print | sync
deriving DecidableEq, Repr

/-- The history directory a command opens; `none`: it opens none.  /repo/src/cmd/status.rs:18,
stage.rs:11, reset.rs:10, make.rs:11, up.rs:12, down.rs (none), clone.rs (none). -/
def historyOf (p : Project) (profile : String) : Cmd → Option (Except ProjectError Path)
  | .status => some (p.historyDir DEFAULT_PROFILE)
  | .stage => some (p.historyDir profile)
  | .reset => some (p.historyDir profile)
  | .make => some (p.historyDir profile)
  | .up => some (p.historyDir DEFAULT_PROFILE)
  | _ => none

/-- The definitions directory a command uses.  /repo/src/cmd/status.rs:19, stage.rs:12, clone.rs:11. -/
def definitionsOf (p : Project) (profile : String) : Cmd → Option (Except ProjectError Path)
  | .status => some (p.definitionsDir DEFAULT_PROFILE)
  | .stage => some (p.definitionsDir profile)
  | .clone => some (p.definitionsDir DEFAULT_PROFILE)
  | _ => none

/-- The database a command connects to.  /repo/src/cmd/status.rs:20, up.rs:13, down.rs:9,
clone.rs:10. -/
def databaseOf (p : Project) (profile : String) : Cmd → Option (Except ProjectError String)
  | .status => some (p.databaseUrl profile)
  | .up => some (p.databaseUrl profile)
  | .down => some (p.databaseUrl profile)
  | .clone => some (p.databaseUrl profile)
  | _ => none

/-- /repo/src/project/mod.rs:156-170 `create_base_yaml_project`. -/
def baseProject : YProject :=
  [(DEFAULT_PROFILE, ⟨"postgresql://localhost:5432/postgres", "database/history",
    "database/definitions", "podo_meta"⟩)]

/-- How `init` ends. -/
inductive InitEnd where
  | exists_ (base : Path)
  | done
  | failed
  | panic
deriving DecidableEq, Repr

/-- Changing one value of a function. -/
def update {α β : Type} [DecidableEq α] (f : α → β) (a : α) (b : β) : α → β :=
  fun x => if x = a then b else f x

/-- /repo/src/cmd/init.rs:7-41 `init`, with /repo/src/project/mod.rs:123-129 `initialize_project`.
Simplified: writing a file does not fail except as `HDir.save` has it, and the last error of a command
leaves the files it has written. -/
def init (env : Env) (fs : Fs) (cwd : Path) : Fs × InitEnd :=
  match discover env fs cwd with
  | .ok p => (fs, .exists_ p.baseDir)
  | .error _ =>
    let fs := { fs with config := update fs.config cwd (some (some baseProject)) }
    match loadProject env cwd (some baseProject) with
    | .error _ => (fs, .failed)
    | .ok project =>
      match project.historyDir DEFAULT_PROFILE, project.definitionsDir DEFAULT_PROFILE with
      | .ok h, .ok ds =>
        let v := Version.newInit
        let stage := Version.newStage v.name
        match Change.applyAll (v.changes ++ stage.changes) Database.new with
        | .error _ => (fs, .failed)
        | .ok snapshot =>
          let (dir, ok) := (fs.history h).saveAll [v, stage]
          let fs := { fs with history := update fs.history h dir }
          if ok = false then (fs, .failed)
          else
            match Def.saveDoc snapshot with
            | .error _ => (fs, .panic)
            | .ok y =>
              let files := Def.insertEntry (fs.definitions ds) "public.yaml" y
              ({ fs with definitions := update fs.definitions ds files }, .done)
      | _, _ => (fs, .failed)

end Proj
end Podo
