import Verif.Model.Program
/-
Model of the program on a disk that may refuse or break off what it writes: the disk is full, the directory is not
writable, a name is too long.  The functions follow those of Model/History, Model/Commands, Model/Project and
Model/Program, with what the system does at each write as a parameter (`Disk`).
-/
namespace Podo

/-- What the system does with one version file (/repo/src/history/fsh.rs:104-105): all is well; `File::create` fails;
the file is created or emptied and then a write fails, so that what is there does not deserialize, or deserializes
with another last list (see `CrashState`). -/
inductive Write where
  | done
  | refused
  | torn
  | cut (down : List String)

/-- /repo/src/history/fsh.rs:101-108 `save_version` on such a disk: the directory, and whether it succeeded. -/
def HDir.saveOn (d : HDir) (v : Version) : Write → HDir × Bool
  | .done =>
    match d.save v with
    | none => (d, false)
    | some d' => (d', true)
  | .refused => (d, false)
  | .torn =>
    match d.save v with
    | none => (d, false)
    | some d' => (d'.set (v.name ++ ".yaml") (.file none), false)
  | .cut l =>
    match d.save v with
    | none => (d, false)
    | some d' =>
      if v.down.isEmpty then (d'.set (v.name ++ ".yaml") (.file none), false)
      else (d'.set (v.name ++ ".yaml") (.file (some { v with down := l })), false)

/-- As `HDir.saveAll` (/repo/src/cmd/make.rs:30-31, for one), with what happens at the first, second, ... write. -/
def HDir.saveAllOn (f : Nat → Write) : HDir → List Version → HDir × Bool
  | d, [] => (d, true)
  | d, v :: vs =>
    match d.saveOn v (f 0) with
    | (d', false) => (d', false)
    | (d', true) => HDir.saveAllOn (fun i => f (i + 1)) d' vs

namespace Proj

/-- What the system does with the configuration file (/repo/src/project/mod.rs:127 `fs::write`): it may break off
within the last value, after some characters of the name of the metadata schema, or elsewhere. -/
inductive ConfigWrite where
  | done
  | refused
  | torn (letters : Option Nat)

/-- What the system does with the definition file (/repo/src/definition/mod.rs:28 `fs::write`); a file that is not
complete may say anything (simplified: one that cannot be parsed is not distinguished from one with some value). -/
inductive DefWrite where
  | done
  | refused
  | torn (y : Def.Yaml)

/-- What a disk does at each write of a command. -/
structure Disk where
  config : ConfigWrite
  /-- whether /repo/src/cmd/init.rs:19 `create_dir_all` succeeds -/
  historyDir : Bool
  /-- whether /repo/src/cmd/init.rs:20 `create_dir_all` succeeds -/
  definitionsDir : Bool
  versions : Nat → Write
  definitions : DefWrite

/-- What is in a configuration file the writing of which has been broken off. -/
def tornConfig : Option Nat → Option YProject
  | none => none
  | some n => some [(DEFAULT_PROFILE, ⟨"postgresql://localhost:5432/postgres", "database/history",
      "database/definitions", String.ofList ("podo_meta".toList.take n)⟩)]

/-- /repo/src/cmd/init.rs:7-41 `init`; `initialize_project` (/repo/src/project/mod.rs:123-129) unwraps the result of
writing the configuration file. -/
def initOn (env : Env) (D : Disk) (fs : Fs) (cwd : Path) : Fs × InitEnd :=
  match discover env fs cwd with
  | .ok p => (fs, .exists_ p.baseDir)
  | .error _ =>
    match D.config with
    | .refused => (fs, .panic)
    | .torn c => ({ fs with config := update fs.config cwd (some (tornConfig c)) }, .panic)
    | .done =>
      let fs := { fs with config := update fs.config cwd (some (some baseProject)) }
      match loadProject env cwd (some baseProject) with
      | .error _ => (fs, .failed)
      | .ok project =>
        match project.historyDir DEFAULT_PROFILE, project.definitionsDir DEFAULT_PROFILE with
        | .ok h, .ok ds =>
          if D.historyDir = false then (fs, .failed)
          else if D.definitionsDir = false then (fs, .failed)
          else
            let v := Version.newInit
            let stage := Version.newStage v.name
            match Change.applyAll (v.changes ++ stage.changes) Database.new with
            | .error _ => (fs, .failed)
            | .ok snapshot =>
              let (dir, ok) := (fs.history h).saveAllOn D.versions [v, stage]
              let fs := { fs with history := update fs.history h dir }
              if ok = false then (fs, .failed)
              else
                match Def.saveDoc snapshot with
                | .error _ => (fs, .panic)
                | .ok y =>
                  match D.definitions with
                  | .refused => (fs, .failed)
                  | .torn y' =>
                    let files := Def.insertEntry (fs.definitions ds) "public.yaml" y'
                    ({ fs with definitions := update fs.definitions ds files }, .failed)
                  | .done =>
                    let files := Def.insertEntry (fs.definitions ds) "public.yaml" y
                    ({ fs with definitions := update fs.definitions ds files }, .done)
        | _, _ => (fs, .failed)

end Proj

namespace Prog
open Proj

/-- A history command in a history directory, as `runHist`. -/
def runHistOn {σ : Type} (D : Disk) (fuel : Nat) (w : World σ) (h : Path) (c : HistCmd) :
    Option (World σ × List String × Ending) :=
  match c.plan fuel (w.fs.history h) with
  | none => none
  | some (.error e) => some (w, c.printed fuel (w.fs.history h), CmdFail.ending e)
  | some (.ok vs) =>
    some (⟨{ w.fs with history := update w.fs.history h ((w.fs.history h).saveAllOn D.versions vs).1 }, w.servers⟩,
      c.printed fuel (w.fs.history h),
      if ((w.fs.history h).saveAllOn D.versions vs).2 then .success else .error)

/-- /repo/src/main.rs:72-91 with the commands, as `run`; the commands that write no file are those of `run`. -/
def runOn {σ : Type} (S : Setting σ) (D : Disk) (fuel : Nat) (w : World σ) (cwd : Path) :
    Args → Option (World σ × List String × Ending)
  | .init =>
    match initOn S.env D w.fs cwd with
    | (fs, .exists_ base) => some ({ w with fs := fs }, ["Project already exists at: " ++ Path.display base], .success)
    | (fs, .done) => some ({ w with fs := fs }, [], .success)
    | (fs, .failed) => some ({ w with fs := fs }, [], .error)
    | (fs, .panic) => some ({ w with fs := fs }, [], .panic)
  | .stage profile =>
    match discover S.env w.fs cwd with
    | .error _ => some (w, [], .error)
    | .ok p =>
      match p.historyDir profile, p.definitionsDir profile with
      | .ok h, .ok ds => runHistOn D fuel w h (.stage (definitions w.fs ds))
      | _, _ => some (w, [], .error)
  | .reset profile =>
    match discover S.env w.fs cwd with
    | .error _ => some (w, [], .error)
    | .ok p =>
      match p.historyDir profile with
      | .ok h => runHistOn D fuel w h .reset
      | .error _ => some (w, [], .error)
  | .make profile version =>
    match discover S.env w.fs cwd with
    | .error _ => some (w, [], .error)
    | .ok p =>
      match p.historyDir profile with
      | .ok h => runHistOn D fuel w h (.make S.now version)
      | .error _ => some (w, [], .error)
  | a => run S fuel w cwd a

end Prog
end Podo
