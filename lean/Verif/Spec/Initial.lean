import Verif.Model.Project
/-
Words for C96: `init` that is interrupted.
-/
namespace Podo
namespace Proj

/-- The configuration file `init` writes (/repo/src/project/mod.rs:123-129,156-170), cut short where it still
deserializes: inside its last value, the name of the metadata schema (/repo/src/project/mod.rs:94-100). -/
def CutConfig (y : YProject) : Prop :=
  ∃ m : String, m.toList <+: "podo_meta".toList ∧
    y = [("database", ⟨"postgresql://localhost:5432/postgres", "database/history", "database/definitions", m⟩)]

/-- The process that runs `init` in a directory dies at some point of it and leaves these files behind: before
it has written anything; with the configuration file empty or cut short; while it saves the versions
`init` and `stage`; when the definition file has been created but not been written completely (it may then
say anything); at the end.  Simplified: a definition file that cannot be parsed at all is not distinguished
from one with some value in it. -/
inductive InitDies (env : Env) (fs : Fs) (cwd : Path) : Fs → Prop where
  | before : InitDies env fs cwd fs
  | config {e : ProjectError} {c : Option YProject} : discover env fs cwd = .error e →
      (c = none ∨ ∃ y, c = some y ∧ CutConfig y) →
      InitDies env fs cwd { fs with config := update fs.config cwd (some c) }
  | history {e : ProjectError} {d : HDir} : discover env fs cwd = .error e →
      CrashState (fs.history (cwd ++ ["database", "history"])) [Version.newInit, Version.newStage "init"] d →
      InitDies env fs cwd { fs with config := update fs.config cwd (some (some baseProject)),
                                    history := update fs.history (cwd ++ ["database", "history"]) d }
  | definitions {e : ProjectError} {d : HDir} {y : Def.Yaml} : discover env fs cwd = .error e →
      (fs.history (cwd ++ ["database", "history"])).saveAll [Version.newInit, Version.newStage "init"] = (d, true) →
      InitDies env fs cwd ⟨update fs.config cwd (some (some baseProject)),
        update fs.history (cwd ++ ["database", "history"]) d,
        update fs.definitions (cwd ++ ["database", "definitions"])
          (Def.insertEntry (fs.definitions (cwd ++ ["database", "definitions"])) "public.yaml" y)⟩
  | after : InitDies env fs cwd (init env fs cwd).1

/-- The configuration file of a directory is deleted. -/
def Fs.withoutConfig (fs : Fs) (dir : Path) : Fs := { fs with config := update fs.config dir none }

end Proj
end Podo
