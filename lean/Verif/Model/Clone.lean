import Verif.Model.Project
import Verif.Model.Introspect
/-
Model of /repo/src/cmd/clone.rs.
-/
namespace Podo
namespace Proj
open Introspect (Catalog introspect)

/-- How `clone` ends. -/
inductive CloneEnd where
  | done
  | failed
  | panic
deriving DecidableEq, Repr

/-- /repo/src/cmd/clone.rs:7-21 `clone`.  `connect` gives, for a database URL, what the catalogue
queries return for the schema `public`, or `none` if a connection or a query fails.  Simplified: writing
the file does not fail.  The path of the command line to this function is not here: see
/repo/src/main.rs:58-61,82,93-95, where it panics. -/
def clone (env : Env) (connect : String → Option Catalog) (fs : Fs) (cwd : Path) (profile : String) :
    Fs × CloneEnd :=
  match discover env fs cwd with
  | .error _ => (fs, .failed)
  | .ok project =>
    match project.databaseUrl profile, project.definitionsDir DEFAULT_PROFILE with
    | .ok url, .ok ds =>
      match connect url with
      | none => (fs, .failed)
      | some catalog =>
        match introspect catalog with
        | .error .error => (fs, .failed)
        | .error .panic => (fs, .panic)
        | .ok snapshot =>
          match Def.saveDoc snapshot with
          | .error _ => (fs, .panic)
          | .ok y =>
            let files := Def.insertEntry (fs.definitions ds) "public.yaml" y
            ({ fs with definitions := update fs.definitions ds files }, .done)
    | _, _ => (fs, .failed)

end Proj
end Podo
