import Verif.Model.Program
/-
Model of the command line: /repo/src/main.rs:15-96, with the rules by which clap 4.4.0 (/repo/Cargo.lock)
reads the arguments of the commands declared there.  The rules are clap's, not podo's: they are
trusted to be as written here.  Where clap ends the process itself, with help, the version number or a
usage error, no command is run; which of the three it prints is not modelled.
-/
namespace Podo
namespace Cli
open Prog

/-- The options of a command, `none` if there is no such command: /repo/src/main.rs:21-70 (each takes one
value).  Every command also has `-h` and `--help`, and the program `help`, `-V` and `--version`, with
which clap does not run a command. -/
def optionsOf : String → Option (List String)
  | "init" => some []
  | "status" => some ["profile"]
  | "stage" => some ["profile"]
  | "reset" => some ["profile"]
  | "make" => some ["profile", "version"]
  | "up" => some ["profile", "version"]
  | "down" => some ["profile", "version"]
  | "clone" => some []
  | "print" => some []
  | "sync" => some ["profile"]
  | _ => none

/-- An argument that begins with two dashes and has more: the name up to the first `=`, and the value
after it, if there is one (clap_lex 0.5.1, `to_long`). -/
def long (arg : String) : Option (String × Option String) :=
  match arg.toList with
  | '-' :: '-' :: c :: cs =>
    some (String.ofList ((c :: cs).takeWhile (· != '=')),
      match (c :: cs).dropWhile (· != '=') with
      | [] => none
      | _ :: value => some (String.ofList value))
  | _ => none

/-- An argument that begins with one dash and has more (clap_lex 0.5.1, `to_short`): no command of podo
has a short option but `-h`. -/
def short (arg : String) : Bool :=
  match arg.toList with
  | '-' :: c :: _ => c != '-'
  | _ => false

/-- The arguments after the command (clap_builder 4.4.0, the loop over the arguments): `pending` is the
option whose value comes next, `found` the options read.  `none`: clap ends the process.  A dash at the
beginning makes an argument an option even where a value is expected; an option may be given once; `--`
ends the options, and as no command has other arguments nothing may follow it. -/
def readOptions (options : List String) (pending : Option String) (found : AMap String) :
    List String → Option (AMap String)
  | [] => if pending.isSome then none else some found
  | arg :: rest =>
    if arg = "--" then
      if pending.isSome || !rest.isEmpty then none else some found
    else
      match long arg with
      | some (name, value) =>
        if pending.isSome || !options.contains name || (AMap.get? found name).isSome then none
        else
          match value with
          | some v => readOptions options none ((name, v) :: found) rest
          | none => readOptions options (some name) found rest
      | none =>
        if short arg then none
        else
          match pending with
          | none => none
          | some name => readOptions options none ((name, arg) :: found) rest

/-- /repo/src/main.rs:93-95 `get_profile`, with the default value of `profile`. -/
def getProfile (found : AMap String) : String := (AMap.get? found "profile").getD "database"

/-- /repo/src/main.rs:96-98 `get_version`. -/
def getVersion (found : AMap String) : Option String := AMap.get? found "version"

/-- /repo/src/main.rs:74-87: the command with what it is given. -/
def command (name : String) (found : AMap String) : Option Args :=
  match name with
  | "init" => some .init
  | "status" => some (.status (getProfile found))
  | "stage" => some (.stage (getProfile found))
  | "reset" => some (.reset (getProfile found))
  | "make" => some (.make (getProfile found) (getVersion found))
  | "up" => some (.up (getProfile found) (getVersion found))
  | "down" => some (.down (getProfile found) (getVersion found))
  | "clone" => some .clone
  | "print" => some .print
  | "sync" => some (.sync (getProfile found))
  | _ => none

/-- /repo/src/main.rs:72-87: the command a command line runs; `none` if clap ends the process.  A command
is required (main.rs:20), and what comes before it is an option of clap's own. -/
def parse : List String → Option Args
  | [] => none
  | name :: rest =>
    match optionsOf name with
    | none => none
    | some options =>
      match readOptions options none [] rest with
      | none => none
      | some found => command name found

/-- /repo/src/main.rs:14-91 `main` on a command line; the second part is `none` if clap ends the process. -/
def main {σ : Type} (S : Setting σ) (fuel : Nat) (w : World σ) (cwd : Proj.Path) (argv : List String) :
    Option (World σ × Option (List String × Ending)) :=
  match parse argv with
  | none => some (w, none)
  | some a => (run S fuel w cwd a).map fun r => (r.1, some r.2)

end Cli
end Podo
