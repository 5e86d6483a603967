import Verif.Model.History
import Verif.Model.Load
/-
Model of the commands that work on version files: /repo/src/cmd/stage.rs, make.rs, reset.rs and the
history part of init.rs.  What they print is in Model/Output.

A command first reads (and may fail or panic) and then saves some versions one after the other; the
model of a command is therefore the list of versions it goes on to save.
-/
namespace Podo

/-- How a command ends without success: an error value, or a panic. -/
inductive CmdFail where
  | error (e : CmdError)
  | load (e : LoadError)
  | panic
deriving DecidableEq, Repr

/-- The loop of /repo/src/cmd/stage.rs:25-39 on the source snapshot and the stage version. -/
def stageVersion : List Change → Database → Version → Except CmdFail Version
  | [], _, v => .ok v
  | c :: cs, s, v =>
    match c.revert s with
    | .error _ => .error .panic
    | .ok r =>
      match c.apply s with
      | .error e => .error (.error (.snapshot e))
      | .ok s' => stageVersion cs s' (((v.addChange c).addUp c.renderSql).addDown r.renderSql)

/-- /repo/src/cmd/stage.rs:14-41 `stage`; `defs` is what `load_snpashot` gives. -/
def stagePlan (fuel : Nat) (defs : Except LoadError Database) (d : HDir) :
    Option (Except CmdFail (List Version)) :=
  match HDir.fromDir fuel d with
  | none => none
  | some (.error e) => some (.error (.error (.fs e)))
  | some (.ok _) =>
    match defs with
    | .error e => some (.error (.load e))
    | .ok target =>
      match calculateSnapshot fuel d Version.STAGE with
      | none => none
      | some (.error e) => some (.error (.error e))
      | some (.ok source) =>
        match d.getVersion Version.STAGE with
        | .error e => some (.error (.error (.fs e)))
        | .ok stage =>
          match stageVersion (Diff.compareDiff source target) source stage with
          | .error e => some (.error e)
          | .ok stage' => some (.ok [stage'])

/-- The name `make` gives, /repo/src/cmd/make.rs:21-25; `stamp` is the formatted local time. -/
def madeName (stamp : String) (label : Option String) : String :=
  stamp ++ "-" ++ label.getD "auto"

/-- /repo/src/cmd/make.rs:13-31 `make`. -/
def makePlan (fuel : Nat) (stamp : String) (label : Option String) (d : HDir) :
    Option (Except CmdFail (List Version)) :=
  match HDir.fromDir fuel d with
  | none => none
  | some (.error e) => some (.error (.error (.fs e)))
  | some (.ok _) =>
    match d.getVersion "stage" with
    | .error e => some (.error (.error (.fs e)))
    | .ok toMake =>
      if toMake.isEmpty then some (.ok [])
      else
        let toMake := { toMake with name := madeName stamp label }
        let newStage := Version.newStage toMake.name
        some (.ok [toMake, newStage])

/-- /repo/src/cmd/reset.rs:12-17 `reset`. -/
def resetPlan (fuel : Nat) (d : HDir) : Option (Except CmdFail (List Version)) :=
  match HDir.fromDir fuel d with
  | none => none
  | some (.error e) => some (.error (.error (.fs e)))
  | some (.ok _) =>
    match d.getVersion Version.STAGE with
    | .error e => some (.error (.error (.fs e)))
    | .ok stage => some (.ok [stage.reset])

/-- Saving versions one after the other with `?`: the directory left behind, and whether every save
succeeded. -/
def HDir.saveAll : HDir → List Version → HDir × Bool
  | d, [] => (d, true)
  | d, v :: vs =>
    match d.save v with
    | none => (d, false)
    | some d' => HDir.saveAll d' vs

/-- The commands of a project that work on its version files. `init` in a project
(/repo/src/cmd/init.rs:10-13) only prints a message. -/
inductive HistCmd where
  | init
  | stage (defs : Except LoadError Database)
  | make (stamp : String) (label : Option String)
  | reset

/-- What a command goes on to save. -/
def HistCmd.plan (fuel : Nat) : HistCmd → HDir → Option (Except CmdFail (List Version))
  | .init, _ => some (.ok [])
  | .stage defs, d => stagePlan fuel defs d
  | .make stamp label, d => makePlan fuel stamp label d
  | .reset, d => resetPlan fuel d

/-- The directory a command leaves behind, and whether it reported success; `none` while it is still
running. -/
def HistCmd.exec (fuel : Nat) (c : HistCmd) (d : HDir) : Option (HDir × Bool) :=
  match c.plan fuel d with
  | none => none
  | some (.error _) => some (d, false)
  | some (.ok vs) => some (d.saveAll vs)

/-- The version files `init` leaves in a new project (/repo/src/cmd/init.rs:22-35). -/
def initDir : HDir :=
  (HDir.saveAll [] [Version.newInit, Version.newStage Version.newInit.name]).1

/-- Directory states in which a process saving `vs` one after the other can die, or can fail to write (on a
full disk, say):
/repo/src/history/fsh.rs:103-105 first creates or empties the file (`File::create`), then writes the
text piece by piece.  A text cut short does not deserialize, as `down` is the last of the required
fields, except when it is cut inside a non-empty `down` list, which then reads as another list. -/
inductive CrashState : HDir → List Version → HDir → Prop where
  | before (d vs) : CrashState d vs d
  | truncated {d v vs dv} : d.save v = some dv →
      CrashState d (v :: vs) (dv.set (v.name ++ ".yaml") (.file none))
  | cut {d v vs dv} (l : List String) : d.save v = some dv → v.down ≠ [] →
      CrashState d (v :: vs) (dv.set (v.name ++ ".yaml") (.file (some { v with down := l })))
  | saved {d v vs dv d'} : d.save v = some dv → CrashState dv vs d' → CrashState d (v :: vs) d'

end Podo
