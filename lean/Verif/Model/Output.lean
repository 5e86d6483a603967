import Verif.Model.Pg
import Verif.Model.Project
/-
Model of what the commands print on standard output: a string per `println!`, without colours
(`colored` leaves them out where the output is not a terminal).  The functions follow those of
Model/Commands and Model/Pg; while a command is still running they give no lines.
-/
namespace Podo

/-- /repo/src/snapshot/changes/mod.rs:53-57 `display_name`, the names of lines 69-101. -/
def Change.displayName : Change → String
  | .addCheck .. => "AddCheckChange"
  | .addColumn .. => "AddColumnChange"
  | .addForeignKey .. => "AddForeignKeyChange"
  | .addPrimaryKey .. => "AddPrimaryKeyChange"
  | .addUnique .. => "AddUniqueChange"
  | .alterCheck .. => "AlterCheckChange"
  | .setDataType .. => "AlterColumnSetDataTypeChange"
  | .setDefault .. => "AlterColumnSetDefaultChange"
  | .setNotNull .. => "AlterColumnSetNotNullChange"
  | .alterForeignKey .. => "AlterForeignKeyChange"
  | .alterPrimaryKey .. => "AlterPrimaryKeyChange"
  | .alterUnique .. => "AlterUniqueChange"
  | .createFunction .. => "CreateFunctionChange"
  | .createIndex .. => "CreateIndexChange"
  | .createSchema .. => "CreateSchemaChange"
  | .createSequence .. => "CreateSequenceChange"
  | .createTable .. => "CreateTableChange"
  | .createView .. => "CreateViewChange"
  | .dropCheck .. => "DropCheckChange"
  | .dropColumn .. => "DropColumnChange"
  | .dropForeignKey .. => "DropForeignKeyChange"
  | .dropFunction .. => "DropFunctionChange"
  | .dropIndex .. => "DropIndexChange"
  | .dropPrimaryKey .. => "DropPrimaryKeyChange"
  | .dropSchema .. => "DropSchemaChange"
  | .dropSequence .. => "DropSequenceChange"
  | .dropTable .. => "DropTableChange"
  | .dropUnique .. => "DropUniqueChange"
  | .dropView .. => "DropViewChange"
  | .renameColumn .. => "RenameColumnChange"

/-- The loop of /repo/src/cmd/stage.rs:25-39: a change is printed before it is reverted and applied. -/
def stageLines : List Change → Database → List String
  | [], _ => []
  | c :: cs, s =>
    ("    " ++ c.renderSql ++ " " ++ "-- " ++ c.displayName) ::
      match c.revert s with
      | .error _ => []
      | .ok _ =>
        match c.apply s with
        | .error _ => []
        | .ok s' => stageLines cs s'

/-- /repo/src/cmd/stage.rs:14-41 `stage`: what it prints. -/
def stagePrinted (fuel : Nat) (defs : Except LoadError Database) (d : HDir) : List String :=
  match HDir.fromDir fuel d with
  | none => []
  | some (.error _) => []
  | some (.ok _) =>
    match defs with
    | .error _ => []
    | .ok target =>
      match calculateSnapshot fuel d Version.STAGE with
      | none => []
      | some (.error _) => []
      | some (.ok source) =>
        match d.getVersion Version.STAGE with
        | .error _ => []
        | .ok _ =>
          let changes := Diff.compareDiff source target
          "Staging changes:" ::
            ((if changes.length == 0 then ["    No changes to stage."] else []) ++ stageLines changes source)

/-- /repo/src/cmd/make.rs:13-31 `make`: what it prints, the name before anything is saved. -/
def makePrinted (fuel : Nat) (stamp : String) (label : Option String) (d : HDir) : List String :=
  match HDir.fromDir fuel d with
  | none => []
  | some (.error _) => []
  | some (.ok _) =>
    match d.getVersion "stage" with
    | .error _ => []
    | .ok toMake =>
      if toMake.isEmpty then ["Nothing to make. Stage is empty."]
      else ["Made version: " ++ madeName stamp label]

/-- What a command on version files prints; `reset` (/repo/src/cmd/reset.rs:7-19) prints nothing. -/
def HistCmd.printed (fuel : Nat) : HistCmd → HDir → List String
  | .init, _ => []
  | .stage defs, d => stagePrinted fuel defs d
  | .make stamp label, d => makePrinted fuel stamp label d
  | .reset, _ => []

namespace Pg

/-- The loop of /repo/src/cmd/up.rs:44-47 and down.rs:42-45: a statement is printed once it has been
executed. -/
def execPrinted {σ : Type} (B : Behaviour σ) : σ → List String → List String
  | _, [] => []
  | s, q :: qs =>
    match B.exec s q with
    | none => []
    | some s' => ("    " ++ q) :: execPrinted B s' qs

/-- The loop of /repo/src/cmd/up.rs:41-49: what it prints. -/
def upLoopPrinted {σ : Type} (B : Behaviour σ) (d : HDir) : List String → VTable → σ → List String
  | [], _, _ => []
  | n :: ns, t, s =>
    match d.getVersion n with
    | .error _ => []
    | .ok v =>
      ("  Applying version " ++ v.name) :: (execPrinted B s v.up ++
        match execAll B s v.up with
        | none => []
        | some s' =>
          match t.insert B v with
          | (_, false) => []
          | (t', true) => upLoopPrinted B d ns t' s')

/-- /repo/src/cmd/up.rs:19-53 `up`: what it prints. -/
def upPrinted {σ : Type} (B : Behaviour σ) (fuel : Nat) (d : HDir) (target : Option String) (db : DB σ) :
    List String :=
  match HDir.fromDir fuel d with
  | none => []
  | some (.error _) => []
  | some (.ok opened) =>
    match ensureInitialized B db with
    | (_, false) => []
    | (.absent, true) => []
    | (.noTable, true) => []
    | (.table t, true) =>
      match t.current with
      | none => []
      | some current =>
        match d.getVersion (target.getD opened.currentVersion) with
        | .error _ => []
        | .ok to =>
          ["On database version: " ++ current.name, "Applying upward migrations to " ++ to.name ++ ":"] ++
          match HDir.upwardRange fuel d current.name to.name with
          | none => []
          | some (.error _) => []
          | some (.ok []) => ["  No migrations to apply."]
          | some (.ok versions) => upLoopPrinted B d versions t db.data

/-- The loop of /repo/src/cmd/down.rs:39-47: what it prints. -/
def downLoopPrinted {σ : Type} (B : Behaviour σ) : List String → VTable → σ → List String
  | [], _, _ => []
  | n :: ns, t, s =>
    match t.getVersion n with
    | none => []
    | some v =>
      ("  Reverting version " ++ v.name) :: (execPrinted B s v.down ++
        match execAll B s v.down with
        | none => []
        | some s' =>
          match t.delete v with
          | none => []
          | some t' => downLoopPrinted B ns t' s')

/-- /repo/src/cmd/down.rs:13-52 `down`: what it prints. -/
def downPrinted {σ : Type} (B : Behaviour σ) (target : Option String) (db : DB σ) : List String :=
  match ensureInitialized B db with
  | (_, false) => []
  | (.absent, true) => []
  | (.noTable, true) => []
  | (.table t, true) =>
    match t.current with
    | none => []
    | some current =>
      ("On database version: " ++ current.name) ::
      match target, current.previous with
      | none, none => ["No migrations to apply. Already on the init version."]
      | target, previous =>
        ("Applying downward migrations to " ++ target.getD (previous.getD "") ++ ":") ::
        match t.downwardRange current.name (target.getD (previous.getD "")) with
        | none => []
        | some [] => ["  No migrations to apply."]
        | some versions => downLoopPrinted B versions t db.data

end Pg

namespace Proj

/-- /repo/src/cmd/init.rs:11 `base_dir.display()` of an absolute path. -/
def Path.display : Path → String
  | [] => "/"
  | cs => String.join (cs.map ("/" ++ ·))

end Proj
end Podo
