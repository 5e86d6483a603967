import Verif.Model.Program
/-
Model of the program where standard output does not take all it prints: it takes `k` lines, and then refuses,
as a pipe does whose reader has gone (`podo up | head`).  Rust ignores SIGPIPE, so that `println!` panics on a line
that is not taken; the panic unwinds `main`, and a transaction not committed is rolled back.

The functions follow those of Model/Commands, Model/Pg, Model/Output and Model/Program, with each `println!` at
its place among the effects.  Each gives the lines that were taken, and what it comes to.
-/
namespace Podo

/-- Some `println!` one after the other: the lines taken, and whether all were. -/
def printAll : Nat → List String → List String × Bool
  | _, [] => ([], true)
  | 0, _ :: _ => ([], false)
  | k + 1, l :: ls => (l :: (printAll k ls).1, (printAll k ls).2)

/-- The loop of /repo/src/cmd/stage.rs:25-39: a change is printed, then reverted and applied. -/
def stageLoopPiped : Nat → List Change → Database → Version → List String × Except CmdFail Version
  | _, [], _, v => ([], .ok v)
  | 0, _ :: _, _, _ => ([], .error .panic)
  | k + 1, c :: cs, s, v =>
    let line := "    " ++ c.renderSql ++ " " ++ "-- " ++ c.displayName
    match c.revert s with
    | .error _ => ([line], .error .panic)
    | .ok r =>
      match c.apply s with
      | .error e => ([line], .error (.error (.snapshot e)))
      | .ok s' =>
        match stageLoopPiped k cs s' (((v.addChange c).addUp c.renderSql).addDown r.renderSql) with
        | (out, x) => (line :: out, x)

/-- /repo/src/cmd/stage.rs:14-41 `stage`. -/
def stagePiped (k fuel : Nat) (defs : Except LoadError Database) (d : HDir) :
    Option (List String × Except CmdFail (List Version)) :=
  match HDir.fromDir fuel d with
  | none => none
  | some (.error e) => some ([], .error (.error (.fs e)))
  | some (.ok _) =>
    match defs with
    | .error e => some ([], .error (.load e))
    | .ok target =>
      match calculateSnapshot fuel d Version.STAGE with
      | none => none
      | some (.error e) => some ([], .error (.error e))
      | some (.ok source) =>
        match d.getVersion Version.STAGE with
        | .error e => some ([], .error (.error (.fs e)))
        | .ok stage =>
          let changes := Diff.compareDiff source target
          -- stage.rs:21-24
          match printAll k ("Staging changes:" ::
              if changes.length == 0 then ["    No changes to stage."] else []) with
          | (out, false) => some (out, .error .panic)
          | (out, true) =>
            match stageLoopPiped (k - out.length) changes source stage with
            | (out', .error e) => some (out ++ out', .error e)
            | (out', .ok stage') => some (out ++ out', .ok [stage'])

/-- /repo/src/cmd/make.rs:13-31 `make`: the name is printed before anything is saved. -/
def makePiped (k fuel : Nat) (stamp : String) (label : Option String) (d : HDir) :
    Option (List String × Except CmdFail (List Version)) :=
  match HDir.fromDir fuel d with
  | none => none
  | some (.error e) => some ([], .error (.error (.fs e)))
  | some (.ok _) =>
    match d.getVersion "stage" with
    | .error e => some ([], .error (.error (.fs e)))
    | .ok toMake =>
      if toMake.isEmpty then
        match printAll k ["Nothing to make. Stage is empty."] with
        | (out, false) => some (out, .error .panic)
        | (out, true) => some (out, .ok [])
      else
        let toMake := { toMake with name := madeName stamp label }
        let newStage := Version.newStage toMake.name
        match printAll k ["Made version: " ++ toMake.name] with
        | (out, false) => some (out, .error .panic)
        | (out, true) => some (out, .ok [toMake, newStage])

/-- The commands on version files; `reset` (/repo/src/cmd/reset.rs:7-19) prints nothing. -/
def HistCmd.piped (k fuel : Nat) : HistCmd → HDir → Option (List String × Except CmdFail (List Version))
  | .init, _ => some ([], .ok [])
  | .stage defs, d => stagePiped k fuel defs d
  | .make stamp label, d => makePiped k fuel stamp label d
  | .reset, d => (resetPlan fuel d).map fun r => ([], r)

namespace Pg

/-- /repo/src/cmd/up.rs:44-47 and down.rs:42-45: a statement is executed, then printed; `none` is a panic. -/
def execPiped {σ : Type} (B : Behaviour σ) : Nat → σ → List String → List String × Option σ
  | _, s, [] => ([], some s)
  | k, s, q :: qs =>
    match B.exec s q with
    | none => ([], none)
    | some s' =>
      match k with
      | 0 => ([], none)
      | k + 1 =>
        match execPiped B k s' qs with
        | (out, x) => (("    " ++ q) :: out, x)

/-- The loop of /repo/src/cmd/up.rs:41-49. -/
def upLoopPiped {σ : Type} (B : Behaviour σ) (d : HDir) :
    Nat → List String → VTable → σ → List String × VTable × σ × Outcome
  | _, [], t, s => ([], t, s, .ok)
  | k, n :: ns, t, s =>
    match d.getVersion n with
    | .error _ => ([], t, s, .error)
    | .ok v =>
      match printAll k ["  Applying version " ++ v.name] with
      | (out, false) => (out, t, s, .panic)
      | (out, true) =>
        match execPiped B (k - 1) s v.up with
        | (out', none) => (out ++ out', t, s, .panic)
        | (out', some s') =>
          match t.insert B v with
          | (t', false) => (out ++ out', t', s', .panic)
          | (t', true) =>
            match upLoopPiped B d (k - 1 - out'.length) ns t' s' with
            | (out'', x) => (out ++ (out' ++ out''), x)

/-- /repo/src/cmd/up.rs:19-53 `up` inside its transaction; the two lines are printed before the versions to apply
are looked for. -/
def upPiped {σ : Type} (B : Behaviour σ) (k fuel : Nat) (d : HDir) (target : Option String) (db : DB σ) :
    Option (List String × DB σ × Outcome) :=
  match HDir.fromDir fuel d with
  | none => none
  | some (.error _) => some ([], db, .error)
  | some (.ok opened) =>
    match ensureInitialized B db with
    | (m, false) => some ([], db.rollback m, .error)
    | (.absent, true) => some ([], db, .error)
    | (.noTable, true) => some ([], db, .error)
    | (.table t, true) =>
      match t.current with
      | none => some ([], db.rollback (.table t), .error)
      | some current =>
        match d.getVersion (target.getD opened.currentVersion) with
        | .error _ => some ([], db.rollback (.table t), .error)
        | .ok to =>
          match printAll k ["On database version: " ++ current.name,
              "Applying upward migrations to " ++ to.name ++ ":"] with
          | (out, false) => some (out, db.rollback (.table t), .panic)
          | (out, true) =>
            match HDir.upwardRange fuel d current.name to.name with
            | none => none
            | some (.error _) => some (out, db.rollback (.table t), .error)
            | some (.ok []) =>
              match printAll (k - 2) ["  No migrations to apply."] with
              | (out', false) => some (out ++ out', db.rollback (.table t), .panic)
              | (out', true) => some (out ++ out', db.rollback (.table t), .ok)
            | some (.ok versions) =>
              match upLoopPiped B d (k - 2) versions t db.data with
              | (out', t', s, .ok) =>
                if B.commits s then some (out ++ out', ⟨.table t', s⟩, .ok)
                else some (out ++ out', db.rollback (.table t'), .error)
              | (out', t', _, o) => some (out ++ out', db.rollback (.table t'), o)

/-- The loop of /repo/src/cmd/down.rs:39-47. -/
def downLoopPiped {σ : Type} (B : Behaviour σ) :
    Nat → List String → VTable → σ → List String × VTable × σ × Outcome
  | _, [], t, s => ([], t, s, .ok)
  | k, n :: ns, t, s =>
    match t.getVersion n with
    | none => ([], t, s, .panic)
    | some v =>
      match printAll k ["  Reverting version " ++ v.name] with
      | (out, false) => (out, t, s, .panic)
      | (out, true) =>
        match execPiped B (k - 1) s v.down with
        | (out', none) => (out ++ out', t, s, .panic)
        | (out', some s') =>
          match t.delete v with
          | none => (out ++ out', t, s', .panic)
          | some t' =>
            match downLoopPiped B (k - 1 - out'.length) ns t' s' with
            | (out'', x) => (out ++ (out' ++ out''), x)

/-- /repo/src/cmd/down.rs:13-52 `down` inside its transaction. -/
def downPiped {σ : Type} (B : Behaviour σ) (k : Nat) (target : Option String) (db : DB σ) :
    List String × DB σ × Outcome :=
  match ensureInitialized B db with
  | (m, false) => ([], db.rollback m, .error)
  | (.absent, true) => ([], db, .error)
  | (.noTable, true) => ([], db, .error)
  | (.table t, true) =>
    match t.current with
    | none => ([], db.rollback (.table t), .error)
    | some current =>
      match printAll k ["On database version: " ++ current.name] with
      | (out, false) => (out, db.rollback (.table t), .panic)
      | (out, true) =>
        match target, current.previous with
        | none, none =>
          match printAll (k - 1) ["No migrations to apply. Already on the init version."] with
          | (out', false) => (out ++ out', db.rollback (.table t), .panic)
          | (out', true) => (out ++ out', db.rollback (.table t), .ok)
        | target, previous =>
          match printAll (k - 1) ["Applying downward migrations to " ++ target.getD (previous.getD "") ++ ":"] with
          | (out', false) => (out ++ out', db.rollback (.table t), .panic)
          | (out', true) =>
            match t.downwardRange current.name (target.getD (previous.getD "")) with
            | none => (out ++ out', db.rollback (.table t), .error)
            | some [] =>
              match printAll (k - 2) ["  No migrations to apply."] with
              | (out'', false) => (out ++ (out' ++ out''), db.rollback (.table t), .panic)
              | (out'', true) => (out ++ (out' ++ out''), db.rollback (.table t), .ok)
            | some versions =>
              match downLoopPiped B (k - 2) versions t db.data with
              | (out'', t', s, .ok) =>
                if B.commits s then (out ++ (out' ++ out''), ⟨.table t', s⟩, .ok)
                else (out ++ (out' ++ out''), db.rollback (.table t'), .error)
              | (out'', t', _, o) => (out ++ (out' ++ out''), db.rollback (.table t'), o)

end Pg

namespace Prog
open Proj

/-- /repo/src/cmd/status.rs:15-55 `status` once the directories are known: everything is read before the first
line is printed, apart from the changes not staged, which are calculated from what was read. -/
def statusPiped {σ : Type} (S : Setting σ) (k fuel : Nat) (w : World σ) (h ds : Path)
    (url metaSchema : String) : Option (List String × Ending) :=
  match HDir.fromDir fuel (w.fs.history h) with
  | none => none
  | some (.error _) => some ([], .error)
  | some (.ok _) =>
    match definitions w.fs ds with
    | .error e => some ([], CmdFail.ending (.load e))
    | .ok target =>
      match (w.fs.history h).getVersion Version.STAGE with
      | .error _ => some ([], .error)
      | .ok stage =>
        match calculateSnapshot fuel (w.fs.history h) Version.STAGE with
        | none => none
        | some (.error e) => some ([], CmdFail.ending (.error e))
        | some (.ok snapshot) =>
          match printAll k (statusLines (tryCurrentVersion S w url metaSchema) stage.changes
              (Diff.compareDiff snapshot target)) with
          | (out, false) => some (out, .panic)
          | (out, true) => some (out, .success)

/-- A history command in a history directory, as `runHist`. -/
def runHistPiped {σ : Type} (k fuel : Nat) (w : World σ) (h : Path) (c : HistCmd) :
    Option (World σ × List String × Ending) :=
  match c.piped k fuel (w.fs.history h) with
  | none => none
  | some (out, .error e) => some (w, out, CmdFail.ending e)
  | some (out, .ok vs) =>
    some (⟨{ w.fs with history := update w.fs.history h ((w.fs.history h).saveAll vs).1 }, w.servers⟩, out,
      if ((w.fs.history h).saveAll vs).2 then .success else .error)

/-- /repo/src/main.rs:72-91 with the commands, as `run`.  Simplified: standard error takes everything. -/
def runPiped {σ : Type} (S : Setting σ) (k fuel : Nat) (w : World σ) (cwd : Path) :
    Args → Option (World σ × List String × Ending)
  | .init =>
    match Proj.init S.env w.fs cwd with
    | (fs, .exists_ base) =>
      -- cmd/init.rs:10-13: before anything is written
      match printAll k ["Project already exists at: " ++ Path.display base] with
      | (out, false) => some ({ w with fs := fs }, out, .panic)
      | (out, true) => some ({ w with fs := fs }, out, .success)
    | (fs, .done) => some ({ w with fs := fs }, [], .success)
    | (fs, .failed) => some ({ w with fs := fs }, [], .error)
    | (fs, .panic) => some ({ w with fs := fs }, [], .panic)
  | .status profile =>
    match discover S.env w.fs cwd with
    | .error _ => some (w, [], .error)
    | .ok p =>
      match p.historyDir DEFAULT_PROFILE, p.definitionsDir DEFAULT_PROFILE, p.databaseUrl profile,
          p.metadataSchema profile with
      | .ok h, .ok ds, .ok url, .ok ms =>
        match statusPiped S k fuel w h ds url ms with
        | none => none
        | some (out, e) => some (w, out, e)
      | _, _, _, _ => some (w, [], .error)
  | .stage profile =>
    match discover S.env w.fs cwd with
    | .error _ => some (w, [], .error)
    | .ok p =>
      match p.historyDir profile, p.definitionsDir profile with
      | .ok h, .ok ds => runHistPiped k fuel w h (.stage (definitions w.fs ds))
      | _, _ => some (w, [], .error)
  | .reset profile =>
    match discover S.env w.fs cwd with
    | .error _ => some (w, [], .error)
    | .ok p =>
      match p.historyDir profile with
      | .ok h => runHistPiped k fuel w h .reset
      | .error _ => some (w, [], .error)
  | .make profile version =>
    match discover S.env w.fs cwd with
    | .error _ => some (w, [], .error)
    | .ok p =>
      match p.historyDir profile with
      | .ok h => runHistPiped k fuel w h (.make S.now version)
      | .error _ => some (w, [], .error)
  | .up profile version =>
    match discover S.env w.fs cwd with
    | .error _ => some (w, [], .error)
    | .ok p =>
      match p.historyDir DEFAULT_PROFILE, p.databaseUrl profile, p.metadataSchema profile with
      | .ok h, .ok url, .ok ms =>
        match w.servers url with
        | none => some (w, [], .error)
        | some s =>
          match openMeta S s ms with
          | none =>
            match HDir.fromDir fuel (w.fs.history h) with
            | none => none
            | some _ => some (w, [], .error)
          | some m =>
            match Pg.upPiped S.B k fuel (w.fs.history h) version ⟨s.metas m, s.data⟩ with
            | none => none
            | some (out, db, o) => some (putServer w url m s db, out, pgEnding o)
      | _, _, _ => some (w, [], .error)
  | .down profile version =>
    match discover S.env w.fs cwd with
    | .error _ => some (w, [], .error)
    | .ok p =>
      match p.databaseUrl profile, p.metadataSchema profile with
      | .ok url, .ok ms =>
        match w.servers url with
        | none => some (w, [], .error)
        | some s =>
          match openMeta S s ms with
          | none => some (w, [], .error)
          | some m =>
            match Pg.downPiped S.B k version ⟨s.metas m, s.data⟩ with
            | (out, db, o) => some (putServer w url m s db, out, pgEnding o)
      | _, _ => some (w, [], .error)
  | .clone => some (w, [], .panic)
  | .print => some (w, [], .panic)
  | .sync _ => some (w, [], .panic)

end Prog
end Podo
