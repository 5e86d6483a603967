import Verif.Model.Commands
/-
Model of several `podo` processes at work on one directory of version files: /repo/src/cmd/stage.rs,
make.rs and reset.rs.  Nothing in /repo/src/history/fsh.rs takes a lock, so the processes may do their
steps in any order.

One step of a process is: listing the directory, reading one file, emptying one file, or writing a piece
of text.  Simplified: a file is read in one step, and the directory listed in one; the first piece written
to a file holds the name and the predecessor of the version.  While two processes write one file at the
same time, all that is known of a version read from it are the name and the predecessor.
-/
namespace Podo
namespace FConc

/-- How far a process has come. -/
inductive Phase where
  /-- started, and the definitions (if they matter) read -/
  | started (c : HistCmd)
  /-- in the loop /repo/src/history/fsh.rs:33-55: entries left, and the map so far -/
  | scanning (c : HistCmd) (left : List (String × Entry)) (nextMap : AMap String)
  /-- the history is open: /repo/src/cmd/stage.rs:14, make.rs:13, reset.rs:12 -/
  | opened (c : HistCmd)
  /-- `stage` in the loop /repo/src/history/fsh.rs:82-96: the version to read, the names so far -/
  | ranging (target : Database) (curr : String) (acc : List String)
  /-- before /repo/src/history/snapshot.rs:8 -/
  | ranged (target : Database) (names : List String)
  /-- in the loop /repo/src/history/snapshot.rs:13-19: names left, and the snapshot so far -/
  | replaying (target : Database) (names : List String) (snapshot : Database)
  /-- the versions still to save: /repo/src/cmd/stage.rs:41, make.rs:30-31, reset.rs:17 -/
  | saving (vs : List Version)
  /-- between /repo/src/history/fsh.rs:104 and 106; `alone`: no other process has emptied the file or
  written to it since -/
  | writing (v : Version) (vs : List Version) (alone : Bool)

/-- The directory, and the processes by number. -/
structure State where
  dir : HDir
  procs : Nat → Option Phase

/-- Process `i` is now at `p`, or gone. -/
def State.put (s : State) (i : Nat) (p : Option Phase) : State :=
  { s with procs := fun j => if j = i then p else s.procs j }

/-- Another process has emptied or written the file of the version `n`. -/
def Phase.disturb (n : String) : Phase → Phase
  | .writing v vs a => .writing v vs (a && v.name != n)
  | p => p

/-- Process `i`, now at `p`, has put `e` into the file of the version `n`. -/
def State.write (s : State) (i : Nat) (p : Phase) (n : String) (e : Option Version) : State :=
  ⟨s.dir.set (n ++ ".yaml") (.file e),
    fun j => if j = i then some p else (s.procs j).map (Phase.disturb n)⟩

/-- No process is running. -/
def idle (d : HDir) : State := ⟨d, fun _ => none⟩

/-- What a file may read as into which a process has written a part of the text of `v`: nothing, or a
version cut short as in `CrashState.cut`, or, where others were writing at the same time, any version that
starts in the same way. -/
def Part (v : Version) (alone : Bool) (e : Option Version) : Prop :=
  ∀ w, e = some w → w.name = v.name ∧ w.previous = v.previous ∧
    (alone = true → v.down ≠ [] ∧ ∃ l, w = { v with down := l })

/-- One step of one process.  `P` says which commands may be started. -/
inductive Step (P : HistCmd → Prop) : State → State → Prop where
  | start {s} (i : Nat) (c : HistCmd) : P c → s.procs i = none →
      Step P s (s.put i (some (.started c)))
  /-- The process has finished, has failed, or dies between two steps. -/
  | leave {s} (i : Nat) : Step P s (s.put i none)
  /-- /repo/src/history/fsh.rs:32 -/
  | list {s} {i : Nat} {c : HistCmd} : s.procs i = some (.started c) →
      Step P s (s.put i (some (.scanning c s.dir [])))
  /-- /repo/src/history/fsh.rs:33-55, once -/
  | scan {s} {i : Nat} {c : HistCmd} {e : String × Entry} {es : List (String × Entry)}
      {nm nm' : AMap String} : s.procs i = some (.scanning c (e :: es) nm) →
      HDir.scan s.dir [e] nm = .ok nm' → Step P s (s.put i (some (.scanning c es nm')))
  /-- /repo/src/history/fsh.rs:57-63 -/
  | opens {s} {i fuel : Nat} {c : HistCmd} {nm : AMap String} {cv : String} :
      s.procs i = some (.scanning c [] nm) → HDir.walk nm fuel "init" Version.INIT = some cv →
      Step P s (s.put i (some (.opened c)))
  /-- /repo/src/history/fsh.rs:79-80 -/
  | ranges {s} {i : Nat} {target : Database} : s.procs i = some (.opened (.stage (.ok target))) →
      Step P s (s.put i (some (.ranging target Version.STAGE [])))
  /-- /repo/src/history/fsh.rs:82-96, once, not at the end -/
  | range {s} {i : Nat} {target : Database} {curr p : String} {acc : List String} {v : Version} :
      s.procs i = some (.ranging target curr acc) → s.dir.getVersion curr = .ok v →
      curr ≠ Version.INIT → v.previous = some p →
      Step P s (s.put i (some (.ranging target p (acc ++ [v.name]))))
  /-- /repo/src/history/fsh.rs:83-86, 97-98 -/
  | ranged {s} {i : Nat} {target : Database} {acc : List String} {v : Version} :
      s.procs i = some (.ranging target Version.INIT acc) → s.dir.getVersion Version.INIT = .ok v →
      Step P s (s.put i (some (.ranged target acc.reverse)))
  /-- /repo/src/history/snapshot.rs:8-12 -/
  | base {s} {i : Nat} {target db : Database} {names : List String} {v : Version} :
      s.procs i = some (.ranged target names) → s.dir.getVersion Version.INIT = .ok v →
      Change.applyAll v.changes Database.new = .ok db →
      Step P s (s.put i (some (.replaying target names db)))
  /-- /repo/src/history/snapshot.rs:13-19, once -/
  | replay {s} {i : Nat} {target db db' : Database} {n : String} {ns : List String} {v : Version} :
      s.procs i = some (.replaying target (n :: ns) db) → s.dir.getVersion n = .ok v →
      Change.applyAll v.changes db = .ok db' →
      Step P s (s.put i (some (.replaying target ns db')))
  /-- /repo/src/cmd/stage.rs:18-39 -/
  | stage {s} {i : Nat} {target source : Database} {v v' : Version} :
      s.procs i = some (.replaying target [] source) →
      s.dir.getVersion Version.STAGE = .ok v →
      stageVersion (Diff.compareDiff source target) source v = .ok v' →
      Step P s (s.put i (some (.saving [v'])))
  /-- /repo/src/cmd/make.rs:15-26 -/
  | make {s} {i : Nat} {stamp : String} {label : Option String} {v : Version} :
      s.procs i = some (.opened (.make stamp label)) → s.dir.getVersion "stage" = .ok v →
      Step P s (s.put i (some (.saving (if v.isEmpty then [] else
        [{ v with name := madeName stamp label }, Version.newStage (madeName stamp label)]))))
  /-- /repo/src/cmd/reset.rs:13-15 -/
  | reset {s} {i : Nat} {v : Version} : s.procs i = some (.opened .reset) →
      s.dir.getVersion Version.STAGE = .ok v → Step P s (s.put i (some (.saving [v.reset])))
  /-- /repo/src/history/fsh.rs:104: the file is created, or emptied -/
  | empty {s} {i : Nat} {v : Version} {vs : List Version} {d : HDir} :
      s.procs i = some (.saving (v :: vs)) → s.dir.save v = some d →
      Step P s ({ s with dir := d }.write i (.writing v vs true) v.name none)
  /-- /repo/src/history/fsh.rs:105: a piece is written, not the last -/
  | piece {s} {i : Nat} {v : Version} {vs : List Version} {a : Bool} {e : Option Version} :
      s.procs i = some (.writing v vs a) → Part v a e →
      Step P s (s.write i (.writing v vs a) v.name e)
  /-- /repo/src/history/fsh.rs:105: the last piece is written, with no other process at this file -/
  | written {s} {i : Nat} {v : Version} {vs : List Version} :
      s.procs i = some (.writing v vs true) → Step P s (s.write i (.saving vs) v.name (some v))
  /-- /repo/src/history/fsh.rs:105: the last piece is written, and others were at this file as well -/
  | mixed {s} {i : Nat} {v : Version} {vs : List Version} {e : Option Version} :
      s.procs i = some (.writing v vs false) → Part v false e →
      Step P s (s.write i (.saving vs) v.name e)
  /-- The system lists the directory in another order. -/
  | relist {s d} : s.dir.Perm d → Step P s { s with dir := d }

/-- Any number of steps, of any number of processes, in any order. -/
inductive Run (P : HistCmd → Prop) : State → State → Prop where
  | refl (s) : Run P s s
  | tail {s t u} : Run P s t → Step P t u → Run P s u

end FConc
end Podo
