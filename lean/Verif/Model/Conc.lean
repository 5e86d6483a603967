import Verif.Model.Pg
/-
Model of several podo processes running `up` (/repo/src/cmd/up.rs) and `down` (/repo/src/cmd/down.rs)
on one database at the same time.  Each process works in one transaction at the isolation level
`READ COMMITTED`, PostgreSQL's default, which podo does not change (up.rs:17, down.rs:14); a step is one
statement.  What PostgreSQL does with the version table (/repo/src/history/dbh.rs:163-176) is modelled: a
statement sees what is committed and what its own transaction did; a statement that another transaction
stands in the way of waits until that one is over.

Of the scripts, only the fact that they were run is kept: each run takes effect when its transaction
commits.  Failing — an error, a panic, a crash, a lost connection, a deadlock — and leaving without commit
is possible at any point (`Step.leave`), so that the other steps are those of statements that succeed.
Simplified: the version files do not change while a process runs; the scripts do not touch the metadata
schema; the metadata schema is not there without its table.
-/
namespace Podo
namespace Conc
open Pg (Row VTable)

/-- A command with what it works on; `d` are the version files of the process. -/
inductive Cmd where
  | up (d : HDir) (target : Option String)
  | down (target : Option String)

/-- A script of a version was run: `up` (up.rs:44-47) or `down` (down.rs:42-45). -/
inductive Ran where
  | up (v : Version)
  | down (v : Version)
deriving DecidableEq, Repr

/-- What a transaction did that is not committed: whether it created the metadata schema, the rows it
inserted, the names of the rows it deleted, the scripts it ran. -/
structure Tx where
  created : Bool
  added : List Row
  removed : List String
  ran : List Ran

/-- Where a process is. -/
inductive Pc where
  /-- before up.rs:22, down.rs:17 -/
  | start
  /-- before up.rs:24, down.rs:19 -/
  | opened
  /-- at the head of the loop up.rs:41, with the versions left -/
  | applying (names : List String)
  /-- before up.rs:48 -/
  | applied (v : Version) (names : List String)
  /-- before dbh.rs:80 (down.rs:32), with the current version -/
  | current (v : Version)
  /-- before dbh.rs:81, with the order of the current version and the target -/
  | ordered (f : Nat) (to : String)
  /-- before dbh.rs:90, with both orders -/
  | bounded (f o : Nat)
  /-- at the head of the loop down.rs:39, with the versions left -/
  | reverting (names : List String)
  /-- before down.rs:46 -/
  | reverted (v : Version) (names : List String)
deriving DecidableEq, Repr

/-- A running process. -/
structure Proc where
  cmd : Cmd
  pc : Pc
  tx : Tx

/-- The database and the processes: the committed version table (`none`: there is no metadata schema),
the next value of the sequence behind `applied_order`, the scripts whose effects are committed, in the order
of the commits, and the processes. -/
structure State where
  table : Option (List Row)
  next : Nat
  log : List Ran
  procs : Nat → Option Proc

/-- The committed rows. -/
def State.rows (s : State) : List Row := s.table.getD []

/-- The version table as a transaction sees it. -/
def State.seen (s : State) (tx : Tx) : VTable :=
  ⟨(s.rows.filter fun r => !tx.removed.contains r.version.name) ++ tx.added, s.next⟩

/-- A process moves on. -/
def State.put (s : State) (i : Nat) (p : Option Proc) : State :=
  { s with procs := fun j => if j = i then p else s.procs j }

/-- No transaction but that of process `i` stands in the way of `ok`. -/
def State.free (s : State) (i : Nat) (ok : Tx → Prop) : Prop :=
  ∀ j q, j ≠ i → s.procs j = some q → ok q.tx

/-- /repo/src/history/dbh.rs:90-102 and 195-200: the names of the rows with an order at most `f` and above
`o`, newest first. -/
def between (t : VTable) (f o : Nat) : List String :=
  ((t.rows.filter fun r => decide (f ≥ r.order) && decide (r.order > o)).mergeSort
    (fun a b => decide (b.order ≤ a.order))).map fun r => r.version.name

/-- One statement of one process. -/
inductive Step : State → State → Prop where
  /-- a command is started -/
  | begin {s} (i : Nat) (c : Cmd) : s.procs i = none →
      Step s (s.put i (some ⟨c, .start, ⟨false, [], [], []⟩⟩))
  /-- a process ends without commit -/
  | leave {s} (i : Nat) : Step s (s.put i none)
  /-- dbh.rs:104-116: the metadata schema is created; another transaction creating it is waited for -/
  | create {s} (i : Nat) {c tx} : s.procs i = some ⟨c, .start, tx⟩ → s.table = none →
      s.free i (fun o => o.created = false) →
      Step s { s.put i (some ⟨c, .opened, ⟨true, [⟨Version.newInit, 1⟩], [], []⟩⟩) with next := 2 }
  /-- dbh.rs:104-109: the metadata schema is there -/
  | exists_ {s} (i : Nat) {c tx rows} : s.procs i = some ⟨c, .start, tx⟩ → s.table = some rows →
      Step s (s.put i (some ⟨c, .opened, tx⟩))
  /-- up.rs:24-39: the versions to apply -/
  | plan {s} (i : Nat) {d target tx current opened to names} {fuel : Nat} :
      s.procs i = some ⟨.up d target, .opened, tx⟩ →
      (s.seen tx).current = some current → HDir.fromDir fuel d = some (.ok opened) →
      d.getVersion (target.getD opened.currentVersion) = .ok to →
      d.upwardRange fuel current.name to.name = some (.ok names) → names ≠ [] →
      Step s (s.put i (some ⟨.up d target, .applying names, tx⟩))
  /-- up.rs:42-47: a script is run -/
  | runUp {s} (i : Nat) {d target tx n ns v} :
      s.procs i = some ⟨.up d target, .applying (n :: ns), tx⟩ → d.getVersion n = .ok v →
      Step s (s.put i (some ⟨.up d target, .applied v ns, { tx with ran := tx.ran ++ [.up v] }⟩))
  /-- up.rs:48, dbh.rs:20-38: the row is inserted.  Waited for: transactions that inserted or deleted a
  row of that name (primary key), or deleted the row of its predecessor (foreign key). -/
  | saveUp {s} (i : Nat) {c tx v ns} : s.procs i = some ⟨c, .applied v ns, tx⟩ →
      s.free i (fun o => v.name ∉ o.added.map (fun r => r.version.name) ∧ v.name ∉ o.removed ∧
        ∀ p, v.previous = some p → p ∉ o.removed) →
      (s.seen tx).admits v = true → s.next ≤ Pg.maxOrder →
      Step s { s.put i (some ⟨c, .applying ns, { tx with added := tx.added ++ [⟨v, s.next⟩] }⟩) with
        next := s.next + 1 }
  /-- up.rs:48: the row is refused and the process panics; a sequence does not go back -/
  | refused {s} (i : Nat) {c tx v ns} : s.procs i = some ⟨c, .applied v ns, tx⟩ →
      Step s { s.put i none with next := s.next + 1 }
  /-- up.rs:51: commit -/
  | commitUp {s} (i : Nat) {c tx} : s.procs i = some ⟨c, .applying [], tx⟩ →
      Step s { s.put i none with table := some (s.seen tx).rows, log := s.log ++ tx.ran }
  /-- down.rs:19-25: the current version is read -/
  | readCurrent {s} (i : Nat) {target tx current} :
      s.procs i = some ⟨.down target, .opened, tx⟩ → (s.seen tx).current = some current →
      (target ≠ none ∨ current.previous ≠ none) →
      Step s (s.put i (some ⟨.down target, .current current, tx⟩))
  /-- dbh.rs:80 -/
  | orderFrom {s} (i : Nat) {target tx current f} :
      s.procs i = some ⟨.down target, .current current, tx⟩ →
      (s.seen tx).order current.name = some f →
      Step s (s.put i (some ⟨.down target, .ordered f (target.getD (current.previous.getD "")), tx⟩))
  /-- dbh.rs:81-88 -/
  | orderTo {s} (i : Nat) {c tx f to o} : s.procs i = some ⟨c, .ordered f to, tx⟩ →
      (s.seen tx).order to = some o → Step s (s.put i (some ⟨c, .bounded f o, tx⟩))
  /-- dbh.rs:90-102, down.rs:34-37: the versions to revert -/
  | range {s} (i : Nat) {c tx f o} : s.procs i = some ⟨c, .bounded f o, tx⟩ →
      between (s.seen tx) f o ≠ [] →
      Step s (s.put i (some ⟨c, .reverting (between (s.seen tx) f o), tx⟩))
  /-- down.rs:40-45: a version is read and its script run -/
  | runDown {s} (i : Nat) {c tx n ns v} : s.procs i = some ⟨c, .reverting (n :: ns), tx⟩ →
      (s.seen tx).getVersion n = some v →
      Step s (s.put i (some ⟨c, .reverted v ns, { tx with ran := tx.ran ++ [.down v] }⟩))
  /-- down.rs:46, dbh.rs:40-50: the row is deleted, if it is there.  Waited for: transactions that deleted
  it, that inserted a row following it, or that deleted a row following it (foreign key). -/
  | deleteDown {s} (i : Nat) {c tx v ns} : s.procs i = some ⟨c, .reverted v ns, tx⟩ →
      s.free i (fun o => v.name ∉ o.removed ∧ (∀ r ∈ o.added, r.version.previous ≠ some v.name) ∧
        ∀ r ∈ s.rows, r.version.name ∈ o.removed → r.version.previous ≠ some v.name) →
      (∃ t, (s.seen tx).delete v = some t) →
      Step s (s.put i (some ⟨c, .reverting ns, { tx with
        added := tx.added.filter fun r => r.version.name != v.name,
        removed := if s.rows.any (fun r => r.version.name == v.name) then v.name :: tx.removed
          else tx.removed }⟩))
  /-- down.rs:49: commit -/
  | commitDown {s} (i : Nat) {c tx} : s.procs i = some ⟨c, .reverting [], tx⟩ →
      Step s { s.put i none with table := some (s.seen tx).rows, log := s.log ++ tx.ran }

/-- A database podo has never seen. -/
def State.new : State := ⟨none, 1, [], fun _ => none⟩

end Conc
end Podo
