import Verif.Model.Conc
import Verif.Spec.Pg
import Verif.Spec.Commands
/-
What the properties about podo processes running at the same time say.
-/
namespace Podo
namespace Conc

/-- The states that arise from a database podo has never seen, by processes taking their steps in any
order, as long as `ok` holds. -/
inductive Runs (ok : State → Prop) : State → Prop where
  | new : Runs ok State.new
  | step {s s'} : Runs ok s → Step s s' → ok s' → Runs ok s'

/-- Any number of steps. -/
inductive Steps : State → State → Prop where
  | refl {s} : Steps s s
  | step {s s' s''} : Step s s' → Steps s' s'' → Steps s s''

/-- The state of the database `db`, with no process running. -/
structure Idle {σ : Type} (db : Pg.DB σ) (s : State) : Prop where
  procs : ∀ i, s.procs i = none
  tables : match db.metaSchema with
    | .absent => s.table = none
    | .noTable => False
    | .table t => s.table = some t.rows ∧ s.next = t.next

/-- The versions the database records.  Without a metadata schema it counts as being on the initial
version. -/
def State.recorded (s : State) : List Version :=
  match s.table with
  | none => [Version.newInit]
  | some rows => rows.map Pg.Row.version

/-- The scripts, run one after the other on the versions `l`, each fit: a version is applied when its
predecessor is the last one recorded and itself is not recorded, the one reverted is the last one recorded;
`l'` is left recorded. -/
inductive Replay : List Version → List Ran → List Version → Prop where
  | nil {l} : Replay l [] l
  | up {l top v rs l'} : l.getLast? = some top → v.previous = some top.name →
      v.name ∉ l.map Version.name → Replay (l ++ [v]) rs l' → Replay l (.up v :: rs) l'
  | down {l v rs l'} : Replay l rs l' → Replay (l ++ [v]) (.down v :: rs) l'

/-- `up` with the version files `d` and this target may apply `v`: it follows another version, and is on
the predecessor path of the target. -/
def MayApply (d : HDir) (target : Option String) (v : Version) : Prop :=
  ∃ n to, Stored d n v ∧ v.previous ≠ none ∧ OnPath d n to ∧ (target = some to ∨ target = none ∧ Opens d to)

/-- The versions of `L` are on one line: none follows itself, and only one follows each. -/
structure OneLine (L : Version → Prop) : Prop where
  irrefl : ∀ v, L v → v.previous ≠ some v.name
  next : ∀ v w p, L v → L w → v.previous = some p → w.previous = some p → v = w

/-- Every running `up` has version files named after their versions, and may only apply versions of `L`. -/
def UsesOnly (L : Version → Prop) (s : State) : Prop :=
  ∀ i p d target, s.procs i = some p → p.cmd = .up d target →
    NamedAfterVersion d ∧ ∀ v, MayApply d target v → L v

/-- At most one `down` is running. -/
def OneDown (s : State) : Prop :=
  ∀ i j p q t u, s.procs i = some p → s.procs j = some q → p.cmd = .down t → q.cmd = .down u → i = j

/-- No `down` is running. -/
def NoDown (s : State) : Prop := ∀ i p t, s.procs i = some p → p.cmd ≠ .down t

/-- The transaction of process `j` stands in the way of the next statement of process `i`, which waits until
that transaction is over. -/
inductive Waits (s : State) (i j : Nat) : Prop where
  /-- both create the metadata schema -/
  | create {c tx q} : s.procs i = some ⟨c, .start, tx⟩ → j ≠ i → s.procs j = some q → s.table = none →
      q.tx.created = true → Waits s i j
  /-- `i` inserts the row of `v`; `j` inserted or deleted a row of that name, or deleted the row that `v`
  follows -/
  | insert {c v ns tx q} : s.procs i = some ⟨c, .applied v ns, tx⟩ → j ≠ i → s.procs j = some q →
      ((∃ r ∈ q.tx.added, r.version.name = v.name) ∨ v.name ∈ q.tx.removed ∨
        ∃ p, v.previous = some p ∧ p ∈ q.tx.removed) → Waits s i j
  /-- `i` deletes the row of `v`; `j` deleted it, or inserted or deleted a row that follows it -/
  | delete {c v ns tx q} : s.procs i = some ⟨c, .reverted v ns, tx⟩ → j ≠ i → s.procs j = some q →
      (v.name ∈ q.tx.removed ∨ (∃ r ∈ q.tx.added, r.version.previous = some v.name) ∨
        ∃ r ∈ s.rows, r.version.name ∈ q.tx.removed ∧ r.version.previous = some v.name) → Waits s i j

/-- Process `i` waits for one that waits, and so on, for process `k`. -/
inductive WaitsOn (s : State) : Nat → Nat → Prop where
  | one {i j} : Waits s i j → WaitsOn s i j
  | more {i j k} : Waits s i j → WaitsOn s j k → WaitsOn s i k

/-- The process has changed the version table and not committed. -/
def Changes (s : State) (i : Nat) : Prop :=
  ∃ p, s.procs i = some p ∧ (p.tx.added ≠ [] ∨ p.tx.removed ≠ [])

end Conc
end Podo
