import Verif.Model.Pg
import Verif.Spec.Commands
/-
What the properties about `up` and `down` say.
-/
namespace Podo
namespace Pg
variable {σ : Type}

/-- The statements `qs`, run one after the other, each exactly once and all successfully, lead from
`s` to `s'`. -/
inductive Script (B : Behaviour σ) : σ → List String → σ → Prop where
  | nil {s} : Script B s [] s
  | cons {s q s₁ qs s'} : B.exec s q = some s₁ → Script B s₁ qs s' → Script B s (q :: qs) s'

/-- The versions recorded as applied, in the order they were applied.  A database podo has never
written to counts as being on the initial version. -/
def DB.applied (db : DB σ) : List Version :=
  match db.metaSchema with
  | .absent => [Version.newInit]
  | .noTable => []
  | .table t => t.rows.map Row.version

/-- Nothing a user can see has changed: the data, the recorded versions, and whether the metadata
schema is there. -/
structure Unchanged (db db' : DB σ) : Prop where
  data : db'.data = db.data
  applied : db'.applied = db.applied
  absent : db'.metaSchema = .absent ↔ db.metaSchema = .absent
  noTable : db'.metaSchema = .noTable ↔ db.metaSchema = .noTable

/-- The version table starts at init, each row's predecessor is the row before it, no version occurs
twice, the application order strictly increases, and the next number is larger than all. -/
structure IsChain (t : VTable) : Prop where
  starts : ∃ rest, t.rows.map Row.version = Version.newInit :: rest
  linked : Linked none (t.rows.map Row.version)
  names : (t.rows.map fun r => r.version.name).Nodup
  orders : (t.rows.map Row.order).Pairwise (· < ·)
  next : ∀ r ∈ t.rows, r.order < t.next

/-- The databases that arise from one podo has never seen, by any `up` and `down` commands, failing
ones included, with any history directory whose files are named after their versions, while others
may change the data in between, and commands that died may have used up numbers for the rows. -/
inductive Reach (B : Behaviour σ) : DB σ → Prop where
  | new (s : σ) : Reach B ⟨.absent, s⟩
  | up {db db' : DB σ} {fuel d target o} : Reach B db → NamedAfterVersion d →
      up B fuel d target db = some (db', o) → Reach B db'
  | down {db : DB σ} (target : Option String) : Reach B db → Reach B (down B target db).1
  | elsewhere {db : DB σ} (s : σ) : Reach B db → Reach B ⟨db.metaSchema, s⟩
  | used {db : DB σ} {t : VTable} {n : Nat} : Reach B db → db.metaSchema = .table t → t.next ≤ n →
      Reach B ⟨.table { t with next := n }, db.data⟩

/-- Nothing in the version table stands in the way of recording `ws`: the names fit, none of them is
recorded yet, the rows are acceptable, the numbering is not exhausted, and where the metadata schema is
absent it can be created. -/
structure Recordable (B : Behaviour σ) (db : DB σ) (ws : List Version) : Prop where
  short : ∀ w ∈ ws, w.name.length ≤ 128 ∧ ∀ p, w.previous = some p → p.length ≤ 128
  accepted : ∀ w ∈ ws, B.accepts w = true
  fresh : ((db.applied ++ ws).map Version.name).Nodup
  room : ∀ t, db.metaSchema = .table t → t.next + ws.length ≤ 2147483648
  creates : db.metaSchema = .absent → B.creates db.data = true ∧ B.accepts Version.newInit = true ∧
    ws.length + 2 ≤ 2147483648
  present : db.metaSchema ≠ .noTable

end Pg
end Podo
