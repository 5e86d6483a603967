import Verif.Spec.Pg
import Verif.Spec.AnyNames
/-
Words for C31–C36 with version files of any names and contents: files renamed or edited by hand, so that a
file holds another version than its name says.
-/
namespace Podo
namespace Pg
variable {σ : Type}

/-- The version table starts at init, what a row names as its predecessor is the row itself or was recorded
before it, no version occurs twice, the application order strictly increases, and the next number is larger
than all.  (Unlike `IsChain`, the predecessor need not be the row just before, and there may be none.) -/
structure IsSound (t : VTable) : Prop where
  starts : ∃ rest, t.rows.map Row.version = Version.newInit :: rest
  back : ∀ pre r post, t.rows = pre ++ r :: post → ∀ p, r.version.previous = some p →
    p = r.version.name ∨ ∃ x ∈ pre, x.version.name = p
  names : (t.rows.map fun r => r.version.name).Nodup
  orders : (t.rows.map Row.order).Pairwise (· < ·)
  next : ∀ r ∈ t.rows, r.order < t.next

/-- The databases that arise from one podo has never seen, by any `up` and `down` commands, failing ones
included, with any directory whatever as history, while others may change the data in between, and commands
that died may have used up numbers for the rows. -/
inductive ReachAny (B : Behaviour σ) : DB σ → Prop where
  | new (s : σ) : ReachAny B ⟨.absent, s⟩
  | up {db db' : DB σ} {fuel d target o} : ReachAny B db →
      up B fuel d target db = some (db', o) → ReachAny B db'
  | down {db : DB σ} (target : Option String) : ReachAny B db → ReachAny B (down B target db).1
  | elsewhere {db : DB σ} (s : σ) : ReachAny B db → ReachAny B ⟨db.metaSchema, s⟩
  | used {db : DB σ} {t : VTable} {n : Nat} : ReachAny B db → db.metaSchema = .table t → t.next ≤ n →
      ReachAny B ⟨.table { t with next := n }, db.data⟩

/-- Looking for the files `ns` one after the other, one finds the versions `ws`. -/
inductive Finds (d : HDir) : List String → List Version → Prop where
  | nil : Finds d [] []
  | cons {n : String} {w : Version} {ns : List String} {ws : List Version} :
      Stored d n w → Finds d ns ws → Finds d (n :: ns) (w :: ws)

end Pg
end Podo
