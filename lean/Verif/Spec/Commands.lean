import Verif.Model.Commands
import Verif.Spec.History
/-
What the properties about the history commands say.
-/
namespace Podo

/-- `rs` are the changes that revert the changes `cs`, one each in the same order, when `cs` is applied
to `s`, and `s'` is the outcome. -/
inductive TakenFrom : List Change → Database → List Change → Database → Prop where
  | nil {s} : TakenFrom [] s [] s
  | cons {c cs s r s₁ rs s'} : c.revert s = .ok r → c.apply s = .ok s₁ → TakenFrom cs s₁ rs s' →
      TakenFrom (c :: cs) s (r :: rs) s'

/-- The directory has no version file of that name yet, and the name does not end in `.yaml`. -/
def FreshName (d : HDir) (n : String) : Prop :=
  d.get? (n ++ ".yaml") = none ∧ ∀ stem, n ≠ stem ++ ".yaml"

/-- The directories that arise from a new project by any commands, failing ones included, where
`make` is given names that are free; the system may list a directory in any order at any time. -/
inductive Reachable : HDir → Prop where
  | init : Reachable initDir
  | relisted {d d' : HDir} : Reachable d → d.Perm d' → Reachable d'
  | step {d d' : HDir} {fuel : Nat} {c : HistCmd} {ok : Bool} : Reachable d →
      (∀ stamp label, c = .make stamp label → FreshName d (madeName stamp label)) →
      c.exec fuel d = some (d', ok) → Reachable d'

/-- From one directory to a later one by such commands. -/
inductive Later : HDir → HDir → Prop where
  | refl (d : HDir) : Later d d
  | relisted {d d₁ d' : HDir} : Later d d₁ → d₁.Perm d' → Later d d'
  | step {d d₁ d' : HDir} {fuel : Nat} {c : HistCmd} {ok : Bool} : Later d d₁ →
      (∀ stamp label, c = .make stamp label → FreshName d₁ (madeName stamp label)) →
      c.exec fuel d₁ = some (d', ok) → Later d d'

/-- From one directory to a later one by any commands, where the names given to `make` are of versions
that are not there (whatever they end in), and where commands may die while they save. -/
inductive LaterAny : HDir → HDir → Prop where
  | refl (d : HDir) : LaterAny d d
  | relisted {d d₁ d' : HDir} : LaterAny d d₁ → d₁.Perm d' → LaterAny d d'
  | step {d d₁ d' : HDir} {fuel : Nat} {c : HistCmd} {ok : Bool} : LaterAny d d₁ →
      (∀ stamp label, c = .make stamp label → d₁.get? (madeName stamp label ++ ".yaml") = none) →
      c.exec fuel d₁ = some (d', ok) → LaterAny d d'
  | crash {d d₁ d' : HDir} {fuel : Nat} {c : HistCmd} {vs : List Version} : LaterAny d d₁ →
      (∀ stamp label, c = .make stamp label → d₁.get? (madeName stamp label ++ ".yaml") = none) →
      c.plan fuel d₁ = some (.ok vs) → CrashState d₁ vs d' → LaterAny d d'

/-- A command, started on `d`, ends and leaves `d'` behind, reporting success or not. -/
def Runs (c : HistCmd) (d : HDir) (d' : HDir) (ok : Bool) : Prop :=
  ∃ fuel, c.exec fuel d = some (d', ok)

/-- The history opens, and the current version is `cv`. -/
def Opens (d : HDir) (cv : String) : Prop :=
  ∃ fuel nm, HDir.fromDir fuel d = some (.ok ⟨nm, cv⟩)

/-- The history fails to open. -/
def FailsToOpen (d : HDir) : Prop := ∃ fuel e, HDir.fromDir fuel d = some (.error e)

/-- The snapshot calculated for a version. -/
def SnapshotOf (d : HDir) (n : String) (s : Database) : Prop :=
  ∃ fuel, calculateSnapshot fuel d n = some (.ok s)

end Podo
