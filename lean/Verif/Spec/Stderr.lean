import Verif.Model.Stderr
import Verif.Spec.Program
import Verif.Spec.DefErrors
/-
Vocabulary for the property about the messages on standard error (C81).
-/
namespace Podo
namespace Prog
open Proj
variable {σ : Type}

/-- The command ends, and has printed this on standard error (`none`: nothing). -/
def Says (S : Setting σ) (T : Texts) (w : World σ) (cwd : Path) (a : Args) (line : Option String) : Prop :=
  ∃ fuel, run S fuel w cwd a ≠ none ∧ stderr S T fuel w cwd a = line

/-- The command ends with this error. -/
def Reports (S : Setting σ) (w : World σ) (cwd : Path) (a : Args) (r : Report) : Prop :=
  ∃ fuel, report S fuel w cwd a = some r

/-- The profiles a command uses, in the order in which it asks for them. -/
def Args.uses : Args → List String
  | .status p => ["database", p]
  | .stage p => [p]
  | .reset p => [p]
  | .make p _ => [p]
  | .up p _ => ["database", p]
  | .down p _ => [p]
  | .init => []
  | .clone => []
  | .print => []
  | .sync _ => []

/-- The profile whose version files a command reads. -/
def Args.readsHistoryOf : Args → Option String
  | .status _ => some "database"
  | .stage p => some p
  | .reset p => some p
  | .make p _ => some p
  | .up _ _ => some "database"
  | _ => none

/-- The command gets as far as reading version files, those of the profile `q₀`: the profiles it uses are
configured, and `up` can connect. -/
structure StartsOn (S : Setting σ) (w : World σ) (cwd : Path) (a : Args) (q₀ : Profile) : Prop where
  history : ∃ h, a.readsHistoryOf = some h ∧ ProfileAt S.env w.fs cwd h q₀
  profiles : ∀ n ∈ a.uses, ∃ q, ProfileAt S.env w.fs cwd n q
  connects : ∀ n v q, a = .up n v → ProfileAt S.env w.fs cwd n q → w.servers q.databaseUrl ≠ none

/-- A project has a profile of this name. -/
def HasProfile (p : Project) (name : String) : Prop := ∃ q ∈ p.profiles, q.name = name

/-- `n` is the first name in the list that is not the name of a profile. -/
inductive FirstMissing (p : Project) : List String → String → Prop where
  | here {n l} : ¬ HasProfile p n → FirstMissing p (n :: l) n
  | later {m n l} : HasProfile p m → FirstMissing p l n → FirstMissing p (m :: l) n

/-- The profiles and versions an error is about. -/
def Report.about : Report → List String
  | .project (.profileNotFound n) => [n]
  | .history (.branched p a b) => [p, a, b]
  | .history (.unreachable high low) => [high, low]
  | .noMatchingVersion v => [v]
  | _ => []

/-- The errors whose text is podo's own and has nothing but names in it; the directory in the first is always
the root. -/
def Report.Own : Report → Prop
  | .project (.profileNotFound _) => True
  | .project (.projectNotFound dir) => dir = []
  | .history (.branched _ _ _) => True
  | .history (.unreachable _ _) => True
  | .noMatchingVersion _ => True
  | .notInitialized => True
  | _ => False

end Prog
end Podo
