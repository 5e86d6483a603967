import Verif.Model.Pipe
import Verif.Spec.Program
/-
Vocabulary for the property about standard outputs that stop taking lines (C100).
-/
namespace Podo
namespace Prog
open Proj
variable {σ : Type}

/-- The command ends on a standard output that takes `k` lines and no more: it leaves `w'` behind, `out` is what
was taken, and it ends as `e` says. -/
def EndsPiped (S : Setting σ) (k : Nat) (w : World σ) (cwd : Path) (a : Args) (w' : World σ)
    (out : List String) (e : Ending) : Prop :=
  ∃ fuel, runPiped S k fuel w cwd a = some (w', out, e)

end Prog
end Podo
