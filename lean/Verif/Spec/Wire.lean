import Verif.Model.Wire
import Verif.Spec.Program
/-!
# Specification: a command on a connection to the server that is lost (C102)
-/
namespace Podo
namespace Prog
open Proj

variable {σ : Type}

/-- The command comes to an end on such a connection, with these files and databases, in this way. -/
def EndsOver (S : Setting σ) (c : Wire) (w : World σ) (cwd : Path) (a : Args) (w' : World σ) (e : Ending) : Prop :=
  ∃ fuel, runOver S c fuel w cwd a = some (w', e)

/-- The commands that change databases. -/
def Migrates (a : Args) : Prop := ∃ name target, a = .up name target ∨ a = .down name target

end Prog
end Podo
