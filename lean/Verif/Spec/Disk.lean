import Verif.Model.Disk
import Verif.Spec.Program
import Verif.Spec.Initial
import Verif.Spec.Life
/-
Words for C101: a disk that refuses or breaks off what is written.
-/
namespace Podo
namespace Prog
open Proj
variable {σ : Type}

/-- The command ends on this disk. -/
def EndsOn (S : Setting σ) (D : Disk) (w : World σ) (cwd : Path) (a : Args) (w' : World σ)
    (out : List String) (e : Ending) : Prop :=
  ∃ fuel, runOn S D fuel w cwd a = some (w', out, e)

/-- All that is written is written. -/
def Disk.fine : Disk := ⟨.done, true, true, fun _ => .done, .done⟩

/-- What a command with a profile is to the history directory of that profile. -/
inductive WorksOn (S : Setting σ) (w : World σ) (q : Profile) (name : String) : Args → HistCmd → Prop where
  | stage : WorksOn S w q name (.stage name) (.stage (definitions w.fs q.definitions))
  | make (label : Option String) : WorksOn S w q name (.make name label) (.make S.now label)
  | reset : WorksOn S w q name (.reset name) .reset

end Prog
end Podo
