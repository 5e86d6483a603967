import Verif.Model.FileConc
/-
What the properties about processes on one directory of version files say.
-/
namespace Podo
namespace FConc

/-- Process `i` is in the middle of writing a file. -/
def State.Writing (s : State) (i : Nat) : Prop := ∃ v vs a, s.procs i = some (.writing v vs a)

/-- A step in which no process dies while it is writing, and after which at most one is writing. -/
structure Orderly (s t : State) : Prop where
  alive : ∀ i, s.Writing i → t.procs i ≠ none
  one : ∀ i j, t.Writing i → t.Writing j → i = j

/-- Any number of such steps. -/
inductive OrderlyRun (P : HistCmd → Prop) : State → State → Prop where
  | refl (s) : OrderlyRun P s s
  | tail {s t u} : OrderlyRun P s t → Step P t u → Orderly t u → OrderlyRun P s u

end FConc

/-- The command does not make a version. -/
def NoMake (c : HistCmd) : Prop := ∀ stamp label, c ≠ .make stamp label

end Podo
