import Verif.Spec.Program
import Verif.Model.Serde
/-
What the property about the output of the commands (C77) says.
-/
namespace Podo
namespace Prog

/-- The SQL a line shows: what follows four blanks. -/
def shownSql (line : String) : Option String :=
  match line.toList with
  | ' ' :: ' ' :: ' ' :: ' ' :: cs => some (String.ofList cs)
  | _ => none

/-- The SQL statements the output shows, in order. -/
def sqlShown (out : List String) : List String := out.filterMap shownSql

/-- A version applied: its name and its up script. -/
def appliedLines (v : Version) : List String :=
  ("  Applying version " ++ v.name) :: v.up.map ("    " ++ ·)

/-- A version reverted: its name and its down script. -/
def revertedLines (v : Version) : List String :=
  ("  Reverting version " ++ v.name) :: v.down.map ("    " ++ ·)

/-- The kind of a change, as the version files name it. -/
def KindOf (c : Change) (kind : String) : Prop :=
  Serde.field Serde.str "type" (Serde.changeDoc c) = some kind

/-- A change staged: its SQL and its kind. -/
def StagedLine (c : Change) (line : String) : Prop :=
  ∃ kind, KindOf c kind ∧ line = "    " ++ c.renderSql ++ " -- " ++ kind

/-- The lines of some changes, one each. -/
inductive StagedLines : List Change → List String → Prop where
  | nil : StagedLines [] []
  | cons {c cs l ls} : StagedLine c l → StagedLines cs ls → StagedLines (c :: cs) (l :: ls)

end Prog
end Podo
