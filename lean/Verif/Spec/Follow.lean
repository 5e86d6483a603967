import Verif.Spec.Commands
import Verif.Spec.Effect
import Verif.Spec.Pg
import Verif.Spec.Sql
/-
Specification for C66 and C67: the schema of the database follows the versions.
-/
namespace Podo
namespace Pg
variable {σ : Type}

/-- What is asked of the server.  `cat x` is the schema of the database in state `x`: its schemas,
relations, columns, constraints and functions.  `free c C` says that a statement for `c`, on a database
with schema `C`, is free of surprises: PostgreSQL reads the types and expressions in it as they are meant,
and it has no effect but the one it names (`DROP TABLE`, for instance, drops the indexes of the table,
too).  A text that says `c` and succeeds then has the effect of `c`. -/
def Obedient (B : Behaviour σ) (cat : σ → Content) (free : Change → Content → Prop) : Prop :=
  ∀ c q x x' C, Says q c → free c (cat x) → Spec.effect c (cat x) = some C → B.exec x q = some x' →
    cat x' = C

/-- Applied one after the other from `s` on, each of the changes is one whose SQL text is right (C56) and
free of surprises. -/
def Plain (free : Change → Content → Prop) (s : Database) (cs : List Change) : Prop :=
  ∀ pre c post s₀, cs = pre ++ c :: post → Change.applyAll pre s = .ok s₀ →
    c.TextRight ∧ (∀ n ∈ c.quotedNames, '"' ∉ n.toList) ∧ free c s₀.content

end Pg
end Podo
