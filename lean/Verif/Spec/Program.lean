import Verif.Model.Program
import Verif.Spec.Pg
import Verif.Spec.Project
import Verif.Spec.Sql
/-
Vocabulary for the properties of the whole program.
-/
namespace Podo
namespace Prog
open Proj
variable {σ : Type}

/-- From `cwd` a project is found, and these are its settings for the profile `name`. -/
def ProfileAt (env : Env) (fs : Fs) (cwd : Path) (name : String) (q : Profile) : Prop :=
  ∃ p, discover env fs cwd = .ok p ∧ p.profile name = .ok q

/-- The command ends: it leaves `w'` behind, prints `out` and ends as `e` says. -/
def Ends (S : Setting σ) (w : World σ) (cwd : Path) (a : Args) (w' : World σ) (out : List String)
    (e : Ending) : Prop :=
  ∃ fuel, run S fuel w cwd a = some (w', out, e)

/-- How PostgreSQL reads a name where a statement has it without quotes around it: a word of ASCII
letters, digits, `_` and `$` stands for the one with lower-case letters, a quoted one for the text within.
Left out: blanks and comments around it, other letters, names of more than 63 bytes. -/
def readSchema (text : String) : Option String :=
  if Pg.bare (text.map Char.toLower) then some (text.map Char.toLower) else Pg.readName text

/-- PostgreSQL reads the name where a statement has it without quotes around it as that very name. -/
def Setting.Reads (S : Setting σ) (metaSchema : String) : Prop := S.ident metaSchema = some metaSchema

/-- The database podo sees with a metadata schema. -/
def Server.db (s : Server σ) (metaSchema : String) : Pg.DB σ := ⟨s.metas metaSchema, s.data⟩

/-- No user of the servers sees a difference. -/
def SameServers (w w' : World σ) : Prop :=
  ∀ url, (w'.servers url = none ↔ w.servers url = none) ∧
    ∀ s s', w.servers url = some s → w'.servers url = some s' →
      ∀ ms, Pg.Unchanged (s.db ms) (s'.db ms)

/-- A part of the output of `status`: a title and the SQL of some changes, nothing if there are none. -/
def section_ (title : String) : List Change → List String
  | [] => []
  | cs => title :: cs.map fun c => "    " ++ c.renderSql

/-- The command that was run, on one profile. -/
def Args.profile? : Args → Option String
  | .status p => some p
  | .stage p => some p
  | .reset p => some p
  | .make p _ => some p
  | .up p _ => some p
  | .down p _ => some p
  | .sync p => some p
  | .init => none
  | .clone => none
  | .print => none

/-- The commands that write version files. -/
def Args.WritesHistory : Args → Prop
  | .stage _ => True
  | .reset _ => True
  | .make _ _ => True
  | _ => False

/-- The commands that write to a database. -/
def Args.WritesDatabase : Args → Prop
  | .up _ _ => True
  | .down _ _ => True
  | _ => False

end Prog
end Podo
