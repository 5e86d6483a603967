import Verif.Model.Stderr
import Verif.Spec.Load
import Verif.Spec.Program
/-
Words for C90: files in podo's directories that are not podo's.
-/
namespace Podo

/-- Two listings have the same entries of the names `Own`, in the same order; before, between and after
them each may have any entries of other names. -/
inductive SameOwn {α : Type} (Own : String → Prop) : AMap α → AMap α → Prop where
  | nil : SameOwn Own [] []
  | both (f : String) (e : α) {l l' : AMap α} : SameOwn Own l l' → SameOwn Own ((f, e) :: l) ((f, e) :: l')
  | left (f : String) (e : α) {l l' : AMap α} : ¬ Own f → SameOwn Own l l' → SameOwn Own ((f, e) :: l) l'
  | right (f : String) (e : α) {l l' : AMap α} : ¬ Own f → SameOwn Own l l' → SameOwn Own l ((f, e) :: l')

/-- A name of an entry of a history directory that podo looks at. -/
def VersionFileName (f : String) : Prop := ∃ stem, f = stem ++ ".yaml"

namespace Prog
open Proj
variable {σ : Type}

/-- The same configuration, databases, version files and definition files.  Other files may differ. -/
structure SameOwnFiles (w w' : World σ) : Prop where
  config : w'.fs.config = w.fs.config
  servers : w'.servers = w.servers
  history : ∀ p, SameOwn VersionFileName (w.fs.history p) (w'.fs.history p)
  definitions : ∀ p, SameOwn YamlName (w.fs.definitions p) (w'.fs.definitions p)

/-- Files that are not podo's are what they were. -/
def OthersKept (w w₁ : World σ) : Prop :=
  (∀ p f, ¬ VersionFileName f → (w₁.fs.history p).get? f = (w.fs.history p).get? f) ∧
    ∀ p f, ¬ YamlName f → (w₁.fs.definitions p).get? f = (w.fs.definitions p).get? f

end Prog
end Podo
