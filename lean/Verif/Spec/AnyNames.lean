import Verif.Spec.History
/-
Words for C20, C21 and C22 with files of any names and contents: what podo reads when it comes to a file
`<something>.yaml.yaml`, and ranges where files are not named after their versions.
-/
namespace Podo

/-- The name `f` is `stem` with `.yaml` behind it once or more often, and `stem` does not end in `.yaml`. -/
inductive Base : String → String → Prop where
  | once {stem : String} : (∀ s, stem ≠ s ++ ".yaml") → Base (stem ++ ".yaml") stem
  | more {f stem : String} : Base f stem → Base (f ++ ".yaml") stem

/-- Coming to the YAML file `f`, podo reads `c` (`none`: nothing that is a version): what is in the file named after
`f` with all `.yaml` at its end but one taken away. -/
def ReadAt (d : HDir) (f : String) (c : Option Version) : Prop :=
  (∃ own, YamlFile d f own) ∧ ∃ stem, Base f stem ∧
    ((∃ v, c = some v ∧ Stored d stem v) ∨ c = none ∧ ¬ ∃ v, Stored d stem v)

/-- At every YAML file a version is read. -/
def AllRead (d : HDir) : Prop := ∀ f c, ReadAt d f c → ∃ v, c = some v

/-- At two different YAML files versions with the same predecessor `p` are read. -/
def BranchRead (d : HDir) (p a b : String) : Prop :=
  ∃ f g v w, f ≠ g ∧ ReadAt d f (some v) ∧ ReadAt d g (some w) ∧
    v.previous = some p ∧ w.previous = some p ∧ v.name = a ∧ w.name = b

/-- At a YAML file the version `n` is read, and it names `p` as its predecessor. -/
def FollowsRead (d : HDir) (p n : String) : Prop :=
  ∃ f v, ReadAt d f (some v) ∧ v.previous = some p ∧ v.name = n

/-- From `a` one gets to `b` by going from versions to ones that follow them, in any number of steps. -/
inductive LeadsRead (d : HDir) : String → String → Prop where
  | here (a : String) : LeadsRead d a a
  | step {a n b : String} : FollowsRead d a n → LeadsRead d n b → LeadsRead d a b

/-- `l` lists the names given in the version files one comes to when going from `b` from predecessor to predecessor
until `a` is reached for the first time, oldest first, without that of `a`. -/
inductive NamesBack (d : HDir) (a : String) : String → List String → Prop where
  | here {v : Version} : Stored d a v → NamesBack d a a []
  | later {p b : String} {l : List String} {v : Version} : b ≠ a → NamesBack d a p l → Stored d b v →
      v.previous = some p → NamesBack d a b (l ++ [v.name])

end Podo
