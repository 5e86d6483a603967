import Verif.Model.History
/-
What the properties about version files say, without reference to how podo reads them.
-/
namespace Podo

/-- The directory has a file `<n>.yaml` and it holds the version `v`. -/
def Stored (d : HDir) (n : String) (v : Version) : Prop :=
  d.get? (n ++ ".yaml") = some (.file (some v))

/-- `c` is the content of the file `f` of the directory, and `f` is a YAML file. -/
def YamlFile (d : HDir) (f : String) (c : Option Version) : Prop :=
  (f, Entry.file c) ∈ d ∧ ∃ stem, f = stem ++ ".yaml"

/-- Every YAML file holds a version. -/
def AllReadable (d : HDir) : Prop := ∀ f c, YamlFile d f c → ∃ v, c = some v

/-- No entry is called `….yaml.yaml`. -/
def PlainNames (d : HDir) : Prop := ∀ f ∈ d.keys, ∀ stem, f ≠ stem ++ ".yaml.yaml"

/-- Every YAML file is named after the version in it. -/
def NamedAfterVersion (d : HDir) : Prop := ∀ f v, YamlFile d f (some v) → f = v.name ++ ".yaml"

/-- Two different version files name the same predecessor `p`. -/
def Branch (d : HDir) (p a b : String) : Prop :=
  ∃ f g v w, f ≠ g ∧ YamlFile d f (some v) ∧ YamlFile d g (some w) ∧
    v.previous = some p ∧ w.previous = some p ∧ v.name = a ∧ w.name = b

/-- A YAML file holds the version `n` and names `p` as its predecessor. -/
def Follows (d : HDir) (p n : String) : Prop :=
  ∃ f v, YamlFile d f (some v) ∧ v.previous = some p ∧ v.name = n

/-- From `a` one gets to `b` by going from versions to ones that follow them, in any number of steps. -/
inductive LeadsTo (d : HDir) : String → String → Prop where
  | here (a : String) : LeadsTo d a a
  | step {a n b : String} : Follows d a n → LeadsTo d n b → LeadsTo d a b

/-- `l` lists the versions on the predecessor path from `b` back to `a`, oldest first, without
`a`. -/
inductive VersionPath (d : HDir) (a : String) : String → List String → Prop where
  | here {v : Version} : Stored d a v → VersionPath d a a []
  | later {p b : String} {l : List String} {v : Version} : VersionPath d a p l → Stored d b v →
      v.previous = some p → VersionPath d a b (l ++ [b])

/-- `a` occurs on the predecessor path of `b`. -/
def OnPath (d : HDir) (a b : String) : Prop := ∃ l, VersionPath d a b l

/-- Predecessors can be numbered downwards: there is no cycle. -/
def Acyclic (d : HDir) : Prop :=
  ∃ rank : String → Nat, ∀ n v p, Stored d n v → v.previous = some p → rank p < rank n

/-- Each version's predecessor is the one before it in the list; the first has predecessor `p`. -/
def Linked : Option String → List Version → Prop
  | _, [] => True
  | p, v :: rest => v.previous = p ∧ Linked (some v.name) rest

/-- The YAML files of the directory are exactly the files of `init`, of the made versions `vs` on top
of it, and of the stage `st` on top of those. -/
structure IsHistory (d : HDir) (vs : List Version) (st : Version) : Prop where
  nodup : d.NodupKeys
  files : ∀ n e, d.get? (n ++ ".yaml") = some e ↔
    ∃ v ∈ Version.newInit :: (vs ++ [st]), v.name = n ∧ e = .file (some v)
  linked : Linked none (Version.newInit :: (vs ++ [st]))
  names : (("init" :: vs.map Version.name) ++ ["stage"]).Nodup
  stage : st.name = "stage"
  plain : ∀ v ∈ vs, ∀ stem, v.name ≠ stem ++ ".yaml"

end Podo
