import Verif.Spec.Accepts
/-
Which definition files make the program panic.
-/
namespace Podo
namespace Def

/-- A constraint that does not begin with the sort of constraint it is, or has nothing under it. -/
def ConstraintUnsorted (n : Node) : Prop :=
  ∃ ms, inner n = some ms ∧
    ∀ first rest, ms = first :: rest → first.kind ∉ ["primary key", "unique", "foreign key", "check"]

/-- A table of a schema with such a constraint, or one with nothing wrong but two columns or two
constraints of one name. -/
def TablePanics (schema : String) (n : Node) : Prop :=
  n.kind = "table" ∧ n.name ≠ none ∧ ∃ ms, inner n = some ms ∧
    ((∃ m ∈ ms, m.kind = "constraint" ∧ ConstraintUnsorted m) ∨
     ((∀ m ∈ ms, ColumnAccepted m ∨ ConstraintAccepted schema m) ∧
      ¬ (((childrenOf n "column").map Node.name).Nodup ∧
         ((childrenOf n "constraint").map Node.name).Nodup)))

/-- An index with nothing under it that says what it is on. -/
def IndexPanics (n : Node) : Prop :=
  n.kind = "index" ∧ n.name ≠ none ∧ ∃ ms, inner n = some ms ∧ ∀ m ∈ ms, ¬ (IsTexts "on" m ∧ m.name ≠ none)

/-- A sequence of a type that is not one of the three, without the bound that would be taken from the
type. -/
def SequencePanics (n : Node) : Prop :=
  n.kind = "sequence" ∧ n.name ≠ none ∧ inner n ≠ none ∧
    typeRange ((stated n "as" textOf).getD "int8") = none ∧
    if (stated n "increment" integerOf).getD 1 < 0 then stated n "minvalue" integerOf = none
    else stated n "maxvalue" integerOf = none

/-- Something that is not a schema; or a schema with such a table, index or sequence, or one with nothing
wrong but two relations, or two functions, of one name. -/
def SchemaPanics (n : Node) : Prop :=
  n.kind ≠ "schema" ∨ ∃ name, n.name = some name ∧ ∃ ms, inner n = some ms ∧
    ((∃ m ∈ ms, TablePanics name m ∨ IndexPanics m ∨ SequencePanics m) ∨
     ((∀ m ∈ ms, TableAccepted name m ∨ ViewAccepted m ∨ SequenceAccepted m ∨ IndexAccepted m ∨
        FunctionAccepted m) ∧
      ¬ (((ms.filter fun m => m.kind ≠ "function").map Node.name).Nodup ∧
         ((childrenOf n "function").map Node.name).Nodup)))

/-- A mapping as an element of a list, also of a list in a list, with nothing wrong before it. -/
inductive ElementPanics : Yaml → Prop
  | mapping {ks : List (Option String)} {vs : List Yaml} : ElementPanics (.map ks vs)
  | list {before : List Yaml} {y : Yaml} {after : List Yaml} : (∀ x ∈ before, ∃ v, Says x v) →
      ElementPanics y → ElementPanics (.seq (before ++ y :: after))

/-- A mapping with nothing wrong before the entry at which the program panics: a key that is `check` with a
Kelvin sign, or one under which there is a list with a mapping in it, or a mapping that panics itself. -/
inductive MappingPanics : List (Option String) → List Yaml → Prop
  | key {key : String} {v : Yaml} {ks : List (Option String)} {vs : List Yaml} :
      KelvinCheck key → MappingPanics (some key :: ks) (v :: vs)
  | list {key kind : String} {name : Option String} {ys : List Yaml} {ks : List (Option String)}
      {vs : List Yaml} : KeySays key kind name → ElementPanics (.seq ys) →
      MappingPanics (some key :: ks) (.seq ys :: vs)
  | inside {key kind : String} {name : Option String} {ks' : List (Option String)} {vs' : List Yaml}
      {ks : List (Option String)} {vs : List Yaml} : KeySays key kind name → MappingPanics ks' vs' →
      MappingPanics (some key :: ks) (.map ks' vs' :: vs)
  | later {key kind : String} {name : Option String} {v : Yaml} {n : Node} {ks : List (Option String)}
      {vs : List Yaml} : KeySays key kind name → NodeSays kind name v n → MappingPanics ks vs →
      MappingPanics (some key :: ks) (v :: vs)

/-- A file that panics: while its keys and values are read, or else at one of its parts, where the parts
before it are accepted and do not clash. -/
def FilePanics (y : Yaml) : Prop :=
  (∃ ks vs, y = .map ks vs ∧ MappingPanics ks vs) ∨
  ∃ before n after, FileSays y (before ++ n :: after) ∧ (∀ m ∈ before, SchemaAccepted m) ∧
    before.Pairwise (fun a b => ¬ PartsClash a b) ∧ SchemaPanics n

end Def
end Podo
