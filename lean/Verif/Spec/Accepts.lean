import Verif.Spec.Reads
/-
Which definitions are accepted: what each sort of definition must have, and may have, under it.
-/
namespace Podo
namespace Def

/-- A column text that is accepted: a type, which is not empty and has no `=` or `!` in it; an exclamation
mark or not; then nothing, or an equals sign with any blanks around and a default of one line. -/
def ColumnTextAccepted (text : String) : Prop :=
  ∃ ty bang rest : List Char, text.toList = ty ++ bang ++ rest ∧ ty ≠ [] ∧
    (∀ c ∈ ty, c ≠ '=' ∧ c ≠ '!') ∧ (bang = [] ∨ bang = ['!']) ∧
    (rest = [] ∨ ∃ blanks blanks' line, rest = blanks ++ '=' :: (blanks' ++ line) ∧
      (∀ c ∈ blanks, Blank c) ∧ (∀ c ∈ blanks', Blank c) ∧ line ≠ [] ∧ '\n' ∉ line)

/-- `column <name>: <text>`. -/
def ColumnAccepted (n : Node) : Prop :=
  n.kind = "column" ∧ n.name ≠ none ∧ ∃ text, textOf n = some text ∧ ColumnTextAccepted text

/-- A child is one of the attributes, with a value of the right sort. -/
def IsText (kind : String) (m : Node) : Prop := m.kind = kind ∧ textOf m ≠ none
def IsTexts (kind : String) (m : Node) : Prop := m.kind = kind ∧ textsOf m ≠ none
def IsFlag (kind : String) (m : Node) : Prop := m.kind = kind ∧ flagOf m ≠ none
def IsInteger (kind : String) (m : Node) : Prop := m.kind = kind ∧ integerOf m ≠ none

/-- The two flags every constraint may have. -/
def IsConstraintFlag (m : Node) : Prop := IsFlag "deferrable" m ∨ IsFlag "initially deferred" m

/-- `references <table>: <columns>` in a schema. -/
def IsReference (schema : String) (m : Node) : Prop :=
  m.kind = "references" ∧ textsOf m ≠ none ∧ ∃ name s t, m.name = some name ∧ RefersTo schema name s t

/-- `constraint <name>:` with the sort of constraint first and then only attributes of that sort.  A
unique constraint is on some column; a foreign key has a target with some column. -/
def ConstraintAccepted (schema : String) (n : Node) : Prop :=
  n.kind = "constraint" ∧ n.name ≠ none ∧ ∃ first rest, inner n = some (first :: rest) ∧
    ((first.kind = "primary key" ∧
        ∀ m ∈ first :: rest, IsTexts "primary key" m ∨ IsConstraintFlag m) ∨
     (first.kind = "unique" ∧ (∀ m ∈ first :: rest, IsTexts "unique" m ∨ IsConstraintFlag m) ∧
        stated n "unique" textsOf ≠ some []) ∨
     (first.kind = "check" ∧ ∀ m ∈ first :: rest, IsText "check" m ∨ IsConstraintFlag m) ∨
     (first.kind = "foreign key" ∧
        (∀ m ∈ first :: rest, IsTexts "foreign key" m ∨ IsReference schema m ∨ IsConstraintFlag m ∨
          IsText "match" m ∨ IsText "on update" m ∨ IsText "on delete" m) ∧
        ∃ cols, stated n "references" textsOf = some cols ∧ cols ≠ []))

/-- `table <name>:` with columns and constraints of different names, or with nothing. -/
def TableAccepted (schema : String) (n : Node) : Prop :=
  n.kind = "table" ∧ n.name ≠ none ∧ ∃ ms, inner n = some ms ∧
    (∀ m ∈ ms, ColumnAccepted m ∨ ConstraintAccepted schema m) ∧
    ((childrenOf n "column").map Node.name).Nodup ∧ ((childrenOf n "constraint").map Node.name).Nodup

/-- `view <name>:` with a query. -/
def ViewAccepted (n : Node) : Prop :=
  n.kind = "view" ∧ n.name ≠ none ∧ ∃ ms, inner n = some ms ∧ ms ≠ [] ∧ ∀ m ∈ ms, IsText "as" m

/-- `index <name>:` with the table and columns it is on.  Whatever else stands there is ignored. -/
def IndexAccepted (n : Node) : Prop :=
  n.kind = "index" ∧ n.name ≠ none ∧ ∃ ms, inner n = some ms ∧ ∃ m ∈ ms, IsTexts "on" m ∧ m.name ≠ none

/-- `function <name>:` with a body. -/
def FunctionAccepted (n : Node) : Prop :=
  n.kind = "function" ∧ n.name ≠ none ∧ ∃ ms, inner n = some ms ∧
    (∀ m ∈ ms, IsText "as" m ∨ IsText "language" m ∨ IsText "returns" m ∨ IsText "volatility" m) ∧
    ∃ m ∈ ms, m.kind = "as"

/-- `sequence <name>:`.  A type that is not one of the three needs the bound that is otherwise taken from
the type. -/
def SequenceAccepted (n : Node) : Prop :=
  n.kind = "sequence" ∧ n.name ≠ none ∧ ∃ ms, inner n = some ms ∧
    (∀ m ∈ ms, IsText "as" m ∨ IsInteger "increment" m ∨ IsInteger "minvalue" m ∨
      IsInteger "maxvalue" m ∨ IsInteger "start" m ∨ IsInteger "cache" m ∨ IsFlag "cycle" m ∨
      (IsText "owned by" m ∧ m.name ≠ none)) ∧
    (typeRange ((stated n "as" textOf).getD "int8") ≠ none ∨
      if (stated n "increment" integerOf).getD 1 < 0 then stated n "minvalue" integerOf ≠ none
      else stated n "maxvalue" integerOf ≠ none)

/-- `schema <name>:` with definitions, the relations of different names, and the functions too. -/
def SchemaAccepted (n : Node) : Prop :=
  n.kind = "schema" ∧ ∃ name, n.name = some name ∧ ∃ ms, inner n = some ms ∧
    (∀ m ∈ ms, TableAccepted name m ∨ ViewAccepted m ∨ SequenceAccepted m ∨ IndexAccepted m ∨
      FunctionAccepted m) ∧
    ((ms.filter fun m => m.kind ≠ "function").map Node.name).Nodup ∧
    ((childrenOf n "function").map Node.name).Nodup

/-- Two parts of files define the same relation, or the same function, of one schema. -/
def PartsClash (a b : Node) : Prop :=
  a.name = b.name ∧ ∃ as bs x y, inner a = some as ∧ inner b = some bs ∧ x ∈ as ∧ y ∈ bs ∧
    x.name = y.name ∧ (x.kind = "function" ↔ y.kind = "function")

end Def
end Podo
