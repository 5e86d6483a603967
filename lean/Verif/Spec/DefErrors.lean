import Verif.Spec.Accepts
import Verif.Spec.Panics
import Verif.Model.DdlErrors
/-
What an error about a definition file has to say: which entry is wrong, and what is wrong with it.
-/
namespace Podo
namespace Def

/-- How an entry is called: its word, and its name if it has one, as they stand in the key. -/
def label (n : Node) : String :=
  match n.name with
  | some name => n.kind ++ " " ++ name
  | none => n.kind

/-- What an attribute has to be. -/
inductive Wanted where
  | text | texts | flag | integer

/-- The word for it in messages. -/
def Wanted.word : Wanted → String
  | .text => "string"
  | .texts => "...string"
  | .flag => "boolean"
  | .integer => "integer"

/-- The entry has a value of that sort. -/
def Wanted.isIn : Wanted → Node → Bool
  | .text, m => (textOf m).isSome
  | .texts, m => (textsOf m).isSome
  | .flag, m => (flagOf m).isSome
  | .integer, m => (integerOf m).isSome

/-- An attribute: the word of its key, what it has to be, and whether the key has to have a name. -/
structure Attr where
  word : String
  wanted : Wanted
  named : Bool := false

/-- What is wrong with an entry where these attributes may stand. -/
def attrFault (attrs : List Attr) (m : Node) : Option DefError :=
  match attrs.find? fun a => a.word = m.kind with
  | none => some (.unexpectedNode (label m))
  | some a =>
    if a.named ∧ m.name = none then some (.nameRequired (label m))
    else if a.wanted.isIn m then none
    else some (.invalidTypeAttribute (label m) a.wanted.word)

/-- An attribute that has to be there. -/
def lack (n : Node) (what : String) (given : Bool) : List DefError :=
  if given then [] else [.attributeRequired (label n) what]

/-- What is wrong with a definition: it has no name; there is a value in place of entries; or else all that
is wrong with its entries, in their order, and then what it lacks. -/
def report (n : Node) (fault : Node → Option DefError) (lacking : List DefError) : Option DefError :=
  if n.name = none then some (.nameRequired (label n))
  else
    match inner n with
    | none => some (.childNodesRequired (label n))
    | some ms =>
      match ms.filterMap fault ++ lacking with
      | [] => none
      | es => some (.hasErrors (label n) es)

open Classical in
/-- What is wrong with a column. -/
noncomputable def columnReport (n : Node) : Option DefError :=
  if n.name = none then some (.nameRequired (label n))
  else
    match textOf n with
    | none => some (.invalidTypeAttribute (label n) "string")
    | some text =>
      if ColumnTextAccepted text then none
      else some (.hasErrors (label n) [.invalidTypeExpression text])

/-- The attributes every constraint may have. -/
def constraintFlags : List Attr := [⟨"deferrable", .flag, false⟩, ⟨"initially deferred", .flag, false⟩]

def checkReport (n : Node) : Option DefError :=
  report n (attrFault (⟨"check", .text, false⟩ :: constraintFlags))
    (lack n "expression" (stated n "check" textOf).isSome)

def primaryKeyReport (n : Node) : Option DefError :=
  report n (attrFault (⟨"primary key", .texts, false⟩ :: constraintFlags))
    (lack n "primary key" (stated n "primary key" textsOf).isSome)

/-- The columns a unique constraint is on are those stated last. -/
def uniqueReport (n : Node) : Option DefError :=
  report n (attrFault (⟨"unique", .texts, false⟩ :: constraintFlags))
    (lack n "unique" ((stated n "unique" textsOf).getD [] ≠ []))

/-- The name of a table, with or without its schema: at most one dot. -/
def isTableName (name : String) : Bool := name.toList.count '.' ≤ 1

/-- The target columns an entry `references <table>: <columns>` states. -/
def targetColumnsOf (m : Node) : Option (List String) :=
  match m.name with
  | none => none
  | some name => if isTableName name then textsOf m else none

/-- What is wrong with an entry under a foreign key. -/
def foreignKeyFault (m : Node) : Option DefError :=
  match attrFault ([⟨"foreign key", .texts, false⟩, ⟨"references", .texts, true⟩, ⟨"match", .text, false⟩,
      ⟨"on update", .text, false⟩, ⟨"on delete", .text, false⟩] ++ constraintFlags) m, m.name with
  | some e, _ => some e
  | none, none => none
  | none, some name =>
    if m.kind = "references" ∧ ¬ isTableName name then some (.invalidTableReference name) else none

def foreignKeyReport (n : Node) : Option DefError :=
  report n foreignKeyFault
    (lack n "columns" (stated n "foreign key" textsOf).isSome ++
     lack n "references" ((stated n "references" targetColumnsOf).getD [] ≠ []))

/-- The first entry of a constraint says which sort it is. -/
def constraintReport (n : Node) : Option DefError :=
  match inner n with
  | none => some (.childNodesRequired (label n))
  | some [] => none
  | some (first :: _) =>
    if first.kind = "check" then checkReport n
    else if first.kind = "primary key" then primaryKeyReport n
    else if first.kind = "unique" then uniqueReport n
    else if first.kind = "foreign key" then foreignKeyReport n
    else none

noncomputable def tableReport (n : Node) : Option DefError :=
  report n (fun m => if m.kind = "column" then columnReport m
    else if m.kind = "constraint" then constraintReport m
    else some (.unexpectedNode (label m))) []

def viewReport (n : Node) : Option DefError :=
  report n (attrFault [⟨"as", .text, false⟩]) (lack n "as" (stated n "as" textOf).isSome)

def functionReport (n : Node) : Option DefError :=
  report n (attrFault [⟨"as", .text, false⟩, ⟨"language", .text, false⟩, ⟨"returns", .text, false⟩,
    ⟨"volatility", .text, false⟩]) (lack n "body" (stated n "as" textOf).isSome)

def sequenceReport (n : Node) : Option DefError :=
  report n (attrFault [⟨"as", .text, false⟩, ⟨"increment", .integer, false⟩, ⟨"minvalue", .integer, false⟩,
    ⟨"maxvalue", .integer, false⟩, ⟨"start", .integer, false⟩, ⟨"cache", .integer, false⟩,
    ⟨"cycle", .flag, false⟩, ⟨"owned by", .text, true⟩]) []

/-- What is told about an index: nothing about its entries. -/
def indexReport (n : Node) : Option DefError := report n (fun _ => none) []

noncomputable def schemaReport (n : Node) : Option DefError :=
  report n (fun m => if m.kind = "table" then tableReport m
    else if m.kind = "view" then viewReport m
    else if m.kind = "sequence" then sequenceReport m
    else if m.kind = "index" then indexReport m
    else if m.kind = "function" then functionReport m
    else some (.unexpectedNode (label m))) []

/-- An error is one of those an error consists of. -/
inductive Within (f : DefError) : DefError → Prop
  | self : Within f f
  | inside {label : String} {e : DefError} {es : List DefError} : e ∈ es → Within f e →
      Within f (.hasErrors label es)

/-- A text stands in a message. -/
def StandsIn (part whole : String) : Prop := ∃ before after, whole = before ++ part ++ after

/-- What an error is about: the entry, or the text of the type or reference. -/
def DefError.culprit : DefError → String
  | .unexpectedNode n => n
  | .nameRequired n => n
  | .childNodesRequired n => n
  | .attributeRequired n _ => n
  | .invalidTypeAttribute n _ => n
  | .invalidTypeExpression t => t
  | .invalidTableReference t => t
  | .invalidColumnReference t => t
  | .hasErrors n _ => n

/-- What is lacking or was expected. -/
def DefError.detail : DefError → Option String
  | .attributeRequired _ a => some a
  | .invalidTypeAttribute _ expected => some expected
  | _ => none

/-- What sort of fault it is. -/
def DefError.sort : DefError → Nat
  | .unexpectedNode _ => 0
  | .nameRequired _ => 1
  | .childNodesRequired _ => 2
  | .attributeRequired _ _ => 3
  | .invalidTypeAttribute _ _ => 4
  | .invalidTypeExpression _ => 5
  | .invalidTableReference _ => 6
  | .invalidColumnReference _ => 7
  | .hasErrors _ _ => 8

/-! ### Keys and values -/

/-- What is wrong with an element of a list: the first thing. -/
inductive ElementWrong : Yaml → YamlError → Prop
  | null : ElementWrong .null .invalidValue
  | tagged : ElementWrong .tagged .invalidValue
  | number {i : Int} : ¬ (least ≤ i ∧ i ≤ greatest) → ElementWrong (.num (.integer i)) (.invalidNumber i)
  | list {before : List Yaml} {y : Yaml} {after : List Yaml} {e : YamlError} :
      (∀ x ∈ before, ∃ v, Says x v) → ElementWrong y e → ElementWrong (.seq (before ++ y :: after)) e

/-- What is wrong with a mapping: the first thing, with nothing wrong before it. -/
inductive MappingWrong : List (Option String) → List Yaml → YamlError → Prop
  | notText {v : Yaml} {ks : List (Option String)} {vs : List Yaml} :
      MappingWrong (none :: ks) (v :: vs) .keyNotText
  | key {key : String} {v : Yaml} {ks : List (Option String)} {vs : List Yaml} :
      (∀ kind name, ¬ KeySays key kind name) → ¬ KelvinCheck key →
      MappingWrong (some key :: ks) (v :: vs) (.invalidKey key)
  | value {key kind : String} {name : Option String} {v : Yaml} {ks : List (Option String)} {vs : List Yaml}
      {e : YamlError} : KeySays key kind name → v ≠ .null → ElementWrong v e →
      MappingWrong (some key :: ks) (v :: vs) e
  | inside {key kind : String} {name : Option String} {ks' : List (Option String)} {vs' : List Yaml}
      {ks : List (Option String)} {vs : List Yaml} {e : YamlError} : KeySays key kind name →
      MappingWrong ks' vs' e → MappingWrong (some key :: ks) (.map ks' vs' :: vs) e
  | later {key kind : String} {name : Option String} {v : Yaml} {n : Node} {ks : List (Option String)}
      {vs : List Yaml} {e : YamlError} : KeySays key kind name → NodeSays kind name v n →
      MappingWrong ks vs e → MappingWrong (some key :: ks) (v :: vs) e

end Def
end Podo
