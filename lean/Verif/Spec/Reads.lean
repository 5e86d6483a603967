import Verif.Spec.Def
/-
How the YAML of a definition file is to be read, as relations between what is written and what it says.
-/
namespace Podo
namespace Def

/-- A text is an inner text with blanks around it. -/
def Around (outer inner : List Char) : Prop :=
  ∃ a b, outer = a ++ inner ++ b ∧ (∀ c ∈ a, Blank c) ∧ (∀ c ∈ b, Blank c) ∧
    (∀ c, inner.head? = some c → ¬ Blank c) ∧ ∀ c, inner.getLast? = some c → ¬ Blank c

/-- What follows the word of a key: a name with blanks around it, or nothing but blanks. -/
def NameIs (rest : List Char) : Option String → Prop
  | none => ∀ c ∈ rest, Blank c
  | some n => n ≠ "" ∧ Around rest n.toList

/-- A key says a kind and a name: it begins with the word of the kind, in upper or lower case, and with no
longer word, and what follows is the name.  (The second case is an oddity of the program, which takes
the Kelvin sign for a `k` of one byte: then two letters of the word count as the name.) -/
inductive KeySays (key kind : String) (name : Option String) : Prop
  | word (front rest : List Char) : key.toList = front ++ rest → kind ∈ keyWords →
      SameLetters front kind.toList →
      (∀ w ∈ keyWords, StartsWith w key → w.length ≤ kind.length) →
      NameIs rest name → KeySays key kind name
  | kelvin (front : List Char) (e y : Char) (rest : List Char) :
      key.toList = front ++ '\u212a' :: e :: y :: rest →
      ((kind = "foreign key" ∧ SameLetters front "foreign ".toList) ∨
        (kind = "primary key" ∧ SameLetters front "primary ".toList)) →
      SameLetter e 'e' → SameLetter y 'y' → NameIs (e :: y :: rest) name → KeySays key kind name

mutual
/-- A YAML value says a value: a text, a flag, a number (of 64 bits, if it is an integer), a list. -/
inductive Says : Yaml → Value → Prop
  | text (s : String) : Says (.str s) (.string s)
  | flag (b : Bool) : Says (.bool b) (.boolean b)
  | integer (i : Int) : least ≤ i → i ≤ greatest → Says (.num (.integer i)) (.number (.integer i))
  | float (b : Nat) : Says (.num (.float b)) (.number (.float b))
  | list {vs : List Yaml} {ws : List Value} : SaysAll vs ws → Says (.seq vs) (.list ws)
/-- A list of YAML values says a list of values, one by one. -/
inductive SaysAll : List Yaml → List Value → Prop
  | nil : SaysAll [] []
  | cons {v : Yaml} {w : Value} {vs : List Yaml} {ws : List Value} :
      Says v w → SaysAll vs ws → SaysAll (v :: vs) (w :: ws)
end

mutual
/-- What stands under a key of a kind and name says a node: a mapping the nodes inside, nothing no
nodes, and any other value is the value of the node. -/
inductive NodeSays : String → Option String → Yaml → Node → Prop
  | inside {kind : String} {name : Option String} {ks : List (Option String)} {vs : List Yaml}
      {ns : List Node} : MappingSays ks vs ns → NodeSays kind name (.map ks vs) (.branch kind name ns)
  | nothing {kind : String} {name : Option String} : NodeSays kind name .null (.leaf kind name none)
  | value {kind : String} {name : Option String} {y : Yaml} {v : Value} :
      Says y v → NodeSays kind name y (.leaf kind name (some v))
/-- The keys and values of a mapping say nodes, one by one.  (A mapping has as many keys as values, so
that both lists end at once.) -/
inductive MappingSays : List (Option String) → List Yaml → List Node → Prop
  | done {ks : List (Option String)} {vs : List Yaml} : ks = [] ∨ vs = [] → MappingSays ks vs []
  | cons {key kind : String} {name : Option String} {v : Yaml} {n : Node} {ks : List (Option String)}
      {vs : List Yaml} {ns : List Node} : KeySays key kind name → NodeSays kind name v n →
      MappingSays ks vs ns → MappingSays (some key :: ks) (v :: vs) (n :: ns)
end

/-- The file is a mapping that says these nodes. -/
def FileSays (y : Yaml) (ns : List Node) : Prop :=
  ∃ ks vs, y = .map ks vs ∧ MappingSays ks vs ns

end Def
end Podo
