import Verif.Model.Project
import Verif.Spec.Commands
/-
Vocabulary for the properties of the configuration and of `init`.
-/
namespace Podo
namespace Proj

/-- A piece of a configuration text: a character that stands for itself, or a reference to a variable,
`$NAME` or `${NAME}`. -/
inductive Piece where
  | char (c : Char)
  | var (name : List Char) (braced : Bool)

/-- How a piece is written. -/
def Piece.text : Piece → List Char
  | .char c => [c]
  | .var n true => '$' :: '{' :: (n ++ ['}'])
  | .var n false => '$' :: n

/-- What a piece stands for. -/
def Piece.value (env : Env) : Piece → List Char
  | .char c => [c]
  | .var n _ => (env.var n).getD []

/-- A non-empty run of word characters. -/
def IsName (word : Char → Bool) (n : List Char) : Prop := n ≠ [] ∧ ∀ c ∈ n, word c = true

/-- The text, behind a dollar sign, makes it a reference. -/
def Refers (word : Char → Bool) (t : List Char) : Prop :=
  ∃ n rest, IsName word n ∧ (t = n ++ rest ∨ t = '{' :: (n ++ '}' :: rest))

/-- The way to read a text as pieces: names are as long as they can be, and a dollar sign stands for
itself only if it does not begin a reference. -/
def Reading (word : Char → Bool) : List Piece → Prop
  | [] => True
  | .char c :: ps => (c = '$' → ¬ Refers word (ps.flatMap Piece.text)) ∧ Reading word ps
  | .var n braced :: ps => IsName word n ∧
      (braced = false → ∀ c, (ps.flatMap Piece.text).head? = some c → word c = false) ∧
      Reading word ps

/-- What a configuration text stands for. -/
def Expands (env : Env) (s t : List Char) : Prop :=
  ∃ ps, Reading env.word ps ∧ ps.flatMap Piece.text = s ∧ ps.flatMap (Piece.value env) = t

/-- Where a path text leads from a directory, one entry after the other.  (`..` is taken as an entry, which
leads on to the directory above; this is left to the file system.) -/
inductive Leads : Path → List Char → Path → Prop
  | here {d} : Leads d [] d
  | slash {d t p} : Leads d t p → Leads d ('/' :: t) p
  | dot {d t p} : (t = [] ∨ t.head? = some '/') → Leads d t p → Leads d ('.' :: t) p
  | entry {d n t p} : n ≠ [] → '/' ∉ n → n ≠ ['.'] → (t = [] ∨ t.head? = some '/') →
      Leads (d ++ [String.ofList n]) t p → Leads d (n ++ t) p

/-- The directory a path text names in the directory `base`. -/
def Names (base : Path) (t : List Char) (p : Path) : Prop :=
  (t.head? = some '/' ∧ Leads [] t p) ∨ (t.head? ≠ some '/' ∧ Leads base t p)

/-- `d` is the directory `cwd` or one above it. -/
def Above (d cwd : Path) : Prop := d <+: cwd

/-- `d` is the directory closest to `cwd`, among it and those above it, with a configuration file. -/
structure Nearest (fs : Fs) (cwd d : Path) : Prop where
  above : Above d cwd
  has : fs.config d ≠ none
  closest : ∀ d', Above d' cwd → fs.config d' ≠ none → Above d' d

end Proj
end Podo
