import Verif.Model.Serde
/-
Model of the text in which the changes of a version are kept in the version table: /repo/src/history/dbh.rs:25
`serde_json::to_string(&version.changes)` and dbh.rs:148 `serde_json::from_str(&changes_json)`, with serde_json 1.0.108
(/repo/Cargo.lock:811-812), whose source is not part of /repo.  The column is of the type JSON (dbh.rs:168), which keeps
a text as it is.  Text is written from and read into the trees of values of Model/Serde.
Simplified: numbers with a fraction or an exponent, which are no numbers of 64 bits and which podo never writes, are
errors here already; a text is read whole before its tree is looked at, so the limit on the depth and the rules for
escapes hold within entries that are skipped too, where serde_json is more lenient.
-/
namespace Podo
namespace Json
open Serde (Doc)

/-! ### Writing -/

/-- A digit of a hexadecimal number. -/
def hexDigit (n : Nat) : Char := if n < 10 then Char.ofNat (48 + n) else Char.ofNat (87 + n)

/-- A character within a string, as `serde_json::to_string` writes it (dbh.rs:25). -/
def escape (c : Char) : List Char :=
  if c = '"' then ['\\', '"']
  else if c = '\\' then ['\\', '\\']
  else if c.toNat = 8 then ['\\', 'b']
  else if c.toNat = 9 then ['\\', 't']
  else if c.toNat = 10 then ['\\', 'n']
  else if c.toNat = 12 then ['\\', 'f']
  else if c.toNat = 13 then ['\\', 'r']
  else if c.toNat < 32 then ['\\', 'u', '0', '0', hexDigit (c.toNat / 16), hexDigit (c.toNat % 16)]
  else [c]

/-- A string (dbh.rs:25). -/
def writeStr (s : String) : List Char := '"' :: (s.toList.flatMap escape ++ ['"'])

/-- An integer (dbh.rs:25). -/
def writeInt (i : Int) : List Char :=
  if i < 0 then '-' :: Nat.toDigits 10 i.natAbs else Nat.toDigits 10 i.natAbs

mutual
/-- `serde_json::to_string` (dbh.rs:25). -/
def write : Doc → List Char
  | .null => ['n', 'u', 'l', 'l']
  | .bool true => ['t', 'r', 'u', 'e']
  | .bool false => ['f', 'a', 'l', 's', 'e']
  | .int i => writeInt i
  | .str s => writeStr s
  | .seq ds => '[' :: (writeItems true ds ++ [']'])
  | .map es => '{' :: (writeEntries true es ++ ['}'])
/-- The elements of a sequence, with a comma in front of all but the first (dbh.rs:25). -/
def writeItems : Bool → List Doc → List Char
  | _, [] => []
  | first, d :: ds => (if first then [] else [',']) ++ (write d ++ writeItems false ds)
/-- The entries of a mapping (dbh.rs:25). -/
def writeEntries : Bool → List (String × Doc) → List Char
  | _, [] => []
  | first, e :: es => (if first then [] else [',']) ++ (writeEntry e ++ writeEntries false es)
/-- One entry (dbh.rs:25). -/
def writeEntry : String × Doc → List Char
  | (k, d) => writeStr k ++ ':' :: write d
end

/-! ### Reading -/

/-- Blanks, tabs and ends of lines between the parts are skipped (dbh.rs:148). -/
def isWs (c : Char) : Bool := c = ' ' || c = '\t' || c = '\n' || c = '\r'

/-- (dbh.rs:148) -/
def skipWs (cs : List Char) : List Char := cs.dropWhile isWs

/-- The value of a hexadecimal digit, small or capital (dbh.rs:148). -/
def hexVal (c : Char) : Option Nat :=
  if '0' ≤ c ∧ c ≤ '9' then some (c.toNat - 48)
  else if 'a' ≤ c ∧ c ≤ 'f' then some (c.toNat - 87)
  else if 'A' ≤ c ∧ c ≤ 'F' then some (c.toNat - 55)
  else none

/-- Four hexadecimal digits and the rest (dbh.rs:148). -/
def hex4 : List Char → Option (Nat × List Char)
  | a :: b :: c :: d :: cs =>
    match hexVal a, hexVal b, hexVal c, hexVal d with
    | some a, some b, some c, some d => some (((a * 16 + b) * 16 + c) * 16 + d, cs)
    | _, _, _, _ => none
  | _ => none

/-- What follows a backslash in a string: a character and the rest (dbh.rs:148).  The first half of a pair needs the
second one; the second one cannot stand alone. -/
def readEscape : List Char → Option (Char × List Char)
  | '"' :: cs => some ('"', cs)
  | '\\' :: cs => some ('\\', cs)
  | '/' :: cs => some ('/', cs)
  | 'b' :: cs => some (Char.ofNat 8, cs)
  | 'f' :: cs => some (Char.ofNat 12, cs)
  | 'n' :: cs => some (Char.ofNat 10, cs)
  | 'r' :: cs => some (Char.ofNat 13, cs)
  | 't' :: cs => some (Char.ofNat 9, cs)
  | 'u' :: cs =>
    match hex4 cs with
    | none => none
    | some (n, cs) =>
      if 0xDC00 ≤ n ∧ n ≤ 0xDFFF then none
      else if 0xD800 ≤ n ∧ n ≤ 0xDBFF then
        match cs with
        | '\\' :: 'u' :: cs =>
          match hex4 cs with
          | none => none
          | some (m, cs) =>
            if 0xDC00 ≤ m ∧ m ≤ 0xDFFF then
              some (Char.ofNat (0x10000 + (n - 0xD800) * 0x400 + (m - 0xDC00)), cs)
            else none
        | _ => none
      else some (Char.ofNat n, cs)
  | _ => none

/-- A string after its first quote: its characters and the rest (dbh.rs:148).  `fuel` bounds the number of
characters. -/
def readStr : Nat → List Char → Option (List Char × List Char)
  | 0, _ => none
  | _ + 1, [] => none
  | fuel + 1, c :: cs =>
    if c = '"' then some ([], cs)
    else if c = '\\' then
      match readEscape cs with
      | none => none
      | some (x, cs) =>
        match readStr fuel cs with
        | none => none
        | some (s, cs) => some (x :: s, cs)
    else if c.toNat < 32 then none
    else
      match readStr fuel cs with
      | none => none
      | some (s, cs) => some (c :: s, cs)

/-- The digits of an integer and the rest (dbh.rs:148): no zero in front of other digits. -/
def readNat (cs : List Char) : Option (Nat × List Char) :=
  let ds := cs.takeWhile Char.isDigit
  if ds = [] ∨ (ds.head? = some '0' ∧ ds ≠ ['0']) then none
  else
    match cs.dropWhile Char.isDigit with
    | [] => some (Nat.ofDigitChars 10 ds 0, [])
    | c :: rest =>
      if c = '.' ∨ c = 'e' ∨ c = 'E' then none else some (Nat.ofDigitChars 10 ds 0, c :: rest)

/-- A number (dbh.rs:148).  `-0` is a number with a fraction for serde_json. -/
def readInt : List Char → Option (Int × List Char)
  | '-' :: cs =>
    match readNat cs with
    | some (n + 1, rest) => some (-((n + 1 : Nat) : Int), rest)
    | _ => none
  | cs => (readNat cs).map fun (n, rest) => ((n : Int), rest)

mutual
/-- A value and the rest (dbh.rs:148).  `deep` is how many sequences and mappings may still be opened, plus one; `fuel`
bounds the depth of the recursion. -/
def value : Nat → Nat → List Char → Option (Doc × List Char)
  | 0, _, _ => none
  | fuel + 1, deep, cs =>
    match skipWs cs with
    | 'n' :: 'u' :: 'l' :: 'l' :: cs => some (.null, cs)
    | 't' :: 'r' :: 'u' :: 'e' :: cs => some (.bool true, cs)
    | 'f' :: 'a' :: 'l' :: 's' :: 'e' :: cs => some (.bool false, cs)
    | '"' :: cs => (readStr (cs.length + 1) cs).map fun (s, cs) => (.str (String.ofList s), cs)
    | '[' :: cs =>
      match deep with
      | deep + 2 =>
        match skipWs cs with
        | ']' :: cs => some (.seq [], cs)
        | _ => (items fuel (deep + 1) cs).map fun (ds, cs) => (.seq ds, cs)
      | _ => none
    | '{' :: cs =>
      match deep with
      | deep + 2 =>
        match skipWs cs with
        | '}' :: cs => some (.map [], cs)
        | _ => (entries fuel (deep + 1) cs).map fun (es, cs) => (.map es, cs)
      | _ => none
    | cs => (readInt cs).map fun (i, cs) => (.int i, cs)
/-- The elements of a sequence, at least one, and what follows the closing bracket (dbh.rs:148). -/
def items : Nat → Nat → List Char → Option (List Doc × List Char)
  | 0, _, _ => none
  | fuel + 1, deep, cs =>
    match value fuel deep cs with
    | none => none
    | some (d, cs) =>
      match skipWs cs with
      | ']' :: cs => some ([d], cs)
      | ',' :: cs => (items fuel deep cs).map fun (ds, cs) => (d :: ds, cs)
      | _ => none
/-- The entries of a mapping, at least one, and what follows the closing brace (dbh.rs:148). -/
def entries : Nat → Nat → List Char → Option (List (String × Doc) × List Char)
  | 0, _, _ => none
  | fuel + 1, deep, cs =>
    match skipWs cs with
    | '"' :: cs =>
      match readStr (cs.length + 1) cs with
      | none => none
      | some (k, cs) =>
        match skipWs cs with
        | ':' :: cs =>
          match value fuel deep cs with
          | none => none
          | some (d, cs) =>
            match skipWs cs with
            | '}' :: cs => some ([(String.ofList k, d)], cs)
            | ',' :: cs => (entries fuel deep cs).map fun (es, cs) => ((String.ofList k, d) :: es, cs)
            | _ => none
        | _ => none
    | _ => none
end

/-- /repo/src/history/dbh.rs:25: the changes as text. -/
def changesText (cs : List Change) : String := String.ofList (write (Serde.changesDoc cs))

/-- `serde_json::from_str` (dbh.rs:148), up to the tree: at most 127 sequences and mappings within each other, and
nothing but blanks after the value. -/
def parse (text : String) : Option Doc :=
  match value (2 * text.toList.length + 2) 128 text.toList with
  | some (d, rest) => if skipWs rest = [] then some d else none
  | none => none

/-- /repo/src/history/dbh.rs:148: the changes from the text. -/
def readChanges (text : String) : Option (List Change) := (parse text).bind Serde.changes

end Json
end Podo
