import Verif.Model.Serde
/-
Specification for C103: which texts are JSON for which trees of values, after RFC 8259, without numbers that have a
fraction or an exponent (and without `-0`).
-/
namespace Podo
namespace Json
open Serde (Doc)

/-- `ws`: blanks, tabs and ends of lines. -/
def Ws (w : List Char) : Prop := ∀ c ∈ w, c = ' ' ∨ c = '\t' ∨ c = '\n' ∨ c = '\r'

/-- `c` is the hexadecimal digit with the value `n`. -/
def HexDigit (c : Char) (n : Nat) : Prop :=
  (n < 10 ∧ c = Char.ofNat (48 + n)) ∨ (10 ≤ n ∧ n < 16 ∧ (c = Char.ofNat (87 + n) ∨ c = Char.ofNat (55 + n)))

/-- Four hexadecimal digits with this value. -/
inductive Hex4 : Nat → List Char → Prop
  | mk {a b c d : Char} {w x y z : Nat} : HexDigit a w → HexDigit b x → HexDigit c y → HexDigit d z →
      Hex4 (w * 4096 + x * 256 + y * 16 + z) [a, b, c, d]

/-- The escapes of one letter, and what they stand for. -/
inductive Short : Char → Char → Prop
  | quote : Short '"' '"'
  | backslash : Short '\\' '\\'
  | slash : Short '/' '/'
  | backspace : Short 'b' (Char.ofNat 8)
  | formFeed : Short 'f' (Char.ofNat 12)
  | lineFeed : Short 'n' '\n'
  | carriageReturn : Short 'r' '\r'
  | tab : Short 't' '\t'

/-- `*char`: the text of a string between its quotes. -/
inductive StrText : List Char → List Char → Prop
  | nil : StrText [] []
  | plain {c : Char} {s cs : List Char} : 0x20 ≤ c.toNat → c ≠ '"' → c ≠ '\\' → StrText s cs → StrText (c :: s) (c :: cs)
  | short {e c : Char} {s cs : List Char} : Short e c → StrText s cs → StrText (c :: s) ('\\' :: e :: cs)
  | unicode {c : Char} {h s cs : List Char} : Hex4 c.toNat h → StrText s cs → StrText (c :: s) ('\\' :: 'u' :: (h ++ cs))
  | pair {c : Char} {n m : Nat} {h l s cs : List Char} : 0xD800 ≤ n → n ≤ 0xDBFF → 0xDC00 ≤ m → m ≤ 0xDFFF →
      c.toNat = 0x10000 + (n - 0xD800) * 0x400 + (m - 0xDC00) → Hex4 n h → Hex4 m l → StrText s cs →
      StrText (c :: s) ('\\' :: 'u' :: (h ++ '\\' :: 'u' :: (l ++ cs)))

/-- `int`: digits, the first of which is a zero only if it is the only one. -/
def Digits (cs : List Char) : Prop :=
  cs ≠ [] ∧ (∀ c ∈ cs, c.isDigit = true) ∧ (cs.head? = some '0' → cs = ['0'])

/-- What a text can be the text of: a value, the elements of a sequence, the entries of a mapping. -/
inductive Part where
  | value (d : Doc)
  | items (ds : List Doc)
  | entries (es : List (String × Doc))

/-- `cs` is the text of the part, a value without anything around it. -/
inductive Says : Part → List Char → Prop
  | null : Says (.value .null) ['n', 'u', 'l', 'l']
  | true_ : Says (.value (.bool true)) ['t', 'r', 'u', 'e']
  | false_ : Says (.value (.bool false)) ['f', 'a', 'l', 's', 'e']
  | int {cs : List Char} : Digits cs → Says (.value (.int (Nat.ofDigitChars 10 cs 0))) cs
  | minus {cs : List Char} : Digits cs → cs ≠ ['0'] → Says (.value (.int (-(Nat.ofDigitChars 10 cs 0 : Int)))) ('-' :: cs)
  | str {s : String} {cs : List Char} : StrText s.toList cs → Says (.value (.str s)) ('"' :: (cs ++ ['"']))
  | emptySeq {w : List Char} : Ws w → Says (.value (.seq [])) ('[' :: (w ++ [']']))
  | seq {ds : List Doc} {cs : List Char} : Says (.items ds) cs → Says (.value (.seq ds)) ('[' :: (cs ++ [']']))
  | emptyMap {w : List Char} : Ws w → Says (.value (.map [])) ('{' :: (w ++ ['}']))
  | map {es : List (String × Doc)} {cs : List Char} : Says (.entries es) cs →
      Says (.value (.map es)) ('{' :: (cs ++ ['}']))
  | item {d : Doc} {a cs b : List Char} : Ws a → Says (.value d) cs → Ws b → Says (.items [d]) (a ++ (cs ++ b))
  | items {d : Doc} {ds : List Doc} {a cs b cs' : List Char} : Ws a → Says (.value d) cs → Ws b →
      Says (.items ds) cs' → Says (.items (d :: ds)) (a ++ (cs ++ (b ++ ',' :: cs')))
  | entry {k : String} {d : Doc} {a ks b c cs e : List Char} : Ws a → StrText k.toList ks → Ws b → Ws c →
      Says (.value d) cs → Ws e → Says (.entries [(k, d)]) (a ++ '"' :: (ks ++ '"' :: (b ++ ':' :: (c ++ (cs ++ e)))))
  | entries {k : String} {d : Doc} {es : List (String × Doc)} {a ks b c cs e cs' : List Char} : Ws a →
      StrText k.toList ks → Ws b → Ws c → Says (.value d) cs → Ws e → Says (.entries es) cs' →
      Says (.entries ((k, d) :: es)) (a ++ '"' :: (ks ++ '"' :: (b ++ ':' :: (c ++ (cs ++ (e ++ ',' :: cs'))))))

/-- `JSON-text`: a value with blanks around it. -/
def JsonText (d : Doc) (text : String) : Prop :=
  ∃ a cs b, Ws a ∧ Says (.value d) cs ∧ Ws b ∧ text.toList = a ++ (cs ++ b)

mutual
/-- How many sequences and mappings are within each other. -/
def nest : Doc → Nat
  | .seq ds => nestAll ds + 1
  | .map es => nestEntries es + 1
  | _ => 0
def nestAll : List Doc → Nat
  | [] => 0
  | d :: ds => max (nest d) (nestAll ds)
def nestEntries : List (String × Doc) → Nat
  | [] => 0
  | e :: es => max (nestEntry e) (nestEntries es)
def nestEntry : String × Doc → Nat
  | (_, d) => nest d
end

end Json
end Podo
