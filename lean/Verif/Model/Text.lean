/-
The string operations of the Rust standard library and the `regex` crate that the definition files
and the configuration are read with, on lists of characters.
-/
namespace Podo
namespace Text

/-- `char::is_whitespace`, which is also what `\s` means in the `regex` crate: the Unicode property
White_Space. -/
def isWs (c : Char) : Bool :=
  (9 ≤ c.toNat && c.toNat ≤ 13) || c.toNat == 32 || c.toNat == 133 || c.toNat == 160 ||
  c.toNat == 5760 || (8192 ≤ c.toNat && c.toNat ≤ 8202) || c.toNat == 8232 || c.toNat == 8233 ||
  c.toNat == 8239 || c.toNat == 8287 || c.toNat == 12288

/-- `str::trim`. -/
def trim (cs : List Char) : List Char :=
  ((cs.dropWhile isWs).reverse.dropWhile isWs).reverse

/-- The Kelvin sign, whose lower case is `k`. -/
def kelvin : Char := Char.ofNat 0x212A

/-- The capital I with dot, whose lower case is `i` and a combining dot. -/
def dottedI : Char := Char.ofNat 0x130

/-- `char::to_lowercase`, as far as it can produce ASCII.  Simplified: characters other than `A`–`Z`,
the Kelvin sign and the dotted I stand for their own lower case; in Unicode that is a non-ASCII
character, or, for ASCII characters, the character itself. -/
def lower (c : Char) : List Char :=
  if 65 ≤ c.toNat ∧ c.toNat ≤ 90 then [Char.ofNat (c.toNat + 32)]
  else if c = kelvin then ['k']
  else if c = dottedI then ['i', Char.ofNat 0x307]
  else [c]

/-- `str::to_lowercase`. -/
def toLower (cs : List Char) : List Char := cs.flatMap lower

/-- `&s[n..]`, with `n` counted in bytes; `none` when `n` is not at a character boundary: a panic. -/
def byteDrop : Nat → List Char → Option (List Char)
  | 0, cs => some cs
  | _ + 1, [] => none
  | n + 1, c :: cs => if c.utf8Size ≤ n + 1 then byteDrop (n + 1 - c.utf8Size) cs else none

/-- `str::len`: the length in bytes. -/
def byteLen (cs : List Char) : Nat := (cs.map Char.utf8Size).sum

/-- `str::split('.')`. -/
def splitDot : List Char → List (List Char)
  | [] => [[]]
  | c :: cs =>
    if c = '.' then [] :: splitDot cs
    else
      match splitDot cs with
      | [] => [[c]]
      | p :: ps => (c :: p) :: ps

end Text
end Podo
