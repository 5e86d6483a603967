import Verif.Model.Serde
/-
Specification for C54: when two files differ only in the order of their keys, and when a file says the same as
another one.
-/
namespace Podo
namespace Serde

/-- The same tree with the keys of some of its mappings in another order. -/
inductive Reordered : Doc → Doc → Prop
  | refl (d) : Reordered d d
  | perm {es es'} : es.Perm es' → Reordered (.map es) (.map es')
  | entry (before k after) {d d'} : Reordered d d' →
      Reordered (.map (before ++ (k, d) :: after)) (.map (before ++ (k, d') :: after))
  | element (before after) {d d'} : Reordered d d' →
      Reordered (.seq (before ++ d :: after)) (.seq (before ++ d' :: after))
  | trans {a b c} : Reordered a b → Reordered b c → Reordered a c

/-- A mapping has this value, and no other, for a key. -/
def Only (gs : List (String × Doc)) (k : String) (d : Doc) : Prop :=
  ∃ before after, gs = before ++ (k, d) :: after ∧ ∀ e ∈ before ++ after, e.1 ≠ k

/-- The first document has all that the second one has: single values and sequences are the same, and a mapping
has one value for each key, in any order and beside any other keys.  What is `null` may be missing. -/
inductive Has : Doc → Doc → Prop
  | null : Has .null .null
  | bool (b) : Has (.bool b) (.bool b)
  | int (i) : Has (.int i) (.int i)
  | str (s) : Has (.str s) (.str s)
  | nil : Has (.seq []) (.seq [])
  | cons {d ds e es} : Has d e → Has (.seq ds) (.seq es) → Has (.seq (d :: ds)) (.seq (e :: es))
  | empty (gs) : Has (.map gs) (.map [])
  | entry {gs k d e es} : Only gs k d → Has d e → Has (.map gs) (.map es) → Has (.map gs) (.map ((k, e) :: es))
  | missing {gs k es} : (∀ e ∈ gs, e.1 ≠ k) → Has (.map gs) (.map es) → Has (.map gs) (.map ((k, .null) :: es))

/-- The numbers of a change are numbers of 64 bits, as they are in the program. -/
def FitsInt64 : Change → Prop
  | .createSequence _ _ _ i mn mx st ca _ => ∀ n ∈ [i, mn, mx, st, ca],
      -9223372036854775808 ≤ n ∧ n ≤ 9223372036854775807
  | _ => True

end Serde
end Podo
