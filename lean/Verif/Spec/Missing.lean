import Verif.Spec.Fleet
/-
Words for C89: version files that are missing.
-/
namespace Podo

/-- `d'` has no file but those of `d`, each as it is in `d`; any of them may be missing. -/
structure FilesMissing (d d' : HDir) : Prop where
  nodup : d'.NodupKeys
  same : ∀ f e, d'.get? f = some e → d.get? f = some e

/-- The file of the version `n` is not there. -/
def Lacks (d : HDir) (n : String) : Prop := d.get? (n ++ ".yaml") = none

end Podo
