import Verif.Spec.Fleet
/-
Words for C86: two copies of a project, merged.
-/
namespace Podo

/-- `m` is a merge of the version files of two copies of a project, as a version control system makes it where it
finds no conflict but that of the two stages: every file of either copy is there as it is in that copy, and the
stage is that of one of the two. -/
structure Merged (d₁ d₂ m : HDir) : Prop where
  nodup : m.NodupKeys
  either : ∀ f e, m.get? f = some e → d₁.get? f = some e ∨ d₂.get? f = some e
  kept : ∀ f e, f ≠ "stage.yaml" → d₁.get? f = some e ∨ d₂.get? f = some e → m.get? f = some e
  stage : m.get? "stage.yaml" ≠ none

/-- Both directories have the same version files. -/
def SameVersions (d d' : HDir) : Prop := ∀ n, d.get? (n ++ ".yaml") = d'.get? (n ++ ".yaml")

end Podo
