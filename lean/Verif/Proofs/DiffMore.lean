import Verif.Proofs.DiffOrder
/-
Further facts about the content reached by a diff and about ignoring index attributes.
-/
namespace Podo
open Spec Diff Change

theorem reachedRel_other (p : Option RelContent) (x : RelContent)
    (hi : ∀ i, x ≠ .index i) (hq : ∀ q, x ≠ .sequence q) : reachedRel p x = x := by
  cases x with
  | table y | view y => cases p with
    | none => rfl
    | some z => cases z <;> rfl
  | index y => exact absurd rfl (hi y)
  | sequence y => exact absurd rfl (hq y)

theorem reached_objAt {S T : Content} (p : Path)
    (hi : ∀ i, T.objAt p ≠ some (.index i)) (hq : ∀ q, T.objAt p ≠ some (.sequence q)) :
    (reached S T).objAt p = T.objAt p := by
  have htab : ∀ n r, (reached S T).tableAt n r = T.tableAt n r := by
    intro n r
    cases e : T.tableAt n r with
    | some tb => exact reached_table e
    | none =>
      simp only [Content.tableAt] at e ⊢
      cases e1 : T n with
      | none => simp [reached, e1]
      | some sc =>
        rw [e1] at e
        simp only [Option.bind_some] at e
        simp only [reached, e1, Option.map_some, Option.bind_some, reachedSchema]
        cases e2 : sc.relations r with
        | none => simp
        | some x =>
          rw [e2] at e
          simp only [Option.map_some, Option.bind_some] at e ⊢
          cases x with
          | table y => cases e
          | view y | index y | sequence y =>
            generalize ((S n).bind fun sc => sc.relations r) = o
            cases o with
            | none => rfl
            | some z => cases z <;> simp only [reachedRel] <;> (try split) <;> rfl
  cases p with
  | schema n =>
    simp only [Content.objAt, reached]
    cases T n <;> rfl
  | relation n r =>
    rw [objAt_relation] at hi hq ⊢
    rw [objAt_relation]
    cases e1 : T n with
    | none => simp [reached, e1]
    | some sc =>
      simp only [e1, Option.bind_some] at hi hq
      simp only [reached, e1, Option.map_some, Option.bind_some, reachedSchema]
      cases e2 : sc.relations r with
      | none => rfl
      | some x =>
        simp only [Option.map_some]
        rw [reachedRel_other]
        · intro i h; exact hi i (by rw [e2, h]; rfl)
        · intro i h; exact hq i (by rw [e2, h]; rfl)
  | function n r =>
    rw [objAt_function, objAt_function]
    simp only [reached]
    cases T n <;> rfl
  | column n r k => rw [objAt_column, objAt_column, htab]
  | constraint n r k => rw [objAt_constraint, objAt_constraint, htab]

theorem keyOnly_inj {S T : Content} (hi : SameKeyIndexesAgree S T) (h : S.keyOnly = T.keyOnly) :
    S = T := by
  funext n
  have hn := congrFun h n
  simp only [Content.keyOnly] at hn
  cases e1 : S n with
  | none =>
    cases e2 : T n with
    | none => rfl
    | some b => rw [e1, e2] at hn; cases hn
  | some a =>
    cases e2 : T n with
    | none => rw [e1, e2] at hn; cases hn
    | some b =>
      rw [e1, e2] at hn
      simp only [Option.map_some, Option.some.injEq] at hn
      obtain ⟨an, ar, af⟩ := a
      obtain ⟨bn, br, bf⟩ := b
      simp only [SchemaContent.mk.injEq] at hn
      obtain ⟨rfl, hr, rfl⟩ := hn
      have : ar = br := by
        funext r
        have hr := congrFun hr r
        cases e3 : ar r with
        | none =>
          cases e4 : br r with
          | none => rfl
          | some y => rw [e3, e4] at hr; cases hr
        | some x =>
          cases e4 : br r with
          | none => rw [e3, e4] at hr; cases hr
          | some y =>
            rw [e3, e4] at hr
            simp only [Option.map_some, Option.some.injEq] at hr
            cases x with
            | index x =>
              cases y with
              | index y =>
                have hk : x.keyExpressions = y.keyExpressions := by
                  simp only [RelContent.keyOnly, RelContent.index.injEq, Index.mk.injEq] at hr
                  exact hr.2.2.2.2.2
                rw [hi n r x y ⟨_, e1, e3⟩ ⟨_, e2, e4⟩ hk]
              | table y | view y | sequence y => cases hr
            | table x | view x | sequence x =>
              cases y <;> first | (cases hr; done) | (cases hr; rfl)
      rw [this]

end Podo
