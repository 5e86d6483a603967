import Verif.Proofs.DiffSame
import Verif.Props.Diff
/-
C72: the same snapshots are diffed the same, whatever the order of the hash maps.
-/
namespace Podo
open Change Diff

/-- C72 (partial).  Take two snapshots and list all their maps in any other way, and the columns of the
source's tables in any other order: the diff consists of the same changes, each as often as before,
perhaps in another order.  Missing for the full property: that the order is the same, see
`C72_order_false`. -/
theorem C72_same_changes_partial {s s' t t' : Database} (hs : s.WF) (hs' : s'.WF) (ht : t.WF)
    (ht' : t'.WF) (h : s.content = s'.content) (g : t.content = t'.content)
    (ho : ∀ a b, (t.tableNamed a b).map Table.columns = (t'.tableNamed a b).map Table.columns) :
    (compareDiff s t).Perm (compareDiff s' t') :=
  compareDiff_same hs hs' ht ht' h g ho

/-- C72, the outcome: where the diff applies for both listings, it leads to the same content. -/
theorem C72_same_outcome {s s' t t' d d' : Database} (hs : s.WF) (hs' : s'.WF) (ht : t.WF)
    (ht' : t'.WF) (h : s.content = s'.content) (g : t.content = t'.content)
    (hd : applyAll (compareDiff s t) s = .ok d) (hd' : applyAll (compareDiff s' t') s' = .ok d') :
    d.content = d'.content := by
  obtain ⟨x, hx, hc⟩ := diff_apply hs ht ((diff_apply_iff hs ht).1 ⟨d, hd⟩)
  obtain ⟨x', hx', hc'⟩ := diff_apply hs' ht' ((diff_apply_iff hs' ht').1 ⟨d', hd'⟩)
  rw [hd] at hx; cases hx
  rw [hd'] at hx'; cases hx'
  rw [hc, hc', h, g]

/-- Two listings of one snapshot (for the examples). -/
def listed (swap : Bool) : Database :=
  ⟨if swap then [("a", ⟨"a", [("v", .view ⟨"a", "v", "SELECT 1"⟩), ("w", .view ⟨"a", "w", "SELECT 2"⟩)], []⟩)]
    else [("a", ⟨"a", [("w", .view ⟨"a", "w", "SELECT 2"⟩), ("v", .view ⟨"a", "v", "SELECT 1"⟩)], []⟩)]⟩

theorem listed_wf (b : Bool) : (listed b).WF := by
  cases b
  · exact applyAll_wf (cs := [.createSchema "a", .createView "a" "w" "SELECT 2",
      .createView "a" "v" "SELECT 1"]) Database.new_wf rfl
  · exact applyAll_wf (cs := [.createSchema "a", .createView "a" "v" "SELECT 1",
      .createView "a" "w" "SELECT 2"]) Database.new_wf rfl

theorem listed_content : (listed true).content = (listed false).content := by
  funext n
  by_cases e : "a" = n
  · subst e
    show some (Schema.content _) = some (Schema.content _)
    simp only [Schema.content, Option.some.injEq, SchemaContent.mk.injEq, true_and]
    refine ⟨funext fun r => ?_, trivial⟩
    by_cases e1 : "v" = r
    · subst e1; rfl
    · by_cases e2 : "w" = r
      · subst e2; rfl
      · simp [AMap.get?_cons, e1, e2]
  · show Option.map _ (if "a" = n then _ else none) = Option.map _ (if "a" = n then _ else none)
    rw [if_neg e, if_neg e]

/-- The full C72 is false: the same views come in another order, so that `stage` writes another file
when it is run again. -/
theorem C72_order_false :
    (listed true).WF ∧ (listed false).WF ∧ (listed true).content = (listed false).content ∧
    compareDiff Database.new (listed true) ≠ compareDiff Database.new (listed false) := by
  refine ⟨listed_wf _, listed_wf _, listed_content, fun h => ?_⟩
  have h1 := congrArg (fun l => l[1]?) h
  simp only [show (compareDiff Database.new (listed true))[1]? =
    some (.createView "a" "v" "SELECT 1") from rfl, show (compareDiff Database.new (listed false))[1]? =
    some (.createView "a" "w" "SELECT 2") from rfl] at h1
  simp at h1

/-- Both are meant by `C72_same_changes_partial` and by `C72_same_outcome`. -/
example : (compareDiff Database.new (listed true)).Perm (compareDiff Database.new (listed false)) ∧
    ∃ d d', applyAll (compareDiff Database.new (listed true)) Database.new = .ok d ∧
      applyAll (compareDiff Database.new (listed false)) Database.new = .ok d' := by
  refine ⟨C72_same_changes_partial Database.new_wf Database.new_wf (listed_wf _) (listed_wf _) rfl
    listed_content fun a b => ?_, ⟨_, _, rfl, rfl⟩⟩
  have key : ∀ c, (listed c).tableNamed a b = none := by
    intro c
    unfold Database.tableNamed
    by_cases e : "a" = a
    · subst e
      cases c <;>
      · simp only [listed, Bool.false_eq_true, if_false, if_true, AMap.get?_cons, Option.bind_some]
        by_cases e1 : "v" = b
        · simp [e1.symm]
        · by_cases e2 : "w" = b
          · simp [e2.symm]
          · simp [e1, e2]
    · cases c <;> simp [listed, e]
  rw [key, key]

end Podo
