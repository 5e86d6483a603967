import Verif.Proofs.DiffUndo
import Verif.Props.Diff
/-
C08 for computed diffs: exactly which staged differences the down script takes back.
-/
namespace Podo
open Diff Change

/-- C08 for what `podo stage` records.  When staging the difference between the staged snapshot `s`
and the definitions `t` succeeds, running the recorded reverts, newest first, on the staged snapshot
gives back the content of `s` if and only if
* every table of `s` that has constraints is still a table in `t`,
* every sequence of `s` owned by a column is in `t` exactly as it is, and
* every index of `s` that is not in `t` with the same keys still has its table when it is dropped. -/
theorem C08_diff_undone_iff {s t final : Database} {recorded downs : List Change} (hs : s.WF)
    (ht : t.WF) (h : stageLoop (compareDiff s t) s [] [] = .done final recorded downs) :
    (∃ d', applyAll downs final = .ok d' ∧ d'.content = s.content) ↔ Undoable s t :=
  (diff_undone_iff hs ht h).trans (noLoss_iff_undoable hs ht (stageLoop_done h).1)

-- Staging a difference of all kinds succeeds.
example : ∃ final recorded downs,
    stageLoop (compareDiff demo demoTarget) demo [] [] = .done final recorded downs :=
  ⟨_, _, _, rfl⟩

/-! A table and its index, with the index visited first and last, and the same schema without. -/

def noteTable : Relation := .table ⟨"public", "notes", [⟨"public", "notes", "id", "int8", true, none⟩], []⟩
def noteIndex : Relation := .index ⟨"public", "notes_idx", "notes", false, "btree", ["id"]⟩
def indexFirst : Database :=
  ⟨[("public", ⟨"public", [("notes_idx", noteIndex), ("notes", noteTable)], []⟩)]⟩
def indexLast : Database :=
  ⟨[("public", ⟨"public", [("notes", noteTable), ("notes_idx", noteIndex)], []⟩)]⟩
def noNotes : Database := ⟨[("public", ⟨"public", [], []⟩)]⟩

theorem noteTable_wf : noteTable.WF :=
  ⟨by decide, by decide, List.nodup_nil, by intro p hp; cases hp⟩

theorem indexFirst_wf : indexFirst.WF := by
  refine ⟨by decide, ?_⟩
  intro p hp
  rw [List.mem_singleton.1 hp]
  refine ⟨rfl, by decide, ?_, List.nodup_nil, by intro p hp; cases hp⟩
  intro q hq
  simp only [List.mem_cons, List.not_mem_nil, or_false] at hq
  rcases hq with rfl | rfl
  · exact ⟨rfl, rfl, trivial⟩
  · exact ⟨rfl, rfl, noteTable_wf⟩

theorem indexLast_wf : indexLast.WF := by
  refine ⟨by decide, ?_⟩
  intro p hp
  rw [List.mem_singleton.1 hp]
  refine ⟨rfl, by decide, ?_, List.nodup_nil, by intro p hp; cases hp⟩
  intro q hq
  simp only [List.mem_cons, List.not_mem_nil, or_false] at hq
  rcases hq with rfl | rfl
  · exact ⟨rfl, rfl, noteTable_wf⟩
  · exact ⟨rfl, rfl, trivial⟩

theorem noNotes_wf : noNotes.WF := applyAll_wf Database.new_wf (cs := [.createSchema "public"]) rfl

theorem same_notes : indexFirst.content = indexLast.content := by
  funext n
  by_cases hn : n = "public"
  · subst hn
    simp only [Database.content, indexFirst, indexLast, AMap.get?, if_true, Option.map_some,
      Schema.content, Option.some.injEq, SchemaContent.mk.injEq, true_and, and_true]
    funext r
    by_cases h1 : r = "notes"
    · subst h1; rfl
    · by_cases h2 : r = "notes_idx"
      · subst h2; rfl
      · simp [AMap.get?, Ne.symm h1, Ne.symm h2]
  · simp [Database.content, indexFirst, indexLast, AMap.get?, Ne.symm hn]

/-- Whether a staged difference can be taken back depends on the iteration order of the maps: two
snapshots of the same content (a table without constraints and an index on it), the same definitions
(without both), both stagings succeed; one down script gives the content back, the other one
fails. -/
theorem C08_order_false :
    ∃ s₁ s₂ t f₁ f₂ r₁ r₂ w₁ w₂, s₁.WF ∧ s₂.WF ∧ t.WF ∧ s₁.content = s₂.content ∧
      stageLoop (compareDiff s₁ t) s₁ [] [] = .done f₁ r₁ w₁ ∧
      stageLoop (compareDiff s₂ t) s₂ [] [] = .done f₂ r₂ w₂ ∧
      (∃ d, applyAll w₁ f₁ = .ok d ∧ d.content = s₁.content) ∧
      (∃ e, applyAll w₂ f₂ = .error e) := by
  refine ⟨indexFirst, indexLast, noNotes, _, _, _, _, _, _, indexFirst_wf, indexLast_wf, noNotes_wf,
    same_notes, rfl, rfl, ⟨_, rfl, ?_⟩, _, rfl⟩
  exact same_notes.symm

-- So `Undoable` holds of the first and not of the second.
example : Undoable indexFirst noNotes := by
  refine (C08_diff_undone_iff indexFirst_wf noNotes_wf (by rfl)).1 ⟨_, rfl, ?_⟩
  exact same_notes.symm
example : ¬ Undoable indexLast noNotes := by
  intro h
  obtain ⟨d, h1, _⟩ := (C08_diff_undone_iff indexLast_wf noNotes_wf (by rfl)).2 h
  cases h1

end Podo
