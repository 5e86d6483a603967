import Verif.Model.Stage
import Verif.Proofs.Revert
set_option linter.unusedSimpArgs false
namespace Podo
open Spec

/-- No change of the list is lossy at the point where it is applied. -/
def NoLoss : List Change → Database → Prop
  | [], _ => True
  | c :: cs, d => ¬ Lossy d.content c ∧ ∀ d', c.apply d = .ok d' → NoLoss cs d'

theorem applyAll_ok_of_content {cs : List Change} {d₁ d₂ d₁' : Database} (h₁ : d₁.WF) (h₂ : d₂.WF)
    (hc : d₁.content = d₂.content) (h : Change.applyAll cs d₁ = .ok d₁') :
    ∃ d₂', Change.applyAll cs d₂ = .ok d₂' ∧ d₂'.content = d₁'.content := by
  have e₁ := applyAll_refines cs d₁ h₁
  have e₂ := applyAll_refines cs d₂ h₂
  rw [h] at e₁
  rw [← hc, ← e₁] at e₂
  cases h' : Change.applyAll cs d₂ with
  | error e => rw [h'] at e₂; simp at e₂
  | ok d₂' =>
    rw [h'] at e₂
    simp only [okMap_ok, Option.some.injEq] at e₂
    exact ⟨d₂', rfl, e₂⟩

theorem stageLoop_acc (cs : List Change) (d : Database) (rec downs : List Change) :
    stageLoop cs d rec downs = match stageLoop cs d [] [] with
      | .done f r w => .done f (rec ++ r) (w ++ downs)
      | .error e => .error e
      | .panic e => .panic e := by
  induction cs generalizing d rec downs with
  | nil => simp [stageLoop]
  | cons c cs ih =>
    simp only [stageLoop]
    cases c.revert d with
    | error e => rfl
    | ok r =>
      simp only
      cases c.apply d with
      | error e => rfl
      | ok d' =>
        simp only
        rw [ih d' (rec ++ [c]) (r :: downs), ih d' ([] ++ [c]) [r]]
        cases stageLoop cs d' [] [] <;> simp

theorem stageLoop_done {cs : List Change} {d f : Database} {rec downs : List Change}
    (h : stageLoop cs d [] [] = .done f rec downs) :
    Change.applyAll cs d = .ok f ∧ rec = cs ∧ downs.length = cs.length := by
  induction cs generalizing d f rec downs with
  | nil => simp only [stageLoop, StageOutcome.done.injEq] at h; simp [Change.applyAll, ← h.1, ← h.2.1, ← h.2.2]
  | cons c cs ih =>
    simp only [stageLoop] at h
    cases hr : c.revert d with
    | error e => simp [hr] at h
    | ok r =>
      cases ha : c.apply d with
      | error e => simp [hr, ha] at h
      | ok d' =>
        simp only [hr, ha] at h
        rw [stageLoop_acc] at h
        cases hs : stageLoop cs d' [] [] with
        | error e => simp [hs] at h
        | panic e => simp [hs] at h
        | done f' r' w' =>
          simp only [hs, StageOutcome.done.injEq] at h
          obtain ⟨h1, h2, h3⟩ := ih hs
          simp [Change.applyAll, ha, ← h.1, ← h.2.1, ← h.2.2, h1, h2, h3]

theorem stageLoop_undo {cs : List Change} {d f : Database} {rec downs : List Change} (hd : d.WF)
    (hl : NoLoss cs d) (h : stageLoop cs d [] [] = .done f rec downs) :
    ∃ d', Change.applyAll downs f = .ok d' ∧ d'.content = d.content := by
  induction cs generalizing d f rec downs with
  | nil =>
    simp only [stageLoop, StageOutcome.done.injEq] at h
    exact ⟨d, by simp [Change.applyAll, ← h.1, ← h.2.2]⟩
  | cons c cs ih =>
    simp only [stageLoop] at h
    cases hr : c.revert d with
    | error e => simp [hr] at h
    | ok r =>
      cases ha : c.apply d with
      | error e => simp [hr, ha] at h
      | ok d' =>
        simp only [hr, ha] at h
        rw [stageLoop_acc] at h
        cases hs : stageLoop cs d' [] [] with
        | error e => simp [hs] at h
        | panic e => simp [hs] at h
        | done f' r' w' =>
          simp only [hs, StageOutcome.done.injEq] at h
          have hd' := apply_wf hd ha
          obtain ⟨d1, k1, k2⟩ := ih hd' (hl.2 d' ha) hs
          obtain ⟨r₀, d₂, e1, e2, e3⟩ := (revert_undoes_iff hd ha).2 hl.1
          rw [hr] at e1; cases e1
          have hf' : f'.WF := applyAll_wf hd' (stageLoop_done hs).1
          have hd1 : d1.WF := applyAll_wf hf' k1
          have e2' : Change.applyAll [r] d' = .ok d₂ := by simp [Change.applyAll, e2]
          obtain ⟨d3, k3, k4⟩ := applyAll_ok_of_content hd' hd1 k2.symm e2'
          refine ⟨d3, ?_, k4.trans e3⟩
          rw [← h.1, ← h.2.2, applyAll_append, k1]
          exact k3

end Podo
