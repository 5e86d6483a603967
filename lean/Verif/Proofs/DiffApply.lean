import Verif.Proofs.DiffSchema
import Verif.Proofs.Stage
/-
From strict runs to applying and staging a computed diff.
-/
set_option linter.unusedSimpArgs false
namespace Podo
open Spec Diff Change

theorem runX_applyAll {cs : List Change} {d : Database} {C' : Content} (hd : d.WF)
    (h : runX xeff cs d.content = .ok C') :
    ∃ d', Change.applyAll cs d = .ok d' ∧ d'.content = C' := by
  induction cs generalizing d with
  | nil => simp only [runX, Except.ok.injEq] at h; exact ⟨d, rfl, h⟩
  | cons c cs ih =>
    simp only [runX] at h
    cases hx : xeff c d.content with
    | error b => simp [hx] at h
    | ok C₁ =>
      simp only [hx] at h
      obtain ⟨d₁, h1, rfl⟩ := apply_of_effect hd (xeff_effect hx)
      obtain ⟨d', h2, h3⟩ := ih (apply_wf hd h1) h
      exact ⟨d', by simp [Change.applyAll, h1, h2], h3⟩

theorem runX_stop {cs : List Change} {d : Database} (hd : d.WF)
    (h : runX xeff cs d.content = .error true) :
    ∃ pre c post d₀ e s t i u m ks, cs = pre ++ c :: post ∧ Change.applyAll pre d = .ok d₀
      ∧ c = .createIndex s t i u m ks ∧ c.apply d₀ = .error e
      ∧ (∀ tb, d₀.content.tableAt s t ≠ some tb) := by
  induction cs generalizing d with
  | nil => simp [runX] at h
  | cons c cs ih =>
    simp only [runX] at h
    cases hx : xeff c d.content with
    | error b =>
      simp only [hx, Except.error.injEq] at h
      subst h
      obtain ⟨s, t, i, u, m, ks, sc, rfl, h1, h2, h3⟩ := xeff_stop hx
      have hr := apply_refines (.createIndex s t i u m ks) d hd
      rw [h3] at hr
      cases ha : (Change.createIndex s t i u m ks).apply d with
      | ok d' => rw [ha] at hr; simp at hr
      | error e =>
        refine ⟨[], _, cs, d, e, s, t, i, u, m, ks, rfl, rfl, rfl, ha, ?_⟩
        intro tb htb
        simp only [Content.tableAt, h1, Option.bind_some] at htb
        cases hr : sc.relations t with
        | none => simp [hr] at htb
        | some r =>
          cases r with
          | table x => exact h2 x hr
          | view x => simp [hr, RelContent.table?] at htb
          | index x => simp [hr, RelContent.table?] at htb
          | sequence x => simp [hr, RelContent.table?] at htb
    | ok C₁ =>
      simp only [hx] at h
      obtain ⟨d₁, h1, rfl⟩ := apply_of_effect hd (xeff_effect hx)
      obtain ⟨pre, c', post, d₀, e, s, t, i, u, m, ks, k1, k2, k3, k4, k5⟩ := ih (apply_wf hd h1) h
      exact ⟨c :: pre, c', post, d₀, e, s, t, i, u, m, ks, by rw [k1]; rfl,
        by simp [Change.applyAll, h1, k2], k3, k4, k5⟩

theorem inSchX_okD {s : String} {f : SchemaContent → Except Bool SchemaContent} {C C' : Content}
    (h : inSchX s f C = .ok C') : ∃ sc sc', C s = some sc ∧ f sc = .ok sc' := by
  simp only [inSchX] at h
  cases hs : C s with
  | none => simp [hs] at h
  | some sc =>
    simp only [hs] at h
    obtain ⟨y, h1, h2⟩ := mapX_eq_ok.1 h
    exact ⟨sc, y, rfl, h1⟩

/-- A change of a strict run always has a revert. -/
theorem revert_ok {c : Change} {d : Database} (hd : d.WF) (h : xeff c d.content ≠ .error false) :
    ∃ r, c.revert d = .ok r := by
  cases hx : xeff c d.content with
  | error b =>
    cases b with
    | false => exact absurd hx h
    | true =>
      obtain ⟨s, t, i, u, m, ks, sc, rfl, h1, _, _⟩ := xeff_stop hx
      obtain ⟨sc', hs, rfl⟩ := content_schema h1
      exact ⟨_, lookSchema_of hs _⟩
  | ok C' =>
    have he := xeff_effect hx
    by_cases hl : Lossy d.content c
    · cases c with
      | dropSchema s => exact ⟨_, rfl⟩
      | renameColumn => simp [xeff, relSchema, colTable, conTable, funSchema] at hx
      | dropTable s t =>
        obtain ⟨sc, sc', h1, h2⟩ := inSchX_okD hx
        obtain ⟨m, h3, _⟩ := mapX_eq_ok.1 h2
        obtain ⟨⟨x, hx1, hx2⟩, _⟩ := remove_some (ofOpt_eq_ok.1 h3)
        obtain ⟨sc', hs, rfl⟩ := content_schema h1
        obtain ⟨rel, hrel, rfl⟩ := content_rel hx1
        cases rel with
        | table tb => exact ⟨_, lookTable_of hs hrel _⟩
        | view x => cases hx2
        | index x => cases hx2
        | sequence x => cases hx2
      | dropSequence s q =>
        obtain ⟨sc, x, h1, h2, _⟩ := hl
        obtain ⟨sc', hs, rfl⟩ := content_schema h1
        obtain ⟨rel, hrel, hrc⟩ := content_rel h2
        cases rel <;> simp only [Relation.content, reduceCtorEq, RelContent.sequence.injEq] at hrc
        exact ⟨_, lookRelation_of hs hrel rfl _⟩
      | dropIndex s q =>
        obtain ⟨sc, x, h1, h2, _⟩ := hl
        obtain ⟨sc', hs, rfl⟩ := content_schema h1
        obtain ⟨rel, hrel, hrc⟩ := content_rel h2
        cases rel <;> simp only [Relation.content, reduceCtorEq, RelContent.index.injEq] at hrc
        exact ⟨_, lookRelation_of hs hrel rfl _⟩
      | _ => exact absurd hl id
    · obtain ⟨r, h1, _⟩ := revert_effect hd he hl
      exact ⟨r, h1⟩

theorem stageLoop_run {cs : List Change} {d : Database} (hd : d.WF)
    (h : runX xeff cs d.content ≠ .error false) :
    ∀ e, stageLoop cs d [] [] ≠ .panic e := by
  induction cs generalizing d with
  | nil => intro e; simp [stageLoop]
  | cons c cs ih =>
    intro e he
    have hx : xeff c d.content ≠ .error false := by
      intro hx; apply h; simp [runX, hx]
    obtain ⟨r, hr⟩ := revert_ok hd hx
    simp only [stageLoop, hr] at he
    cases ha : c.apply d with
    | error e' => simp [ha] at he
    | ok d' =>
      simp only [ha] at he
      rw [stageLoop_acc] at he
      cases hs : stageLoop cs d' [] [] with
      | done f r w => simp [hs] at he
      | error e => simp [hs] at he
      | panic e' =>
        refine ih (apply_wf hd ha) ?_ e' hs
        cases hxe : xeff c d.content with
        | error b =>
          cases b with
          | false => exact absurd hxe hx
          | true =>
            obtain ⟨s, t, i, u, m, ks, sc, rfl, h1, _, h3⟩ := xeff_stop hxe
            rw [apply_effect hd ha] at h3; cases h3
        | ok C₁ =>
          have := xeff_effect hxe
          rw [apply_effect hd ha] at this
          cases this
          intro hh; apply h; simp [runX, hxe, hh]

/-- Staging succeeds exactly when applying does, for lists whose strict run does not fail
otherwise. -/
theorem stageLoop_of_applyAll {cs : List Change} {d d' : Database} (hd : d.WF)
    (hp : ∀ e, stageLoop cs d [] [] ≠ .panic e) (h : Change.applyAll cs d = .ok d') :
    ∃ downs, stageLoop cs d [] [] = .done d' cs downs := by
  induction cs generalizing d with
  | nil => simp only [Change.applyAll, Except.ok.injEq] at h; subst h; exact ⟨[], rfl⟩
  | cons c cs ih =>
    simp only [Change.applyAll] at h
    cases ha : c.apply d with
    | error e => simp [ha] at h
    | ok d₁ =>
      simp only [ha] at h
      cases hr : c.revert d with
      | error e => exact absurd (by simp [stageLoop, hr]) (hp e)
      | ok r =>
        have hstep : stageLoop (c :: cs) d [] [] = match stageLoop cs d₁ [] [] with
            | .done f r' w => .done f ([c] ++ r') (w ++ [r])
            | .error e => .error e
            | .panic e => .panic e := by
          simp only [stageLoop, hr, ha]
          rw [stageLoop_acc]; rfl
        have hp' : ∀ e, stageLoop cs d₁ [] [] ≠ .panic e := by
          intro e he; apply hp e; rw [hstep, he]
        obtain ⟨downs, hd'⟩ := ih (apply_wf hd ha) hp' h
        exact ⟨downs ++ [r], by rw [hstep, hd']; rfl⟩

/-! ### The computed diff -/

theorem diff_apply {s t : Database} (hs : s.WF) (ht : t.WF) (hr : IndexReady s t) :
    ∃ d, Change.applyAll (compareDiff s t) s = .ok d ∧ d.content = reached s.content t.content :=
  runX_applyAll hs (by rw [run_diff hs ht, if_pos hr])

theorem diff_apply_iff {s t : Database} (hs : s.WF) (ht : t.WF) :
    (∃ d, Change.applyAll (compareDiff s t) s = .ok d) ↔ IndexReady s t := by
  constructor
  · rintro ⟨d, h⟩
    apply Classical.byContradiction
    intro hr
    have hx := run_diff hs ht
    rw [if_neg hr] at hx
    obtain ⟨pre, c, post, d₀, e, _, _, _, _, _, _, h1, h2, _, h4, _⟩ := runX_stop hs hx
    rw [h1, applyAll_append, h2] at h
    simp [Change.applyAll, h4] at h
  · intro hr
    obtain ⟨d, h, _⟩ := diff_apply hs ht hr
    exact ⟨d, h⟩

theorem diff_stops {s t : Database} (hs : s.WF) (ht : t.WF) (hr : ¬ IndexReady s t) :
    ∃ pre c post d₀ e s' t' i u m ks, compareDiff s t = pre ++ c :: post
      ∧ Change.applyAll pre s = .ok d₀
      ∧ c = .createIndex s' t' i u m ks ∧ c.apply d₀ = .error e
      ∧ (∀ tb, d₀.content.tableAt s' t' ≠ some tb) :=
  runX_stop hs (by rw [run_diff hs ht, if_neg hr])

theorem diff_no_panic {s t : Database} (hs : s.WF) (ht : t.WF) (e : SnapshotError) :
    stageLoop (compareDiff s t) s [] [] ≠ .panic e := by
  refine stageLoop_run hs ?_ e
  rw [run_diff hs ht]
  split <;> simp

end Podo
