import Verif.Spec.Output
import Verif.Proofs.Program
import Verif.Props.Pg
/-
Lemmas about what the commands print.
-/
set_option linter.unusedSimpArgs false
namespace Podo
namespace Prog
variable {σ : Type}

theorem shownSql_sql (q : String) : shownSql ("    " ++ q) = some q := by
  unfold shownSql
  rw [String.toList_append]
  show some (String.ofList q.toList) = _
  rw [String.ofList_toList]

theorem shownSql_of_third {p s : String} {a b c : Char} {r : List Char} (hp : p.toList = a :: b :: c :: r)
    (hc : a ≠ ' ' ∨ c ≠ ' ') : shownSql (p ++ s) = none := by
  unfold shownSql
  rw [String.toList_append, hp]
  simp only [List.cons_append]
  split
  · next h =>
    injection h with h1 h
    injection h with h2 h
    injection h with h3 h
    rcases hc with hc | hc
    · exact absurd h1 hc
    · exact absurd h3 hc
  · rfl

theorem sqlShown_append (a b : List String) : sqlShown (a ++ b) = sqlShown a ++ sqlShown b :=
  List.filterMap_append

theorem sqlShown_cons {l : String} (h : shownSql l = none) (ls : List String) :
    sqlShown (l :: ls) = sqlShown ls := by
  unfold sqlShown; rw [List.filterMap_cons, h]

theorem sqlShown_sql (qs : List String) : sqlShown (qs.map ("    " ++ ·)) = qs := by
  unfold sqlShown
  rw [List.filterMap_map]
  induction qs with
  | nil => rfl
  | cons q qs ih =>
    rw [List.filterMap_cons_some (f := shownSql ∘ _) (shownSql_sql q), ih]

theorem no_sql_applying (s : String) : shownSql ("  Applying version " ++ s) = none :=
  shownSql_of_third (p := "  Applying version ") rfl (.inr (by decide))
theorem no_sql_reverting (s : String) : shownSql ("  Reverting version " ++ s) = none :=
  shownSql_of_third (p := "  Reverting version ") rfl (.inr (by decide))
theorem no_sql_on (s : String) : shownSql ("On database version: " ++ s) = none :=
  shownSql_of_third (p := "On database version: ") rfl (.inl (by decide))
theorem no_sql_up (s : String) : shownSql ("Applying upward migrations to " ++ s ++ ":") = none := by
  rw [String.append_assoc]
  exact shownSql_of_third (p := "Applying upward migrations to ") rfl (.inl (by decide))
theorem no_sql_down (s : String) : shownSql ("Applying downward migrations to " ++ s ++ ":") = none := by
  rw [String.append_assoc]
  exact shownSql_of_third (p := "Applying downward migrations to ") rfl (.inl (by decide))
theorem no_sql_none : shownSql "  No migrations to apply." = none := by decide
theorem no_sql_init : shownSql "No migrations to apply. Already on the init version." = none := by decide

theorem sqlShown_applied (vs : List Version) :
    sqlShown (vs.flatMap appliedLines) = vs.flatMap Version.up := by
  induction vs with
  | nil => rfl
  | cons v vs ih =>
    rw [List.flatMap_cons, List.flatMap_cons, sqlShown_append, ih, appliedLines,
      sqlShown_cons (no_sql_applying _), sqlShown_sql]

theorem kindOf (c : Change) : KindOf c c.displayName := by
  cases c <;> rfl

theorem stagedLine (c : Change) : StagedLine c ("    " ++ c.renderSql ++ " " ++ "-- " ++ c.displayName) :=
  ⟨c.displayName, kindOf c, by
    rw [show (" -- " : String) = " " ++ "-- " from rfl, ← String.append_assoc]⟩

theorem StagedLines.append {a b : List Change} {l m : List String} (h : StagedLines a l)
    (h' : StagedLines b m) : StagedLines (a ++ b) (l ++ m) := by
  induction h with
  | nil => exact h'
  | cons h1 _ ih => exact .cons h1 ih

theorem StagedLines.unique {a : List Change} {l m : List String} (h : StagedLines a l)
    (h' : StagedLines a m) : l = m := by
  induction h generalizing m with
  | nil => cases h'; rfl
  | cons h1 _ ih =>
    cases h' with
    | cons h2 h3 =>
      obtain ⟨k, hk, rfl⟩ := h1
      obtain ⟨k', hk', rfl⟩ := h2
      unfold KindOf at hk hk'
      rw [hk] at hk'; cases hk'
      rw [ih h3]

theorem stageLines_ok {cs : List Change} {s : Database} {v v' : Version}
    (h : stageVersion cs s v = .ok v') : StagedLines cs (stageLines cs s) := by
  induction cs generalizing s v with
  | nil => exact .nil
  | cons c cs ih =>
    rw [stageVersion] at h
    rw [stageLines]
    cases hr : c.revert s with
    | error e => rw [hr] at h; cases h
    | ok r =>
      rw [hr] at h
      dsimp only at h ⊢
      cases ha : c.apply s with
      | error e => rw [ha] at h; cases h
      | ok s' =>
        rw [ha] at h
        exact .cons (stagedLine c) (ih h)

theorem stageLines_fail {cs : List Change} {s : Database} {v : Version} {e : CmdFail}
    (h : stageVersion cs s v = .error e) :
    ∃ pre c post d, cs = pre ++ c :: post ∧ StagedLines (pre ++ [c]) (stageLines cs s) ∧
      Change.applyAll pre s = .ok d ∧ ((∃ f, c.revert d = .error f) ∨ ∃ f, c.apply d = .error f) := by
  induction cs generalizing s v with
  | nil => cases h
  | cons c cs ih =>
    rw [stageVersion] at h
    rw [stageLines]
    cases hr : c.revert s with
    | error e' => exact ⟨[], c, cs, s, rfl, .cons (stagedLine c) .nil, rfl, .inl ⟨_, hr⟩⟩
    | ok r =>
      rw [hr] at h
      dsimp only at h ⊢
      cases ha : c.apply s with
      | error e' => exact ⟨[], c, cs, s, rfl, .cons (stagedLine c) .nil, rfl, .inr ⟨_, ha⟩⟩
      | ok s' =>
        rw [ha] at h
        obtain ⟨pre, c', post, d, h1, h2, h3, h4⟩ := ih h
        exact ⟨c :: pre, c', post, d, by rw [h1]; rfl, .cons (stagedLine c) h2,
          by rw [Change.applyAll, ha]; exact h3, h4⟩

theorem runHist_out {fuel : Nat} {w w' : World σ} {h : Proj.Path} {c : HistCmd} {out : List String}
    {e : Ending} (hr : runHist fuel w h c = some (w', out, e)) :
    out = c.printed fuel (w.fs.history h) := by
  unfold runHist at hr
  split at hr
  · cases hr
  · cases hr; rfl
  · cases hr; rfl

/-- What `stage` prints, once it gets as far as computing changes. -/
theorem stagePlan_printed {fuel : Nat} {t : Database} {d : HDir} {r : Except CmdFail (List Version)}
    (h : stagePlan fuel (.ok t) d = some r) (hr : Reachable d) :
    ∃ s st, SnapshotOf d "stage" s ∧ Stored d "stage" st ∧
      stagePrinted fuel (.ok t) d = "Staging changes:" ::
        (if (Diff.compareDiff s t).length == 0 then ["    No changes to stage."] else []) ++
          stageLines (Diff.compareDiff s t) s ∧
      ((∃ e, stageVersion (Diff.compareDiff s t) s st = .error e ∧ r = .error e) ∨
        ∃ st', stageVersion (Diff.compareDiff s t) s st = .ok st' ∧ r = .ok [st']) := by
  obtain ⟨k, s, st, hs, hst, _, hplan⟩ := stagePlan_reach hr
  have h1 : stagePlan (max fuel k) (.ok t) d = some r :=
    plan_mono (c := .stage (.ok t)) (Nat.le_max_left fuel k) h
  rw [hplan _ (Nat.le_max_right fuel k)] at h1
  dsimp only at h1
  refine ⟨s, st, hs, hst, ?_, ?_⟩
  · unfold stagePlan at h
    unfold stagePrinted
    obtain ⟨vs, st₁, s₁, hh, hrec⟩ := hr.sound
    obtain ⟨nm, _, hfrom⟩ := hh.fromDir
    split at h
    · cases h
    · next e he =>
      have h2 := fromDir_mono (Nat.le_max_left fuel (vs.length + 2)) he
      rw [hfrom _ (by omega)] at h2
      cases h2
    · next o ho =>
      rw [ho]
      dsimp only at h ⊢
      cases hc : calculateSnapshot fuel d Version.STAGE with
      | none => rw [hc] at h; cases h
      | some x =>
        rw [hc] at h
        obtain ⟨f, hf⟩ := hs
        have h2 := calculate_mono (Nat.le_max_left fuel f) hc
        have h3 : calculateSnapshot (max fuel f) d Version.STAGE = some (.ok s) :=
          calculate_mono (Nat.le_max_right fuel f) hf
        rw [h2] at h3
        cases h3
        dsimp only
        rw [show d.getVersion Version.STAGE = .ok st from stored_iff.1 hst]
        rfl
  · cases hv : stageVersion (Diff.compareDiff s t) s st with
    | error e => rw [hv] at h1; cases h1; exact .inl ⟨e, rfl, rfl⟩
    | ok st' => rw [hv] at h1; cases h1; exact .inr ⟨st', rfl, rfl⟩

/-- The lines of `stage`. -/
theorem stage_none_lines {cs : List Change} {s : Database} :
    ("Staging changes:" :: (if cs.length == 0 then ["    No changes to stage."] else []) ++ stageLines cs s) =
      "Staging changes:" :: if cs = [] then ["    No changes to stage."] else stageLines cs s := by
  cases cs <;> rfl

theorem makePlan_printed {fuel : Nat} {stamp : String} {label : Option String} {d : HDir}
    {r : Except CmdFail (List Version)} (h : makePlan fuel stamp label d = some r) :
    (∃ e, r = .error (.error (.fs e)) ∧ makePrinted fuel stamp label d = []) ∨
    ∃ st, Stored d "stage" st ∧
      ((st.isEmpty = true ∧ r = .ok [] ∧
          makePrinted fuel stamp label d = ["Nothing to make. Stage is empty."]) ∨
        (st.isEmpty = false ∧
          r = .ok [{ st with name := madeName stamp label }, Version.newStage (madeName stamp label)] ∧
          makePrinted fuel stamp label d = ["Made version: " ++ madeName stamp label])) := by
  unfold makePlan at h
  unfold makePrinted
  split at h
  · cases h
  · next e he => rw [he]; cases h; exact .inl ⟨e, rfl, rfl⟩
  · next o ho =>
    rw [ho]
    dsimp only
    cases hg : d.getVersion "stage" with
    | error e => rw [hg] at h; cases h; exact .inl ⟨e, rfl, rfl⟩
    | ok st =>
      rw [hg] at h
      dsimp only at h ⊢
      refine .inr ⟨st, stored_iff.2 hg, ?_⟩
      cases he : st.isEmpty with
      | true => rw [he] at h; cases h; exact .inl ⟨rfl, rfl, rfl⟩
      | false => rw [he] at h; cases h; exact .inr ⟨rfl, rfl, rfl⟩

theorem madeName_ne_stage (stamp : String) (label : Option String) : madeName stamp label ≠ "stage" := by
  intro h
  have : '-' ∈ "stage".toList := by rw [← h]; simp [madeName]
  simp at this

/-- After a successful `make` the version is found under its name. -/
theorem make_saved {d d' : HDir} {stamp : String} {label : Option String} {st : Version}
    (h : d.saveAll [{ st with name := madeName stamp label }, Version.newStage (madeName stamp label)] =
      (d', true)) : Stored d' (madeName stamp label) { st with name := madeName stamp label } := by
  rw [HDir.saveAll] at h
  cases h1 : d.save { st with name := madeName stamp label } with
  | none => rw [h1] at h; cases h
  | some d₁ =>
    rw [h1] at h
    dsimp only at h
    rw [HDir.saveAll] at h
    cases h2 : d₁.save (Version.newStage (madeName stamp label)) with
    | none => rw [h2] at h; cases h
    | some d₂ =>
      rw [h2] at h
      cases h
      unfold Stored
      rw [save_get h2, if_neg, save_get h1]
      · simp
      · intro he
        exact madeName_ne_stage _ _ (append_yaml_inj he)

theorem isEmpty_iff {v : Version} : v.isEmpty = true ↔ v.changes = [] ∧ v.up = [] ∧ v.down = [] := by
  simp [Version.isEmpty, and_assoc]

end Prog

namespace Pg
open Prog
variable {σ : Type}

theorem execPrinted_ok {B : Behaviour σ} {s s' : σ} {qs : List String} (h : execAll B s qs = some s') :
    execPrinted B s qs = qs.map ("    " ++ ·) := by
  induction qs generalizing s with
  | nil => rfl
  | cons q qs ih =>
    rw [execAll] at h
    rw [execPrinted]
    cases hx : B.exec s q with
    | none => rw [hx] at h; cases h
    | some s₁ =>
      rw [hx] at h
      simp only [List.map_cons]
      rw [ih h]

theorem execPrinted_fail {B : Behaviour σ} {s : σ} {qs : List String} (h : execAll B s qs = none) :
    ∃ ran q rest x, qs = ran ++ q :: rest ∧ execPrinted B s qs = ran.map ("    " ++ ·) ∧
      execAll B s ran = some x ∧ B.exec x q = none := by
  induction qs generalizing s with
  | nil => cases h
  | cons q qs ih =>
    rw [execAll] at h
    rw [execPrinted]
    cases hx : B.exec s q with
    | none => exact ⟨[], q, qs, s, rfl, rfl, rfl, hx⟩
    | some s₁ =>
      rw [hx] at h
      obtain ⟨ran, q', rest, x, h1, h2, h3, h4⟩ := ih h
      refine ⟨q :: ran, q', rest, x, by rw [h1]; rfl, ?_, ?_, h4⟩
      · show ("    " ++ q) :: execPrinted B s₁ qs = _
        rw [h2]; rfl
      · rw [execAll, hx]; exact h3

/-- Whatever happens, the statements shown by the loop of `up` are those that ran. -/
theorem upLoop_shown {B : Behaviour σ} {d : HDir} {l : List String} {t t' : VTable} {s s' : σ} {o : Outcome}
    (h : upLoop B d l t s = (t', s', o)) :
    ∃ x, execAll B s (sqlShown (upLoopPrinted B d l t s)) = some x ∧ (o = .ok → x = s') := by
  induction l generalizing t s with
  | nil => cases h; exact ⟨_, rfl, fun _ => rfl⟩
  | cons n l ih =>
    rw [upLoop] at h
    rw [upLoopPrinted]
    cases hg : d.getVersion n with
    | error e => rw [hg] at h; cases h; exact ⟨_, rfl, fun h => by cases h⟩
    | ok v =>
      rw [hg] at h
      dsimp only at h ⊢
      rw [sqlShown_cons (no_sql_applying _), sqlShown_append]
      cases hx : execAll B s v.up with
      | none =>
        rw [hx] at h; cases h
        obtain ⟨ran, q, rest, x, _, h2, h3, _⟩ := execPrinted_fail hx
        refine ⟨x, ?_, fun h => by cases h⟩
        rw [h2, sqlShown_sql]
        simpa [sqlShown] using h3
      | some s₁ =>
        rw [hx] at h
        dsimp only at h ⊢
        rw [execPrinted_ok hx, sqlShown_sql, execAll_append, hx, Option.bind_some]
        cases hi : t.insert B v with
        | mk t₁ b =>
          rw [hi] at h
          cases b with
          | false => cases h; exact ⟨_, rfl, fun h => by cases h⟩
          | true => exact ih h

theorem upLoop_lines {B : Behaviour σ} {d : HDir} {ws : List Version} (hst : ∀ w ∈ ws, Stored d w.name w)
    {t t' : VTable} {s s' : σ} (h : upLoop B d (ws.map Version.name) t s = (t', s', .ok)) :
    upLoopPrinted B d (ws.map Version.name) t s = ws.flatMap appliedLines := by
  induction ws generalizing t s with
  | nil => rfl
  | cons w ws ih =>
    rw [List.map_cons, upLoop, stored_iff.1 (hst w (by simp))] at h
    rw [List.map_cons, upLoopPrinted, stored_iff.1 (hst w (by simp))]
    dsimp only at h ⊢
    cases hx : execAll B s w.up with
    | none => rw [hx] at h; cases h
    | some s₁ =>
      rw [hx] at h
      dsimp only at h ⊢
      cases hi : t.insert B w with
      | mk t₁ b =>
        rw [hi] at h
        cases b with
        | false => cases h
        | true =>
          dsimp only at h ⊢
          rw [ih (fun v hv => hst v (by simp [hv])) h, execPrinted_ok hx]
          rfl

/-- When the loop of `up` panics, the statement after those shown is the one that failed, or, where the
script of a version is shown to its end, recording the version. -/
theorem upLoop_culprit {B : Behaviour σ} {d : HDir} {ws : List Version} (hst : ∀ w ∈ ws, Stored d w.name w)
    {t t' : VTable} {s s' : σ} (h : upLoop B d (ws.map Version.name) t s = (t', s', .panic)) :
    ∃ ran rest, ws.flatMap Version.up = ran ++ rest ∧
      sqlShown (upLoopPrinted B d (ws.map Version.name) t s) = ran ∧
      ((∃ x q more, execAll B s ran = some x ∧ rest = q :: more ∧ B.exec x q = none) ∨
       ∃ vs more, vs ≠ [] ∧ ws = vs ++ more ∧ ran = vs.flatMap Version.up) := by
  induction ws generalizing t s with
  | nil => cases h
  | cons w ws ih =>
    rw [List.map_cons, upLoop, stored_iff.1 (hst w (by simp))] at h
    rw [List.map_cons, upLoopPrinted, stored_iff.1 (hst w (by simp))]
    dsimp only at h ⊢
    rw [sqlShown_cons (no_sql_applying _), sqlShown_append, List.flatMap_cons]
    cases hx : execAll B s w.up with
    | none =>
      obtain ⟨ran, q, rest, x, h1, h2, h3, h4⟩ := execPrinted_fail hx
      refine ⟨ran, q :: (rest ++ ws.flatMap Version.up), by rw [h1]; simp, ?_, .inl ⟨x, q, _, h3, rfl, h4⟩⟩
      rw [h2, sqlShown_sql]
      simp [sqlShown]
    | some s₁ =>
      rw [hx] at h
      dsimp only at h ⊢
      rw [execPrinted_ok hx, sqlShown_sql]
      cases hi : t.insert B w with
      | mk t₁ b =>
        rw [hi] at h
        cases b with
        | false =>
          exact ⟨w.up, ws.flatMap Version.up, rfl, by simp [sqlShown],
            .inr ⟨[w], ws, by simp, rfl, by simp⟩⟩
        | true =>
          obtain ⟨ran, rest, h1, h2, h3⟩ := ih (fun v hv => hst v (by simp [hv])) h
          refine ⟨w.up ++ ran, rest, by rw [h1, List.append_assoc], ?_, ?_⟩
          · dsimp only
            rw [h2]
          · rcases h3 with ⟨x, q, more, h4, h5, h6⟩ | ⟨vs, more, h4, h5, h6⟩
            · exact .inl ⟨x, q, more, by rw [execAll_append, hx]; exact h4, h5, h6⟩
            · exact .inr ⟨w :: vs, more, by simp, by rw [h5]; rfl, by rw [h6]; rfl⟩

theorem downLoop_shown {B : Behaviour σ} {l : List String} {t t' : VTable} {s s' : σ} {o : Outcome}
    (h : downLoop B l t s = (t', s', o)) :
    ∃ x, execAll B s (sqlShown (downLoopPrinted B l t s)) = some x ∧ (o = .ok → x = s') := by
  induction l generalizing t s with
  | nil => cases h; exact ⟨_, rfl, fun _ => rfl⟩
  | cons n l ih =>
    rw [downLoop] at h
    rw [downLoopPrinted]
    cases hg : t.getVersion n with
    | none => rw [hg] at h; cases h; exact ⟨_, rfl, fun h => by cases h⟩
    | some v =>
      rw [hg] at h
      dsimp only at h ⊢
      rw [sqlShown_cons (no_sql_reverting _), sqlShown_append]
      cases hx : execAll B s v.down with
      | none =>
        rw [hx] at h; cases h
        obtain ⟨ran, q, rest, x, _, h2, h3, _⟩ := execPrinted_fail hx
        refine ⟨x, ?_, fun h => by cases h⟩
        rw [h2, sqlShown_sql]
        simpa [sqlShown] using h3
      | some s₁ =>
        rw [hx] at h
        dsimp only at h ⊢
        rw [execPrinted_ok hx, sqlShown_sql, execAll_append, hx, Option.bind_some]
        cases hi : t.delete v with
        | none => rw [hi] at h; cases h; exact ⟨_, rfl, fun h => by cases h⟩
        | some t₁ => rw [hi] at h; exact ih h

/-- Reverting the last rows of a chain: what is printed. -/
theorem IsChain.downLoop_lines (B : Behaviour σ) {a : List Row} (b : List Row) {n : Nat}
    (h : IsChain ⟨a ++ b, n⟩) (s : σ) :
    match execAll B s (b.reverse.flatMap fun r => r.version.down) with
    | some _ => downLoopPrinted B (b.reverse.map fun r => r.version.name) ⟨a ++ b, n⟩ s =
        b.reverse.flatMap fun r => revertedLines r.version
    | none => ∃ ran q rest x, (b.reverse.flatMap fun r => r.version.down) = ran ++ q :: rest ∧
        sqlShown (downLoopPrinted B (b.reverse.map fun r => r.version.name) ⟨a ++ b, n⟩ s) = ran ∧
        execAll B s ran = some x ∧ B.exec x q = none := by
  induction hb : b.length generalizing b s with
  | zero =>
    have : b = [] := List.length_eq_zero_iff.1 hb
    subst this
    simp [downLoopPrinted, execAll]
  | succ k ih =>
    rcases List.eq_nil_or_concat b with rfl | ⟨c, r, rfl⟩
    · simp at hb
    · simp only [List.concat_eq_append] at h hb ⊢
      rw [← List.append_assoc] at h ⊢
      simp only [List.reverse_append, List.reverse_cons, List.reverse_nil, List.nil_append,
        List.singleton_append, List.flatMap_cons, List.map_cons]
      rw [execAll_append, downLoopPrinted]
      have hg : VTable.getVersion ⟨a ++ c ++ [r], n⟩ r.version.name = some r.version := by
        unfold VTable.getVersion
        rw [h.find (r := r) (by simp)]
        rfl
      rw [hg]
      simp only
      cases he : execAll B s r.version.down with
      | none =>
        obtain ⟨ran, q, rest, x, h1, h2, h3, h4⟩ := execPrinted_fail he
        refine ⟨ran, q, rest ++ c.reverse.flatMap fun r => r.version.down, x, by rw [h1]; simp, ?_, h3, h4⟩
        rw [sqlShown_cons (no_sql_reverting _), sqlShown_append, h2, sqlShown_sql]
        simp [sqlShown]
      | some s₁ =>
        simp only [Option.bind_some]
        rw [h.delete_last]
        simp only
        rw [execPrinted_ok he]
        by_cases hac : a ++ c = []
        · simp only [List.append_eq_nil_iff] at hac
          obtain ⟨rfl, rfl⟩ := hac
          simp [downLoopPrinted, execAll, revertedLines]
        · have := ih c (h.take hac) s₁ (by simp at hb; omega)
          split at this
          · next y hy => 
            rw [this]; simp [hy, revertedLines]
          · next hy =>
            obtain ⟨ran, q, rest, x, h1, h2, h3, h4⟩ := this
            refine ⟨r.version.down ++ ran, q, rest, x, by rw [h1, List.append_assoc], ?_, ?_, h4⟩
            · rw [sqlShown_cons (no_sql_reverting _), sqlShown_append, sqlShown_sql, h2]
            · rw [execAll_append, he]; exact h3

/-- Whatever happens, the statements `up` shows ran, in order; if it succeeds they led to the new data. -/
theorem up_shown {B : Behaviour σ} {fuel : Nat} {d : HDir} {target : Option String} {db db' : DB σ}
    {o : Outcome} (h : up B fuel d target db = some (db', o)) :
    ∃ x, execAll B db.data (sqlShown (upPrinted B fuel d target db)) = some x ∧ (o = .ok → x = db'.data) := by
  have nil : ∀ o : Outcome, (o = .ok → db'.data = db.data) →
      ∃ x, execAll B db.data (sqlShown []) = some x ∧ (o = .ok → x = db'.data) :=
    fun o ho => ⟨db.data, rfl, fun h => (ho h).symm⟩
  unfold up at h
  unfold upPrinted
  split at h
  · cases h
  · next hx => rw [hx]; cases h; exact nil _ (fun _ => rfl)
  · next opened hx =>
    rw [hx]; dsimp only
    split at h
    · next hx => rw [hx]; cases h; exact nil _ (fun _ => rfl)
    · next hx => rw [hx]; cases h; exact nil _ (fun _ => rfl)
    · next hx => rw [hx]; cases h; exact nil _ (fun _ => rfl)
    · next t hx =>
      rw [hx]; dsimp only
      split at h
      · next hx => rw [hx]; cases h; exact nil _ (fun _ => rfl)
      · next cur hx =>
        rw [hx]; dsimp only
        split at h
        · next hx => rw [hx]; cases h; exact nil _ (fun _ => rfl)
        · next to hx =>
          rw [hx]; dsimp only
          rw [List.cons_append, List.cons_append, List.nil_append, sqlShown_cons (no_sql_on _),
            sqlShown_cons (no_sql_up _)]
          split at h
          · cases h
          · next hx => rw [hx]; cases h; exact nil _ (fun _ => rfl)
          · next hx =>
            rw [hx]; cases h
            exact nil _ (fun _ => rfl)
          · next versions hne hx =>
            rw [hx]
            split at h
            · next t' s hl =>
              obtain ⟨x, h1, h2⟩ := upLoop_shown hl
              refine ⟨x, by cases versions <;> first | exact h1 | exact absurd hx hne, ?_⟩
              split at h
              · cases h; exact h2
              · cases h; intro h; cases h
            · next t' s o' hno hl =>
              obtain ⟨x, h1, h2⟩ := upLoop_shown hl
              refine ⟨x, by cases versions <;> first | exact h1 | exact absurd hx hne, ?_⟩
              cases h
              intro h
              cases h
              exact (hno rfl).elim

/-- The same for `down`. -/
theorem down_shown (B : Behaviour σ) (target : Option String) (db : DB σ) :
    ∃ x, execAll B db.data (sqlShown (downPrinted B target db)) = some x ∧
      ((down B target db).2 = .ok → x = (down B target db).1.data) := by
  generalize hr : down B target db = r
  have nil : ∀ r : DB σ × Outcome, r.1.data = db.data ∨ r.2 ≠ .ok →
      ∃ x, execAll B db.data (sqlShown []) = some x ∧ (r.2 = .ok → x = r.1.data) :=
    fun r ho => ⟨db.data, rfl, fun h => ho.elim (·.symm) (absurd h)⟩
  unfold down at hr
  unfold downPrinted
  split at hr
  · next hx => rw [hx]; subst hr; exact nil _ (.inl rfl)
  · next hx => rw [hx]; subst hr; exact nil _ (.inl rfl)
  · next hx => rw [hx]; subst hr; exact nil _ (.inl rfl)
  · next t ht =>
    rw [ht]; dsimp only
    split at hr
    · next hx => rw [hx]; subst hr; exact nil _ (.inl rfl)
    · next cur hcur =>
      rw [hcur]; dsimp only
      rw [sqlShown_cons (no_sql_on _)]
      split at hr
      · next hp =>
        rw [hp]
        dsimp only
        rw [sqlShown_cons no_sql_init]
        subst hr; exact nil _ (.inl rfl)
      · next hnn =>
        split
        · next h => exact (hnn rfl h).elim
        · rw [sqlShown_cons (no_sql_down _)]
          split at hr
          · next hx => rw [hx]; subst hr; exact nil _ (.inl rfl)
          · next hx =>
            rw [hx]; dsimp only
            rw [sqlShown_cons no_sql_none]
            subst hr; exact nil _ (.inl rfl)
          · next versions hne hx =>
            rw [hx]
            split at hr
            · next t' s hl =>
              obtain ⟨x, h1, h2⟩ := downLoop_shown hl
              refine ⟨x, by cases versions <;> first | exact h1 | exact absurd hx hne, ?_⟩
              split at hr
              · subst hr; exact h2
              · subst hr; intro h; cases h
            · next t' s o hno hl =>
              obtain ⟨x, h1, h2⟩ := downLoop_shown hl
              refine ⟨x, by cases versions <;> first | exact h1 | exact absurd hx hne, ?_⟩
              subst hr
              intro h
              exact (hno h).elim

/-- What `down` to a recorded version prints. -/
theorem down_to_printed {B : Behaviour σ} {target : Option String} {db : DB σ} {t : VTable}
    (ht : ensureInitialized B db = (.table t, true)) (hch : IsChain t) {a b : List Row} {r l : Row}
    (hrows : t.rows = a ++ r :: b) (hl : (r :: b).getLast? = some l)
    (htar : target = some r.version.name ∨ target = none ∧ ∃ x, b = [x]) :
    downPrinted B target db =
      ["On database version: " ++ l.version.name,
        "Applying downward migrations to " ++ r.version.name ++ ":"] ++
      if b = [] then ["  No migrations to apply."]
      else downLoopPrinted B (b.reverse.map fun x => x.version.name) t db.data := by
  have hl2 : t.rows.getLast? = some l := by rw [hrows, List.getLast?_append, hl]; rfl
  obtain ⟨q, hq⟩ : ∃ q, t.rows = q ++ [l] := by
    rcases List.eq_nil_or_concat t.rows with h | ⟨q, y, h⟩
    · rw [h] at hl2; cases hl2
    · rw [List.concat_eq_append] at h
      rw [h] at hl2
      simp only [List.getLast?_append, List.getLast?_singleton, Option.some_or, Option.some.injEq] at hl2
      exact ⟨q, by rw [h, hl2]⟩
  have hcur := hch.current hq
  have ht' : t = ⟨a ++ r :: b, t.next⟩ := by cases t; simp only at hrows; rw [hrows]
  have hch' : IsChain ⟨a ++ r :: b, t.next⟩ := ht' ▸ hch
  have hrange := hch'.downwardRange hl
  rw [← ht'] at hrange
  have hprev : ∀ x, b = [x] → l.version.previous = some r.version.name := by
    rintro x rfl
    have hl' : l = x := by simpa using hl.symm
    subst hl'
    have := hch.linked
    rw [hrows, show a ++ r :: [l] = (a ++ [r]) ++ l :: [] by simp, List.map_append] at this
    have := this.prev_last
    simpa using this
  have hname : target.getD (l.version.previous.getD "") = r.version.name := by
    rcases htar with rfl | ⟨rfl, x, hx⟩
    · rfl
    · rw [hprev x hx]; rfl
  have hnn : ¬ (target = none ∧ l.version.previous = none) := by
    rintro ⟨h1, h2⟩
    rcases htar with rfl | ⟨_, x, hx⟩
    · cases h1
    · rw [hprev x hx] at h2; cases h2
  unfold downPrinted
  rw [ht]
  simp only [hcur]
  split
  · exact absurd ⟨rfl, by assumption⟩ hnn
  · rw [hname, hrange]
    by_cases hb : b = []
    · subst hb
      simp
    · rw [if_neg hb]
      split
      · next he => simp at he
      · next he =>
        simp only [Option.some.injEq, List.map_eq_nil_iff, List.reverse_eq_nil_iff] at he
        exact absurd he hb
      · next ls hne he =>
        simp only [Option.some.injEq] at he
        subst he
        rfl

/-- What `down` on the initial version prints. -/
theorem down_init_printed {B : Behaviour σ} {db : DB σ} {t : VTable}
    (ht : ensureInitialized B db = (.table t, true)) (hch : IsChain t) {r : Row} (hr : t.rows = [r]) :
    downPrinted B none db = ["On database version: " ++ r.version.name,
      "No migrations to apply. Already on the init version."] := by
  have hcur := hch.current (q := []) (r := r) (by simpa using hr)
  have hp : r.version.previous = none := by
    have := hch.linked; rw [hr] at this; exact this.1
  unfold downPrinted
  rw [ht]
  simp only [hcur, hp]

theorem upPrinted_eq {B : Behaviour σ} {fuel : Nat} {d : HDir} {target : Option String} {db : DB σ}
    {opened : HDir.Opened} {t : VTable} {cur to : Version} {l : List String}
    (hopen : HDir.fromDir fuel d = some (.ok opened)) (ht : ensureInitialized B db = (.table t, true))
    (hcur : t.current = some cur) (hto : d.getVersion (target.getD opened.currentVersion) = .ok to)
    (hl : HDir.upwardRange fuel d cur.name to.name = some (.ok l)) :
    upPrinted B fuel d target db =
      ["On database version: " ++ cur.name, "Applying upward migrations to " ++ to.name ++ ":"] ++
      if l = [] then ["  No migrations to apply."] else upLoopPrinted B d l t db.data := by
  unfold upPrinted
  rw [hopen]; dsimp only
  rw [ht]; dsimp only
  rw [hcur]; dsimp only
  rw [hto]; dsimp only
  rw [hl]
  cases l <;> rfl

/-- What a successful `up` prints. -/
theorem up_lines {B : Behaviour σ} {fuel : Nat} {d : HDir} (hn : StoredNames d) {target : Option String}
    {db db' : DB σ} (hg : Good db) (h : up B fuel d target db = some (db', .ok)) :
    ∃ n cur ws, (target = some n ∨ target = none ∧ Opens d n) ∧ db.applied.getLast? = some cur ∧
      db'.applied = db.applied ++ ws ∧
      upPrinted B fuel d target db =
        ["On database version: " ++ cur.name, "Applying upward migrations to " ++ n ++ ":"] ++
        if ws = [] then ["  No migrations to apply."] else ws.flatMap appliedLines := by
  rcases up_cases h with ⟨_, hc⟩ | ⟨opened, t, hopen, ht, cur, to, l, hcur, hto, hl, hc⟩
  · cases hc
  · rw [upPrinted_eq hopen ht hcur hto hl]
    obtain ⟨hch, happ, htab⟩ := ensure_chain hg ht
    obtain ⟨l', hp, hnot, hl'⟩ := path_of_rangeLoop hn hl
    simp only [List.reverse_nil, List.append_nil] at hl'
    subst hl'
    obtain ⟨ws, hws, hst, hlk, hlast⟩ := path_versions hn hp
    have hto' := hn _ _ (stored_iff.2 hto)
    obtain ⟨q, r, hq⟩ := hch.split_last
    have hcr := hch.current hq
    rw [hcur] at hcr
    cases hcr
    have hlastapp : db.applied.getLast? = some r.version := by rw [← happ, hq]; simp
    refine ⟨to.name, r.version, ws, ?_, hlastapp, ?_⟩
    · cases target with
      | some n => left; rw [hto']; rfl
      | none => right; exact ⟨rfl, fuel, opened.nextMap, by rw [hto']; exact hopen⟩
    · rcases hc with ⟨rfl, rfl, _⟩ | ⟨hne, t', s, o', hu, ⟨rfl, _, rfl, _⟩ | ⟨ho, _⟩⟩
      · have : ws = [] := by simpa using hws
        subst this
        exact ⟨by simp, rfl⟩
      · rw [← hws] at hu
        obtain ⟨h1, h2, h3⟩ := upLoop_ok hst hch hq hlk hu
        refine ⟨by rw [← happ, ← h3]; rfl, ?_⟩
        rw [← hws, upLoop_lines hst hu]
        simp only [List.map_eq_nil_iff]
      · exact absurd rfl ho

theorem up_panic_loop {B : Behaviour σ} {fuel : Nat} {d : HDir} {target : Option String} {db db' : DB σ}
    (h : up B fuel d target db = some (db', .panic)) :
    ∃ opened t, HDir.fromDir fuel d = some (.ok opened) ∧ ensureInitialized B db = (.table t, true) ∧
      ∃ cur to l, t.current = some cur ∧
        d.getVersion (target.getD opened.currentVersion) = .ok to ∧
        HDir.upwardRange fuel d cur.name to.name = some (.ok l) ∧
        ∃ t' s, upLoop B d l t db.data = (t', s, .panic) := by
  unfold up at h
  split at h
  · cases h
  · cases h
  · next opened hopen =>
    split at h
    · cases h
    · cases h
    · cases h
    · next t ht =>
      split at h
      · cases h
      · next cur hcur =>
        split at h
        · cases h
        · next to hto =>
          split at h
          · cases h
          · cases h
          · cases h
          · next l _ hl =>
            split at h
            · split at h <;> cases h
            · next t' s o _ hu =>
              cases h
              exact ⟨opened, t, hopen, ht, cur, to, l, hcur, hto, hl, t', s, hu⟩

/-- What an `up` that panics prints. -/
theorem up_culprit {B : Behaviour σ} {fuel : Nat} {d : HDir} (hn : StoredNames d) {target : Option String}
    {db db' : DB σ} (hg : Good db) (h : up B fuel d target db = some (db', .panic)) :
    ∃ n cur ws ran rest, (target = some n ∨ target = none ∧ Opens d n) ∧
      db.applied.getLast? = some cur ∧ VersionPath d cur.name n (ws.map Version.name) ∧
      cur.name ∉ ws.map Version.name ∧
      (∀ w ∈ ws, Stored d w.name w) ∧ ws.flatMap Version.up = ran ++ rest ∧
      sqlShown (upPrinted B fuel d target db) = ran ∧
      ((∃ x q more, execAll B db.data ran = some x ∧ rest = q :: more ∧ B.exec x q = none) ∨
       ∃ vs more, vs ≠ [] ∧ ws = vs ++ more ∧ ran = vs.flatMap Version.up) := by
  obtain ⟨opened, t, hopen, ht, cur, to, l, hcur, hto, hl, t', s, hu⟩ := up_panic_loop h
  rw [upPrinted_eq hopen ht hcur hto hl]
  obtain ⟨hch, happ, htab⟩ := ensure_chain hg ht
  obtain ⟨l', hp, hnot, hl'⟩ := path_of_rangeLoop hn hl
  simp only [List.reverse_nil, List.append_nil] at hl'
  subst hl'
  obtain ⟨ws, hws, hst, hlk, hlast⟩ := path_versions hn hp
  have hto' := hn _ _ (stored_iff.2 hto)
  obtain ⟨q, r, hq⟩ := hch.split_last
  have hcr := hch.current hq
  rw [hcur] at hcr
  cases hcr
  have hlastapp : db.applied.getLast? = some r.version := by rw [← happ, hq]; simp
  rw [← hws] at hu
  obtain ⟨ran, rest, h1, h2, h3⟩ := upLoop_culprit hst hu
  refine ⟨to.name, r.version, ws, ran, rest, ?_, hlastapp, hws ▸ hp, hws ▸ hnot, hst, h1, ?_, h3⟩
  · cases target with
    | some n => left; rw [hto']; rfl
    | none => right; exact ⟨rfl, fuel, opened.nextMap, by rw [hto']; exact hopen⟩
  · have hne : ws ≠ [] := by rintro rfl; cases hu
    rw [← hws, if_neg (by simpa using hne), List.cons_append, List.cons_append, List.nil_append,
      sqlShown_cons (no_sql_on _), sqlShown_cons (no_sql_up _), h2]

theorem path_unique {d : HDir} {a b : String} {l l' : List String} (h : VersionPath d a b l)
    (h' : VersionPath d a b l') (ha : a ∉ l) (ha' : a ∉ l') : l = l' := by
  induction h generalizing l' with
  | here _ =>
    cases h' with
    | here _ => rfl
    | later _ _ _ => simp at ha'
  | later h1 h2 h3 ih =>
    cases h' with
    | here _ => simp at ha
    | later g1 g2 g3 =>
      have := g2.unique h2
      subst this
      rw [h3] at g3
      cases g3
      rw [ih g1 (fun h => ha (by simp [h])) (fun h => ha' (by simp [h]))]

theorem stored_names_unique {d : HDir} {vs ws : List Version} (h : vs.map Version.name = ws.map Version.name)
    (hv : ∀ v ∈ vs, Stored d v.name v) (hw : ∀ w ∈ ws, Stored d w.name w) : vs = ws := by
  induction vs generalizing ws with
  | nil => cases ws with
    | nil => rfl
    | cons _ _ => cases h
  | cons v vs ih => cases ws with
    | nil => cases h
    | cons w ws =>
      simp only [List.map_cons, List.cons.injEq] at h
      have h1 := hv v (by simp)
      have h2 := hw w (by simp)
      rw [h.1] at h1
      rw [h1.unique h2, ih h.2 (fun x hx => hv x (by simp [hx])) (fun x hx => hw x (by simp [hx]))]

theorem refused_unique {B : Behaviour σ} {s x y : σ} {a b c d : List String} {p q : String}
    (h : a ++ p :: b = c ++ q :: d) (ha : execAll B s a = some x) (hp : B.exec x p = none)
    (hc : execAll B s c = some y) (hq : B.exec y q = none) : a = c := by
  induction a generalizing s c with
  | nil =>
    cases c with
    | nil => rfl
    | cons z c =>
      cases ha
      simp only [List.nil_append, List.cons_append, List.cons.injEq] at h
      rw [execAll, ← h.1, hp] at hc
      cases hc
  | cons z a ih =>
    cases c with
    | nil =>
      cases hc
      simp only [List.nil_append, List.cons_append, List.cons.injEq] at h
      rw [execAll, h.1, hq] at ha
      cases ha
    | cons z' c =>
      simp only [List.cons_append, List.cons.injEq] at h
      obtain ⟨rfl, h⟩ := h
      rw [execAll] at ha hc
      cases hz : B.exec s z with
      | none => rw [hz] at ha; cases ha
      | some s' => rw [hz] at ha hc; rw [ih h ha hc]

theorem reverted_flat (b : List Row) : (b.reverse.flatMap fun x => revertedLines x.version) =
    (b.map Row.version).reverse.flatMap revertedLines := by
  rw [← List.map_reverse, List.flatMap_map]

theorem getLast_version {r l : Row} {b : List Row} (h : (r :: b).getLast? = some l) :
    (r.version :: b.map Row.version).getLast? = some l.version := by
  rw [← List.map_cons, List.getLast?_map, h]; rfl

/-- What a successful `down` to a recorded version prints. -/
theorem down_lines_at {B : Behaviour σ} {target : Option String} {db db' : DB σ} {t : VTable}
    (ht : ensureInitialized B db = (.table t, true)) (hch : IsChain t)
    (happ : t.rows.map Row.version = db.applied) {a b : List Row} {r : Row}
    (hrows : t.rows = a ++ r :: b)
    (htar : target = some r.version.name ∨ target = none ∧ ∃ x, b = [x])
    (h : down B target db = (db', .ok)) :
    ∃ pre v post cur, db.applied = pre ++ v :: post ∧ v = r.version ∧ post = b.map Row.version ∧
      (v :: post).getLast? = some cur ∧
      db'.applied = pre ++ [v] ∧
      downPrinted B target db = ["On database version: " ++ cur.name,
        "Applying downward migrations to " ++ v.name ++ ":"] ++
        if post = [] then ["  No migrations to apply."] else post.reverse.flatMap revertedLines := by
  obtain ⟨l, hl⟩ : ∃ l, (r :: b).getLast? = some l := by
    cases h : (r :: b).getLast? with
    | none => simp at h
    | some l => exact ⟨l, rfl⟩
  refine ⟨a.map Row.version, r.version, b.map Row.version, l.version, by rw [← happ, hrows]; simp, rfl, rfl,
    getLast_version hl, ?_, ?_⟩
  · rw [down_to ht hch hrows htar] at h
    split at h
    · next hb =>
      cases h; subst hb
      rw [← happ, hrows]; simp
    · split at h
      · cases h
      · split at h
        · cases h; simp [DB.applied]
        · cases h
  · rw [down_to_printed ht hch hrows hl htar]
    rw [down_to ht hch hrows htar] at h
    by_cases hb : b = []
    · subst hb; simp
    · rw [if_neg hb] at h ⊢
      rw [if_neg (by simpa using hb), ← reverted_flat]
      have hch' : IsChain ⟨(a ++ [r]) ++ b, t.next⟩ := by
        have : t = ⟨(a ++ [r]) ++ b, t.next⟩ := by
          cases t; simp only at hrows; subst hrows; simp
        rw [← this]; exact hch
      have := IsChain.downLoop_lines B b hch' db.data
      split at h
      · cases h
      · next s hs =>
        rw [hs] at this
        dsimp only at this
        rw [show t = ⟨(a ++ [r]) ++ b, t.next⟩ from by
          cases t; simp only at hrows; subst hrows; simp]
        rw [this]

theorem applied_names {db : DB σ} (hg : Good db) : (db.applied.map Version.name).Nodup := by
  unfold DB.applied
  split
  · simp
  · simp
  · next t ht => rw [List.map_map]; exact (hg t ht).names

theorem split_unique {a b c d : List Version} {x y : Version} (h : a ++ x :: b = c ++ y :: d)
    (hn : ((a ++ x :: b).map Version.name).Nodup) (hxy : x.name = y.name) : b = d := by
  induction a generalizing c with
  | nil =>
    cases c with
    | nil => cases h; rfl
    | cons z c =>
      cases h
      simp only [List.nil_append, List.map_cons, List.nodup_cons] at hn
      exact absurd (List.mem_map.2 ⟨y, by simp, hxy.symm⟩) hn.1
  | cons z a ih =>
    cases c with
    | nil =>
      cases h
      simp only [List.cons_append, List.map_cons, List.nodup_cons] at hn
      exact absurd (List.mem_map.2 ⟨x, by simp, hxy⟩) hn.1
    | cons u c =>
      simp only [List.cons_append, List.cons.injEq] at h
      simp only [List.cons_append, List.map_cons, List.nodup_cons] at hn
      exact ih h.2 hn.2

/-- What a `down` that panics prints. -/
theorem down_culprit {B : Behaviour σ} {target : Option String} {db db' : DB σ} (hg : Good db)
    (h : down B target db = (db', .panic)) :
    ∃ pre v later x q more, db.applied = pre ++ v :: later ∧
      (target = some v.name ∨ target = none ∧ ∃ l, later = [l]) ∧
      later.reverse.flatMap Version.down = sqlShown (downPrinted B target db) ++ q :: more ∧
      execAll B db.data (sqlShown (downPrinted B target db)) = some x ∧ B.exec x q = none := by
  obtain ⟨t, ht⟩ : ∃ t, ensureInitialized B db = (.table t, true) := by
    unfold down at h
    split at h
    · cases h
    · cases h
    · cases h
    · next t ht => exact ⟨t, ht⟩
  obtain ⟨hch, happ, _⟩ := ensure_chain hg ht
  have key : ∀ a r b, t.rows = a ++ r :: b →
      (target = some r.version.name ∨ target = none ∧ ∃ x, b = [x]) →
      ∃ pre v later x q more, db.applied = pre ++ v :: later ∧
        (target = some v.name ∨ target = none ∧ ∃ l, later = [l]) ∧
        later.reverse.flatMap Version.down = sqlShown (downPrinted B target db) ++ q :: more ∧
        execAll B db.data (sqlShown (downPrinted B target db)) = some x ∧ B.exec x q = none := by
    intro a r b hrows htar
    obtain ⟨l, hl⟩ : ∃ l, (r :: b).getLast? = some l := by
      cases h : (r :: b).getLast? with
      | none => simp at h
      | some l => exact ⟨l, rfl⟩
    rw [down_to ht hch hrows htar] at h
    by_cases hb : b = []
    · rw [if_pos hb] at h; cases h
    rw [if_neg hb] at h
    have ht' : t = ⟨(a ++ [r]) ++ b, t.next⟩ := by
      cases t; simp only at hrows; subst hrows; simp
    have hch' : IsChain ⟨(a ++ [r]) ++ b, t.next⟩ := ht' ▸ hch
    have hpr := down_to_printed ht hch hrows hl htar
    have hlines := IsChain.downLoop_lines B b hch' db.data
    rw [if_neg hb, List.cons_append, List.cons_append, List.nil_append] at hpr
    rw [hpr, sqlShown_cons (no_sql_on _), sqlShown_cons (no_sql_down _), ht']
    split at h
    · next he =>
      rw [he] at hlines
      obtain ⟨ran, q, rest, x, h1, h2, h3, h4⟩ := hlines
      refine ⟨a.map Row.version, r.version, b.map Row.version, x, q, rest,
        by rw [← happ, hrows]; simp, htar.imp id fun ⟨h, y, hy⟩ => ⟨h, y.version, by rw [hy]; rfl⟩, ?_, ?_, h4⟩
      · rw [h2, ← List.map_reverse, List.flatMap_map]; exact h1
      · rw [h2]; exact h3
    · split at h <;> cases h
  cases target with
  | some n =>
    by_cases hx : ∃ r ∈ t.rows, r.version.name = n
    · obtain ⟨r, hrm, rfl⟩ := hx
      obtain ⟨a, b, hab⟩ := List.append_of_mem hrm
      exact key a r b hab (.inl rfl)
    · rw [down_unknown ht hch fun r hr he => hx ⟨r, hr, he⟩] at h
      cases h
  | none =>
    obtain ⟨q, r, hq⟩ := hch.split_last
    rcases List.eq_nil_or_concat q with rfl | ⟨a, y, rfl⟩
    · rw [down_init ht hch (by simpa using hq)] at h
      cases h
    · rw [List.concat_eq_append, List.append_assoc] at hq
      exact key a y [r] hq (.inr ⟨rfl, r, rfl⟩)

end Pg
end Podo
