import Verif.Model.Pipe
import Verif.Proofs.Output
import Verif.Proofs.Stderr
/-
Lemmas about standard outputs that do not take everything: each piped function takes the first lines of what is
printed without a pipe, comes to the same if that is all, and panics otherwise.
-/
namespace Podo

theorem printAll_eq (k : Nat) (ls : List String) : printAll k ls = (ls.take k, decide (ls.length ≤ k)) := by
  induction ls generalizing k with
  | nil => cases k <;> simp [printAll]
  | cons l ls ih =>
    cases k with
    | zero => simp [printAll]
    | succ k => rw [printAll, ih]; simp

theorem printAll_all {k : Nat} {ls : List String} (h : ls.length ≤ k) : printAll k ls = (ls, true) := by
  rw [printAll_eq, List.take_of_length_le h, decide_eq_true h]

theorem printAll_cut {k : Nat} {ls : List String} (h : k < ls.length) : printAll k ls = (ls.take k, false) := by
  rw [printAll_eq, decide_eq_false (by omega)]

theorem stageLoopPiped_eq (k : Nat) (cs : List Change) (s : Database) (v : Version) :
    stageLoopPiped k cs s v = ((stageLines cs s).take k,
      if (stageLines cs s).length ≤ k then stageVersion cs s v else .error .panic) := by
  induction cs generalizing k s v with
  | nil => cases k <;> simp [stageLoopPiped, stageLines, stageVersion]
  | cons c cs ih =>
    cases k with
    | zero => simp [stageLoopPiped, stageLines]
    | succ k =>
      rw [stageLoopPiped, stageLines, stageVersion]
      cases hr : c.revert s with
      | error e => simp
      | ok r =>
        dsimp only
        cases ha : c.apply s with
        | error e => simp
        | ok s' =>
          dsimp only
          rw [ih]
          simp

theorem makePiped_eq (k fuel : Nat) (stamp : String) (label : Option String) (d : HDir) {out : List String}
    (ho : makePrinted fuel stamp label d = out) :
    makePiped k fuel stamp label d = (makePlan fuel stamp label d).map fun r =>
      (out.take k, if out.length ≤ k then r else .error .panic) := by
  unfold makePrinted at ho
  unfold makePiped makePlan
  cases hf : HDir.fromDir fuel d with
  | none => rfl
  | some r =>
    rw [hf] at ho
    cases r with
    | error e => subst ho; simp
    | ok o =>
      dsimp only at ho ⊢
      cases hg : d.getVersion "stage" with
      | error e => rw [hg] at ho; subst ho; simp
      | ok v =>
        rw [hg] at ho
        dsimp only at ho ⊢
        by_cases he : v.isEmpty = true
        · rw [if_pos he] at ho
          rw [if_pos he, if_pos he]
          subst ho
          cases k <;> simp [printAll]
        · rw [if_neg he] at ho
          rw [if_neg he, if_neg he]
          subst ho
          cases k <;> simp [printAll]

theorem stagePiped_eq (k fuel : Nat) (defs : Except LoadError Database) (d : HDir) {out : List String}
    (ho : stagePrinted fuel defs d = out) :
    stagePiped k fuel defs d = (stagePlan fuel defs d).map fun r =>
      (out.take k, if out.length ≤ k then r else .error .panic) := by
  unfold stagePrinted at ho
  unfold stagePiped stagePlan
  cases hf : HDir.fromDir fuel d with
  | none => rfl
  | some r =>
    rw [hf] at ho
    cases r with
    | error e => subst ho; simp
    | ok o =>
      dsimp only at ho ⊢
      cases defs with
      | error e => subst ho; simp
      | ok target =>
        dsimp only at ho ⊢
        cases hc : calculateSnapshot fuel d Version.STAGE with
        | none => rfl
        | some r =>
          rw [hc] at ho
          cases r with
          | error e => subst ho; simp
          | ok source =>
            dsimp only at ho ⊢
            cases hg : d.getVersion Version.STAGE with
            | error e => rw [hg] at ho; subst ho; simp
            | ok stage =>
              rw [hg] at ho
              dsimp only at ho ⊢
              generalize Diff.compareDiff source target = cs at ho ⊢
              generalize hp : "Staging changes:" ::
                (if cs.length == 0 then ["    No changes to stage."] else []) = pre
              obtain rfl : out = pre ++ stageLines cs source := by rw [← ho, ← hp]; rfl
              by_cases hk : pre.length ≤ k
              · rw [printAll_all hk]
                dsimp only
                rw [stageLoopPiped_eq]
                by_cases hl : (stageLines cs source).length ≤ k - pre.length
                · rw [if_pos hl]
                  have h1 : (pre ++ stageLines cs source).length ≤ k := by rw [List.length_append]; omega
                  rw [List.take_of_length_le h1, List.take_of_length_le hl]
                  cases stageVersion cs source stage <;> simp only [Option.map_some, if_pos h1]
                · rw [if_neg hl]
                  have h1 : ¬ (pre ++ stageLines cs source).length ≤ k := by rw [List.length_append]; omega
                  rw [List.take_append, List.take_of_length_le hk]
                  cases stageVersion cs source stage <;> simp only [Option.map_some, if_neg h1]
              · rw [printAll_cut (by omega)]
                dsimp only
                have h1 : ¬ (pre ++ stageLines cs source).length ≤ k := by rw [List.length_append]; omega
                have h2 : (pre ++ stageLines cs source).take k = pre.take k := by
                  rw [List.take_append, show k - pre.length = 0 by omega]; simp
                rw [h2]
                cases stageVersion cs source stage <;> simp only [Option.map_some, if_neg h1]

/-- The commands on version files. -/
theorem HistCmd.piped_eq (k fuel : Nat) (c : HistCmd) (d : HDir) :
    c.piped k fuel d = (c.plan fuel d).map fun r =>
      ((c.printed fuel d).take k, if (c.printed fuel d).length ≤ k then r else .error .panic) := by
  cases c with
  | init => simp [piped, plan, printed]
  | reset =>
    simp only [piped, plan, printed]
    cases resetPlan fuel d <;> simp
  | make stamp label => exact makePiped_eq k fuel stamp label d rfl
  | stage defs => exact stagePiped_eq k fuel defs d rfl

namespace Pg
variable {σ : Type} {B : Behaviour σ}

theorem execPiped_eq (k : Nat) (s : σ) (qs : List String) :
    execPiped B k s qs = ((execPrinted B s qs).take k,
      if (execPrinted B s qs).length ≤ k then execAll B s qs else none) := by
  induction qs generalizing k s with
  | nil => cases k <;> simp [execPiped, execPrinted, execAll]
  | cons q qs ih =>
    rw [execPiped.eq_def]
    dsimp only
    rw [execPrinted, execAll]
    cases B.exec s q with
    | none => simp
    | some s' =>
      dsimp only
      cases k with
      | zero => simp
      | succ k => dsimp only; rw [ih]; simp

/-- The loop over the versions to apply, whichever lines are taken. -/
theorem upLoopPiped_eq (d : HDir) (k : Nat) (ns : List String) (t : VTable) (s : σ) :
    ∃ x, upLoopPiped B d k ns t s = ((upLoopPrinted B d ns t s).take k, x) ∧
      ((upLoopPrinted B d ns t s).length ≤ k → x = upLoop B d ns t s) ∧
      (k < (upLoopPrinted B d ns t s).length → x.2.2 = .panic) := by
  induction ns generalizing k t s with
  | nil => exact ⟨(t, s, .ok), by rw [upLoopPiped, upLoopPrinted]; simp, fun _ => by rw [upLoop], fun h => by simp [upLoopPrinted] at h⟩
  | cons n ns ih =>
    rw [upLoopPiped, upLoopPrinted, upLoop]
    cases d.getVersion n with
    | error e => exact ⟨_, by simp, fun _ => rfl, fun h => by simp at h⟩
    | ok v =>
      dsimp only
      cases k with
      | zero => exact ⟨(t, s, .panic), by simp [printAll], fun h => by simp at h, fun _ => rfl⟩
      | succ k =>
        rw [printAll_all (by simp), Nat.add_sub_cancel]
        dsimp only
        rw [execPiped_eq]
        by_cases hl : (execPrinted B s v.up).length ≤ k
        · rw [if_pos hl, List.take_of_length_le hl]
          cases execAll B s v.up with
          | none =>
            exact ⟨_, by simp [List.take_of_length_le hl], fun _ => rfl, fun _ => rfl⟩
          | some s' =>
            dsimp only
            rcases t.insert B v with ⟨t', ok⟩
            cases ok with
            | false =>
              exact ⟨_, by simp [List.take_of_length_le hl], fun _ => rfl, fun _ => rfl⟩
            | true =>
              dsimp only
              obtain ⟨x, h1, h2, h3⟩ := ih (k - (execPrinted B s v.up).length) t' s'
              rw [h1]
              refine ⟨x, ?_, fun h => h2 ?_, fun h => h3 ?_⟩
              · simp [List.take_append, List.take_of_length_le hl]
              · simp at h; omega
              · simp at h; omega
        · rw [if_neg hl]
          refine ⟨(t, s, .panic), ?_, fun h => ?_, fun _ => rfl⟩
          · cases execAll B s v.up with
            | none => simp
            | some s' =>
              simp only [List.take_succ_cons, Prod.mk.injEq, List.cons_append, List.nil_append, and_true, List.cons.injEq, true_and]
              rw [List.take_append, show k - (execPrinted B s v.up).length = 0 by omega]; simp
          · exfalso
            simp only [List.length_cons, List.length_append] at h
            omega

theorem downLoopPiped_eq (k : Nat) (ns : List String) (t : VTable) (s : σ) :
    ∃ x, downLoopPiped B k ns t s = ((downLoopPrinted B ns t s).take k, x) ∧
      ((downLoopPrinted B ns t s).length ≤ k → x = downLoop B ns t s) ∧
      (k < (downLoopPrinted B ns t s).length → x.2.2 = .panic) := by
  induction ns generalizing k t s with
  | nil => exact ⟨(t, s, .ok), by rw [downLoopPiped, downLoopPrinted]; simp, fun _ => by rw [downLoop], fun h => by simp [downLoopPrinted] at h⟩
  | cons n ns ih =>
    rw [downLoopPiped, downLoopPrinted, downLoop]
    cases t.getVersion n with
    | none => exact ⟨_, by simp, fun _ => rfl, fun h => by simp at h⟩
    | some v =>
      dsimp only
      cases k with
      | zero => exact ⟨(t, s, .panic), by simp [printAll], fun h => by simp at h, fun _ => rfl⟩
      | succ k =>
        rw [printAll_all (by simp), Nat.add_sub_cancel]
        dsimp only
        rw [execPiped_eq]
        by_cases hl : (execPrinted B s v.down).length ≤ k
        · rw [if_pos hl, List.take_of_length_le hl]
          cases execAll B s v.down with
          | none =>
            exact ⟨_, by simp [List.take_of_length_le hl], fun _ => rfl, fun _ => rfl⟩
          | some s' =>
            dsimp only
            cases t.delete v with
            | none =>
              exact ⟨_, by simp [List.take_of_length_le hl], fun _ => rfl, fun _ => rfl⟩
            | some t' =>
              dsimp only
              obtain ⟨x, h1, h2, h3⟩ := ih (k - (execPrinted B s v.down).length) t' s'
              rw [h1]
              refine ⟨x, ?_, fun h => h2 ?_, fun h => h3 ?_⟩
              · simp [List.take_append, List.take_of_length_le hl]
              · simp at h; omega
              · simp at h; omega
        · rw [if_neg hl]
          refine ⟨(t, s, .panic), ?_, fun h => ?_, fun _ => rfl⟩
          · cases execAll B s v.down with
            | none => simp
            | some s' =>
              simp only [List.take_succ_cons, Prod.mk.injEq, List.cons_append, List.nil_append, and_true, List.cons.injEq, true_and]
              rw [List.take_append, show k - (execPrinted B s v.down).length = 0 by omega]; simp
          · exfalso
            simp only [List.length_cons, List.length_append] at h
            omega

/-- `up`, whichever lines are taken. -/
theorem upPiped_ends {k fuel : Nat} {d : HDir} {target : Option String} {db db' : DB σ} {o : Outcome}
    (h : up B fuel d target db = some (db', o)) :
    ((upPrinted B fuel d target db).length ≤ k →
      upPiped B k fuel d target db = some (upPrinted B fuel d target db, db', o)) ∧
    (k < (upPrinted B fuel d target db).length →
      ∃ m, upPiped B k fuel d target db = some ((upPrinted B fuel d target db).take k, db.rollback m, .panic)) := by
  unfold up at h
  unfold upPiped upPrinted
  split at h
  · cases h
  · next hf => cases h; rw [hf]; simp
  · next opened hf =>
    rw [hf]
    dsimp only
    split at h
    · next hi => cases h; rw [hi]; simp
    · next hi => cases h; rw [hi]; simp
    · next hi => cases h; rw [hi]; simp
    · next t hi =>
      rw [hi]
      dsimp only
      split at h
      · next hc => cases h; rw [hc]; simp
      · next current hc =>
        rw [hc]
        dsimp only
        split at h
        · next hg => cases h; rw [hg]; simp
        · next to hg =>
          rw [hg]
          dsimp only
          rcases k with _ | _ | k
          · refine ⟨fun h' => by simp at h', fun _ => ⟨.table t, ?_⟩⟩
            rw [printAll_cut (by simp)]; simp
          · refine ⟨fun h' => by simp at h', fun _ => ⟨.table t, ?_⟩⟩
            rw [printAll_cut (by simp)]; simp
          · rw [printAll_all (by simp)]
            dsimp only
            split at h
            · cases h
            · next hr => cases h; rw [hr]; simp
            · next hr =>
              cases h
              rw [hr]
              cases k with
              | zero => exact ⟨fun h' => by simp at h', fun _ => ⟨.table t, by simp [printAll]⟩⟩
              | succ k => exact ⟨fun _ => by simp [printAll], fun h' => absurd h' (by simp)⟩
            · next versions hne hr =>
              rw [hr]
              cases versions with
              | nil => exact absurd rfl hne
              | cons n ns =>
              dsimp only at h ⊢
              obtain ⟨x, h1, h2, h3⟩ := upLoopPiped_eq (B := B) d k (n :: ns) t db.data
              rw [show k + 1 + 1 - 2 = k by omega, h1]
              refine ⟨fun hl => ?_, fun hl => ?_⟩
              · have hl' : (upLoopPrinted B d (n :: ns) t db.data).length ≤ k := by simp at hl; omega
                rw [List.take_of_length_le hl', h2 hl']
                generalize upLoopPrinted B d (n :: ns) t db.data = out
                generalize upLoop B d (n :: ns) t db.data = r at h ⊢
                obtain ⟨t', s, o'⟩ := r
                cases o' with
                | ok =>
                  dsimp only at h ⊢
                  split at h
                  · next hcm => cases h; rw [if_pos hcm]
                  · next hcm => cases h; rw [if_neg hcm]
                | error => cases h; rfl
                | panic => cases h; rfl
              · have hl' : k < (upLoopPrinted B d (n :: ns) t db.data).length := by simp at hl; omega
                have := h3 hl'
                obtain ⟨t', s, o'⟩ := x
                dsimp only at this
                subst this
                exact ⟨.table t', by simp⟩

/-- `down`, whichever lines are taken. -/
theorem downPiped_ends (k : Nat) (target : Option String) (db : DB σ) :
    ((downPrinted B target db).length ≤ k →
      downPiped B k target db = (downPrinted B target db, down B target db)) ∧
    (k < (downPrinted B target db).length →
      ∃ m, downPiped B k target db = ((downPrinted B target db).take k, db.rollback m, .panic)) := by
  unfold downPiped downPrinted down
  rcases hi : ensureInitialized B db with ⟨m, b⟩
  cases b with
  | false => simp
  | true =>
    cases m with
    | absent => simp
    | noTable => simp
    | table t =>
      dsimp only
      cases hc : t.current with
      | none => simp
      | some current =>
        dsimp only
        cases k with
        | zero =>
          refine ⟨fun h' => by simp at h', fun _ => ⟨.table t, ?_⟩⟩
          rw [printAll_cut (by simp)]; simp
        | succ k =>
          rw [printAll_all (by simp)]
          dsimp only
          rw [show k + 1 - 1 = k by omega]
          rcases target with _ | tg <;> rcases hp : current.previous with _ | pv
          · dsimp only
            cases k with
            | zero =>
              refine ⟨fun h' => by simp at h', fun _ => ⟨.table t, ?_⟩⟩
              rw [printAll_cut (by simp)]; simp
            | succ k => exact ⟨fun _ => by rw [printAll_all (by simp)]; simp, fun h' => absurd h' (by simp)⟩
          all_goals
            dsimp only
            cases k with
            | zero =>
              refine ⟨fun h' => by simp at h', fun _ => ⟨.table t, ?_⟩⟩
              rw [printAll_cut (by simp)]; simp
            | succ k =>
              rw [printAll_all (by simp)]
              dsimp only
              rw [show k + 1 + 1 - 2 = k by omega]
              generalize t.downwardRange current.name _ = r
              cases r with
              | none => exact ⟨fun _ => by simp, fun h' => absurd h' (by simp)⟩
              | some l =>
                cases l with
                | nil =>
                  cases k with
                  | zero =>
                    refine ⟨fun h' => by simp at h', fun _ => ⟨.table t, ?_⟩⟩
                    dsimp only
                    rw [printAll_cut (by simp)]; simp
                  | succ k =>
                    exact ⟨fun _ => by dsimp only; rw [printAll_all (by simp)]; simp, fun h' => absurd h' (by simp)⟩
                | cons n ns =>
                  dsimp only
                  obtain ⟨x, h1, h2, h3⟩ := downLoopPiped_eq (B := B) k (n :: ns) t db.data
                  rw [h1]
                  refine ⟨fun hl => ?_, fun hl => ?_⟩
                  · have hl' : (downLoopPrinted B (n :: ns) t db.data).length ≤ k := by simp at hl; omega
                    rw [List.take_of_length_le hl', h2 hl']
                    rcases downLoop B (n :: ns) t db.data with ⟨t', s, o⟩
                    cases o
                    · dsimp only; split <;> simp
                    · simp
                    · simp
                  · have hl' : k < (downLoopPrinted B (n :: ns) t db.data).length := by simp at hl; omega
                    have := h3 hl'
                    obtain ⟨t', s, o'⟩ := x
                    dsimp only at this
                    subst this
                    exact ⟨.table t', by simp⟩

/-- `up` that is stopped by its output has left nothing, even where it would have gone on for ever. -/
theorem upPiped_any {k fuel : Nat} {d : HDir} {target : Option String} {db db' : DB σ} {out : List String}
    {o : Outcome} (h : upPiped B k fuel d target db = some (out, db', o)) (hn : up B fuel d target db = none) :
    o = .panic ∧ out.length = k ∧ k < 2 ∧ ∃ m, db' = db.rollback m := by
  unfold up at hn
  unfold upPiped at h
  split at hn
  · next hf => rw [hf] at h; cases h
  · cases hn
  · next opened hf =>
    rw [hf] at h
    dsimp only at h
    split at hn
    · cases hn
    · cases hn
    · cases hn
    · next t hi =>
      rw [hi] at h
      dsimp only at h
      split at hn
      · cases hn
      · next current hc =>
        rw [hc] at h
        dsimp only at h
        split at hn
        · cases hn
        · next to hg =>
          rw [hg] at h
          dsimp only at h
          rcases k with _ | _ | k
          · rw [printAll_cut (by simp)] at h
            cases h
            exact ⟨rfl, rfl, by omega, .table t, rfl⟩
          · rw [printAll_cut (by simp)] at h
            cases h
            exact ⟨rfl, rfl, by omega, .table t, rfl⟩
          · rw [printAll_all (by simp)] at h
            dsimp only at h
            split at hn
            · next hr => rw [hr] at h; cases h
            · cases hn
            · cases hn
            · split at hn
              · split at hn <;> cases hn
              · cases hn

theorem upPiped_mono {k n m : Nat} (hnm : n ≤ m) {d : HDir} {target : Option String} {db : DB σ}
    {r : List String × DB σ × Outcome} (h : upPiped B k n d target db = some r) :
    upPiped B k m d target db = some r := by
  unfold upPiped at h ⊢
  cases hf : HDir.fromDir n d with
  | none => rw [hf] at h; cases h
  | some x =>
    rw [hf] at h
    rw [fromDir_mono hnm hf]
    cases x with
    | error e => exact h
    | ok opened =>
      dsimp only at h ⊢
      rcases hi : ensureInitialized B db with ⟨y, b⟩
      rw [hi] at h
      cases b with
      | false => exact h
      | true =>
        cases y with
        | absent => exact h
        | noTable => exact h
        | table t =>
          dsimp only at h ⊢
          cases hc : t.current with
          | none => rw [hc] at h; exact h
          | some current =>
            rw [hc] at h
            dsimp only at h ⊢
            cases hg : d.getVersion (target.getD opened.currentVersion) with
            | error e => rw [hg] at h; exact h
            | ok to =>
              rw [hg] at h
              dsimp only at h ⊢
              rcases hp : printAll k ["On database version: " ++ current.name,
                "Applying upward migrations to " ++ to.name ++ ":"] with ⟨out, b⟩
              rw [hp] at h
              cases b with
              | false => exact h
              | true =>
                dsimp only at h ⊢
                cases hr : HDir.upwardRange n d current.name to.name with
                | none => rw [hr] at h; cases h
                | some x => rw [hr] at h; rw [upwardRange_mono hnm hr]; exact h

end Pg

namespace Prog
open Proj
variable {σ : Type}

/-- What a command that writes no database does when standard output takes `k` lines. -/
def cutAt (k : Nat) (w : World σ) : World σ × List String × Ending → World σ × List String × Ending
  | (w', out, e) => if out.length ≤ k then (w', out, e) else (w, out.take k, .panic)

theorem statusPiped_eq (S : Setting σ) (k fuel : Nat) (w : World σ) (h ds : Proj.Path) (url ms : String) :
    statusPiped S k fuel w h ds url ms = (statusIn S fuel w h ds url ms).map fun r =>
      if r.1.length ≤ k then r else (r.1.take k, .panic) := by
  unfold statusPiped statusIn
  cases HDir.fromDir fuel (w.fs.history h) with
  | none => rfl
  | some x =>
    cases x with
    | error e => simp
    | ok o =>
      dsimp only
      cases definitions w.fs ds with
      | error e => simp
      | ok target =>
        dsimp only
        cases (w.fs.history h).getVersion Version.STAGE with
        | error e => simp
        | ok stage =>
          dsimp only
          cases calculateSnapshot fuel (w.fs.history h) Version.STAGE with
          | none => rfl
          | some x =>
            cases x with
            | error e => simp
            | ok snapshot =>
              dsimp only
              generalize statusLines (tryCurrentVersion S w url ms) _ _ = out
              by_cases hk : out.length ≤ k
              · rw [printAll_all hk]; simp [hk]
              · rw [printAll_cut (by omega)]; simp [hk]

theorem runHistPiped_eq (k fuel : Nat) (w : World σ) (h : Proj.Path) (c : HistCmd) :
    runHistPiped k fuel w h c = (runHist fuel w h c).map (cutAt k w) := by
  unfold runHistPiped runHist
  rw [HistCmd.piped_eq]
  cases c.plan fuel (w.fs.history h) with
  | none => rfl
  | some r =>
    dsimp only [Option.map_some]
    by_cases hk : (c.printed fuel (w.fs.history h)).length ≤ k
    · rw [if_pos hk, List.take_of_length_le hk]
      cases r <;> simp only [Option.map_some, cutAt, if_pos hk]
    · rw [if_neg hk]
      cases r <;> simp only [Option.map_some, cutAt, if_neg hk] <;> rfl

/-- The commands other than `up` and `down`. -/
theorem runPiped_eq (S : Setting σ) (k fuel : Nat) (w : World σ) (cwd : Proj.Path) {a : Args}
    (hu : ∀ p v, a ≠ .up p v) (hd : ∀ p v, a ≠ .down p v) :
    runPiped S k fuel w cwd a = (run S fuel w cwd a).map (cutAt k w) := by
  cases a with
  | up p v => exact absurd rfl (hu p v)
  | down p v => exact absurd rfl (hd p v)
  | clone => simp [runPiped, run, cutAt]
  | print => simp [runPiped, run, cutAt]
  | sync p => simp [runPiped, run, cutAt]
  | init =>
    simp only [runPiped, run]
    rcases hi : Proj.init S.env w.fs cwd with ⟨fs, e⟩
    cases e with
    | exists_ base =>
      have hfs : fs = w.fs := by
        unfold Proj.init at hi
        split at hi
        · injection hi with a b; exact a.symm
        · exfalso
          dsimp only at hi
          repeat' split at hi
          all_goals (injection hi with a b; cases b)
      subst hfs
      dsimp only
      cases k with
      | zero => rw [printAll_cut (by simp)]; simp [cutAt]
      | succ k => rw [printAll_all (by simp)]; simp [cutAt]
    | done => simp [cutAt]
    | failed => simp [cutAt]
    | panic => simp [cutAt]
  | status p =>
    simp only [runPiped, run]
    cases discover S.env w.fs cwd with
    | error e => simp [cutAt]
    | ok q =>
      dsimp only
      cases q.historyDir DEFAULT_PROFILE with
      | error e => simp [cutAt]
      | ok h =>
        cases q.definitionsDir DEFAULT_PROFILE with
        | error e => simp [cutAt]
        | ok ds =>
          cases q.databaseUrl p with
          | error e => simp [cutAt]
          | ok url =>
            cases q.metadataSchema p with
            | error e => simp [cutAt]
            | ok ms =>
              dsimp only
              rw [statusPiped_eq]
              cases statusIn S fuel w h ds url ms with
              | none => rfl
              | some r =>
                obtain ⟨out, e⟩ := r
                by_cases hk : out.length ≤ k <;> simp [cutAt, hk]
  | stage p =>
    simp only [runPiped, run]
    cases discover S.env w.fs cwd with
    | error e => simp [cutAt]
    | ok q =>
      dsimp only
      cases q.historyDir p with
      | error e => simp [cutAt]
      | ok h =>
        cases q.definitionsDir p with
        | error e => simp [cutAt]
        | ok ds => exact runHistPiped_eq ..
  | reset p =>
    simp only [runPiped, run]
    cases discover S.env w.fs cwd with
    | error e => simp [cutAt]
    | ok q =>
      dsimp only
      cases q.historyDir p with
      | error e => simp [cutAt]
      | ok h => exact runHistPiped_eq ..
  | make p v =>
    simp only [runPiped, run]
    cases discover S.env w.fs cwd with
    | error e => simp [cutAt]
    | ok q =>
      dsimp only
      cases q.historyDir p with
      | error e => simp [cutAt]
      | ok h => exact runHistPiped_eq ..

/-- A command that ends: with the lines it prints taken, and with some of them not. -/
theorem runPiped_ends {S : Setting σ} {k fuel : Nat} {w w' : World σ} {cwd : Proj.Path} {a : Args}
    {out : List String} {e : Ending} (h : run S fuel w cwd a = some (w', out, e)) :
    (out.length ≤ k → runPiped S k fuel w cwd a = some (w', out, e)) ∧
    (k < out.length → ∃ w₂, runPiped S k fuel w cwd a = some (w₂, out.take k, .panic) ∧
      w₂.fs = w.fs ∧ SameServers w w₂) := by
  by_cases hu : ∃ p v, a = .up p v
  · obtain ⟨p, v, rfl⟩ := hu
    simp only [run, runPiped] at h ⊢
    cases hd : discover S.env w.fs cwd with
    | error x => rw [hd] at h; cases h; simp
    | ok q =>
      rw [hd] at h
      dsimp only at h ⊢
      cases h1 : q.historyDir DEFAULT_PROFILE with
      | error x => rw [h1] at h; cases h; simp
      | ok hist =>
        cases h2 : q.databaseUrl p with
        | error x => rw [h1, h2] at h; cases h; simp
        | ok url =>
          cases h3 : q.metadataSchema p with
          | error x => rw [h1, h2, h3] at h; cases h; simp
          | ok ms =>
            rw [h1, h2, h3] at h
            dsimp only at h ⊢
            cases hs : w.servers url with
            | none => rw [hs] at h; cases h; simp
            | some s =>
              rw [hs] at h
              dsimp only at h ⊢
              cases ho : openMeta S s ms with
              | none =>
                rw [ho] at h
                dsimp only at h ⊢
                cases hf : HDir.fromDir fuel (w.fs.history hist) with
                | none => rw [hf] at h; cases h
                | some x => rw [hf] at h; cases h; simp
              | some m =>
                rw [ho] at h
                dsimp only at h ⊢
                cases hp : Pg.up S.B fuel (w.fs.history hist) v ⟨s.metas m, s.data⟩ with
                | none => rw [hp] at h; cases h
                | some r =>
                  obtain ⟨db, o⟩ := r
                  rw [hp] at h
                  cases h
                  obtain ⟨f1, f2⟩ := Pg.upPiped_ends (k := k) hp
                  refine ⟨fun hl => by rw [f1 hl], fun hl => ?_⟩
                  obtain ⟨m', hm⟩ := f2 hl
                  exact ⟨putServer w url m s (Pg.DB.rollback ⟨s.metas m, s.data⟩ m'), by rw [hm]; rfl, rfl,
                    putServer_same hs (Pg.rollback_unchanged _ _)⟩
  · by_cases hdn : ∃ p v, a = .down p v
    · obtain ⟨p, v, rfl⟩ := hdn
      simp only [run, runPiped] at h ⊢
      cases hd : discover S.env w.fs cwd with
      | error x => rw [hd] at h; cases h; simp
      | ok q =>
        rw [hd] at h
        dsimp only at h ⊢
        cases h2 : q.databaseUrl p with
        | error x => rw [h2] at h; cases h; simp
        | ok url =>
          cases h3 : q.metadataSchema p with
          | error x => rw [h2, h3] at h; cases h; simp
          | ok ms =>
            rw [h2, h3] at h
            dsimp only at h ⊢
            cases hs : w.servers url with
            | none => rw [hs] at h; cases h; simp
            | some s =>
              rw [hs] at h
              dsimp only at h ⊢
              cases ho : openMeta S s ms with
              | none => rw [ho] at h; cases h; simp
              | some m =>
                rw [ho] at h
                dsimp only at h ⊢
                obtain ⟨f1, f2⟩ := Pg.downPiped_ends (B := S.B) k v ⟨s.metas m, s.data⟩
                rcases hp : Pg.down S.B v ⟨s.metas m, s.data⟩ with ⟨db, o⟩
                rw [hp] at h f1
                cases h
                refine ⟨fun hl => by rw [f1 hl], fun hl => ?_⟩
                obtain ⟨m', hm⟩ := f2 hl
                exact ⟨putServer w url m s (Pg.DB.rollback ⟨s.metas m, s.data⟩ m'), by rw [hm]; rfl, rfl,
                    putServer_same hs (Pg.rollback_unchanged _ _)⟩
    · rw [runPiped_eq S k fuel w cwd (fun p v h => hu ⟨p, v, h⟩) (fun p v h => hdn ⟨p, v, h⟩), h]
      refine ⟨fun hl => by simp [cutAt, hl], fun hl => ⟨w, ?_, rfl, sameServers_refl w rfl⟩⟩
      simp [cutAt, show ¬ out.length ≤ k by omega]

/-- A command that does not end, but is stopped by its output. -/
theorem runPiped_forever {S : Setting σ} {k fuel : Nat} {w w' : World σ} {cwd : Proj.Path} {a : Args}
    {out : List String} {e : Ending} (h : runPiped S k fuel w cwd a = some (w', out, e))
    (hn : run S fuel w cwd a = none) :
    e = .panic ∧ out.length = k ∧ k < 2 ∧ w'.fs = w.fs ∧ SameServers w w' := by
  by_cases hu : ∃ p v, a = .up p v
  · obtain ⟨p, v, rfl⟩ := hu
    simp only [run, runPiped] at h hn
    split at hn
    · cases hn
    · next q hd =>
      rw [hd] at h
      dsimp only at h
      split at hn
      · next hist url ms h1 h2 h3 =>
        rw [h1, h2, h3] at h
        dsimp only at h
        split at hn
        · cases hn
        · next s hs =>
          rw [hs] at h
          dsimp only at h
          split at hn
          · next ho =>
            rw [ho] at h
            dsimp only at h
            split at hn
            · next hf => rw [hf] at h; cases h
            · cases hn
          · next m ho =>
            rw [ho] at h
            dsimp only at h
            split at hn
            · next hp =>
              split at h
              · cases h
              · next hq =>
                cases h
                obtain ⟨rfl, h2, h3, m', rfl⟩ := Pg.upPiped_any hq hp
                exact ⟨rfl, h2, h3, rfl, putServer_same hs (Pg.rollback_unchanged _ _)⟩
            · cases hn
      · cases hn
  · by_cases hdn : ∃ p v, a = .down p v
    · obtain ⟨p, v, rfl⟩ := hdn
      exfalso
      simp only [run] at hn
      repeat' split at hn
      all_goals cases hn
    · rw [runPiped_eq S k fuel w cwd (fun p v h => hu ⟨p, v, h⟩) (fun p v h => hdn ⟨p, v, h⟩), hn] at h
      cases h

theorem runPiped_mono {S : Setting σ} {k n m : Nat} (hnm : n ≤ m) {w : World σ} {cwd : Proj.Path} {a : Args}
    {r : World σ × List String × Ending} (h : runPiped S k n w cwd a = some r) :
    runPiped S k m w cwd a = some r := by
  by_cases hu : ∃ p v, a = .up p v
  · obtain ⟨p, v, rfl⟩ := hu
    simp only [runPiped] at h ⊢
    cases hd : discover S.env w.fs cwd with
    | error x => rw [hd] at h; exact h
    | ok q =>
      rw [hd] at h
      dsimp only at h ⊢
      cases h1 : q.historyDir DEFAULT_PROFILE with
      | error x => rw [h1] at h; exact h
      | ok hist =>
        cases h2 : q.databaseUrl p with
        | error x => rw [h1, h2] at h; exact h
        | ok url =>
          cases h3 : q.metadataSchema p with
          | error x => rw [h1, h2, h3] at h; exact h
          | ok ms =>
            rw [h1, h2, h3] at h
            dsimp only at h ⊢
            cases hs : w.servers url with
            | none => rw [hs] at h; exact h
            | some s =>
              rw [hs] at h
              dsimp only at h ⊢
              cases ho : openMeta S s ms with
              | none =>
                rw [ho] at h
                dsimp only at h ⊢
                cases hf : HDir.fromDir n (w.fs.history hist) with
                | none => rw [hf] at h; cases h
                | some x => rw [hf] at h; rw [fromDir_mono hnm hf]; exact h
              | some i =>
                rw [ho] at h
                dsimp only at h ⊢
                cases hp : Pg.upPiped S.B k n (w.fs.history hist) v ⟨s.metas i, s.data⟩ with
                | none => rw [hp] at h; cases h
                | some x => rw [hp] at h; rw [Pg.upPiped_mono hnm hp]; exact h
  · by_cases hdn : ∃ p v, a = .down p v
    · obtain ⟨p, v, rfl⟩ := hdn
      exact h
    · have e := fun f => runPiped_eq S k f w cwd (fun p v h => hu ⟨p, v, h⟩) (fun p v h => hdn ⟨p, v, h⟩)
      rw [e] at h ⊢
      cases hr : run S n w cwd a with
      | none => rw [hr] at h; cases h
      | some x => rw [(run_settled hnm (by rw [hr]; simp)).1]; exact h

theorem runPiped_up {S : Setting σ} {k fuel : Nat} {w : World σ} {cwd : Proj.Path} {name : String} {q₀ q : Profile}
    (hq₀ : ProfileAt S.env w.fs cwd "database" q₀) (hq : ProfileAt S.env w.fs cwd name q)
    (hi : S.ident q.metadataSchema = some q.metadataSchema)
    (target : Option String) {s : Server σ} (hs : w.servers q.databaseUrl = some s) :
    runPiped S k fuel w cwd (.up name target) =
      (Pg.upPiped S.B k fuel (w.fs.history q₀.history) target (s.db q.metadataSchema)).map
        fun r => (putServer w q.databaseUrl q.metadataSchema s r.2.1, r.1, pgEnding r.2.2) := by
  obtain ⟨p, hp, h0, h⟩ := profileAt_default hq₀ hq
  obtain ⟨h1, _, _, _⟩ := profile_dirs h0
  obtain ⟨_, _, h2, h3⟩ := profile_dirs h
  change p.historyDir DEFAULT_PROFILE = _ at h1
  simp only [runPiped, hp, h1, h2, h3, hs, Server.db, openMeta_self hi]
  split
  · next h => rw [h]; rfl
  · next h => rw [h]; rfl

end Prog
end Podo
