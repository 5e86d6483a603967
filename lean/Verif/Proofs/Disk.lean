import Verif.Spec.Disk
import Verif.Proofs.Program
import Verif.Proofs.Initial
import Verif.Proofs.Repair
/-
Lemmas about disks that refuse or break off what is written.
-/
namespace Podo

theorem saveOn_true {d d' : HDir} {v : Version} {x : Write} (h : d.saveOn v x = (d', true)) :
    d.save v = some d' := by
  cases x with
  | done =>
    simp only [HDir.saveOn] at h
    split at h
    · cases h
    · next hs => cases h; exact hs
  | refused => cases h
  | torn =>
    simp only [HDir.saveOn] at h
    split at h <;> cases h
  | cut l =>
    simp only [HDir.saveOn] at h
    split at h
    · cases h
    · split at h <;> cases h

theorem saveOn_false {d d' : HDir} {v : Version} {x : Write} (h : d.saveOn v x = (d', false)) (vs : List Version) :
    CrashState d (v :: vs) d' := by
  cases x with
  | done =>
    simp only [HDir.saveOn] at h
    split at h
    · cases h; exact .before _ _
    · cases h
  | refused => cases h; exact .before _ _
  | torn =>
    simp only [HDir.saveOn] at h
    split at h
    · cases h; exact .before _ _
    · next hs => cases h; exact .truncated hs
  | cut l =>
    simp only [HDir.saveOn] at h
    split at h
    · cases h; exact .before _ _
    · next hs =>
      split at h
      · cases h; exact .truncated hs
      · next he => cases h; exact .cut l hs (by rintro e; rw [e] at he; exact he rfl)

theorem saveAllOn_fine (d : HDir) (vs : List Version) : d.saveAllOn (fun _ => .done) vs = d.saveAll vs := by
  induction vs generalizing d with
  | nil => rfl
  | cons v vs ih =>
    simp only [HDir.saveAllOn, HDir.saveAll, HDir.saveOn]
    cases d.save v with
    | none => rfl
    | some d' => exact ih d'

theorem saveAllOn_true {f : Nat → Write} {d d' : HDir} {vs : List Version} (h : d.saveAllOn f vs = (d', true)) :
    d.saveAll vs = (d', true) := by
  induction vs generalizing d f with
  | nil => exact h
  | cons v vs ih =>
    simp only [HDir.saveAllOn] at h
    split at h
    · cases h
    · next hs => rw [HDir.saveAll, saveOn_true hs]; exact ih h

theorem saveAllOn_crash (f : Nat → Write) (d : HDir) (vs : List Version) :
    CrashState d vs (d.saveAllOn f vs).1 := by
  induction vs generalizing d f with
  | nil => exact .before _ _
  | cons v vs ih =>
    simp only [HDir.saveAllOn]
    split
    · next hs => exact saveOn_false hs vs
    · next hs => exact .saved (saveOn_true hs) (ih _ _)

/-- Whatever a process that is killed can leave behind, some disk can. -/
theorem crash_disk {d d' : HDir} {vs : List Version} (h : CrashState d vs d') :
    ∃ f, (d.saveAllOn f vs).1 = d' := by
  induction h with
  | before d vs =>
    refine ⟨fun _ => .refused, ?_⟩
    cases vs <;> rfl
  | truncated hs =>
    refine ⟨fun _ => .torn, ?_⟩
    simp only [HDir.saveAllOn, HDir.saveOn, hs]
  | cut l hs hne =>
    refine ⟨fun _ => .cut l, ?_⟩
    simp only [HDir.saveAllOn, HDir.saveOn, hs]
    rw [if_neg (by simpa using hne)]
  | saved hs _ ih =>
    obtain ⟨f, hf⟩ := ih
    refine ⟨fun i => match i with | 0 => .done | i + 1 => f i, ?_⟩
    simp only [HDir.saveAllOn, HDir.saveOn, hs]
    exact hf

namespace Proj

theorem update_eq {α β : Type} [DecidableEq α] (f : α → β) (a : α) : update f a (f a) = f := by
  funext x
  unfold update
  split
  · next h => rw [h]
  · rfl

theorem tornConfig_cut (n : Option Nat) : tornConfig n = none ∨ ∃ y, tornConfig n = some y ∧ CutConfig y := by
  cases n with
  | none => exact .inl rfl
  | some n =>
    refine .inr ⟨_, rfl, String.ofList ("podo_meta".toList.take n), ?_, rfl⟩
    rw [String.toList_ofList]
    exact List.take_prefix n _

/-- What `init` does on a disk when it finds no project. -/
theorem initOn_run {env : Env} {D : Disk} {fs : Fs} {cwd : Path} {e : ProjectError}
    (h0 : discover env fs cwd = .error e) (hc : D.config = .done) :
    initOn env D fs cwd =
      if D.historyDir = false then ({ fs with config := update fs.config cwd (some (some baseProject)) }, .failed)
      else if D.definitionsDir = false then
        ({ fs with config := update fs.config cwd (some (some baseProject)) }, .failed)
      else
        match (fs.history (cwd ++ ["database", "history"])).saveAllOn D.versions
            [Version.newInit, Version.newStage "init"] with
        | (dir, false) => (⟨update fs.config cwd (some (some baseProject)),
            update fs.history (cwd ++ ["database", "history"]) dir, fs.definitions⟩, .failed)
        | (dir, true) =>
          match D.definitions with
          | .refused => (⟨update fs.config cwd (some (some baseProject)),
              update fs.history (cwd ++ ["database", "history"]) dir, fs.definitions⟩, .failed)
          | .torn y => (⟨update fs.config cwd (some (some baseProject)),
              update fs.history (cwd ++ ["database", "history"]) dir,
              update fs.definitions (cwd ++ ["database", "definitions"])
                (Def.insertEntry (fs.definitions (cwd ++ ["database", "definitions"])) "public.yaml" y)⟩, .failed)
          | .done => (⟨update fs.config cwd (some (some baseProject)),
              update fs.history (cwd ++ ["database", "history"]) dir,
              update fs.definitions (cwd ++ ["database", "definitions"])
                (Def.insertEntry (fs.definitions (cwd ++ ["database", "definitions"])) "public.yaml" initDoc)⟩,
              .done) := by
  have el : loadProject env cwd (some baseProject) = .ok (initProject env cwd) := rfl
  have ehd : (initProject env cwd).historyDir DEFAULT_PROFILE = .ok (cwd ++ ["database", "history"]) :=
    congrArg Except.ok (join_history env cwd)
  have edd : (initProject env cwd).definitionsDir DEFAULT_PROFILE =
      .ok (cwd ++ ["database", "definitions"]) := congrArg Except.ok (join_definitions env cwd)
  have ea : Change.applyAll (Version.newInit.changes ++ (Version.newStage Version.newInit.name).changes)
      Database.new = .ok ⟨[("public", Schema.new "public")]⟩ := rfl
  have es : Def.saveDoc ⟨[("public", Schema.new "public")]⟩ = .ok initDoc := rfl
  unfold initOn
  rw [h0, hc]
  dsimp only
  rw [el]
  dsimp only
  rw [ehd, edd]
  dsimp only
  by_cases h1 : D.historyDir = false
  · rw [if_pos h1, if_pos h1]
  rw [if_neg h1, if_neg h1]
  by_cases h2 : D.definitionsDir = false
  · rw [if_pos h2, if_pos h2]
  rw [if_neg h2, if_neg h2, ea]
  dsimp only
  rw [show Version.newInit.name = "init" from rfl]
  rcases hs : (fs.history (cwd ++ ["database", "history"])).saveAllOn D.versions
    [Version.newInit, Version.newStage "init"] with ⟨dir, ok⟩
  cases ok with
  | false => rfl
  | true =>
    dsimp only
    rw [if_neg (by simp), es]
    cases D.definitions <;> rfl

/-- What `init` leaves on any disk, it leaves when it is killed. -/
theorem initOn_dies (env : Env) (D : Disk) (fs : Fs) (cwd : Path) : InitDies env fs cwd (initOn env D fs cwd).1 := by
  cases h0 : discover env fs cwd with
  | ok p => unfold initOn; rw [h0]; exact .before
  | error e =>
    cases hc : D.config with
    | refused => unfold initOn; rw [h0, hc]; exact .before
    | torn n => unfold initOn; rw [h0, hc]; exact .config h0 (tornConfig_cut n)
    | done =>
      have hb : InitDies env fs cwd { fs with config := update fs.config cwd (some (some baseProject)) } := by
        have := InitDies.history (env := env) (fs := fs) (cwd := cwd) h0 (.before _ _)
        rw [update_eq] at this
        exact this
      rw [initOn_run h0 hc]
      split
      · exact hb
      · split
        · exact hb
        · have hcr := saveAllOn_crash D.versions (fs.history (cwd ++ ["database", "history"]))
            [Version.newInit, Version.newStage "init"]
          split
          · next hs => rw [hs] at hcr; exact .history h0 hcr
          · next hs =>
            rw [hs] at hcr
            split
            · exact .history h0 hcr
            · exact .definitions h0 (saveAllOn_true hs)
            · exact .definitions h0 (saveAllOn_true hs)

theorem initOn_panic (env : Env) (D : Disk) (fs : Fs) (cwd : Path) : (initOn env D fs cwd).2 = .panic ↔
    (∃ e, discover env fs cwd = .error e) ∧ D.config ≠ .done := by
  cases h0 : discover env fs cwd with
  | ok p => unfold initOn; rw [h0]; simp
  | error e =>
    cases hc : D.config with
    | refused => unfold initOn; rw [h0, hc]; simp
    | torn n => unfold initOn; rw [h0, hc]; simp
    | done =>
      rw [initOn_run h0 hc]
      refine ⟨fun h => ?_, fun h => absurd rfl h.2⟩
      exfalso
      split at h
      · cases h
      · split at h
        · cases h
        · split at h
          · cases h
          · split at h <;> cases h

theorem initOn_success {env : Env} {D : Disk} {fs fs' : Fs} {cwd : Path} (h : initOn env D fs cwd = (fs', .done)) :
    init env fs cwd = (fs', .done) := by
  cases h0 : discover env fs cwd with
  | ok p => unfold initOn at h; rw [h0] at h; cases h
  | error e =>
    cases hc : D.config with
    | refused => unfold initOn at h; rw [h0, hc] at h; cases h
    | torn n => unfold initOn at h; rw [h0, hc] at h; cases h
    | done =>
      rw [initOn_run h0 hc] at h
      split at h
      · cases h
      · split at h
        · cases h
        · split at h
          · cases h
          · next hs =>
            have hs := saveAllOn_true hs
            split at h
            · cases h
            · cases h
            · cases h
              rw [init_run h0, hs]
              rfl

theorem initOn_fine (env : Env) (fs : Fs) (cwd : Path) : initOn env Prog.Disk.fine fs cwd = init env fs cwd := by
  cases h0 : discover env fs cwd with
  | ok p => unfold initOn init; rw [h0]
  | error e =>
    rw [initOn_run h0 rfl, init_run h0]
    rw [if_neg (by simp [Prog.Disk.fine]), if_neg (by simp [Prog.Disk.fine])]
    rw [show Prog.Disk.fine.versions = fun _ => .done from rfl, saveAllOn_fine]
    rcases (fs.history (cwd ++ ["database", "history"])).saveAll [Version.newInit, Version.newStage "init"] with ⟨d, ok⟩
    cases ok <;> rfl

theorem initOn_exists {env : Env} {D : Disk} {fs fs' : Fs} {cwd base : Path}
    (h : initOn env D fs cwd = (fs', .exists_ base)) : init env fs cwd = (fs', .exists_ base) := by
  cases h0 : discover env fs cwd with
  | ok p => unfold initOn at h; unfold init; rw [h0] at h ⊢; exact h
  | error e =>
    exfalso
    cases hc : D.config with
    | refused => unfold initOn at h; rw [h0, hc] at h; cases h
    | torn n => unfold initOn at h; rw [h0, hc] at h; cases h
    | done =>
      rw [initOn_run h0 hc] at h
      split at h
      · cases h
      · split at h
        · cases h
        · split at h
          · cases h
          · split at h <;> cases h

end Proj

namespace Prog
open Proj
variable {σ : Type}

theorem runHistOn_cases {D : Disk} {fuel : Nat} {w w' : World σ} {h : Proj.Path} {c : HistCmd} {out : List String}
    {e : Ending} (hr : runHistOn D fuel w h c = some (w', out, e)) :
    runHist fuel w h c = some (w', out, e) ∨
    (e = .error ∧ (∃ w₁ e₁, runHist fuel w h c = some (w₁, out, e₁)) ∧ ∃ d, Dies c (w.fs.history h) d ∧
      w' = ⟨{ w.fs with history := update w.fs.history h d }, w.servers⟩) := by
  unfold runHistOn at hr
  unfold runHist
  cases hp : c.plan fuel (w.fs.history h) with
  | none => rw [hp] at hr; cases hr
  | some r =>
    rw [hp] at hr
    cases r with
    | error x => exact .inl hr
    | ok vs =>
      dsimp only at hr ⊢
      have hc := saveAllOn_crash D.versions (w.fs.history h) vs
      rcases hs : (w.fs.history h).saveAllOn D.versions vs with ⟨d, ok⟩
      rw [hs] at hr hc
      cases ok with
      | true => rw [saveAllOn_true hs]; exact .inl hr
      | false => cases hr; exact .inr ⟨rfl, ⟨_, _, rfl⟩, d, ⟨fuel, vs, hp, hc⟩, rfl⟩

theorem runHistOn_fine (fuel : Nat) (w : World σ) (h : Proj.Path) (c : HistCmd) :
    runHistOn Disk.fine fuel w h c = runHist fuel w h c := by
  unfold runHistOn runHist
  rw [show Disk.fine.versions = fun _ => .done from rfl]
  cases c.plan fuel (w.fs.history h) with
  | none => rfl
  | some r =>
    cases r with
    | error e => rfl
    | ok vs => dsimp only; rw [saveAllOn_fine]

theorem runOn_fine (S : Setting σ) (fuel : Nat) (w : World σ) (cwd : Proj.Path) (a : Args) :
    runOn S Disk.fine fuel w cwd a = run S fuel w cwd a := by
  cases a with
  | init => simp only [runOn, run, initOn_fine]; rfl
  | stage p => simp only [runOn, run, runHistOn_fine]; rfl
  | reset p => simp only [runOn, run, runHistOn_fine]; rfl
  | make p v => simp only [runOn, run, runHistOn_fine]; rfl
  | _ => rfl

theorem runOn_works {S : Setting σ} {D : Disk} {fuel : Nat} {w : World σ} {cwd : Proj.Path} {name : String} {q : Profile}
    (hq : ProfileAt S.env w.fs cwd name q) {a : Args} {c : HistCmd} (hw : WorksOn S w q name a c) :
    runOn S D fuel w cwd a = runHistOn D fuel w q.history c := by
  obtain ⟨p, hp, hq⟩ := hq
  obtain ⟨h1, h2, _, _⟩ := profile_dirs hq
  cases hw <;> simp only [runOn, hp, h1, h2]

theorem runOn_cases {S : Setting σ} {D : Disk} {fuel : Nat} {w w' : World σ} {cwd : Proj.Path} {a : Args}
    {out : List String} {e : Ending} (h : runOn S D fuel w cwd a = some (w', out, e)) (ha : a ≠ .init) :
    run S fuel w cwd a = some (w', out, e) ∨
    ∃ name q c, ProfileAt S.env w.fs cwd name q ∧ WorksOn S w q name a c ∧
      runHistOn D fuel w q.history c = some (w', out, e) ∧ run S fuel w cwd a = runHist fuel w q.history c := by
  cases a with
  | init => exact absurd rfl ha
  | stage name =>
    simp only [runOn] at h
    split at h
    · next x hx => left; simp only [run, hx]; exact h
    · next p hp =>
      split at h
      · next hh hd h1 h2 =>
        obtain ⟨q, hq, rfl⟩ := historyDir_profile h1
        obtain ⟨_, h2', _, _⟩ := profile_dirs hq
        rw [h2'] at h2
        cases h2
        exact .inr ⟨name, q, _, ⟨p, hp, hq⟩, .stage, h, run_stage ⟨p, hp, hq⟩⟩
      · next hno =>
        left
        simp only [run, hp]
        cases h1 : p.historyDir name with
        | error x => exact h
        | ok y =>
          cases h2 : p.definitionsDir name with
          | error x => exact h
          | ok z => exact absurd h2 (hno y z h1)
  | reset name =>
    simp only [runOn] at h
    split at h
    · next x hx => left; simp only [run, hx]; exact h
    · next p hp =>
      split at h
      · next h1 =>
        obtain ⟨q, hq, rfl⟩ := historyDir_profile h1
        exact .inr ⟨name, q, _, ⟨p, hp, hq⟩, .reset, h, run_reset ⟨p, hp, hq⟩⟩
      · next h1 => left; simp only [run, hp, h1]; exact h
  | make name label =>
    simp only [runOn] at h
    split at h
    · next x hx => left; simp only [run, hx]; exact h
    · next p hp =>
      split at h
      · next h1 =>
        obtain ⟨q, hq, rfl⟩ := historyDir_profile h1
        exact .inr ⟨name, q, _, ⟨p, hp, hq⟩, .make label, h, run_make ⟨p, hp, hq⟩ label⟩
      · next h1 => left; simp only [run, hp, h1]; exact h
  | _ => exact .inl h

theorem runOn_plan {S : Setting σ} {w : World σ} {cwd : Proj.Path} {name : String} {q : Profile}
    (hq : ProfileAt S.env w.fs cwd name q) {a : Args} {c : HistCmd} (hw : WorksOn S w q name a c) {fuel : Nat}
    {vs : List Version} (hp : c.plan fuel (w.fs.history q.history) = some (.ok vs)) {D : Disk} {d : HDir} {ok : Bool}
    (hs : (w.fs.history q.history).saveAllOn D.versions vs = (d, ok)) :
    runOn S D fuel w cwd a = some (⟨{ w.fs with history := update w.fs.history q.history d }, w.servers⟩,
      c.printed fuel (w.fs.history q.history), if ok then .success else .error) := by
  rw [runOn_works hq hw]
  unfold runHistOn
  rw [hp]
  dsimp only
  rw [hs]

theorem runOn_crash {S : Setting σ} {w : World σ} {cwd : Proj.Path} {name : String} {q : Profile}
    (hq : ProfileAt S.env w.fs cwd name q) {a : Args} {c : HistCmd} (hw : WorksOn S w q name a c) {fuel : Nat}
    {vs : List Version} (hp : c.plan fuel (w.fs.history q.history) = some (.ok vs)) {f : Nat → Write} {d : HDir}
    (hf : ((w.fs.history q.history).saveAllOn f vs).1 = d) :
    ∃ D out e, EndsOn S D w cwd a ⟨{ w.fs with history := update w.fs.history q.history d }, w.servers⟩ out e := by
  rcases hs : (w.fs.history q.history).saveAllOn f vs with ⟨d₁, ok⟩
  rw [hs] at hf
  cases hf
  exact ⟨⟨.done, true, true, f, .done⟩, _, _, fuel, runOn_plan hq hw hp hs⟩

theorem runOn_breaks {S : Setting σ} {w : World σ} {cwd : Proj.Path} {name : String} {q : Profile}
    (hq : ProfileAt S.env w.fs cwd name q) {a : Args} {c : HistCmd} (hw : WorksOn S w q name a c)
    (hr : Reachable (w.fs.history q.history))
    (hn : ∀ stamp label, c = .make stamp label → FreshName (w.fs.history q.history) (madeName stamp label))
    {fuel : Nat} {vs : List Version} (hp : c.plan fuel (w.fs.history q.history) = some (.ok vs)) {d : HDir}
    (hc : CrashState (w.fs.history q.history) vs d) (hf : FailsToOpen d) :
    ∃ D w' out, EndsOn S D w cwd a w' out .error ∧ w'.fs.history q.history = d := by
  obtain ⟨f, hfd⟩ := crash_disk hc
  rcases hs : (w.fs.history q.history).saveAllOn f vs with ⟨d₁, ok⟩
  rw [hs] at hfd
  cases hfd
  cases ok with
  | true =>
    have he : c.exec fuel (w.fs.history q.history) = some (d₁, true) := by
      unfold HistCmd.exec; rw [hp]; exact congrArg some (saveAllOn_true hs)
    obtain ⟨vs, st, s, hh, _⟩ := (Reachable.step hr hn he).sound
    exact absurd hf hh.not_fails
  | false =>
    have h := runOn_plan (D := ⟨.done, true, true, f, .done⟩) hq hw hp hs
    exact ⟨_, _, _, ⟨fuel, h⟩, update_self _ _ _⟩

end Prog
end Podo
