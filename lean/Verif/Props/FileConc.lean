import Verif.Proofs.FileConc
import Verif.Props.Commands
/-
C73: several commands at the same time on the version files of one project.
-/
namespace Podo
open FConc Change

/-- C73, made versions.  However many commands of whatever kind are at work at the same time, in
whatever order they take their steps and wherever some of them die: the file of a version that was made
before stays as it is, as long as no `make` gives its name again. -/
theorem C73_made_kept {P : HistCmd → Prop} {d : HDir} (hr : Reachable d) {s : State}
    (h : Run P (idle d) s) {n : String} {v : Version} (hv : Stored d n v) (hn : n ≠ "stage")
    (hf : ∀ stamp label, P (.make stamp label) → n ≠ stamp ++ "-" ++ label.getD "auto") :
    Stored s.dir n v := by
  obtain ⟨vs, st, _, hh, _⟩ := hr.sound
  have hi : Inv P d s := (inv_idle hh).run h
  unfold Stored at hv ⊢
  rw [← hv]
  refine hi.files _ (fun e => hn (append_yaml_inj (b := "stage") e)) fun stamp label hp e => ?_
  exact hf stamp label hp (append_yaml_inj e)

/-- C73, without `make` (partial: see `C73_stages_false` and `C73_makes_false`).  However many commands
other than `make` are at work at the same time, in whatever order they take their steps and wherever some
of them die: the made versions are the same.  If the stage can be read, the history opens at the same
version as before, the snapshots of the made versions are the same, and a `reset` afterwards succeeds and
leaves a directory that commands one after the other could have left. -/
theorem C73_without_make_partial {d : HDir} (hr : Reachable d) {s : State}
    (h : Run NoMake (idle d) s) :
    (∀ n v, n ≠ "stage" → (Stored s.dir n v ↔ Stored d n v)) ∧
    ((∃ w, Stored s.dir "stage" w) →
      (∀ cv, Opens s.dir cv ↔ Opens d cv) ∧
      (∀ n v db, n ≠ "stage" → Stored d n v → (SnapshotOf s.dir n db ↔ SnapshotOf d n db)) ∧
      ∃ d', Runs .reset s.dir d' true ∧ Reachable d' ∧
        ∀ n v, n ≠ "stage" → (Stored d' n v ↔ Stored d n v)) := by
  obtain ⟨vs, st, sn, hh, hrec⟩ := hr.sound
  have hst : ∀ n v, n ≠ "stage" → (Stored s.dir n v ↔ Stored d n v) := by
    intro n v hn
    unfold Stored
    rw [((inv_idle (P := NoMake) hh).run h).files _ (fun e => hn (append_yaml_inj (b := "stage") e))
      (fun _ _ hp => absurd rfl (hp _ _))]
  refine ⟨hst, ?_⟩
  rintro ⟨st', hw⟩
  obtain ⟨hn', hp', hh', hf⟩ := run_history (fun _ _ hc => hc _ _ rfl) hh h hw
  refine ⟨fun cv => ?_, fun n v db hn hv => ?_, ?_⟩
  · rw [hh.opens_iff, hh'.opens_iff]
  · obtain ⟨hmem, rfl⟩ := hh.stored_iff.1 hv
    have hmem' : v ∈ Version.newInit :: vs := by
      rw [show Version.newInit :: (vs ++ [st]) = (Version.newInit :: vs) ++ [st] from rfl,
        List.mem_append, List.mem_singleton] at hmem
      rcases hmem with hm | rfl
      · exact hm
      · exact absurd hh.stage hn
    obtain ⟨A, C, hl⟩ := List.append_of_mem hmem'
    have e : ∀ x, Version.newInit :: (vs ++ [x]) = A ++ v :: (C ++ [x]) := by
      intro x
      rw [show Version.newInit :: (vs ++ [x]) = (Version.newInit :: vs) ++ [x] from rfl, hl]
      simp
    rw [e st, show A ++ v :: (C ++ [st]) = (A ++ [v]) ++ (C ++ [st]) by simp] at hrec
    obtain ⟨s₁, h1, _⟩ := recorded_append.1 hrec
    have a := hh.snapshotOf (e st) h1
    have b := hh'.snapshotOf (e st') h1
    exact ⟨fun hx => by rw [hx.unique b]; exact a, fun hx => by rw [hx.unique a]; exact b⟩
  · obtain ⟨d₁, hd₁, hh₁⟩ := hh'.saveStage (st' := st'.reset) hn' rfl
    obtain ⟨d₀, hd₀, hh₀⟩ := hh.saveStage (st' := st.reset) hh.stage rfl
    have heq : st'.reset = st.reset := by
      unfold Version.reset
      rw [hn', hp', hh.stage]
    have hrun : Runs .reset d d₀ true := runs_of_plan hh.resetPlan (saveAll_single hd₀)
    obtain ⟨k, hk⟩ := hrun
    refine ⟨d₁, runs_of_plan hh'.resetPlan (saveAll_single hd₁), ?_, fun n v hn => ?_⟩
    · refine .relisted (.step hr (by intro _ _ e; cases e) hk)
        (amap_perm_of_get hh₀.nodup hh₁.nodup fun f => ?_)
      rw [save_get hd₀, save_get hd₁, heq, show st.reset.name = "stage" from hh.stage]
      by_cases e : f = "stage" ++ ".yaml"
      · rw [if_pos e, if_pos e]
      · rw [if_neg e, if_neg e, hf f e]
    · unfold Stored
      have e : ¬ n ++ ".yaml" = "stage" ++ ".yaml" := fun e => hn (append_yaml_inj e)
      rw [save_get hd₁, show st'.reset.name = "stage" from hn', if_neg e, hf _ e]

/-- C73, when the stage can be read: if at any time at most one process is writing a file, and none dies
while it does, then whenever no process is writing the stage can be read. -/
theorem C73_one_writer {d : HDir} (hr : Reachable d) {s : State} (h : OrderlyRun NoMake (idle d) s)
    (hw : ∀ i, ¬ s.Writing i) : ∃ w, Stored s.dir "stage" w := by
  obtain ⟨vs, st, _, hh, _⟩ := hr.sound
  exact (Tidy.run (fun _ _ hc => hc _ _ rfl) (inv_idle hh) (tidy_idle hh) h).readable hw

/-- A command that runs alone does here what it does in `C23` to `C28`. -/
theorem C73_alone {c : HistCmd} {d d' : HDir} (hd : d.NodupKeys) (h : Runs c d d' true) :
    Run (· = c) (idle d) (idle d') := by
  obtain ⟨k, hk⟩ := h
  unfold HistCmd.exec at hk
  cases hp : c.plan k d with
  | none => rw [hp] at hk; cases hk
  | some r =>
    rw [hp] at hk
    cases r with
    | error e => cases hk
    | ok ws =>
      simp only [Option.some.injEq] at hk
      by_cases hin : c = .init
      · subst hin
        simp only [HistCmd.plan] at hp
        cases hp
        simp only [HDir.saveAll, Prod.mk.injEq, and_true] at hk
        subst hk
        exact .refl _
      have op : ∀ {o}, HDir.fromDir k d = some (.ok o) →
          Run (· = c) (idle d) ((idle d).put 0 (some (.opened c))) := by
        intro o ho
        have r : Run (· = c) (idle d) _ := .tail (.refl _) (.start 0 c rfl rfl)
        have r := r.trans (run_open (i := 0) rfl k ho)
        rwa [put_put] at r
      suffices hw : Run (· = c) (idle d) ((idle d).put 0 (some (.saving ws))) from hw.trans (run_saving hd hk)
      cases c with
      | init => exact absurd rfl hin
      | stage defs =>
        simp only [HistCmd.plan, stagePlan] at hp
        repeat' split at hp
        all_goals first | cases hp | skip
        rename_i ho _ _ _ _ hs _ _ hg _ _ hv
        have h1 := (op ho).trans (run_compare (i := 0) rfl k hs)
        rw [put_put] at h1
        have h2 := h1.tail (.stage (i := 0) rfl hg hv)
        rwa [put_put] at h2
      | make stamp label =>
        simp only [HistCmd.plan, makePlan] at hp
        split at hp
        · cases hp
        · cases hp
        · next ho =>
          split at hp
          · cases hp
          · next v hg =>
            have h1 := (op ho).tail (.make (i := 0) rfl hg)
            rw [put_put] at h1
            split at hp <;> (rename_i he; simp only [Option.some.injEq, Except.ok.injEq] at hp; subst hp)
            · rwa [if_pos he] at h1
            · rwa [if_neg he] at h1
      | reset =>
        simp only [HistCmd.plan, resetPlan] at hp
        repeat' split at hp
        all_goals first | cases hp | skip
        rename_i ho _ _ hg
        have h1 := (op ho).tail (.reset (i := 0) rfl hg)
        rwa [put_put] at h1

/-! ### What can go wrong -/

/-- Definitions with one table (for the examples). -/
def oneTable : Database :=
  built [.createSchema "public", .createTable "public" "t" [⟨"id", "int8", true, none⟩]]

/-- The directory after two `stage`s of `oneTable` at the same time in a new project. -/
def twiceStaged : HDir :=
  [("init.yaml", .file (some Version.newInit)),
   ("stage.yaml", .file (some ⟨"stage", some "init",
      [.createTable "public" "t" [⟨"id", "int8", true, none⟩],
       .createTable "public" "t" [⟨"id", "int8", true, none⟩]],
      [(Change.createTable "public" "t" [⟨"id", "int8", true, none⟩]).renderSql,
       (Change.createTable "public" "t" [⟨"id", "int8", true, none⟩]).renderSql],
      [(Change.dropTable "public" "t").renderSql, (Change.dropTable "public" "t").renderSql]⟩))]

theorem quiet {s : State} {i : Nat} (k : Nat) {p : Phase} (hk : s.procs k = some p)
    (hp : ∀ v vs a, p ≠ .writing v vs a) (h : ∀ j, j ≠ i → j ≠ k → s.procs j = none) :
    ∀ j, j ≠ i → ¬ s.Writing j := by
  intro j hj
  by_cases e : j = k
  · subst e
    exact not_writing hk hp
  · rintro ⟨v, vs, a, hv⟩
    rw [h j hj e] at hv
    cases hv

theorem run_nodup {P : HistCmd → Prop} {d : HDir} (hr : Reachable d) {s : State} (h : Run P (idle d) s) :
    s.dir.NodupKeys := by
  obtain ⟨vs, st, _, hh, _⟩ := hr.sound
  exact ((inv_idle hh).run h).nodup

theorem put_done {s : State} {d : HDir} {i j : Nat}
    (h : ∀ k, k ≠ i → k ≠ j → s.procs k = none) (hd : s.dir = d) :
    (s.put i none).put j none = idle d := by
  subst hd
  unfold State.put idle
  congr 1
  funext k
  simp only
  split
  · rfl
  · split
    · rfl
    · next h1 h2 => exact h k h2 h1

theorem twice_staged : Run (· = .stage (.ok oneTable)) (idle initDir) (idle twiceStaged) := by
  have r := Run.refl (P := (· = HistCmd.stage (.ok oneTable))) (idle initDir)
  have r := r.tail (.start 0 _ rfl rfl)
  have r := r.tail (.start 1 _ rfl rfl)
  have r := r.trans (run_open (i := 0) rfl 9 rfl)
  have r := r.trans (run_open (i := 1) rfl 9 rfl)
  have r := r.trans (run_compare (i := 0) rfl 9 rfl)
  have r := r.trans (run_compare (i := 1) rfl 9 rfl)
  have r := r.tail (.stage (i := 0) rfl rfl rfl)
  have r := r.trans (run_save (i := 0) rfl (run_nodup .init r) rfl (quiet 1 rfl (by simp)
    (by intro k h0 h1; simp [State.put, idle, h0, h1])))
  have r := r.tail (.stage (i := 1) rfl rfl rfl)
  have r := r.trans (run_save (i := 1) rfl (run_nodup .init r) rfl (quiet 0 rfl (by simp)
    (by intro k h0 h1; simp [State.put, idle, h0, h1])))
  have r := (r.tail (.leave 0)).tail (.leave 1)
  rwa [put_done (d := twiceStaged) (by
    intro k h0 h1
    simp [State.put, idle, h0, h1]) rfl] at r

/-- C73 is false already for `stage`.  Two `stage` commands at the same time, with the same definitions,
can leave a stage whose changes cannot be replayed: from then on `stage` fails, whatever the
definitions. -/
theorem C73_stages_false :
    Run (· = .stage (.ok oneTable)) (idle initDir) (idle twiceStaged) ∧
    (¬ ∃ db, SnapshotOf twiceStaged "stage" db) ∧
    ∀ defs d' ok, Runs (.stage defs) twiceStaged d' ok → ok = false := by
  have hc : ∃ e, calculateSnapshot 9 twiceStaged "stage" = some (.error e) := ⟨_, rfl⟩
  have ho : ∃ o, HDir.fromDir 9 twiceStaged = some (.ok o) := ⟨_, rfl⟩
  obtain ⟨e, hc⟩ := hc
  obtain ⟨o, ho⟩ := ho
  refine ⟨twice_staged, ?_, fun defs d' ok hr => ?_⟩
  · rintro ⟨db, k, hk⟩
    have a := calculate_mono (Nat.le_max_left k 9) hk
    have b := calculate_mono (Nat.le_max_right k 9) hc
    rw [a] at b; cases b
  · have : Runs (.stage defs) twiceStaged twiceStaged false := by
      refine ⟨9, ?_⟩
      unfold HistCmd.exec
      simp only [HistCmd.plan, stagePlan]
      rw [ho]
      cases defs with
      | error e => rfl
      | ok t =>
        simp only
        rw [show Version.STAGE = "stage" from rfl, hc]
    exact (hr.unique this).2

/-- The directory after two `make`s at the same time. -/
def twiceMade : HDir :=
  [("init.yaml", .file (some Version.newInit)),
   ("stage.yaml", .file (some (Version.newStage "20200103_000000-auto"))),
   ("20200101000000-first.yaml", .file (some demoMade)),
   ("20200102_000000-auto.yaml", .file (some { demoStage with name := "20200102_000000-auto" })),
   ("20200103_000000-auto.yaml", .file (some { demoStage with name := "20200103_000000-auto" }))]

/-- C73 is false for `make`.  Two `make` commands at the same time, which give different names, can
leave a history that no command opens. -/
theorem C73_makes_false :
    Run (fun c => c = .make "20200102_000000" none ∨ c = .make "20200103_000000" none)
      (idle demoDir) (idle twiceMade) ∧ FailsToOpen twiceMade := by
  constructor
  · have r := Run.refl (P := fun c => c = HistCmd.make "20200102_000000" none ∨
      c = .make "20200103_000000" none) (idle demoDir)
    have r := r.tail (.start 0 _ (.inl rfl) rfl)
    have r := r.tail (.start 1 _ (.inr rfl) rfl)
    have r := r.trans (run_open (i := 0) rfl 9 rfl)
    have r := r.trans (run_open (i := 1) rfl 9 rfl)
    have r := r.tail (.make (i := 0) rfl rfl)
    have r := r.tail (.make (i := 1) rfl rfl)
    have r := r.trans (run_save (i := 0) rfl (run_nodup demoDir_reachable r) rfl (quiet 1 rfl (by simp)
    (by intro k h0 h1; simp [State.put, idle, h0, h1])))
    have r := r.trans (run_save (i := 0) rfl (run_nodup demoDir_reachable r) rfl (quiet 1 rfl (by simp)
    (by intro k h0 h1; simp [State.put, idle, h0, h1])))
    have r := r.trans (run_save (i := 1) rfl (run_nodup demoDir_reachable r) rfl (quiet 0 rfl (by simp)
    (by intro k h0 h1; simp [State.put, idle, h0, h1])))
    have r := r.trans (run_save (i := 1) rfl (run_nodup demoDir_reachable r) rfl (quiet 0 rfl (by simp)
    (by intro k h0 h1; simp [State.put, idle, h0, h1])))
    have r := (r.tail (.leave 0)).tail (.leave 1)
    rwa [put_done (d := twiceMade) (by
      intro k h0 h1
      simp [State.put, idle, h0, h1]) rfl] at r
  · exact ⟨9, _, rfl⟩

/-- The directory after `make` and `stage` at the same time. -/
def stagedMade : HDir :=
  [("init.yaml", .file (some Version.newInit)),
   ("stage.yaml", .file (some demoStage)),
   ("20200101000000-first.yaml", .file (some demoMade)),
   ("20200102_000000-auto.yaml", .file (some { demoStage with name := "20200102_000000-auto" }))]

/-- C73 is false for `make` and `stage`, even when nothing is left to stage: the stage is written with its old predecessor, next to the version just made, and no command opens the
history. -/
theorem C73_make_stage_false :
    Run (fun c => c = .make "20200102_000000" none ∨
        ∃ db, SnapshotOf demoDir "stage" db ∧ c = .stage (.ok db))
      (idle demoDir) (idle stagedMade) ∧ FailsToOpen stagedMade := by
  constructor
  · have hs : ∃ db, calculateSnapshot 9 demoDir "stage" = some (.ok db) ∧
        stageVersion (Diff.compareDiff db db) db demoStage = .ok demoStage := ⟨_, rfl, rfl⟩
    obtain ⟨db, hs, hst⟩ := hs
    have r := Run.refl (P := fun c => c = HistCmd.make "20200102_000000" none ∨
        ∃ db, SnapshotOf demoDir "stage" db ∧ c = .stage (.ok db)) (idle demoDir)
    have r := r.tail (.start 0 _ (.inl rfl) rfl)
    have r := r.tail (.start 1 _ (.inr ⟨db, ⟨9, hs⟩, rfl⟩) rfl)
    have r := r.trans (run_open (i := 0) rfl 9 rfl)
    have r := r.trans (run_open (i := 1) rfl 9 rfl)
    have r := r.trans (run_compare (i := 1) (t := db) rfl 9 hs)
    have r := r.tail (.stage (i := 1) (v := demoStage) rfl rfl hst)
    have r := r.tail (.make (i := 0) rfl rfl)
    have r := r.trans (run_save (i := 0) rfl (run_nodup demoDir_reachable r) rfl (quiet 1 rfl (by simp)
    (by intro k h0 h1; simp [State.put, idle, h0, h1])))
    have r := r.trans (run_save (i := 0) rfl (run_nodup demoDir_reachable r) rfl (quiet 1 rfl (by simp)
    (by intro k h0 h1; simp [State.put, idle, h0, h1])))
    have r := r.trans (run_save (i := 1) rfl (run_nodup demoDir_reachable r) rfl (quiet 0 rfl (by simp)
    (by intro k h0 h1; simp [State.put, idle, h0, h1])))
    have r := (r.tail (.leave 0)).tail (.leave 1)
    rwa [put_done (d := stagedMade) (by
      intro k h0 h1
      simp [State.put, idle, h0, h1]) rfl] at r
  · exact ⟨9, _, rfl⟩

/-! ### Examples -/

/-- The hypotheses of `C73_without_make_partial` are met by the run that spoils the stage; a `reset`
repairs it. -/
example : (∀ cv, Opens twiceStaged cv ↔ Opens initDir cv) ∧
    ∃ d', Runs .reset twiceStaged d' true ∧ Reachable d' := by
  have h := C73_without_make_partial .init
    (twice_staged.mono (fun c hc _ _ h => by rw [hc] at h; cases h))
  obtain ⟨h1, _, d', h2, h3, _⟩ := h.2 ⟨_, rfl⟩
  exact ⟨h1, d', h2, h3⟩

/-- The made version of `demoDir` survives both `make`s. -/
example : Stored twiceMade "20200101000000-first" demoMade :=
  C73_made_kept demoDir_reachable C73_makes_false.1 (by rfl) (by decide) (by
    rintro stamp label (h | h) <;> cases h <;> decide)

theorem orderly_of {s t : State} (k : Nat) (hs : ∀ j, s.Writing j → j = k) (hk : t.procs k ≠ none)
    (ht : ∀ j, t.Writing j → j = k) : Orderly s t where
  alive i hi := by rw [hs i hi]; exact hk
  one i j hi hj := (ht i hi).trans (ht j hj).symm

/-- None but process 0 is writing. -/
macro "zero_writes" : tactic => `(tactic| (
  rintro j ⟨v, vs, a, h⟩
  by_cases e0 : j = 0
  · exact e0
  · exfalso
    by_cases e1 : j = 1 <;> simp [State.put, State.write, idle, e0, e1, Phase.disturb] at h))

/-- `C73_one_writer` applies: a `reset` writes the stage while another one is opening the history. -/
example : ∃ s, OrderlyRun NoMake (idle initDir) s ∧ (∀ i, ¬ s.Writing i) ∧
    s.procs 1 = some (.scanning .reset (initDir.set "stage.yaml" (.file none)) []) := by
  have r := OrderlyRun.refl (P := NoMake) (idle initDir)
  have r := r.tail (.start 0 .reset (by intro _ _ h; cases h) rfl)
    (orderly_of 0 (by zero_writes) nofun (by zero_writes))
  have r := r.tail (.start 1 .reset (by intro _ _ h; cases h) rfl)
    (orderly_of 0 (by zero_writes) nofun (by zero_writes))
  have r := r.tail (.list (i := 0) rfl)
    (orderly_of 0 (by zero_writes) nofun (by zero_writes))
  have r := r.tail (.scan (i := 0) rfl rfl)
    (orderly_of 0 (by zero_writes) nofun (by zero_writes))
  have r := r.tail (.scan (i := 0) rfl rfl)
    (orderly_of 0 (by zero_writes) nofun (by zero_writes))
  have r := r.tail (.opens (fuel := 9) (i := 0) rfl rfl)
    (orderly_of 0 (by zero_writes) nofun (by zero_writes))
  have r := r.tail (.reset (i := 0) rfl rfl)
    (orderly_of 0 (by zero_writes) nofun (by zero_writes))
  have r := r.tail (.empty (i := 0) rfl rfl)
    (orderly_of 0 (by zero_writes) nofun (by zero_writes))
  have r := r.tail (.list (i := 1) rfl)
    (orderly_of 0 (by zero_writes) nofun (by zero_writes))
  have r := r.tail (.written (i := 0) rfl)
    (orderly_of 0 (by zero_writes) nofun (by zero_writes))
  refine ⟨_, r, ?_, rfl⟩
  rintro j ⟨v, vs, a, h⟩
  by_cases e0 : j = 0 <;> by_cases e1 : j = 1 <;>
    simp [State.put, State.write, idle, e0, e1, Phase.disturb] at h

end Podo
