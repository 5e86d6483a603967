import Verif.Proofs.Repair
/-
C93: commands that are interrupted.
-/
namespace Podo

/-- C93, by hand: if the process that runs `stage`, `reset` or `make` is killed, and the history does not open any
more, one of the three repairs can be made. -/
theorem C93_repairable {d d' : HDir} (hr : Reachable d) {c : HistCmd}
    (hf : ∀ stamp label, c = .make stamp label → FreshName d (stamp ++ "-" ++ label.getD "auto"))
    (hd : Dies c d d') (hfail : FailsToOpen d') : ∃ d'', Repair d' d'' := by
  obtain ⟨vs, st, s, hh, hrec⟩ := hr.sound
  exact (hd.wreck hh hrec hf).repairable hh hfail

/-- C93, what comes of it: whichever repair is made, the history is what it was, or what the command would have
made of it, or what `reset` would have made of it. -/
theorem C93_repaired {d d' d'' : HDir} (hr : Reachable d) {c : HistCmd}
    (hf : ∀ stamp label, c = .make stamp label → FreshName d (stamp ++ "-" ++ label.getD "auto"))
    (hd : Dies c d d') (hrep : Repair d' d'') : d'' = d ∨ Runs c d d'' true ∨ Runs .reset d d'' true := by
  obtain ⟨vs, st, s, hh, hrec⟩ := hr.sound
  exact (hd.wreck hh hrec hf).repaired hh hrep

/-- C93, with `reset`: if it succeeds after the interruption, the history is what `reset` would have made of it
before, or what the command would have made of it. -/
theorem C93_reset {d d' d'' : HDir} (hr : Reachable d) {c : HistCmd}
    (hf : ∀ stamp label, c = .make stamp label → FreshName d (stamp ++ "-" ++ label.getD "auto"))
    (hd : Dies c d d') (hrun : Runs .reset d' d'' true) : Runs .reset d d'' true ∨ Runs c d d'' true := by
  obtain ⟨vs, st, s, hh, hrec⟩ := hr.sound
  exact (hd.wreck hh hrec hf).reset hh hrun

/-- C93, in order again: after either, it is a history as podo writes it, and no version has been lost. -/
theorem C93_in_order {d d' d'' : HDir} (hr : Reachable d) {c : HistCmd}
    (hf : ∀ stamp label, c = .make stamp label → FreshName d (stamp ++ "-" ++ label.getD "auto"))
    (hd : Dies c d d') (hm : Mended d' d'') :
    Reachable d'' ∧ ∀ n v, n ≠ "stage" → Stored d n v → Stored d'' n v := by
  have key : ∀ {c : HistCmd}, (∀ stamp label, c = .make stamp label → FreshName d (madeName stamp label)) →
      Runs c d d'' true → Reachable d'' ∧ ∀ n v, n ≠ "stage" → Stored d n v → Stored d'' n v := by
    rintro c hf ⟨k, he⟩
    exact ⟨.step hr hf he, fun n v hn hv => C24_made_versions_immutable hr (.step (.refl _) hf he) hn hv⟩
  have hre : ∀ stamp label, HistCmd.reset = .make stamp label → FreshName d (madeName stamp label) := by
    intro _ _ e; cases e
  rcases hm with hm | hm
  · rcases C93_reset hr hf hd hm with h | h
    · exact key hre h
    · exact key hf h
  · rcases C93_repaired hr hf hd hm with rfl | h | h
    · exact ⟨hr, fun _ _ _ h => h⟩
    · exact key hf h
    · exact key hre h

/-- `make` is killed between its two files, `stage` in the middle of its file: neither history opens. -/
example : ∃ d₁ d₂, Dies (.make "20200102000000" none) demoDir d₁ ∧ FailsToOpen d₁ ∧ Repair d₁ demoDir ∧
    Dies .reset demoDir d₂ ∧ FailsToOpen d₂ ∧ Repair d₂ (demoDir.set "stage.yaml"
      (.file (some (Version.newStage "20200101000000-first")))) := by
  have hcut : Dies .reset demoDir (demoDir.set "stage.yaml" (.file none)) := by
    refine ⟨9, [demoStage.reset], rfl, ?_⟩
    have := CrashState.truncated (d := demoDir) (v := demoStage.reset) (vs := [])
      (dv := demoDir.set "stage.yaml" (.file (some demoStage.reset))) rfl
    rw [show demoStage.reset.name ++ ".yaml" = "stage.yaml" from rfl, AMap.set_set] at this
    exact this
  refine ⟨demoDir.insertNew "20200102000000-auto.yaml" (.file (some { demoStage with name := "20200102000000-auto" })),
    demoDir.set "stage.yaml" (.file none), ⟨9, _, rfl, .saved rfl (.before _ _)⟩,
    fails_of_branch (a := "20200102000000-auto") (b := "stage") (v := { demoStage with name := "20200102000000-auto" })
      (w := demoStage) (noYaml (by decide)) (noYaml (by decide)) (by decide) rfl rfl rfl rfl, ?_,
    hcut, fails_of_unreadable (n := "stage") (noYaml (by decide)) rfl, ?_⟩
  · exact .branch (n := "20200102000000-auto") (v := { demoStage with name := "20200102000000-auto" }) (st := demoStage)
      (by decide) rfl rfl rfl
  · have := Repair.stage (d := demoDir.set "stage.yaml" (.file none)) (last := "20200101000000-first") (v := demoMade)
      rfl rfl (by
        intro n w hw hp
        obtain ⟨vs, st, s, hh, _⟩ := demoDir_reachable.sound
        have hst : st = demoStage := hh.stored_stage.unique (show Stored demoDir "stage" demoStage from rfl)
        unfold Stored at hw
        rw [hh.get_stage] at hw
        by_cases hn : n = "stage"
        · rw [if_pos hn] at hw; cases hw
        · rw [if_neg hn] at hw
          exact hh.no_other hn hw (by rw [hp, hst]; rfl))
    rw [AMap.set_set] at this
    exact this

/-- C93 is false without either: when `stage` is killed in the middle of the last list of its file, the history may
open as if nothing had happened, with a stage that lacks statements to go down again. -/
theorem C93_unnoticed_false {d dv : HDir} (hr : Reachable d) {defs : Except LoadError Database}
    (hrun : Runs (.stage defs) d dv true) {st : Version} (hst : Stored dv "stage" st) (hlen : 2 ≤ st.down.length) :
    ∃ d', Dies (.stage defs) d d' ∧ (∃ cv, Opens d' cv) ∧ Stored d' "stage" { st with down := st.down.take 1 } := by
  obtain ⟨vs, st₀, s, hh, hrec⟩ := hr.sound
  obtain ⟨k, hk⟩ := hrun
  unfold HistCmd.exec at hk
  split at hk
  · cases hk
  · cases hk
  · next ws hws =>
    rcases plan_cases hh hws hrec with rfl | ⟨_, st', hc, rfl, hstv⟩ | ⟨_, _, h, _⟩ | ⟨h, _⟩
    · -- nothing is saved
      exfalso
      simp only [HistCmd.plan, stagePlan] at hws
      repeat' split at hws
      all_goals cases hws
    · obtain ⟨rs, s', _, e⟩ := stageVersion_ok hstv
      have hn : st'.name = "stage" := by rw [e]; exact hh.stage
      have hp : st'.previous = st₀.previous := by rw [e]
      obtain ⟨d₀, hd₀, hh₀⟩ := hh.saveStage hn hp
      rw [saveAll_single hd₀] at hk
      cases hk
      have he : st = st' := hst.unique hh₀.stored_stage
      subst he
      obtain ⟨d₁, hd₁, hh₁⟩ := hh.saveStage (st' := { st with down := st.down.take 1 }) hn hp
      have hold : d.get? (st.name ++ ".yaml") = some (.file (some st₀)) := by rw [hn]; exact hh.stored_stage
      have e₁ : d₁ = dv.set (st.name ++ ".yaml") (.file (some { st with down := st.down.take 1 })) := by
        rw [save_old hold hd₀, AMap.set_set]
        exact save_old (v := { st with down := st.down.take 1 }) hold hd₁
      refine ⟨d₁, ⟨k, _, hws, ?_⟩, ?_, hh₁.stored_stage⟩
      · rw [e₁]
        refine .cut _ hd₀ ?_
        intro e; rw [e] at hlen; exact absurd hlen (by decide)
      · obtain ⟨nm, _, hf⟩ := hh₁.fromDir
        exact ⟨_, _, _, hf _ (Nat.lt_succ_self _)⟩
    · cases h
    · cases h

/-- A stage with two tables. -/
def repairStage : Version :=
  ⟨"stage", some "init",
    [.createTable "public" "t" [⟨"id", "int8", true, none⟩], .createTable "public" "u" [⟨"id", "int8", true, none⟩]],
    [(Change.createTable "public" "t" [⟨"id", "int8", true, none⟩]).renderSql,
      (Change.createTable "public" "u" [⟨"id", "int8", true, none⟩]).renderSql],
    [(Change.dropTable "public" "u").renderSql, (Change.dropTable "public" "t").renderSql]⟩

/-- Two tables are staged. -/
example : ∃ d st, Runs (.stage (.ok (built [.createSchema "public", .createTable "public" "t" [⟨"id", "int8", true, none⟩],
      .createTable "public" "u" [⟨"id", "int8", true, none⟩]]))) initDir d true ∧ Stored d "stage" st ∧
    2 ≤ st.down.length := by
  have hst : ∃ st, Stored [("init.yaml", .file (some Version.newInit)), ("stage.yaml", .file (some repairStage))] "stage" st ∧
      2 ≤ st.down.length := ⟨repairStage, rfl, by decide⟩
  obtain ⟨st, h1, h2⟩ := hst
  exact ⟨_, st, ⟨9, by rfl⟩, h1, h2⟩

namespace Pg
variable {σ : Type}

theorem UpTo.next {B : Behaviour σ} {d : HDir} {ns : List String} {t t' : VTable} {s : σ} (h : UpTo B d ns t s t') :
    t.next ≤ t'.next := by
  induction h with
  | here => exact Nat.le_refl _
  | refused _ _ hi => exact insert_next hi
  | on _ _ hi _ ih => exact Nat.le_trans (insert_next hi) ih

/-- C93, databases: if the process that runs `up` is killed, at any point, then nothing a user can see has changed,
or everything it was to do is done. -/
theorem C93_up_killed {B : Behaviour σ} {d : HDir} {target : Option String} {db db' : DB σ}
    (h : UpDies B d target db db') : Unchanged db db' ∨ ∃ fuel, up B fuel d target db = some (db', .ok) := by
  cases h with
  | before => exact .inl ⟨rfl, rfl, Iff.rfl, Iff.rfl⟩
  | within _ _ _ _ _ _ => exact .inl (rollback_unchanged _ _)
  | @after fuel db' o h =>
    by_cases ho : o = .ok
    · subst ho; exact .inr ⟨fuel, h⟩
    · exact .inl (C30_up_all_or_nothing B h ho)

/-- C93, what is recorded is still a chain, so that any command can follow. -/
theorem C93_up_killed_reach {B : Behaviour σ} {d : HDir} (hd : NamedAfterVersion d) {target : Option String}
    {db db' : DB σ} (hr : Reach B db) (h : UpDies B d target db db') : Reach B db' := by
  cases h with
  | before => exact hr
  | @within fuel opened t t' current to versions _ he _ _ _ hup =>
    cases hm : db.metaSchema with
    | absent =>
      have : db.rollback (.table t') = db := by
        unfold DB.rollback
        rw [hm]
        cases db
        simp only at hm
        subst hm
        rfl
      rw [this]; exact hr
    | noTable => exact absurd hm hr.hasTable
    | table t₀ =>
      have ht : t = t₀ := by
        unfold ensureInitialized at he
        rw [hm] at he
        simp only [Prod.mk.injEq, Meta.table.injEq, and_true] at he
        exact he.symm
      subst ht
      have : db.rollback (.table t') = ⟨.table { t with next := t'.next }, db.data⟩ := by
        unfold DB.rollback
        rw [hm]
        rfl
      rw [this]
      exact .used hr hm hup.next
  | after h => exact .up hr hd h

/-- `up` of two versions is killed after the first one: the numbers go on, nothing else. -/
example : ∃ t', UpTo demoB demoDir ["20200101000000-first", "stage"] ⟨[⟨Version.newInit, 1⟩], 2⟩ ([] : List String) t' ∧
    t'.next = 3 ∧ t'.rows ≠ [⟨Version.newInit, 1⟩] :=
  ⟨_, .on (v := demoMade) rfl rfl rfl .here, rfl, by decide⟩

end Pg
end Podo
