import Verif.Proofs.Tended
/-
C94: a database and its project, through the life of a machine.
-/
namespace Podo
namespace Prog
open Proj
variable {σ : Type} {B B' : Pg.Behaviour σ} {p : Proj.Path} {url url' m m' : String}

/-! ### A project at work -/

variable {ok : Makes → LocalTime × String → Prop} {to : Option String → Prop}

theorem leavesRecord_same {w w' : World σ} (h : w'.servers = w.servers) : LeavesRecord w w' url m := by
  intro s' hs'
  rw [h] at hs'
  exact .inr ⟨s', hs', rfl⟩

/-- A step of the example that leaves the databases alone. -/
theorem tend_step {log log₁ : Makes} {c c' : Bool} {d d' : HDir} {files files' : AMap Def.Yaml} {w₁ : World (List String)}
    (hg : Tended progSetting.B ok to p url m log (lifeWorld c d files))
    (hh : Happens progSetting.B ok log (lifeWorld c d files) log₁ w₁)
    (h1 : w₁.fs.history = update (fun _ => []) progProfile.history d') (h2 : w₁.servers = (lifeWorld c d files).servers) :
    Tended progSetting.B ok to p url m log₁ (lifeWorld c' d' files') :=
  .on (.on hg (.apart hh (leavesRecord_same h2)))
    (.apart (.edit h2.symm fun p => by rw [h1]; exact .refl _) (leavesRecord_same h2.symm))

/-- `init`, new definitions, and `stage`. -/
theorem tend_staged : Tended progSetting.B ok to p url m [] (lifeWorld true progStaged []) := by
  obtain ⟨w₁, h1, h2, h3⟩ := life_init_happens (ok := ok) tenPast
  have g1 : Tended progSetting.B ok to p url m [] (lifeWorld true initDir [("public.yaml", indexDoc false)]) :=
    tend_step (.new lifeWorld_untouched) h1 h2 h3
  have e1 : (HistCmd.stage (.ok (indexDb false))).exec 9 initDir = some (progStaged, true) := rfl
  obtain ⟨w₂, h1, h2, h3⟩ := life_exec_happens (ok := ok) (t := tenPast) (a := .stage "database") (log := [])
    (files := [("public.yaml", indexDoc false)]) trivial
    (by rw [run_stage (lifeWorld_profile tenPast _ _), lifeWorld_defs]) e1
  exact tend_step g1 h1 h2 h3

/-- And `make`. -/
theorem tend_made (hok : ok [] (tenPast, "auto")) : Tended progSetting.B ok to p url m [(tenPast, "auto")]
    (lifeWorld true (lifeOne "20201025_021000-auto" (Version.newStage "20201025_021000-auto")) []) := by
  obtain ⟨w₁, h1, h2, h3⟩ := life_exec_happens (ok := ok) (t := tenPast) (a := .make "database" none) (log := [])
    (d := progStaged) (files := []) (d' := lifeOne "20201025_021000-auto" (Version.newStage "20201025_021000-auto"))
    ⟨hok, noYaml (by decide +kernel)⟩ (run_make (lifeWorld_profile tenPast _ _) none) (by decide +kernel)
  exact tend_step tend_staged h1 h2 h3

theorem life_upFor (t : LocalTime) (d : HDir) (files : AMap Def.Yaml) :
    UpFor (lifeSetting t) (lifeWorld true d files) ["w"] "database" progProfile.history progProfile.databaseUrl
      "podo_meta" :=
  ⟨podo_meta_reads, _, _, lifeWorld_profile t d files, lifeWorld_profile t d files, rfl, rfl, rfl⟩

/-- And `up`: the world after it. -/
theorem tend_up {log : Makes} {d : HDir} {files : AMap Def.Yaml} {target : Option String} (ht : to target)
    (hg : Tended progSetting.B ok to progProfile.history progProfile.databaseUrl "podo_meta" log (lifeWorld true d files))
    {db : Pg.DB (List String)} {o : Pg.Outcome}
    (hu : Pg.up progSetting.B 9 d target ⟨.absent, []⟩ = some (db, o)) :
    Tended progSetting.B ok to progProfile.history progProfile.databaseUrl "podo_meta" log
      (putServer (lifeWorld true d files) progProfile.databaseUrl "podo_meta" ⟨fun _ => .absent, []⟩ db) := by
  have r := run_up (S := lifeSetting tenPast) (fuel := 9) (w := lifeWorld true d files) (cwd := ["w"]) (name := "database")
    (lifeWorld_profile tenPast _ _) (lifeWorld_profile tenPast _ _) podo_meta_reads target
    (s := ⟨fun _ => .absent, []⟩) rfl
  rw [lifeWorld_history] at r
  change _ = (Pg.up progSetting.B 9 d target ⟨.absent, []⟩).map _ at r
  rw [hu, Option.map_some] at r
  have hr : Ends (lifeSetting tenPast) ((lifeWorld true d files).without allThere) ["w"] (.up "database" target) _ _ _ :=
    ⟨9, r⟩
  exact .on hg (.up (S := lifeSetting tenPast) (t := tenPast) rfl rfl (life_upFor tenPast d files) ht hr)

/-! ### C94 -/

/-- C94, record: through the whole life of a machine (see C91), a database that belongs to one project and is not
brought to the stage has recorded versions exactly as the files of the project hold them now: `init` and the way
from there to the version it is on. -/
theorem C94_recorded_as_filed {log : Makes} {w : World σ} (h : Tended B Distinct NotStage p url m log w) {s : Server σ}
    (hs : w.servers url = some s) {n₀ : String} {v₀ : Version} (hv₀ : Stored (w.fs.history p) n₀ v₀) :
    ∃ ws, (s.db m).applied = Version.newInit :: ws ∧
      (∀ v ∈ (s.db m).applied, v.name ≠ "stage" ∧ Stored (w.fs.history p) v.name v) ∧
      ∀ n, (s.db m).version? = some n → VersionPath (w.fs.history p) "init" n (ws.map Version.name) := by
  have hd := h.inStep distinct_ne (fun _ h => h rfl) s hs
  rw [orInit_some (by rintro e; rw [e] at hv₀; cases hv₀)] at hd
  exact C84_recorded_as_filed hd

/-- C94, before: while the project has no version files, nothing is recorded. -/
theorem C94_nothing_recorded {log : Makes} {w : World σ} (h : Tended B Distinct NotStage p url m log w) {s : Server σ}
    (hs : w.servers url = some s) (he : w.fs.history p = []) : (s.db m).applied = [Version.newInit] := by
  have hd := h.inStep distinct_ne (fun _ h => h rfl) s hs
  rw [he, orInit_nil] at hd
  obtain ⟨ws, h1, h2, _⟩ := C84_recorded_as_filed hd
  have hp := Deployed.applied_prefix hd [] _ initDir_history
  rw [h1] at hp ⊢
  obtain ⟨r, hr⟩ := hp
  simp only [List.cons_append, List.cons.injEq, List.append_eq_nil_iff, true_and] at hr
  rw [hr.1]

/-- C94, several databases: of two databases of the project, one has recorded the beginning of what the other has,
and on the same version they have recorded the same. -/
theorem C94_same_versions {log log' : Makes} {w : World σ} (h : Tended B Distinct NotStage p url m log w)
    (h' : Tended B' Distinct NotStage p url' m' log' w) {s s' : Server σ} (hs : w.servers url = some s)
    (hs' : w.servers url' = some s') :
    ((s.db m).applied <+: (s'.db m').applied ∨ (s'.db m').applied <+: (s.db m).applied) ∧
    ((s.db m).version? = (s'.db m').version? → (s.db m).applied = (s'.db m').applied) :=
  C84_same_versions_partial (h.inStep distinct_ne (fun _ h => h rfl) s hs)
    (h'.inStep distinct_ne (fun _ h => h rfl) s' hs')

/-- C94, up: such a database can always be brought up to the newest version.  What is recorded in it and what is
missing are together all versions made, in their order; if the server takes those that are missing, `podo up`
succeeds, and then all of them are recorded. -/
theorem C94_up_works {log : Makes} {w : World σ} (h : Tended B Distinct NotStage p url m log w) {s : Server σ}
    (hs : w.servers url = some s) {n₀ : String} {v₀ : Version} (hv₀ : Stored (w.fs.history p) n₀ v₀) :
    ∃ newest made missing, Opens (w.fs.history p) newest ∧ Pg.Way (w.fs.history p) "init" newest made ∧
      Version.newInit :: made = (s.db m).applied ++ missing ∧
      (Pg.Takes B (s.db m) missing → ∀ (S : Setting σ) (cwd : Proj.Path) (name : String), S.B = B →
        UpFor S w cwd name p url m →
        ∃ w' out s', Ends S w cwd (.up name none) w' out .success ∧ w'.servers url = some s' ∧
          (s'.db m).applied = Version.newInit :: made) := by
  have hd := h.inStep distinct_ne (fun _ h => h rfl) s hs
  rw [orInit_some (by rintro e; rw [e] at hv₀; cases hv₀)] at hd
  obtain ⟨vs, st, sn, hh, _⟩ := (Deployed.reachable hd).sound
  obtain ⟨ws, hws⟩ := Deployed.applied_prefix hd vs st hh
  have hop : Opens (w.fs.history p) (((vs.map Version.name).getLast?).getD "init") := hh.opens_iff.2 rfl
  have hnd := hh.names'
  have way : ∀ {A : List Version} {u : Version} {W : List Version}, Version.newInit :: vs = A ++ u :: W →
      Pg.Way (w.fs.history p) u.name (((vs.map Version.name).getLast?).getD "init") W := by
    intro A u W e
    have e' : Version.newInit :: (vs ++ [st]) = A ++ u :: (W ++ [st]) := by
      rw [show Version.newInit :: (vs ++ [st]) = (Version.newInit :: vs) ++ [st] from rfl, e]
      simp
    have hp := hh.path (A := A) (u := u) (B := W) (C := [st]) e'
    have hlast : (W.getLast?.map Version.name).getD u.name = ((vs.map Version.name).getLast?).getD "init" := by
      have h1 : ((Version.newInit :: vs).getLast?.map Version.name) = some (((vs.map Version.name).getLast?).getD "init") := by
        rw [List.getLast?_cons, List.getLast?_map]
        cases vs.getLast? <;> rfl
      rw [e, List.getLast?_append, List.getLast?_cons] at h1
      simp only [Option.some_or, Option.map_some, Option.some.injEq] at h1
      rw [← h1]
      cases W.getLast? <;> rfl
    rw [hlast] at hp
    refine ⟨hp, ?_, fun v hv => hh.stored ?_⟩
    · rw [e', List.map_append, List.nodup_append] at hnd
      have := hnd.2.1
      rw [List.map_cons, List.nodup_cons, List.map_append] at this
      exact fun hm => this.1 (List.mem_append.2 (.inl hm))
    · have : v ∈ Version.newInit :: vs := by rw [e]; simp [hv]
      rcases List.mem_cons.1 this with rfl | hv <;> simp [*]
  refine ⟨_, vs, ws, hop, way (A := []) rfl, hws.symm, fun htake S cwd name hB hfor => ?_⟩
  subst hB
  obtain ⟨hi, q₀, q, hq₀, hq, rfl, rfl, rfl⟩ := hfor
  obtain ⟨n, hn⟩ := deployed_version hd
  unfold Pg.DB.version? at hn
  obtain ⟨cur, hcur, _⟩ := Option.map_eq_some_iff.1 hn
  obtain ⟨A, hA⟩ : ∃ A, (s.db q.metadataSchema).applied = A ++ [cur] := by
    rcases List.eq_nil_or_concat (s.db q.metadataSchema).applied with e | ⟨A, x, e⟩
    · rw [e] at hcur; cases hcur
    · rw [List.concat_eq_append] at e
      rw [e, List.getLast?_append] at hcur
      simp only [List.getLast?_singleton, Option.some_or, Option.some.injEq] at hcur
      exact ⟨A, hcur ▸ e⟩
  have hway := way (A := A) (u := cur) (W := ws) (by rw [← hws, hA]; simp)
  have hreach := Deployed.reach hd
  obtain ⟨s', hx, hcom⟩ := htake.runs
  have hrec : Pg.Recordable S.B (s.db q.metadataSchema) ws := {
    short := htake.short
    accepted := htake.accepted
    room := htake.room
    creates := htake.creates
    present := hreach.hasTable
    fresh := by
      rw [hws]
      rw [show Version.newInit :: (vs ++ [st]) = (Version.newInit :: vs) ++ [st] from rfl, List.map_append,
        List.nodup_append] at hnd
      exact hnd.1 }
  obtain ⟨fuel, db', hup, _, happ⟩ := C31_up_succeeds hreach (Deployed.reachable hd).namedAfterVersion hop
    (target := none) rfl hcur hway.path hway.once hway.stored hx hcom hrec
  have r := run_up (fuel := fuel) hq₀ hq hi none hs
  rw [hup, Option.map_some] at r
  refine ⟨_, _, ⟨update s.metas q.metadataSchema db'.metaSchema, db'.data⟩, ⟨fuel, r⟩, ?_, ?_⟩
  · simp only [putServer]; exact update_self _ _ _
  · simp only [Server.db, update_self]
    rw [← hws]
    exact happ

/-- C94 at work: `init`, `stage` and `make`, and then `up`. -/
example : ∃ log w s, Tended progSetting.B Distinct NotStage progProfile.history progProfile.databaseUrl "podo_meta" log w ∧
    w.servers progProfile.databaseUrl = some s ∧
    (s.db "podo_meta").applied = [Version.newInit, { progStage with name := "20201025_021000-auto" }] ∧
    s.data = progStage.up.reverse ∧ Stored (w.fs.history progProfile.history) "init" Version.newInit := by
  have hu : Pg.up progSetting.B 9 (lifeOne "20201025_021000-auto" (Version.newStage "20201025_021000-auto")) none
      ⟨.absent, []⟩ = some (⟨.table ⟨[⟨Version.newInit, 1⟩, ⟨{ progStage with name := "20201025_021000-auto" }, 2⟩], 3⟩,
        progStage.up.reverse⟩, .ok) := rfl
  refine ⟨_, _, ⟨update (fun _ => .absent) "podo_meta" (.table ⟨[⟨Version.newInit, 1⟩,
      ⟨{ progStage with name := "20201025_021000-auto" }, 2⟩], 3⟩), progStage.up.reverse⟩,
    tend_up (target := none) (by intro e; cases e) (tend_made (by intro hm; cases hm)) hu, ?_, ?_, rfl, ?_⟩
  · simp only [putServer]; exact update_self _ _ _
  · simp only [Server.db, Pg.DB.applied, update_self]; rfl
  · show Stored ((lifeWorld true _ _).fs.history _) _ _
    rw [lifeWorld_history]; unfold Stored; decide +kernel

/-- Before the `up`, the version is missing, and the server takes it. -/
example : ∃ log w s, Tended progSetting.B Distinct NotStage progProfile.history progProfile.databaseUrl "podo_meta" log w ∧
    w.servers progProfile.databaseUrl = some s ∧ (s.db "podo_meta").applied = [Version.newInit] ∧
    Pg.Takes progSetting.B (s.db "podo_meta") [{ progStage with name := "20201025_021000-auto" }] ∧
    UpFor (lifeSetting tenPast) w ["w"] "database" progProfile.history progProfile.databaseUrl "podo_meta" := by
  refine ⟨_, _, ⟨fun _ => .absent, []⟩, tend_made (by intro hm; cases hm), rfl, rfl, ?_, life_upFor _ _ _⟩
  refine ⟨⟨progStage.up.reverse, ?_, rfl⟩, ?_, ?_, ?_, fun _ => ⟨rfl, rfl, by decide⟩⟩
  · exact .cons rfl (.cons rfl .nil)
  · intro v hv
    rw [List.mem_singleton] at hv
    subst hv
    exact ⟨by decide, fun p hp => by cases hp; decide⟩
  · intro v hv; rfl
  · intro t ht; cases ht

/-- C94 is false of a database that is brought to the stage: after a `reset`, what it has recorded is in no
file. -/
theorem C94_stage_false : ∃ (B : Pg.Behaviour (List String)) (log : Makes) (w : World (List String)) (p : Proj.Path)
    (url m : String) (s : Server (List String)), Tended B Distinct (fun _ => True) p url m log w ∧
    w.servers url = some s ∧ (∃ v, Stored (w.fs.history p) "stage" v) ∧
    ∃ v ∈ (s.db m).applied, ∀ n, ¬ Stored (w.fs.history p) n v := by
  have hu : Pg.up progSetting.B 9 progStaged (some "stage") ⟨.absent, []⟩ =
      some (⟨.table ⟨[⟨Version.newInit, 1⟩, ⟨progStage, 2⟩], 3⟩, progStage.up.reverse⟩, .ok) := rfl
  have g := tend_up (ok := Distinct) (to := fun _ => True) (files := []) trivial tend_staged hu
  have hr := run_reset (S := lifeSetting tenPast) (fuel := 9) (cwd := ["w"]) (name := "database") (q := progProfile)
    (w := putServer (lifeWorld true progStaged []) progProfile.databaseUrl "podo_meta" ⟨fun _ => .absent, []⟩
      ⟨.table ⟨[⟨Version.newInit, 1⟩, ⟨progStage, 2⟩], 3⟩, progStage.up.reverse⟩) (lifeWorld_profile tenPast _ _)
  obtain ⟨w₁, out, h1, _, h2, h3⟩ := runHist_ok (c := .reset) (fuel := 9) (h := progProfile.history) (d := initDir)
    (w := putServer (lifeWorld true progStaged []) progProfile.databaseUrl "podo_meta" ⟨fun _ => .absent, []⟩
      ⟨.table ⟨[⟨Version.newInit, 1⟩, ⟨progStage, 2⟩], 3⟩, progStage.up.reverse⟩)
    (by show HistCmd.exec 9 .reset ((lifeWorld true progStaged []).fs.history progProfile.history) = _
        rw [lifeWorld_history]; rfl)
  have hh := happens_there (ok := Distinct) (log := []) (S := lifeSetting tenPast) (t := tenPast) (cwd := ["w"])
    (a := .reset "database") rfl trivial ⟨9, hr.trans h1⟩
  have hw : w₁.fs.history progProfile.history = initDir := by
    rw [h2]; dsimp only; rw [update_self]
  refine ⟨_, _, w₁, progProfile.history, progProfile.databaseUrl, "podo_meta",
    ⟨update (fun _ => .absent) "podo_meta" (.table ⟨[⟨Version.newInit, 1⟩, ⟨progStage, 2⟩], 3⟩), progStage.up.reverse⟩,
    .on g (.apart hh (leavesRecord_same h3)), ?_, ?_, ?_⟩
  · rw [h3]; simp only [putServer]; exact update_self _ _ _
  · refine ⟨Version.newStage "init", ?_⟩
    rw [hw]; rfl
  · refine ⟨progStage, ?_, fun n hv => ?_⟩
    · simp only [Server.db, Pg.DB.applied, update_self]; exact .tail _ (.head _)
    · rw [hw] at hv
      obtain ⟨hm, _⟩ := initDir_history.stored_iff.1 hv
      revert hm
      decide +kernel

end Prog
end Podo
