import Verif.Proofs.Fleet
/-
C84 and C85: the databases of a project.
-/
namespace Podo
open Pg
variable {σ σ' : Type}

/-! ### C84 -/

/-- A database on the made version of the example project. -/
def demoAtMade : DB (List String) := ⟨.table ⟨[⟨Version.newInit, 1⟩, ⟨demoMade, 2⟩], 3⟩, demoMade.up⟩

theorem demoAtMade_brought : Brought demoB [] demoDir demoAtMade :=
  .up (fuel := 9) (target := some "20200101000000-first") (o := .ok) (.new demoDir_reachable) (by decide) rfl

/-- One that has been brought there, back to `init`, and there again. -/
theorem demoAgain_deployed : Deployed demoB demoDir
    (⟨.table ⟨[⟨Version.newInit, 1⟩, ⟨demoMade, 3⟩], 4⟩, demoMade.up⟩ : DB (List String)) := by
  have h1 : Deployed demoB demoDir demoAtMade := Brought.deployed demoAtMade_brought
  have h2 : down demoB (some "init") demoAtMade = (⟨.table ⟨[⟨Version.newInit, 1⟩], 3⟩, []⟩, .ok) := by
    rcases C35_version_table_chain_partial (Deployed.reach h1) with hm | ⟨t, hm, hch⟩
    · cases hm
    · cases hm
      rw [down_to (B := demoB) (db := demoAtMade) (a := []) (r := ⟨Version.newInit, 1⟩) (b := [⟨demoMade, 2⟩])
        (target := some "init") rfl hch rfl (.inl rfl)]
      rfl
  have h3 : Deployed demoB demoDir (⟨.table ⟨[⟨Version.newInit, 1⟩], 3⟩, []⟩ : DB (List String)) := by
    have := Deployed.down (some "init") h1
    rw [h2] at this
    exact this
  exact .up (fuel := 9) (target := some "20200101000000-first") (o := .ok) h3 (by decide) rfl

/-- C84 (partial).  Of two databases of a project, on whatever servers, one has recorded the beginning of what the
other has recorded, and if both are on the same version they have recorded the same: the same versions in the same
order, with the same changes and scripts.  Missing: databases brought to the stage (`C84_stage_false`). -/
theorem C84_same_versions_partial {B : Behaviour σ} {B' : Behaviour σ'} {d : HDir} {db : DB σ} {db' : DB σ'}
    (h : Deployed B d db) (h' : Deployed B' d db') :
    (db.applied <+: db'.applied ∨ db'.applied <+: db.applied) ∧
    (db.version? = db'.version? → db.applied = db'.applied) := by
  obtain ⟨vs, st, _, hh, _⟩ := (Deployed.reachable h).sound
  have p1 := Deployed.applied_prefix h _ _ hh
  have p2 := Deployed.applied_prefix h' _ _ hh
  refine ⟨List.prefix_or_prefix_of_prefix p1 p2, prefix_same_last p1 p2 ?_⟩
  have := hh.names'
  rw [show Version.newInit :: (vs ++ [st]) = (Version.newInit :: vs) ++ [st] from rfl, List.map_append,
    List.nodup_append] at this
  exact this.1

-- Two ways to the same version.
example : demoAtMade.applied = [Version.newInit, demoMade] := by
  have h := (C84_same_versions_partial (Brought.deployed demoAtMade_brought) demoAgain_deployed).2 rfl
  rw [h]
  rfl

/-- C84, beside the files: what a database has recorded are made versions of the project as their files hold them
now, `init` and the way from there to the version it is on. -/
theorem C84_recorded_as_filed {B : Behaviour σ} {d : HDir} {db : DB σ} (h : Deployed B d db) :
    ∃ ws, db.applied = Version.newInit :: ws ∧ (∀ v ∈ db.applied, v.name ≠ "stage" ∧ Stored d v.name v) ∧
      ∀ n, db.version? = some n → VersionPath d "init" n (ws.map Version.name) := by
  obtain ⟨vs, st, _, hh, _⟩ := (Deployed.reachable h).sound
  have hpre := Deployed.applied_prefix h _ _ hh
  obtain ⟨R, hR⟩ := hpre
  have hne : db.applied ≠ [] := by
    rcases C35_version_table_chain_partial (Deployed.reach h) with hm | ⟨t, hm, hch⟩
    · unfold DB.applied; rw [hm]; simp
    · obtain ⟨rest, e⟩ := hch.starts
      unfold DB.applied; rw [hm]; simp only [e]; simp
  cases ha : db.applied with
  | nil => exact absurd ha hne
  | cons v ws =>
    rw [ha] at hR
    simp only [List.cons_append, List.cons.injEq] at hR
    obtain ⟨rfl, hR⟩ := hR
    refine ⟨ws, rfl, ?_, ?_⟩
    · intro v hv
      have hv : v ∈ Version.newInit :: vs := by
        rcases List.mem_cons.1 hv with rfl | hv
        · simp
        · rw [← hR]; simp [hv]
      refine ⟨?_, hh.stored (by rcases List.mem_cons.1 hv with rfl | hv <;> simp [*])⟩
      intro e
      have hnd := hh.names
      rw [List.nodup_append] at hnd
      exact hnd.2.2 v.name (by rcases List.mem_cons.1 hv with rfl | hv
                               · exact List.mem_cons_self
                               · exact List.mem_cons_of_mem _ (List.mem_map_of_mem hv)) "stage" (by simp) e
    · intro n hn
      have hp := hh.path (A := []) (u := Version.newInit) (B := ws) (C := R ++ [st]) (by rw [← hR]; simp)
      unfold DB.version? at hn
      rw [ha, List.getLast?_cons] at hn
      simp only [Option.map_some, Option.some.injEq] at hn
      have : (ws.getLast?.map Version.name).getD Version.newInit.name = n := by
        rw [← hn]; cases ws.getLast? <;> rfl
      rw [this] at hp
      exact hp

/-- C84, for the data: databases that start with the same data on servers that behave in the same way, and are
only brought up, in whatever steps and at whatever times, have the same data when they are on the same version. -/
theorem C84_same_data {B : Behaviour σ} {s₀ : σ} {d : HDir} {db db' : DB σ} (h : Brought B s₀ d db)
    (h' : Brought B s₀ d db') (hv : db.version? = db'.version?) : db.data = db'.data ∧ db.applied = db'.applied := by
  have key : ∀ {d : HDir} {db : DB σ}, Brought B s₀ d db → ∃ ws, db.applied = Version.newInit :: ws ∧
      execAll B s₀ (ws.flatMap Version.up) = some db.data := by
    intro d db h
    induction h with
    | new _ => exact ⟨[], rfl, rfl⟩
    | later _ _ ih => exact ih
    | @up d db db' fuel target o h hs hu ih =>
      obtain ⟨ws, e1, e2⟩ := ih
      by_cases ho : o = .ok
      · subst ho
        have hd := Brought.deployed h
        obtain ⟨n, cur, ws', _, _, _, _, _, _, h7, h8, _⟩ :=
          up_ok (Deployed.reachable hd).namedAfterVersion.storedNames (Deployed.reach hd).good hu
        refine ⟨ws ++ ws', by rw [h8, e1]; rfl, ?_⟩
        rw [List.flatMap_append, execAll_append, e2]
        exact h7
      · have hun := up_unchanged hu ho
        exact ⟨ws, by rw [hun.applied, e1], by rw [hun.data, e2]⟩
  have e := (C84_same_versions_partial (Brought.deployed h) (Brought.deployed h')).2 hv
  obtain ⟨ws, e1, e2⟩ := key h
  obtain ⟨ws', e1', e2'⟩ := key h'
  rw [e1, e1'] at e
  cases e
  rw [e2] at e2'
  exact ⟨Option.some.inj e2', by rw [e1, e1']⟩

example : demoAtMade.applied = [Version.newInit, demoMade] ∧ demoAtMade.version? = some "20200101000000-first" ∧
    demoAtMade.data = demoMade.up := ⟨rfl, rfl, rfl⟩

/-- The example project, with the stage reset. -/
def demoReset : HDir := ((HistCmd.reset.exec 9 demoDir).map Prod.fst).getD []

theorem demoReset_later : Later demoDir demoReset :=
  .step (fuel := 9) (c := .reset) (ok := true) (.refl _) (by intro _ _ h; cases h) rfl

/-- The full C84 is false: of two new databases, one is brought to the stage before a `reset` and the other after
it.  Both are on the version `stage`, but they have recorded different scripts and run different statements. -/
theorem C84_stage_false : Reachable demoDir ∧ Later demoDir demoReset ∧
    ∃ db db' : DB (List String), up demoB 9 demoDir (some "stage") demoNew = some (db, .ok) ∧
      up demoB 9 demoReset (some "stage") demoNew = some (db', .ok) ∧
      db.version? = some "stage" ∧ db'.version? = some "stage" ∧ db.applied ≠ db'.applied ∧ db.data ≠ db'.data := by
  refine ⟨demoDir_reachable, demoReset_later, demoUp,
    ⟨.table ⟨[⟨Version.newInit, 1⟩, ⟨demoMade, 2⟩, ⟨demoStage.reset, 3⟩], 4⟩, demoMade.up⟩, demoUp_eq, rfl, rfl, rfl,
    ?_, ?_⟩
  · intro h
    have : demoStage = demoStage.reset := by
      have := congrArg (fun l => l[2]?) h
      simpa [DB.applied, demoUp] using this
    have := congrArg Version.changes this
    simp [Version.reset, demoStage] at this
  · intro h
    have := congrArg List.length h
    simp [demoUp, demoStage] at this

/-! ### C85 -/

/-- C85 (partial).  A database that is brought up in two steps, the second possibly when the project has gone on, is
as if it had been brought up at once: the same `up` without the first one would have succeeded and left the very
same database behind.  Missing: a first step to the stage (`C85_stage_false`). -/
theorem C85_steps_at_once_partial {B : Behaviour σ} {db db₁ db₂ : DB σ} (hr : Reach B db) {d d' : HDir} (hd : Reachable d)
    (hl : Later d d') {f f' : Nat} {t₁ t₂ : Option String} (hs : t₁ ≠ some "stage")
    (h1 : up B f d t₁ db = some (db₁, .ok)) (h2 : up B f' d' t₂ db₁ = some (db₂, .ok)) :
    ∃ k, up B k d' t₂ db = some (db₂, .ok) := by
  obtain ⟨vs, st, _, hh, _⟩ := hd.sound
  obtain ⟨hd', vs', st', hh'⟩ := later_extends hd hl hh
  obtain ⟨n₁, cur, ws₁, a1, a2, a3, a4, a5, a6, a7, a8, a9, a10, a11⟩ := up_ok hh.storedNames hr.good h1
  by_cases e1 : ws₁ = []
  · rw [a10 e1] at h2
    exact ⟨_, h2⟩
  have hr₁ : Reach B db₁ := .up hr hd.namedAfterVersion h1
  obtain ⟨n₂, c₂, ws₂, b1, b2, b3, b4, b5, b6, b7, b8, b9, b10, b11⟩ := up_ok hh'.storedNames hr₁.good h2
  obtain ⟨t, ht⟩ : ∃ t, ensureInitialized B db = (.table t, true) := by
    rcases up_cases h1 with ⟨_, hc⟩ | ⟨_, t, _, ht, _⟩
    · cases hc
    · exact ⟨t, ht⟩
  obtain ⟨t', s', hx, hc, rfl⟩ := up_loop hh hr.good ht a1 a2 ⟨a3, a4, a5⟩ e1 h1
  have hn₁ : n₁ ≠ "stage" := up_target hh hs a1
  obtain ⟨hw₁, hcongr⟩ := Way.later hd hl ⟨a3, a4, a5⟩ hn₁
  have hcn : c₂.name = n₁ := by
    rw [a8, List.getLast?_append] at b2
    cases hg : ws₁.getLast? with
    | none => exact absurd (List.getLast?_eq_none_iff.1 hg) e1
    | some w =>
      rw [hg] at b2 a9
      simp only [Option.some_or, Option.some.injEq] at b2
      rw [← b2]
      exact a9
  have hw₂ : Way d' n₁ n₂ ws₂ := by rw [← hcn]; exact ⟨b3, b4, b5⟩
  have hw := Way.append hh' hw₁ hw₂
  have hx' : upLoop B d' (ws₁.map Version.name) t db.data = (t', s', .ok) := by
    rw [← upLoop_congr ?_]
    · exact hx
    · intro n hn
      obtain ⟨v, hv, rfl⟩ := List.mem_map.1 hn
      exact hcongr v hv
  by_cases e2 : ws₂ = []
  · rw [b10 e2]
    subst e2
    rw [List.append_nil] at hw
    exact up_of_loop hh' hr.good ht b1 a2 hw e1 hx' hc
  · obtain ⟨t'', s'', hy, hc', rfl⟩ := up_loop hh' hr₁.good (t := t') (by rfl) b1 b2 ⟨b3, b4, b5⟩ e2 h2
    refine up_of_loop hh' hr.good ht b1 a2 hw (by simp [e1]) ?_ hc'
    rw [List.map_append, upLoop_append, hx']
    exact hy

-- First to the made version, and after a `reset` to the stage.
example : ∃ db₂, up demoB 9 demoReset (some "stage") demoAtMade = some (db₂, .ok) ∧
    ∃ k, up demoB k demoReset (some "stage") demoNew = some (db₂, .ok) :=
  ⟨_, rfl, C85_steps_at_once_partial (f := 9) (t₁ := some "20200101000000-first") (f' := 9) (.new []) demoDir_reachable
    demoReset_later (by decide) (db₁ := demoAtMade) rfl rfl⟩

/-- The full C85 is false: after a step to the stage and a `reset`, a second `up` to the stage succeeds without
doing anything, and the database is not as if brought there at once. -/
theorem C85_stage_false : Reachable demoDir ∧ Later demoDir demoReset ∧
    up demoB 9 demoDir (some "stage") demoNew = some (demoUp, .ok) ∧
    up demoB 9 demoReset (some "stage") demoUp = some (demoUp, .ok) ∧
    ∀ k, up demoB k demoReset (some "stage") demoNew ≠ some (demoUp, .ok) := by
  refine ⟨demoDir_reachable, demoReset_later, demoUp_eq, rfl, ?_⟩
  intro k hk
  obtain ⟨_, _, _, hh, _⟩ := demoDir_reachable.sound
  obtain ⟨hr, _⟩ := later_extends demoDir_reachable demoReset_later hh
  obtain ⟨_, _, ws, _, _, _, _, h5, _, _, h8, _⟩ :=
    up_ok hr.namedAfterVersion.storedNames (Reach.new (B := demoB) []).good hk
  have hmem : demoStage ∈ ws := by
    have : [Version.newInit, demoMade, demoStage] = [Version.newInit] ++ ws := h8
    have : ws = [demoMade, demoStage] := (List.cons.inj this).2.symm
    rw [this]; simp
  have hst : demoReset.get? "stage.yaml" = some (.file (some demoStage)) := h5 _ hmem
  have hre : demoReset.get? "stage.yaml" = some (.file (some demoStage.reset)) := rfl
  rw [hre] at hst
  have := congrArg Version.changes (Option.some.inj (Entry.file.inj (Option.some.inj hst)))
  simp [Version.reset, demoStage] at this

/-- C85, the other way round: where `up` brings a database at once from its version over `m` to another one, it can
also be brought first to `m`, if what the scripts make of the data until then can be committed; and then the
same `up` leaves the very same database behind. -/
theorem C85_at_once_steps {B : Behaviour σ} {db db₂ : DB σ} (hr : Reach B db) {d : HDir} (hd : Reachable d)
    {f : Nat} {target : Option String} (h : up B f d target db = some (db₂, .ok)) {cv n : String}
    (hop : Opens d cv) (htar : target.getD cv = n) {cur : Version} (hcur : db.applied.getLast? = some cur) {m : String}
    (hm : OnPath d cur.name m) (hmn : OnPath d m n)
    (hcom : ∀ (ws : List Version) s, VersionPath d cur.name m (ws.map Version.name) → (∀ v ∈ ws, Stored d v.name v) →
      Script B db.data (ws.flatMap Version.up) s → B.commits s = true) :
    ∃ k k' db₁, up B k d (some m) db = some (db₁, .ok) ∧ up B k' d target db₁ = some (db₂, .ok) ∧
      db₁.version? = some m := by
  obtain ⟨vs, st, _, hh, _⟩ := hd.sound
  have htar' : target = some n ∨ target = none ∧ Opens d n := by
    cases target with
    | none => exact .inr ⟨rfl, htar ▸ hop⟩
    | some x => exact .inl (congrArg some htar)
  obtain ⟨ws₁, w₁⟩ := Way.exists hh.storedNames hm
  obtain ⟨ws₂, w₂⟩ := Way.exists hh.storedNames hmn
  obtain ⟨t, ht⟩ : ∃ t, ensureInitialized B db = (.table t, true) := by
    rcases up_cases h with ⟨_, hc⟩ | ⟨_, t, _, ht, _⟩
    · cases hc
    · exact ⟨t, ht⟩
  -- where the target is recorded already, `up` leaves the database
  have there : ∀ {db : DB σ} (hr : Reach B db) {t} (_ : ensureInitialized B db = (.table t, true)) {cur : Version}
      (_ : db.applied.getLast? = some cur) {target : Option String} {n : String}
      (_ : target.getD cv = n) (_ : Way d cur.name n []),
      ∃ k, up B k d target db = some (db, .ok) := by
    intro db hr t ht cur hcur target n htar hw
    obtain ⟨k, db', hu⟩ := up_there hh.storedNames hr.good ht hop htar hcur hw
    obtain ⟨n', c, ws, a1, a2, a3, a4, a5, _, _, _, _, a10, _⟩ := up_ok hh.storedNames hr.good hu
    rw [hcur] at a2
    cases a2
    have hn' : n' = n := by
      rcases a1 with rfl | ⟨rfl, ho⟩
      · exact htar
      · rw [hh.opens_iff.1 ho, ← hh.opens_iff.1 hop]; exact htar
    subst hn'
    have := Way.unique ⟨a3, a4, a5⟩ hw
    rw [a10 this] at hu
    exact ⟨k, hu⟩
  by_cases e1 : ws₁ = []
  · subst e1
    have hmc : m = cur.name := (Way.linked hh w₁).2.symm
    obtain ⟨k, hk⟩ := there hr ht hcur (target := some m) rfl w₁
    exact ⟨k, f, db, hk, h, by unfold DB.version?; rw [hcur, hmc]; rfl⟩
  · have hw := Way.append hh w₁ w₂
    obtain ⟨t₂, s₂, hx, hc, rfl⟩ := up_loop hh hr.good ht htar' hcur hw (by simp [e1]) h
    rw [List.map_append, upLoop_append] at hx
    obtain ⟨t₁, s₁, hx₁⟩ : ∃ t₁ s₁, upLoop B d (ws₁.map Version.name) t db.data = (t₁, s₁, .ok) := by
      cases hy : upLoop B d (ws₁.map Version.name) t db.data with
      | mk t₁ so =>
        obtain ⟨s₁, o⟩ := so
        cases o with
        | ok => exact ⟨_, _, rfl⟩
        | error => rw [hy] at hx; simp at hx
        | panic => rw [hy] at hx; simp at hx
    rw [hx₁] at hx
    simp only at hx
    have hs₁ : execAll B db.data (ws₁.flatMap Version.up) = some s₁ := by
      rcases upLoop_stored (B := B) (t := t) (s := db.data) w₁.stored with hp | ⟨_, hp⟩
      · rw [hx₁] at hp; cases hp
      · rw [hx₁] at hp; exact hp
    obtain ⟨k, hk⟩ := up_of_loop hh hr.good ht (target := some m) (.inl rfl) hcur w₁ e1 hx₁
      (hcom ws₁ s₁ w₁.path w₁.stored (script_iff.2 hs₁))
    have hr₁ : Reach B (⟨.table t₁, s₁⟩ : DB σ) := .up hr hd.namedAfterVersion hk
    obtain ⟨n', c, ws, a1, _, _, _, _, _, _, a8⟩ := C31_up_applies_missing_partial hr hd.namedAfterVersion hk
    have hn' : n' = m := by
      rcases a1 with e | ⟨e, _⟩
      · exact (Option.some.inj e).symm
      · cases e
    subst hn'
    obtain ⟨c₁, hc₁, hcn⟩ := Option.map_eq_some_iff.1 a8
    by_cases e2 : ws₂ = []
    · subst e2
      simp only [List.map_nil, upLoop, Prod.mk.injEq] at hx
      obtain ⟨rfl, rfl, _⟩ := hx
      obtain ⟨k', hk'⟩ := there hr₁ (t := t₁) rfl hc₁ htar (hcn ▸ w₂)
      exact ⟨k, k', _, hk, hk', a8⟩
    · obtain ⟨k', hk'⟩ := up_of_loop hh hr₁.good (t := t₁) rfl htar' hc₁ (hcn ▸ w₂) e2 hx hc
      exact ⟨k, k', _, hk, hk', a8⟩

example : ∃ k k' db₁, up demoB k demoDir (some "20200101000000-first") demoNew = some (db₁, .ok) ∧
    up demoB k' demoDir (some "stage") db₁ = some (demoUp, .ok) ∧ db₁.version? = some "20200101000000-first" := by
  refine C85_at_once_steps (.new []) demoDir_reachable (cv := demoMade.name) demoUp_eq ⟨9, _, rfl⟩ rfl
    (cur := Version.newInit) rfl ⟨[demoMade.name], ?_⟩ ⟨[demoStage.name], ?_⟩ (fun _ _ _ _ _ => rfl)
  · exact .later (l := []) (.here (v := Version.newInit) (by rfl)) (v := demoMade) (by rfl) rfl
  · exact .later (l := []) (.here (v := demoMade) (by rfl)) (v := demoStage) (by rfl) rfl

end Podo
