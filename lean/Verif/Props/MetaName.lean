import Verif.Props.ProgramPg
/-
C71: the name a profile gives the metadata schema.
-/
namespace Podo
namespace Prog
open Proj
variable {σ : Type}

theorem toLower_bare {c : Char}
    (h : (Pg.lower c || (decide ('0' ≤ c) && decide (c ≤ '9')) || decide (c = '_') || decide (c = '$')) = true) :
    c.toLower = c := by
  unfold Char.toLower
  split
  · next h2 =>
    exfalso
    simp only [Pg.lower, Bool.or_eq_true, Bool.and_eq_true, decide_eq_true_eq] at h
    have h3 : 65 ≤ c.val.toNat ∧ c.val.toNat ≤ 90 := by
      simpa [UInt32.le_iff_toNat_le] using h2
    rcases h with ((h | h) | rfl) | rfl
    · have h1 : 'a'.val ≤ c.val := h.1
      have h4 : (97 : Nat) ≤ c.val.toNat := by simpa [UInt32.le_iff_toNat_le] using h1
      omega
    · have h1 : c.val ≤ '9'.val := h.2
      have h4 : c.val.toNat ≤ 57 := by simpa [UInt32.le_iff_toNat_le] using h1
      omega
    · exact absurd h3.2 (by decide)
    · exact absurd h3.1 (by decide)
  · rfl

/-- C71: PostgreSQL reads a name as that very name if it consists of ASCII lower-case letters, digits,
`_` and `$`, does not start with a digit or `$`, and is no key word that cannot be a name. -/
theorem C71_plain_names_read {n : String} (h : Pg.bare n = true) : readSchema n = some n := by
  have hx : ∀ c ∈ n.toList, c.toLower = c := by
    have h' := h
    unfold Pg.bare at h'
    rw [Bool.and_eq_true] at h'
    intro c hc
    apply toLower_bare
    cases hl : n.toList with
    | nil => rw [hl] at hc; cases hc
    | cons a l =>
      rw [hl] at h' hc
      simp only [Bool.and_eq_true, List.all_eq_true] at h'
      rcases List.mem_cons.1 hc with rfl | hc
      · have := h'.1.1
        simp only [Bool.or_eq_true] at this ⊢
        rcases this with h | h
        · exact .inl (.inl (.inl h))
        · exact .inl (.inr h)
      · exact h'.1.2 c hc
  have e : n.map Char.toLower = n := by
    apply String.toList_inj.1
    rw [String.toList_map]
    exact (List.map_congr_left hx).trans (List.map_id' _)
  unfold readSchema
  rw [e, h]
  rfl

theorem openMeta_other {S : Setting σ} {ms : String} (h : ¬S.Reads ms) {s : Server σ}
    (hs : s.metas ms = .absent) : openMeta S s ms = none := by
  unfold openMeta
  split
  · rfl
  · next f hf =>
    split
    · next he => subst he; exact absurd hf h
    · simp [hs]

/-- C71: on a database that has no schema of the configured name, `up` and `down` fail and change nothing
if PostgreSQL reads the name otherwise than it is written, whatever the history, the versions and the
database. -/
theorem C71_other_names_fail {S : Setting σ} {w w' : World σ} {cwd : Proj.Path} {name : String} {q : Profile}
    (hq : ProfileAt S.env w.fs cwd name q) (hi : ¬S.Reads q.metadataSchema) {s : Server σ}
    (hs : w.servers q.databaseUrl = some s) (hn : s.metas q.metadataSchema = .absent) {a : Args}
    {target : Option String} (ha : a = .up name target ∨ a = .down name target) {out : List String}
    {e : Ending} (h : Ends S w cwd a w' out e) : e = .error ∧ w' = w := by
  obtain ⟨fuel, h⟩ := h
  obtain ⟨p, hp, h'⟩ := hq
  obtain ⟨_, _, h2, h3⟩ := profile_dirs h'
  rcases ha with rfl | rfl
  · cases hh : p.historyDir DEFAULT_PROFILE with
    | error _ =>
      simp only [run, hp, hh] at h
      cases h
      exact ⟨rfl, rfl⟩
    | ok d =>
      simp only [run, hp, hh, h2, h3, hs, openMeta_other hi hn] at h
      split at h
      · cases h
      · cases h; exact ⟨rfl, rfl⟩
  · simp only [run, hp, h2, h3, hs, openMeta_other hi hn] at h
    cases h
    exact ⟨rfl, rfl⟩

/-- C71: and `status` says of it that it is not initialized. -/
theorem C71_other_names_status {S : Setting σ} {w w' : World σ} {cwd : Proj.Path} {name : String}
    {q₀ q : Profile} (hq₀ : ProfileAt S.env w.fs cwd "database" q₀)
    (hq : ProfileAt S.env w.fs cwd name q) {s : Server σ}
    (hs : w.servers q.databaseUrl = some s) (hn : s.metas q.metadataSchema = .absent) {out : List String}
    (h : Ends S w cwd (.status name) w' out .success) :
    out.head? = some "On database version: database history is not initialized" := by
  obtain ⟨fuel, h⟩ := h
  rw [run_status hq₀ hq] at h
  have e : tryCurrentVersion S w q.databaseUrl q.metadataSchema =
      .error "database history is not initialized" := by simp only [tryCurrentVersion, hs, hn]
  unfold statusIn at h
  rw [e] at h
  split at h
  · cases h
  · cases h
  split at h
  · next le _ =>
    simp only [Option.map_some, Option.some.injEq, Prod.mk.injEq] at h
    cases le <;> simp [CmdFail.ending] at h
  split at h
  · cases h
  split at h
  · cases h
  · next ce _ =>
    simp only [Option.map_some, Option.some.injEq, Prod.mk.injEq] at h
    cases ce <;> simp [CmdFail.ending] at h
  · cases h; rfl

/-- C71 (partial): on a database that has no schema of the configured name, if PostgreSQL reads the name as
it is written, the first `up` succeeds whenever the scripts and the rows do, and creates the schema of
exactly that name, in which it records the initial version and those it applies.  Missing for the full
property: other names, see `C71_any_name_false`. -/
theorem C71_first_up_partial {S : Setting σ} {w : World σ} {cwd : Proj.Path} {name : String} {q₀ q : Profile}
    (hq₀ : ProfileAt S.env w.fs cwd "database" q₀) (hq : ProfileAt S.env w.fs cwd name q)
    (hi : S.Reads q.metadataSchema) {s : Server σ} (hs : w.servers q.databaseUrl = some s)
    (hn : s.metas q.metadataSchema = .absent) (hd : NamedAfterVersion (w.fs.history q₀.history))
    {target : Option String} {cv n : String} (hop : Opens (w.fs.history q₀.history) cv)
    (htar : target.getD cv = n) {ws : List Version} (hne : ws ≠ [])
    (hp : VersionPath (w.fs.history q₀.history) "init" n (ws.map Version.name))
    (hnot : "init" ∉ ws.map Version.name) (hst : ∀ v ∈ ws, Stored (w.fs.history q₀.history) v.name v)
    {x : σ} (hx : Pg.Script S.B s.data (ws.flatMap Version.up) x) (hcom : S.B.commits x = true)
    (hrec : Pg.Recordable S.B (s.db q.metadataSchema) ws) :
    ∃ w' out s', Ends S w cwd (.up name target) w' out .success ∧ w'.servers q.databaseUrl = some s' ∧
      s'.metas q.metadataSchema ≠ .absent ∧
      (s'.db q.metadataSchema).applied = Version.newInit :: ws ∧ s'.data = x ∧
      ∀ m, m ≠ q.metadataSchema → s'.metas m = s.metas m := by
  have hnew : s.db q.metadataSchema = ⟨.absent, s.data⟩ := by unfold Server.db; rw [hn]
  have happ : (s.db q.metadataSchema).applied = [Version.newInit] := by rw [hnew]; rfl
  obtain ⟨fuel, db', h1, h2, h3⟩ := C31_up_succeeds (B := S.B) (db := s.db q.metadataSchema)
    (by rw [hnew]; exact .new _) hd hop htar (cur := Version.newInit) (by rw [happ]; rfl) hp hnot hst hx hcom
    hrec
  refine ⟨putServer w q.databaseUrl q.metadataSchema s db',
    Pg.upPrinted S.B fuel (w.fs.history q₀.history) target (s.db q.metadataSchema),
    ⟨update s.metas q.metadataSchema db'.metaSchema, db'.data⟩, ⟨fuel, ?_⟩, update_self _ _ _, ?_, ?_, h2,
    fun m hm => update_other _ _ hm⟩
  · rw [run_up hq₀ hq hi target hs, h1]; rfl
  · dsimp only
    rw [update_self]
    intro hab
    unfold Pg.DB.applied at h3
    rw [hab, show (s.db q.metadataSchema).metaSchema = .absent from hn] at h3
    exact hne (by simpa using h3)
  · show Pg.DB.applied ⟨update s.metas q.metadataSchema db'.metaSchema q.metadataSchema, db'.data⟩ = _
    rw [update_self]
    exact h3.trans (by rw [happ]; rfl)

/-! ### A case -/

/-- The settings of a project whose profile names the metadata schema so. -/
def namedProfile (ms : String) : Profile := { progProfile with metadataSchema := ms }

/-- The project of the examples with such a profile, and a new database. -/
def namedWorld (ms : String) : World (List String) :=
  ⟨⟨fun p => if p = ["w"] then some (some [("database", ⟨"postgresql://localhost:5432/postgres",
      "database/history", "database/definitions", ms⟩)]) else none, fun _ => demoDir, fun _ => []⟩,
    fun _ => some ⟨fun _ => .absent, []⟩⟩

theorem namedWorld_profile (ms : String) :
    ProfileAt pgSetting.env (namedWorld ms).fs ["w"] "database" (namedProfile ms) := by
  refine ⟨⟨["w"], [namedProfile ms]⟩, ?_, rfl⟩
  show loadProject demoEnv ["w"] (some _) = _
  simp only [loadProject, List.map, loadProfile]
  rfl

/-- The hypotheses are met: the lower-case name works, the upper-case one does not. -/
theorem namedWorld_up (ms : String) (hi : pgSetting.Reads ms) :
    ∃ w' out s', Ends pgSetting (namedWorld ms) ["w"] (.up "database" (some "stage")) w' out .success ∧
      w'.servers progProfile.databaseUrl = some s' ∧ s'.metas ms ≠ .absent ∧
      (s'.db ms).applied = [Version.newInit, demoMade, demoStage] := by
  obtain ⟨w', out, s', h1, h2, h3, h4, _⟩ := C71_first_up_partial (S := pgSetting) (w := namedWorld ms)
    (namedWorld_profile ms) (namedWorld_profile ms) hi rfl rfl demoDir_reachable.namedAfterVersion
    (target := some "stage") (cv := demoMade.name) (n := "stage") ⟨9, _, rfl⟩ rfl
    (ws := [demoMade, demoStage]) (by simp)
    (show VersionPath demoDir "init" "stage" ([demoMade.name] ++ [demoStage.name]) from
      .later (.later (l := []) (.here (v := Version.newInit) (by rfl)) (v := demoMade) (by rfl) rfl)
        (v := demoStage) (by rfl) rfl)
    (by decide) (by simp only [List.mem_cons, List.not_mem_nil, or_false]; rintro v (rfl | rfl) <;> rfl)
    (x := demoUp.data) (Pg.script_iff.2 rfl) rfl
    ⟨by
      simp only [List.mem_cons, List.not_mem_nil, or_false]
      rintro v (rfl | rfl)
      · exact ⟨by decide, fun p hp => by cases hp; decide⟩
      · exact ⟨by decide, fun p hp => by cases hp; decide⟩, fun _ _ => rfl,
      (show (["init", demoMade.name, demoStage.name] : List String).Nodup by decide),
      fun t h => by (cases h), fun _ => ⟨rfl, rfl, by decide⟩, fun h => by (cases h)⟩
  exact ⟨w', out, s', h1, h2, h3, h4⟩

/-- The full C71, that podo works with whatever name the profile gives the metadata schema, is false: where
`up` succeeds on a new database with `podo_meta`, it fails with `Podo`, every time and with every version, and
so does `down`. -/
theorem C71_any_name_false :
    (∃ w' out, Ends pgSetting (namedWorld "podo_meta") ["w"] (.up "database" (some "stage")) w' out .success) ∧
    ∀ w' out e a target, a = .up "database" target ∨ a = .down "database" target →
      Ends pgSetting (namedWorld "Podo") ["w"] a w' out e → e = .error ∧ w' = namedWorld "Podo" := by
  constructor
  · obtain ⟨w', out, _, h, _⟩ := namedWorld_up "podo_meta" podo_meta_reads
    exact ⟨w', out, h⟩
  · intro w' out e a target ha h
    exact C71_other_names_fail (namedWorld_profile "Podo")
      (by show ¬(readSchema "Podo" = some "Podo"); decide +kernel) rfl rfl ha h

example : readSchema "Podo" = some "podo" ∧ readSchema "\"Podo\"" = some "Podo" ∧
    readSchema "user" = none ∧ readSchema "my-meta" = none ∧ Pg.bare "podo_meta" = true := by
  decide +kernel

end Prog
end Podo
