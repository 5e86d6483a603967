import Verif.Proofs.UpEnds
import Verif.Props.Program
/-
C31, C33, C36, C65: `podo up` and `podo down` as a user starts them.
-/
namespace Podo
namespace Prog
open Proj
variable {σ : Type}

/-- Podo is at work on the server `url` with the metadata schema `ms`, which becomes `db`; all other
metadata schemas, servers and all files stay. -/
structure OnlyDatabase (w w' : World σ) (url ms : String) (db : Pg.DB σ) : Prop where
  files : w'.fs = w.fs
  others : ∀ u, u ≠ url → w'.servers u = w.servers u
  becomes : ∀ s, w.servers url = some s → ∃ s', w'.servers url = some s' ∧ s'.db ms = db ∧
    ∀ m, m ≠ ms → s'.metas m = s.metas m

theorem onlyDatabase_put {w : World σ} {url ms : String} {s : Server σ} (hs : w.servers url = some s)
    (db : Pg.DB σ) : OnlyDatabase w (putServer w url ms s db) url ms db where
  files := rfl
  others u hu := by simp [putServer, update, hu]
  becomes s₁ h := by
    rw [hs] at h; cases h
    exact ⟨_, by simp [putServer, update]; rfl, by simp [Server.db, update],
      fun m hm => by simp [update, hm]⟩

theorem run_down {S : Setting σ} {fuel : Nat} {w : World σ} {cwd : Proj.Path} {name : String} {q : Profile}
    (hq : ProfileAt S.env w.fs cwd name q) (hi : S.Reads q.metadataSchema) (target : Option String)
    {s : Server σ} (hs : w.servers q.databaseUrl = some s) :
    run S fuel w cwd (.down name target) =
      some (putServer w q.databaseUrl q.metadataSchema s (Pg.down S.B target (s.db q.metadataSchema)).1,
        Pg.downPrinted S.B target (s.db q.metadataSchema),
        pgEnding (Pg.down S.B target (s.db q.metadataSchema)).2) := by
  obtain ⟨p, hp, h⟩ := hq
  obtain ⟨_, _, h2, h3⟩ := profile_dirs h
  simp only [run, hp, h2, h3, hs, Server.db, openMeta_self hi]

theorem pgEnding_success {o : Pg.Outcome} : pgEnding o = .success ↔ o = .ok := by
  cases o <;> simp [pgEnding]

/-- C31, as the user sees it: a successful `podo up` with the profile `name` and the version given, or
none, leaves all files and all other databases; on the database of the profile it runs the up scripts of
the versions of the default profile's history that lie on the path from the database's current version
to the one given, or else the history's current one, in this order, and records exactly these. -/
theorem C31_podo_up {S : Setting σ} {w w' : World σ} {cwd : Proj.Path} {name : String} {q₀ q : Profile}
    (hq₀ : ProfileAt S.env w.fs cwd "database" q₀) (hq : ProfileAt S.env w.fs cwd name q)
    (hi : S.Reads q.metadataSchema) {s : Server σ} (hs : w.servers q.databaseUrl = some s)
    (hr : Pg.Reach S.B (s.db q.metadataSchema))
    (hd : NamedAfterVersion (w.fs.history q₀.history)) {target : Option String} {out : List String}
    (h : Ends S w cwd (.up name target) w' out .success) :
    ∃ db n cur ws, OnlyDatabase w w' q.databaseUrl q.metadataSchema db ∧
      (target = some n ∨ target = none ∧ Opens (w.fs.history q₀.history) n) ∧
      (s.db q.metadataSchema).applied.getLast? = some cur ∧
      VersionPath (w.fs.history q₀.history) cur.name n (ws.map Version.name) ∧
      cur.name ∉ ws.map Version.name ∧ (∀ v ∈ ws, Stored (w.fs.history q₀.history) v.name v) ∧
      Pg.Script S.B s.data (ws.flatMap Version.up) db.data ∧
      db.applied = (s.db q.metadataSchema).applied ++ ws := by
  obtain ⟨fuel, h⟩ := h
  rw [run_up hq₀ hq hi target hs] at h
  cases hu : Pg.up S.B fuel (w.fs.history q₀.history) target (s.db q.metadataSchema) with
  | none => rw [hu] at h; cases h
  | some r =>
    obtain ⟨db, o⟩ := r
    rw [hu] at h
    injection h with h
    injection h with h1 h2
    injection h2 with _ h2
    cases pgEnding_success.1 h2
    subst h1
    obtain ⟨n, cur, ws, a, b, c, d, e, f, g, _⟩ := C31_up_applies_missing_partial hr hd hu
    exact ⟨db, n, cur, ws, onlyDatabase_put hs db, a, b, c, d, e, f, g⟩

/-- C33, as the user sees it: a successful `podo down` to `n` with the profile `name` leaves all files
and all other databases; on the database of the profile it runs the recorded down scripts of the versions
recorded after `n`, newest first, and exactly these are no longer recorded. -/
theorem C33_podo_down {S : Setting σ} {w w' : World σ} {cwd : Proj.Path} {name : String} {q : Profile}
    (hq : ProfileAt S.env w.fs cwd name q) (hi : S.Reads q.metadataSchema) {s : Server σ}
    (hs : w.servers q.databaseUrl = some s)
    (hr : Pg.Reach S.B (s.db q.metadataSchema)) {n : String} {out : List String}
    (h : Ends S w cwd (.down name (some n)) w' out .success) :
    ∃ db pre v post, OnlyDatabase w w' q.databaseUrl q.metadataSchema db ∧
      (s.db q.metadataSchema).applied = pre ++ v :: post ∧ v.name = n ∧
      Pg.Script S.B s.data (post.reverse.flatMap Version.down) db.data ∧ db.applied = pre ++ [v] := by
  obtain ⟨fuel, h⟩ := h
  rw [run_down hq hi (some n) hs] at h
  injection h with h
  injection h with h1 h2
  injection h2 with _ h2
  have h2 := pgEnding_success.1 h2
  subst h1
  obtain ⟨pre, v, post, a, b, c, d⟩ := C33_down_reverts_later hr (Prod.ext rfl h2)
  exact ⟨_, pre, v, post, onlyDatabase_put hs _, a, b, c, d⟩

/-- C36, as the user sees it: a successful `podo down` without a version takes back exactly the version
recorded last. -/
theorem C36_podo_down {S : Setting σ} {w w' : World σ} {cwd : Proj.Path} {name : String} {q : Profile}
    (hq : ProfileAt S.env w.fs cwd name q) (hi : S.Reads q.metadataSchema) {s : Server σ}
    (hs : w.servers q.databaseUrl = some s)
    (hr : Pg.Reach S.B (s.db q.metadataSchema)) {pre : List Version} {v : Version}
    (ha : (s.db q.metadataSchema).applied = pre ++ [v]) (hpre : pre ≠ []) {out : List String}
    (h : Ends S w cwd (.down name none) w' out .success) :
    ∃ db, OnlyDatabase w w' q.databaseUrl q.metadataSchema db ∧ Pg.Script S.B s.data v.down db.data ∧
      db.applied = pre := by
  obtain ⟨fuel, h⟩ := h
  rw [run_down hq hi none hs] at h
  injection h with h
  injection h with h1 h2
  injection h2 with _ h2
  have h2 := pgEnding_success.1 h2
  subst h1
  obtain ⟨a, b⟩ := C36_down_one_partial hr ha hpre (Prod.ext rfl h2)
  exact ⟨_, onlyDatabase_put hs _, a, b⟩

/-- C36, as the user sees it: `podo down` to a version that the database has not recorded fails, and
nobody sees a difference. -/
theorem C36_podo_down_unknown {S : Setting σ} {w : World σ} {cwd : Proj.Path} {name : String} {q : Profile}
    (hq : ProfileAt S.env w.fs cwd name q) (hi : S.Reads q.metadataSchema) {s : Server σ}
    (hs : w.servers q.databaseUrl = some s)
    (hr : Pg.Reach S.B (s.db q.metadataSchema)) {n : String}
    (hn : ∀ v ∈ (s.db q.metadataSchema).applied, v.name ≠ n) :
    ∃ w' out, Ends S w cwd (.down name (some n)) w' out .error ∧ w'.fs = w.fs ∧ SameServers w w' := by
  have hx := run_down (fuel := 0) hq hi (some n) hs
  obtain ⟨a, _⟩ := C36_down_unknown (B := S.B) hr hn
  rw [a] at hx
  refine ⟨_, _, ⟨0, hx⟩, rfl, C62_failure_keeps_databases ⟨0, hx⟩ (by simp [pgEnding])⟩

/-- C65: `podo init` does not panic. -/
theorem C65_init_reports {S : Setting σ} {w w' : World σ} {cwd : Proj.Path} {out : List String} {e : Ending}
    (h : Ends S w cwd .init w' out e) : e ≠ .panic := by
  obtain ⟨fuel, h⟩ := h
  intro he
  exact init_no_panic _ _ _ ((init_servers h).2.2 he)

/-- C65 is false for `up`: along any path of versions, when the server refuses one of the statements of the
scripts, `podo up` panics, and exits with another number than zero. -/
theorem C65_up_script_panics_false {S : Setting σ} {w : World σ} {cwd : Proj.Path} {name : String}
    {q₀ q : Profile} (hq₀ : ProfileAt S.env w.fs cwd "database" q₀) (hq : ProfileAt S.env w.fs cwd name q)
    (hi : S.Reads q.metadataSchema) {s : Server σ} (hs : w.servers q.databaseUrl = some s)
    (hr : Pg.Reach S.B (s.db q.metadataSchema)) (hw : (s.db q.metadataSchema).metaSchema ≠ .absent)
    (hd : NamedAfterVersion (w.fs.history q₀.history)) {target : Option String} {cv n : String}
    (hop : Opens (w.fs.history q₀.history) cv) (htar : target.getD cv = n) {cur : Version}
    (hcur : (s.db q.metadataSchema).applied.getLast? = some cur) {ws : List Version}
    (hp : VersionPath (w.fs.history q₀.history) cur.name n (ws.map Version.name))
    (hnot : cur.name ∉ ws.map Version.name) (hst : ∀ v ∈ ws, Stored (w.fs.history q₀.history) v.name v)
    (hx : ¬ ∃ s', Pg.Script S.B s.data (ws.flatMap Version.up) s') :
    ∃ w' out, Ends S w cwd (.up name target) w' out .panic ∧ Ending.panic.code ≠ 0 := by
  obtain ⟨t, htab⟩ : ∃ t, (s.db q.metadataSchema).metaSchema = .table t := by
    cases hm : (s.db q.metadataSchema).metaSchema with
    | absent => exact absurd hm hw
    | noTable => exact absurd hm hr.hasTable
    | table t => exact ⟨t, rfl⟩
  have hx' : Pg.execAll S.B (s.db q.metadataSchema).data (ws.flatMap Version.up) = none := by
    cases he : Pg.execAll S.B (s.db q.metadataSchema).data (ws.flatMap Version.up) with
    | none => rfl
    | some s' => exact absurd ⟨s', Pg.script_iff.2 he⟩ hx
  obtain ⟨fuel, db', hu⟩ := Pg.up_panics hd.storedNames hr.good htab hop htar hcur hp hnot hst hx'
  have e := run_up (fuel := fuel) hq₀ hq hi target hs
  rw [hu] at e
  exact ⟨_, _, ⟨fuel, e⟩, by simp [Ending.code]⟩

/-- C65 for `up`, all of it: on a database podo has written, with a way of versions to the one asked for
that has not been gone, `podo up` succeeds if and only if the server executes the up scripts, the versions
can be recorded, and the server commits; it panics if and only if the server refuses a statement of the
scripts or one of the versions cannot be recorded; and it reports an error if and only if only the commit
fails. -/
theorem C65_up_endings {S : Setting σ} {w : World σ} {cwd : Proj.Path} {name : String}
    {q₀ q : Profile} (hq₀ : ProfileAt S.env w.fs cwd "database" q₀) (hq : ProfileAt S.env w.fs cwd name q)
    (hi : S.Reads q.metadataSchema) {s : Server σ} (hs : w.servers q.databaseUrl = some s)
    (hr : Pg.Reach S.B (s.db q.metadataSchema)) (hw : (s.db q.metadataSchema).metaSchema ≠ .absent)
    (hd : NamedAfterVersion (w.fs.history q₀.history)) {target : Option String} {cv n : String}
    (hop : Opens (w.fs.history q₀.history) cv) (htar : target.getD cv = n) {cur : Version}
    (hcur : (s.db q.metadataSchema).applied.getLast? = some cur) {ws : List Version}
    (hp : VersionPath (w.fs.history q₀.history) cur.name n (ws.map Version.name))
    (hnot : cur.name ∉ ws.map Version.name) (hst : ∀ v ∈ ws, Stored (w.fs.history q₀.history) v.name v)
    (hne : ws ≠ []) :
    ((∃ w' out, Ends S w cwd (.up name target) w' out .success) ↔
      ∃ s', Pg.Script S.B s.data (ws.flatMap Version.up) s' ∧
        Pg.Recordable S.B (s.db q.metadataSchema) ws ∧ S.B.commits s' = true) ∧
    ((∃ w' out, Ends S w cwd (.up name target) w' out .panic) ↔
      (¬ ∃ s', Pg.Script S.B s.data (ws.flatMap Version.up) s') ∨
        ¬ Pg.Recordable S.B (s.db q.metadataSchema) ws) ∧
    ((∃ w' out, Ends S w cwd (.up name target) w' out .error) ↔
      ∃ s', Pg.Script S.B s.data (ws.flatMap Version.up) s' ∧
        Pg.Recordable S.B (s.db q.metadataSchema) ws ∧ S.B.commits s' = false) := by
  obtain ⟨t, htab⟩ : ∃ t, (s.db q.metadataSchema).metaSchema = .table t := by
    cases hm : (s.db q.metadataSchema).metaSchema with
    | absent => exact absurd hm hw
    | noTable => exact absurd hm hr.hasTable
    | table t => exact ⟨t, rfl⟩
  have hini : Pg.ensureInitialized S.B (s.db q.metadataSchema) = (.table t, true) := by
    unfold Pg.ensureInitialized; rw [htab]
  obtain ⟨fuel, hall⟩ := Pg.up_along (B := S.B) hd.storedNames hr.good hini hop htar hcur hp hnot hne
  obtain ⟨hok, hpan⟩ := Pg.upLoop_iff (B := S.B) hd.storedNames hr.good hini hcur hp hst hne
  have hd' : (s.db q.metadataSchema).data = s.data := rfl
  rw [hd'] at hok hpan hall
  -- the ending in terms of the loop
  have hend : ∀ e, (∃ w' out, Ends S w cwd (.up name target) w' out e) ↔
      e = (match Pg.upLoop S.B (w.fs.history q₀.history) (ws.map Version.name) t s.data with
        | (_, x, .ok) => if S.B.commits x then Ending.success else .error
        | (_, _, o) => pgEnding o) := by
    intro e
    constructor
    · rintro ⟨w', out, f, h⟩
      rw [run_up hq₀ hq hi target hs, Option.map_eq_some_iff] at h
      obtain ⟨r, hu, h⟩ := h
      injection h with _ h
      injection h with _ h
      rw [← h]
      rw [hall f r (.inl hu)] at hu
      injection hu with hu
      rw [← hu]
      rcases Pg.upLoop S.B (w.fs.history q₀.history) (ws.map Version.name) t s.data with ⟨t', x, o⟩
      cases o
      · simp only
        split <;> rfl
      · rfl
      · rfl
    · rintro rfl
      have e := run_up (fuel := fuel) hq₀ hq hi target hs
      rw [hall fuel (s.db q.metadataSchema, .ok) (.inr (Nat.le_refl _))] at e
      rw [Option.map_some] at e
      generalize Pg.upLoop S.B (w.fs.history q₀.history) (ws.map Version.name) t s.data = l at e ⊢
      obtain ⟨t', x, o⟩ := l
      cases o
      · cases hc : S.B.commits x
        · simp only [hc] at e ⊢
          exact ⟨_, _, fuel, e⟩
        · simp only [hc] at e ⊢
          exact ⟨_, _, fuel, e⟩
      · exact ⟨_, _, fuel, e⟩
      · exact ⟨_, _, fuel, e⟩
  rw [hend, hend, hend]
  by_cases hloop : ∃ t' x, Pg.upLoop S.B (w.fs.history q₀.history) (ws.map Version.name) t s.data = (t', x, .ok)
  · obtain ⟨t', x, hl⟩ := hloop
    obtain ⟨hx, hrec⟩ := (hok x).1 ⟨t', hl⟩
    have hx' := Pg.script_iff.2 hx
    have hu : ∀ y, Pg.Script S.B s.data (ws.flatMap Version.up) y → y = x := by
      intro y hy
      have := Pg.script_iff.1 hy
      rw [hx] at this
      cases this
      rfl
    simp only [hl]
    refine ⟨?_, ?_, ?_⟩
    · constructor
      · intro h
        cases hc : S.B.commits x with
        | true => exact ⟨x, hx', hrec, hc⟩
        | false => rw [hc] at h; cases h
      · rintro ⟨y, hy, _, hc⟩
        rw [hu y hy] at hc
        rw [hc]
        rfl
    · constructor
      · intro h
        cases hc : S.B.commits x <;> rw [hc] at h <;> cases h
      · rintro (h | h)
        · exact absurd ⟨x, hx'⟩ h
        · exact absurd hrec h
    · constructor
      · intro h
        cases hc : S.B.commits x with
        | false => exact ⟨x, hx', hrec, hc⟩
        | true => rw [hc] at h; cases h
      · rintro ⟨y, hy, _, hc⟩
        rw [hu y hy] at hc
        rw [hc]
        rfl
  · obtain ⟨t', x, hl⟩ := hpan hloop
    have hno : ∀ y, Pg.Script S.B s.data (ws.flatMap Version.up) y →
        ¬ Pg.Recordable S.B (s.db q.metadataSchema) ws := by
      intro y hy hrec
      obtain ⟨t'', h⟩ := (hok y).2 ⟨Pg.script_iff.1 hy, hrec⟩
      exact hloop ⟨t'', y, h⟩
    simp only [hl, pgEnding]
    refine ⟨⟨fun h => (nomatch h), ?_⟩, ⟨fun _ => ?_, fun _ => trivial⟩, ⟨fun h => (nomatch h), ?_⟩⟩
    · rintro ⟨y, hy, hrec, _⟩
      exact absurd hrec (hno y hy)
    · by_cases hsc : ∃ y, Pg.Script S.B s.data (ws.flatMap Version.up) y
      · obtain ⟨y, hy⟩ := hsc
        exact .inr (hno y hy)
      · exact .inl hsc
    · rintro ⟨y, hy, hrec, _⟩
      exact absurd hrec (hno y hy)

/-- C65 is false for `down`, exactly so: on a database podo has written, `podo down` to a recorded version
panics if and only if the server refuses one of the statements of the down scripts that are to be run. -/
theorem C65_down_panics_iff {S : Setting σ} {w : World σ} {cwd : Proj.Path} {name : String}
    {q : Profile} (hq : ProfileAt S.env w.fs cwd name q) (hi : S.Reads q.metadataSchema) {s : Server σ}
    (hs : w.servers q.databaseUrl = some s) (hr : Pg.Reach S.B (s.db q.metadataSchema))
    (hw : (s.db q.metadataSchema).metaSchema ≠ .absent) {pre post : List Version} {v : Version}
    (ha : (s.db q.metadataSchema).applied = pre ++ v :: post) :
    (∃ w' out, Ends S w cwd (.down name (some v.name)) w' out .panic) ↔
      ¬ ∃ s', Pg.Script S.B s.data (post.reverse.flatMap Version.down) s' := by
  rw [show (∃ w' out, Ends S w cwd (.down name (some v.name)) w' out .panic) ↔
      (Pg.down S.B (some v.name) (s.db q.metadataSchema)).2 = .panic from ?_,
    Pg.down_panic_iff hr hw ha]
  · exact Iff.rfl
  · constructor
    · rintro ⟨w', out, fuel, h⟩
      rw [run_down hq hi _ hs] at h
      injection h with h
      injection h with _ h
      injection h with _ h
      cases ho : (Pg.down S.B (some v.name) (s.db q.metadataSchema)).2 <;> rw [ho] at h <;> cases h
    · intro h
      exact ⟨_, _, 0, (run_down hq hi _ hs).trans (by rw [h]; rfl)⟩

/-- C65 for `status`, all of it: in a project podo has written, `podo status` panics exactly when the
definitions clash or reading them panics; it reports an error exactly when their text is wrong; and it
succeeds exactly when they load. -/
theorem C65_status_endings {S : Setting σ} {w : World σ} {cwd : Proj.Path} {name : String}
    {q₀ q : Profile} (hq₀ : ProfileAt S.env w.fs cwd "database" q₀) (hq : ProfileAt S.env w.fs cwd name q)
    (hr : Reachable (w.fs.history q₀.history)) :
    ((∃ w' out, Ends S w cwd (.status name) w' out .panic) ↔
      ∃ e, definitions w.fs q₀.definitions = .error e ∧ ∀ m, e ≠ .parse m) ∧
    ((∃ w' out, Ends S w cwd (.status name) w' out .error) ↔
      ∃ m, definitions w.fs q₀.definitions = .error (.parse m)) ∧
    ((∃ w' out, Ends S w cwd (.status name) w' out .success) ↔
      ∃ t, definitions w.fs q₀.definitions = .ok t) := by
  have key : ∀ (k : Nat) (r : List String × Ending),
      (∀ fuel, k ≤ fuel → statusIn S fuel w q₀.history q₀.definitions q.databaseUrl q.metadataSchema = some r) →
      ∀ e, (∃ w' out, Ends S w cwd (.status name) w' out e) ↔ e = r.2 := by
    intro k r h e
    constructor
    · rintro ⟨w', out, fuel, he⟩
      rw [run_status hq₀ hq] at he
      rw [Option.map_eq_some_iff] at he
      obtain ⟨x, hx, he⟩ := he
      have := statusIn_mono (Nat.le_max_left fuel k) hx
      rw [h _ (Nat.le_max_right fuel k)] at this
      cases this
      cases he
      rfl
    · rintro rfl
      exact ⟨_, _, k, by rw [run_status hq₀ hq, h k (Nat.le_refl _)]; rfl⟩
  cases ht : definitions w.fs q₀.definitions with
  | ok t =>
    obtain ⟨k, s, st, _, _, _, hall⟩ := status_reach (S := S) hr ht
    have := key k _ fun fuel hf => hall fuel hf _ _
    rw [this, this, this]
    simp
  | error e =>
    obtain ⟨vs, st, s, hh, hrec⟩ := hr.sound
    obtain ⟨nm, _, hfrom⟩ := hh.fromDir
    have := key (vs.length + 2) ([], CmdFail.ending (.load e)) (fun fuel hf => by
      unfold statusIn
      rw [hfrom fuel (by omega)]
      dsimp only
      rw [ht])
    rw [this, this, this]
    cases e <;> simp [CmdFail.ending]

/-! ### A case of the hypotheses -/

/-- Podo at work on the server of the examples of `up` and `down`. -/
def pgSetting : Setting (List String) := { progSetting with B := demoB }

/-- A project with the version files of the examples and a database with these metadata. -/
def pgWorld (db : Pg.DB (List String)) : World (List String) :=
  ⟨progFs demoDir [], fun _ => some ⟨fun m => if m = "podo_meta" then db.metaSchema else .absent, db.data⟩⟩

/-- `podo up --version stage` on a new database, `podo down` and `podo down --version init` after it, all
succeed. -/
example :
    (∃ w' out, Ends pgSetting (pgWorld demoNew) ["w"] (.up "database" (some "stage")) w' out .success) ∧
    (∃ w' out, Ends pgSetting (pgWorld demoUp) ["w"] (.down "database" none) w' out .success) ∧
    (∃ w' out, Ends pgSetting (pgWorld demoUp) ["w"] (.down "database" (some "init")) w' out .success) ∧
    Pg.Reach pgSetting.B demoUp ∧ NamedAfterVersion ((pgWorld demoNew).fs.history progProfile.history) ∧
    ProfileAt pgSetting.env (pgWorld demoUp).fs ["w"] "database" progProfile ∧
    demoUp.applied = [Version.newInit, demoMade] ++ [demoStage] := by
  have hq : ∀ db, ProfileAt pgSetting.env (pgWorld db).fs ["w"] "database" progProfile :=
    fun _ => progFs_profile _ _
  have hd : (Pg.down demoB (some "init") demoUp).2 = .ok :=
    (C33_down_succeeds (pre := []) (v := Version.newInit) (post := [demoMade, demoStage]) demoUp_reach
      (by simp [demoUp]) rfl (by simp)).2 ⟨_, Pg.script_iff.2 rfl, rfl⟩
  have hd' : (Pg.down demoB none demoUp).2 = .ok :=
    (C36_down_one_succeeds (pre := [Version.newInit, demoMade]) (v := demoStage) demoUp_reach rfl
      (by simp)).2 ⟨_, Pg.script_iff.2 rfl, rfl⟩
  have e := run_down (fuel := 0) (S := pgSetting) (hq demoUp) podo_meta_reads (some "init") rfl
  have e' := run_down (fuel := 0) (S := pgSetting) (hq demoUp) podo_meta_reads none rfl
  exact ⟨⟨_, _, 9, run_up (hq _) (hq _) podo_meta_reads (some "stage") rfl⟩,
    ⟨_, _, 0, e'.trans (congrArg (fun o => some (_, _, pgEnding o)) hd')⟩,
    ⟨_, _, 0, e.trans (congrArg (fun o => some (_, _, pgEnding o)) hd)⟩, demoUp_reach,
    demoDir_reachable.namedAfterVersion, hq _, rfl⟩

/-- A database on the first version of the examples, on a server that refuses every other script. -/
def failDb : Pg.DB (List String) := ⟨.table ⟨[⟨Version.newInit, 1⟩, ⟨demoMade, 2⟩], 3⟩, demoMade.up⟩

theorem failDb_reach : Pg.Reach failB failDb :=
  .up (fuel := 9) (d := demoDir) (target := some "20200101000000-first") (o := .ok) (.new [])
    demoDir_reachable.namedAfterVersion (by rfl)

/-- All cases of C65 for `status`: definitions that load, whose text is wrong, and that clash. -/
example :
    (∃ t, definitions (progFs indexDir [("public.yaml", indexDoc true)]) progProfile.definitions = .ok t) ∧
    (∃ m, definitions (progFs indexDir [("a.yaml", .str "x")]) progProfile.definitions = .error (.parse m)) ∧
    definitions (progFs indexDir [("a.yaml", indexDoc true), ("b.yaml", indexDoc true)])
      progProfile.definitions = .error (.snapshot (.objectAlreadyExists ["public", "t"] "relation")) ∧
    Reachable indexDir := by
  refine ⟨⟨indexDb true, indexDoc_loads true indexDir progProfile.definitions⟩, ⟨"", by decide +kernel⟩, by decide +kernel, indexDir_reachable⟩

/-- C65 for `up`, at work: on a server that refuses the script of the version, `podo up` panics, does not
succeed and reports no error. -/
example :
    (∃ w' out, Ends { progSetting with B := failB } (pgWorld failDb) ["w"]
      (.up "database" (some "stage")) w' out .panic) ∧
    (¬ ∃ w' out, Ends { progSetting with B := failB } (pgWorld failDb) ["w"]
      (.up "database" (some "stage")) w' out .success) ∧
    ¬ ∃ w' out, Ends { progSetting with B := failB } (pgWorld failDb) ["w"]
      (.up "database" (some "stage")) w' out .error := by
  have hq : ProfileAt progSetting.env (pgWorld failDb).fs ["w"] "database" progProfile :=
    progFs_profile _ _
  have hno : ¬ ∃ s', Pg.Script failB failDb.data ([demoStage].flatMap Version.up) s' := by
    rintro ⟨s', hs⟩
    cases hs with
    | cons h1 _ => cases h1
  obtain ⟨h1, h2, h3⟩ := C65_up_endings (S := { progSetting with B := failB })
      (w := pgWorld failDb) (s := ⟨fun m => if m = "podo_meta" then failDb.metaSchema else .absent,
        failDb.data⟩) (cv := "20200101000000-first") (target := some "stage")
      (cur := demoMade) (ws := [demoStage]) (n := "stage") hq hq podo_meta_reads rfl failDb_reach
      (by simp [Server.db, failDb, progProfile]) demoDir_reachable.namedAfterVersion ⟨9, _, rfl⟩ rfl rfl
      (.later (l := []) (.here (v := demoMade) (by rfl)) (v := demoStage) (by rfl) rfl) (by decide)
      (by simp only [List.mem_singleton]; rintro v rfl; rfl) (by simp)
  refine ⟨h2.2 (.inl hno), fun h => ?_, fun h => ?_⟩
  · obtain ⟨s', hs, _⟩ := h1.1 h
    exact hno ⟨s', hs⟩
  · obtain ⟨s', hs, _⟩ := h3.1 h
    exact hno ⟨s', hs⟩

/-- `podo up --version stage` and `podo down --version init` both panic there. -/
example :
    (∃ w' out, Ends { progSetting with B := failB } (pgWorld failDb) ["w"]
      (.up "database" (some "stage")) w' out .panic) ∧
    (∃ w' out, Ends { progSetting with B := failB } (pgWorld failDb) ["w"]
      (.down "database" (some "init")) w' out .panic) := by
  have hq : ProfileAt progSetting.env (pgWorld failDb).fs ["w"] "database" progProfile :=
    progFs_profile _ _
  have hno : ∀ {s : List String} {q : String}, failB.exec s q = none →
      ¬ ∃ s', Pg.Script failB s [q] s' := by
    rintro s q h ⟨s', hs⟩
    cases hs with
    | cons h1 _ => rw [h] at h1; cases h1
  constructor
  · obtain ⟨w', out, h, _⟩ := C65_up_script_panics_false (S := { progSetting with B := failB })
      (w := pgWorld failDb) (s := ⟨fun m => if m = "podo_meta" then failDb.metaSchema else .absent,
        failDb.data⟩) (cv := "20200101000000-first") (target := some "stage")
      (cur := demoMade) (ws := [demoStage]) (n := "stage") hq hq podo_meta_reads rfl failDb_reach
      (by simp [Server.db, failDb, progProfile]) demoDir_reachable.namedAfterVersion ⟨9, _, rfl⟩ rfl rfl
      (.later (l := []) (.here (v := demoMade) (by rfl)) (v := demoStage) (by rfl) rfl) (by decide)
      (by simp only [List.mem_singleton]; rintro v rfl; rfl) (hno rfl)
    exact ⟨w', out, h⟩
  · exact (C65_down_panics_iff (S := { progSetting with B := failB })
      (w := pgWorld failDb) (s := ⟨fun m => if m = "podo_meta" then failDb.metaSchema else .absent,
        failDb.data⟩) (pre := []) (v := Version.newInit) (post := [demoMade]) hq podo_meta_reads rfl
      failDb_reach (by simp [Server.db, failDb, progProfile]) rfl).2 (hno rfl)

end Prog
end Podo
