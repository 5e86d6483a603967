import Verif.Proofs.Output
import Verif.Props.ProgramPg
/-
C77: what the commands print tells what they did.
-/
namespace Podo
namespace Prog
open Proj
variable {σ : Type}

/-- C77: however `podo up` ends, and whatever the database holds, the server has executed exactly the SQL
statements the output shows, in that order; if it ends with success, what they lead to is what the database
then holds. -/
theorem C77_up_shows_what_ran {S : Setting σ} {w w' : World σ} {cwd : Proj.Path} {name : String}
    {q : Profile} (hq : ProfileAt S.env w.fs cwd name q) {s : Server σ}
    (hs : w.servers q.databaseUrl = some s) {target : Option String} {out : List String} {e : Ending}
    (h : Ends S w cwd (.up name target) w' out e) :
    ∃ x, Pg.Script S.B s.data (sqlShown out) x ∧
      (e = .success → ∃ s', w'.servers q.databaseUrl = some s' ∧ s'.data = x) := by
  obtain ⟨fuel, h⟩ := h
  obtain ⟨p, hp, hq⟩ := hq
  obtain ⟨_, _, h2, h3⟩ := profile_dirs hq
  simp only [run, hp, h2, h3] at h
  have nil : ∀ {e : Ending}, e = .error → ∃ x, Pg.Script S.B s.data (sqlShown []) x ∧
      (e = .success → ∃ s', w'.servers q.databaseUrl = some s' ∧ s'.data = x) :=
    fun he => ⟨s.data, .nil, fun h => by rw [he] at h; cases h⟩
  cases hh : p.historyDir DEFAULT_PROFILE with
  | error e => rw [hh] at h; cases h; exact nil rfl
  | ok hd =>
    simp only [hh, hs] at h
    cases hm : openMeta S s q.metadataSchema with
    | none =>
      rw [hm] at h
      dsimp only at h
      split at h
      · cases h
      · cases h; exact nil rfl
    | some m =>
      rw [hm] at h
      dsimp only at h
      split at h
      · cases h
      · next db o hu =>
        injection h with h
        injection h with h1 h2
        injection h2 with h2 h3
        subst h1 h2 h3
        obtain ⟨x, hx, ho⟩ := Pg.up_shown hu
        refine ⟨x, Pg.script_iff.2 hx, fun he => ?_⟩
        have he := pgEnding_success.1 he
        exact ⟨_, by simp [putServer, update]; rfl, (ho he).symm⟩

/-- C77: the same of `podo down`. -/
theorem C77_down_shows_what_ran {S : Setting σ} {w w' : World σ} {cwd : Proj.Path} {name : String}
    {q : Profile} (hq : ProfileAt S.env w.fs cwd name q) {s : Server σ}
    (hs : w.servers q.databaseUrl = some s) {target : Option String} {out : List String} {e : Ending}
    (h : Ends S w cwd (.down name target) w' out e) :
    ∃ x, Pg.Script S.B s.data (sqlShown out) x ∧
      (e = .success → ∃ s', w'.servers q.databaseUrl = some s' ∧ s'.data = x) := by
  obtain ⟨fuel, h⟩ := h
  obtain ⟨p, hp, hq⟩ := hq
  obtain ⟨_, _, h2, h3⟩ := profile_dirs hq
  simp only [run, hp, h2, h3, hs] at h
  cases hm : openMeta S s q.metadataSchema with
  | none =>
    rw [hm] at h
    cases h
    exact ⟨s.data, .nil, fun h => by cases h⟩
  | some m =>
    rw [hm] at h
    injection h with h
    injection h with h1 h2
    injection h2 with h2 h3
    subst h1 h2 h3
    obtain ⟨x, hx, ho⟩ := Pg.down_shown S.B target ⟨s.metas m, s.data⟩
    refine ⟨x, Pg.script_iff.2 hx, fun he => ?_⟩
    have he := pgEnding_success.1 he
    exact ⟨_, by simp [putServer, update]; rfl, (ho he).symm⟩

/-- C77 (partial; missing: that an `up` that fails claims nothing it has not done, which is false): a
successful `podo up` prints the version the database was on, the one asked for, or else the
history's current one, and then, in order, each version that is now recorded and was not before, with its
up script. -/
theorem C77_up_lines_partial {S : Setting σ} {w w' : World σ} {cwd : Proj.Path} {name : String} {q₀ q : Profile}
    (hq₀ : ProfileAt S.env w.fs cwd "database" q₀) (hq : ProfileAt S.env w.fs cwd name q)
    (hi : S.Reads q.metadataSchema) {s : Server σ} (hs : w.servers q.databaseUrl = some s)
    (hr : Pg.Reach S.B (s.db q.metadataSchema))
    (hd : NamedAfterVersion (w.fs.history q₀.history)) {target : Option String} {out : List String}
    (h : Ends S w cwd (.up name target) w' out .success) :
    ∃ s' n cur ws, w'.servers q.databaseUrl = some s' ∧
      (target = some n ∨ target = none ∧ Opens (w.fs.history q₀.history) n) ∧
      (s.db q.metadataSchema).applied.getLast? = some cur ∧
      (s'.db q.metadataSchema).applied = (s.db q.metadataSchema).applied ++ ws ∧
      out = ["On database version: " ++ cur.name, "Applying upward migrations to " ++ n ++ ":"] ++
        if ws = [] then ["  No migrations to apply."] else ws.flatMap appliedLines := by
  obtain ⟨fuel, h⟩ := h
  rw [run_up hq₀ hq hi target hs] at h
  cases hu : Pg.up S.B fuel (w.fs.history q₀.history) target (s.db q.metadataSchema) with
  | none => rw [hu] at h; cases h
  | some r =>
    obtain ⟨db, o⟩ := r
    rw [hu] at h
    injection h with h
    injection h with h1 h2
    injection h2 with h3 h2
    cases pgEnding_success.1 h2
    subst h1 h3
    obtain ⟨n, cur, ws, a, b, c, d⟩ := Pg.up_lines hd.storedNames hr.good hu
    obtain ⟨s', e1, e2, _⟩ := (onlyDatabase_put hs db).becomes s hs
    exact ⟨s', n, cur, ws, e1, a, b, by rw [e2]; exact c, d⟩

/-- C77: when `podo up` panics, the output shows the statements of the scripts that were executed, up to
the one the server refused; or all those of a version that could not be recorded. -/
theorem C77_up_culprit {S : Setting σ} {w w' : World σ} {cwd : Proj.Path} {name : String} {q₀ q : Profile}
    (hq₀ : ProfileAt S.env w.fs cwd "database" q₀) (hq : ProfileAt S.env w.fs cwd name q)
    (hi : S.Reads q.metadataSchema) {s : Server σ} (hs : w.servers q.databaseUrl = some s)
    (hr : Pg.Reach S.B (s.db q.metadataSchema))
    (hd : NamedAfterVersion (w.fs.history q₀.history)) {target : Option String} {out : List String}
    (h : Ends S w cwd (.up name target) w' out .panic) :
    ∃ n cur ws rest, (target = some n ∨ target = none ∧ Opens (w.fs.history q₀.history) n) ∧
      (s.db q.metadataSchema).applied.getLast? = some cur ∧
      VersionPath (w.fs.history q₀.history) cur.name n (ws.map Version.name) ∧
      cur.name ∉ ws.map Version.name ∧ (∀ v ∈ ws, Stored (w.fs.history q₀.history) v.name v) ∧
      ws.flatMap Version.up = sqlShown out ++ rest ∧
      ((∃ x refused more, Pg.Script S.B s.data (sqlShown out) x ∧ rest = refused :: more ∧
          S.B.exec x refused = none) ∨
        ∃ vs more, vs ≠ [] ∧ ws = vs ++ more ∧ sqlShown out = vs.flatMap Version.up) := by
  obtain ⟨fuel, h⟩ := h
  rw [run_up hq₀ hq hi target hs] at h
  cases hu : Pg.up S.B fuel (w.fs.history q₀.history) target (s.db q.metadataSchema) with
  | none => rw [hu] at h; cases h
  | some r =>
    obtain ⟨db, o⟩ := r
    rw [hu] at h
    injection h with h
    injection h with h1 h2
    injection h2 with h3 h2
    have : o = .panic := by cases o <;> cases h2; rfl
    subst h1 h3 this
    obtain ⟨n, cur, ws, ran, rest, a, b, c, c', d, e, f, g⟩ := Pg.up_culprit hd.storedNames hr.good hu
    subst f
    refine ⟨n, cur, ws, rest, a, b, c, c', d, e, g.imp ?_ id⟩
    rintro ⟨x, q, more, hx, hy, hz⟩
    exact ⟨x, q, more, Pg.script_iff.2 hx, hy, hz⟩

/-- C77 is false of a command that fails: when `podo up` panics it has shown the statements before the one
the server refused as executed, although nobody ever sees an effect of them; the database is as before. -/
theorem C77_up_rolled_back_false {S : Setting σ} {w : World σ} {cwd : Proj.Path} {name : String}
    {q₀ q : Profile} (hq₀ : ProfileAt S.env w.fs cwd "database" q₀) (hq : ProfileAt S.env w.fs cwd name q)
    (hi : S.Reads q.metadataSchema) {s : Server σ} (hs : w.servers q.databaseUrl = some s)
    (hr : Pg.Reach S.B (s.db q.metadataSchema)) (hw : (s.db q.metadataSchema).metaSchema ≠ .absent)
    (hd : NamedAfterVersion (w.fs.history q₀.history)) {target : Option String} {cv n : String}
    (hop : Opens (w.fs.history q₀.history) cv) (htar : target.getD cv = n) {cur v : Version}
    (hcur : (s.db q.metadataSchema).applied.getLast? = some cur)
    (hp : VersionPath (w.fs.history q₀.history) cur.name n [v.name]) (hnot : cur.name ≠ v.name)
    (hst : Stored (w.fs.history q₀.history) v.name v) {ran more : List String} {refused : String} {x : σ}
    (hv : v.up = ran ++ refused :: more) (hx : Pg.Script S.B s.data ran x)
    (hbad : S.B.exec x refused = none) :
    ∃ w' out, Ends S w cwd (.up name target) w' out .panic ∧ sqlShown out = ran ∧ SameServers w w' := by
  have hno : ¬ ∃ s', Pg.Script S.B s.data ([v].flatMap Version.up) s' := by
    rintro ⟨s', hs'⟩
    have h1 := Pg.script_iff.1 hs'
    have h2 := Pg.script_iff.1 hx
    simp only [List.flatMap_cons, List.flatMap_nil, List.append_nil, hv] at h1
    rw [Pg.execAll_append, h2] at h1
    simp [Pg.execAll, hbad] at h1
  obtain ⟨w', out, h, _⟩ := C65_up_script_panics_false hq₀ hq hi hs hr hw hd hop htar hcur (ws := [v])
    (by simpa using hp) (by simpa using hnot) (by simpa using hst) hno
  refine ⟨w', out, h, ?_, C62_failure_keeps_databases h (by simp)⟩
  obtain ⟨n', cur', ws, rest, h1, h2, h3, h3', h4, h5, h6⟩ := C77_up_culprit hq₀ hq hi hs hr hd h
  rw [hcur] at h2
  cases h2
  have hn : n' = n := by
    rcases h1 with rfl | ⟨rfl, f', nm', hop'⟩
    · exact htar
    · obtain ⟨f, nm, hop⟩ := hop
      have e1 := fromDir_mono (Nat.le_max_left f f') hop
      rw [fromDir_mono (Nat.le_max_right f f') hop'] at e1
      cases e1
      exact htar
  subst hn
  have hws : ws = [v] := Pg.stored_names_unique (Pg.path_unique h3 hp h3' (by simpa using hnot)) h4
    (by simpa using hst)
  subst hws
  obtain ⟨y, hy, _⟩ := C77_up_shows_what_ran hq hs h
  rcases h6 with ⟨y, q', more', hy, rfl, hbad'⟩ | ⟨vs, more', hvs, hv', hall⟩
  · refine Pg.refused_unique (B := S.B) (b := more') (d := more) ?_ (Pg.script_iff.1 hy) hbad'
      (Pg.script_iff.1 hx) hbad
    rw [← h5]; simpa using hv
  · exfalso
    obtain ⟨z, vs, rfl⟩ := List.exists_cons_of_ne_nil hvs
    simp only [List.cons_append, List.cons.injEq] at hv'
    obtain ⟨rfl, hv'⟩ := hv'
    have := (List.append_eq_nil_iff.1 hv'.symm).1
    subst this
    rw [hall] at hy
    exact hno ⟨y, hy⟩

/-- C77: when `podo down` panics, the output shows the statements of the recorded down scripts that were
executed, up to the one the server refused, which the scripts of the versions to revert have next. -/
theorem C77_down_culprit {S : Setting σ} {w w' : World σ} {cwd : Proj.Path} {name : String} {q : Profile}
    (hq : ProfileAt S.env w.fs cwd name q) (hi : S.Reads q.metadataSchema) {s : Server σ}
    (hs : w.servers q.databaseUrl = some s)
    (hr : Pg.Reach S.B (s.db q.metadataSchema)) {target : Option String} {out : List String}
    (h : Ends S w cwd (.down name target) w' out .panic) :
    ∃ pre v later x refused more, (s.db q.metadataSchema).applied = pre ++ v :: later ∧
      (target = some v.name ∨ target = none ∧ ∃ l, later = [l]) ∧
      later.reverse.flatMap Version.down = sqlShown out ++ refused :: more ∧
      Pg.Script S.B s.data (sqlShown out) x ∧ S.B.exec x refused = none := by
  obtain ⟨fuel, h⟩ := h
  rw [run_down hq hi target hs] at h
  injection h with h
  injection h with h1 h2
  injection h2 with h3 h2
  have ho : (Pg.down S.B target (s.db q.metadataSchema)).2 = .panic := by
    cases ho : (Pg.down S.B target (s.db q.metadataSchema)).2 <;> rw [ho] at h2 <;> cases h2
  subst h1 h3
  obtain ⟨pre, v, later, x, refused, more, a, b, c, d, e⟩ := Pg.down_culprit hr.good (Prod.ext rfl ho)
  exact ⟨pre, v, later, x, refused, more, a, b, c, Pg.script_iff.2 d, e⟩

/-- C77 is false of a `podo down` that fails, too: when the server refuses a statement of the recorded down
scripts, those before it have been shown as executed, and every database is as before. -/
theorem C77_down_rolled_back_false {S : Setting σ} {w : World σ} {cwd : Proj.Path} {name : String}
    {q : Profile} (hq : ProfileAt S.env w.fs cwd name q) (hi : S.Reads q.metadataSchema) {s : Server σ}
    (hs : w.servers q.databaseUrl = some s) (hr : Pg.Reach S.B (s.db q.metadataSchema))
    (hw : (s.db q.metadataSchema).metaSchema ≠ .absent) {pre later : List Version} {v : Version}
    (ha : (s.db q.metadataSchema).applied = pre ++ v :: later) {ran more : List String} {refused : String}
    {x : σ} (hv : later.reverse.flatMap Version.down = ran ++ refused :: more)
    (hx : Pg.Script S.B s.data ran x) (hbad : S.B.exec x refused = none) :
    ∃ w' out, Ends S w cwd (.down name (some v.name)) w' out .panic ∧ sqlShown out = ran ∧
      SameServers w w' := by
  have hno : ¬ ∃ s', Pg.Script S.B s.data (later.reverse.flatMap Version.down) s' := by
    rintro ⟨s', hs'⟩
    have h1 := Pg.script_iff.1 hs'
    rw [hv, Pg.execAll_append, Pg.script_iff.1 hx] at h1
    simp [Pg.execAll, hbad] at h1
  obtain ⟨w', out, h⟩ := (C65_down_panics_iff hq hi hs hr hw ha).2 hno
  refine ⟨w', out, h, ?_, C62_failure_keeps_databases h (by simp)⟩
  obtain ⟨pre', v', later', y, refused', more', h1, h2, h3, h4, h5⟩ := C77_down_culprit hq hi hs hr h
  have hn : later' = later := by
    rcases h2 with h2 | ⟨h2, _⟩
    · injection h2 with h2
      have hnd := Pg.applied_names hr.good
      rw [h1] at ha hnd
      exact Pg.split_unique ha hnd h2.symm
    · cases h2
  subst hn
  exact Pg.refused_unique (B := S.B) (h3.symm.trans hv) (Pg.script_iff.1 h4) h5 (Pg.script_iff.1 hx) hbad

/-- C77: a successful `podo down` to `n` prints the version the database was on, the one asked for, and
then, newest first, each version that was recorded and no longer is, with its recorded down script. -/
theorem C77_down_lines {S : Setting σ} {w w' : World σ} {cwd : Proj.Path} {name : String} {q : Profile}
    (hq : ProfileAt S.env w.fs cwd name q) (hi : S.Reads q.metadataSchema) {s : Server σ}
    (hs : w.servers q.databaseUrl = some s)
    (hr : Pg.Reach S.B (s.db q.metadataSchema)) {n : String} {out : List String}
    (h : Ends S w cwd (.down name (some n)) w' out .success) :
    ∃ s' cur pre v reverted, w'.servers q.databaseUrl = some s' ∧
      (s.db q.metadataSchema).applied.getLast? = some cur ∧
      (s.db q.metadataSchema).applied = pre ++ v :: reverted ∧ v.name = n ∧
      (s'.db q.metadataSchema).applied = pre ++ [v] ∧
      out = ["On database version: " ++ cur.name, "Applying downward migrations to " ++ n ++ ":"] ++
        if reverted = [] then ["  No migrations to apply."] else reverted.reverse.flatMap revertedLines := by
  obtain ⟨fuel, h⟩ := h
  rw [run_down hq hi (some n) hs] at h
  injection h with h
  injection h with h1 h2
  injection h2 with h3 h2
  have h2 := pgEnding_success.1 h2
  subst h1 h3
  generalize hdb : s.db q.metadataSchema = db at *
  obtain ⟨t, ht⟩ := down_ok_table h2
  obtain ⟨hch, happ, _⟩ := Pg.ensure_chain hr.good ht
  obtain ⟨s', e1, e2, _⟩ := (onlyDatabase_put (ms := q.metadataSchema) hs (Pg.down S.B (some n) db).1).becomes s hs
  by_cases hx : ∃ r ∈ t.rows, r.version.name = n
  · obtain ⟨r, hrm, rfl⟩ := hx
    obtain ⟨a, b, hab⟩ := List.append_of_mem hrm
    obtain ⟨pre, v, post, cur, h1, h2, h3, h4, h5, h6⟩ :=
      Pg.down_lines_at ht hch happ hab (.inl rfl) (Prod.ext rfl h2)
    refine ⟨s', cur, pre, v, post, e1, ?_, h1, by rw [h2], by rw [e2]; exact h5, ?_⟩
    · rw [h1, List.getLast?_append, h4]; rfl
    · rw [h6, h2]
  · rw [Pg.down_unknown ht hch fun r hr he => hx ⟨r, hr, he⟩] at h2
    cases h2

/-- C77: a successful `podo down` without a version names the version before the last as the one it goes
down to, and prints the last one, with its recorded down script. -/
theorem C77_down_one_lines {S : Setting σ} {w w' : World σ} {cwd : Proj.Path} {name : String} {q : Profile}
    (hq : ProfileAt S.env w.fs cwd name q) (hi : S.Reads q.metadataSchema) {s : Server σ}
    (hs : w.servers q.databaseUrl = some s)
    (hr : Pg.Reach S.B (s.db q.metadataSchema)) {pre : List Version} {u v : Version}
    (ha : (s.db q.metadataSchema).applied = pre ++ [u, v]) {out : List String}
    (h : Ends S w cwd (.down name none) w' out .success) :
    out = ["On database version: " ++ v.name, "Applying downward migrations to " ++ u.name ++ ":"] ++
      revertedLines v := by
  obtain ⟨fuel, h⟩ := h
  rw [run_down hq hi none hs] at h
  injection h with h
  injection h with h1 h2
  injection h2 with h3 h2
  have h2 := pgEnding_success.1 h2
  subst h1 h3
  obtain ⟨t, ht⟩ := down_ok_table h2
  obtain ⟨hch, happ, _⟩ := Pg.ensure_chain hr.good ht
  obtain ⟨a, r, b, hrows, e1, e2, e3⟩ := applied_split happ ha
  obtain ⟨x, rfl⟩ : ∃ x, b = [x] := by
    cases b with
    | nil => cases e3
    | cons x b =>
      cases b with
      | nil => exact ⟨x, rfl⟩
      | cons y b => simp at e3
  obtain ⟨pre', v', post, cur, h1, rfl, rfl, h4, h5, h6⟩ :=
    Pg.down_lines_at ht hch happ hrows (.inr ⟨rfl, x, rfl⟩) (Prod.ext rfl h2)
  rw [h6]
  simp only [List.map_cons, List.map_nil, List.cons.injEq, and_true] at e3
  subst e2 e3
  simp only [List.map_cons, List.map_nil, List.getLast?_cons_cons, List.getLast?_singleton, Option.some.injEq] at h4
  subst h4
  simp

/-- C77: on a database that has recorded only the initial version, or nothing yet, a successful `podo down`
without a version says that there is nothing to do. -/
theorem C77_down_init_lines {S : Setting σ} {w w' : World σ} {cwd : Proj.Path} {name : String} {q : Profile}
    (hq : ProfileAt S.env w.fs cwd name q) (hi : S.Reads q.metadataSchema) {s : Server σ}
    (hs : w.servers q.databaseUrl = some s)
    (hr : Pg.Reach S.B (s.db q.metadataSchema)) {v : Version}
    (ha : (s.db q.metadataSchema).applied = [v]) {out : List String}
    (h : Ends S w cwd (.down name none) w' out .success) :
    out = ["On database version: " ++ v.name, "No migrations to apply. Already on the init version."] := by
  obtain ⟨fuel, h⟩ := h
  rw [run_down hq hi none hs] at h
  injection h with h
  injection h with h1 h2
  injection h2 with h3 h2
  have h2 := pgEnding_success.1 h2
  subst h1 h3
  obtain ⟨t, ht⟩ := down_ok_table h2
  obtain ⟨hch, happ, _⟩ := Pg.ensure_chain hr.good ht
  rw [ha] at happ
  obtain ⟨r, hr', rfl⟩ := List.map_eq_singleton_iff.1 happ
  exact Pg.down_init_printed ht hch hr'

theorem stage_out {S : Setting σ} {w w' : World σ} {cwd : Proj.Path} {name : String} {q : Profile}
    (hq : ProfileAt S.env w.fs cwd name q) (hr : Reachable (w.fs.history q.history)) {out : List String}
    (h : Ends S w cwd (.stage name) w' out .success) :
    ∃ t s st st' lines, definitions w.fs q.definitions = .ok t ∧
      SnapshotOf (w.fs.history q.history) "stage" s ∧ Stored (w.fs.history q.history) "stage" st ∧
      Stored (w'.fs.history q.history) "stage" st' ∧ st'.changes = st.changes ++ Diff.compareDiff s t ∧
      out = "Staging changes:" ::
        (if Diff.compareDiff s t = [] then ["    No changes to stage."] else lines) ∧
      StagedLines (Diff.compareDiff s t) lines := by
  obtain ⟨fuel, h⟩ := h
  rw [run_stage hq] at h
  have hout := runHist_out h
  subst hout
  unfold runHist at h
  cases hdefs : definitions w.fs q.definitions with
  | error e =>
    obtain ⟨k, s, st, hs, hst, _, hplan⟩ := stagePlan_reach hr
    rw [hdefs] at h
    exfalso
    split at h
    · cases h
    · next e' hp =>
      have h1 : stagePlan (max fuel k) (.error e) (w.fs.history q.history) = _ :=
        plan_mono (c := .stage (.error e)) (Nat.le_max_left fuel k) hp
      rw [hplan _ (Nat.le_max_right fuel k)] at h1
      cases h1
      injection h with h
      injection h with _ h
      injection h with _ h
      cases e <;> cases h
    · next e' hp =>
      have h1 : stagePlan (max fuel k) (.error e) (w.fs.history q.history) = _ :=
        plan_mono (c := .stage (.error e)) (Nat.le_max_left fuel k) hp
      rw [hplan _ (Nat.le_max_right fuel k)] at h1
      cases h1
  | ok t =>
    rw [hdefs] at h
    cases hp : HistCmd.plan fuel (.stage (.ok t)) (w.fs.history q.history) with
    | none => rw [hp] at h; cases h
    | some r =>
      obtain ⟨s, st, hs, hst, hpr, hc⟩ := stagePlan_printed hp hr
      rw [hp] at h
      rcases hc with ⟨e, hv, rfl⟩ | ⟨st', hst', rfl⟩
      · dsimp only at h
        exfalso
        injection h with h
        injection h with _ h
        injection h with _ h
        rw [stageVersion_panics _ _ _ _ hv] at h
        cases h
      · dsimp only at h
        injection h with h
        injection h with h1 h2
        injection h2 with _ h2
        subst h1
        obtain ⟨rs, s', _, hst''⟩ := stageVersion_ok hst'
        have hnm : st'.name = "stage" := by
          have := hr.namedAfterVersion.storedNames _ _ hst
          rw [hst'']; exact this
        cases hsv : (w.fs.history q.history).save st' with
        | none => simp [HDir.saveAll, hsv] at h2
        | some d' =>
          refine ⟨t, s, st, st', stageLines (Diff.compareDiff s t) s, rfl, hs, hst, ?_, by rw [hst''],
            ?_, stageLines_ok hst'⟩
          · unfold Stored
            simp only [update, HDir.saveAll, hsv, if_true]
            rw [save_get hsv, hnm]; simp
          · exact hpr.trans stage_none_lines

/-- C77: on a history podo has written, a successful `podo stage` prints, after a title, the SQL and the
kind of each change that the stage has gained, in order, or that there are none. -/
theorem C77_stage_lines {S : Setting σ} {w w' : World σ} {cwd : Proj.Path} {name : String} {q : Profile}
    (hq : ProfileAt S.env w.fs cwd name q) (hr : Reachable (w.fs.history q.history)) {out : List String}
    (h : Ends S w cwd (.stage name) w' out .success) :
    ∃ st st' cs lines, Stored (w.fs.history q.history) "stage" st ∧
      Stored (w'.fs.history q.history) "stage" st' ∧ st'.changes = st.changes ++ cs ∧
      out = "Staging changes:" :: (if cs = [] then ["    No changes to stage."] else lines) ∧
      StagedLines cs lines := by
  obtain ⟨t, s, st, st', lines, _, _, h1, h2, h3, h4, h5⟩ := stage_out hq hr h
  exact ⟨st, st', _, lines, h1, h2, h3, h4, h5⟩

/-- C77: when `podo stage` panics although the definitions are fine, it has shown the changes between the
staged snapshot and the definitions up to the one that cannot be applied, which comes last. -/
theorem C77_stage_culprit {S : Setting σ} {w w' : World σ} {cwd : Proj.Path} {name : String} {q : Profile}
    (hq : ProfileAt S.env w.fs cwd name q) (hr : Reachable (w.fs.history q.history)) {t : Database}
    (ht : definitions w.fs q.definitions = .ok t) {out : List String}
    (h : Ends S w cwd (.stage name) w' out .panic) :
    ∃ s pre c post d lines, SnapshotOf (w.fs.history q.history) "stage" s ∧
      Diff.compareDiff s t = pre ++ c :: post ∧ out = "Staging changes:" :: lines ∧
      StagedLines (pre ++ [c]) lines ∧ Change.applyAll pre s = .ok d ∧
      ((∃ e, c.revert d = .error e) ∨ ∃ e, c.apply d = .error e) := by
  obtain ⟨fuel, h⟩ := h
  rw [run_stage hq] at h
  have hout := runHist_out h
  subst hout
  unfold runHist at h
  rw [ht] at h
  cases hp : HistCmd.plan fuel (.stage (.ok t)) (w.fs.history q.history) with
  | none => rw [hp] at h; cases h
  | some r =>
    obtain ⟨s, st, hs, hst, hpr, hc⟩ := stagePlan_printed hp hr
    rw [hp] at h
    rcases hc with ⟨e, hv, rfl⟩ | ⟨st', hst', rfl⟩
    · obtain ⟨pre, c, post, d, h1, h2, h3, h4⟩ := stageLines_fail hv
      refine ⟨s, pre, c, post, d, _, hs, h1, ?_, h2, h3, h4⟩
      rw [ht]
      refine (hpr.trans stage_none_lines).trans ?_
      rw [if_neg (by rw [h1]; simp)]
    · dsimp only at h
      injection h with h
      injection h with h1 h2
      injection h2 with _ h2
      split at h2 <;> cases h2

/-- C77: `podo status` foretells `podo stage`: what it lists as not staged, with the default profile and on
a history podo has written, is what a successful `podo stage` in that state prints, but for the kinds. -/
theorem C77_status_foretells_stage {S : Setting σ} {w w₁ w₂ : World σ} {cwd : Proj.Path} {name : String}
    {q₀ q : Profile} (hq₀ : ProfileAt S.env w.fs cwd "database" q₀) (hq : ProfileAt S.env w.fs cwd name q)
    (hr : Reachable (w.fs.history q₀.history)) {out out' : List String}
    (h : Ends S w cwd (.status name) w₁ out .success)
    (h' : Ends S w cwd (.stage "database") w₂ out' .success) :
    ∃ line st cs lines, Stored (w.fs.history q₀.history) "stage" st ∧
      out = line :: (section_ "Changes staged:" st.changes ++ section_ "Changes not staged:" cs ++
        if st.changes = [] ∧ cs = [] then ["No changes."] else []) ∧
      out' = "Staging changes:" :: (if cs = [] then ["    No changes to stage."] else lines) ∧
      StagedLines cs lines := by
  obtain ⟨t, s, st, st', lines, ht, hs, hst, _, _, hout, hl⟩ := stage_out hq₀ hr h'
  obtain ⟨s₁, st₁, line, hs₁, hst₁, hrun, _⟩ := C61_status_shows (S := S) hq₀ hq hr ht
  have he := ((hrun _ _ _).1 h).2.2
  have := hst.unique hst₁
  subst this
  have : s₁ = s := by
    obtain ⟨f, hf⟩ := hs
    obtain ⟨f₁, hf₁⟩ := hs₁
    have e1 := calculate_mono (Nat.le_max_left f f₁) hf
    rw [calculate_mono (Nat.le_max_right f f₁) hf₁] at e1
    cases e1; rfl
  subst this
  exact ⟨line, st, _, lines, hst, he, hout, hl⟩

/-- C77 (partial; missing: that a `make` that fails claims nothing, which is false): a successful
`podo make` either says that the stage is empty, which it is, and leaves all files; or
it prints the name of a version, under which the staged changes and scripts are then found. -/
theorem C77_make_lines_partial {S : Setting σ} {w w' : World σ} {cwd : Proj.Path} {name : String} {q : Profile}
    (hq : ProfileAt S.env w.fs cwd name q) {label : Option String} {out : List String}
    (h : Ends S w cwd (.make name label) w' out .success) :
    ∃ st, Stored (w.fs.history q.history) "stage" st ∧
      ((out = ["Nothing to make. Stage is empty."] ∧ st.changes = [] ∧ st.up = [] ∧ st.down = [] ∧
          w'.fs.history = w.fs.history) ∨
        ∃ n, out = ["Made version: " ++ n] ∧
          Stored (w'.fs.history q.history) n { st with name := n }) := by
  obtain ⟨fuel, h⟩ := h
  rw [run_make hq] at h
  have hout := runHist_out h
  subst hout
  unfold runHist at h
  cases hp : HistCmd.plan fuel (.make S.now label) (w.fs.history q.history) with
  | none => rw [hp] at h; cases h
  | some r =>
    rw [hp] at h
    rcases makePlan_printed hp with ⟨e, rfl, _⟩ | ⟨st, hst, hc⟩
    · cases h
    · refine ⟨st, hst, ?_⟩
      rcases hc with ⟨he, rfl, hpr⟩ | ⟨he, rfl, hpr⟩
      · obtain ⟨a, b, c⟩ := isEmpty_iff.1 he
        refine .inl ⟨hpr, a, b, c, ?_⟩
        injection h with h
        injection h with h1 h2
        subst h1
        simp only [HDir.saveAll]
        funext x
        by_cases hx : x = q.history <;> simp [update, hx]
      · refine .inr ⟨madeName S.now label, hpr, ?_⟩
        injection h with h
        injection h with h1 h2
        injection h2 with _ h2
        subst h1
        refine (?_ : Stored (update _ _ _ q.history) _ _)
        rw [update_self]
        cases hs : (w.fs.history q.history).saveAll [{ st with name := madeName S.now label },
            Version.newStage (madeName S.now label)] with
        | mk d' b =>
          rw [hs] at h2
          cases b with
          | false => cases h2
          | true => exact make_saved hs

/-- C77 is false of a `make` that fails: it names a version as made that it has not made.  Whatever the
label, if it contains a slash: on a history that is fine and a stage that is not empty, the output is the
same as that of a success, while no file is written. -/
theorem C77_make_false {S : Setting σ} {w : World σ} {cwd : Proj.Path} {name : String} {q : Profile}
    (hq : ProfileAt S.env w.fs cwd name q) (hr : Reachable (w.fs.history q.history)) {st : Version}
    (hst : Stored (w.fs.history q.history) "stage" st) (hne : st.changes ≠ []) {label : String}
    (hl : '/' ∈ label.toList) :
    ∃ w', Ends S w cwd (.make name (some label)) w' ["Made version: " ++ S.now ++ "-" ++ label] .error ∧
      w'.fs.history = w.fs.history := by
  obtain ⟨vs, st', s, hh, hrec⟩ := hr.sound
  obtain ⟨nm, _, hfrom⟩ := hh.fromDir
  have hf := hfrom (vs.length + 2) (by omega)
  have hemp : st.isEmpty = false := by
    cases h : st.isEmpty with
    | false => rfl
    | true => exact absurd (isEmpty_iff.1 h).1 hne
  have hsave : (w.fs.history q.history).saveAll [{ st with name := madeName S.now (some label) },
      Version.newStage (madeName S.now (some label))] = (w.fs.history q.history, false) := by
    rw [HDir.saveAll, HDir.save, if_pos]
    simp [madeName, hl]
  refine ⟨⟨{ w.fs with history := update w.fs.history q.history (w.fs.history q.history) }, w.servers⟩,
    ⟨vs.length + 2, ?_⟩, ?_⟩
  · rw [run_make hq]
    unfold runHist HistCmd.plan HistCmd.printed makePlan makePrinted
    simp only [hf, stored_iff.1 hst, hemp, Bool.false_eq_true, if_false, hsave]
    simp [madeName, String.append_assoc]
  · funext x
    by_cases hx : x = q.history <;> simp [update, hx]

theorem display_leads : ∀ (cs b : Proj.Path), (∀ c ∈ cs, c ≠ "" ∧ c ≠ "." ∧ '/' ∉ c.toList) →
    Proj.Leads b (cs.flatMap fun c => '/' :: c.toList) (b ++ cs)
  | [], b, _ => by rw [List.append_nil]; exact .here
  | c :: cs, b, h => by
    obtain ⟨h1, h2, h3⟩ := h c (by simp)
    have ih := display_leads cs (b ++ [c]) fun x hx => h x (by simp [hx])
    rw [List.flatMap_cons, List.cons_append]
    refine .slash (.entry ?_ h3 ?_ ?_ ?_)
    · exact fun e => h1 (String.toList_inj.1 e)
    · exact fun e => h2 (String.toList_inj.1 e)
    · cases cs with
      | nil => exact .inl rfl
      | cons x cs => exact .inr rfl
    · rw [String.ofList_toList]
      rw [List.append_assoc] at ih
      exact ih

theorem display_toList (c : String) (cs : Proj.Path) :
    (Path.display (c :: cs)).toList = (c :: cs).flatMap fun c => '/' :: c.toList := by
  have key : ∀ (l : List String) (a : String), (l.foldl (· ++ ·) a).toList = a.toList ++ l.flatMap String.toList := by
    intro l
    induction l with
    | nil => intro a; simp
    | cons x l ih => intro a; rw [List.foldl_cons, ih, String.toList_append, List.flatMap_cons, List.append_assoc]
  unfold Path.display String.join
  rw [key, List.flatMap_map]
  have : (fun a => ("/" ++ a).toList) = fun c : String => '/' :: c.toList := by
    funext a; rw [String.toList_append]; rfl
  rw [this]
  rfl

/-- The text of a path names it, from wherever. -/
theorem display_names {d : Proj.Path} (h : ∀ c ∈ d, c ≠ "" ∧ c ≠ "." ∧ '/' ∉ c.toList) (base : Proj.Path) :
    Names base d.display.toList d := by
  cases d with
  | nil => exact .inl ⟨rfl, .slash .here⟩
  | cons c cs =>
    rw [display_toList]
    exact .inl ⟨rfl, display_leads (c :: cs) [] h⟩

/-- C77: `podo init` in a project, and only there, says so, naming the directory of the project — which is the
nearest one with a configuration file — and then does nothing. -/
theorem C77_init_lines {S : Setting σ} {w w' : World σ} {cwd : Proj.Path} {out : List String} {e : Ending}
    (h : Ends S w cwd .init w' out e) :
    (∃ p d text, discover S.env w.fs cwd = .ok p ∧ Nearest w.fs cwd d ∧
        out = ["Project already exists at: " ++ text] ∧
        ((∀ c ∈ cwd, c ≠ "" ∧ c ≠ "." ∧ '/' ∉ c.toList) → ∀ base, Names base text.toList d) ∧
        w' = w ∧ e = .success) ∨
      (¬ ∃ p, discover S.env w.fs cwd = .ok p) ∧ out = [] := by
  obtain ⟨fuel, h⟩ := h
  rw [run] at h
  cases hd : discover S.env w.fs cwd with
  | ok p =>
    unfold Proj.init at h
    rw [hd] at h
    cases h
    have hn : ∃ d, Nearest w.fs cwd d := by
      refine Classical.byContradiction fun hne => ?_
      obtain ⟨d, hd'⟩ := (C51_nearest_project S.env w.fs cwd).2.2 hne
      rw [hd] at hd'
      cases hd'
    obtain ⟨d, hn⟩ := hn
    obtain ⟨y, _, hy⟩ := (C51_nearest_project S.env w.fs cwd).1 d hn
    rw [hd] at hy
    have hb : p.baseDir = d := by
      cases y with
      | none => cases hy
      | some y => cases hy; rfl
    refine .inl ⟨p, d, _, rfl, hn, rfl, fun hc base => ?_, rfl, rfl⟩
    rw [hb]
    exact display_names (fun c hm => hc c (hn.above.subset hm)) base
  | error x =>
    refine .inr ⟨by simp, ?_⟩
    have key : ∀ b, (Proj.init S.env w.fs cwd).2 ≠ .exists_ b := by
      intro b
      unfold Proj.init
      rw [hd]
      dsimp only
      repeat' split
      all_goals simp
    split at h
    · next he => exact absurd (congrArg Prod.snd he) (key _)
    · cases h; rfl
    · cases h; rfl
    · cases h; rfl

/-- C77: `podo reset` prints nothing. -/
theorem C77_reset_lines {S : Setting σ} {w w' : World σ} {cwd : Proj.Path} {name : String} {out : List String}
    {e : Ending} (h : Ends S w cwd (.reset name) w' out e) : out = [] := by
  obtain ⟨fuel, h⟩ := h
  rw [run] at h
  split at h
  · cases h; rfl
  · split at h
    · exact runHist_out h
    · cases h; rfl

/-! ### A case of the hypotheses -/

/-- What `podo stage` prints in a new project with a table and an index in the definitions. -/
theorem progWorld_stage_prints : ∃ w₁, Ends progSetting progWorld ["w"] (.stage "database") w₁
      ["Staging changes:", "    CREATE TABLE \"public\".\"t\" (\"id\" int8); -- CreateTableChange",
        "    CREATE INDEX \"i\" ON \"public\".\"t\" USING btree (id); -- CreateIndexChange"] .success ∧
    w₁.fs.history progProfile.history = progStaged ∧
    ProfileAt progSetting.env w₁.fs ["w"] "database" progProfile := by
  have hq : ProfileAt progSetting.env progWorld.fs ["w"] "database" progProfile := progFs_profile _ _
  have ht : definitions progWorld.fs progProfile.definitions = .ok (indexDb false) :=
    indexDoc_loads false initDir progProfile.definitions
  have he : HistCmd.exec 9 (.stage (.ok (indexDb false))) (progWorld.fs.history progProfile.history) =
      some (progStaged, true) := rfl
  obtain ⟨w₁, o, h1, ho, h2, _⟩ := runHist_ok he
  refine ⟨w₁, ⟨9, ?_⟩, ?_, ?_⟩
  rotate_left
  · rw [h2]; exact update_self progWorld.fs.history progProfile.history progStaged
  · rw [h2]; exact hq
  rw [run_stage hq, ht, h1, ho]
  rfl

/-- `stage`, `make` and `make` with a label with a slash, and `init`, in a project. -/
example : ∃ w₁ o₁, Ends progSetting progWorld ["w"] (.stage "database") w₁ o₁ .success ∧
    (∃ w₂ o₂, Ends progSetting w₁ ["w"] (.make "database" none) w₂ o₂ .success ∧
      o₂ = ["Made version: 20200202_000000-auto"]) ∧
    (∃ w₂, Ends progSetting w₁ ["w"] (.make "database" (some "a/b")) w₂
      ["Made version: 20200202_000000-a/b"] .error ∧ w₂.fs.history = w₁.fs.history) ∧
    Ends progSetting progWorld ["w"] .init progWorld ["Project already exists at: /w"] .success := by
  obtain ⟨w₁, h1, hd, hq⟩ := progWorld_stage_prints
  have hr : Reachable (w₁.fs.history progProfile.history) := by
    rw [hd]
    exact .step (fuel := 9) (c := .stage (.ok (indexDb false))) (ok := true) .init
      (fun _ _ h => by cases h) (by rfl)
  refine ⟨w₁, _, h1, ?_, ?_, ?_⟩
  · have he : HistCmd.exec 9 (.make "20200202_000000" none) (w₁.fs.history progProfile.history) =
        some ((progStaged.saveAll [{ progStage with name := "20200202_000000-auto" },
          Version.newStage "20200202_000000-auto"]).1, true) := by rw [hd]; rfl
    obtain ⟨w₂, o, h2, ho, _⟩ := runHist_ok he
    refine ⟨w₂, o, ⟨9, ?_⟩, ?_⟩
    · rw [run_make hq]; exact h2
    · rw [ho, hd]; rfl
  · exact C77_make_false (st := progStage) hq hr (by rw [hd]; rfl) (by simp [progStage]) (label := "a/b")
      (by decide)
  · have hp : discover progSetting.env progWorld.fs ["w"] = .ok ⟨["w"], [progProfile]⟩ := by
      show loadProject demoEnv ["w"] (some baseProject) = _
      decide +kernel
    refine ⟨0, ?_⟩
    rw [run, Proj.init, hp]
    rfl

/-- `podo up --version stage` on a new database. -/
example : ∃ w', Ends pgSetting (pgWorld demoNew) ["w"] (.up "database" (some "stage")) w'
    ["On database version: init", "Applying upward migrations to stage:",
      "  Applying version 20200101000000-first",
      "    CREATE TABLE \"public\".\"t\" (\"id\" int8);", "  Applying version stage",
      "    CREATE VIEW \"public\".\"v\" AS SELECT 1"] .success := by
  have hq : ProfileAt pgSetting.env (pgWorld demoNew).fs ["w"] "database" progProfile := progFs_profile _ _
  exact ⟨_, 9, run_up (S := pgSetting) hq hq podo_meta_reads (some "stage") rfl⟩

/-- `podo down --version init` after it. -/
example : ∃ w' out, Ends pgSetting (pgWorld demoUp) ["w"] (.down "database" (some "init")) w' out .success ∧
    out = ["On database version: stage", "Applying downward migrations to init:",
      "  Reverting version stage", "    DROP VIEW \"public\".\"v\"",
      "  Reverting version 20200101000000-first", "    DROP TABLE \"public\".\"t\";"] := by
  have hd : (Pg.down demoB (some "init") demoUp).2 = .ok :=
    (C33_down_succeeds (pre := []) (v := Version.newInit) (post := [demoMade, demoStage]) demoUp_reach
      (by simp [demoUp]) rfl (by simp)).2 ⟨_, Pg.script_iff.2 rfl, rfl⟩
  have hq : ProfileAt pgSetting.env (pgWorld demoUp).fs ["w"] "database" progProfile := progFs_profile _ _
  have e := run_down (fuel := 0) (S := pgSetting) hq podo_meta_reads (some "init") rfl
  have h : Ends pgSetting (pgWorld demoUp) ["w"] (.down "database" (some "init")) _ _ .success :=
    ⟨0, e.trans (congrArg (fun o => some (_, _, pgEnding o)) hd)⟩
  refine ⟨_, _, h, ?_⟩
  obtain ⟨s', cur, pre, v, reverted, h1, h2, h3, h4, h5, h6⟩ :=
    C77_down_lines hq podo_meta_reads rfl demoUp_reach h
  rw [h6]
  have h2 : some demoStage = some cur := h2
  have h3 : [Version.newInit, demoMade, demoStage] = pre ++ v :: reverted := h3
  cases h2
  match pre, h3 with
  | [], h3 => cases h3; rfl
  | [_], h3 => cases h3; exact absurd h4 (by decide)
  | [_, _], h3 => cases h3; exact absurd h4 (by decide)
  | _ :: _ :: _ :: _, h3 => simp at h3

/-- The changes of the example with a second view. -/
def halfChanges : List Change :=
  [.createSchema "public", .createTable "public" "t" [⟨"id", "int8", true, none⟩],
    .createView "public" "v" "SELECT 1", .createView "public" "w" "SELECT 2"]

/-- The example with two views staged. -/
def halfStage : Version :=
  ⟨"stage", some "20200101000000-first",
    [.createView "public" "v" "SELECT 1", .createView "public" "w" "SELECT 2"],
    ["CREATE VIEW \"public\".\"v\" AS SELECT 1", "CREATE VIEW \"public\".\"w\" AS SELECT 2"],
    ["DROP VIEW \"public\".\"w\"", "DROP VIEW \"public\".\"v\""]⟩

/-- Its version files. -/
def halfDir : HDir :=
  [("init.yaml", .file (some Version.newInit)), ("stage.yaml", .file (some halfStage)),
    ("20200101000000-first.yaml", .file (some demoMade))]

theorem halfDir_reachable : Reachable halfDir :=
  .step (fuel := 9) (c := .stage (.ok (built halfChanges))) (ok := true) demoDir_reachable
    (fun _ _ h => by cases h) (by rfl)

/-- A server that refuses the second view. -/
def halfB : Pg.Behaviour (List String) where
  exec s q := if q = "CREATE VIEW \"public\".\"w\" AS SELECT 2" then none else some (q :: s)
  commits _ := true
  accepts _ := true
  creates _ := true

theorem failDb_reach' : Pg.Reach halfB failDb :=
  .up (fuel := 9) (d := demoDir) (target := some "20200101000000-first") (o := .ok) (.new [])
    demoDir_reachable.namedAfterVersion (by rfl)

/-- `podo up --version stage` shows the first view as created, and there is none. -/
example : ∃ w' out, Ends { progSetting with B := halfB }
      ⟨progFs halfDir [], fun _ => some ⟨fun _ => failDb.metaSchema, failDb.data⟩⟩ ["w"]
      (.up "database" (some "stage")) w' out .panic ∧
    sqlShown out = ["CREATE VIEW \"public\".\"v\" AS SELECT 1"] := by
  have hq : ∀ d, ProfileAt progSetting.env (progFs d []) ["w"] "database" progProfile :=
    fun _ => progFs_profile _ _
  obtain ⟨w', out, h, h2, _⟩ := C77_up_rolled_back_false (S := { progSetting with B := halfB })
    (w := ⟨progFs halfDir [], fun _ => some ⟨fun _ => failDb.metaSchema, failDb.data⟩⟩)
    (s := ⟨fun _ => failDb.metaSchema, failDb.data⟩) (cv := "20200101000000-first") (target := some "stage")
    (cur := demoMade) (v := halfStage) (n := "stage") (hq _) (hq _) podo_meta_reads rfl failDb_reach'
    (by simp [Server.db, failDb]) halfDir_reachable.namedAfterVersion ⟨9, _, rfl⟩ rfl rfl
    (.later (l := []) (.here (v := demoMade) (by rfl)) (v := halfStage) (by rfl) rfl) (by decide)
    (by rfl) (ran := ["CREATE VIEW \"public\".\"v\" AS SELECT 1"])
    (refused := "CREATE VIEW \"public\".\"w\" AS SELECT 2") (more := []) rfl
    (Pg.script_iff.2 rfl) (by decide)
  exact ⟨w', out, h, h2⟩

/-- A server that does not drop tables. -/
def keepB : Pg.Behaviour (List String) where
  exec s q := if q = "DROP TABLE \"public\".\"t\";" then none else some (q :: s)
  commits _ := true
  accepts _ := true
  creates _ := true

/-- `podo down --version init` shows the view as dropped, and it is still there. -/
example : ∃ w' out, Ends { progSetting with B := keepB }
      ⟨progFs demoDir [], fun _ => some ⟨fun _ => demoUp.metaSchema, demoUp.data⟩⟩ ["w"]
      (.down "database" (some "init")) w' out .panic ∧
    sqlShown out = ["DROP VIEW \"public\".\"v\""] := by
  have hq : ∀ d, ProfileAt progSetting.env (progFs d []) ["w"] "database" progProfile :=
    fun _ => progFs_profile _ _
  have hr : Pg.Reach keepB (Server.db ⟨fun _ => demoUp.metaSchema, demoUp.data⟩ progProfile.metadataSchema) :=
    .up (fuel := 9) (d := demoDir) (target := some "stage") (o := .ok) (.new [])
      demoDir_reachable.namedAfterVersion (by rfl)
  obtain ⟨w', out, h, h2, _⟩ := C77_down_rolled_back_false (S := { progSetting with B := keepB })
    (w := ⟨progFs demoDir [], fun _ => some ⟨fun _ => demoUp.metaSchema, demoUp.data⟩⟩)
    (s := ⟨fun _ => demoUp.metaSchema, demoUp.data⟩) (pre := []) (v := Version.newInit)
    (later := [demoMade, demoStage]) (hq _) podo_meta_reads rfl hr
    (by simp [Server.db, demoUp]) rfl (ran := ["DROP VIEW \"public\".\"v\""])
    (refused := "DROP TABLE \"public\".\"t\";") (more := []) rfl (Pg.script_iff.2 rfl) (by decide)
  exact ⟨w', out, h, h2⟩

end Prog
end Podo
