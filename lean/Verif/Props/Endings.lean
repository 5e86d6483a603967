import Verif.Props.ProgramPg
import Verif.Proofs.Endings
import Verif.Proofs.Stderr
/-
C65: all the ways in which `podo up` and `podo down` can end, on any database podo has written or not yet
seen.
-/
namespace Podo
namespace Prog
open Proj (Profile)
variable {σ : Type}

/-- A command that ends in one way does not end in another. -/
theorem ends_iff {S : Setting σ} {w : World σ} {cwd : Proj.Path} {a : Args} {e₀ : Ending}
    (h : ∃ w' out, Ends S w cwd a w' out e₀) (e : Ending) : (∃ w' out, Ends S w cwd a w' out e) ↔ e = e₀ := by
  constructor
  · rintro ⟨w₁, o₁, h₁⟩
    obtain ⟨w₂, o₂, h₂⟩ := h
    exact (ends_unique h₁ h₂).2.2
  · rintro rfl
    exact h

/-- C65 for `up`, all of it, whatever version is asked for.  Let the history open at `cv`, and let `cur` be
the version the database is on (`init` for a database podo has not seen).  `podo up`

* succeeds if and only if the metadata schema is there or can be created, there is a way of versions from
  `cur` to the one asked for, and either nothing is to be done or the server executes the up scripts, the
  versions can be recorded and the server commits;
* panics if and only if there is such a way, and the server refuses a statement of the scripts or a version
  cannot be recorded;
* reports an error if and only if the metadata schema is not there and cannot be created, or there is no such
  way (the version asked for may not exist at all), or the commit fails;
* goes on for ever if and only if there is no such way and the predecessors of the version asked for run into
  a circle. -/
theorem C65_up_all {S : Setting σ} {w : World σ} {cwd : Proj.Path} {name : String}
    {q₀ q : Profile} (hq₀ : ProfileAt S.env w.fs cwd "database" q₀) (hq : ProfileAt S.env w.fs cwd name q)
    (hi : S.Reads q.metadataSchema) {s : Server σ} (hs : w.servers q.databaseUrl = some s)
    (hr : Pg.Reach S.B (s.db q.metadataSchema)) (hd : NamedAfterVersion (w.fs.history q₀.history))
    {target : Option String} {cv n : String} (hop : Opens (w.fs.history q₀.history) cv)
    (htar : target.getD cv = n) {cur : Version}
    (hcur : (s.db q.metadataSchema).applied.getLast? = some cur) :
    ((∃ w' out, Ends S w cwd (.up name target) w' out .success) ↔
      Pg.CanStart S.B (s.db q.metadataSchema) ∧ ∃ ws, Pg.Way (w.fs.history q₀.history) cur.name n ws ∧
        (ws = [] ∨ ∃ s', Pg.Script S.B s.data (ws.flatMap Version.up) s' ∧
          Pg.Recordable S.B (s.db q.metadataSchema) ws ∧ S.B.commits s' = true)) ∧
    ((∃ w' out, Ends S w cwd (.up name target) w' out .panic) ↔
      Pg.CanStart S.B (s.db q.metadataSchema) ∧ ∃ ws, Pg.Way (w.fs.history q₀.history) cur.name n ws ∧
        ws ≠ [] ∧ ((¬ ∃ s', Pg.Script S.B s.data (ws.flatMap Version.up) s') ∨
          ¬ Pg.Recordable S.B (s.db q.metadataSchema) ws)) ∧
    ((∃ w' out, Ends S w cwd (.up name target) w' out .error) ↔
      ¬ Pg.CanStart S.B (s.db q.metadataSchema) ∨
      (¬ OnPath (w.fs.history q₀.history) cur.name n ∧ ¬ Pg.Circular (w.fs.history q₀.history) n) ∨
      ∃ ws, Pg.Way (w.fs.history q₀.history) cur.name n ws ∧ ws ≠ [] ∧
        ∃ s', Pg.Script S.B s.data (ws.flatMap Version.up) s' ∧
          Pg.Recordable S.B (s.db q.metadataSchema) ws ∧ S.B.commits s' = false) ∧
    ((∀ w' out e, ¬ Ends S w cwd (.up name target) w' out e) ↔
      Pg.CanStart S.B (s.db q.metadataSchema) ∧ ¬ OnPath (w.fs.history q₀.history) cur.name n ∧
        Pg.Circular (w.fs.history q₀.history) n) := by
  have hn := hd.storedNames
  have hdata : (s.db q.metadataSchema).data = s.data := rfl
  -- what `up` does, the command does
  have hends : ∀ {fuel db' o}, Pg.up S.B fuel (w.fs.history q₀.history) target (s.db q.metadataSchema) =
      some (db', o) → ∃ w' out, Ends S w cwd (.up name target) w' out (pgEnding o) := by
    intro fuel db' o h
    have e := run_up (fuel := fuel) hq₀ hq hi target hs
    rw [h, Option.map_some] at e
    exact ⟨_, _, fuel, e⟩
  by_cases hcs : Pg.CanStart S.B (s.db q.metadataSchema)
  · obtain ⟨t, ht⟩ := (Pg.canStart_iff hr.hasTable).1 hcs
    by_cases hop' : OnPath (w.fs.history q₀.history) cur.name n
    · obtain ⟨ws, hw⟩ := Pg.Way.exists hn hop'
      have huniq : ∀ ws', Pg.Way (w.fs.history q₀.history) cur.name n ws' → ws' = ws :=
        fun ws' h => h.unique hw
      have hscript : ∀ x y, Pg.Script S.B s.data (ws.flatMap Version.up) x →
          Pg.Script S.B s.data (ws.flatMap Version.up) y → x = y := by
        intro x y h1 h2
        have h1 := Pg.script_iff.1 h1
        rw [Pg.script_iff.1 h2] at h1
        cases h1
        rfl
      by_cases hne : ws = []
      · subst hne
        obtain ⟨f, db', hu⟩ := Pg.up_there hn hr.good ht hop htar hcur hw
        have he := hends hu
        simp only [ends_iff he, pgEnding]
        refine ⟨⟨fun _ => ⟨hcs, [], hw, .inl rfl⟩, fun _ => trivial⟩, ⟨fun h => (nomatch h), ?_⟩,
          ⟨fun h => (nomatch h), ?_⟩, ⟨fun h => ?_, fun h => absurd hop' h.2.1⟩⟩
        · rintro ⟨_, ws', hw', hne, _⟩
          exact absurd (huniq ws' hw') hne
        · rintro (h | ⟨h, _⟩ | ⟨ws', hw', hne, _⟩)
          · exact absurd hcs h
          · exact absurd hop' h
          · exact absurd (huniq ws' hw') hne
        · obtain ⟨w', out, he⟩ := he
          exact absurd he (h w' out _)
      · obtain ⟨f, db', o, hu, hcase⟩ := Pg.up_way hn hr.good ht hop htar hcur hw hne
        rw [hdata] at hcase
        have he := hends hu
        have hrun : ¬ ∀ w' out e, ¬ Ends S w cwd (.up name target) w' out e := by
          obtain ⟨w', out, he⟩ := he
          exact fun h => h w' out _ he
        simp only [ends_iff he]
        refine ⟨?_, ?_, ?_, ⟨fun h => absurd h hrun, fun h => absurd hop' h.2.1⟩⟩
        · constructor
          · intro h
            rcases hcase with ⟨rfl, hx⟩ | ⟨rfl, _⟩ | ⟨rfl, _⟩
            · exact ⟨hcs, ws, hw, .inr hx⟩
            · cases h
            · cases h
          · rintro ⟨_, ws', hw', hx⟩
            have := huniq ws' hw'
            subst this
            rcases hx with hx | ⟨y, hy, hrec, hc⟩
            · exact absurd hx hne
            · rcases hcase with ⟨rfl, _⟩ | ⟨rfl, z, hz, _, hzc⟩ | ⟨rfl, hz | hz⟩
              · rfl
              · rw [hscript y z hy hz, hzc] at hc; cases hc
              · exact absurd ⟨y, hy⟩ hz
              · exact absurd hrec hz
        · constructor
          · intro h
            rcases hcase with ⟨rfl, _⟩ | ⟨rfl, _⟩ | ⟨rfl, hx⟩
            · cases h
            · cases h
            · exact ⟨hcs, ws, hw, hne, hx⟩
          · rintro ⟨_, ws', hw', _, hx⟩
            have := huniq ws' hw'
            subst this
            rcases hcase with ⟨rfl, z, hz, hrec, _⟩ | ⟨rfl, z, hz, hrec, _⟩ | ⟨rfl, _⟩
            · rcases hx with hx | hx
              · exact absurd ⟨z, hz⟩ hx
              · exact absurd hrec hx
            · rcases hx with hx | hx
              · exact absurd ⟨z, hz⟩ hx
              · exact absurd hrec hx
            · rfl
        · constructor
          · intro h
            rcases hcase with ⟨rfl, _⟩ | ⟨rfl, hx⟩ | ⟨rfl, _⟩
            · cases h
            · exact .inr (.inr ⟨ws, hw, hne, hx⟩)
            · cases h
          · rintro (h | ⟨h, _⟩ | ⟨ws', hw', _, y, hy, hrec, hc⟩)
            · exact absurd hcs h
            · exact absurd hop' h
            · have := huniq ws' hw'
              subst this
              rcases hcase with ⟨rfl, z, hz, _, hzc⟩ | ⟨rfl, _⟩ | ⟨rfl, hz | hz⟩
              · rw [hscript y z hy hz, hzc] at hc; cases hc
              · rfl
              · exact absurd ⟨y, hy⟩ hz
              · exact absurd hrec hz
    · by_cases hc : Pg.Circular (w.fs.history q₀.history) n
      · have hnone : ∀ w' out e, ¬ Ends S w cwd (.up name target) w' out e := by
          rintro w' out e ⟨fuel, h⟩
          rw [run_up hq₀ hq hi target hs,
            Pg.up_circles hn hr.good ht hop htar hcur hop' hc fuel] at h
          cases h
        refine ⟨⟨fun ⟨w', out, h⟩ => absurd h (hnone _ _ _), fun ⟨_, ws, hw, _⟩ => absurd hw.onPath hop'⟩,
          ⟨fun ⟨w', out, h⟩ => absurd h (hnone _ _ _), fun ⟨_, ws, hw, _⟩ => absurd hw.onPath hop'⟩,
          ⟨fun ⟨w', out, h⟩ => absurd h (hnone _ _ _), ?_⟩, ⟨fun _ => ⟨hcs, hop', hc⟩, fun _ => hnone⟩⟩
        rintro (h | ⟨_, h⟩ | ⟨ws, hw, _⟩)
        · exact absurd hcs h
        · exact absurd hc h
        · exact absurd hw.onPath hop'
      · obtain ⟨f, db', hu⟩ := Pg.up_no_way (B := S.B) hn hr.good ht hop htar hcur hop' hc
        have he := hends hu
        have hrun : ¬ ∀ w' out e, ¬ Ends S w cwd (.up name target) w' out e := by
          obtain ⟨w', out, he⟩ := he
          exact fun h => h w' out _ he
        simp only [ends_iff he, pgEnding]
        exact ⟨⟨fun h => (nomatch h), fun ⟨_, ws, hw, _⟩ => absurd hw.onPath hop'⟩,
          ⟨fun h => (nomatch h), fun ⟨_, ws, hw, _⟩ => absurd hw.onPath hop'⟩,
          ⟨fun _ => .inr (.inl ⟨hop', hc⟩), fun _ => trivial⟩,
          ⟨fun h => absurd h hrun, fun h => absurd h.2.2 hc⟩⟩
  · obtain ⟨f, db', hu⟩ := Pg.up_no_start (target := target) hop hcs
    have he := hends hu
    have hrun : ¬ ∀ w' out e, ¬ Ends S w cwd (.up name target) w' out e := by
      obtain ⟨w', out, he⟩ := he
      exact fun h => h w' out _ he
    simp only [ends_iff he, pgEnding]
    exact ⟨⟨fun h => (nomatch h), fun h => absurd h.1 hcs⟩, ⟨fun h => (nomatch h), fun h => absurd h.1 hcs⟩,
      ⟨fun _ => .inl hcs, fun _ => trivial⟩, ⟨fun h => absurd h hrun, fun h => absurd h.1 hcs⟩⟩

/-- A history that does not open is an error of `podo up`. -/
theorem C65_up_unopened {S : Setting σ} {w : World σ} {cwd : Proj.Path} {name : String}
    {q₀ q : Profile} (hq₀ : ProfileAt S.env w.fs cwd "database" q₀) (hq : ProfileAt S.env w.fs cwd name q)
    (hi : S.Reads q.metadataSchema) {s : Server σ} (hs : w.servers q.databaseUrl = some s)
    (target : Option String) (hop : FailsToOpen (w.fs.history q₀.history)) :
    ∃ w' out, Ends S w cwd (.up name target) w' out .error := by
  obtain ⟨f, e, hf⟩ := hop
  have r := run_up (fuel := f) hq₀ hq hi target hs
  have hu : Pg.up S.B f (w.fs.history q₀.history) target (s.db q.metadataSchema) =
      some (s.db q.metadataSchema, .error) := by
    unfold Pg.up
    rw [hf]
  rw [hu, Option.map_some] at r
  exact ⟨_, _, f, r⟩

/-- In a history podo has written, nothing runs into a circle. -/
theorem C65_no_circles {d : HDir} (h : Reachable d) (n : String) : ¬ Pg.Circular d n := by
  obtain ⟨vs, st, s, hh, _⟩ := h.sound
  exact Pg.not_circular hh.acyclic n

/-- A server on which the metadata schema of podo cannot be created. -/
def refusing : Setting (List String) :=
  { progSetting with B := ⟨fun s q => some (s ++ [q]), fun _ => true, fun _ => true, fun _ => false⟩ }

/-- C65 for `up`, at work: from the staged version there is no way to the version made last, so `podo up`
without a target reports an error; and so it does where the metadata schema cannot be created. -/
example :
    (∃ w' out, Ends pgSetting (pgWorld demoUp) ["w"] (.up "database" none) w' out .error) ∧
    ∃ w' out, Ends refusing (pgWorld demoNew) ["w"] (.up "database" none) w' out .error := by
  have hq : ∀ db, ProfileAt progSetting.env (pgWorld db).fs ["w"] "database" progProfile :=
    fun _ => progFs_profile _ _
  constructor
  · refine (C65_up_all (S := pgSetting) (w := pgWorld demoUp) (hq _) (hq _) podo_meta_reads rfl demoUp_reach
      demoDir_reachable.namedAfterVersion (cv := "20200101000000-first") ⟨9, _, rfl⟩ rfl
      (cur := demoStage) rfl).2.2.1.2 (.inr (.inl ⟨?_, C65_no_circles demoDir_reachable _⟩))
    rintro ⟨l, hl⟩
    have hm : Stored demoDir "20200101000000-first" demoMade := by rfl
    have hi : Stored demoDir "init" Version.newInit := by rfl
    have inv : ∀ b l, VersionPath demoDir demoStage.name b l → b = "stage" ∨
        ∃ p v l', VersionPath demoDir demoStage.name p l' ∧ Stored demoDir b v ∧ v.previous = some p := by
      intro b l h
      cases h with
      | here => exact .inl rfl
      | later h1 h2 h3 => exact .inr ⟨_, _, _, h1, h2, h3⟩
    rcases inv _ _ hl with h | ⟨p, v, l', h1, h2, h3⟩
    · exact absurd h (by decide)
    · cases hm.unique h2
      cases h3
      rcases inv _ _ h1 with h | ⟨p, v, l', h1, h2, h3⟩
      · exact absurd h (by decide)
      · cases hi.unique h2
        cases h3
  · refine (C65_up_all (S := refusing) (w := pgWorld demoNew) (hq _) (hq _) podo_meta_reads rfl (.new _)
      demoDir_reachable.namedAfterVersion (cv := "20200101000000-first") ⟨9, _, rfl⟩ rfl
      (cur := Version.newInit) rfl).2.2.1.2 (.inl fun h => ?_)
    exact absurd (h rfl).1 (by simp [refusing])

/-- C65 for `down`, all of it, whatever version is asked for, if any.  `podo down`

* succeeds if and only if the metadata schema is there or can be created, and there is nothing to take back
  or the server executes the down scripts of what is to be taken back, newest first, and commits;
* panics if and only if the server refuses a statement of these scripts;
* reports an error if and only if the metadata schema is not there and cannot be created, the version asked
  for is not recorded, or the commit fails.

It always ends. -/
theorem C65_down_all {S : Setting σ} {w : World σ} {cwd : Proj.Path} {name : String}
    {q : Profile} (hq : ProfileAt S.env w.fs cwd name q) (hi : S.Reads q.metadataSchema) {s : Server σ}
    (hs : w.servers q.databaseUrl = some s) (hr : Pg.Reach S.B (s.db q.metadataSchema))
    (target : Option String) :
    ((∃ w' out, Ends S w cwd (.down name target) w' out .success) ↔
      Pg.CanStart S.B (s.db q.metadataSchema) ∧ ∃ post, Pg.TakesBack (s.db q.metadataSchema) target post ∧
        (post = [] ∨ ∃ s', Pg.Script S.B s.data (post.reverse.flatMap Version.down) s' ∧
          S.B.commits s' = true)) ∧
    ((∃ w' out, Ends S w cwd (.down name target) w' out .panic) ↔
      Pg.CanStart S.B (s.db q.metadataSchema) ∧ ∃ post, Pg.TakesBack (s.db q.metadataSchema) target post ∧
        ¬ ∃ s', Pg.Script S.B s.data (post.reverse.flatMap Version.down) s') ∧
    ((∃ w' out, Ends S w cwd (.down name target) w' out .error) ↔
      ¬ Pg.CanStart S.B (s.db q.metadataSchema) ∨
      (∃ n, target = some n ∧ ∀ v ∈ (s.db q.metadataSchema).applied, v.name ≠ n) ∨
      ∃ post, Pg.TakesBack (s.db q.metadataSchema) target post ∧ post ≠ [] ∧
        ∃ s', Pg.Script S.B s.data (post.reverse.flatMap Version.down) s' ∧ S.B.commits s' = false) ∧
    ∃ w' out e, Ends S w cwd (.down name target) w' out e := by
  have hdata : (s.db q.metadataSchema).data = s.data := rfl
  have he : ∃ w' out, Ends S w cwd (.down name target) w' out
      (pgEnding (Pg.down S.B target (s.db q.metadataSchema)).2) := ⟨_, _, 0, run_down hq hi target hs⟩
  have hend : ∃ w' out e, Ends S w cwd (.down name target) w' out e := by
    obtain ⟨w', out, he⟩ := he
    exact ⟨w', out, _, he⟩
  simp only [ends_iff he]
  by_cases hcs : Pg.CanStart S.B (s.db q.metadataSchema)
  · obtain ⟨t, ht⟩ := (Pg.canStart_iff hr.hasTable).1 hcs
    obtain ⟨hch, happ, _⟩ := Pg.ensure_chain hr.good ht
    have hnd : ((s.db q.metadataSchema).applied.map Version.name).Nodup := by
      rw [← happ, List.map_map]; exact hch.names
    by_cases hex : ∃ post, Pg.TakesBack (s.db q.metadataSchema) target post
    · obtain ⟨post, htb⟩ := hex
      have hrec : ¬ ∃ n, target = some n ∧ ∀ v ∈ (s.db q.metadataSchema).applied, v.name ≠ n := by
        rintro ⟨n, rfl, hall⟩
        obtain ⟨pre, v, ha, hv | ⟨hv, _⟩⟩ := htb
        · cases hv
          exact hall v (by rw [ha]; simp) rfl
        · cases hv
      have hscript : ∀ x y, Pg.Script S.B s.data (post.reverse.flatMap Version.down) x →
          Pg.Script S.B s.data (post.reverse.flatMap Version.down) y → x = y := by
        intro x y h1 h2
        have h1 := Pg.script_iff.1 h1
        rw [Pg.script_iff.1 h2] at h1
        cases h1
        rfl
      have hcase := Pg.down_takes hr.good ht htb
      rw [hdata] at hcase
      refine ⟨?_, ?_, ?_, hend⟩
      · constructor
        · intro h
          rcases hcase with ⟨ho, hx⟩ | ⟨ho, _⟩ | ⟨ho, _⟩
          · exact ⟨hcs, post, htb, hx⟩
          · rw [ho] at h; cases h
          · rw [ho] at h; cases h
        · rintro ⟨_, post', htb', hx⟩
          have := htb'.unique hnd htb
          subst this
          rcases hcase with ⟨ho, _⟩ | ⟨ho, hne, z, hz, hzc⟩ | ⟨ho, hz⟩
          · rw [ho]; rfl
          · rcases hx with hx | ⟨y, hy, hc⟩
            · exact absurd hx hne
            · rw [hscript y z hy hz, hzc] at hc; cases hc
          · rcases hx with rfl | ⟨y, hy, _⟩
            · exact absurd ⟨_, .nil⟩ hz
            · exact absurd ⟨y, hy⟩ hz
      · constructor
        · intro h
          rcases hcase with ⟨ho, _⟩ | ⟨ho, _⟩ | ⟨ho, hx⟩
          · rw [ho] at h; cases h
          · rw [ho] at h; cases h
          · exact ⟨hcs, post, htb, hx⟩
        · rintro ⟨_, post', htb', hx⟩
          have := htb'.unique hnd htb
          subst this
          rcases hcase with ⟨_, rfl | ⟨z, hz, _⟩⟩ | ⟨_, _, z, hz, _⟩ | ⟨ho, _⟩
          · exact absurd ⟨_, .nil⟩ hx
          · exact absurd ⟨z, hz⟩ hx
          · exact absurd ⟨z, hz⟩ hx
          · rw [ho]; rfl
      · constructor
        · intro h
          rcases hcase with ⟨ho, _⟩ | ⟨ho, hx⟩ | ⟨ho, _⟩
          · rw [ho] at h; cases h
          · exact .inr (.inr ⟨post, htb, hx⟩)
          · rw [ho] at h; cases h
        · rintro (h | h | ⟨post', htb', hne, y, hy, hc⟩)
          · exact absurd hcs h
          · exact absurd h hrec
          · have := htb'.unique hnd htb
            subst this
            rcases hcase with ⟨_, hx | ⟨z, hz, hzc⟩⟩ | ⟨ho, _⟩ | ⟨_, hz⟩
            · exact absurd hx hne
            · rw [hscript y z hy hz, hzc] at hc; cases hc
            · rw [ho]; rfl
            · exact absurd ⟨y, hy⟩ hz
    · rw [Pg.down_nothing hr.good ht hex]
      refine ⟨⟨fun h => (nomatch h), fun ⟨_, post, h, _⟩ => absurd ⟨post, h⟩ hex⟩,
        ⟨fun h => (nomatch h), fun ⟨_, post, h, _⟩ => absurd ⟨post, h⟩ hex⟩,
        ⟨fun _ => .inr (.inl ?_), fun _ => rfl⟩, hend⟩
      exact Pg.unknown_of_nothing hr.good ht hex
  · rw [Pg.down_no_start hcs]
    exact ⟨⟨fun h => (nomatch h), fun h => absurd h.1 hcs⟩, ⟨fun h => (nomatch h), fun h => absurd h.1 hcs⟩,
      ⟨fun _ => .inl hcs, fun _ => rfl⟩, hend⟩

/-- C65 for `down`, at work: `podo down` takes back the last version; asked for a version that is not
recorded it reports an error; and on a server that refuses the scripts it panics. -/
example :
    (∃ w' out, Ends pgSetting (pgWorld demoUp) ["w"] (.down "database" none) w' out .success) ∧
    (∃ w' out, Ends pgSetting (pgWorld demoUp) ["w"] (.down "database" (some "nope")) w' out .error) ∧
    ∃ w' out, Ends { progSetting with B := failB } (pgWorld failDb) ["w"] (.down "database" none) w' out .panic := by
  have hq : ∀ db, ProfileAt progSetting.env (pgWorld db).fs ["w"] "database" progProfile :=
    fun _ => progFs_profile _ _
  refine ⟨?_, ?_, ?_⟩
  · refine (C65_down_all (S := pgSetting) (w := pgWorld demoUp) (hq _) podo_meta_reads rfl demoUp_reach none).1.2
      ⟨fun h => (nomatch h), [demoStage],
        ⟨[Version.newInit], demoMade, rfl, .inr ⟨rfl, .inl ⟨_, rfl⟩⟩⟩, .inr ⟨_, Pg.script_iff.2 rfl, rfl⟩⟩
  · refine (C65_down_all (S := pgSetting) (w := pgWorld demoUp) (hq _) podo_meta_reads rfl demoUp_reach
      (some "nope")).2.2.1.2 (.inr (.inl ⟨_, rfl, ?_⟩))
    intro v hv
    replace hv : v ∈ [Version.newInit, demoMade, demoStage] := hv
    simp only [List.mem_cons, List.not_mem_nil, or_false] at hv
    rcases hv with rfl | rfl | rfl <;> decide
  · refine (C65_down_all (S := { progSetting with B := failB }) (w := pgWorld failDb) (hq _) podo_meta_reads
      rfl failDb_reach none).2.1.2 ⟨fun h => (nomatch h), [demoMade],
        ⟨[], Version.newInit, rfl, .inr ⟨rfl, .inl ⟨_, rfl⟩⟩⟩, ?_⟩
    rintro ⟨s', hs⟩
    cases hs with
    | cons h1 _ => cases h1

/-- In a project's history, a name without a slash can be saved. -/
theorem saveable {d : HDir} (h : ∀ n, d.get? (n ++ ".yaml") ≠ some .dir) {v : Version}
    (hv : '/' ∉ v.name.toList) : ∃ d', d.save v = some d' ∧ ∀ n, d'.get? (n ++ ".yaml") ≠ some .dir := by
  obtain ⟨d', hd⟩ := save_some hv (h v.name)
  refine ⟨d', hd, fun n => ?_⟩
  rw [save_get hd]
  split
  · simp
  · exact h n

/-- C65 for `reset`, all of it: in a project podo has written, `podo reset` succeeds. -/
theorem C65_reset_all (S : Setting σ) {w : World σ} {cwd : Proj.Path} {name : String} {q : Profile}
    (hq : ProfileAt S.env w.fs cwd name q) (hr : Reachable (w.fs.history q.history)) :
    ∃ w' out, Ends S w cwd (.reset name) w' out .success := by
  obtain ⟨vs, st, s, hh, _⟩ := hr.sound
  obtain ⟨k, hk⟩ := hh.resetPlan
  have hnd : ∀ n, (w.fs.history q.history).get? (n ++ ".yaml") ≠ some .dir := by
    intro n hn
    obtain ⟨v, _, _, he⟩ := (hh.files n .dir).1 hn
    cases he
  obtain ⟨d', hd, _⟩ := saveable (v := st.reset) hnd (by
    rw [show st.reset.name = "stage" from hh.stage]; decide)
  have e := run_reset (S := S) (fuel := k) hq
  unfold runHist at e
  rw [hk] at e
  simp only [HDir.saveAll, hd, if_true] at e
  exact ⟨_, _, k, e⟩

/-- C65 for `make`, all of it: in a project podo has written, `podo make` succeeds if nothing is staged or
the name of the new version has no slash; otherwise it reports an error. -/
theorem C65_make_all {S : Setting σ} {w : World σ} {cwd : Proj.Path} {name : String} {q : Profile}
    (hq : ProfileAt S.env w.fs cwd name q) (hr : Reachable (w.fs.history q.history)) {st : Version}
    (hst : Stored (w.fs.history q.history) "stage" st) (label : Option String) :
    ((∃ w' out, Ends S w cwd (.make name label) w' out .success) ↔
      (st.changes = [] ∧ st.up = [] ∧ st.down = []) ∨ '/' ∉ (S.now ++ "-" ++ label.getD "auto").toList) ∧
    ((∃ w' out, Ends S w cwd (.make name label) w' out .error) ↔
      ¬ (st.changes = [] ∧ st.up = [] ∧ st.down = []) ∧ '/' ∈ (S.now ++ "-" ++ label.getD "auto").toList) := by
  obtain ⟨vs, st', s, hh, _⟩ := hr.sound
  cases hst.unique hh.stored_stage
  have hnd : ∀ n, (w.fs.history q.history).get? (n ++ ".yaml") ≠ some .dir := by
    intro n hn
    obtain ⟨v, _, _, he⟩ := (hh.files n .dir).1 hn
    cases he
  have hname : S.now ++ "-" ++ label.getD "auto" = madeName S.now label := rfl
  rw [hname]
  cases hemp : st.isEmpty with
  | true =>
    obtain ⟨k, hk⟩ := hh.makeEmptyPlan hemp S.now label
    have he : ∃ w' out, Ends S w cwd (.make name label) w' out .success := by
      have e := run_make (fuel := k) hq label
      unfold runHist at e
      rw [hk] at e
      simp only [HDir.saveAll, if_true] at e
      exact ⟨_, _, k, e⟩
    simp only [ends_iff he]
    exact ⟨⟨fun _ => .inl (isEmpty_iff.1 hemp), fun _ => trivial⟩,
      ⟨fun h => (nomatch h), fun h => absurd (isEmpty_iff.1 hemp) h.1⟩⟩
  | false =>
    have hne : ¬ (st.changes = [] ∧ st.up = [] ∧ st.down = []) := by
      intro h
      rw [isEmpty_iff.2 h] at hemp
      cases hemp
    obtain ⟨k, hk⟩ := hh.makePlan hemp S.now label
    by_cases hsl : '/' ∈ (madeName S.now label).toList
    · have he : ∃ w' out, Ends S w cwd (.make name label) w' out .error := by
        have e := run_make (fuel := k) hq label
        unfold runHist at e
        rw [hk] at e
        have : (w.fs.history q.history).save { st with name := madeName S.now label } = none := by
          unfold HDir.save
          rw [if_pos (by simpa using hsl)]
        simp only [HDir.saveAll, this] at e
        exact ⟨_, _, k, e⟩
      simp only [ends_iff he]
      exact ⟨⟨fun h => (nomatch h), fun h => h.elim (fun h => absurd h hne) fun h => absurd hsl h⟩,
        ⟨fun _ => ⟨hne, hsl⟩, fun _ => trivial⟩⟩
    · obtain ⟨d', hd, hnd'⟩ := saveable (v := { st with name := madeName S.now label }) hnd hsl
      obtain ⟨d'', hd', _⟩ := saveable (v := Version.newStage (madeName S.now label)) hnd' (by
        rw [show (Version.newStage (madeName S.now label)).name = "stage" from rfl]; decide)
      have he : ∃ w' out, Ends S w cwd (.make name label) w' out .success := by
        have e := run_make (fuel := k) hq label
        unfold runHist at e
        rw [hk] at e
        simp only [HDir.saveAll, hd, hd', if_true] at e
        exact ⟨_, _, k, e⟩
      simp only [ends_iff he]
      exact ⟨⟨fun _ => .inr hsl, fun _ => trivial⟩, ⟨fun h => (nomatch h), fun h => absurd h.2 hsl⟩⟩

/-- Both endings of `make`: in the project of the examples a view is staged. -/
example :
    (∃ w' out, Ends pgSetting (pgWorld demoNew) ["w"] (.make "database" (some "users")) w' out .success) ∧
    (∃ w' out, Ends pgSetting (pgWorld demoNew) ["w"] (.make "database" (some "a/b")) w' out .error) ∧
    ∃ w' out, Ends pgSetting (pgWorld demoNew) ["w"] (.reset "database") w' out .success := by
  have hq : ProfileAt progSetting.env (pgWorld demoNew).fs ["w"] "database" progProfile := progFs_profile _ _
  have hst : Stored demoDir "stage" demoStage := by rfl
  refine ⟨(C65_make_all (S := pgSetting) hq demoDir_reachable hst _).1.2 (.inr (by decide +kernel)),
    (C65_make_all (S := pgSetting) hq demoDir_reachable hst _).2.2 ⟨by simp [demoStage], by decide +kernel⟩,
    C65_reset_all pgSetting hq demoDir_reachable⟩

end Prog
end Podo
