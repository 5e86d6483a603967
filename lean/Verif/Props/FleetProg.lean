import Verif.Props.Wire
import Verif.Props.Edited
import Verif.Props.Missing
/-
C85, C88 and C89 for the program: what the user sees of them.
-/
namespace Podo
namespace Prog
open Proj

variable {σ : Type} {S : Setting σ}

/-- `podo up` is `up` on the database of the profile with the version files of the default profile. -/
theorem ends_up_iff {w w' : World σ} {cwd p : Proj.Path} {name url m : String} (hf : UpFor S w cwd name p url m)
    {s : Server σ} (hs : w.servers url = some s) {target : Option String} {e : Ending} :
    (∃ out, Ends S w cwd (.up name target) w' out e) ↔
      ∃ fuel db o, Pg.up S.B fuel (w.fs.history p) target (s.db m) = some (db, o) ∧ w' = putServer w url m s db ∧
        e = pgEnding o := by
  obtain ⟨hi, q₀, q, hq₀, hq, rfl, rfl, rfl⟩ := hf
  constructor
  · rintro ⟨out, fuel, h⟩
    rw [run_up hq₀ hq hi target hs] at h
    cases hu : Pg.up S.B fuel (w.fs.history q₀.history) target (s.db q.metadataSchema) with
    | none => rw [hu] at h; cases h
    | some r =>
      rw [hu] at h
      simp only [Option.map_some, Option.some.injEq, Prod.mk.injEq] at h
      obtain ⟨rfl, rfl, rfl⟩ := h
      exact ⟨fuel, r.1, r.2, hu, rfl, rfl⟩
  · rintro ⟨fuel, db, o, hu, rfl, rfl⟩
    have h := run_up (fuel := fuel) hq₀ hq hi target hs
    rw [hu] at h
    exact ⟨_, fuel, h⟩

/-- C85 (partial), as the user sees it.  `podo up` has succeeded, then the project may have gone on — commands have
been run on its version files, definitions and configuration are other ones — and `podo up` has succeeded again.  Then
the second one alone, on the servers as they were before the first, succeeds too and leaves exactly the same behind.
Missing: a first step to the stage (`C85_stage_false`). -/
theorem C85_program_partial {w w₁ w₂ : World σ} {fs : Fs} {cwd p : Proj.Path} {name url m : String}
    (hf : UpFor S w cwd name p url m) (hf' : UpFor S ⟨fs, w₁.servers⟩ cwd name p url m) {s : Server σ}
    (hs : w.servers url = some s) (hr : Pg.Reach S.B (s.db m)) (hd : Reachable (w.fs.history p))
    (hl : Later (w.fs.history p) (fs.history p)) {t₁ t₂ : Option String} (ht : t₁ ≠ some "stage") {o₁ o₂ : List String}
    (h₁ : Ends S w cwd (.up name t₁) w₁ o₁ .success)
    (h₂ : Ends S ⟨fs, w₁.servers⟩ cwd (.up name t₂) w₂ o₂ .success) :
    ∃ o, Ends S ⟨fs, w.servers⟩ cwd (.up name t₂) w₂ o .success := by
  obtain ⟨f₁, db₁, out₁, hu₁, rfl, he₁⟩ := (ends_up_iff hf hs).1 ⟨_, h₁⟩
  rw [pgEnding_success.1 he₁.symm] at hu₁
  obtain ⟨s₁, hs₁, hdb, htw⟩ := putServer_twice (w := w) (url := url) (m := m) (s := s) db₁ db₁
  obtain ⟨f₂, db₂, out₂, hu₂, rfl, he₂⟩ := (ends_up_iff hf' hs₁).1 ⟨_, h₂⟩
  rw [pgEnding_success.1 he₂.symm, hdb] at hu₂
  obtain ⟨k, hk⟩ := C85_steps_at_once_partial hr hd hl ht hu₁ hu₂
  have hf'' : UpFor S ⟨fs, w.servers⟩ cwd name p url m := hf'
  refine (ends_up_iff hf'' hs).2 ⟨k, db₂, .ok, hk, ?_, rfl⟩
  obtain ⟨s₁', hs₁', _, htw⟩ := putServer_twice (w := w) (url := url) (m := m) (s := s) db₁ db₂
  rw [hs₁] at hs₁'
  obtain rfl := Option.some.inj hs₁'
  have := congrArg World.servers htw
  simp only [putServer] at this ⊢
  exact congrArg _ this

/-- C88, as the user sees it.  However the changes and scripts in the files of versions that the database has applied
have been edited — in whatever else the files differ, the profile must be the same — `podo up` leaves the same servers
behind and ends the same way as without the edit. -/
theorem C88_program_edited {w : World σ} {fs : Fs} {cwd p : Proj.Path} {name url m : String}
    (hf : UpFor S w cwd name p url m) (hf' : UpFor S ⟨fs, w.servers⟩ cwd name p url m) {s : Server σ}
    (hs : w.servers url = some s) (hdep : Pg.Deployed S.B (w.fs.history p) (s.db m)) {f : Version → Version}
    (hed : EditsApplied (s.db m) f) (hfs : fs.history p = (w.fs.history p).edit f) (target : Option String)
    (servers : String → Option (Server σ)) (e : Ending) :
    (∃ out, Ends S w cwd (.up name target) ⟨w.fs, servers⟩ out e) ↔
      ∃ out, Ends S ⟨fs, w.servers⟩ cwd (.up name target) ⟨fs, servers⟩ out e := by
  rw [ends_up_iff hf hs, ends_up_iff hf' hs]
  simp only [hfs, C88_applied_files_not_read hdep hed]
  constructor <;> rintro ⟨fuel, db, o, hu, hw, rfl⟩ <;> refine ⟨fuel, db, o, hu, ?_, rfl⟩ <;>
    simpa [putServer] using hw

/-- C88 (partial), as the user sees it, the other side.  If the project has no readable file of the version the
database is on, `podo up` to whatever target ends with an error and leaves everything as it is.  Missing: see
`C88_same_name_false`. -/
theorem C88_program_refused_partial {w w' : World σ} {cwd p : Proj.Path} {name url m : String}
    (hf : UpFor S w cwd name p url m) {s : Server σ} (hs : w.servers url = some s) (hr : Pg.Reach S.B (s.db m))
    {n : String} (hn : (s.db m).version? = some n) (hno : ∀ v, ¬ Stored (w.fs.history p) n v) {target : Option String}
    {out : List String} {e : Ending} (h : Ends S w cwd (.up name target) w' out e) : w' = w ∧ e = .error := by
  obtain ⟨f, db, o, hu, rfl, rfl⟩ := (ends_up_iff hf hs).1 ⟨_, h⟩
  obtain ⟨rfl, rfl⟩ := C88_no_place_refused_partial hr hn hno hu
  exact ⟨putServer_self hs, rfl⟩

/-- C89, as the user sees it, for `podo up` to a version that is named.  If the files from the version the database is
on to the target are there, it leaves the same servers behind and ends the same way as with all files; if one of them
is missing, it ends with an error and leaves everything as it is. -/
theorem C89_program_up_partial {w : World σ} {fs : Fs} {cwd p : Proj.Path} {name url m : String}
    (hf : UpFor S w cwd name p url m) (hf' : UpFor S ⟨fs, w.servers⟩ cwd name p url m) {s : Server σ}
    (hs : w.servers url = some s) (hdb : Pg.Reach S.B (s.db m)) (hr : Reachable (w.fs.history p))
    (hm : FilesMissing (w.fs.history p) (fs.history p)) {a t : String} (ha : (s.db m).version? = some a)
    {l : List String} (hp : VersionPath (w.fs.history p) a t l) :
    ((∀ n ∈ a :: l, ¬ Lacks (fs.history p) n) → ∀ servers e,
      (∃ out, Ends S ⟨fs, w.servers⟩ cwd (.up name (some t)) ⟨fs, servers⟩ out e) ↔
        ∃ out, Ends S w cwd (.up name (some t)) ⟨w.fs, servers⟩ out e) ∧
    ((∃ n ∈ a :: l, Lacks (fs.history p) n) → ∀ w' e,
      (∃ out, Ends S ⟨fs, w.servers⟩ cwd (.up name (some t)) w' out e) ↔ w' = ⟨fs, w.servers⟩ ∧ e = .error) := by
  obtain ⟨h1, h2⟩ := C89_up_named_partial hr hm hdb ha hp
  constructor
  · intro hall servers e
    rw [ends_up_iff hf hs, ends_up_iff hf' hs]
    constructor
    · rintro ⟨fuel, db, o, hu, hw, rfl⟩
      obtain ⟨k, hk⟩ := (h1 hall _).1 ⟨fuel, hu⟩
      exact ⟨k, db, o, hk, by simpa [putServer] using hw, rfl⟩
    · rintro ⟨fuel, db, o, hu, hw, rfl⟩
      obtain ⟨k, hk⟩ := (h1 hall _).2 ⟨fuel, hu⟩
      exact ⟨k, db, o, hk, by simpa [putServer] using hw, rfl⟩
  · intro hl w' e
    rw [ends_up_iff hf' hs]
    constructor
    · rintro ⟨fuel, db, o, hu, rfl, rfl⟩
      obtain ⟨rfl, rfl⟩ := Prod.mk.inj ((h2 hl _).1 ⟨fuel, hu⟩)
      exact ⟨putServer_self (w := ⟨fs, w.servers⟩) hs, rfl⟩
    · rintro ⟨rfl, rfl⟩
      obtain ⟨k, hk⟩ := (h2 hl _).2 rfl
      exact ⟨k, _, _, hk, (putServer_self (w := ⟨fs, w.servers⟩) hs).symm, rfl⟩

/-! ### Cases -/

/-- The settings of the examples, whatever the version files and the servers are. -/
theorem upFor_demo (d : HDir) (sv : String → Option (Server (List String))) :
    UpFor pgSetting ⟨progFs d [], sv⟩ ["w"] "database" progProfile.history progProfile.databaseUrl "podo_meta" :=
  ⟨podo_meta_reads, progProfile, progProfile, progFs_profile d [], progFs_profile d [], rfl, rfl, rfl⟩

/-- `podo up` in the examples. -/
theorem up_demo {d : HDir} {sv : String → Option (Server (List String))} {s : Server (List String)}
    (hs : sv progProfile.databaseUrl = some s) {target : Option String} {db : Pg.DB (List String)} {o : Pg.Outcome}
    (h : Pg.up demoB 9 d target (s.db "podo_meta") = some (db, o)) :
    ∃ out, Ends pgSetting ⟨progFs d [], sv⟩ ["w"] (.up "database" target)
      (putServer ⟨progFs d [], sv⟩ progProfile.databaseUrl "podo_meta" s db) out (pgEnding o) :=
  (ends_up_iff (upFor_demo d sv) hs).2 ⟨9, db, o, h, rfl, rfl⟩

/-- All that `C85_program_partial` asks for: to the made version, `podo reset`, and then to the stage. -/
example : ∃ w₁ w₂ o₁ o₂ o, Ends pgSetting (pgWorld demoNew) ["w"] (.up "database" (some "20200101000000-first")) w₁ o₁ .success ∧
    Ends pgSetting ⟨progFs demoReset [], w₁.servers⟩ ["w"] (.up "database" (some "stage")) w₂ o₂ .success ∧
    Ends pgSetting ⟨progFs demoReset [], (pgWorld demoNew).servers⟩ ["w"] (.up "database" (some "stage")) w₂ o .success := by
  obtain ⟨o₁, h₁⟩ := up_demo (d := demoDir) (sv := (pgWorld demoNew).servers) (s := pgServer demoNew) rfl
    (target := some "20200101000000-first") (db := demoAtMade) (o := .ok) rfl
  obtain ⟨db₂, hdb₂⟩ : ∃ db₂, Pg.up demoB 9 demoReset (some "stage") demoAtMade = some (db₂, .ok) := ⟨_, rfl⟩
  obtain ⟨o₂, h₂⟩ := up_demo (d := demoReset)
    (sv := (putServer (pgWorld demoNew) progProfile.databaseUrl "podo_meta" (pgServer demoNew) demoAtMade).servers)
    (s := ⟨update (pgServer demoNew).metas "podo_meta" demoAtMade.metaSchema, demoAtMade.data⟩) rfl
    (target := some "stage") (db := db₂) (o := .ok) hdb₂
  obtain ⟨o, h⟩ := C85_program_partial (S := pgSetting) (w := pgWorld demoNew) (fs := progFs demoReset [])
    (p := progProfile.history) (upFor_demo demoDir _) (upFor_demo demoReset _) (s := pgServer demoNew) rfl (.new [])
    demoDir_reachable demoReset_later (by decide) h₁ h₂
  exact ⟨_, _, _, _, _, h₁, h₂, h⟩

/-- All that `C88_program_edited` asks for: the file of the version that is applied has been spoiled. -/
example (servers : String → Option (Server (List String))) (e : Ending) :
    (∃ out, Ends pgSetting (pgWorld demoAtMade) ["w"] (.up "database" (some "stage")) ⟨progFs demoDir [], servers⟩ out e) ↔
    ∃ out, Ends pgSetting ⟨progFs (demoDir.edit spoil) [], (pgWorld demoAtMade).servers⟩ ["w"]
      (.up "database" (some "stage")) ⟨progFs (demoDir.edit spoil) [], servers⟩ out e := by
  have he : EditsApplied demoAtMade spoil := by
    refine ⟨fun v => ?_, fun v => ?_, fun v hv => ?_⟩
    · unfold spoil; split <;> rfl
    · unfold spoil; split <;> rfl
    · unfold spoil
      rw [if_neg]
      intro h
      exact hv demoMade (by simp [Pg.DB.applied, demoAtMade]) h.symm
  exact C88_program_edited (S := pgSetting) (w := pgWorld demoAtMade) (fs := progFs (demoDir.edit spoil) [])
    (p := progProfile.history) (upFor_demo demoDir _) (upFor_demo (demoDir.edit spoil) _) (s := pgServer demoAtMade) rfl
    (Brought.deployed demoAtMade_brought) he rfl (some "stage") servers e

/-- All that `C88_program_refused_partial` asks for: a project without the version the database is on. -/
example : ∃ out, Ends pgSetting ⟨progFs initDir [], (pgWorld demoAtMade).servers⟩ ["w"] (.up "database" none)
    ⟨progFs initDir [], (pgWorld demoAtMade).servers⟩ out .error := by
  obtain ⟨out, h⟩ := up_demo (d := initDir) (sv := (pgWorld demoAtMade).servers) (s := pgServer demoAtMade) rfl
    (target := none) (db := demoAtMade) (o := .error) rfl
  obtain ⟨e, _⟩ := C88_program_refused_partial (S := pgSetting) (upFor_demo initDir (pgWorld demoAtMade).servers)
    (s := pgServer demoAtMade) rfl (Deployed.reach (Brought.deployed demoAtMade_brought))
    (n := "20200101000000-first") rfl (fun _ h => (nomatch (show none = some _ from h))) h
  rw [e] at h
  exact ⟨out, h⟩

/-- All that `C89_program_up_partial` asks for: the file of the second version is missing; `podo up` to the first
succeeds, to the second it fails. -/
example : (∃ w' out, Ends pgSetting ⟨progFs demoGap [], (pgWorld demoNew).servers⟩ ["w"]
      (.up "database" (some "20200101000000-first")) w' out .success) ∧
    ∃ out, Ends pgSetting ⟨progFs demoGap [], (pgWorld demoNew).servers⟩ ["w"]
      (.up "database" (some "20200102000000-a")) ⟨progFs demoGap [], (pgWorld demoNew).servers⟩ out .error := by
  have hp : VersionPath demoA "init" "20200102000000-a" ["20200101000000-first", "20200102000000-a"] :=
    .later (l := ["20200101000000-first"]) (.later (l := []) (.here rfl) rfl rfl) rfl rfl
  have hp₁ : VersionPath demoA "init" "20200101000000-first" ["20200101000000-first"] :=
    .later (l := []) (.here rfl) rfl rfl
  have key : ∀ t l, VersionPath demoA "init" t l → _ := fun t l h =>
    C89_program_up_partial (S := pgSetting) (w := ⟨progFs demoA [], (pgWorld demoNew).servers⟩) (fs := progFs demoGap [])
      (p := progProfile.history) (upFor_demo demoA _) (upFor_demo demoGap _) (s := pgServer demoNew) rfl (.new [])
      demoA_reachable demoGap_missing (a := "init") (t := t) rfl h
  obtain ⟨o, h⟩ := up_demo (d := demoA) (sv := (pgWorld demoNew).servers) (s := pgServer demoNew) rfl
    (target := some "20200101000000-first") (db := demoAtMade) (o := .ok) rfl
  constructor
  · obtain ⟨o', h'⟩ := ((key _ _ hp₁).1 (by
      intro n hn
      simp only [List.mem_cons, List.not_mem_nil, or_false] at hn
      rcases hn with rfl | rfl <;> (intro h; cases (show some _ = none from h))) _ _).2 ⟨o, h⟩
    exact ⟨_, _, h'⟩
  · exact ((key _ _ hp).2 ⟨"20200102000000-a", by simp, rfl⟩ _ _).2 ⟨rfl, rfl⟩

end Prog
end Podo
