import Verif.Proofs.Program
import Verif.Props.Commands
import Verif.Props.Pg
import Verif.Props.Project
/-
C61–C65: the program as a whole.
-/
set_option linter.unusedSimpArgs false
namespace Podo
namespace Prog
open Proj Change Diff
variable {σ : Type}

/-! ### The world of the examples -/

/-- A definition file with a table and an index, unique or not. -/
def indexDoc (unique : Bool) : Def.Yaml :=
  .map [some "schema public"] [.map [some "table t", some "index i"]
    [.map [some "column id"] [.str "int8!"],
     .map [some "unique", some "on t"] [.bool unique, .seq [.str "id"]]]]

/-- What it defines. -/
def indexDb (unique : Bool) : Database :=
  ⟨[("public", ⟨"public", [("t", .table ⟨"public", "t", [⟨"public", "t", "id", "int8", true, none⟩], []⟩),
    ("i", .index ⟨"public", "i", "t", unique, "btree", ["id"]⟩)], []⟩)]⟩

/-- The project `init` makes, in `/w`, with these version files and definition files. -/
def progFs (d : HDir) (files : AMap Def.Yaml) : Fs :=
  ⟨fun p => if p = ["w"] then some (some baseProject) else none, fun _ => d, fun _ => files⟩

theorem indexDoc_loads (u : Bool) (d : HDir) (ds : Proj.Path) :
    definitions (progFs d [("public.yaml", indexDoc u)]) ds = .ok (indexDb u) := by
  cases u <;> (show Def.loadDir [.file "public.yaml" (indexDoc _)] = _; decide +kernel)

/-- The settings of the project's only profile. -/
def progProfile : Profile :=
  ⟨"database", "postgresql://localhost:5432/postgres", ["w", "database", "history"],
    ["w", "database", "definitions"], "podo_meta"⟩

theorem progFs_profile (d : HDir) (files : AMap Def.Yaml) :
    ProfileAt demoEnv (progFs d files) ["w"] "database" progProfile := by
  refine ⟨⟨["w"], [progProfile]⟩, ?_, rfl⟩
  show loadProject demoEnv ["w"] (some baseProject) = _
  decide +kernel

/-- Podo at work on the servers of the examples. -/
def progSetting : Setting (List String) :=
  ⟨demoEnv, stackDb ["CREATE TABLE \"public\".\"t\" (\"id\" int8);",
    "CREATE INDEX \"i\" ON \"public\".\"t\" USING btree (id);"], readSchema, fun _ => none, "cannot connect",
    "20200202_000000"⟩

theorem podo_meta_reads : readSchema "podo_meta" = some "podo_meta" := by decide +kernel

/-! ### C61 -/

/-- C61, looking: whatever `status` finds and prints, it changes nothing. -/
theorem C61_status_only_looks {S : Setting σ} {w w' : World σ} {cwd : Proj.Path} {name : String}
    {out : List String} {e : Ending} (h : Ends S w cwd (.status name) w' out e) : w' = w := by
  obtain ⟨fuel, h⟩ := h
  simp only [run] at h
  repeat' split at h
  all_goals first | cases h; rfl | cases h

/-- C61, showing: on a project whose history podo has written and whose definitions load, `status`
succeeds, and prints the version of the database, the SQL of exactly the staged changes, the SQL of
exactly the changes `stage` would now stage, and "No changes." if there are none of either.  The version of
the database is the one `up` recorded last, if PostgreSQL reads the name of the metadata schema as
it is written. -/
theorem C61_status_shows {S : Setting σ} {w : World σ} {cwd : Proj.Path} {name : String}
    {q₀ q : Profile} (hq₀ : ProfileAt S.env w.fs cwd "database" q₀)
    (hq : ProfileAt S.env w.fs cwd name q) (hr : Reachable (w.fs.history q₀.history))
    {t : Database} (ht : definitions w.fs q₀.definitions = .ok t) :
    ∃ s st line, SnapshotOf (w.fs.history q₀.history) "stage" s ∧
      Stored (w.fs.history q₀.history) "stage" st ∧
      (∀ w' out e, Ends S w cwd (.status name) w' out e ↔ w' = w ∧ e = .success ∧
        out = line :: (section_ "Changes staged:" st.changes ++
          section_ "Changes not staged:" (compareDiff s t) ++
          if st.changes = [] ∧ compareDiff s t = [] then ["No changes."] else [])) ∧
      ∀ sv, S.Reads q.metadataSchema → w.servers q.databaseUrl = some sv →
        Pg.Reach S.B (sv.db q.metadataSchema) →
        (sv.metas q.metadataSchema = .absent →
          line = "On database version: database history is not initialized") ∧
        (sv.metas q.metadataSchema ≠ .absent →
          ∃ v, (sv.db q.metadataSchema).applied.getLast? = some v ∧
            line = "On database version: " ++ v.name) := by
  obtain ⟨k, s, st, hs, hst, _, hrun⟩ := status_reach (S := S) hr ht
  refine ⟨s, st, dbLine (tryCurrentVersion S w q.databaseUrl q.metadataSchema), hs, hst, ?_, ?_⟩
  · intro w' out e
    rw [← statusLines_eq (tryCurrentVersion S w q.databaseUrl q.metadataSchema)]
    constructor
    · rintro ⟨fuel, h⟩
      rw [run_status hq₀ hq] at h
      cases hx : statusIn S fuel w q₀.history q₀.definitions q.databaseUrl q.metadataSchema with
      | none => rw [hx] at h; cases h
      | some r =>
        rw [hx] at h
        have h1 := statusIn_mono (Nat.le_max_left fuel k) hx
        rw [hrun _ (Nat.le_max_right fuel k)] at h1
        cases h1
        cases h
        exact ⟨rfl, rfl, rfl⟩
    · rintro ⟨rfl, rfl, rfl⟩
      exact ⟨k, by rw [run_status hq₀ hq, hrun k (Nat.le_refl _)]; rfl⟩
  · intro sv hi hsv hdb
    rw [tryCurrentVersion_self hi hsv]
    constructor
    · intro hm; rw [hm]; rfl
    · intro hm
      obtain ⟨v, h1, h2⟩ := current_of_reach S hdb hm
      exact ⟨v, h1, by rw [show currentVersion S (sv.metas q.metadataSchema) = _ from h2]; rfl⟩

/-- C61 (partial), what "No changes." says: nothing is staged, and the definitions have the content of
the stage, where of an index only its name and key expressions count.  Missing for the full property: the
rest of the indexes, see `C61_no_changes_false`. -/
theorem C61_no_changes_partial {S : Setting σ} {w w' : World σ} {cwd : Proj.Path} {name : String}
    {q₀ q : Profile} (hq₀ : ProfileAt S.env w.fs cwd "database" q₀)
    (hq : ProfileAt S.env w.fs cwd name q) (hr : Reachable (w.fs.history q₀.history))
    {t : Database} (ht : definitions w.fs q₀.definitions = .ok t) {s : Database} {st : Version}
    (hs : SnapshotOf (w.fs.history q₀.history) "stage" s)
    (hst : Stored (w.fs.history q₀.history) "stage" st) {out : List String} {e : Ending}
    (h : Ends S w cwd (.status name) w' out e) :
    "No changes." ∈ out ↔ st.changes = [] ∧ s.content.keyOnly = t.content.keyOnly := by
  obtain ⟨k, s', st', hs', hst', hwf, hrun⟩ := status_reach (S := S) hr ht
  cases hs.unique hs'
  cases hst.unique hst'
  obtain ⟨fuel, h⟩ := h
  rw [run_status hq₀ hq] at h
  cases hx : statusIn S fuel w q₀.history q₀.definitions q.databaseUrl q.metadataSchema with
  | none => rw [hx] at h; cases h
  | some r =>
    rw [hx] at h
    have h1 := statusIn_mono (Nat.le_max_left fuel k) hx
    rw [hrun _ (Nat.le_max_right fuel k)] at h1
    cases h1
    cases h
    rw [no_changes_mem, C03_empty_diff_iff_partial hwf (definitions_wf ht)]

/-- The history of the witness: the index that is not unique, staged and made. -/
def indexDir : HDir :=
  (runCommands 9 [.stage (.ok (indexDb false)), .make "1" none] initDir).getD []

theorem indexDir_reachable : Reachable indexDir := by
  have h1 : Reachable ((runCommands 9 [.stage (.ok (indexDb false))] initDir).getD []) :=
    .step (fuel := 9) (c := .stage (.ok (indexDb false))) (ok := true) .init
      (by intro _ _ h; cases h) rfl
  exact .step (fuel := 9) (c := .make "1" none) (ok := true) h1
    (by intro _ _ h; cases h; exact ⟨rfl, noYaml (by decide)⟩) rfl

/-- The full C61 is false: the definitions make an index unique, which is neither staged nor made, and
`status` says that there are no changes. -/
theorem C61_no_changes_false :
    ∃ (S : Setting (List String)) (w : World (List String)) (cwd : Proj.Path) (q : Profile)
      (t s : Database) (out : List String),
      ProfileAt S.env w.fs cwd "database" q ∧ Reachable (w.fs.history q.history) ∧
      definitions w.fs q.definitions = .ok t ∧ SnapshotOf (w.fs.history q.history) "stage" s ∧
      Ends S w cwd (.status "database") w out .success ∧ "No changes." ∈ out ∧
      s.content ≠ t.content := by
  let w : World (List String) := ⟨progFs indexDir [("public.yaml", indexDoc true)], fun _ => none⟩
  have hq : ProfileAt progSetting.env w.fs ["w"] "database" progProfile := progFs_profile _ _
  have hr : Reachable (w.fs.history progProfile.history) := indexDir_reachable
  have ht : definitions w.fs progProfile.definitions = .ok (indexDb true) := indexDoc_loads true indexDir progProfile.definitions
  obtain ⟨s, st, line, hs, hst, hrun, _⟩ := C61_status_shows (S := progSetting) hq hq hr ht
  have hs' : SnapshotOf indexDir "stage" (indexDb false) := ⟨9, rfl⟩
  have hst' : Stored indexDir "stage" (Version.newStage "1-auto") := rfl
  cases hs.unique hs'
  cases hst.unique hst'
  refine ⟨progSetting, w, ["w"], progProfile, _, _, _, hq, hr, ht, hs,
    (hrun _ _ _).2 ⟨rfl, rfl, rfl⟩, ?_, ?_⟩
  · rw [if_pos ⟨rfl, rfl⟩]
    exact List.mem_cons_of_mem _ List.mem_cons_self
  · intro h
    have h3 := congrArg (fun C => Content.objAt C (.relation "public" "i")) h
    cases h3

example : ProfileAt progSetting.env (progFs indexDir [("public.yaml", indexDoc true)]) ["w"] "database"
    progProfile ∧ Reachable indexDir ∧ Stored indexDir "stage" (Version.newStage "1-auto") ∧
    SnapshotOf indexDir "stage" (indexDb false) :=
  ⟨progFs_profile _ _, indexDir_reachable, rfl, ⟨9, rfl⟩⟩

/-! ### C62 -/

/-- C62 (partial), the exit status: a command that ends well exits with zero, one that panics with
another number, and one that exits with another number than zero has changed neither the files nor, as far as anybody can see, the databases.  Missing for
the full property: that a command that fails exits with another number than zero, which is false. -/
theorem C62_exit_status_partial {S : Setting σ} {w w' : World σ} {cwd : Proj.Path} {a : Args}
    {out : List String} {e : Ending} (h : Ends S w cwd a w' out e) :
    (e = .success → e.code = 0) ∧ (e = .panic → e.code ≠ 0) ∧
    (e.code ≠ 0 → w'.fs = w.fs ∧ SameServers w w') := by
  refine ⟨fun h => by rw [h]; rfl, fun h => by rw [h]; simp [Ending.code], fun hc => ?_⟩
  have he : e = .panic := by cases e <;> simp [Ending.code] at hc ⊢
  subst he
  obtain ⟨fuel, h⟩ := h
  exact panic_changes_nothing h

/-- C62, and all failures leave the databases as they were, for anybody to see. -/
theorem C62_failure_keeps_databases {S : Setting σ} {w w' : World σ} {cwd : Proj.Path} {a : Args}
    {out : List String} {e : Ending} (h : Ends S w cwd a w' out e) (he : e ≠ .success) :
    SameServers w w' := by
  obtain ⟨fuel, h⟩ := h
  exact failure_same_servers h he

/-- The full C62 is false, for every command that works on a profile: outside a project it fails, changes
nothing, and exits with zero. -/
theorem C62_failures_exit_zero_false (S : Setting σ) {w : World σ} {cwd : Proj.Path}
    (h : ∀ d, Above d cwd → w.fs.config d = none) {a : Args} (ha : a.profile? ≠ none)
    (hs : ∀ p, a ≠ .sync p) :
    ∃ e, Ends S w cwd a w [] e ∧ e ≠ .success ∧ e.code = 0 := by
  have e0 : discover S.env w.fs cwd = .error (.projectNotFound []) := by
    refine (discoverUp_none cwd.reverse).2 ?_
    rw [List.reverse_reverse]; exact h
  refine ⟨.error, ⟨0, ?_⟩, by simp, rfl⟩
  cases a with
  | init => exact absurd rfl ha
  | clone => exact absurd rfl ha
  | print => exact absurd rfl ha
  | sync p => exact absurd rfl (hs p)
  | _ => simp only [run, e0]

/-- A directory outside of the project. -/
example : ∀ d, Above d ["v"] → (progFs indexDir []).config d = none := by
  intro d hd
  have : d ≠ ["w"] := by
    rintro rfl
    exact absurd hd (by unfold Above; decide)
  simp [progFs, this]

/-! ### C63 -/

/-- Making the stage into a version and applying it to a database on the version below. -/
theorem make_then_up {B : Pg.Behaviour σ} {db : Pg.DB σ} (hdb : Pg.Reach B db) {d : HDir}
    (hr : Reachable d) {cur : Version} (hcur : db.applied.getLast? = some cur) (hop : Opens d cur.name)
    {stamp : String} {label : Option String} {n : String} (hn : n = stamp ++ "-" ++ label.getD "auto")
    (hf : FreshName d n) (hsl : '/' ∉ n.toList) {st : Version} (hst : Stored d "stage" st)
    (hne : st.changes ≠ [] ∨ st.up ≠ [] ∨ st.down ≠ []) {y : σ} (hup : Pg.Script B db.data st.up y)
    (hcy : B.commits y = true) (hrec : Pg.Recordable B db [{ st with name := n }]) :
    ∃ d' fuel db', Runs (.make stamp label) d d' true ∧
      Pg.up B fuel d' none db = some (db', .ok) ∧ db'.data = y ∧
      db'.applied = db.applied ++ [{ st with name := n }] := by
  subst hn
  change FreshName d (madeName stamp label) at hf
  change '/' ∉ (madeName stamp label).toList at hsl
  change Pg.Recordable B _ [{ st with name := madeName stamp label }] at hrec
  show ∃ d' fuel db', Runs (.make stamp label) d d' true ∧
      Pg.up B fuel d' none db = some (db', .ok) ∧
      db'.data = y ∧ db'.applied = db.applied ++ [{ st with name := madeName stamp label }]
  obtain ⟨vs, st₀, s, hh, hreco⟩ := hr.sound
  cases hst.unique hh.stored_stage
  obtain ⟨d', hd', hh'⟩ := hh.make hf hsl
  obtain ⟨k, hplan⟩ := hh.makePlan (Version.isEmpty_false hne) stamp label
  obtain ⟨nm, _, hfrom⟩ := hh'.fromDir
  have hcv : (((vs ++ [{ st with name := madeName stamp label }]).map Version.name).getLast?).getD
      "init" = madeName stamp label := by simp
  rw [hcv] at hfrom
  have hprev : st.previous = some cur.name := by
    obtain ⟨nm₀, _, hfrom₀⟩ := hh.fromDir
    obtain ⟨f, nm₁, h1⟩ := hop
    have h2 := fromDir_mono (Nat.le_max_left f (vs.length + 2)) h1
    rw [hfrom₀ _ (by omega)] at h2
    simp only [Option.some.injEq, Except.ok.injEq, HDir.Opened.mk.injEq] at h2
    rw [← h2.2]
    exact hh.prev
  have hsm : Stored d' (madeName stamp label) { st with name := madeName stamp label } :=
    hh'.stored (v := { st with name := madeName stamp label }) (by simp)
  have hsc : ∃ v, Stored d' cur.name v := by
    have hl := hh.linked
    rw [show Version.newInit :: (vs ++ [st]) = (Version.newInit :: vs) ++ st :: [] by simp] at hl
    have hp := hl.prev_last
    rw [hprev] at hp
    cases hg : (Version.newInit :: vs).getLast? with
    | none => simp at hg
    | some w =>
      rw [hg] at hp
      simp only [Option.map_some, Option.some_or, Option.some.injEq, Option.or_none] at hp
      have hm : w ∈ Version.newInit :: vs := List.mem_of_getLast? hg
      rw [hp]
      refine ⟨w, hh'.stored (v := w) ?_⟩
      rcases List.mem_cons.1 hm with rfl | hm
      · simp
      · simp [hm]
  obtain ⟨cv, hscv⟩ := hsc
  have hpath : VersionPath d' cur.name (madeName stamp label)
      ([{ st with name := madeName stamp label }].map Version.name) :=
    .later (l := []) (.here hscv) hsm hprev
  obtain ⟨fuel, db', h1, h2, h3⟩ := C31_up_succeeds hdb hh'.namedAfterVersion
    (target := none) ⟨_, nm, hfrom _ (Nat.lt_succ_self _)⟩ rfl hcur hpath
    (by
      simp only [List.map_cons, List.map_nil, List.mem_cons, List.not_mem_nil, or_false]
      intro he
      have hfr := hrec.fresh
      rw [List.map_append, List.nodup_append] at hfr
      exact hfr.2.2 cur.name (List.mem_map_of_mem (List.mem_of_getLast? hcur)) _ (by simp) he)
    (by
      intro w hw
      simp only [List.mem_cons, List.not_mem_nil, or_false] at hw
      subst hw; exact hsm)
    (s' := y) (by simpa using hup) hcy hrec
  exact ⟨d', fuel, db', runs_of_plan ⟨k, hplan⟩ hd', h1, h2, h3⟩

/-- C63 (partial), the whole way.  In a project podo has written, with a database on the current version
and nothing wrong with the new name, the SQL and the version table: when `stage` has succeeded and
something is staged, `make` and then `up` succeed, the database has run exactly the staged SQL and is on
the new version, and `status` then says so; and it says "No changes." and nothing else exactly when every
owned sequence of the definitions was staged already, unchanged.  Missing for the full property: other
owned sequences (C04), for which `status` goes on to show changes. -/
theorem C63_workflow_partial {S : Setting σ} {w w₁ : World σ} {cwd : Proj.Path} {q : Profile}
    (hq : ProfileAt S.env w.fs cwd "database" q) (hr : Reachable (w.fs.history q.history))
    {t s : Database} (ht : definitions w.fs q.definitions = .ok t)
    (hs : SnapshotOf (w.fs.history q.history) "stage" s)
    (hi : S.Reads q.metadataSchema) {sv : Server σ} (hsv : w.servers q.databaseUrl = some sv)
    (hdb : Pg.Reach S.B (sv.db q.metadataSchema)) {cur : Version}
    (hcur : (sv.db q.metadataSchema).applied.getLast? = some cur)
    (hop : Opens (w.fs.history q.history) cur.name)
    {label : Option String} {n : String} (hn : n = S.now ++ "-" ++ label.getD "auto")
    (hf : FreshName (w.fs.history q.history) n) (hsl : '/' ∉ n.toList) {o₁ : List String}
    (h₁ : Ends S w cwd (.stage "database") w₁ o₁ .success) {st : Version}
    (hst : Stored (w₁.fs.history q.history) "stage" st) (hne : st.changes ≠ []) {y : σ}
    (hup : Pg.Script S.B sv.data st.up y) (hcy : S.B.commits y = true)
    (hrec : Pg.Recordable S.B (sv.db q.metadataSchema) [{ st with name := n }]) :
    ∃ w₂ w₃ o₂ o₃ sv₃ out, Ends S w₁ cwd (.make "database" label) w₂ o₂ .success ∧
      Ends S w₂ cwd (.up "database" none) w₃ o₃ .success ∧
      w₃.servers q.databaseUrl = some sv₃ ∧ sv₃.data = y ∧
      (sv₃.db q.metadataSchema).applied =
        (sv.db q.metadataSchema).applied ++ [{ st with name := n }] ∧
      Ends S w₃ cwd (.status "database") w₃ out .success ∧
      out.head? = some ("On database version: " ++ n) ∧
      (out = ["On database version: " ++ n, "No changes."] ↔
        OwnedSequencesUnchanged s.content t.content) := by
  -- stage
  obtain ⟨f₁, h₁⟩ := h₁
  rw [run_stage hq, ht] at h₁
  obtain ⟨d₁, he₁, rfl⟩ := runHist_success h₁
  have htwf : t.WF := definitions_wf ht
  obtain ⟨s₀, st₀, hs₀, hst₀, hswf, hiff, hall⟩ := C57_stage_reaches_definitions_partial hr htwf
  cases hs.unique hs₀
  obtain ⟨s₁, st₁, hs₁, hst₁, ha₁, hch₁, hpr₁, hfiles₁, _⟩ := hall d₁ ⟨f₁, he₁⟩
  have hg₁ : update w.fs.history q.history d₁ q.history = d₁ := update_self _ _ _
  dsimp only at hst
  rw [hg₁] at hst
  cases hst.unique hst₁
  have hr₁ : Reachable d₁ := .step hr (by intro _ _ h; cases h) he₁
  have hnstage : n ++ ".yaml" ≠ "stage.yaml" := by
    intro h
    have := hf.1
    rw [h] at this
    have h2 : (w.fs.history q.history).get? "stage.yaml" = _ := hst₀
    rw [this] at h2
    cases h2
  have hf₁ : FreshName d₁ n := ⟨by rw [hfiles₁ _ hnstage]; exact hf.1, hf.2⟩
  have hop₁ : Opens d₁ cur.name := by
    obtain ⟨vs, st', sx, hh, hreco⟩ := hr.sound
    rcases plan_stage_history hh hreco he₁ with ⟨st'', hh'⟩
    obtain ⟨nm, _, h⟩ := hh.fromDir
    obtain ⟨nm', _, h'⟩ := hh'.fromDir
    obtain ⟨f, nm₁, h1⟩ := hop
    have h2 := fromDir_mono (Nat.le_max_left f (vs.length + 2)) h1
    rw [h _ (by omega)] at h2
    simp only [Option.some.injEq, Except.ok.injEq, HDir.Opened.mk.injEq] at h2
    rw [← h2.2]
    exact ⟨_, nm', h' (vs.length + 2) (by omega)⟩
  -- make and up
  obtain ⟨d₂, f₂, db₃, hrun₂, hup₂, hdata, happ⟩ := make_then_up hdb hr₁ hcur hop₁ hn hf₁ hsl hst
    (.inl hne) hup hcy hrec
  obtain ⟨d₂', hrun₂', hsm, hss, _, s₂, hss₁, hss₂, _⟩ :=
    C23_make_keeps_snapshot_partial hr₁ hn hf₁ hsl hst (.inl hne)
  cases (hrun₂.unique hrun₂').1
  cases hs₁.unique hss₁
  obtain ⟨k₂, he₂⟩ := hrun₂
  have hr₂ : Reachable d₂ := .step hr₁ (by
    intro a b h; cases h; rw [← show n = madeName S.now label from hn]; exact hf₁) he₂
  let w₁ : World σ := ⟨{ w.fs with history := update w.fs.history q.history d₁ }, w.servers⟩
  have hq₁ : ProfileAt S.env w₁.fs cwd "database" q := (profileAt_config rfl).2 hq
  obtain ⟨w₂, o₂, hw₂, rfl, hfs₂, hsv₂⟩ := runHist_ok (w := w₁) (h := q.history) (c := .make S.now label)
    (fuel := k₂) (d := d₂) (by rw [show w₁.fs.history q.history = d₁ from hg₁]; exact he₂)
  have hq₂ : ProfileAt S.env w₂.fs cwd "database" q := (profileAt_config (by rw [hfs₂])).2 hq₁
  have hd₂ : w₂.fs.history q.history = d₂ := by rw [hfs₂]; exact update_self _ _ _
  have hsv₂' : w₂.servers q.databaseUrl = some sv := by rw [hsv₂]; exact hsv
  let w₃ : World σ := putServer w₂ q.databaseUrl q.metadataSchema sv db₃
  have hq₃ : ProfileAt S.env w₃.fs cwd "database" q := hq₂
  let sv₃ : Server σ := ⟨update sv.metas q.metadataSchema db₃.metaSchema, db₃.data⟩
  have hsv₃ : w₃.servers q.databaseUrl = some sv₃ := update_self _ _ _
  have hdb₃ : sv₃.db q.metadataSchema = db₃ := by
    show (⟨update sv.metas q.metadataSchema db₃.metaSchema q.metadataSchema, db₃.data⟩ : Pg.DB σ) = db₃
    rw [update_self]
  -- status
  have ht₃ : definitions w₃.fs q.definitions = .ok t := by
    rw [← ht]
    refine definitions_files ?_ _
    show w₂.fs.definitions = _
    rw [hfs₂]
  have hhist₃ : w₃.fs.history q.history = d₂ := hd₂
  obtain ⟨s', st', line, hs', hst', hstat, hline⟩ := C61_status_shows (S := S) hq₃ hq₃
    (by rw [hhist₃]; exact hr₂) ht₃
  rw [hhist₃] at hs' hst'
  cases hs'.unique hss₂
  cases hst'.unique hss
  have hreach₃ : Pg.Reach S.B (sv₃.db q.metadataSchema) := by
    rw [hdb₃]
    exact .up hdb hr₂.namedAfterVersion hup₂
  have hnot : sv₃.metas q.metadataSchema ≠ .absent := by
    intro h
    have h2 : (sv₃.db q.metadataSchema).metaSchema = .absent := h
    rw [hdb₃] at h2
    unfold Pg.DB.applied at happ
    rw [h2] at happ
    have := congrArg List.length happ
    cases hx : (sv.db q.metadataSchema).applied with
    | nil => rw [hx] at hcur; cases hcur
    | cons a l =>
      unfold Pg.DB.applied at hx
      rw [hx] at this
      simp at this
  obtain ⟨v, hv1, hv2⟩ := (hline sv₃ hi hsv₃ hreach₃).2 hnot
  have hvn : v.name = n := by
    rw [hdb₃, happ] at hv1
    simp at hv1
    rw [← hv1]
  rw [hvn] at hv2
  subst hv2
  refine ⟨w₂, w₃, _, Pg.upPrinted S.B f₂ d₂ none (sv.db q.metadataSchema), sv₃, _, ⟨k₂, by rw [run_make hq₁, hw₂]⟩, ⟨f₂, ?_⟩, hsv₃, hdata, by rw [hdb₃, happ],
    (hstat _ _ _).2 ⟨rfl, rfl, rfl⟩, rfl, ?_⟩
  · rw [run_up hq₂ hq₂ hi none hsv₂', hd₂, hup₂]
    rfl
  · have hnil : compareDiff s₁ t = [] ↔ OwnedSequencesUnchanged s.content t.content := by
      obtain ⟨d', hd', hc⟩ := diff_apply hswf htwf ((diff_apply_iff hswf htwf).1 ⟨s₁, ha₁⟩)
      rw [ha₁] at hd'; cases hd'
      rw [compareDiff_nil (applyAll_wf hswf ha₁) htwf, hc, reached_keyOnly_iff hswf htwf]
    rw [← hnil]
    constructor
    · intro h
      cases hc : compareDiff s₁ t with
      | nil => rfl
      | cons c cs =>
        exfalso
        rw [hc] at h
        injection h with _ h
        injection h with h
        exact absurd h (by decide)
    · intro h
      rw [h]
      rfl

/-- The world of the example: a new project, with a database podo has not seen. -/
def progWorld : World (List String) :=
  ⟨progFs initDir [("public.yaml", indexDoc false)], fun _ => some ⟨fun _ => .absent, []⟩⟩

/-- The stage of the example, once the definitions are staged. -/
def progStage : Version :=
  ⟨"stage", some "init",
    [.createTable "public" "t" [⟨"id", "int8", true, none⟩],
     .createIndex "public" "t" "i" false "btree" ["id"]],
    ["CREATE TABLE \"public\".\"t\" (\"id\" int8);",
     "CREATE INDEX \"i\" ON \"public\".\"t\" USING btree (id);"],
    ["DROP INDEX \"public\".\"i\";", "DROP TABLE \"public\".\"t\";"]⟩

/-- The version files of the example, once the definitions are staged. -/
def progStaged : HDir :=
  [("init.yaml", .file (some Version.newInit)), ("stage.yaml", .file (some progStage))]

/-- Staging works in the example. -/
theorem progWorld_staged : ∃ w₁ o₁, Ends progSetting progWorld ["w"] (.stage "database") w₁ o₁ .success ∧
    w₁.fs.history progProfile.history = progStaged := by
  have hq : ProfileAt progSetting.env progWorld.fs ["w"] "database" progProfile := progFs_profile _ _
  have ht : definitions progWorld.fs progProfile.definitions = .ok (indexDb false) :=
    indexDoc_loads false initDir progProfile.definitions
  have he : HistCmd.exec 9 (.stage (.ok (indexDb false))) (progWorld.fs.history progProfile.history) =
      some (progStaged, true) := rfl
  obtain ⟨w₁, o, h1, _, h2, _⟩ := runHist_ok he
  refine ⟨w₁, o, ⟨9, ?_⟩, ?_⟩
  rotate_left
  · rw [h2]; exact update_self progWorld.fs.history progProfile.history progStaged
  rw [run_stage hq, ht]
  exact h1

/-- C63 applies: staged, made, applied, and `status` has nothing left to show. -/
example : ∃ w₁ o₁ w₂ o₂ w₃ o₃, Ends progSetting progWorld ["w"] (.stage "database") w₁ o₁ .success ∧
    Ends progSetting w₁ ["w"] (.make "database" none) w₂ o₂ .success ∧
    Ends progSetting w₂ ["w"] (.up "database" none) w₃ o₃ .success ∧
    Ends progSetting w₃ ["w"] (.status "database") w₃
      ["On database version: 20200202_000000-auto", "No changes."] .success := by
  obtain ⟨w₁, o₁, h1, hd⟩ := progWorld_staged
  have hq : ProfileAt progSetting.env progWorld.fs ["w"] "database" progProfile := progFs_profile _ _
  have hrec : Pg.Recordable progSetting.B ((⟨fun _ => .absent, []⟩ : Server (List String)).db "podo_meta")
      [{ progStage with name := "20200202_000000-auto" }] := by
    refine ⟨?_, fun _ _ => rfl, by decide, fun t h => by (cases h), fun _ => ⟨rfl, rfl, by decide⟩,
      fun h => by (cases h)⟩
    intro v hv
    simp only [List.mem_singleton] at hv
    subst hv
    refine ⟨by decide, ?_⟩
    intro p hp
    cases hp
    decide
  obtain ⟨w₂, w₃, o₂, o₃, sv₃, out, h2, h3, _, _, _, h4, _, h5⟩ :=
    C63_workflow_partial (S := progSetting) (w := progWorld) (w₁ := w₁) hq (hi := podo_meta_reads) (hr := .init)
      (t := indexDb false) (s := ⟨[("public", Schema.new "public")]⟩) (indexDoc_loads false initDir progProfile.definitions) ⟨9, rfl⟩
      (sv := ⟨fun _ => .absent, []⟩) rfl (.new []) (cur := Version.newInit) rfl ⟨9, _, rfl⟩
      (label := none) (n := "20200202_000000-auto") rfl ⟨rfl, noYaml (by decide)⟩ (by decide) h1
      (st := progStage) (by rw [hd]; rfl) (by simp [progStage])
      (y := [progStage.up[1], progStage.up[0]]) (Pg.script_iff.2 rfl) rfl
      hrec
  refine ⟨w₁, o₁, w₂, o₂, w₃, o₃, h1, h2, h3, ?_⟩
  rw [h5.2 ?_] at h4
  · exact h4
  · rintro n r q ⟨sc, h6, h7⟩ _
    exfalso
    have e : (indexDb false).content n = if "public" = n then some (Schema.content ⟨"public",
        [("t", .table ⟨"public", "t", [⟨"public", "t", "id", "int8", true, none⟩], []⟩),
        ("i", .index ⟨"public", "i", "t", false, "btree", ["id"]⟩)], []⟩) else none := by
      show Option.map Schema.content (if "public" = n then _ else none) = _
      split <;> rfl
    rw [e] at h6
    split at h6
    · cases h6
      simp only [Schema.content, AMap.get?] at h7
      split at h7
      · cases h7
      · split at h7 <;> cases h7
    · cases h6

/-- A file that defines a table and a sequence owned by its column. -/
def ownedDoc : Def.Yaml :=
  .map [some "schema public"] [.map [some "table t", some "sequence q"]
    [.map [some "column id"] [.str "int8!"], .map [some "maxvalue", some "owned by t"] [.num (.integer 10), .str "id"]]]

def ownedDb : Database :=
  ⟨[("public", ⟨"public", [("t", .table ⟨"public", "t", [⟨"public", "t", "id", "int8", true, none⟩], []⟩),
    ("q", .sequence ⟨"public", "q", "int8", 1, 1, 10, 1, 1, false, some "t", some "id"⟩)],
    []⟩)]⟩

def ownedStage : Version :=
  ⟨"stage", some "init",
    [.createTable "public" "t" [⟨"id", "int8", true, none⟩],
     .createSequence "public" "q" "int8" 1 1 10 1 1 false],
    ["CREATE TABLE \"public\".\"t\" (\"id\" int8);",
     "CREATE SEQUENCE \"public\".\"q\" AS int8 INCREMENT BY 1 MINVALUE 1 MAXVALUE 10 START WITH 1 CACHE 1 NO CYCLE;"],
    ["DROP SEQUENCE \"public\".\"q\";", "DROP TABLE \"public\".\"t\";"]⟩

def ownedStaged : HDir :=
  [("init.yaml", .file (some Version.newInit)), ("stage.yaml", .file (some ownedStage))]

def ownedWorld : World (List String) :=
  ⟨progFs initDir [("public.yaml", ownedDoc)], fun _ => some ⟨fun _ => .absent, []⟩⟩

def ownedSetting : Setting (List String) :=
  ⟨demoEnv, stackDb ownedStage.up, readSchema, fun _ => none, "cannot connect", "20200202_000000"⟩

/-- The full C63 is false: the definitions of a table and a sequence owned by its column are staged, made
and applied, and then `status` still does not say that there are no changes. -/
theorem C63_owned_sequence_false : ∃ w₁ o₁ w₂ o₂ w₃ o₃ out,
    Ends ownedSetting ownedWorld ["w"] (.stage "database") w₁ o₁ .success ∧
    Ends ownedSetting w₁ ["w"] (.make "database" none) w₂ o₂ .success ∧
    Ends ownedSetting w₂ ["w"] (.up "database" none) w₃ o₃ .success ∧
    Ends ownedSetting w₃ ["w"] (.status "database") w₃ out .success ∧
    out ≠ ["On database version: 20200202_000000-auto", "No changes."] := by
  have hq : ProfileAt ownedSetting.env ownedWorld.fs ["w"] "database" progProfile := progFs_profile _ _
  have ht : definitions ownedWorld.fs progProfile.definitions = .ok ownedDb := by
    show Def.loadDir [.file "public.yaml" ownedDoc] = _
    decide +kernel
  obtain ⟨w₁, o₁, h1, hd⟩ : ∃ w₁ o₁, Ends ownedSetting ownedWorld ["w"] (.stage "database") w₁ o₁ .success ∧
      w₁.fs.history progProfile.history = ownedStaged := by
    have he : HistCmd.exec 9 (.stage (.ok ownedDb)) (ownedWorld.fs.history progProfile.history) =
        some (ownedStaged, true) := rfl
    obtain ⟨w₁, o, h1, _, h2, _⟩ := runHist_ok he
    refine ⟨w₁, o, ⟨9, ?_⟩, ?_⟩
    rotate_left
    · rw [h2]; exact update_self ownedWorld.fs.history progProfile.history ownedStaged
    rw [run_stage hq, ht]
    exact h1
  have hrec : Pg.Recordable ownedSetting.B ((⟨fun _ => .absent, []⟩ : Server (List String)).db "podo_meta")
      [{ ownedStage with name := "20200202_000000-auto" }] := by
    refine ⟨?_, fun _ _ => rfl, by decide, fun t h => by (cases h), fun _ => ⟨rfl, rfl, by decide⟩,
      fun h => by (cases h)⟩
    intro v hv
    simp only [List.mem_singleton] at hv
    subst hv
    refine ⟨by decide, ?_⟩
    intro p hp
    cases hp
    decide
  obtain ⟨w₂, w₃, o₂, o₃, sv₃, out, h2, h3, _, _, _, h4, _, h5⟩ :=
    C63_workflow_partial (S := ownedSetting) (w := ownedWorld) (w₁ := w₁) hq (hi := podo_meta_reads) (hr := .init)
      (t := ownedDb) (s := ⟨[("public", Schema.new "public")]⟩) ht ⟨9, rfl⟩
      (sv := ⟨fun _ => .absent, []⟩) rfl (.new []) (cur := Version.newInit) rfl ⟨9, _, rfl⟩
      (label := none) (n := "20200202_000000-auto") rfl ⟨rfl, noYaml (by decide)⟩ (by decide) h1
      (st := ownedStage) (by rw [hd]; rfl) (by simp [ownedStage])
      (y := [ownedStage.up[1], ownedStage.up[0]]) (Pg.script_iff.2 rfl) rfl
      hrec
  refine ⟨w₁, o₁, w₂, o₂, w₃, o₃, out, h1, h2, h3, h4, ?_⟩
  intro hout
  obtain ⟨sc, h6, h7⟩ := h5.1 hout "public" "q" _ ⟨_, rfl, rfl⟩ (.inl (by simp))
  cases h6
  cases h7

/-! ### C64 -/

/-- C64.  A command on a profile changes no configuration file and no definition file; it changes version
files only if it is `stage`, `reset` or `make`, and only in the history of the profile; it changes a
database only if it is `up` or `down`, only the one of the profile, and in it no metadata schema but the
one PostgreSQL reads in the name the profile gives. -/
theorem C64_only_the_profile {S : Setting σ} {w w' : World σ} {cwd : Proj.Path} {a : Args}
    {out : List String} {e : Ending} (h : Ends S w cwd a w' out e) (ha : a ≠ .init) :
    w'.fs.config = w.fs.config ∧ w'.fs.definitions = w.fs.definitions ∧
    (∀ d, w'.fs.history d ≠ w.fs.history d → a.WritesHistory ∧
      ∃ name q, a.profile? = some name ∧ ProfileAt S.env w.fs cwd name q ∧ d = q.history) ∧
    (∀ url, w'.servers url ≠ w.servers url → a.WritesDatabase ∧
      ∃ name q s s', a.profile? = some name ∧ ProfileAt S.env w.fs cwd name q ∧
        url = q.databaseUrl ∧ w.servers url = some s ∧ w'.servers url = some s' ∧
        ∀ ms, S.ident q.metadataSchema ≠ some ms → s'.metas ms = s.metas ms) := by
  obtain ⟨fuel, h⟩ := h
  exact frame h ha

theorem init_frame {S : Setting σ} {fuel : Nat} {w w' : World σ} {cwd : Proj.Path}
    {out : List String} {e : Ending} (h : run S fuel w cwd .init = some (w', out, e)) :
    w'.servers = w.servers ∧ (∀ d, d ≠ cwd → w'.fs.config d = w.fs.config d) ∧
    (∀ d, d ≠ cwd ++ ["database", "history"] → w'.fs.history d = w.fs.history d) ∧
    (∀ d, d ≠ cwd ++ ["database", "definitions"] → w'.fs.definitions d = w.fs.definitions d) := by
  obtain ⟨h1, h2, _⟩ := init_servers h
  refine ⟨h1, ?_⟩
  rw [h2]
  have el : loadProject S.env cwd (some baseProject) = .ok (initProject S.env cwd) := rfl
  have ehd : (initProject S.env cwd).historyDir DEFAULT_PROFILE =
      .ok (cwd ++ ["database", "history"]) := congrArg Except.ok (join_history S.env cwd)
  have edd : (initProject S.env cwd).definitionsDir DEFAULT_PROFILE =
      .ok (cwd ++ ["database", "definitions"]) := congrArg Except.ok (join_definitions S.env cwd)
  unfold Proj.init
  split
  · exact ⟨fun _ _ => rfl, fun _ _ => rfl, fun _ _ => rfl⟩
  · dsimp only
    rw [el]
    dsimp only
    rw [ehd, edd]
    dsimp only
    split
    · exact ⟨fun d hd => update_other _ _ hd, fun _ _ => rfl, fun _ _ => rfl⟩
    · split
      · exact ⟨fun d hd => update_other _ _ hd, fun d hd => update_other _ _ hd, fun _ _ => rfl⟩
      · split
        · exact ⟨fun d hd => update_other _ _ hd, fun d hd => update_other _ _ hd, fun _ _ => rfl⟩
        · exact ⟨fun d hd => update_other _ _ hd, fun d hd => update_other _ _ hd,
            fun d hd => update_other _ _ hd⟩

/-- C64 for `init`: it works in the current directory only. -/
theorem C64_init_frame {S : Setting σ} {w w' : World σ} {cwd : Proj.Path}
    {out : List String} {e : Ending} (h : Ends S w cwd .init w' out e) :
    w'.servers = w.servers ∧ (∀ d, d ≠ cwd → w'.fs.config d = w.fs.config d) ∧
    (∀ d, d ≠ cwd ++ ["database", "history"] → w'.fs.history d = w.fs.history d) ∧
    (∀ d, d ≠ cwd ++ ["database", "definitions"] → w'.fs.definitions d = w.fs.definitions d) := by
  obtain ⟨fuel, h⟩ := h
  exact init_frame h

/-- C64 on the example: `stage` does change the history of the profile. -/
example : ∃ w₁ o₁, Ends progSetting progWorld ["w"] (.stage "database") w₁ o₁ .success ∧
    ProfileAt progSetting.env progWorld.fs ["w"] "database" progProfile ∧
    w₁.fs.history progProfile.history ≠ progWorld.fs.history progProfile.history := by
  obtain ⟨w₁, o₁, h1, hd⟩ := progWorld_staged
  refine ⟨w₁, o₁, h1, progFs_profile _ _, ?_⟩
  rw [hd]
  intro h
  have h := congrArg (fun d : HDir => d.get? "stage.yaml") h
  have e : progStaged.get? "stage.yaml" = some (.file (some progStage)) := rfl
  have e' : (progWorld.fs.history progProfile.history).get? "stage.yaml" =
    some (.file (some (Version.newStage "init"))) := rfl
  rw [e, e'] at h
  cases h

/-! ### C65 -/

/-- C65 (partial), exactly when `stage` panics instead of reporting an error: when the definitions clash
or reading them panics, or when they load and the changes cannot be applied (C02).  Errors in the text of
the definitions are reported.  Missing for the full property: those cases, see
`C65_clash_panics_false`. -/
theorem C65_stage_panics_iff_partial {S : Setting σ} {w : World σ} {cwd : Proj.Path} {name : String}
    {q : Profile} (hq : ProfileAt S.env w.fs cwd name q) (hr : Reachable (w.fs.history q.history)) :
    (∃ w' out, Ends S w cwd (.stage name) w' out .panic) ↔
      (∃ e, definitions w.fs q.definitions = .error e ∧ ∀ m, e ≠ .parse m) ∨
      ∃ t s, definitions w.fs q.definitions = .ok t ∧ SnapshotOf (w.fs.history q.history) "stage" s ∧
        ¬ ∃ d, applyAll (compareDiff s t) s = .ok d := by
  obtain ⟨k, s, st, hs, hst, hwf, hplan⟩ := stagePlan_reach hr
  have key : (∃ w' out, Ends S w cwd (.stage name) w' out .panic) ↔
      ∃ f, stagePlan k (definitions w.fs q.definitions) (w.fs.history q.history) = some (.error f) ∧
        CmdFail.ending f = .panic := by
    constructor
    · rintro ⟨w', out, fuel, h⟩
      rw [run_stage hq] at h
      rcases runHist_cases h with ⟨f, hf, _, he⟩ | ⟨d, ok, _, _, he⟩
      · have h1 := plan_mono (Nat.le_max_left fuel k) hf
        change stagePlan _ _ _ = _ at h1
        rw [hplan _ (Nat.le_max_right fuel k)] at h1
        exact ⟨f, by rw [hplan k (Nat.le_refl _)]; exact h1, he.symm⟩
      · exact absurd he.symm (ending_ite ok)
    · rintro ⟨f, hf, he⟩
      refine ⟨w, HistCmd.printed k (.stage (definitions w.fs q.definitions)) (w.fs.history q.history), k, ?_⟩
      rw [run_stage hq]
      unfold runHist
      rw [show HistCmd.plan k (.stage (definitions w.fs q.definitions)) (w.fs.history q.history) = _
        from hf]
      dsimp only
      rw [he]
  rw [key, hplan k (Nat.le_refl _)]
  cases hd : definitions w.fs q.definitions with
  | error e =>
    dsimp only
    constructor
    · rintro ⟨f, h1, h2⟩
      cases h1
      refine .inl ⟨e, rfl, ?_⟩
      rintro m rfl
      cases h2
    · rintro (⟨e', h1, h2⟩ | ⟨t, _, h1, _⟩)
      · cases h1
        refine ⟨_, rfl, ?_⟩
        cases e with
        | parse m => exact absurd rfl (h2 m)
        | snapshot e => rfl
        | panic => rfl
      · cases h1
  | ok t =>
    dsimp only
    have ht : t.WF := definitions_wf hd
    constructor
    · rintro ⟨f, h1, h2⟩
      refine .inr ⟨t, s, rfl, hs, ?_⟩
      rintro ⟨d, hda⟩
      obtain ⟨f', r, dn, hdone⟩ := (C09_stage_succeeds_iff hwf ht).2 ⟨d, hda⟩
      obtain ⟨v', hv⟩ := stageVersion_of_done hdone st
      rw [hv] at h1
      cases h1
    · rintro (⟨e', h1, _⟩ | ⟨t', s', h1, h2, h3⟩)
      · cases h1
      · cases h1
        cases hs.unique h2
        cases hv : stageVersion (compareDiff s t) s st with
        | error e => exact ⟨e, rfl, stageVersion_panics _ _ _ _ hv⟩
        | ok v' =>
          obtain ⟨rs, s', h1, _⟩ := stageVersion_ok hv
          exact absurd ⟨s', h1.applyAll⟩ h3

/-- The full C65 is false: two definition files that define the same table, say, make `stage` panic, in
every project podo has written. -/
theorem C65_clash_panics_false {S : Setting σ} {w : World σ} {cwd : Proj.Path} {name : String}
    {q : Profile} (hq : ProfileAt S.env w.fs cwd name q) (hr : Reachable (w.fs.history q.history))
    {e : SnapshotError} (hd : definitions w.fs q.definitions = .error (.snapshot e)) :
    ∃ w' out, Ends S w cwd (.stage name) w' out .panic :=
  (C65_stage_panics_iff_partial hq hr).2 (.inl ⟨_, hd, by simp⟩)

/-- Such a project. -/
example : ∃ e, definitions (progFs indexDir [("a.yaml", indexDoc true), ("b.yaml", indexDoc true)])
    progProfile.definitions = .error (.snapshot e) := by
  refine ⟨.objectAlreadyExists ["public", "t"] "relation", ?_⟩
  decide +kernel

/-- C65 (partial), the other commands: `reset` and `make` never panic, on whatever history. -/
theorem C65_reset_make_report {S : Setting σ} {w w' : World σ} {cwd : Proj.Path} {a : Args}
    (ha : (∃ p, a = .reset p) ∨ ∃ p l, a = .make p l) {out : List String} {e : Ending}
    (h : Ends S w cwd a w' out e) : e ≠ .panic := by
  rintro rfl
  obtain ⟨fuel, h⟩ := h
  have hc : ∀ c : HistCmd, c = .reset ∨ (∃ l, c = .make S.now l) → ∀ hd w' out,
      runHist fuel w hd c ≠ some (w', out, .panic) := by
    intro c hc hd w' out h
    rcases runHist_cases h with ⟨f, hf, _, he⟩ | ⟨d, ok, _, _, he⟩
    · have : ∃ x, f = .error (.fs x) := by
        rcases hc with rfl | ⟨l, rfl⟩
        · simp only [HistCmd.plan, resetPlan] at hf
          repeat' split at hf
          all_goals first | cases hf; exact ⟨_, rfl⟩ | cases hf
        · simp only [HistCmd.plan, makePlan] at hf
          repeat' split at hf
          all_goals first | cases hf; exact ⟨_, rfl⟩ | cases hf
      obtain ⟨x, rfl⟩ := this
      cases he
    · exact absurd he.symm (ending_ite ok)
  rcases ha with ⟨p, rfl⟩ | ⟨p, l, rfl⟩
  · simp only [run] at h
    repeat' split at h
    all_goals first | cases h | exact hc _ (.inl rfl) _ _ _ h
  · simp only [run] at h
    repeat' split at h
    all_goals first | cases h | exact hc _ (.inr ⟨_, rfl⟩) _ _ _ h

end Prog
end Podo
