import Verif.Proofs.Initial
/-
C96: `init` that is interrupted.
-/
namespace Podo
namespace Prog
open Proj
variable {σ : Type}

/-- C96.  In a directory that is in no project, let `init` be killed at any point.  Deleting the configuration file, if
there is one, and running `init` again gives exactly what an `init` that is not interrupted gives; and it need
not be deleted if it is not there or cannot be read. -/
theorem C96_init_again {env : Env} {fs fs' : Fs} {cwd : Proj.Path} (hnew : ∀ d, Above d cwd → fs.config d = none)
    (hd : (fs.history (cwd ++ ["database", "history"])).NodupKeys) (h : InitDies env fs cwd fs') :
    Proj.init env (fs'.withoutConfig cwd) cwd = Proj.init env fs cwd ∧
    ((∀ y, fs'.config cwd ≠ some (some y)) → Proj.init env fs' cwd = Proj.init env fs cwd) := by
  have hr := h.redone hd
  have hcfg : ∀ d, d ≠ cwd → fs'.config d = fs.config d := by
    intro d hne
    have := congrFun (hr.config none) d
    rwa [update_other _ _ hne, update_other _ _ hne] at this
  obtain ⟨e, he⟩ := discover_fails (env := env) (fs := fs) (cwd := cwd) (fun d h _ => hnew d h)
    (by rw [hnew cwd (List.prefix_refl _)]; simp)
  constructor
  · obtain ⟨e', he'⟩ := discover_fails (env := env) (fs := fs'.withoutConfig cwd) (cwd := cwd)
      (fun d h hne => by
        show update fs'.config cwd none d = none
        rw [update_other _ _ hne, hcfg d hne]; exact hnew d h)
      (by
        intro y
        show update fs'.config cwd none cwd ≠ _
        rw [update_self]; simp)
    exact hr.withoutConfig.init he he'
  · intro hy
    obtain ⟨e', he'⟩ := discover_fails (env := env) (fs := fs') (cwd := cwd)
      (fun d h hne => by rw [hcfg d hne]; exact hnew d h) hy
    exact hr.init he he'

/-- C96 does not hold without deleting the configuration file: in every new directory `init` may be killed when there
is a project, but no version file; however often it is run then, it says that the project exists and does
nothing. -/
theorem C96_not_deleted_false (env : Env) (fs : Fs) {cwd : Proj.Path} (hnew : ∀ d, Above d cwd → fs.config d = none)
    (hh : fs.history (cwd ++ ["database", "history"]) = []) :
    ∃ fs', InitDies env fs cwd fs' ∧ fs'.history (cwd ++ ["database", "history"]) = [] ∧
      fs'.definitions = fs.definitions ∧ Proj.init env fs' cwd = (fs', .exists_ cwd) := by
  obtain ⟨e, he⟩ := discover_fails (env := env) (fs := fs) (cwd := cwd) (fun d h _ => hnew d h)
    (by rw [hnew cwd (List.prefix_refl _)]; simp)
  refine ⟨_, .history he (.before _ _), ?_, rfl, ?_⟩
  · show update fs.history _ _ _ = _
    rw [update_self, hh]
  · have hp := discover_here (env := env) (fs := { fs with
        config := update fs.config cwd (some (some baseProject)),
        history := update fs.history (cwd ++ ["database", "history"]) (fs.history (cwd ++ ["database", "history"])) })
      (cwd := cwd) (y := baseProject) (update_self _ _ _)
    unfold Proj.init
    rw [hp]
    rfl

theorem expand_url (env : Env) (c : Proj.Path) (m : String) :
    loadProfile env c "database"
      ⟨"postgresql://localhost:5432/postgres", "database/history", "database/definitions", m⟩ =
    ⟨"database", "postgresql://localhost:5432/postgres", c ++ ["database", "history"],
      c ++ ["database", "definitions"], m⟩ := by
  unfold loadProfile
  dsimp only
  rw [join_history, join_definitions, expand_plain env _ (by decide)]
  rw [String.ofList_toList]

/-- The project that is there after `init` has died. -/
theorem dead_project {env : Env} {fs fs' : Fs} {cwd : Proj.Path} (hnew : ∀ d, Above d cwd → fs.config d = none)
    (hd : (fs.history (cwd ++ ["database", "history"])).NodupKeys) (h : InitDies env fs cwd fs') :
    (∃ e, discover env fs' cwd = .error e) ∨ ∃ m, discover env fs' cwd =
      .ok ⟨cwd, [⟨"database", "postgresql://localhost:5432/postgres", cwd ++ ["database", "history"],
        cwd ++ ["database", "definitions"], m⟩]⟩ := by
  have hr := h.redone hd
  have hcfg : ∀ d, d ≠ cwd → fs'.config d = fs.config d := by
    intro d hne
    have := congrFun (hr.config none) d
    rwa [update_other _ _ hne, update_other _ _ hne] at this
  by_cases hy : ∀ y, fs'.config cwd ≠ some (some y)
  · exact .inl (discover_fails (env := env) (fs := fs') (cwd := cwd)
      (fun d h hne => by rw [hcfg d hne]; exact hnew d h) hy)
  · right
    obtain ⟨y, hy⟩ := Classical.not_forall.1 hy
    have hy : fs'.config cwd = some (some y) := Classical.not_not.1 hy
    have key : ∃ m, y = [("database",
        ⟨"postgresql://localhost:5432/postgres", "database/history", "database/definitions", m⟩)] := by
      cases h with
      | before => rw [hnew cwd (List.prefix_refl _)] at hy; cases hy
      | config h0 hc =>
        dsimp only at hy; rw [update_self] at hy
        rcases hc with rfl | ⟨z, rfl, m, _, rfl⟩
        · cases hy
        · cases hy; exact ⟨m, rfl⟩
      | history h0 hc =>
        dsimp only at hy; rw [update_self] at hy
        cases hy; exact ⟨_, rfl⟩
      | definitions h0 hs =>
        dsimp only at hy; rw [update_self] at hy
        cases hy; exact ⟨_, rfl⟩
      | after =>
        obtain ⟨e, he⟩ := discover_fails (env := env) (fs := fs) (cwd := cwd) (fun d h _ => hnew d h)
          (by rw [hnew cwd (List.prefix_refl _)]; simp)
        rw [init_run he] at hy
        split at hy
        · dsimp only at hy; rw [update_self] at hy
          cases hy; exact ⟨_, rfl⟩
        · dsimp only at hy; rw [update_self] at hy
          cases hy; exact ⟨_, rfl⟩
    obtain ⟨m, rfl⟩ := key
    refine ⟨m, ?_⟩
    rw [discover_here hy]
    show Except.ok _ = _
    simp only [List.map, expand_url]

/-- The files that are there while the stage is not complete. -/
theorem dead_half {env : Env} {fs fs' : Fs} {cwd : Proj.Path} (hnew : ∀ d, Above d cwd → fs.config d = none)
    (hh : fs.history (cwd ++ ["database", "history"]) = [])
    (hdef : fs.definitions (cwd ++ ["database", "definitions"]) = []) (h : InitDies env fs cwd fs')
    (hst : ∀ v, ¬ Stored (fs'.history (cwd ++ ["database", "history"])) "stage" v) :
    Half (fs'.history (cwd ++ ["database", "history"])) ∧ fs'.definitions (cwd ++ ["database", "definitions"]) = [] := by
  have hdone : ∀ d, d = initDir → ¬ ∀ v, ¬ Stored d "stage" v := by
    rintro d rfl hx
    exact hx (Version.newStage "init") (by unfold Stored; decide +kernel)
  have hi : HDir.saveAll [] [Version.newInit, Version.newStage "init"] = (initDir, true) := rfl
  cases h with
  | before => rw [hh]; exact ⟨half_nil, hdef⟩
  | config h0 _ =>
    refine ⟨?_, hdef⟩
    show Half (fs.history _)
    rw [hh]; exact half_nil
  | history h0 hc =>
    rename_i d
    dsimp only at hst ⊢
    rw [update_self] at hst ⊢
    rw [hh] at hc
    rcases half_or_done hc with hx | hx
    · exact ⟨hx, hdef⟩
    · exact absurd hst (hdone d hx)
  | definitions h0 hs =>
    rename_i d y
    dsimp only at hst
    rw [update_self] at hst
    rw [hh, hi] at hs
    exact absurd hst (hdone d (by cases hs; rfl))
  | after =>
    obtain ⟨e, he⟩ := discover_fails (env := env) (fs := fs) (cwd := cwd) (fun d h _ => hnew d h)
      (by rw [hnew cwd (List.prefix_refl _)]; simp)
    rw [init_run he, hh, hi, if_pos rfl] at hst
    dsimp only at hst
    rw [update_self] at hst
    exact absurd hst (hdone _ rfl)

theorem runHist_half {w w' : World σ} {h : Proj.Path} (hx : Half (w.fs.history h)) {fuel : Nat} {c : HistCmd}
    (hc : c ≠ .init) (hs : ∀ defs, c = .stage defs → ∃ t, defs = .ok t) {out : List String} {e : Ending}
    (hr : runHist fuel w h c = some (w', out, e)) : w' = w ∧ e = .error := by
  unfold runHist at hr
  split at hr
  · cases hr
  · next x hp =>
    obtain ⟨y, hy⟩ := half_plan hx hc hs hp
    cases hy
    cases hr
    exact ⟨rfl, rfl⟩
  · next vs hp =>
    obtain ⟨y, hy⟩ := half_plan hx hc hs hp
    cases hy

theorem putServer_back {w : World σ} {url m : String} {s : Server σ} (hs : w.servers url = some s) :
    putServer w url m s ⟨s.metas m, s.data⟩ = w := by
  have e1 : update s.metas m (s.metas m) = s.metas := by
    funext x; unfold update; split
    · next h => rw [h]
    · rfl
  have e2 : update w.servers url (some s) = w.servers := by
    funext x; unfold update; split
    · next h => rw [h, hs]
    · rfl
  unfold putServer
  dsimp only
  rw [e1, e2]

/-- C96.  As long as the stage is not complete, no harm is done: `status`, `stage`, `reset` and `make` report an error
and change nothing, whatever their arguments, and `up` changes no file and no database. -/
theorem C96_harmless {S : Setting σ} {fs fs' : Fs} {cwd : Proj.Path} (hnew : ∀ d, Above d cwd → fs.config d = none)
    (hh : fs.history (cwd ++ ["database", "history"]) = [])
    (hdef : fs.definitions (cwd ++ ["database", "definitions"]) = []) (h : InitDies S.env fs cwd fs')
    (hst : ∀ v, ¬ Stored (fs'.history (cwd ++ ["database", "history"])) "stage" v)
    {w w' : World σ} (hw : w.fs = fs') {a : Args} {out : List String} {e : Ending} (hr : Ends S w cwd a w' out e)
    {name : String} :
    (a = .status name ∨ a = .stage name ∨ a = .reset name ∨ (∃ label, a = .make name label) → e = .error ∧ w' = w) ∧
    (∀ target, a = .up name target → w' = w) := by
  obtain ⟨hx, hdefs⟩ := dead_half hnew hh hdef h hst
  have hp := dead_project hnew (by rw [hh]; exact AMap.nodupKeys_nil) h
  subst hw
  obtain ⟨fuel, hr⟩ := hr
  have hload : definitions w.fs (cwd ++ ["database", "definitions"]) = .ok Database.new := by
    unfold definitions; rw [hdefs]; rfl
  rcases hp with ⟨x, hp⟩ | ⟨m, hp⟩
  · constructor
    · rintro (rfl | rfl | rfl | ⟨label, rfl⟩) <;> (simp only [run, hp] at hr; cases hr; exact ⟨rfl, rfl⟩)
    · rintro target rfl
      simp only [run, hp] at hr; cases hr; rfl
  · have hprof : ∀ q, Project.profile ⟨cwd, [⟨"database", "postgresql://localhost:5432/postgres",
        cwd ++ ["database", "history"], cwd ++ ["database", "definitions"], m⟩]⟩ name = q →
        q = .ok ⟨"database", "postgresql://localhost:5432/postgres",
          cwd ++ ["database", "history"], cwd ++ ["database", "definitions"], m⟩ ∨ q = .error (.profileNotFound name) := by
      rintro q rfl
      unfold Project.profile findProfile findProfile
      dsimp only
      by_cases hn : "database" = name
      · rw [if_pos hn]; exact .inl rfl
      · rw [if_neg hn]; exact .inr rfl
    have hdfl : Project.profile ⟨cwd, [⟨"database", "postgresql://localhost:5432/postgres",
        cwd ++ ["database", "history"], cwd ++ ["database", "definitions"], m⟩]⟩ DEFAULT_PROFILE =
        .ok ⟨"database", "postgresql://localhost:5432/postgres",
          cwd ++ ["database", "history"], cwd ++ ["database", "definitions"], m⟩ := rfl
    obtain ⟨st, hst'⟩ := hx.stage
    rcases hprof _ rfl with hq | hq
    · constructor
      · rintro (rfl | rfl | rfl | ⟨label, rfl⟩)
        · simp only [run, hp, Project.historyDir, Project.definitionsDir, Project.databaseUrl,
            Project.metadataSchema, hq, hdfl, statusIn, hload] at hr
          rw [show Version.STAGE = "stage" from rfl] at hr
          simp only [hst'] at hr
          split at hr
          · cases hr
          · next o1 e1 h1 =>
            cases hr
            split at h1
            · cases h1
            · cases h1; exact ⟨rfl, rfl⟩
            · cases h1; exact ⟨rfl, rfl⟩
        · simp only [run, hp, Project.historyDir, Project.definitionsDir, hq, hload] at hr
          exact (runHist_half hx (by simp) (fun defs hd => ⟨_, by cases hd; rfl⟩) hr).symm
        · simp only [run, hp, Project.historyDir, hq] at hr
          exact (runHist_half hx (by simp) (fun defs hd => by cases hd) hr).symm
        · simp only [run, hp, Project.historyDir, hq] at hr
          exact (runHist_half hx (by simp) (fun defs hd => by cases hd) hr).symm
      · rintro target rfl
        simp only [run, hp, Project.historyDir, Project.databaseUrl, Project.metadataSchema, hq, hdfl] at hr
        split at hr
        · cases hr; rfl
        · next s hs =>
          split at hr
          · split at hr
            · cases hr
            · cases hr; rfl
          · next n hn =>
            split at hr
            · cases hr
            · next db o hu =>
              cases hr
              cases half_up hx hu
              exact putServer_back hs
    · constructor
      · rintro (rfl | rfl | rfl | ⟨label, rfl⟩) <;>
          (simp only [run, hp, Project.historyDir, Project.definitionsDir, Project.databaseUrl,
            Project.metadataSchema, hq, hdfl] at hr
           cases hr
           exact ⟨rfl, rfl⟩)
      · rintro target rfl
        simp only [run, hp, Project.historyDir, Project.databaseUrl, Project.metadataSchema, hq, hdfl] at hr
        cases hr
        rfl

/-- C96 does not hold up to the end of `init`: in every new directory it may be killed when the stage is complete and
there is no definition file; `stage` then stages that the schema `public` is dropped. -/
theorem C96_stage_drops_false (S : Setting σ) (fs : Fs) {cwd : Proj.Path}
    (hnew : ∀ d, Above d cwd → fs.config d = none) (hh : fs.history (cwd ++ ["database", "history"]) = [])
    (hdef : fs.definitions (cwd ++ ["database", "definitions"]) = []) (servers : String → Option (Server σ)) :
    ∃ fs' w' out, InitDies S.env fs cwd fs' ∧ fs'.definitions (cwd ++ ["database", "definitions"]) = [] ∧
      Ends S ⟨fs', servers⟩ cwd (.stage "database") w' out .success ∧
      Stored (w'.fs.history (cwd ++ ["database", "history"])) "stage"
        ⟨"stage", some "init", [.dropSchema "public"], ["DROP SCHEMA public;"], ["CREATE SCHEMA public;"]⟩ := by
  obtain ⟨e, he⟩ := discover_fails (env := S.env) (fs := fs) (cwd := cwd) (fun d h _ => hnew d h)
    (by rw [hnew cwd (List.prefix_refl _)]; simp)
  have hc : CrashState (fs.history (cwd ++ ["database", "history"])) [Version.newInit, Version.newStage "init"]
      initDir := by
    rw [hh]; exact crash_saveAll
  have hd := InitDies.history (env := S.env) he hc
  have hp := discover_here (env := S.env) (fs := { fs with
        config := update fs.config cwd (some (some baseProject)),
        history := update fs.history (cwd ++ ["database", "history"]) initDir })
      (cwd := cwd) (y := baseProject) (update_self _ _ _)
  have hq : ProfileAt S.env { fs with
        config := update fs.config cwd (some (some baseProject)),
        history := update fs.history (cwd ++ ["database", "history"]) initDir } cwd "database"
      ⟨"database", "postgresql://localhost:5432/postgres", cwd ++ ["database", "history"],
        cwd ++ ["database", "definitions"], "podo_meta"⟩ := by
    refine ⟨⟨cwd, [⟨"database", "postgresql://localhost:5432/postgres", cwd ++ ["database", "history"],
        cwd ++ ["database", "definitions"], "podo_meta"⟩]⟩, hp.trans ?_, ?_⟩
    · show Except.ok _ = _
      simp only [baseProject, DEFAULT_PROFILE, List.map, expand_url]
    · rfl
  have hdefs : definitions { fs with
        config := update fs.config cwd (some (some baseProject)),
        history := update fs.history (cwd ++ ["database", "history"]) initDir } (cwd ++ ["database", "definitions"]) =
      .ok Database.new := by
    unfold definitions
    dsimp only
    rw [hdef]; rfl
  let d' : HDir := [("init.yaml", .file (some Version.newInit)), ("stage.yaml", .file (some
    ⟨"stage", some "init", [.dropSchema "public"], ["DROP SCHEMA public;"], ["CREATE SCHEMA public;"]⟩))]
  have hx : (HistCmd.stage (.ok Database.new)).exec 9 initDir = some (d', true) := by
    decide +kernel
  have hrun := run_stage (S := S) (fuel := 9) (w := ⟨{ fs with
        config := update fs.config cwd (some (some baseProject)),
        history := update fs.history (cwd ++ ["database", "history"]) initDir }, servers⟩) hq
  rw [hdefs] at hrun
  obtain ⟨w₁, out, h1, _, h2, h3⟩ := runHist_ok (w := (⟨{ fs with
        config := update fs.config cwd (some (some baseProject)),
        history := update fs.history (cwd ++ ["database", "history"]) initDir }, servers⟩ : World σ))
    (h := cwd ++ ["database", "history"]) (by
      show (HistCmd.stage (.ok Database.new)).exec 9 (update fs.history _ initDir _) = _
      rw [update_self]; exact hx)
  refine ⟨_, w₁, out, hd, hdef, ⟨9, hrun.trans h1⟩, ?_⟩
  rw [h2]
  dsimp only
  rw [update_self]
  unfold Stored
  decide +kernel

/-- C96, and the life of a machine goes on: `init`, killed at any point and then run again after the configuration
file was deleted, is one of the things that may happen in C91 (and so in all that is proved of such lives). -/
theorem C96_life {B : Pg.Behaviour σ} {ok : Makes → LocalTime × String → Prop} {log : Makes} {w : World σ}
    (S : Setting σ) (hB : S.B = B) {t : LocalTime} (ht : S.now = t.text) {cwd : Proj.Path}
    (hnew : ∀ d, Above d cwd → w.fs.config d = none) (hh : w.fs.history (cwd ++ ["database", "history"]) = [])
    {fs' : Fs} (h : InitDies S.env w.fs cwd fs') {w' : World σ} {out : List String} {e : Ending}
    (hr : Ends S ⟨fs'.withoutConfig cwd, w.servers⟩ cwd .init w' out e) :
    Happens B ok log w log w' := by
  have hi := (C96_init_again (env := S.env) hnew (by rw [hh]; exact AMap.nodupKeys_nil) h).1
  subst hB
  refine happens_there (S := S) (a := .init) ht (.inr hh) (out := out) (e := e) ?_
  obtain ⟨fuel, hr⟩ := hr
  refine ⟨fuel, ?_⟩
  unfold run at hr ⊢
  dsimp only at hr
  rw [hi] at hr
  exact hr

/-! ### Cases of the hypotheses -/

/-- `init` dies when the stage has been created and not been written. -/
example : InitDies progSetting.env (lifeWorld false [] []).fs ["w"]
    { (lifeWorld false [] []).fs with
      config := update (lifeWorld false [] []).fs.config ["w"] (some (some baseProject)),
      history := update (lifeWorld false [] []).fs.history (["w"] ++ ["database", "history"])
        [("init.yaml", .file (some Version.newInit)), ("stage.yaml", .file none)] } ∧
    (∀ d, Above d ["w"] → (lifeWorld false [] []).fs.config d = none) ∧
    (lifeWorld false [] []).fs.history (["w"] ++ ["database", "history"]) = [] ∧
    ∀ v, ¬ Stored [("init.yaml", .file (some Version.newInit)), ("stage.yaml", .file none)] "stage" v := by
  refine ⟨?_, fun _ _ => rfl, lifeWorld_nil _ _ _, ?_⟩
  · obtain ⟨e, he⟩ := discover_fails (env := progSetting.env) (fs := (lifeWorld false [] []).fs) (cwd := ["w"])
      (fun d h _ => rfl) (by intro y h; cases h)
    refine .history he ?_
    rw [lifeWorld_nil]
    exact .saved (dv := [("init.yaml", .file (some Version.newInit))]) rfl
      (.truncated (dv := initDir) rfl)
  · intro v hv
    unfold Stored at hv
    have : AMap.get? [("init.yaml", Entry.file (some Version.newInit)), ("stage.yaml", .file none)]
        ("stage" ++ ".yaml") = some (.file none) := by decide +kernel
    rw [this] at hv
    cases hv

end Prog
end Podo
