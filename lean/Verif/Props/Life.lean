import Verif.Proofs.Life
/-
C91 and C92: everything that happens on a machine with podo on it.
-/
namespace Podo
namespace Prog
open Proj
variable {σ : Type} {B : Pg.Behaviour σ}

theorem distinct_ne (log : Makes) (m : LocalTime × String) (h : Distinct log m) : ∀ m' ∈ log, m' ≠ m := by
  rintro m' hm rfl
  exact h hm

theorem Life.distinct {log : Makes} {w : World σ} (h : Life B Distinct log w) : Healthy B (· ≠ ·) log w :=
  h.healthy distinct_ne fun _ h => h rfl

theorem Life.forward {log : Makes} {w : World σ} (h : Life B Forward log w) :
    Healthy B (fun a b => a.1.Before b.1) log w :=
  h.healthy (fun _ _ h => h) fun m => LocalTime.Before.irrefl m.1

/-! ### A machine at work -/

/-- The machine of the examples: a history in `/w`, definitions, and one kind of servers. -/
def lifeWorld (config : Bool) (d : HDir) (files : AMap Def.Yaml) : World (List String) :=
  ⟨⟨fun p => if config && p == ["w"] then some (some baseProject) else none,
    update (fun _ => []) progProfile.history d, fun _ => files⟩, fun _ => some ⟨fun _ => .absent, []⟩⟩

def lifeSetting (t : LocalTime) : Setting (List String) := { progSetting with now := t.text }

theorem lifeWorld_nil (c : Bool) (files : AMap Def.Yaml) (p : Proj.Path) : (lifeWorld c [] files).fs.history p = [] := by
  simp only [lifeWorld, update]
  split <;> rfl

theorem lifeWorld_history (c : Bool) (d : HDir) (files : AMap Def.Yaml) :
    (lifeWorld c d files).fs.history progProfile.history = d := by
  simp only [lifeWorld]
  exact update_self _ _ _

theorem lifeWorld_untouched : Untouched (lifeWorld false [] []) :=
  ⟨lifeWorld_nil _ _, fun url s h m => by cases h; rfl⟩

theorem lifeWorld_defs (u : Bool) (d : HDir) (ds : Proj.Path) :
    definitions (lifeWorld true d [("public.yaml", indexDoc u)]).fs ds = .ok (indexDb u) :=
  indexDoc_loads u d ds

theorem lifeWorld_profile (t : LocalTime) (d : HDir) (files : AMap Def.Yaml) :
    ProfileAt (lifeSetting t).env (lifeWorld true d files).fs ["w"] "database" progProfile := by
  refine ⟨⟨["w"], [progProfile]⟩, ?_, rfl⟩
  show loadProject demoEnv ["w"] (some baseProject) = _
  decide +kernel

theorem lifeWorld_defs_empty (d : HDir) (ds : Proj.Path) :
    definitions (lifeWorld true d [("public.yaml", initDoc)]).fs ds = .ok ⟨[("public", Schema.new "public")]⟩ := by
  show Def.loadDir [.file "public.yaml" initDoc] = _
  decide +kernel

/-- All servers can be reached. -/
def allThere : String → Bool := fun _ => false

theorem without_allThere (w : World σ) : w.without allThere = w := rfl

theorem back_allThere (w₁ w : World σ) : w₁.back w allThere = w₁ := rfl

variable {ok : Makes → LocalTime × String → Prop}

/-- A command while all servers can be reached. -/
theorem happens_there {S : Setting σ} {t : LocalTime} {log : Makes} {w w₁ : World σ} {cwd : Proj.Path} {a : Args}
    {out : List String} {e : Ending} (hnow : S.now = t.text) (hal : Allowed ok S w cwd log t a)
    (h : Ends S w cwd a w₁ out e) : Happens S.B ok log w (noted t log a) w₁ := by
  have := Happens.command (B := S.B) (away := allThere) rfl hnow hal (by rw [without_allThere]; exact h)
  rw [back_allThere] at this
  exact this

/-- A step of the example, with its outcome brought into form by an edit. -/
theorem life_step {log log₁ : Makes} {c c' : Bool} {d d' : HDir} {files files' : AMap Def.Yaml} {w₀ w₁ : World (List String)}
    (hg : Goes progSetting.B ok [] w₀ log (lifeWorld c d files))
    (hh : Happens progSetting.B ok log (lifeWorld c d files) log₁ w₁)
    (h1 : w₁.fs.history = update (fun _ => []) progProfile.history d') (h2 : w₁.servers = (lifeWorld c d files).servers) :
    Goes progSetting.B ok [] w₀ log₁ (lifeWorld c' d' files') :=
  .on (.on hg hh) (.edit h2.symm fun p => by rw [h1]; exact .refl _)

theorem update_update {α β : Type} [DecidableEq α] (f : α → β) (a : α) (b c : β) :
    update (update f a b) a c = update f a c := by
  funext x; unfold update; split <;> rfl

/-- A history command of the example. -/
theorem life_exec_happens {log : Makes} {d d' : HDir} {files : AMap Def.Yaml} {a : Args}
    {t : LocalTime} {hc : HistCmd} (hal : Allowed ok (lifeSetting t) (lifeWorld true d files) ["w"] log t a)
    (hrun : run (lifeSetting t) 9 (lifeWorld true d files) ["w"] a =
      runHist 9 (lifeWorld true d files) progProfile.history hc)
    (he : hc.exec 9 d = some (d', true)) :
    ∃ w₁, Happens progSetting.B ok log (lifeWorld true d files) (noted t log a) w₁ ∧
      w₁.fs.history = update (fun _ => []) progProfile.history d' ∧ w₁.servers = (lifeWorld true d files).servers := by
  have hd := lifeWorld_history true d files
  obtain ⟨w₁, out, h1, _, h2, h3⟩ := runHist_ok (w := lifeWorld true d files) (h := progProfile.history)
    (by rw [hd]; exact he)
  refine ⟨w₁, happens_there (S := lifeSetting t) (t := t) rfl hal ⟨9, hrun.trans h1⟩, ?_, h3⟩
  rw [h2]
  exact update_update _ _ _ _

theorem life_exec {log : Makes} {d d' : HDir} {files files' : AMap Def.Yaml} {w₀ : World (List String)} {a : Args}
    {t : LocalTime} {hc : HistCmd} (hg : Goes progSetting.B ok [] w₀ log (lifeWorld true d files))
    (hal : Allowed ok (lifeSetting t) (lifeWorld true d files) ["w"] log t a)
    (hrun : run (lifeSetting t) 9 (lifeWorld true d files) ["w"] a =
      runHist 9 (lifeWorld true d files) progProfile.history hc)
    (he : hc.exec 9 d = some (d', true)) :
    Goes progSetting.B ok [] w₀ (noted t log a) (lifeWorld true d' files') := by
  obtain ⟨w₁, h1, h2, h3⟩ := life_exec_happens hal hrun he
  exact life_step hg h1 h2 h3

theorem life_init_happens (t : LocalTime) :
    ∃ w₁, Happens progSetting.B ok [] (lifeWorld false [] []) [] w₁ ∧
      w₁.fs.history = update (fun _ => []) progProfile.history initDir ∧
      w₁.servers = (lifeWorld false [] []).servers := by
  have h0 : discover (lifeSetting t).env (lifeWorld false [] []).fs ["w"] = .error (.projectNotFound []) := by
    refine (discoverUp_none _).2 ?_
    intro d _
    rfl
  have hs : ((lifeWorld false [] []).fs.history (["w"] ++ ["database", "history"])).saveAll
      [Version.newInit, Version.newStage "init"] = (initDir, true) := by
    rw [lifeWorld_nil]; rfl
  have hi := init_new h0 hs
  have hr : Ends (lifeSetting t) (lifeWorld false [] []) ["w"] .init
      ⟨(Proj.init (lifeSetting t).env (lifeWorld false [] []).fs ["w"]).1, (lifeWorld false [] []).servers⟩ [] .success :=
    ⟨0, by simp only [run, hi]⟩
  have ha : Allowed ok (lifeSetting t) (lifeWorld false [] []) ["w"] [] t .init := .inr (lifeWorld_nil _ _ _)
  refine ⟨_, happens_there (S := lifeSetting t) (t := t) rfl ha hr, ?_, rfl⟩
  show (Proj.init _ _ _).1.history = _
  rw [hi]
  exact update_update _ _ _ _

theorem life_init (t : LocalTime) (files : AMap Def.Yaml) :
    Goes progSetting.B ok [] (lifeWorld false [] []) [] (lifeWorld true initDir files) := by
  obtain ⟨w₁, h1, h2, h3⟩ := life_init_happens (ok := ok) t
  exact life_step .now h1 h2 h3

/-- A life: `init`, then twice new definitions, `stage` and `make`. -/
theorem life_two {t₁ t₂ : LocalTime} {d₂ d₃ d₄ : HDir}
    (h1 : ok [] (t₁, "auto")) (h2 : ok [(t₁, "auto")] (t₂, "auto"))
    (hy1 : ∀ stem, t₁.text ++ "-" ++ "auto" ≠ stem ++ ".yaml") (hy2 : ∀ stem, t₂.text ++ "-" ++ "auto" ≠ stem ++ ".yaml")
    (e2 : (HistCmd.make t₁.text none).exec 9 progStaged = some (d₂, true))
    (e3 : (HistCmd.stage (.ok ⟨[("public", Schema.new "public")]⟩)).exec 9 d₂ = some (d₃, true))
    (e4 : (HistCmd.make t₂.text none).exec 9 d₃ = some (d₄, true)) :
    Life progSetting.B ok [(t₂, "auto"), (t₁, "auto")] (lifeWorld true d₄ []) := by
  refine ⟨_, lifeWorld_untouched, ?_⟩
  have e1 : (HistCmd.stage (.ok (indexDb false))).exec 9 initDir = some (progStaged, true) := rfl
  have g1 := life_init (ok := ok) t₁ [("public.yaml", indexDoc false)]
  have g2 : Goes progSetting.B ok [] (lifeWorld false [] []) [] (lifeWorld true progStaged []) :=
    life_exec (t := t₁) (a := .stage "database") g1 trivial
      (by rw [run_stage (lifeWorld_profile t₁ _ _), lifeWorld_defs]) e1
  have g3 : Goes progSetting.B ok [] (lifeWorld false [] []) [(t₁, "auto")] (lifeWorld true d₂ [("public.yaml", initDoc)]) :=
    life_exec (t := t₁) (a := .make "database" none) g2 ⟨h1, hy1⟩ (run_make (lifeWorld_profile t₁ _ _) none) e2
  have g4 : Goes progSetting.B ok [] (lifeWorld false [] []) [(t₁, "auto")] (lifeWorld true d₃ []) :=
    life_exec (t := t₁) (a := .stage "database") g3 trivial
      (by rw [run_stage (lifeWorld_profile t₁ _ _), lifeWorld_defs_empty]) e3
  exact life_exec (t := t₂) (a := .make "database" none) g4 ⟨h2, hy2⟩ (run_make (lifeWorld_profile t₂ _ _) none) e4

/-- Half past two, and ten past two, on the day the clocks are set back. -/
def halfPast : LocalTime := ⟨2020, 10, 25, 2, 30, 0⟩
def tenPast : LocalTime := ⟨2020, 10, 25, 2, 10, 0⟩

/-- What is staged the second time. -/
def lifeStage (p : String) : Version :=
  ⟨"stage", some p, [.dropTable "public" "t", .dropIndex "public" "i"],
    ["DROP TABLE \"public\".\"t\";", "DROP INDEX \"public\".\"i\";"],
    ["CREATE INDEX \"i\" ON \"public\".\"t\" USING btree (id);", "CREATE TABLE \"public\".\"t\" (\"id\" int8);"]⟩

/-- The directory with one version made, with a stage on it. -/
def lifeOne (a : String) (st : Version) : HDir :=
  [("init.yaml", .file (some Version.newInit)), ("stage.yaml", .file (some st)),
    (a ++ ".yaml", .file (some { progStage with name := a }))]

/-- The directory with both versions made. -/
def lifeTwo (a b : String) : HDir :=
  [("init.yaml", .file (some Version.newInit)), ("stage.yaml", .file (some (Version.newStage b))),
    (a ++ ".yaml", .file (some { progStage with name := a })),
    (b ++ ".yaml", .file (some { lifeStage a with name := b }))]

/-- The versions are made at ten past and at half past. -/
theorem life_forward : Life progSetting.B Forward [(halfPast, "auto"), (tenPast, "auto")]
    (lifeWorld true (lifeTwo "20201025_021000-auto" "20201025_023000-auto") []) :=
  life_two (d₂ := lifeOne "20201025_021000-auto" (Version.newStage "20201025_021000-auto"))
    (d₃ := lifeOne "20201025_021000-auto" (lifeStage "20201025_021000-auto"))
    (by intro m hm; cases hm) (by intro m hm; rw [List.mem_singleton] at hm; subst hm; unfold LocalTime.Before; decide)
    (noYaml (by decide +kernel)) (noYaml (by decide +kernel)) (by decide +kernel) (by decide +kernel) (by decide +kernel)

/-- The versions are made at half past and, when the clocks have been set back, at ten past. -/
theorem life_back : Life progSetting.B Distinct [(tenPast, "auto"), (halfPast, "auto")]
    (lifeWorld true (lifeTwo "20201025_023000-auto" "20201025_021000-auto") []) :=
  life_two (d₂ := lifeOne "20201025_023000-auto" (Version.newStage "20201025_023000-auto"))
    (d₃ := lifeOne "20201025_023000-auto" (lifeStage "20201025_023000-auto"))
    (by intro hm; cases hm) (by unfold Distinct; decide)
    (noYaml (by decide +kernel)) (noYaml (by decide +kernel)) (by decide +kernel) (by decide +kernel) (by decide +kernel)

/-! ### C91 -/

/-- C91, health: on a machine where podo has never run, whatever happens from then on (short of running commands
at the same time, interrupting `init`, running it over a history without a project, and `make` twice in a second
with the same label; and if the history is put in order when a command that saves has been killed), at any time every directory either has no version files or has a history as podo's commands write it, and every
metadata schema of every database is as `up` and `down` write it. -/
theorem C91_health {log : Makes} {w : World σ} (h : Life B Distinct log w) :
    (∀ p, w.fs.history p = [] ∨ Reachable (w.fs.history p)) ∧
    ∀ url s, w.servers url = some s → ∀ m, Pg.Reach B (s.db m) := by
  refine ⟨fun p => ?_, h.distinct.servers⟩
  rcases h.distinct.history p with e | ⟨hr, _⟩
  · exact .inl e
  · exact .inr hr

/-- Two versions have been made; the clocks have been set back in between. -/
example : Life progSetting.B Distinct [(tenPast, "auto"), (halfPast, "auto")]
      (lifeWorld true (lifeTwo "20201025_023000-auto" "20201025_021000-auto") []) ∧
    (lifeWorld true (lifeTwo "20201025_023000-auto" "20201025_021000-auto") []).fs.history progProfile.history =
      lifeTwo "20201025_023000-auto" "20201025_021000-auto" :=
  ⟨life_back, lifeWorld_history _ _ _⟩

/-- C91, use: such a history opens, and the snapshot of its stage can be calculated. -/
theorem C91_usable {log : Makes} {w : World σ} (h : Life B Distinct log w) {p : Proj.Path} {n : String} {v : Version}
    (hv : Stored (w.fs.history p) n v) :
    (∃ cv, Opens (w.fs.history p) cv) ∧ ∃ s, SnapshotOf (w.fs.history p) "stage" s := by
  rcases h.distinct.history p with e | ⟨hr, _⟩
  · rw [e] at hv; cases hv
  · obtain ⟨vs, st, s, hh, hrec⟩ := hr.sound
    obtain ⟨nm, _, hf⟩ := hh.fromDir
    exact ⟨⟨_, _, _, hf _ (Nat.lt_succ_self _)⟩, s, _, hh.calculate hrec.applyAll (Nat.le_refl _)⟩

example : Stored ((lifeWorld true (lifeTwo "20201025_023000-auto" "20201025_021000-auto") []).fs.history
    progProfile.history) "20201025_021000-auto" { lifeStage "20201025_023000-auto" with name := "20201025_021000-auto" } := by
  rw [lifeWorld_history]; unfold Stored; decide +kernel

/-- C91, ending: at any time every command ends, whatever its arguments, wherever it is run, and whichever
servers cannot be reached. -/
theorem C91_ends {log : Makes} {w : World σ} (h : Life B Distinct log w) (S : Setting σ) (away : String → Bool)
    (cwd : Proj.Path) (a : Args) : ∃ w' out e, Ends S (w.without away) cwd a w' out e :=
  ends_finite (w := w.without away) (fun p => (h.distinct.history p).finite) S cwd a

/-- C91, keeping: the file of a version stays the same, whatever happens from then on, unless it is the stage. -/
theorem C91_kept {log log' : Makes} {w w' : World σ} (h : Life B Distinct log w) (hg : Goes B Distinct log w log' w')
    {p : Proj.Path} {n : String} {v : Version} (hn : n ≠ "stage") (hv : Stored (w.fs.history p) n v) :
    Stored (w'.fs.history p) n v :=
  (h.distinct.goes distinct_ne (fun _ h => h rfl) hg).2 p n v hn hv

/-- Whatever `podo up` does then, both versions are still there. -/
example : ∃ w', Goes progSetting.B Distinct [(tenPast, "auto"), (halfPast, "auto")]
      (lifeWorld true (lifeTwo "20201025_023000-auto" "20201025_021000-auto") [])
      [(tenPast, "auto"), (halfPast, "auto")] w' ∧
    Stored (w'.fs.history progProfile.history) "20201025_023000-auto" { progStage with name := "20201025_023000-auto" } := by
  obtain ⟨w', out, e, h⟩ := C91_ends life_back (lifeSetting tenPast) allThere ["w"] (.up "database" none)
  have hg : Goes progSetting.B Distinct [(tenPast, "auto"), (halfPast, "auto")] _ [(tenPast, "auto"), (halfPast, "auto")] w' :=
    .on .now (happens_there (S := lifeSetting tenPast) (a := .up "database" none) (t := tenPast) rfl trivial h)
  exact ⟨w', hg, C91_kept life_back hg (by decide) (by rw [lifeWorld_history]; unfold Stored; decide +kernel)⟩

/-- Or `reset` is killed, so that the history does not open, and somebody repairs it: they are still there. -/
example : ∃ d w', Dies .reset (lifeTwo "20201025_023000-auto" "20201025_021000-auto") d ∧ FailsToOpen d ∧
    Goes progSetting.B Distinct [(tenPast, "auto"), (halfPast, "auto")]
      (lifeWorld true (lifeTwo "20201025_023000-auto" "20201025_021000-auto") [])
      [(tenPast, "auto"), (halfPast, "auto")] w' ∧
    Stored (w'.fs.history progProfile.history) "20201025_023000-auto" { progStage with name := "20201025_023000-auto" } := by
  have hr : Reachable (lifeTwo "20201025_023000-auto" "20201025_021000-auto") := by
    have := (C91_health life_back).1 progProfile.history
    rw [lifeWorld_history] at this
    exact this.resolve_left (by intro h; cases h)
  obtain ⟨k, ws, d, hp, hc, hf⟩ := C26_crash_false hr
  have hd : Dies .reset (lifeTwo "20201025_023000-auto" "20201025_021000-auto") d := ⟨k, ws, hp, hc⟩
  obtain ⟨d', hrep⟩ := C93_repairable hr (by intro _ _ e; cases e) hd hf
  have hg : Goes progSetting.B Distinct [(tenPast, "auto"), (halfPast, "auto")]
      (lifeWorld true (lifeTwo "20201025_023000-auto" "20201025_021000-auto") []) [(tenPast, "auto"), (halfPast, "auto")] _ :=
    .on .now (.interrupted (p := progProfile.history) (t := tenPast) (c := .reset) (by intro _ _ e; cases e)
      (by rw [lifeWorld_history]; exact hd) (.inr hrep))
  exact ⟨d, _, hd, hf, hg, C91_kept life_back hg (by decide) (by rw [lifeWorld_history]; unfold Stored; decide +kernel)⟩

/-- C91, origin: each version was made by a `make`, and tells when and with which label. -/
theorem C91_origin {log : Makes} {w : World σ} (h : Life B Distinct log w) {p : Proj.Path} {n : String} {v : Version}
    (hv : Stored (w.fs.history p) n v) (hn : n ≠ "init" ∧ n ≠ "stage") :
    ∃ t label, (t, label) ∈ log ∧ n = t.text ++ "-" ++ label := by
  rcases (h.distinct.history p).taken (n := n) (by unfold Stored at hv; rw [hv]; simp) with e | e | ⟨m, hm, e⟩
  · exact absurd e hn.1
  · exact absurd e hn.2
  · exact ⟨m.1, m.2, hm, e⟩

/-! ### C92 -/

/-- C92, text: in the names of versions earlier times come before later ones, character by character. -/
theorem C92_text (t u : LocalTime) : t.text.toList < u.text.toList ↔ t.Before u := by
  rw [LocalTime.text_toList, LocalTime.text_toList]
  exact LocalTime.chars_lt t u

/-- C92, as far as it holds: as long as the local time goes on from one `make` to the next, sorting the files
of the made versions by name, character by character, sorts them in the order in which they follow one another.
What is missing is a local time that is set back. -/
theorem C92_names_in_order_partial {log : Makes} {w : World σ} (h : Life B Forward log w) {p : Proj.Path}
    {a b : String} {va vb : Version} (ha : Stored (w.fs.history p) a va) (hb : Stored (w.fs.history p) b vb)
    (ha' : a ≠ "init" ∧ a ≠ "stage") (hb' : b ≠ "init" ∧ b ≠ "stage") (hne : a ≠ b) :
    OnPath (w.fs.history p) a b ↔ a.toList < b.toList :=
  (h.forward.history p).order ha hb ha' hb' hne

/-- C92 at work: the two versions. -/
example : Life progSetting.B Forward [(halfPast, "auto"), (tenPast, "auto")]
      (lifeWorld true (lifeTwo "20201025_021000-auto" "20201025_023000-auto") []) ∧
    OnPath ((lifeWorld true (lifeTwo "20201025_021000-auto" "20201025_023000-auto") []).fs.history progProfile.history)
      "20201025_021000-auto" "20201025_023000-auto" := by
  refine ⟨life_forward, (C92_names_in_order_partial life_forward
    (va := { progStage with name := "20201025_021000-auto" })
    (vb := { lifeStage "20201025_021000-auto" with name := "20201025_023000-auto" }) ?_ ?_ (by decide) (by decide)
    (by decide)).2 (by decide)⟩
  · rw [lifeWorld_history]; unfold Stored; decide +kernel
  · rw [lifeWorld_history]; unfold Stored; decide +kernel

/-- C92 is false where the local time is set back, as it is in autumn: a version made at ten past two, after one
made at half past two, comes before it. -/
theorem C92_clock_set_back_false : ∃ (B : Pg.Behaviour (List String)) (log : Makes) (w : World (List String))
    (p : Proj.Path) (a b : String), Life B Distinct log w ∧ (∃ v, Stored (w.fs.history p) a v) ∧
    (∃ v, Stored (w.fs.history p) b v) ∧ (a ≠ "init" ∧ a ≠ "stage") ∧ (b ≠ "init" ∧ b ≠ "stage") ∧
    OnPath (w.fs.history p) a b ∧ b.toList < a.toList := by
  refine ⟨_, _, _, progProfile.history, "20201025_023000-auto", "20201025_021000-auto", life_back, ?_⟩
  rw [lifeWorld_history]
  have h1 : Stored (lifeTwo "20201025_023000-auto" "20201025_021000-auto") "20201025_023000-auto"
      { progStage with name := "20201025_023000-auto" } := by unfold Stored; decide +kernel
  have h2 : Stored (lifeTwo "20201025_023000-auto" "20201025_021000-auto") "20201025_021000-auto"
      { lifeStage "20201025_023000-auto" with name := "20201025_021000-auto" } := by unfold Stored; decide +kernel
  exact ⟨⟨_, h1⟩, ⟨_, h2⟩, by decide, by decide, ⟨_, .later (.here h1) h2 rfl⟩, by decide⟩

end Prog
end Podo
