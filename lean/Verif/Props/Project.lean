import Verif.Proofs.Project
import Verif.Proofs.NodeEq
import Verif.Proofs.Commands
/-
C50–C52, C55 and C59: configuration, directories and `init`.
-/
set_option linter.unusedSimpArgs false
namespace Podo
namespace Proj

/-! ### C50 -/

/-- C50.  Every text can be read as characters and references in one way (names as long as possible, a
dollar sign for itself only when it begins no reference), and expanding it puts the value of the
variable, or nothing, in the place of each reference and keeps every other character. -/
theorem C50_expansion {env : Env} (ho : env.word '{' = false) (hc : env.word '}' = false)
    (hd : env.word '$' = false) (s : List Char) :
    ∃ ps, Reading env.word ps ∧ ps.flatMap Piece.text = s ∧
      ∀ ps', Reading env.word ps' → ps'.flatMap Piece.text = s →
        expand env s = ps'.flatMap (Piece.value env) := by
  obtain ⟨ps, h1, h2⟩ := exists_reading ho hc s.length s (Nat.le_refl _)
  refine ⟨ps, h1, h2, fun ps' h1' h2' => ?_⟩
  subst h2'
  exact expandLoop_reading ho hc hd ps' _ h1' (Nat.lt_succ_self _)

/-- The environment of the examples: `FOO` is `a$BAR`, and word characters are ASCII. -/
def demoEnv : Env :=
  ⟨fun n => if n = "FOO".toList then some "a$BAR".toList else none,
   fun c => c.isAlphanum || c == '_'⟩

example : demoEnv.word '{' = false ∧ demoEnv.word '}' = false ∧ demoEnv.word '$' = false := by decide

example : expand demoEnv "x$FOO-${FOO}y${FOO$NONE$/z".toList =
    "xa$BAR-a$BARy${FOO$/z".toList := by decide +kernel

/-! ### C51 -/

/-- C51.  Discovery loads the configuration file of the nearest directory, at or above the current one,
that has a configuration file (and reports an error if it cannot be read, without looking further up);
it says "not found" exactly when no such directory has one. -/
theorem C51_nearest_project (env : Env) (fs : Fs) (cwd : Path) :
    (∀ d, Nearest fs cwd d → ∃ y, fs.config d = some y ∧ discover env fs cwd = loadProject env d y) ∧
    ((∃ d, discover env fs cwd = .error (.projectNotFound d)) ↔ ¬ ∃ d, Nearest fs cwd d) := by
  have hrev : cwd.reverse.reverse = cwd := List.reverse_reverse cwd
  refine ⟨fun d h => discoverUp_nearest cwd.reverse d (by rw [hrev]; exact h), ?_⟩
  constructor
  · rintro ⟨r, h⟩ ⟨d, hd⟩
    cases discoverUp_notFound _ h
    have h := (discoverUp_none cwd.reverse).1 h
    rw [hrev] at h
    exact hd.has (h d hd.above)
  · intro h
    refine ⟨[], (discoverUp_none cwd.reverse).2 ?_⟩
    rw [hrev]
    rcases exists_nearest (fs := fs) cwd.reverse with hn | hn
    · rw [hrev] at hn; exact absurd hn h
    · rw [hrev] at hn; exact hn

/-- C51, a consequence: from every directory below it that is not in another project, the same project
is found. -/
theorem C51_same_from_below {env : Env} {fs : Fs} {cwd cwd' d : Path} (h : Nearest fs cwd d)
    (h' : Nearest fs cwd' d) : discover env fs cwd = discover env fs cwd' := by
  obtain ⟨y, hy, e⟩ := (C51_nearest_project env fs cwd).1 d h
  obtain ⟨y', hy', e'⟩ := (C51_nearest_project env fs cwd').1 d h'
  rw [hy] at hy'; cases hy'
  rw [e, e']

/-- A project in `/a/b` inside another one in `/`. -/
def demoFs : Fs :=
  ⟨fun p => if p = ["a", "b"] ∨ p = [] then some (some baseProject) else none, fun _ => [], fun _ => []⟩

example : Nearest demoFs ["a", "b", "c", "d"] ["a", "b"] := by
  refine ⟨⟨["c", "d"], rfl⟩, by decide, fun d' h hd => ?_⟩
  by_cases h1 : d' = ["a", "b"]
  · subst h1; exact List.prefix_refl _
  · by_cases h2 : d' = []
    · subst h2; exact List.nil_prefix
    · simp [demoFs, h1, h2] at hd

/-! ### C52 -/

/-- C52 (partial).  All commands that open a history, given a profile, open the history of that profile
exactly when the default profile has the same history.  Missing for the full property: projects where it
has another one; `stage`, `make` and `reset` then use the profile's own, `status` and `up` the default
one. -/
theorem C52_one_history_partial (p : Project) (profile : String) :
    (∀ c r, historyOf p profile c = some r → r = p.historyDir profile) ↔
      p.historyDir DEFAULT_PROFILE = p.historyDir profile := by
  constructor
  · intro h; exact h .up _ rfl
  · intro h c r hr
    cases c <;> simp only [historyOf, Option.some.injEq, reduceCtorEq] at hr <;> rw [← hr]
    · exact h
    · exact h

/-- C52, the part that holds: what a command uses for a profile is what the configuration file says for
it, with the environment's values in it, under the project's directory, in whatever order the profiles are
kept. -/
theorem C52_profile_settings {env : Env} (ho : env.word '{' = false) (hc : env.word '}' = false)
    (hd : env.word '$' = false) {base : Path} {y : YProject} {p : Project}
    (h : loadProject env base (some y) = .ok p) (profile : String) (c : YProfile)
    (hy : y.get? profile = some c) :
    (∀ cmd ∈ [Cmd.stage, .make, .reset], ∀ dir, historyOf p profile cmd = some (.ok dir) ↔
      ∃ t, Expands env c.history.toList t ∧ Names base t dir) ∧
    ∀ dir, definitionsOf p profile .stage = some (.ok dir) ↔
      ∃ t, Expands env c.definitions.toList t ∧ Names base t dir := by
  have hp := (profile_iff h).2 ⟨c, hy, rfl⟩
  have e1 : p.historyDir profile = .ok (join base (expand env c.history.toList)) := by
    unfold Project.historyDir; rw [hp]; rfl
  have e2 : p.definitionsDir profile = .ok (join base (expand env c.definitions.toList)) := by
    unfold Project.definitionsDir; rw [hp]; rfl
  simp only [expands_iff ho hc hd, names_iff, exists_eq_left]
  refine ⟨fun cmd hcmd dir => ?_, fun dir => ?_⟩
  · simp only [List.mem_cons, List.not_mem_nil, or_false] at hcmd
    rcases hcmd with rfl | rfl | rfl <;>
      simp only [historyOf, e1, Option.some.injEq, Except.ok.injEq] <;> exact eq_comm
  · simp only [definitionsOf, e2, Option.some.injEq, Except.ok.injEq]; exact eq_comm

/-- C52, databases: every command that connects to a database, given a profile, connects to the one the
configuration file says for that profile, with the environment's values in it. -/
theorem C52_database {env : Env} (ho : env.word '{' = false) (hc : env.word '}' = false)
    (hd : env.word '$' = false) {base : Path} {y : YProject} {p : Project}
    (h : loadProject env base (some y) = .ok p) (profile : String) (c : YProfile)
    (hy : y.get? profile = some c) :
    (∀ cmd r, databaseOf p profile cmd = some r →
      ∃ url, r = .ok url ∧ Expands env c.databaseUrl.toList url.toList) ∧
    ∀ cmd ∈ [Cmd.up, .down, .status, .clone], ∃ r, databaseOf p profile cmd = some r := by
  have hp := (profile_iff h).2 ⟨c, hy, rfl⟩
  have : p.databaseUrl profile = .ok (String.ofList (expand env c.databaseUrl.toList)) := by
    unfold Project.databaseUrl; rw [hp]; rfl
  constructor
  · intro cmd r hr
    refine ⟨String.ofList (expand env c.databaseUrl.toList), ?_,
      (expands_iff ho hc hd).2 String.toList_ofList⟩
    cases cmd <;> simp only [databaseOf, Option.some.injEq, reduceCtorEq] at hr <;> rw [← hr, this]
  · intro cmd hcmd
    simp only [List.mem_cons, List.not_mem_nil, or_false] at hcmd
    rcases hcmd with rfl | rfl | rfl | rfl <;> exact ⟨_, rfl⟩

example : Names ["w"] "./a//b/.".toList ["w", "a", "b"] ∧ Names ["w"] "/srv/x".toList ["srv", "x"] :=
  ⟨names_iff.2 (by decide +kernel), names_iff.2 (by decide +kernel)⟩

/-- C52 (partial), definitions: `stage` reads the definitions of its profile; with `status` and `clone`,
which use the default profile's, it agrees exactly when the two directories are the same. -/
theorem C52_one_definitions_partial (p : Project) (profile : String) :
    definitionsOf p profile .stage = some (p.definitionsDir profile) ∧
    ((∀ c r, definitionsOf p profile c = some r → r = p.definitionsDir profile) ↔
      p.definitionsDir DEFAULT_PROFILE = p.definitionsDir profile) := by
  refine ⟨rfl, ?_, ?_⟩
  · intro h; exact h .clone _ rfl
  · intro h c r hr
    cases c <;> simp only [definitionsOf, Option.some.injEq, reduceCtorEq] at hr <;> rw [← hr]
    · exact h
    · exact h

/-- C52: a profile that is not in the file is an error. -/
theorem C52_unknown_profile {env : Env} {base : Path} {y : YProject} {p : Project}
    (h : loadProject env base (some y) = .ok p) (profile : String) :
    y.get? profile = none ↔ p.historyDir profile = .error (.profileNotFound profile) := by
  unfold Project.historyDir
  constructor
  · intro hn
    cases hq : p.profile profile with
    | ok q => obtain ⟨c, hc, _⟩ := (profile_iff h).1 hq; rw [hn] at hc; cases hc
    | error e =>
      unfold Project.profile at hq
      split at hq
      · cases hq
      · injection hq with hq; rw [← hq]
  · intro he
    cases hg : y.get? profile with
    | none => rfl
    | some c => rw [(profile_iff h).2 ⟨c, hg, rfl⟩] at he; cases he

/-- A project with a second profile (for examples). -/
def twoProfiles : YProject :=
  baseProject ++ [("prod", ⟨"$URL", "prod/history", "/srv/defs", "podo_meta"⟩)]

example : ∃ p, loadProject demoEnv ["w"] (some twoProfiles) = .ok p ∧
    p.historyDir "prod" = .ok ["w", "prod", "history"] ∧ p.definitionsDir "prod" = .ok ["srv", "defs"] ∧
    p.historyDir "database" = .ok ["w", "database", "history"] :=
  Def.exists_ok (by decide +kernel)

/-- The full C52 is false: with two profiles, `stage` writes one history and `up` reads another. -/
theorem C52_one_history_false :
    ∃ y p, loadProject demoEnv ["w"] (some y) = .ok p ∧
      historyOf p "prod" .stage = some (.ok ["w", "prod", "history"]) ∧
      historyOf p "prod" .up = some (.ok ["w", "database", "history"]) := by
  refine ⟨twoProfiles, ?_⟩
  exact Def.exists_ok (by decide +kernel)

/-! ### C55 -/

theorem perm_pair {α : Type} {a b : α} {l : List α} (h : [a, b].Perm l) : l = [a, b] ∨ l = [b, a] := by
  match l, h.length_eq with
  | [x, y], _ =>
    have hx : x ∈ [a, b] := h.mem_iff.2 (by simp)
    simp only [List.mem_cons, List.not_mem_nil, or_false] at hx
    rcases hx with rfl | rfl
    · have := (List.perm_cons x).1 h
      rw [List.singleton_perm] at this
      left; rw [this]
    · have h2 : [x, a].Perm [x, y] := (List.Perm.swap a x []).trans h
      have := (List.perm_cons x).1 h2
      rw [List.singleton_perm] at this
      right; rw [this]

theorem expand_plain (env : Env) : ∀ s : List Char, '$' ∉ s → expand env s = s := by
  have : ∀ (s : List Char) (n : Nat), '$' ∉ s → s.length < n → expandLoop env n s = s := by
    intro s
    induction s with
    | nil => intro n _ h; cases n with
      | zero => simp at h
      | succ n => rfl
    | cons c cs ih =>
      intro n hd h
      cases n with
      | zero => simp at h
      | succ n =>
        simp only [List.mem_cons, not_or] at hd
        simp only [List.length_cons] at h
        unfold expandLoop
        rw [if_neg (fun e => hd.1 e.symm), ih n hd.2 (by omega)]
  intro s h
  exact this s _ h (Nat.lt_succ_self _)

/-- The definition file `init` writes. -/
def initDoc : Def.Yaml := .map [some "schema public"] [.map [] []]

theorem join_history (env : Env) (cwd : Path) :
    join cwd (expand env "database/history".toList) = cwd ++ ["database", "history"] := by
  rw [expand_plain env _ (by decide)]
  have : join cwd "database/history".toList = cwd ++ components "database/history".toList := rfl
  rw [this]
  congr 1

theorem join_definitions (env : Env) (cwd : Path) :
    join cwd (expand env "database/definitions".toList) = cwd ++ ["database", "definitions"] := by
  rw [expand_plain env _ (by decide)]
  have : join cwd "database/definitions".toList = cwd ++ components "database/definitions".toList := rfl
  rw [this]
  congr 1

/-- The project `init` makes. -/
def initProject (env : Env) (cwd : Path) : Project :=
  ⟨cwd, [loadProfile env cwd DEFAULT_PROFILE
    ⟨"postgresql://localhost:5432/postgres", "database/history", "database/definitions", "podo_meta"⟩]⟩

/-- What `init` does when it finds no project. -/
theorem init_new {env : Env} {fs : Fs} {cwd : Path} {e : ProjectError} {dir : HDir}
    (h0 : discover env fs cwd = .error e)
    (hs : (fs.history (cwd ++ ["database", "history"])).saveAll
      [Version.newInit, Version.newStage "init"] = (dir, true)) :
    init env fs cwd = (⟨update fs.config cwd (some (some baseProject)),
      update fs.history (cwd ++ ["database", "history"]) dir,
      update fs.definitions (cwd ++ ["database", "definitions"])
        (Def.insertEntry (fs.definitions (cwd ++ ["database", "definitions"])) "public.yaml" initDoc)⟩,
      .done) := by
  have el : loadProject env cwd (some baseProject) = .ok (initProject env cwd) := rfl
  have ehd : (initProject env cwd).historyDir DEFAULT_PROFILE = .ok (cwd ++ ["database", "history"]) :=
    congrArg Except.ok (join_history env cwd)
  have edd : (initProject env cwd).definitionsDir DEFAULT_PROFILE =
      .ok (cwd ++ ["database", "definitions"]) := congrArg Except.ok (join_definitions env cwd)
  unfold init
  rw [h0]
  dsimp only
  rw [el]
  dsimp only
  rw [ehd, edd]
  dsimp only
  have ea : Change.applyAll (Version.newInit.changes ++ (Version.newStage Version.newInit.name).changes)
      Database.new = .ok ⟨[("public", Schema.new "public")]⟩ := rfl
  rw [ea]
  dsimp only
  rw [show Version.newInit.name = "init" from rfl, hs]
  dsimp only
  rw [if_neg (by simp)]
  have ey : Def.saveDoc ⟨[("public", Schema.new "public")]⟩ = .ok initDoc := rfl
  rw [ey]

/-- C55.  `init`, run in a directory that is in no project and whose `database` directory is empty,
succeeds; the project is then found there, and however the system lists its files: the history opens on
`init`, the stage is empty, the definitions load, and `stage` finds nothing to do. -/
theorem C55_init_clean (env : Env) (fs : Fs) (cwd : Path)
    (hfs : ∀ d, Above d cwd → fs.config d = none)
    (hh : fs.history (cwd ++ ["database", "history"]) = [])
    (hd : fs.definitions (cwd ++ ["database", "definitions"]) = []) :
    ∃ fs' p h ds, init env fs cwd = (fs', .done) ∧
      discover env fs' cwd = .ok p ∧ p.baseDir = cwd ∧
      p.historyDir "database" = .ok h ∧ p.definitionsDir "database" = .ok ds ∧
      ∀ dir files, (fs'.history h).Perm dir → (fs'.definitions ds).Perm files →
        Opens dir "init" ∧ Stored dir "stage" ⟨"stage", some "init", [], [], []⟩ ∧
        ∃ s t, SnapshotOf dir "stage" s ∧
          Load.snapshot Def.parseDoc (files.map fun f => .file f.1 f.2) = .ok t ∧
          Diff.compareDiff s t = [] ∧ Runs (.stage (.ok t)) dir dir true := by
  have e0 : discover env fs cwd = .error (.projectNotFound []) := by
    refine (discoverUp_none cwd.reverse).2 ?_
    rw [List.reverse_reverse]; exact hfs
  let p : Project := initProject env cwd
  have ehd : p.historyDir "database" = .ok (cwd ++ ["database", "history"]) :=
    congrArg Except.ok (join_history env cwd)
  have edd : p.definitionsDir "database" = .ok (cwd ++ ["database", "definitions"]) :=
    congrArg Except.ok (join_definitions env cwd)
  have el : loadProject env cwd (some baseProject) = .ok p := rfl
  let fs' : Fs := ⟨update fs.config cwd (some (some baseProject)),
    update fs.history (cwd ++ ["database", "history"]) initDir,
    update fs.definitions (cwd ++ ["database", "definitions"]) [("public.yaml", initDoc)]⟩
  have e1 : init env fs cwd = (fs', .done) := by
    rw [init_new e0 (dir := initDir) (by rw [hh]; rfl), hd]
    rfl
  have ec : fs'.config cwd = some (some baseProject) := by simp [fs', update]
  have e2 : discover env fs' cwd = .ok p := by
    obtain ⟨y, h1, h2⟩ := (C51_nearest_project env fs' cwd).1 cwd
      ⟨List.prefix_refl _, by rw [ec]; simp, fun d hd _ => hd⟩
    rw [ec] at h1; cases h1
    rw [h2, el]
  refine ⟨fs', p, _, _, e1, e2, rfl, ehd, edd, ?_⟩
  intro dir files hp hf
  have h1 : fs'.history (cwd ++ ["database", "history"]) = initDir := by simp [fs', update]
  have h2 : fs'.definitions (cwd ++ ["database", "definitions"]) = [("public.yaml", initDoc)] := by
    simp [fs', update]
  rw [h1] at hp
  rw [h2, List.singleton_perm] at hf
  subst hf
  have et : Load.snapshot Def.parseDoc [DirTree.file "public.yaml" initDoc] =
      .ok ⟨[("public", Schema.new "public")]⟩ := by decide +kernel
  have hp' : dir = [("init.yaml", .file (some Version.newInit)),
      ("stage.yaml", .file (some (Version.newStage "init")))] ∨
      dir = [("stage.yaml", .file (some (Version.newStage "init"))),
        ("init.yaml", .file (some Version.newInit))] := perm_pair hp
  rcases hp' with rfl | rfl
  · exact ⟨⟨3, _, rfl⟩, rfl, ⟨[("public", Schema.new "public")]⟩, _, ⟨3, rfl⟩, et, rfl, ⟨3, rfl⟩⟩
  · exact ⟨⟨3, _, rfl⟩, rfl, ⟨[("public", Schema.new "public")]⟩, _, ⟨3, rfl⟩, et, rfl, ⟨3, rfl⟩⟩

/-- A project elsewhere does not matter. -/
example : ∃ fs : Fs, (∀ d, Above d ["a"] → fs.config d = none) ∧ fs.config ["b"] ≠ none ∧
    fs.history (["a"] ++ ["database", "history"]) = [] ∧
    fs.definitions (["a"] ++ ["database", "definitions"]) = [] := by
  refine ⟨⟨fun p => if p = ["b"] then some none else none, fun _ => [], fun _ => []⟩, ?_, by simp, rfl, rfl⟩
  intro d hd
  have : d ≠ ["b"] := by
    rintro rfl
    exact absurd hd (by unfold Above; decide)
  simp [this]

/-! ### C59 -/

/-- C59 (partial).  `init` in a project (from any directory inside it) changes nothing, if the
configuration file can be read.  Missing for the full property: a configuration file that cannot be
read, and a history without one, where it is false. -/
theorem C59_init_keeps_project_partial {env : Env} {fs : Fs} {cwd : Path} {p : Project}
    (h : discover env fs cwd = .ok p) : init env fs cwd = (fs, .exists_ p.baseDir) := by
  unfold init; rw [h]

example : ∃ p, discover demoEnv demoFs ["a", "b", "c"] = .ok p ∧ p.baseDir = ["a", "b"] :=
  Def.exists_ok (by decide +kernel)

/-- The full C59 is false: a mistake in the configuration file makes `init` start the project again on
top of the old one; what was staged is lost and, as the stage is put right after `init` while a version
was made before, the history no longer opens. -/
theorem C59_init_overwrites_false (env : Env) (cwd : Path) (made st : Version)
    (hm : made.previous = some "init") :
    ∃ fs fs' : Fs, fs.config cwd = some none ∧
      fs.history (cwd ++ ["database", "history"]) = [("init.yaml", .file (some Version.newInit)),
        ("1-a.yaml", .file (some made)), ("stage.yaml", .file (some st))] ∧
      init env fs cwd = (fs', .done) ∧ fs'.config cwd = some (some baseProject) ∧
      Stored (fs'.history (cwd ++ ["database", "history"])) "stage" ⟨"stage", some "init", [], [], []⟩ ∧
      FailsToOpen (fs'.history (cwd ++ ["database", "history"])) := by
  let fs : Fs := ⟨update (fun _ => none) cwd (some none),
    fun _ => [("init.yaml", .file (some Version.newInit)),
        ("1-a.yaml", .file (some made)), ("stage.yaml", .file (some st))], fun _ => []⟩
  have ec : fs.config cwd = some none := by simp [fs, update]
  have h0 : discover env fs cwd = .error .config := by
    obtain ⟨y, h1, h2⟩ := (C51_nearest_project env fs cwd).1 cwd
      ⟨List.prefix_refl _, by rw [ec]; simp, fun d hd _ => hd⟩
    rw [ec] at h1; cases h1
    exact h2
  obtain ⟨n, pr, cs, up, down⟩ := made
  simp only at hm
  subst hm
  refine ⟨fs, _, ec, rfl, init_new h0 (dir := [("init.yaml", .file (some Version.newInit)),
    ("1-a.yaml", .file (some ⟨n, some "init", cs, up, down⟩)),
    ("stage.yaml", .file (some (Version.newStage "init")))]) rfl, by simp [update], ?_, ?_⟩
  · simp only [update, if_pos]
    rfl
  · simp only [update, if_pos]
    exact ⟨9, .branched "init" n "stage", rfl⟩

end Proj
end Podo
