import Verif.Proofs.Stderr
import Verif.Proofs.StderrText
import Verif.Props.ProgramPg
import Verif.Props.Demo
import Verif.Props.DdlErrors
import Verif.Props.MetaName
/-
C81: what a command that fails prints on standard error.
-/
namespace Podo
namespace Prog
open Proj
variable {σ : Type}

/-! ### One message -/

/-- C81.  A command that has ended has printed one thing on standard error: a message if it reports an error,
and else (it succeeds or panics) none. -/
theorem C81_one_message {S : Setting σ} (T : Texts) {w w' : World σ} {cwd : Proj.Path} {a : Args}
    {out : List String} {e : Ending} (h : Ends S w cwd a w' out e) :
    ∃ line, (∀ l, Says S T w cwd a l ↔ l = line) ∧ (line ≠ none ↔ e = .error) := by
  obtain ⟨fuel, h⟩ := h
  have hs : Says S T w cwd a (stderr S T fuel w cwd a) := ⟨fuel, by rw [h]; simp, rfl⟩
  refine ⟨stderr S T fuel w cwd a, fun l => ⟨fun hl => says_unique hl hs, fun hl => hl ▸ hs⟩, ?_⟩
  have := report_agrees S fuel w cwd a
  rw [h] at this
  have hx : (report S fuel w cwd a).isSome = true ↔ e = .error := this
  rw [← hx]
  unfold stderr
  cases report S fuel w cwd a <;> simp

/-- C81.  The message is the text of the error the command ends with, and there is one such error only. -/
theorem C81_message_of {S : Setting σ} {T : Texts} {w : World σ} {cwd : Proj.Path} {a : Args} :
    (∀ line, Says S T w cwd a (some line) ↔ ∃ r, Reports S w cwd a r ∧ line = r.text T S.serverError) ∧
    (∀ r r', Reports S w cwd a r → Reports S w cwd a r' → r = r') := by
  refine ⟨fun _ => says_some, ?_⟩
  rintro r r' ⟨n, h⟩ ⟨m, h'⟩
  have e1 := (run_settled (m := max n m) (Nat.le_max_left _ _) (report_ended h)).2
  have e2 := (run_settled (m := max n m) (Nat.le_max_right _ _) (report_ended h')).2
  rw [e1, h, h'] at e2
  injection e2

/-- C81.  The names of the profiles and versions an error is about stand in its message. -/
theorem C81_names_stand_in (T : Texts) (serverError : String) (r : Report) :
    ∀ n ∈ r.about, Def.StandsIn n (r.text T serverError) := by
  intro n hn
  cases r with
  | project e =>
    cases e with
    | profileNotFound m =>
      cases List.mem_singleton.1 hn
      refine ⟨"profile not found: ", "", ?_⟩
      rw [String.append_empty]
      rfl
    | _ => cases hn
  | history e =>
    cases e with
    | branched p a b =>
      have ht : (Report.history (.branched p a b)).text T serverError = "version \"" ++ p ++
        "\" has two next versions: \"" ++ a ++ "\" and \"" ++ b ++ "\"" := rfl
      rw [ht]
      rcases List.mem_cons.1 hn with h | hn
      · subst h
        exact ⟨"version \"", "\" has two next versions: \"" ++ a ++ "\" and \"" ++ b ++ "\"",
          by simp only [String.append_assoc]⟩
      rcases List.mem_cons.1 hn with h | hn
      · subst h
        exact ⟨"version \"" ++ p ++ "\" has two next versions: \"", "\" and \"" ++ b ++ "\"",
          by simp only [String.append_assoc]⟩
      · cases List.mem_singleton.1 hn
        exact ⟨"version \"" ++ p ++ "\" has two next versions: \"" ++ a ++ "\" and \"", "\"",
          by simp only [String.append_assoc]⟩
    | unreachable a b =>
      have ht : (Report.history (.unreachable a b)).text T serverError = "version \"" ++ a ++
        "\" is not reachable from version \"" ++ b ++ "\"" := rfl
      rw [ht]
      rcases List.mem_cons.1 hn with h | hn
      · subst h
        exact ⟨"version \"", "\" is not reachable from version \"" ++ b ++ "\"",
          by simp only [String.append_assoc]⟩
      · cases List.mem_singleton.1 hn
        exact ⟨"version \"" ++ a ++ "\" is not reachable from version \"", "\"",
          by simp only [String.append_assoc]⟩
    | _ => cases hn
  | noMatchingVersion v =>
    cases List.mem_singleton.1 hn
    exact ⟨"no version matching \"", "\" found", rfl⟩
  | _ => cases hn

/-- C81 (partial: where no name has a quote in it).  Among the errors whose text is podo's own, the message tells
the error, with the names. -/
theorem C81_message_tells_partial {T : Texts} {serverError : String} {r r' : Report} (h : r.Own) (h' : r'.Own)
    (hq : ∀ n ∈ r.about, '"' ∉ n.toList) (hq' : ∀ n ∈ r'.about, '"' ∉ n.toList)
    (he : r.text T serverError = r'.text T serverError) : r = r' :=
  ownChars_inj h h' hq hq' (by rw [← ownChars_text (T := T) (se := serverError) h, he, ownChars_text h'])

/-! ### The configuration -/

/-- C81: a command says that there is no project exactly if it uses a profile and no directory at or above the
current one has a configuration file. -/
theorem C81_no_project {S : Setting σ} {w : World σ} {cwd : Proj.Path} {a : Args} :
    (∃ d, Reports S w cwd a (.project (.projectNotFound d))) ↔
      a.uses ≠ [] ∧ ¬ ∃ d, Nearest w.fs cwd d := by
  rw [← (C51_nearest_project S.env w.fs cwd).2]
  constructor
  · rintro ⟨d, h⟩
    rcases report_config_iff.1 h with ⟨hu, h | ⟨_, _, _, h, _⟩⟩
    · exact ⟨hu, d, h⟩
    · cases h
  · rintro ⟨hu, d, h⟩
    exact ⟨d, report_config_iff.2 ⟨hu, .inl h⟩⟩

/-- C81 does not hold for the directory: wherever podo was started and without a project, the message names
the root directory. -/
theorem C81_directory_false {S : Setting σ} {T : Texts} {w : World σ} {cwd : Proj.Path} {a : Args}
    (hu : a.uses ≠ []) (h : ¬ ∃ d, Nearest w.fs cwd d) :
    Says S T w cwd a (some "project not found in directory tree: /") := by
  obtain ⟨d, hd⟩ := (C51_nearest_project S.env w.fs cwd).2.2 h
  cases discoverUp_notFound _ hd
  exact says_some.2 ⟨_, report_config_iff.2 ⟨hu, .inl hd⟩,
    (by decide : "project not found in directory tree: /" =
      "project not found in directory tree: " ++ Path.display [])⟩

/-- C81: a command says that a profile is not found exactly if that is the first profile it uses that is not
in the configuration. -/
theorem C81_profile {S : Setting σ} {w : World σ} {cwd : Proj.Path} {a : Args} {p : Project}
    (hp : discover S.env w.fs cwd = .ok p) (n : String) :
    Reports S w cwd a (.project (.profileNotFound n)) ↔ FirstMissing p a.uses n := by
  rw [report_config_iff]
  constructor
  · rintro ⟨_, h | ⟨p', n', h, h', hm⟩⟩
    · rw [hp] at h; cases h
    · rw [hp] at h; cases h; cases h'; exact hm
  · intro hm
    refine ⟨?_, .inr ⟨p, n, hp, rfl, hm⟩⟩
    intro hu
    rw [hu] at hm
    cases hm

/-- C81, the text of it. -/
theorem C81_profile_text {S : Setting σ} {T : Texts} {w : World σ} {cwd : Proj.Path} {a : Args} {p : Project}
    (hp : discover S.env w.fs cwd = .ok p) {n : String} (hm : FirstMissing p a.uses n) :
    Says S T w cwd a (some ("profile not found: " ++ n)) :=
  says_some.2 ⟨_, (C81_profile hp n).2 hm, rfl⟩

/-! ### Version files -/

/-- C81: the message that a version has two next versions names a version and two others in different files
that follow it; and if there are such versions, and every version file can be read, there is such a
message. -/
theorem C81_branch {S : Setting σ} {T : Texts} {w : World σ} {cwd : Proj.Path} {a : Args} {q₀ : Profile}
    (hs : StartsOn S w cwd a q₀) (hd : (w.fs.history q₀.history).NodupKeys)
    (hp : PlainNames (w.fs.history q₀.history)) :
    (∀ p x y, Reports S w cwd a (.history (.branched p x y)) → Branch (w.fs.history q₀.history) p x y) ∧
    (AllReadable (w.fs.history q₀.history) → (∃ p x y, Branch (w.fs.history q₀.history) p x y) →
      ∃ p x y, Branch (w.fs.history q₀.history) p x y ∧ Says S T w cwd a
        (some ("version \"" ++ p ++ "\" has two next versions: \"" ++ x ++ "\" and \"" ++ y ++ "\""))) := by
  constructor
  · rintro p x y ⟨fuel, h⟩
    rcases report_history_cases hs h with h | h | h | ⟨_, _, h⟩
    · exact fromDir_branched hd hp h
    · cases h
    · cases h
    · exact absurd h notBranched_range
  · intro ha hb
    obtain ⟨p, x, y, hf⟩ := (C20_branches_exact_partial hd hp ha).1.1 hb
    exact ⟨p, x, y, fromDir_branched hd hp (hf 0),
      says_some.2 ⟨_, ⟨0, report_open_error hs (hf 0)⟩, rfl⟩⟩

/-- C81: `stage` and `status` say that a version cannot be reached from another only about "stage" and
"init", and only if "init" is not on the way back from "stage". -/
theorem C81_unreachable_stage {S : Setting σ} {w : World σ} {cwd : Proj.Path} {a : Args} {q₀ : Profile}
    {name : String} (ha : a = .stage name ∨ a = .status name) (hs : StartsOn S w cwd a q₀)
    (hn : NamedAfterVersion (w.fs.history q₀.history)) (hac : Acyclic (w.fs.history q₀.history))
    {hi lo : String} (h : Reports S w cwd a (.history (.unreachable hi lo))) :
    hi = "stage" ∧ lo = "init" ∧ ¬ OnPath (w.fs.history q₀.history) "init" "stage" := by
  obtain ⟨fuel, h⟩ := h
  have hf : HistoryFault fuel (w.fs.history q₀.history) "stage" "init" (.unreachable hi lo) := by
    obtain ⟨⟨n, hn, hq₀⟩, hall, _⟩ := hs
    rcases ha with rfl | rfl
    · cases hn
      rw [report_stage hq₀] at h
      exact stageReport_history h
    · cases hn
      obtain ⟨q, hq⟩ := hall name (by simp [Args.uses])
      rw [report_status hq₀ hq] at h
      exact statusReport_history h
  rcases hf with h | h | h | h
  · exact absurd h fromDir_unreachable
  · obtain ⟨rfl, rfl⟩ := range_unreachable h
    exact ⟨rfl, rfl, (C22_range_fails hn hac _ _).1.1 ⟨fuel, _, h⟩⟩
  · cases h
  · cases h

/-- C81: `up` says that a version cannot be reached from another only about the version it is to go to (the
one asked for, else the last one made) and the one applied last, and only if the latter is not on the way back
from the former.  It says so if the version files on that way are there. -/
theorem C81_unreachable_up {S : Setting σ} {T : Texts} {w : World σ} {cwd : Proj.Path} {name : String}
    {q₀ q : Profile} (hq₀ : ProfileAt S.env w.fs cwd "database" q₀) (hq : ProfileAt S.env w.fs cwd name q)
    (hi : S.Reads q.metadataSchema) {s : Server σ} (hs : w.servers q.databaseUrl = some s)
    (hr : Pg.Reach S.B (s.db q.metadataSchema)) (hw : (s.db q.metadataSchema).metaSchema ≠ .absent)
    (hd : NamedAfterVersion (w.fs.history q₀.history)) (hac : Acyclic (w.fs.history q₀.history))
    {target : Option String} {cv n : String} (hop : Opens (w.fs.history q₀.history) cv)
    (htar : target.getD cv = n) {cur : Version}
    (hcur : (s.db q.metadataSchema).applied.getLast? = some cur) :
    (∀ high low, Reports S w cwd (.up name target) (.history (.unreachable high low)) →
      high = n ∧ low = cur.name ∧ ¬ OnPath (w.fs.history q₀.history) cur.name n) ∧
    (¬ OnPath (w.fs.history q₀.history) cur.name n → (∃ v, Stored (w.fs.history q₀.history) n v) →
      (∀ c v p, OnPath (w.fs.history q₀.history) c n → Stored (w.fs.history q₀.history) c v →
        v.previous = some p → ∃ x, Stored (w.fs.history q₀.history) p x) →
      Says S T w cwd (.up name target)
        (some ("version \"" ++ n ++ "\" is not reachable from version \"" ++ cur.name ++ "\""))) := by
  obtain ⟨t, htab, hens, hch⟩ := ensure_written hr hw
  obtain ⟨k, nm, hk⟩ := hop
  have hcurT : ∃ r : Pg.Row, t.current = some r.version ∧ r.version = cur := by
    obtain ⟨ql, l, hq⟩ := hch.split_last
    refine ⟨l, hch.current hq, ?_⟩
    unfold Pg.DB.applied at hcur
    rw [htab] at hcur
    simp only [hq, List.map_append, List.map_cons, List.map_nil, List.getLast?_append, List.getLast?_singleton,
      Option.some_or, Option.some.injEq] at hcur
    exact hcur
  obtain ⟨r, hc1, hc2⟩ := hcurT
  subst hc2
  constructor
  · rintro high low ⟨fuel, h⟩
    rw [report_up hq₀ hq hi target hs] at h
    rcases upReport_history h with h | h | h | ⟨o, t', c, to, ho, ht', hc, hto, h⟩
    · exact absurd h fromDir_unreachable
    · cases h
    · cases h
    · rw [hens] at ht'
      cases ht'
      rw [hc1] at hc
      cases hc
      have hcv : o.currentVersion = cv := by
        have a1 := fromDir_mono (Nat.le_max_left fuel k) ho
        have a2 := fromDir_mono (Nat.le_max_right fuel k) hk
        rw [a1] at a2
        cases a2
        rfl
      rw [hcv, htar] at hto
      have hname : to.name = n := hd.storedNames n to (stored_iff.2 hto)
      rw [hname] at h
      obtain ⟨rfl, rfl⟩ := range_unreachable h
      exact ⟨rfl, rfl, (C22_range_fails hd hac _ _).1.1 ⟨fuel, _, h⟩⟩
  · rintro hno ⟨v, hv⟩ hall
    obtain ⟨m, hm⟩ := (C22_range_fails hd hac _ _).2 hno ⟨v, hv⟩ hall
    refine says_some.2 ⟨.history (.unreachable n r.version.name), ⟨max k m, ?_⟩, rfl⟩
    rw [report_up hq₀ hq hi target hs]
    unfold upReport
    rw [fromDir_mono (Nat.le_max_left k m) hk]
    dsimp only
    rw [hens]
    dsimp only
    rw [hc1]
    dsimp only
    rw [htar, stored_iff.1 hv]
    dsimp only
    rw [hd.storedNames n v hv, upwardRange_mono (Nat.le_max_right k m) hm]

/-- C81: `down` says that there is no version of a name exactly if it is the one asked for, and the database
has not recorded it. -/
theorem C81_down_version {S : Setting σ} {w : World σ} {cwd : Proj.Path} {name : String} {q : Profile}
    (hq : ProfileAt S.env w.fs cwd name q) (hi : S.Reads q.metadataSchema) {s : Server σ}
    (hs : w.servers q.databaseUrl = some s) (hr : Pg.Reach S.B (s.db q.metadataSchema))
    (hw : (s.db q.metadataSchema).metaSchema ≠ .absent) (target : Option String) (v : String) :
    Reports S w cwd (.down name target) (.noMatchingVersion v) ↔
      target = some v ∧ ∀ x ∈ (s.db q.metadataSchema).applied, x.name ≠ v := by
  obtain ⟨t, htab, hens, hch⟩ := ensure_written hr hw
  have happ : (s.db q.metadataSchema).applied = t.rows.map Pg.Row.version := by
    unfold Pg.DB.applied; rw [htab]
  rw [happ]
  unfold Reports
  simp only [report_down hq hi target hs, downReport_version hens hch, exists_const, List.mem_map,
    forall_exists_index, and_imp, forall_apply_eq_imp_iff₂]

/-- C81: where the version files can be opened, `stage` and `status` give an error about the definitions
exactly if loading the definitions gives that error (which C80 describes), and one that can be printed. -/
theorem C81_definitions {S : Setting σ} {w : World σ} {cwd : Proj.Path} {a : Args} {q₀ : Profile}
    {name : String} (ha : a = .stage name ∨ a = .status name) (hs : StartsOn S w cwd a q₀) {cv : String}
    (hop : Opens (w.fs.history q₀.history) cv) (e : Def.LoadErrorE) :
    Reports S w cwd a (.definitions e) ↔
      Def.loadDirE ((w.fs.definitions q₀.definitions).map fun f => .file f.1 f.2) = .error e ∧
      e ≠ .panic ∧ ∀ x, e ≠ .snapshot x := by
  obtain ⟨k, nm, hk⟩ := hop
  obtain ⟨⟨n, hn, hq₀⟩, hall, _⟩ := hs
  unfold Reports
  rcases ha with rfl | rfl
  · cases hn
    simp only [report_stage hq₀, stageReport_definitions]
    exact ⟨fun ⟨_, _, h⟩ => h, fun h => ⟨k, ⟨_, hk⟩, h⟩⟩
  · cases hn
    obtain ⟨q, hq⟩ := hall name (by simp [Args.uses])
    simp only [report_status hq₀ hq, statusReport_definitions]
    exact ⟨fun ⟨_, _, h⟩ => h, fun h => ⟨k, ⟨_, hk⟩, h⟩⟩

/-- C81: and this is the message.  It shows the key, value or number that is not allowed (a value as the library
shows it), or contains all that C80 says of errors in definitions. -/
theorem C81_definitions_text {S : Setting σ} {T : Texts} {w : World σ} {cwd : Proj.Path} {a : Args} {q₀ : Profile}
    {name : String} (ha : a = .stage name ∨ a = .status name) (hs : StartsOn S w cwd a q₀) {cv : String}
    (hop : Opens (w.fs.history q₀.history) cv) {e : Def.LoadErrorE}
    (he : Def.loadDirE ((w.fs.definitions q₀.definitions).map fun f => .file f.1 f.2) = .error e) :
    (∀ key, e = .yaml (.invalidKey key) → Says S T w cwd a (some ("Invalid key: " ++ key))) ∧
    (e = .yaml .keyNotText → Says S T w cwd a (some ("Invalid key: " ++ T.shown))) ∧
    (e = .yaml .invalidValue → Says S T w cwd a (some ("Invalid value: " ++ T.shown))) ∧
    (∀ i, e = .yaml (.invalidNumber i) → Says S T w cwd a (some ("Invalid number: " ++ T.shown))) ∧
    (e = .notMapping → Says S T w cwd a (some T.definitionFile)) ∧
    ∀ d, e = .definition d → ∃ line, Says S T w cwd a (some line) ∧ ∀ f, Def.Within f d →
      Def.StandsIn f.text line ∧ Def.StandsIn f.culprit line ∧ ∀ x, f.detail = some x → Def.StandsIn x line := by
  have key : e ≠ .panic → (∀ x, e ≠ .snapshot x) → Says S T w cwd a (some (definitionsText T e)) :=
    fun h1 h2 => says_some.2 ⟨_, (C81_definitions ha hs hop e).2 ⟨he, h1, h2⟩, rfl⟩
  refine ⟨?_, ?_, ?_, ?_, ?_, ?_⟩
  · rintro k rfl; exact key (by simp) (by simp)
  · rintro rfl; exact key (by simp) (by simp)
  · rintro rfl; exact key (by simp) (by simp)
  · rintro i rfl; exact key (by simp) (by simp)
  · rintro rfl; exact key (by simp) (by simp)
  · rintro d rfl
    exact ⟨_, key (by simp) (by simp), fun f hf => Def.C80_message d f hf⟩

/-- C81 does not hold for version files: whichever version is missing, the message is that of the operating
system, which does not say it. -/
theorem C81_missing_version_false {S : Setting σ} {T : Texts} {w : World σ} {cwd : Proj.Path} {name : String}
    {q₀ q : Profile} (hq₀ : ProfileAt S.env w.fs cwd "database" q₀) (hq : ProfileAt S.env w.fs cwd name q)
    (hi : S.Reads q.metadataSchema) {s : Server σ} (hs : w.servers q.databaseUrl = some s)
    (hr : Pg.Reach S.B (s.db q.metadataSchema)) (hw : (s.db q.metadataSchema).metaSchema ≠ .absent)
    {cv n : String} (hop : Opens (w.fs.history q₀.history) cv)
    (hn : (w.fs.history q₀.history).get? (n ++ ".yaml") = none) :
    Says S T w cwd (.up name (some n)) (some T.io) := by
  obtain ⟨t, htab, hens, hch⟩ := ensure_written hr hw
  obtain ⟨k, nm, hk⟩ := hop
  obtain ⟨ql, l, hl⟩ := hch.split_last
  refine says_some.2 ⟨.history .fileSystem, ⟨k, ?_⟩, rfl⟩
  rw [report_up hq₀ hq hi _ hs]
  unfold upReport
  rw [hk]
  dsimp only
  rw [hens]
  dsimp only
  rw [hch.current hl]
  dsimp only [Option.getD_some]
  rw [show (w.fs.history q₀.history).getVersion n = .error .fileSystem from by
    unfold HDir.getVersion; rw [hn]]

theorem ensure_absent {B : Pg.Behaviour σ} {s : σ} :
    (Pg.ensureInitialized B ⟨.absent, s⟩).2 = true ↔ B.creates s = true ∧ B.accepts Version.newInit = true := by
  unfold Pg.ensureInitialized
  dsimp only
  cases hc : B.creates s with
  | false => simp
  | true =>
    have ha : (⟨[], 1⟩ : Pg.VTable).admits Version.newInit = true := by decide
    simp only [if_true, true_and]
    unfold Pg.VTable.insert
    rw [if_neg (by decide : ¬ (1 > Pg.maxOrder)), ha, Bool.true_and]
    cases B.accepts Version.newInit <;> simp

theorem ensure_never_absent {B : Pg.Behaviour σ} {db : Pg.DB σ} {m : Pg.Meta}
    (h : Pg.ensureInitialized B db = (m, true)) : m ≠ .absent := by
  rintro rfl
  unfold Pg.ensureInitialized at h
  split at h
  · split at h
    · simp at h
    · cases h
  · next hn => injection h with h _; exact hn h

theorem openMetaReport_notInitialized {S : Setting σ} {s : Server σ} {ms : String} :
    openMetaReport S s ms = .notInitialized ↔ (∃ other, S.ident ms = some other ∧ s.metas other = .absent) ∧
      s.metas ms = .absent ∧ S.B.creates s.data = true ∧ S.B.accepts Version.newInit = true := by
  unfold openMetaReport
  split
  · next h => simp [h]
  · next n h =>
    rw [← ensure_absent]
    split
    · next h2 =>
      split
      · next h3 => simp [h, h2, h3]
      · next h3 => simp [h3]
    · next h2 =>
      constructor
      · intro hx; cases hx
      · rintro ⟨⟨o, ho, h3⟩, h4, _⟩
        rw [h] at ho; cases ho
        exact absurd ⟨h4, h3⟩ h2

theorem openMeta_none_of {S : Setting σ} {s : Server σ} {ms other : String} (h : S.ident ms = some other)
    (hne : other ≠ ms) (h1 : s.metas ms = .absent) : openMeta S s ms = none := by
  unfold openMeta
  rw [h]
  simp [hne, h1]

theorem openMeta_none_ne {S : Setting σ} {s : Server σ} {ms : String} (h : openMeta S s ms = none) :
    S.ident ms ≠ some ms := by
  intro h2
  unfold openMeta at h
  rw [h2] at h
  simp at h

theorem upReport_notInitialized {B : Pg.Behaviour σ} {fuel : Nat} {d : HDir} {target : Option String}
    {db : Pg.DB σ} : upReport B fuel d target db ≠ some .notInitialized := by
  unfold upReport
  intro h
  split at h <;> try (cases h; done)
  split at h <;> try (cases h; done)
  · next h2 => exact ensure_never_absent h2 rfl
  · split at h <;> try (cases h; done)
    split at h <;> try (cases h; done)
    split at h <;> try (cases h; done)
    split at h
    · split at h <;> cases h
    · obtain ⟨_, _, h⟩ := Option.map_eq_some_iff.1 h; cases h

theorem downReport_notInitialized {B : Pg.Behaviour σ} {target : Option String} {db : Pg.DB σ} :
    downReport B target db ≠ some .notInitialized := by
  unfold downReport
  intro h
  split at h <;> try (cases h; done)
  · next h2 => exact ensure_never_absent h2 rfl
  · split at h <;> try (cases h; done)
    split at h <;> try (cases h; done)
    split at h <;> try (cases h; done)
    split at h <;> try (cases h; done)
    split at h
    · split at h <;> cases h
    · cases h

/-- C81: `up` and `down` say that the database is not initialized exactly if the server reads the configured name
of the metadata schema as another one, has neither, and lets podo make the other and write the first row
there (and the history opens, for `up`). -/
theorem C81_not_initialized {S : Setting σ} {w : World σ} {cwd : Proj.Path} {name : String} {q : Profile}
    (hq : ProfileAt S.env w.fs cwd name q) {s : Server σ} (hs : w.servers q.databaseUrl = some s)
    (target : Option String) :
    let Misread := (∃ other, S.ident q.metadataSchema = some other ∧ other ≠ q.metadataSchema ∧
        s.metas other = .absent) ∧ s.metas q.metadataSchema = .absent ∧
      S.B.creates s.data = true ∧ S.B.accepts Version.newInit = true
    (Reports S w cwd (.down name target) .notInitialized ↔ Misread) ∧
    ∀ q₀, ProfileAt S.env w.fs cwd "database" q₀ →
      (Reports S w cwd (.up name target) .notInitialized ↔ Misread ∧ ∃ cv, Opens (w.fs.history q₀.history) cv) := by
  intro Misread
  have hmis : openMeta S s q.metadataSchema = none →
      (openMetaReport S s q.metadataSchema = .notInitialized ↔ Misread) := by
    intro ho
    rw [openMetaReport_notInitialized]
    have := openMeta_none_ne ho
    constructor
    · rintro ⟨⟨o, h1, h2⟩, h3⟩
      exact ⟨⟨o, h1, fun h => this (h ▸ h1), h2⟩, h3⟩
    · rintro ⟨⟨o, h1, _, h2⟩, h3⟩
      exact ⟨⟨o, h1, h2⟩, h3⟩
  have hnone : Misread → openMeta S s q.metadataSchema = none := by
    rintro ⟨⟨o, h1, h2, _⟩, h3, _⟩
    exact openMeta_none_of h1 h2 h3
  constructor
  · have hrep : ∀ fuel, report S fuel w cwd (.down name target) = match openMeta S s q.metadataSchema with
        | none => some (openMetaReport S s q.metadataSchema)
        | some m => downReport S.B target ⟨s.metas m, s.data⟩ := by
      intro fuel
      obtain ⟨p, hp, h⟩ := hq
      obtain ⟨_, _, h3, h4⟩ := profile_dirs h
      simp only [report, hp, h3, h4, hs]
      cases openMeta S s q.metadataSchema <;> rfl
    constructor
    · rintro ⟨fuel, h⟩
      rw [hrep] at h
      cases ho : openMeta S s q.metadataSchema with
      | none => rw [ho] at h; injection h with h; exact (hmis ho).1 h
      | some m => rw [ho] at h; exact absurd h downReport_notInitialized
    · intro h
      have ho := hnone h
      exact ⟨0, by rw [hrep, ho]; exact congrArg some ((hmis ho).2 h)⟩
  · intro q₀ hq₀
    constructor
    · rintro ⟨fuel, h⟩
      rw [report_up' hq₀ hq target hs] at h
      cases ho : openMeta S s q.metadataSchema with
      | none =>
        rw [ho] at h
        dsimp only at h
        split at h
        · cases h
        · cases h
        · next o hf => injection h with h; exact ⟨(hmis ho).1 h, o.currentVersion, fuel, o.nextMap, hf⟩
      | some m => rw [ho] at h; exact absurd h upReport_notInitialized
    · rintro ⟨h, cv, fuel, nm, hf⟩
      have ho := hnone h
      refine ⟨fuel, ?_⟩
      rw [report_up' hq₀ hq target hs, ho, hf]
      exact congrArg some ((hmis ho).2 h)

/-- C81: where the server of the profile cannot be reached, `down` tells the error of the connection, and `up`
as well. -/
theorem C81_cannot_connect {S : Setting σ} {T : Texts} {w : World σ} {cwd : Proj.Path} {name : String}
    {q₀ q : Profile} (hq₀ : ProfileAt S.env w.fs cwd "database" q₀) (hq : ProfileAt S.env w.fs cwd name q)
    (hs : w.servers q.databaseUrl = none) (target : Option String) :
    Says S T w cwd (.up name target) (some S.serverError) ∧
    Says S T w cwd (.down name target) (some S.serverError) := by
  obtain ⟨p, hp, h0, h⟩ := profileAt_default hq₀ hq
  obtain ⟨h1, _, _, _⟩ := profile_dirs h0
  obtain ⟨_, _, h3, h4⟩ := profile_dirs h
  constructor <;> refine says_some.2 ⟨.server, ⟨0, ?_⟩, rfl⟩
  · simp only [report, hp, DEFAULT_PROFILE, h1, h3, h4, hs]
  · simp only [report, hp, h3, h4, hs]

/-! ### Cases of the hypotheses -/

/-- A metadata schema named `Podo`, which the server reads as `podo`: `up` and `down` say that the database is
not initialized. -/
example (T : Texts) :
    Says pgSetting T (namedWorld "Podo") ["w"] (.up "database" none) (some "database history is not initialized") ∧
    Says pgSetting T (namedWorld "Podo") ["w"] (.down "database" none)
      (some "database history is not initialized") := by
  have h := C81_not_initialized (S := pgSetting) (w := namedWorld "Podo") (namedWorld_profile "Podo")
    (s := ⟨fun _ => .absent, []⟩) rfl none
  have hm : readSchema "Podo" = some "podo" := by decide +kernel
  exact ⟨says_some.2 ⟨_, (h.2 _ (namedWorld_profile "Podo")).2
      ⟨⟨⟨"podo", hm, by decide, rfl⟩, rfl, rfl, rfl⟩, demoMade.name, 9, _, rfl⟩, rfl⟩,
    says_some.2 ⟨_, h.1.2 ⟨⟨"podo", hm, by decide, rfl⟩, rfl, rfl, rfl⟩, rfl⟩⟩

/-- A server that cannot be reached. -/
example (T : Texts) : let w : World (List String) := { namedWorld "m" with servers := fun _ => none }
    Says pgSetting T w ["w"] (.up "database" none) (some pgSetting.serverError) :=
  (C81_cannot_connect (S := pgSetting) (w := { namedWorld "m" with servers := fun _ => none })
    (namedWorld_profile "m") (namedWorld_profile "m") rfl none).1

/-- Without a project; with a project that lacks the profile. -/
example (T : Texts) :
    Says progSetting T progWorld ["v"] (.stage "database") (some "project not found in directory tree: /") ∧
    Says progSetting T progWorld ["w"] (.up "x" none) (some "profile not found: x") := by
  constructor
  · refine C81_directory_false (by simp [Args.uses]) ?_
    rintro ⟨d, h1, h2, _⟩
    by_cases hd : d = ["w"]
    · subst hd
      obtain ⟨l, hl⟩ := h1
      simp at hl
    · exact h2 (by simp [progWorld, progFs, hd])
  · obtain ⟨p, hp, hq⟩ := progFs_profile initDir [("public.yaml", indexDoc false)]
    have hp' : p = ⟨["w"], [progProfile]⟩ := by
      have : discover demoEnv (progFs initDir [("public.yaml", indexDoc false)]) ["w"] =
          .ok ⟨["w"], [progProfile]⟩ := by
        show loadProject demoEnv ["w"] (some baseProject) = _
        decide +kernel
      rw [this] at hp
      injection hp with hp
      exact hp.symm
    refine C81_profile_text hp (n := "x") ?_
    rw [hp']
    refine .later ⟨progProfile, by simp, rfl⟩ (.here ?_)
    rintro ⟨q, hq, hn⟩
    cases List.mem_singleton.1 hq
    exact absurd hn (by decide)

/-- Two versions follow "init". -/
def branchDir : HDir :=
  [("init.yaml", .file (some Version.newInit)), ("a.yaml", .file (some ⟨"a", some "init", [], [], []⟩)),
    ("stage.yaml", .file (some (Version.newStage "init")))]

/-- A history with a branch. -/
example (T : Texts) : let w : World (List String) := ⟨progFs branchDir [], fun _ => none⟩
    StartsOn progSetting w ["w"] (.stage "database") progProfile ∧
    Branch (w.fs.history progProfile.history) "init" "a" "stage" ∧
    Says progSetting T w ["w"] (.stage "database")
      (some "version \"init\" has two next versions: \"a\" and \"stage\"") := by
  have hq := progFs_profile branchDir []
  refine ⟨⟨⟨_, rfl, hq⟩, ?_, ?_⟩, ?_, ?_⟩
  · intro n hn
    cases List.mem_singleton.1 hn
    exact ⟨_, hq⟩
  · intro _ _ _ h; cases h
  · exact ⟨"a.yaml", "stage.yaml", ⟨"a", some "init", [], [], []⟩, Version.newStage "init", by decide,
      ⟨by decide, "a", rfl⟩, ⟨by decide, "stage", rfl⟩, rfl, rfl, rfl, rfl⟩
  · refine says_some.2 ⟨.history (.branched "init" "a" "stage"), ⟨5, ?_⟩,
      (by decide : "version \"init\" has two next versions: \"a\" and \"stage\"" = "version \"" ++ "init" ++
        "\" has two next versions: \"" ++ "a" ++ "\" and \"" ++ "stage" ++ "\"")⟩
    rw [report_stage hq]
    rfl

/-- `up` to a version that comes before the one applied last, and `down` to one that is not recorded. -/
example (T : Texts) :
    Says pgSetting T (pgWorld demoUp) ["w"] (.up "database" (some "20200101000000-first"))
      (some "version \"20200101000000-first\" is not reachable from version \"stage\"") ∧
    Reports pgSetting (pgWorld demoUp) ["w"] (.down "database" (some "x")) (.noMatchingVersion "x") ∧
    Says pgSetting T (pgWorld demoUp) ["w"] (.up "database" (some "x")) (some T.io) := by
  have hq : ProfileAt pgSetting.env (pgWorld demoUp).fs ["w"] "database" progProfile := progFs_profile _ _
  refine ⟨?_, ?_, ?_⟩
  · refine says_some.2 ⟨.history (.unreachable "20200101000000-first" "stage"), ⟨9, ?_⟩,
      (by decide : "version \"20200101000000-first\" is not reachable from version \"stage\"" = "version \"" ++
        "20200101000000-first" ++ "\" is not reachable from version \"" ++ "stage" ++ "\"")⟩
    rw [report_up hq hq podo_meta_reads _ rfl]
    rfl
  · exact (C81_down_version hq podo_meta_reads rfl demoUp_reach (by simp [demoUp, Server.db, progProfile])
      (some "x") "x").2 ⟨rfl, by decide⟩
  · exact C81_missing_version_false hq hq podo_meta_reads rfl demoUp_reach
      (by simp [demoUp, Server.db, progProfile]) (cv := "20200101000000-first") ⟨9, _, rfl⟩ rfl

/-- A definition file that is no mapping: `stage` says so. -/
example : let w : World (List String) := ⟨progFs initDir [("a.yaml", .str "x")], fun _ => none⟩
    StartsOn progSetting w ["w"] (.stage "database") progProfile ∧
    Opens (w.fs.history progProfile.history) "init" ∧
    Reports progSetting w ["w"] (.stage "database") (.definitions .notMapping) := by
  have hq := progFs_profile initDir [("a.yaml", .str "x")]
  have hs : StartsOn progSetting ⟨progFs initDir [("a.yaml", .str "x")], fun _ => none⟩ ["w"]
      (.stage "database") progProfile :=
    ⟨⟨_, rfl, hq⟩, fun n hn => by cases List.mem_singleton.1 hn; exact ⟨_, hq⟩, fun _ _ _ h => by cases h⟩
  have ho : Opens initDir "init" := ⟨9, _, rfl⟩
  exact ⟨hs, ho, (C81_definitions (.inl rfl) hs ho _).2 ⟨by rfl, by simp, by simp⟩⟩

/-- A key that is not allowed: the message shows it. -/
example (T : Texts) : let w : World (List String) := ⟨progFs initDir [("a.yaml", .map [some "shema s"] [.null])], fun _ => none⟩
    Says progSetting T w ["w"] (.stage "database") (some ("Invalid key: " ++ "shema s")) := by
  have hq := progFs_profile initDir [("a.yaml", .map [some "shema s"] [.null])]
  have hs : StartsOn progSetting ⟨progFs initDir [("a.yaml", .map [some "shema s"] [.null])], fun _ => none⟩ ["w"]
      (.stage "database") progProfile :=
    ⟨⟨_, rfl, hq⟩, fun n hn => by cases List.mem_singleton.1 hn; exact ⟨_, hq⟩, fun _ _ _ h => by cases h⟩
  exact (C81_definitions_text (.inl rfl) hs (cv := "init") ⟨9, _, rfl⟩ (e := .yaml (.invalidKey "shema s")) (by rfl)).1
    _ rfl

end Prog
end Podo
