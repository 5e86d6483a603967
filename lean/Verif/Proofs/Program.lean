import Verif.Spec.Program
import Verif.Proofs.Commands
import Verif.Proofs.Pg
import Verif.Proofs.Project
import Verif.Proofs.DdlWf
import Verif.Proofs.Panics
import Verif.Proofs.DiffEmpty
/-
Lemmas about the whole program.
-/
set_option linter.unusedSimpArgs false
namespace Podo
namespace Prog
open Proj
variable {σ : Type}

theorem profile_dirs {p : Project} {name : String} {q : Profile} (h : p.profile name = .ok q) :
    p.historyDir name = .ok q.history ∧ p.definitionsDir name = .ok q.definitions ∧
    p.databaseUrl name = .ok q.databaseUrl ∧ p.metadataSchema name = .ok q.metadataSchema := by
  simp only [Project.historyDir, Project.definitionsDir, Project.databaseUrl, Project.metadataSchema, h,
    and_self]

theorem run_stage {S : Setting σ} {fuel : Nat} {w : World σ} {cwd : Proj.Path} {name : String} {q : Profile}
    (hq : ProfileAt S.env w.fs cwd name q) : run S fuel w cwd (.stage name) =
      runHist fuel w q.history (.stage (definitions w.fs q.definitions)) := by
  obtain ⟨p, hp, hq⟩ := hq
  obtain ⟨h1, h2, _, _⟩ := profile_dirs hq
  simp only [run, hp, h1, h2]

theorem run_make {S : Setting σ} {fuel : Nat} {w : World σ} {cwd : Proj.Path} {name : String} {q : Profile}
    (hq : ProfileAt S.env w.fs cwd name q) (label : Option String) :
    run S fuel w cwd (.make name label) = runHist fuel w q.history (.make S.now label) := by
  obtain ⟨p, hp, hq⟩ := hq
  obtain ⟨h1, _, _, _⟩ := profile_dirs hq
  simp only [run, hp, h1]

theorem run_reset {S : Setting σ} {fuel : Nat} {w : World σ} {cwd : Proj.Path} {name : String} {q : Profile}
    (hq : ProfileAt S.env w.fs cwd name q) :
    run S fuel w cwd (.reset name) = runHist fuel w q.history .reset := by
  obtain ⟨p, hp, hq⟩ := hq
  obtain ⟨h1, _, _, _⟩ := profile_dirs hq
  simp only [run, hp, h1]

theorem profileAt_default {env : Env} {fs : Fs} {cwd : Proj.Path} {a b : String} {q q' : Profile}
    (hq : ProfileAt env fs cwd a q) (hq' : ProfileAt env fs cwd b q') :
    ∃ p, discover env fs cwd = .ok p ∧ p.profile a = .ok q ∧ p.profile b = .ok q' := by
  obtain ⟨p, hp, h⟩ := hq
  obtain ⟨p', hp', h'⟩ := hq'
  rw [hp] at hp'; cases hp'
  exact ⟨p, hp, h, h'⟩

theorem openMeta_self {S : Setting σ} {ms : String} (h : S.ident ms = some ms) (s : Server σ) :
    openMeta S s ms = some ms := by
  simp only [openMeta, h, if_true]

theorem openMeta_some {S : Setting σ} {ms m : String} {s : Server σ} (h : openMeta S s ms = some m) :
    S.ident ms = some m := by
  unfold openMeta at h
  split at h
  · cases h
  · next f hf =>
    split at h
    · cases h; exact hf
    · split at h
      · cases h
      · cases h; exact hf

theorem tryCurrentVersion_self {S : Setting σ} {ms : String} (h : S.ident ms = some ms) {w : World σ}
    {url : String} {s : Server σ} (hs : w.servers url = some s) :
    tryCurrentVersion S w url ms = currentVersion S (s.metas ms) := by
  simp only [tryCurrentVersion, hs, h]
  cases hm : s.metas ms <;> rfl

theorem run_up {S : Setting σ} {fuel : Nat} {w : World σ} {cwd : Proj.Path} {name : String} {q₀ q : Profile}
    (hq₀ : ProfileAt S.env w.fs cwd "database" q₀) (hq : ProfileAt S.env w.fs cwd name q)
    (hi : S.ident q.metadataSchema = some q.metadataSchema)
    (target : Option String) {s : Server σ} (hs : w.servers q.databaseUrl = some s) :
    run S fuel w cwd (.up name target) =
      (Pg.up S.B fuel (w.fs.history q₀.history) target (s.db q.metadataSchema)).map
        fun r => (putServer w q.databaseUrl q.metadataSchema s r.1,
          Pg.upPrinted S.B fuel (w.fs.history q₀.history) target (s.db q.metadataSchema), pgEnding r.2) := by
  obtain ⟨p, hp, h0, h⟩ := profileAt_default hq₀ hq
  obtain ⟨h1, _, _, _⟩ := profile_dirs h0
  obtain ⟨_, _, h2, h3⟩ := profile_dirs h
  change p.historyDir DEFAULT_PROFILE = _ at h1
  simp only [run, hp, h1, h2, h3, hs, Server.db, openMeta_self hi]
  split
  · next h => rw [h]; rfl
  · next h => rw [h]; rfl

theorem run_status {S : Setting σ} {fuel : Nat} {w : World σ} {cwd : Proj.Path} {name : String}
    {q₀ q : Profile} (hq₀ : ProfileAt S.env w.fs cwd "database" q₀)
    (hq : ProfileAt S.env w.fs cwd name q) :
    run S fuel w cwd (.status name) =
      (statusIn S fuel w q₀.history q₀.definitions q.databaseUrl q.metadataSchema).map
        fun r => (w, r.1, r.2) := by
  obtain ⟨p, hp, h0, h⟩ := profileAt_default hq₀ hq
  obtain ⟨h1, h2, _, _⟩ := profile_dirs h0
  obtain ⟨_, _, h3, h4⟩ := profile_dirs h
  change p.historyDir DEFAULT_PROFILE = _ at h1
  change p.definitionsDir DEFAULT_PROFILE = _ at h2
  simp only [run, hp, h1, h2, h3, h4]
  split
  · next h => rw [h]; rfl
  · next h => rw [h]; rfl

/-- What `runHist` does, in terms of `exec`. -/
theorem runHist_ok {fuel : Nat} {w : World σ} {h : Proj.Path} {c : HistCmd} {d : HDir}
    (he : c.exec fuel (w.fs.history h) = some (d, true)) :
    ∃ w' out, runHist fuel w h c = some (w', out, .success) ∧ out = c.printed fuel (w.fs.history h) ∧
      w'.fs = { w.fs with history := update w.fs.history h d } ∧ w'.servers = w.servers := by
  unfold HistCmd.exec at he
  unfold runHist
  split at he
  · cases he
  · cases he
  · next vs hv =>
    rw [hv]
    simp only [Option.some.injEq] at he
    dsimp only
    rw [he]
    exact ⟨_, _, rfl, rfl, rfl, rfl⟩

theorem runHist_cases {fuel : Nat} {w w' : World σ} {h : Proj.Path} {c : HistCmd} {out : List String}
    {e : Ending} (hr : runHist fuel w h c = some (w', out, e)) :
    (∃ f, c.plan fuel (w.fs.history h) = some (.error f) ∧ w' = w ∧ e = CmdFail.ending f) ∨
    ∃ d ok, c.exec fuel (w.fs.history h) = some (d, ok) ∧
      w' = ⟨{ w.fs with history := update w.fs.history h d }, w.servers⟩ ∧
      e = if ok then .success else .error := by
  unfold runHist at hr
  split at hr
  · cases hr
  · next f hf => cases hr; exact .inl ⟨f, hf, rfl, rfl⟩
  · next vs hv =>
    cases hr
    refine .inr ⟨_, _, ?_, rfl, rfl⟩
    unfold HistCmd.exec
    rw [hv]

/-- Ending as a panic, a plan has failed. -/
theorem ending_ite (ok : Bool) : (if ok then Ending.success else Ending.error) ≠ .panic := by
  cases ok <;> simp

theorem runHist_success {fuel : Nat} {w w' : World σ} {h : Proj.Path} {c : HistCmd} {out : List String}
    (hr : runHist fuel w h c = some (w', out, .success)) :
    ∃ d, c.exec fuel (w.fs.history h) = some (d, true) ∧
      w' = ⟨{ w.fs with history := update w.fs.history h d }, w.servers⟩ := by
  rcases runHist_cases hr with ⟨f, _, _, he⟩ | ⟨d, ok, h1, h2, h3⟩
  · exfalso
    cases f with
    | error e => cases e <;> cases he
    | load e => cases e <;> cases he
    | panic => cases he
  · cases ok with
    | false => cases h3
    | true => exact ⟨d, h1, h2⟩

theorem update_self {α β : Type} [DecidableEq α] (f : α → β) (a : α) (b : β) : update f a b a = b := by
  simp [update]

theorem update_other {α β : Type} [DecidableEq α] (f : α → β) {a x : α} (b : β) (h : x ≠ a) :
    update f a b x = f x := by simp [update, h]

theorem update_same {α β : Type} [DecidableEq α] (f : α → β) (a : α) : update f a (f a) = f := by
  funext x; unfold update; split
  · next h => rw [h]
  · rfl

/-- The first line of `status`. -/
def dbLine : Except String Version → String
  | .ok v => "On database version: " ++ v.name
  | .error e => "On database version: " ++ e

theorem section_eq (t : String) (l : List Change) : (if l.length > 0 then
    t :: l.map (fun c => "    " ++ c.renderSql) else []) = section_ t l := by
  cases l <;> rfl

theorem nothing_eq (a b : List Change) :
    (if (a.length == 0 && b.length == 0) = true then ["No changes."] else []) =
      if a = [] ∧ b = [] then ["No changes."] else [] := by
  cases a <;> cases b <;> simp

/-- The lines of `status`. -/
theorem statusLines_eq (db : Except String Version) (a b : List Change) :
    statusLines db a b =
      dbLine db ::
      (section_ "Changes staged:" a ++ section_ "Changes not staged:" b ++
        if a = [] ∧ b = [] then ["No changes."] else []) := by
  rw [← nothing_eq, ← section_eq, ← section_eq]
  unfold statusLines
  cases db
  · rfl
  · rfl

theorem ne_of_head {a b : String} {x : Char} (ha : a.toList.head? = some x)
    (hb : b.toList.head? ≠ some x) : a ≠ b := by
  rintro rfl; exact hb ha

theorem head_append {p s : String} {x : Char} (h : p.toList.head? = some x) :
    (p ++ s).toList.head? = some x := by
  rw [String.toList_append, List.head?_append, h]; rfl

theorem no_changes_not_section (t : String) (cs : List Change) (ht : t.toList.head? = some 'C') :
    "No changes." ∉ section_ t cs := by
  cases cs with
  | nil => simp [section_]
  | cons c cs =>
    unfold section_
    simp only [List.mem_cons, List.mem_map, not_or, not_exists, not_and]
    refine ⟨fun h => ne_of_head (a := "No changes.") (x := 'N') (by decide) ?_ h, fun c' _ h => ?_⟩
    · rw [ht]; decide
    · refine ne_of_head (a := "No changes.") (x := 'N') (by decide) ?_ h.symm
      rw [head_append (x := ' ') (by decide)]; decide

theorem no_changes_dbLine (db : Except String Version) : "No changes." ≠ dbLine db := by
  have key : ∀ s : String, "No changes." ≠ "On database version: " ++ s := by
    intro s
    refine ne_of_head (x := 'N') (by decide) ?_
    rw [head_append (x := 'O') (by decide)]; decide
  cases db
  · exact key _
  · exact key _

theorem no_changes_mem (db : Except String Version) (a b : List Change) :
    "No changes." ∈ statusLines db a b ↔ a = [] ∧ b = [] := by
  rw [statusLines_eq]
  constructor
  · intro h
    rcases List.mem_cons.1 h with h | h
    · exact absurd h (no_changes_dbLine db)
    · rcases List.mem_append.1 h with h | h
      · rcases List.mem_append.1 h with h | h
        · exact absurd h (no_changes_not_section _ _ (by decide))
        · exact absurd h (no_changes_not_section _ _ (by decide))
      · split at h
        · assumption
        · cases h
  · rintro ⟨rfl, rfl⟩
    rw [if_pos ⟨rfl, rfl⟩]
    exact List.mem_cons_of_mem _ List.mem_cons_self

/-- `status` on a reachable history with definitions that load. -/
theorem status_reach {S : Setting σ} {w : World σ} {h ds : Proj.Path} (hr : Reachable (w.fs.history h))
    {t : Database} (ht : definitions w.fs ds = .ok t) :
    ∃ k s st, SnapshotOf (w.fs.history h) "stage" s ∧ Stored (w.fs.history h) "stage" st ∧ s.WF ∧
      ∀ fuel, k ≤ fuel → ∀ url ms, statusIn S fuel w h ds url ms =
        some (statusLines (tryCurrentVersion S w url ms) st.changes (Diff.compareDiff s t), .success) := by
  obtain ⟨vs, st, s, hh, hrec⟩ := hr.sound
  obtain ⟨nm, _, hfrom⟩ := hh.fromDir
  have hcal := fun k hk => hh.calculate hrec.applyAll (k := k) hk
  refine ⟨vs.length + 9 + (vs.length + 2), s, st, ⟨_, hcal (vs.length + 2) (by omega)⟩,
    hh.stored_stage, applyAll_wf Database.new_wf hrec.applyAll, fun fuel hf url ms => ?_⟩
  unfold statusIn
  rw [hfrom fuel (by omega)]
  dsimp only
  rw [ht]
  dsimp only
  have hst : (w.fs.history h).getVersion Version.STAGE = .ok st := (stored_iff).1 hh.stored_stage
  rw [hst]
  dsimp only
  have := hcal fuel (by omega)
  rw [show calculateSnapshot fuel (w.fs.history h) Version.STAGE = _ from this]

theorem statusIn_mono {S : Setting σ} {w : World σ} {h ds : Proj.Path} {url ms : String} {n m : Nat}
    {r : List String × Ending} (hnm : n ≤ m) (he : statusIn S n w h ds url ms = some r) :
    statusIn S m w h ds url ms = some r := by
  unfold statusIn at he ⊢
  cases hf : HDir.fromDir n (w.fs.history h) with
  | none => rw [hf] at he; cases he
  | some x =>
    rw [hf] at he; rw [fromDir_mono hnm hf]
    cases x with
    | error e => exact he
    | ok o =>
      dsimp only at he ⊢
      cases h1 : definitions w.fs ds with
      | error e => rw [h1] at he; exact he
      | ok t =>
        rw [h1] at he
        dsimp only at he ⊢
        cases h2 : (w.fs.history h).getVersion Version.STAGE with
        | error e => rw [h2] at he; exact he
        | ok st =>
          rw [h2] at he
          dsimp only at he ⊢
          cases hc : calculateSnapshot n (w.fs.history h) Version.STAGE with
          | none => rw [hc] at he; cases he
          | some y => rw [hc] at he; rw [calculate_mono hnm hc]; exact he

/-- The version `status` reads is the one applied last. -/
theorem current_of_reach (S : Setting σ) {db : Pg.DB σ} (h : Pg.Reach S.B db)
    (hm : db.metaSchema ≠ .absent) :
    ∃ v, db.applied.getLast? = some v ∧ currentVersion S db.metaSchema = .ok v := by
  cases hd : db.metaSchema with
  | absent => exact absurd hd hm
  | noTable => exact absurd hd h.hasTable
  | table t =>
    have hc := h.good t hd
    obtain ⟨q, r, he⟩ := hc.split_last
    refine ⟨r.version, ?_, ?_⟩
    · unfold Pg.DB.applied; rw [hd]; simp [he]
    · simp only [currentVersion, hc.current he]

theorem profileAt_config {env : Env} {fs fs' : Fs} (h : fs'.config = fs.config) {cwd : Proj.Path}
    {name : String} {q : Profile} : ProfileAt env fs' cwd name q ↔ ProfileAt env fs cwd name q := by
  unfold ProfileAt discover
  rw [h]

theorem definitions_snapshot {fs : Fs} {ds : Proj.Path} {t : Database} : definitions fs ds = .ok t ↔
    Load.snapshot Def.parseDoc ((fs.definitions ds).map fun f => .file f.1 f.2) = .ok t :=
  Def.loadFiles_iff

theorem definitions_wf {fs : Fs} {ds : Proj.Path} {t : Database} (h : definitions fs ds = .ok t) : t.WF :=
  Def.snapshot_wf (definitions_snapshot.1 h)

theorem definitions_files {fs fs' : Fs} (h : fs'.definitions = fs.definitions) (ds : Proj.Path) :
    definitions fs' ds = definitions fs ds := by
  unfold definitions
  rw [h]

theorem historyDir_profile {p : Project} {name : String} {h : Proj.Path}
    (hh : p.historyDir name = .ok h) : ∃ q, p.profile name = .ok q ∧ h = q.history := by
  unfold Project.historyDir at hh
  split at hh
  · next q hq => cases hh; exact ⟨q, hq, rfl⟩
  · cases hh

theorem database_profile {p : Project} {name url ms : String}
    (h1 : p.databaseUrl name = .ok url) (h2 : p.metadataSchema name = .ok ms) :
    ∃ q, p.profile name = .ok q ∧ url = q.databaseUrl ∧ ms = q.metadataSchema := by
  unfold Project.databaseUrl at h1
  unfold Project.metadataSchema at h2
  split at h1
  · next q hq => cases h1; rw [hq] at h2; cases h2; exact ⟨q, hq, rfl, rfl⟩
  · cases h1

/-- The three things a command can do. -/
theorem run_cases {S : Setting σ} {fuel : Nat} {w w' : World σ} {cwd : Proj.Path} {a : Args}
    {out : List String} {e : Ending} (h : run S fuel w cwd a = some (w', out, e)) (ha : a ≠ .init) :
    w' = w ∨
    (∃ name q c, a.WritesHistory ∧ a.profile? = some name ∧ ProfileAt S.env w.fs cwd name q ∧
      runHist fuel w q.history c = some (w', out, e)) ∨
    ∃ name q s m db o, a.WritesDatabase ∧ a.profile? = some name ∧ ProfileAt S.env w.fs cwd name q ∧
      S.ident q.metadataSchema = some m ∧
      w.servers q.databaseUrl = some s ∧ w' = putServer w q.databaseUrl m s db ∧
      e = pgEnding o ∧ (o ≠ .ok → Pg.Unchanged (s.db m) db) := by
  cases a with
  | init => exact absurd rfl ha
  | clone => cases h; exact .inl rfl
  | print => cases h; exact .inl rfl
  | sync p => cases h; exact .inl rfl
  | status name =>
    left
    simp only [run] at h
    repeat' split at h
    all_goals first | cases h; rfl | cases h
  | stage name =>
    simp only [run] at h
    split at h
    · cases h; exact .inl rfl
    · next p hp =>
      split at h
      · next hh hd =>
        obtain ⟨q, hq, rfl⟩ := historyDir_profile hh
        exact .inr (.inl ⟨name, q, _, trivial, rfl, ⟨p, hp, hq⟩, h⟩)
      · cases h; exact .inl rfl
  | reset name =>
    simp only [run] at h
    split at h
    · cases h; exact .inl rfl
    · next p hp =>
      split at h
      · next hh =>
        obtain ⟨q, hq, rfl⟩ := historyDir_profile hh
        exact .inr (.inl ⟨name, q, _, trivial, rfl, ⟨p, hp, hq⟩, h⟩)
      · cases h; exact .inl rfl
  | make name label =>
    simp only [run] at h
    split at h
    · cases h; exact .inl rfl
    · next p hp =>
      split at h
      · next hh =>
        obtain ⟨q, hq, rfl⟩ := historyDir_profile hh
        exact .inr (.inl ⟨name, q, _, trivial, rfl, ⟨p, hp, hq⟩, h⟩)
      · cases h; exact .inl rfl
  | up name target =>
    simp only [run] at h
    split at h
    · cases h; exact .inl rfl
    · next p hp =>
      split at h
      · next hh hu hm =>
        obtain ⟨q, hq, rfl, rfl⟩ := database_profile hu hm
        split at h
        · cases h; exact .inl rfl
        · next s hs =>
          split at h
          · split at h
            · cases h
            · cases h; exact .inl rfl
          · next m hm =>
            split at h
            · cases h
            · next db o hup =>
              cases h
              exact .inr (.inr ⟨name, q, s, m, db, o, trivial, rfl, ⟨p, hp, hq⟩, openMeta_some hm, hs,
                rfl, rfl, fun ho => Pg.up_unchanged hup ho⟩)
      · cases h; exact .inl rfl
  | down name target =>
    simp only [run] at h
    split at h
    · cases h; exact .inl rfl
    · next p hp =>
      split at h
      · next hu hm =>
        obtain ⟨q, hq, rfl, rfl⟩ := database_profile hu hm
        split at h
        · cases h; exact .inl rfl
        · next s hs =>
          split at h
          · cases h; exact .inl rfl
          · next m hm =>
            cases h
            refine .inr (.inr ⟨name, q, s, m, _, _, trivial, rfl, ⟨p, hp, hq⟩, openMeta_some hm, hs, rfl,
              rfl, fun ho => ?_⟩)
            rcases Pg.down_cases S.B target (s.db m) with ⟨h, _⟩ | ⟨_, _, h, _⟩
            · exact h
            · exact absurd h ho
      · cases h; exact .inl rfl

theorem sameServers_refl (w : World σ) {w' : World σ} (h : w'.servers = w.servers) : SameServers w w' := by
  intro url
  rw [h]
  refine ⟨Iff.rfl, ?_⟩
  intro s s' h1 h2 ms
  rw [h1] at h2; cases h2
  exact .refl _

theorem putServer_same {w : World σ} {url ms : String} {s : Server σ} {db : Pg.DB σ}
    (hs : w.servers url = some s) (hu : Pg.Unchanged (s.db ms) db) :
    SameServers w (putServer w url ms s db) := by
  intro u
  by_cases h : u = url
  · subst h
    simp only [putServer, update_self, reduceCtorEq, hs]
    refine ⟨trivial, ?_⟩
    intro s₁ s₂ h1 h2 ms'
    cases h1; cases h2
    by_cases hm : ms' = ms
    · subst hm
      unfold Server.db
      dsimp only
      rw [update_self]
      exact hu
    · unfold Server.db
      dsimp only
      rw [update_other _ _ hm]
      exact ⟨hu.data, rfl, Iff.rfl, Iff.rfl⟩
  · simp only [putServer, update_other _ _ h]
    refine ⟨trivial, ?_⟩
    intro s₁ s₂ h1 h2 ms'
    rw [h1] at h2; cases h2
    exact .refl _

theorem init_servers {S : Setting σ} {fuel : Nat} {w w' : World σ} {cwd : Proj.Path}
    {out : List String} {e : Ending} (h : run S fuel w cwd .init = some (w', out, e)) :
    w'.servers = w.servers ∧ w'.fs = (Proj.init S.env w.fs cwd).1 ∧
    (e = .panic → (Proj.init S.env w.fs cwd).2 = .panic) := by
  simp only [run] at h
  split at h
  all_goals (next hi => cases h; rw [hi]; exact ⟨rfl, rfl, by simp⟩)

/-- `init` does not panic. -/
theorem init_no_panic (env : Env) (fs : Fs) (cwd : Proj.Path) : (Proj.init env fs cwd).2 ≠ .panic := by
  unfold Proj.init
  split
  · simp
  · dsimp only
    split
    · simp
    · split
      · split
        · simp
        · next snap hs =>
          have : snap = ⟨[("public", Schema.new "public")]⟩ := by
            have e : Change.applyAll (Version.newInit.changes ++
              (Version.newStage Version.newInit.name).changes) Database.new =
              .ok ⟨[("public", Schema.new "public")]⟩ := rfl
            rw [e] at hs; cases hs; rfl
          subst this
          split
          · simp
          · split
            · next hy =>
              exfalso
              have ey : ∃ y, Def.saveDoc ⟨[("public", Schema.new "public")]⟩ = .ok y := ⟨_, rfl⟩
              obtain ⟨y, ey⟩ := ey
              rw [ey] at hy; cases hy
            · simp
      · simp

theorem failure_same_servers {S : Setting σ} {fuel : Nat} {w w' : World σ} {cwd : Proj.Path} {a : Args}
    {out : List String} {e : Ending} (h : run S fuel w cwd a = some (w', out, e)) (he : e ≠ .success) :
    SameServers w w' := by
  by_cases ha : a = .init
  · subst ha
    exact sameServers_refl w (init_servers h).1
  · rcases run_cases h ha with rfl | ⟨name, q, c, _, _, _, hr⟩ | ⟨name, q, s, _, db, o, _, _, _, _, hs, rfl, rfl, ho⟩
    · exact sameServers_refl _ rfl
    · rcases runHist_cases hr with ⟨_, _, rfl, _⟩ | ⟨d, ok, _, rfl, _⟩
      · exact sameServers_refl _ rfl
      · exact sameServers_refl _ rfl
    · exact putServer_same hs (ho (by rintro rfl; exact he rfl))

theorem panic_changes_nothing {S : Setting σ} {fuel : Nat} {w w' : World σ} {cwd : Proj.Path} {a : Args}
    {out : List String} (h : run S fuel w cwd a = some (w', out, .panic)) :
    w'.fs = w.fs ∧ SameServers w w' := by
  refine ⟨?_, failure_same_servers h (by simp)⟩
  by_cases ha : a = .init
  · subst ha
    exact absurd ((init_servers h).2.2 rfl) (init_no_panic _ _ _)
  · rcases run_cases h ha with rfl | ⟨name, q, c, _, _, _, hr⟩ | ⟨name, q, s, _, db, o, _, _, _, _, hs, rfl, _, ho⟩
    · rfl
    · rcases runHist_cases hr with ⟨_, _, rfl, _⟩ | ⟨d, ok, _, rfl, he⟩
      · rfl
      · exact absurd he.symm (ending_ite ok)
    · rfl

theorem frame {S : Setting σ} {fuel : Nat} {w w' : World σ} {cwd : Proj.Path} {a : Args}
    {out : List String} {e : Ending} (h : run S fuel w cwd a = some (w', out, e)) (ha : a ≠ .init) :
    w'.fs.config = w.fs.config ∧ w'.fs.definitions = w.fs.definitions ∧
    (∀ d, w'.fs.history d ≠ w.fs.history d → a.WritesHistory ∧
      ∃ name q, a.profile? = some name ∧ ProfileAt S.env w.fs cwd name q ∧ d = q.history) ∧
    (∀ url, w'.servers url ≠ w.servers url → a.WritesDatabase ∧
      ∃ name q s s', a.profile? = some name ∧ ProfileAt S.env w.fs cwd name q ∧
        url = q.databaseUrl ∧ w.servers url = some s ∧ w'.servers url = some s' ∧
        ∀ ms, S.ident q.metadataSchema ≠ some ms → s'.metas ms = s.metas ms) := by
  rcases run_cases h ha with rfl | ⟨name, q, c, hw, hn, hq, hr⟩ |
    ⟨name, q, s, m, db, o, hw, hn, hq, hm, hs, rfl, _, ho⟩
  · exact ⟨rfl, rfl, fun _ hd => absurd rfl hd, fun _ hd => absurd rfl hd⟩
  · rcases runHist_cases hr with ⟨_, _, rfl, _⟩ | ⟨d, ok, _, rfl, _⟩
    · exact ⟨rfl, rfl, fun _ hd => absurd rfl hd, fun _ hd => absurd rfl hd⟩
    · refine ⟨rfl, rfl, fun d' hd => ⟨hw, name, q, hn, hq, ?_⟩, fun _ hd => absurd rfl hd⟩
      by_cases he : d' = q.history
      · exact he
      · exact absurd (update_other _ _ he) hd
  · refine ⟨rfl, rfl, fun _ hd => absurd rfl hd, fun url hu => ⟨hw, name, q, s,
      ⟨update s.metas m db.metaSchema, db.data⟩, hn, hq, ?_⟩⟩
    by_cases he : url = q.databaseUrl
    · subst he
      exact ⟨rfl, hs, update_self _ _ _,
        fun ms hne => update_other _ _ (by rintro rfl; exact hne hm)⟩
    · exact absurd (update_other _ _ he) hu

/-- A failing stage loop ends in a panic. -/
theorem stageVersion_panics : ∀ (cs : List Change) (s : Database) (v : Version) (e : CmdFail),
    stageVersion cs s v = .error e → CmdFail.ending e = .panic
  | [], _, _, _, h => by cases h
  | c :: cs, s, v, e, h => by
    unfold stageVersion at h
    split at h
    · cases h; rfl
    · split at h
      · cases h; rfl
      · exact stageVersion_panics cs _ _ e h

/-- What `stage` plans on a history podo has written. -/
theorem stagePlan_reach {d : HDir} (hr : Reachable d) :
    ∃ k s st, SnapshotOf d "stage" s ∧ Stored d "stage" st ∧ s.WF ∧ ∀ fuel, k ≤ fuel → ∀ defs,
      stagePlan fuel defs d = some (match defs with
        | .error e => .error (.load e)
        | .ok t => match stageVersion (Diff.compareDiff s t) s st with
          | .error e => .error e
          | .ok st' => .ok [st']) := by
  obtain ⟨vs, st, s, hh, hrec⟩ := hr.sound
  obtain ⟨nm, _, hfrom⟩ := hh.fromDir
  have hcal := fun k hk => hh.calculate hrec.applyAll (k := k) hk
  refine ⟨vs.length + 2, s, st, ⟨_, hcal (vs.length + 2) (by omega)⟩,
    hh.stored_stage, applyAll_wf Database.new_wf hrec.applyAll, fun fuel hf defs => ?_⟩
  unfold stagePlan
  rw [hfrom fuel (by omega)]
  dsimp only
  cases defs with
  | error e => rfl
  | ok t =>
    dsimp only
    have := hcal fuel (by omega)
    rw [show calculateSnapshot fuel d Version.STAGE = _ from this]
    dsimp only
    rw [show d.getVersion Version.STAGE = .ok st from (stored_iff).1 hh.stored_stage]
    dsimp only
    split
    · next h => rw [h]
    · next h => rw [h]

/-- After `stage` the made versions are the same. -/
theorem plan_stage_history {d d' : HDir} {vs : List Version} {st : Version} {s : Database}
    (hh : IsHistory d vs st) (hrec : Recorded Database.new (Version.newInit :: (vs ++ [st])) s)
    {fuel : Nat} {defs : Except LoadError Database} {ok : Bool}
    (he : HistCmd.exec fuel (.stage defs) d = some (d', ok)) : ∃ st', IsHistory d' vs st' := by
  unfold HistCmd.exec at he
  split at he
  · cases he
  · cases he; exact ⟨st, hh⟩
  · next ws hws =>
    rcases plan_cases hh hws hrec with h | ⟨defs, st', h, rfl, hst⟩ | ⟨_, _, h, _⟩ | ⟨h, _⟩
    · subst h
      cases he; exact ⟨st, hh⟩
    · obtain ⟨rs, s', _, hst'⟩ := stageVersion_ok hst
      obtain ⟨d₁, hd₁, hh'⟩ := hh.saveStage (st' := st') (by rw [hst']; exact hh.stage) (by rw [hst'])
      rw [saveAll_single hd₁] at he
      cases he
      exact ⟨_, hh'⟩
    · cases h
    · cases h

end Prog
end Podo
