import Verif.Spec.Stderr
import Verif.Proofs.Program
import Verif.Proofs.DdlErrors
/-
Lemmas about what is printed on standard error.
-/
namespace Podo
namespace Prog
open Proj
variable {σ : Type}

/-- The error and the way the command ends fit together. -/
def Agrees {α : Type} : Option (α × Ending) → Option Report → Prop
  | none, r => r = none
  | some (_, e), r => r.isSome = true ↔ e = .error

theorem definitions_erase (fs : Fs) (ds : Proj.Path) :
    Def.eraseL (definitionsE fs ds) = definitions fs ds := Def.eraseL_dir _

/-- The ending of a command on version files. -/
def planEnding (d : HDir) : Option (Except CmdFail (List Version)) → Option (Unit × Ending)
  | none => none
  | some (.error e) => some ((), CmdFail.ending e)
  | some (.ok vs) => some ((), if (d.saveAll vs).2 then .success else .error)

theorem save_agrees (d : HDir) (vs : List Version) : Agrees (planEnding d (some (.ok vs))) (saveReport d vs) := by
  unfold planEnding saveReport
  cases h : (d.saveAll vs).2 <;> simp [Agrees, h]

theorem loadReport_agrees (e : Def.LoadErrorE) (d : HDir) :
    Agrees (planEnding d (some (.error (.load e.plain)))) (loadReport e) := by
  cases e <;> simp [planEnding, Agrees, loadReport, Def.LoadErrorE.plain, CmdFail.ending]

theorem replayReport_agrees (e : CmdError) (d : HDir) :
    Agrees (planEnding d (some (.error (.error e)))) (replayReport e) := by
  cases e <;> simp [planEnding, Agrees, replayReport, CmdFail.ending]

theorem historyReport_agrees (e : FSError) (d : HDir) :
    Agrees (planEnding d (some (.error (.error (.fs e))))) (some (.history e)) := by
  simp [planEnding, Agrees, CmdFail.ending]

theorem stage_panics : ∀ (cs : List Change) (s : Database) (v : Version) (e : CmdFail),
    stageVersion cs s v = .error e → CmdFail.ending e = .panic
  | [], s, v, e, h => by cases h
  | c :: cs, s, v, e, h => by
    unfold stageVersion at h
    split at h
    · cases h; rfl
    · split at h
      · cases h; rfl
      · exact stage_panics cs _ _ _ h

theorem stage_agrees (fuel : Nat) (defs : Except Def.LoadErrorE Database) (d : HDir) :
    Agrees (planEnding d (stagePlan fuel (Def.eraseL defs) d)) (stageReport fuel defs d) := by
  unfold stagePlan stageReport
  cases HDir.fromDir fuel d with
  | none => rfl
  | some x =>
    cases x with
    | error e => exact historyReport_agrees e d
    | ok o =>
      cases defs with
      | error e => exact loadReport_agrees e d
      | ok t =>
        dsimp only [Def.eraseL]
        cases calculateSnapshot fuel d Version.STAGE with
        | none => rfl
        | some y =>
          cases y with
          | error e => exact replayReport_agrees e d
          | ok s =>
            dsimp only
            cases d.getVersion Version.STAGE with
            | error e => exact historyReport_agrees e d
            | ok st =>
              dsimp only
              cases hv : stageVersion (Diff.compareDiff s t) s st with
              | error e =>
                dsimp only [planEnding, Agrees]
                rw [stage_panics _ _ _ _ hv]
                simp
              | ok st' => exact save_agrees d _

theorem make_agrees (fuel : Nat) (stamp : String) (label : Option String) (d : HDir) :
    Agrees (planEnding d (makePlan fuel stamp label d)) (makeReport fuel stamp label d) := by
  unfold makePlan makeReport
  cases HDir.fromDir fuel d with
  | none => rfl
  | some x =>
    cases x with
    | error e => exact historyReport_agrees e d
    | ok o =>
      dsimp only
      cases d.getVersion "stage" with
      | error e => exact historyReport_agrees e d
      | ok st =>
        dsimp only
        by_cases h : st.isEmpty = true
        · rw [if_pos h, if_pos h]
          simp [planEnding, Agrees, HDir.saveAll]
        · rw [if_neg h, if_neg h]
          exact save_agrees d _

theorem reset_agrees (fuel : Nat) (d : HDir) :
    Agrees (planEnding d (resetPlan fuel d)) (resetReport fuel d) := by
  unfold resetPlan resetReport
  cases HDir.fromDir fuel d with
  | none => rfl
  | some x =>
    cases x with
    | error e => exact historyReport_agrees e d
    | ok o =>
      dsimp only
      cases d.getVersion Version.STAGE with
      | error e => exact historyReport_agrees e d
      | ok st => exact save_agrees d _

/-- Only the ending counts. -/
def endOf {α β : Type} (r : Option (α × β × Ending)) : Option (Unit × Ending) := r.map fun x => ((), x.2.2)

theorem endOf_runHist (fuel : Nat) (w : World σ) (h : Proj.Path) (c : HistCmd) :
    endOf (runHist fuel w h c) = planEnding (w.fs.history h) (c.plan fuel (w.fs.history h)) := by
  unfold runHist
  cases c.plan fuel (w.fs.history h) with
  | none => rfl
  | some x => cases x <;> rfl

theorem status_agrees (S : Setting σ) (fuel : Nat) (w : World σ) (h ds : Proj.Path) (url ms : String) :
    Agrees ((statusIn S fuel w h ds url ms).map fun x => ((), x.2))
      (statusReport fuel (definitionsE w.fs ds) (w.fs.history h)) := by
  unfold statusIn statusReport
  rw [← definitions_erase]
  cases HDir.fromDir fuel (w.fs.history h) with
  | none => rfl
  | some x =>
    cases x with
    | error e => exact historyReport_agrees e []
    | ok o =>
      dsimp only
      cases definitionsE w.fs ds with
      | error e => exact loadReport_agrees e []
      | ok t =>
        dsimp only [Def.eraseL]
        cases (w.fs.history h).getVersion Version.STAGE with
        | error e => exact historyReport_agrees e []
        | ok st =>
          dsimp only
          cases calculateSnapshot fuel (w.fs.history h) Version.STAGE with
          | none => rfl
          | some y =>
            cases y with
            | error e => exact replayReport_agrees e []
            | ok s => simp [Agrees]

theorem upLoopReport_iff (B : Pg.Behaviour σ) (d : HDir) : ∀ (ns : List String) (t : Pg.VTable) (s : σ),
    (upLoopReport B d ns t s).isSome = true ↔ (Pg.upLoop B d ns t s).2.2 = .error
  | [], t, s => by simp [upLoopReport, Pg.upLoop]
  | n :: ns, t, s => by
    unfold upLoopReport Pg.upLoop
    cases d.getVersion n with
    | error e => simp
    | ok v =>
      dsimp only
      cases Pg.execAll B s v.up with
      | none => simp
      | some s' =>
        dsimp only
        rcases t.insert B v with ⟨t', b⟩
        cases b with
        | false => simp
        | true => exact upLoopReport_iff B d ns t' s'

theorem up_agrees (B : Pg.Behaviour σ) (fuel : Nat) (d : HDir) (target : Option String) (db : Pg.DB σ) :
    Agrees ((Pg.up B fuel d target db).map fun x => ((), pgEnding x.2)) (upReport B fuel d target db) := by
  unfold Pg.up upReport
  cases HDir.fromDir fuel d with
  | none => rfl
  | some x =>
    cases x with
    | error e => simp [Agrees, pgEnding]
    | ok o =>
      dsimp only
      rcases Pg.ensureInitialized B db with ⟨m, b⟩
      cases b with
      | false => cases m <;> simp [Agrees, pgEnding]
      | true =>
        cases m with
        | absent => simp [Agrees, pgEnding]
        | noTable => simp [Agrees, pgEnding]
        | table t =>
          dsimp only
          cases t.current with
          | none => simp [Agrees, pgEnding]
          | some c =>
            dsimp only
            cases d.getVersion (target.getD o.currentVersion) with
            | error e => simp [Agrees, pgEnding]
            | ok to =>
              dsimp only
              cases HDir.upwardRange fuel d c.name to.name with
              | none => rfl
              | some y =>
                cases y with
                | error e => simp [Agrees, pgEnding]
                | ok vs =>
                  cases vs with
                  | nil => simp [Agrees, pgEnding]
                  | cons n ns =>
                    dsimp only
                    have hu := upLoopReport_iff B d (n :: ns) t db.data
                    rcases hl : Pg.upLoop B d (n :: ns) t db.data with ⟨t', s, oc⟩
                    rw [hl] at hu
                    cases oc with
                    | ok => cases hc : B.commits s <;> simp [Agrees, pgEnding, hc]
                    | error => simpa [Agrees, pgEnding] using hu
                    | panic => simpa [Agrees, pgEnding] using hu

theorem downLoop_no_error (B : Pg.Behaviour σ) : ∀ (ns : List String) (t : Pg.VTable) (s : σ),
    (Pg.downLoop B ns t s).2.2 ≠ .error
  | [], t, s => by simp [Pg.downLoop]
  | n :: ns, t, s => by
    unfold Pg.downLoop
    cases t.getVersion n with
    | none => simp
    | some v =>
      dsimp only
      cases Pg.execAll B s v.down with
      | none => simp
      | some s' =>
        dsimp only
        cases t.delete v with
        | none => simp
        | some t' => exact downLoop_no_error B ns t' s'

theorem downRange_agrees (B : Pg.Behaviour σ) (t : Pg.VTable) (db : Pg.DB σ) (source to : String) :
    Agrees (some ((), pgEnding (show Pg.DB σ × Pg.Outcome from match t.downwardRange source to with
        | none => (db.rollback (.table t), .error)
        | some [] => (db.rollback (.table t), .ok)
        | some versions =>
          match Pg.downLoop B versions t db.data with
          | (t', s, .ok) =>
            if B.commits s then (⟨.table t', s⟩, .ok)
            else (db.rollback (.table t'), .error)
          | (t', _, o) => (db.rollback (.table t'), o)).2))
      (match t.order source, t.order to with
        | none, _ => some (.noMatchingVersion source)
        | some _, none => some (.noMatchingVersion to)
        | some _, some _ =>
          match t.downwardRange source to with
          | none => none
          | some [] => none
          | some versions =>
            match Pg.downLoop B versions t db.data with
            | (_, s, .ok) => if B.commits s then none else some .server
            | _ => none) := by
  cases h1 : t.order source with
  | none => simp [Agrees, pgEnding, Pg.VTable.downwardRange, h1]
  | some a =>
    cases h2 : t.order to with
    | none => simp [Agrees, pgEnding, Pg.VTable.downwardRange, h1, h2]
    | some b =>
      have hr : ∃ l, t.downwardRange source to = some l := by
        unfold Pg.VTable.downwardRange; rw [h1, h2]; exact ⟨_, rfl⟩
      obtain ⟨l, hl⟩ := hr
      rw [hl]
      cases l with
      | nil => simp [Agrees, pgEnding]
      | cons n ns =>
        dsimp only
        have hn := downLoop_no_error B (n :: ns) t db.data
        rcases hd : Pg.downLoop B (n :: ns) t db.data with ⟨t', s, oc⟩
        rw [hd] at hn
        cases oc with
        | ok => cases hc : B.commits s <;> simp [Agrees, pgEnding, hc]
        | error => exact absurd rfl hn
        | panic => simp [Agrees, pgEnding]

theorem down_agrees (B : Pg.Behaviour σ) (target : Option String) (db : Pg.DB σ) :
    Agrees (some ((), pgEnding (Pg.down B target db).2)) (downReport B target db) := by
  unfold Pg.down downReport
  rcases Pg.ensureInitialized B db with ⟨m, b⟩
  cases b with
  | false => cases m <;> simp [Agrees, pgEnding]
  | true =>
    cases m with
    | absent => simp [Agrees, pgEnding]
    | noTable => simp [Agrees, pgEnding]
    | table t =>
      dsimp only
      cases t.current with
      | none => simp [Agrees, pgEnding]
      | some c =>
        dsimp only
        cases target with
        | none =>
          cases hp : c.previous with
          | none => simp [Agrees, pgEnding]
          | some p => exact downRange_agrees B t db c.name p
        | some v =>
          cases hp : c.previous with
          | none => exact downRange_agrees B t db c.name v
          | some p => exact downRange_agrees B t db c.name v

theorem agrees_error {α : Type} (x : α) (r : Report) : Agrees (some (x, .error)) (some r) := by
  simp [Agrees]

theorem findProfile_iff {n : String} : ∀ ps : List Profile,
    findProfile n ps = none ↔ ¬ ∃ q ∈ ps, q.name = n
  | [] => by simp [findProfile]
  | p :: ps => by
    unfold findProfile
    by_cases h : p.name = n
    · rw [if_pos h]; simp [h]
    · rw [if_neg h, findProfile_iff ps]; simp [h]

/-- The profile is there, or the error says that it is not. -/
theorem profile_cases (p : Project) (n : String) :
    (∃ q, p.profile n = .ok q ∧ HasProfile p n) ∨
      (p.profile n = .error (.profileNotFound n) ∧ ¬ HasProfile p n) := by
  have h := findProfile_iff (n := n) p.profiles
  unfold Project.profile
  cases hf : findProfile n p.profiles with
  | none => exact .inr ⟨rfl, h.1 hf⟩
  | some q =>
    refine .inl ⟨q, rfl, ?_⟩
    refine Classical.byContradiction fun hn => ?_
    rw [h.2 hn] at hf; cases hf

theorem report_agrees (S : Setting σ) (fuel : Nat) (w : World σ) (cwd : Proj.Path) (a : Args) :
    Agrees (endOf (run S fuel w cwd a)) (report S fuel w cwd a) := by
  cases a with
  | init =>
    unfold run report
    rcases Proj.init S.env w.fs cwd with ⟨fs, e⟩
    cases e <;> simp [endOf, Agrees]
  | clone => simp [run, report, endOf, Agrees]
  | print => simp [run, report, endOf, Agrees]
  | sync p => simp [run, report, endOf, Agrees]
  | reset p =>
    unfold run report
    cases discover S.env w.fs cwd with
    | error e => exact agrees_error _ _
    | ok pr =>
      dsimp only
      cases pr.historyDir p with
      | error e => exact agrees_error _ _
      | ok h => dsimp only; rw [endOf_runHist]; exact reset_agrees _ _
  | make p l =>
    unfold run report
    cases discover S.env w.fs cwd with
    | error e => exact agrees_error _ _
    | ok pr =>
      dsimp only
      cases pr.historyDir p with
      | error e => exact agrees_error _ _
      | ok h => dsimp only; rw [endOf_runHist]; exact make_agrees _ _ _ _
  | stage p =>
    unfold run report
    cases discover S.env w.fs cwd with
    | error e => exact agrees_error _ _
    | ok pr =>
      dsimp only
      cases pr.historyDir p with
      | error e => exact agrees_error _ _
      | ok h =>
        cases pr.definitionsDir p with
        | error e => exact agrees_error _ _
        | ok ds =>
          dsimp only
          rw [endOf_runHist, ← definitions_erase]; exact stage_agrees _ _ _
  | status p =>
    unfold run report
    cases discover S.env w.fs cwd with
    | error e => exact agrees_error _ _
    | ok pr =>
      dsimp only
      cases pr.historyDir DEFAULT_PROFILE with
      | error e => exact agrees_error _ _
      | ok h =>
        cases pr.definitionsDir DEFAULT_PROFILE with
        | error e => exact agrees_error _ _
        | ok ds =>
          rcases profile_cases pr p with ⟨q, hq, _⟩ | ⟨hq, _⟩
          · obtain ⟨_, _, h3, h4⟩ := profile_dirs hq
            rw [h3, h4]
            dsimp only
            have := status_agrees S fuel w h ds q.databaseUrl q.metadataSchema
            cases hs : statusIn S fuel w h ds q.databaseUrl q.metadataSchema with
            | none => rw [hs] at this; exact this
            | some x => rw [hs] at this; exact this
          · have h3 : pr.databaseUrl p = .error (.profileNotFound p) := by
              unfold Project.databaseUrl; rw [hq]
            rw [h3]
            exact agrees_error _ _
  | up p v =>
    unfold run report
    cases discover S.env w.fs cwd with
    | error e => exact agrees_error _ _
    | ok pr =>
      dsimp only
      cases pr.historyDir DEFAULT_PROFILE with
      | error e => exact agrees_error _ _
      | ok h =>
        cases pr.databaseUrl p with
        | error e => exact agrees_error _ _
        | ok url =>
          cases pr.metadataSchema p with
          | error e => exact agrees_error _ _
          | ok ms =>
            dsimp only
            cases w.servers url with
            | none => exact agrees_error _ _
            | some s =>
              dsimp only
              cases openMeta S s ms with
              | none =>
                dsimp only
                cases HDir.fromDir fuel (w.fs.history h) with
                | none => rfl
                | some x => cases x <;> exact agrees_error _ _
              | some m =>
                dsimp only
                have := up_agrees S.B fuel (w.fs.history h) v ⟨s.metas m, s.data⟩
                cases hu : Pg.up S.B fuel (w.fs.history h) v ⟨s.metas m, s.data⟩ with
                | none => rw [hu] at this; exact this
                | some x => rw [hu] at this; exact this
  | down p v =>
    unfold run report
    cases discover S.env w.fs cwd with
    | error e => exact agrees_error _ _
    | ok pr =>
      dsimp only
      cases pr.databaseUrl p with
      | error e => exact agrees_error _ _
      | ok url =>
        cases pr.metadataSchema p with
        | error e => exact agrees_error _ _
        | ok ms =>
          dsimp only
          cases w.servers url with
          | none => exact agrees_error _ _
          | some s =>
            dsimp only
            cases openMeta S s ms with
            | none => exact agrees_error _ _
            | some m => exact down_agrees S.B v ⟨s.metas m, s.data⟩

theorem report_ended {S : Setting σ} {fuel : Nat} {w : World σ} {cwd : Proj.Path} {a : Args} {r : Report}
    (h : report S fuel w cwd a = some r) : run S fuel w cwd a ≠ none := by
  intro hn
  have := report_agrees S fuel w cwd a
  rw [hn, h] at this
  cases this

theorem says_some {S : Setting σ} {T : Texts} {w : World σ} {cwd : Proj.Path} {a : Args} {line : String} :
    Says S T w cwd a (some line) ↔ ∃ r, Reports S w cwd a r ∧ line = r.text T S.serverError := by
  unfold Says Reports stderr
  constructor
  · rintro ⟨fuel, _, h⟩
    obtain ⟨r, h1, h2⟩ := Option.map_eq_some_iff.1 h
    exact ⟨r, ⟨fuel, h1⟩, h2.symm⟩
  · rintro ⟨r, ⟨fuel, h⟩, rfl⟩
    exact ⟨fuel, report_ended h, by rw [h]; rfl⟩

/-- Not an error about the configuration. -/
def NotConfig (r : Option Report) : Prop := ∀ e, r ≠ some (.project e)

theorem notConfig_load (e : Def.LoadErrorE) : NotConfig (loadReport e) := by
  intro x; cases e <;> simp [loadReport]

theorem notConfig_replay (e : CmdError) : NotConfig (replayReport e) := by
  intro x; cases e <;> simp [replayReport]

theorem notConfig_save (d : HDir) (vs : List Version) : NotConfig (saveReport d vs) := by
  intro x; unfold saveReport; split <;> simp

theorem notConfig_stage (fuel : Nat) (defs : Except Def.LoadErrorE Database) (d : HDir) :
    NotConfig (stageReport fuel defs d) := by
  unfold stageReport
  repeat' split
  all_goals first
    | exact notConfig_load _ | exact notConfig_replay _ | exact notConfig_save _ _
    | (intro x; simp)

theorem notConfig_status (fuel : Nat) (defs : Except Def.LoadErrorE Database) (d : HDir) :
    NotConfig (statusReport fuel defs d) := by
  unfold statusReport
  repeat' split
  all_goals first
    | exact notConfig_load _ | exact notConfig_replay _
    | (intro x; simp)

theorem notConfig_make (fuel : Nat) (stamp : String) (label : Option String) (d : HDir) :
    NotConfig (makeReport fuel stamp label d) := by
  unfold makeReport
  repeat' split
  all_goals first | exact notConfig_save _ _ | (intro x; simp)

theorem notConfig_reset (fuel : Nat) (d : HDir) : NotConfig (resetReport fuel d) := by
  unfold resetReport
  repeat' split
  all_goals first | exact notConfig_save _ _ | (intro x; simp)

theorem notConfig_up (B : Pg.Behaviour σ) (fuel : Nat) (d : HDir) (v : Option String) (db : Pg.DB σ) :
    NotConfig (upReport B fuel d v db) := by
  unfold upReport
  repeat' split
  all_goals first
    | (intro x h; cases h; done)
    | exact fun x h => (nomatch (Option.map_eq_some_iff.1 h).choose_spec.2)

theorem notConfig_down (B : Pg.Behaviour σ) (v : Option String) (db : Pg.DB σ) :
    NotConfig (downReport B v db) := by
  unfold downReport
  repeat' split
  all_goals (intro x; simp)

theorem notConfig_open (S : Setting σ) (s : Server σ) (ms : String) :
    NotConfig (some (openMetaReport S s ms)) := by
  unfold openMetaReport
  repeat' split
  all_goals (intro x; simp)

theorem profile_dirs_missing {p : Project} {name : String} (h : p.profile name = .error (.profileNotFound name)) :
    p.historyDir name = .error (.profileNotFound name) ∧ p.definitionsDir name = .error (.profileNotFound name) ∧
    p.databaseUrl name = .error (.profileNotFound name) ∧ p.metadataSchema name = .error (.profileNotFound name) := by
  simp only [Project.historyDir, Project.definitionsDir, Project.databaseUrl, Project.metadataSchema, h,
    and_self]

theorem report_discover {S : Setting σ} {fuel : Nat} {w : World σ} {cwd : Proj.Path} {a : Args} {e : ProjectError}
    (ha : a.uses ≠ []) (h : discover S.env w.fs cwd = .error e) :
    report S fuel w cwd a = some (.project e) := by
  cases a <;> first | exact absurd rfl ha | simp only [report, h]

theorem report_unused {S : Setting σ} {fuel : Nat} {w : World σ} {cwd : Proj.Path} {a : Args}
    (ha : a.uses = []) : NotConfig (report S fuel w cwd a) := by
  intro x
  cases a with
  | init =>
    simp only [report]
    split <;> simp
  | clone => simp [report]
  | print => simp [report]
  | sync p => simp [report]
  | _ => simp [Args.uses] at ha

theorem missing_one {p : Project} {m n : String} : FirstMissing p [m] n ↔ n = m ∧ ¬ HasProfile p m := by
  constructor
  · intro h
    cases h with
    | here h => exact ⟨rfl, h⟩
    | later _ h => cases h
  · rintro ⟨rfl, h⟩; exact .here h

theorem missing_two {p : Project} {m m' n : String} : FirstMissing p [m, m'] n ↔
    (n = m ∧ ¬ HasProfile p m) ∨ (HasProfile p m ∧ n = m' ∧ ¬ HasProfile p m') := by
  constructor
  · intro h
    cases h with
    | here h => exact .inl ⟨rfl, h⟩
    | later h1 h => exact .inr ⟨h1, missing_one.1 h⟩
  · rintro (⟨rfl, h⟩ | ⟨h1, rfl, h⟩)
    · exact .here h
    · exact .later h1 (.here h)

/-- In a project, an error about the configuration is about the first profile that is missing. -/
theorem report_profile {S : Setting σ} {fuel : Nat} {w : World σ} {cwd : Proj.Path} {a : Args} {p : Project}
    (ha : a.uses ≠ []) (h : discover S.env w.fs cwd = .ok p) (e : ProjectError) :
    report S fuel w cwd a = some (.project e) ↔ ∃ n, e = .profileNotFound n ∧ FirstMissing p a.uses n := by
  have one : ∀ {m : String} {r : Option Report}, NotConfig r → HasProfile p m →
      (r = some (.project e) ↔ ∃ n, e = .profileNotFound n ∧ FirstMissing p [m] n) := by
    intro m r hr hm
    constructor
    · intro h; exact absurd h (hr e)
    · rintro ⟨n, _, h⟩; exact absurd hm (missing_one.1 h).2
  have one' : ∀ {m : String}, ¬ HasProfile p m →
      (some (Report.project (.profileNotFound m)) = some (.project e) ↔
        ∃ n, e = .profileNotFound n ∧ FirstMissing p [m] n) := by
    intro m hm
    constructor
    · intro h; cases h; exact ⟨m, rfl, .here hm⟩
    · rintro ⟨n, rfl, h⟩; rw [(missing_one.1 h).1]
  have two : ∀ {m m' : String} {r : Option Report}, NotConfig r → HasProfile p m → HasProfile p m' →
      (r = some (.project e) ↔ ∃ n, e = .profileNotFound n ∧ FirstMissing p [m, m'] n) := by
    intro m m' r hr hm hm'
    constructor
    · intro h; exact absurd h (hr e)
    · rintro ⟨n, _, h⟩
      rcases missing_two.1 h with ⟨_, h⟩ | ⟨_, _, h⟩
      · exact absurd hm h
      · exact absurd hm' h
  have two' : ∀ {m m' : String}, ¬ HasProfile p m →
      (some (Report.project (.profileNotFound m)) = some (.project e) ↔
        ∃ n, e = .profileNotFound n ∧ FirstMissing p [m, m'] n) := by
    intro m m' hm
    constructor
    · intro h; cases h; exact ⟨m, rfl, .here hm⟩
    · rintro ⟨n, rfl, h⟩
      rcases missing_two.1 h with ⟨h, _⟩ | ⟨h, _⟩
      · rw [h]
      · exact absurd h hm
  have two'' : ∀ {m m' : String}, HasProfile p m → ¬ HasProfile p m' →
      (some (Report.project (.profileNotFound m')) = some (.project e) ↔
        ∃ n, e = .profileNotFound n ∧ FirstMissing p [m, m'] n) := by
    intro m m' hm hm'
    constructor
    · intro h; cases h; exact ⟨m', rfl, .later hm (.here hm')⟩
    · rintro ⟨n, rfl, h⟩
      rcases missing_two.1 h with ⟨_, h⟩ | ⟨_, h, _⟩
      · exact absurd hm h
      · rw [h]
  cases a with
  | init => exact absurd rfl ha
  | clone => exact absurd rfl ha
  | print => exact absurd rfl ha
  | sync n => exact absurd rfl ha
  | reset n =>
    rcases profile_cases p n with ⟨q, hq, hn⟩ | ⟨hq, hn⟩
    · obtain ⟨h1, _, _, _⟩ := profile_dirs hq
      simp only [report, h, h1]
      exact one (notConfig_reset _ _) hn
    · obtain ⟨h1, _, _, _⟩ := profile_dirs_missing hq
      simp only [report, h, h1]
      exact one' hn
  | make n l =>
    rcases profile_cases p n with ⟨q, hq, hn⟩ | ⟨hq, hn⟩
    · obtain ⟨h1, _, _, _⟩ := profile_dirs hq
      simp only [report, h, h1]
      exact one (notConfig_make _ _ _ _) hn
    · obtain ⟨h1, _, _, _⟩ := profile_dirs_missing hq
      simp only [report, h, h1]
      exact one' hn
  | stage n =>
    rcases profile_cases p n with ⟨q, hq, hn⟩ | ⟨hq, hn⟩
    · obtain ⟨h1, h2, _, _⟩ := profile_dirs hq
      simp only [report, h, h1, h2]
      exact one (notConfig_stage _ _ _) hn
    · obtain ⟨h1, _, _, _⟩ := profile_dirs_missing hq
      simp only [report, h, h1, errorOf, configReport]
      exact one' hn
  | down n v =>
    rcases profile_cases p n with ⟨q, hq, hn⟩ | ⟨hq, hn⟩
    · obtain ⟨_, _, h3, h4⟩ := profile_dirs hq
      simp only [report, h, h3, h4]
      refine one ?_ hn
      split
      · intro x; simp
      · split
        · exact notConfig_open _ _ _
        · exact notConfig_down _ _ _
    · obtain ⟨_, _, h3, _⟩ := profile_dirs_missing hq
      simp only [report, h, h3, errorOf, configReport]
      exact one' hn
  | status n =>
    rcases profile_cases p "database" with ⟨q₀, hq₀, hn₀⟩ | ⟨hq₀, hn₀⟩
    · obtain ⟨h1, h2, _, _⟩ := profile_dirs hq₀
      rcases profile_cases p n with ⟨q, hq, hn⟩ | ⟨hq, hn⟩
      · obtain ⟨_, _, h3, _⟩ := profile_dirs hq
        simp only [report, h, DEFAULT_PROFILE, h1, h2, h3]
        exact two (notConfig_status _ _ _) hn₀ hn
      · obtain ⟨_, _, h3, _⟩ := profile_dirs_missing hq
        simp only [report, h, DEFAULT_PROFILE, h1, h2, h3, errorOf, configReport]
        exact two'' hn₀ hn
    · obtain ⟨h1, _, _, _⟩ := profile_dirs_missing hq₀
      simp only [report, h, DEFAULT_PROFILE, h1, errorOf, configReport]
      exact two' hn₀
  | up n v =>
    rcases profile_cases p "database" with ⟨q₀, hq₀, hn₀⟩ | ⟨hq₀, hn₀⟩
    · obtain ⟨h1, _, _, _⟩ := profile_dirs hq₀
      rcases profile_cases p n with ⟨q, hq, hn⟩ | ⟨hq, hn⟩
      · obtain ⟨_, _, h3, h4⟩ := profile_dirs hq
        simp only [report, h, DEFAULT_PROFILE, h1, h3, h4]
        refine two ?_ hn₀ hn
        split
        · intro x; simp
        · split
          · split
            · intro x; simp
            · intro x; simp
            · exact notConfig_open _ _ _
          · exact notConfig_up _ _ _ _ _
      · obtain ⟨_, _, h3, _⟩ := profile_dirs_missing hq
        simp only [report, h, DEFAULT_PROFILE, h1, h3, errorOf, configReport]
        exact two'' hn₀ hn
    · obtain ⟨h1, _, _, _⟩ := profile_dirs_missing hq₀
      simp only [report, h, DEFAULT_PROFILE, h1, errorOf, configReport]
      exact two' hn₀

theorem report_config_iff {S : Setting σ} {w : World σ} {cwd : Proj.Path} {a : Args} {e : ProjectError} :
    Reports S w cwd a (.project e) ↔ a.uses ≠ [] ∧ (discover S.env w.fs cwd = .error e ∨
      ∃ p n, discover S.env w.fs cwd = .ok p ∧ e = .profileNotFound n ∧ FirstMissing p a.uses n) := by
  unfold Reports
  by_cases ha : a.uses = []
  · constructor
    · rintro ⟨fuel, h⟩; exact absurd h (report_unused ha e)
    · rintro ⟨h, _⟩; exact absurd ha h
  · cases hd : discover S.env w.fs cwd with
    | error e' =>
      simp only [report_discover ha hd]
      constructor
      · rintro ⟨_, h⟩; cases h; exact ⟨ha, .inl rfl⟩
      · rintro ⟨_, h | ⟨p, n, h, _⟩⟩
        · cases h; exact ⟨0, rfl⟩
        · cases h
    | ok p =>
      simp only [report_profile ha hd]
      constructor
      · rintro ⟨_, n, h⟩; exact ⟨ha, .inr ⟨p, n, rfl, h⟩⟩
      · rintro ⟨_, h | ⟨p', n, h, h'⟩⟩
        · cases h
        · cases h; exact ⟨0, n, h'⟩

/-! ### Errors of the history -/

theorem notBranched_range {d : HDir} {k : Nat} {a b : String} {p x y : String} :
    HDir.upwardRange k d a b ≠ some (.error (.branched p x y)) := by
  intro h
  rcases rangeLoop_error h with ⟨_, _, _, _, _, _, _, h⟩ | ⟨c, _, _, h⟩
  · cases h
  · unfold HDir.getVersion at h
    split at h <;> cases h

theorem getVersion_kind {d : HDir} {n : String} {e : FSError} (h : d.getVersion n = .error e) :
    e = .fileSystem ∨ e = .yaml := by
  unfold HDir.getVersion at h
  split at h <;> cases h
  · exact .inr rfl
  · exact .inr rfl
  · exact .inl rfl

theorem replay_error {d : HDir} {e : FSError} : ∀ (ns : List String) (s : Database),
    replayVersions d ns s = .error (.fs e) → ∃ n, d.getVersion n = .error e
  | [], s, h => by cases h
  | n :: ns, s, h => by
    unfold replayVersions at h
    split at h
    · next e' he => cases h; exact ⟨n, he⟩
    · split at h
      · cases h
      · exact replay_error ns _ h

theorem calculate_error {d : HDir} {k : Nat} {v : String} {e : FSError}
    (h : calculateSnapshot k d v = some (.error (.fs e))) :
    HDir.upwardRange k d "init" v = some (.error e) ∨ ∃ n, d.getVersion n = .error e := by
  unfold calculateSnapshot at h
  split at h
  · cases h
  · next e' he => cases h; exact .inl he
  · split at h
    · next e' he => cases h; exact .inr ⟨_, he⟩
    · split at h
      · cases h
      · injection h with h
        exact .inr (replay_error _ _ h)

theorem saveReport_history {d : HDir} {vs : List Version} {e : FSError}
    (h : saveReport d vs = some (.history e)) : e = .fileSystem := by
  unfold saveReport at h
  split at h <;> cases h
  rfl

theorem loadReport_history {x : Def.LoadErrorE} {e : FSError} : loadReport x ≠ some (.history e) := by
  cases x <;> simp [loadReport]

/-- Where an error of the history comes from: opening it, looking for the way to the version `hi`, or a
version file that is missing or cannot be read or written. -/
def HistoryFault (k : Nat) (d : HDir) (hi lo : String) (e : FSError) : Prop :=
  HDir.fromDir k d = some (.error e) ∨ HDir.upwardRange k d lo hi = some (.error e) ∨
    e = .fileSystem ∨ e = .yaml

theorem stageReport_history {k : Nat} {defs : Except Def.LoadErrorE Database} {d : HDir} {e : FSError}
    (h : stageReport k defs d = some (.history e)) : HistoryFault k d "stage" "init" e := by
  unfold stageReport at h
  split at h
  · cases h
  · next e' he => cases h; exact .inl he
  · split at h
    · exact absurd h loadReport_history
    · split at h
      · cases h
      · next e' he =>
        cases e' with
        | snapshot x => cases h
        | fs x =>
          cases h
          rcases calculate_error he with h | ⟨n, h⟩
          · exact .inr (.inl h)
          · exact .inr (.inr (getVersion_kind h))
      · split at h
        · next e' he => cases h; exact .inr (.inr (getVersion_kind he))
        · split at h
          · cases h
          · exact .inr (.inr (.inl (saveReport_history h)))

theorem statusReport_history {k : Nat} {defs : Except Def.LoadErrorE Database} {d : HDir} {e : FSError}
    (h : statusReport k defs d = some (.history e)) : HistoryFault k d "stage" "init" e := by
  unfold statusReport at h
  split at h
  · cases h
  · next e' he => cases h; exact .inl he
  · split at h
    · exact absurd h loadReport_history
    · split at h
      · next e' he => cases h; exact .inr (.inr (getVersion_kind he))
      · split at h
        · cases h
        · next e' he =>
          cases e' with
          | snapshot x => cases h
          | fs x =>
            cases h
            rcases calculate_error he with h | ⟨n, h⟩
            · exact .inr (.inl h)
            · exact .inr (.inr (getVersion_kind h))
        · cases h

theorem makeReport_history {k : Nat} {stamp : String} {label : Option String} {d : HDir} {e : FSError}
    (h : makeReport k stamp label d = some (.history e)) :
    HDir.fromDir k d = some (.error e) ∨ e = .fileSystem ∨ e = .yaml := by
  unfold makeReport at h
  split at h
  · cases h
  · next e' he => cases h; exact .inl he
  · split at h
    · next e' he => cases h; exact .inr (getVersion_kind he)
    · split at h
      · cases h
      · exact .inr (.inl (saveReport_history h))

theorem resetReport_history {k : Nat} {d : HDir} {e : FSError} (h : resetReport k d = some (.history e)) :
    HDir.fromDir k d = some (.error e) ∨ e = .fileSystem ∨ e = .yaml := by
  unfold resetReport at h
  split at h
  · cases h
  · next e' he => cases h; exact .inl he
  · split at h
    · next e' he => cases h; exact .inr (getVersion_kind he)
    · exact .inr (.inl (saveReport_history h))

theorem upLoopReport_kind (B : Pg.Behaviour σ) (d : HDir) {e : FSError} : ∀ (ns : List String) (t : Pg.VTable)
    (s : σ), upLoopReport B d ns t s = some e → e = .fileSystem ∨ e = .yaml
  | [], t, s, h => by cases h
  | n :: ns, t, s, h => by
    unfold upLoopReport at h
    split at h
    · next e' he => cases h; exact getVersion_kind he
    · split at h
      · cases h
      · split at h
        · cases h
        · exact upLoopReport_kind B d ns _ _ h

theorem upReport_history {B : Pg.Behaviour σ} {k : Nat} {d : HDir} {target : Option String} {db : Pg.DB σ}
    {e : FSError} (h : upReport B k d target db = some (.history e)) :
    HDir.fromDir k d = some (.error e) ∨ e = .fileSystem ∨ e = .yaml ∨
      ∃ o t cur to, HDir.fromDir k d = some (.ok o) ∧ Pg.ensureInitialized B db = (.table t, true) ∧
        t.current = some cur ∧ d.getVersion (target.getD o.currentVersion) = .ok to ∧
        HDir.upwardRange k d cur.name to.name = some (.error e) := by
  unfold upReport at h
  split at h
  · cases h
  · next e' he => cases h; exact .inl he
  · next o ho =>
    split at h
    · cases h
    · cases h
    · cases h
    · next t ht =>
      split at h
      · cases h
      · next cur hcur =>
        split at h
        · next e' he => cases h; exact .inr ((getVersion_kind he).imp id .inl)
        · next to hto =>
          split at h
          · cases h
          · next e' he => cases h; exact .inr (.inr (.inr ⟨o, t, cur, to, ho, ht, hcur, hto, he⟩))
          · cases h
          · split at h
            · split at h <;> cases h
            · obtain ⟨x, hx, h⟩ := Option.map_eq_some_iff.1 h
              cases h
              exact .inr ((upLoopReport_kind _ _ _ _ _ hx).imp id .inl)

theorem report_reset {S : Setting σ} {fuel : Nat} {w : World σ} {cwd : Proj.Path} {name : String} {q : Profile}
    (hq : ProfileAt S.env w.fs cwd name q) : report S fuel w cwd (.reset name) =
      resetReport fuel (w.fs.history q.history) := by
  obtain ⟨p, hp, hq⟩ := hq
  obtain ⟨h1, _, _, _⟩ := profile_dirs hq
  simp only [report, hp, h1]

theorem report_make {S : Setting σ} {fuel : Nat} {w : World σ} {cwd : Proj.Path} {name : String} {q : Profile}
    (hq : ProfileAt S.env w.fs cwd name q) (label : Option String) : report S fuel w cwd (.make name label) =
      makeReport fuel S.now label (w.fs.history q.history) := by
  obtain ⟨p, hp, hq⟩ := hq
  obtain ⟨h1, _, _, _⟩ := profile_dirs hq
  simp only [report, hp, h1]

theorem report_stage {S : Setting σ} {fuel : Nat} {w : World σ} {cwd : Proj.Path} {name : String} {q : Profile}
    (hq : ProfileAt S.env w.fs cwd name q) : report S fuel w cwd (.stage name) =
      stageReport fuel (definitionsE w.fs q.definitions) (w.fs.history q.history) := by
  obtain ⟨p, hp, hq⟩ := hq
  obtain ⟨h1, h2, _, _⟩ := profile_dirs hq
  simp only [report, hp, h1, h2]

theorem report_status {S : Setting σ} {fuel : Nat} {w : World σ} {cwd : Proj.Path} {name : String}
    {q₀ q : Profile} (hq₀ : ProfileAt S.env w.fs cwd "database" q₀) (hq : ProfileAt S.env w.fs cwd name q) :
    report S fuel w cwd (.status name) =
      statusReport fuel (definitionsE w.fs q₀.definitions) (w.fs.history q₀.history) := by
  obtain ⟨p, hp, h0, h⟩ := profileAt_default hq₀ hq
  obtain ⟨h1, h2, _, _⟩ := profile_dirs h0
  obtain ⟨_, _, h3, _⟩ := profile_dirs h
  simp only [report, hp, DEFAULT_PROFILE, h1, h2, h3]

theorem report_up {S : Setting σ} {fuel : Nat} {w : World σ} {cwd : Proj.Path} {name : String} {q₀ q : Profile}
    (hq₀ : ProfileAt S.env w.fs cwd "database" q₀) (hq : ProfileAt S.env w.fs cwd name q)
    (hi : S.ident q.metadataSchema = some q.metadataSchema)
    (target : Option String) {s : Server σ} (hs : w.servers q.databaseUrl = some s) :
    report S fuel w cwd (.up name target) =
      upReport S.B fuel (w.fs.history q₀.history) target (s.db q.metadataSchema) := by
  obtain ⟨p, hp, h0, h⟩ := profileAt_default hq₀ hq
  obtain ⟨h1, _, _, _⟩ := profile_dirs h0
  obtain ⟨_, _, h3, h4⟩ := profile_dirs h
  simp only [report, hp, DEFAULT_PROFILE, h1, h3, h4, hs, openMeta_self hi]
  rfl

theorem report_down {S : Setting σ} {fuel : Nat} {w : World σ} {cwd : Proj.Path} {name : String} {q : Profile}
    (hq : ProfileAt S.env w.fs cwd name q) (hi : S.ident q.metadataSchema = some q.metadataSchema)
    (target : Option String) {s : Server σ} (hs : w.servers q.databaseUrl = some s) :
    report S fuel w cwd (.down name target) = downReport S.B target (s.db q.metadataSchema) := by
  obtain ⟨p, hp, h⟩ := hq
  obtain ⟨_, _, h3, h4⟩ := profile_dirs h
  simp only [report, hp, h3, h4, hs, openMeta_self hi]
  rfl

/-! ### Fuel -/

theorem stage_settled {defs : Except Def.LoadErrorE Database} {d : HDir} {n m : Nat} (hnm : n ≤ m)
    (h : stagePlan n (Def.eraseL defs) d ≠ none) :
    stagePlan m (Def.eraseL defs) d = stagePlan n (Def.eraseL defs) d ∧
    stagePrinted m (Def.eraseL defs) d = stagePrinted n (Def.eraseL defs) d ∧
    stageReport m defs d = stageReport n defs d := by
  unfold stageReport stagePrinted stagePlan
  unfold stagePlan at h
  cases hf : HDir.fromDir n d with
  | none => rw [hf] at h; exact absurd rfl h
  | some x =>
    rw [hf] at h; rw [fromDir_mono hnm hf]
    cases x with
    | error e => exact ⟨rfl, rfl, rfl⟩
    | ok o =>
      cases defs with
      | error e => exact ⟨rfl, rfl, rfl⟩
      | ok t =>
        simp only [Def.eraseL] at h ⊢
        cases hc : calculateSnapshot n d Version.STAGE with
        | none => rw [hc] at h; exact absurd rfl h
        | some y => rw [calculate_mono hnm hc]; exact ⟨rfl, rfl, rfl⟩

theorem make_settled {stamp : String} {label : Option String} {d : HDir} {n m : Nat} (hnm : n ≤ m)
    (h : makePlan n stamp label d ≠ none) :
    makePlan m stamp label d = makePlan n stamp label d ∧
    makePrinted m stamp label d = makePrinted n stamp label d ∧
    makeReport m stamp label d = makeReport n stamp label d := by
  unfold makeReport makePrinted makePlan
  unfold makePlan at h
  cases hf : HDir.fromDir n d with
  | none => rw [hf] at h; exact absurd rfl h
  | some x => rw [fromDir_mono hnm hf]; exact ⟨rfl, rfl, rfl⟩

theorem reset_settled {d : HDir} {n m : Nat} (hnm : n ≤ m) (h : resetPlan n d ≠ none) :
    resetPlan m d = resetPlan n d ∧ resetReport m d = resetReport n d := by
  unfold resetReport resetPlan
  unfold resetPlan at h
  cases hf : HDir.fromDir n d with
  | none => rw [hf] at h; exact absurd rfl h
  | some x => rw [fromDir_mono hnm hf]; exact ⟨rfl, rfl⟩

theorem runHist_some {fuel : Nat} {w : World σ} {h : Proj.Path} {c : HistCmd}
    (hr : runHist fuel w h c ≠ none) : c.plan fuel (w.fs.history h) ≠ none := by
  intro hn
  unfold runHist at hr
  rw [hn] at hr
  exact hr rfl

theorem runHist_congr {n m : Nat} {w : World σ} {h : Proj.Path} {c : HistCmd}
    (h1 : c.plan m (w.fs.history h) = c.plan n (w.fs.history h))
    (h2 : c.printed m (w.fs.history h) = c.printed n (w.fs.history h)) :
    runHist m w h c = runHist n w h c := by
  unfold runHist
  rw [h1, h2]

theorem status_settled {S : Setting σ} {w : World σ} {h ds : Proj.Path} {url ms : String} {n m : Nat}
    (hnm : n ≤ m) (hr : statusIn S n w h ds url ms ≠ none) :
    statusReport m (definitionsE w.fs ds) (w.fs.history h) =
      statusReport n (definitionsE w.fs ds) (w.fs.history h) := by
  unfold statusIn at hr
  rw [← definitions_erase] at hr
  unfold statusReport
  cases hf : HDir.fromDir n (w.fs.history h) with
  | none => rw [hf] at hr; exact absurd rfl hr
  | some x =>
    rw [hf] at hr; rw [fromDir_mono hnm hf]
    cases x with
    | error e => rfl
    | ok o =>
      dsimp only at hr ⊢
      cases h1 : definitionsE w.fs ds with
      | error e => rfl
      | ok t =>
        rw [h1] at hr
        simp only [Def.eraseL] at hr ⊢
        cases h2 : (w.fs.history h).getVersion Version.STAGE with
        | error e => rfl
        | ok st =>
          rw [h2] at hr
          dsimp only at hr ⊢
          cases hc : calculateSnapshot n (w.fs.history h) Version.STAGE with
          | none => rw [hc] at hr; exact absurd rfl hr
          | some y => rw [calculate_mono hnm hc]

theorem up_settled {B : Pg.Behaviour σ} {d : HDir} {target : Option String} {db : Pg.DB σ} {n m : Nat}
    (hnm : n ≤ m) (hr : Pg.up B n d target db ≠ none) :
    Pg.up B m d target db = Pg.up B n d target db ∧
    Pg.upPrinted B m d target db = Pg.upPrinted B n d target db ∧
    upReport B m d target db = upReport B n d target db := by
  unfold Pg.up at hr
  unfold Pg.up Pg.upPrinted upReport
  cases hf : HDir.fromDir n d with
  | none => rw [hf] at hr; exact absurd rfl hr
  | some x =>
    rw [hf] at hr; rw [fromDir_mono hnm hf]
    cases x with
    | error e => exact ⟨rfl, rfl, rfl⟩
    | ok o =>
      dsimp only at hr ⊢
      cases he : Pg.ensureInitialized B db with
      | mk a b =>
        rw [he] at hr
        cases b with
        | false => exact ⟨rfl, rfl, rfl⟩
        | true =>
          cases a with
          | absent => exact ⟨rfl, rfl, rfl⟩
          | noTable => exact ⟨rfl, rfl, rfl⟩
          | table t =>
            dsimp only at hr ⊢
            cases ht : t.current with
            | none => exact ⟨rfl, rfl, rfl⟩
            | some cur =>
              rw [ht] at hr
              dsimp only at hr ⊢
              cases hg : d.getVersion (target.getD o.currentVersion) with
              | error e => exact ⟨rfl, rfl, rfl⟩
              | ok to =>
                rw [hg] at hr
                dsimp only at hr ⊢
                cases hu : HDir.upwardRange n d cur.name to.name with
                | none => rw [hu] at hr; exact absurd rfl hr
                | some y => rw [upwardRange_mono hnm hu]; exact ⟨rfl, rfl, rfl⟩

/-- Once a command has ended, neither its effects nor its error depend on how long it is watched. -/
theorem run_settled {S : Setting σ} {w : World σ} {cwd : Proj.Path} {a : Args} {n m : Nat} (hnm : n ≤ m)
    (hr : run S n w cwd a ≠ none) :
    run S m w cwd a = run S n w cwd a ∧ report S m w cwd a = report S n w cwd a := by
  cases a with
  | init => exact ⟨rfl, rfl⟩
  | clone => exact ⟨rfl, rfl⟩
  | print => exact ⟨rfl, rfl⟩
  | sync p => exact ⟨rfl, rfl⟩
  | down p v => exact ⟨rfl, rfl⟩
  | status p =>
    cases hd : discover S.env w.fs cwd with
    | error e => simp only [run, report, hd]; exact ⟨trivial, trivial⟩
    | ok q =>
      simp only [run, report, hd] at hr ⊢
      cases h1 : q.historyDir DEFAULT_PROFILE with
      | error e => exact ⟨rfl, rfl⟩
      | ok h =>
        cases h2 : q.definitionsDir DEFAULT_PROFILE with
        | error e => exact ⟨rfl, rfl⟩
        | ok ds =>
          cases h3 : q.databaseUrl p with
          | error e => exact ⟨rfl, rfl⟩
          | ok url =>
            obtain ⟨ms, h4⟩ : ∃ ms, q.metadataSchema p = .ok ms := by
              unfold Proj.Project.metadataSchema
              unfold Proj.Project.databaseUrl at h3
              cases hp : q.profile p with
              | error e => rw [hp] at h3; cases h3
              | ok x => exact ⟨_, rfl⟩
            rw [h1, h2, h3, h4] at hr
            simp only [h4] at hr ⊢
            cases hs : statusIn S n w h ds url ms with
            | none => rw [hs] at hr; exact absurd rfl hr
            | some r =>
              rw [statusIn_mono hnm hs]
              exact ⟨rfl, status_settled (S := S) (url := url) (ms := ms) hnm (by rw [hs]; simp)⟩
  | stage p =>
    cases hd : discover S.env w.fs cwd with
    | error e => simp only [run, report, hd]; exact ⟨trivial, trivial⟩
    | ok q =>
      simp only [run, report, hd] at hr ⊢
      cases h1 : q.historyDir p with
      | error e => exact ⟨rfl, rfl⟩
      | ok h =>
        cases h2 : q.definitionsDir p with
        | error e => exact ⟨rfl, rfl⟩
        | ok ds =>
          rw [h1, h2] at hr
          have := runHist_some hr
          dsimp only
          rw [← definitions_erase] at this ⊢
          obtain ⟨a, b, c⟩ := stage_settled hnm this
          exact ⟨runHist_congr a b, c⟩
  | make p v =>
    cases hd : discover S.env w.fs cwd with
    | error e => simp only [run, report, hd]; exact ⟨trivial, trivial⟩
    | ok q =>
      simp only [run, report, hd] at hr ⊢
      cases h1 : q.historyDir p with
      | error e => exact ⟨rfl, rfl⟩
      | ok h =>
        rw [h1] at hr
        obtain ⟨a, b, c⟩ := make_settled hnm (runHist_some hr)
        exact ⟨runHist_congr a b, c⟩
  | reset p =>
    cases hd : discover S.env w.fs cwd with
    | error e => simp only [run, report, hd]; exact ⟨trivial, trivial⟩
    | ok q =>
      simp only [run, report, hd] at hr ⊢
      cases h1 : q.historyDir p with
      | error e => exact ⟨rfl, rfl⟩
      | ok h =>
        rw [h1] at hr
        obtain ⟨a, c⟩ := reset_settled hnm (runHist_some hr)
        exact ⟨runHist_congr a rfl, c⟩
  | up p v =>
    cases hd : discover S.env w.fs cwd with
    | error e => simp only [run, report, hd]; exact ⟨trivial, trivial⟩
    | ok q =>
      simp only [run, report, hd] at hr ⊢
      cases h1 : q.historyDir DEFAULT_PROFILE with
      | error e => exact ⟨rfl, rfl⟩
      | ok h =>
        cases h2 : q.databaseUrl p with
        | error e => exact ⟨rfl, rfl⟩
        | ok url =>
          cases h3 : q.metadataSchema p with
          | error e => exact ⟨rfl, rfl⟩
          | ok ms =>
            rw [h1, h2, h3] at hr
            dsimp only at hr ⊢
            cases hs : w.servers url with
            | none => exact ⟨rfl, rfl⟩
            | some s =>
              rw [hs] at hr
              dsimp only at hr ⊢
              cases ho : openMeta S s ms with
              | none =>
                rw [ho] at hr
                dsimp only at hr ⊢
                cases hf : HDir.fromDir n (w.fs.history h) with
                | none => rw [hf] at hr; exact absurd rfl hr
                | some x => rw [fromDir_mono hnm hf]; exact ⟨rfl, rfl⟩
              | some k =>
                rw [ho] at hr
                dsimp only at hr ⊢
                cases hu : Pg.up S.B n (w.fs.history h) v ⟨s.metas k, s.data⟩ with
                | none => rw [hu] at hr; exact absurd rfl hr
                | some r =>
                  obtain ⟨a, b, c⟩ := up_settled hnm (by rw [hu]; simp)
                  rw [a, hu, b, c]
                  exact ⟨rfl, rfl⟩

/-- What a command does does not depend on how long it is watched. -/
theorem ends_unique {S : Setting σ} {w w₁ w₂ : World σ} {cwd : Proj.Path} {a : Args} {o₁ o₂ : List String}
    {e₁ e₂ : Ending} (h₁ : Ends S w cwd a w₁ o₁ e₁) (h₂ : Ends S w cwd a w₂ o₂ e₂) :
    w₁ = w₂ ∧ o₁ = o₂ ∧ e₁ = e₂ := by
  obtain ⟨n, h₁⟩ := h₁
  obtain ⟨m, h₂⟩ := h₂
  have a1 := (run_settled (m := max n m) (Nat.le_max_left _ _) (by rw [h₁]; simp)).1
  have a2 := (run_settled (m := max n m) (Nat.le_max_right _ _) (by rw [h₂]; simp)).1
  rw [a1, h₁, h₂] at a2
  injection a2 with a2
  injection a2 with x y
  injection y with y z
  exact ⟨x, y, z⟩

theorem says_unique {S : Setting σ} {T : Texts} {w : World σ} {cwd : Proj.Path} {a : Args}
    {l₁ l₂ : Option String} (h₁ : Says S T w cwd a l₁) (h₂ : Says S T w cwd a l₂) : l₁ = l₂ := by
  obtain ⟨n, r₁, h₁⟩ := h₁
  obtain ⟨m, r₂, h₂⟩ := h₂
  have a1 := (run_settled (m := max n m) (Nat.le_max_left _ _) r₁).2
  have a2 := (run_settled (m := max n m) (Nat.le_max_right _ _) r₂).2
  unfold stderr at h₁ h₂
  rw [← h₁, ← h₂, ← a1, ← a2]

/-! ### Where the errors come from -/

theorem fromDir_branched {d : HDir} (hd : d.NodupKeys) (hp : PlainNames d) {k : Nat} {p a b : String}
    (h : HDir.fromDir k d = some (.error (.branched p a b))) : Branch d p a b := by
  unfold HDir.fromDir at h
  cases hs : HDir.scan d d [] with
  | ok nm =>
    rw [hs] at h
    dsimp only at h
    cases hw : HDir.walk nm k "init" Version.INIT <;> rw [hw] at h <;> cases h
  | error e =>
    rw [hs] at h
    cases h
    rcases scan_branched hs with ⟨h, _⟩ | ⟨l₁, l₂, hl, h1, h2⟩
    · simp at h
    · obtain ⟨f, v, hf, hyf, hv, hvn⟩ := (mem_links hd hp
        (fun x hx => by rw [hl]; exact List.mem_append_left _ hx)).1 h1
      obtain ⟨g, w, hg, hyg, hw, hwn⟩ := (mem_links hd hp
        (fun x hx => by rw [hl]; exact List.mem_append_right _ hx)).1 h2
      refine ⟨f, g, v, w, ?_, ⟨by rw [hl]; exact List.mem_append_left _ hf, hyf⟩,
        ⟨by rw [hl]; exact List.mem_append_right _ hg, hyg⟩, hv, hw, hvn, hwn⟩
      rintro rfl
      unfold AMap.NodupKeys at hd
      rw [hl, AMap.keys_append, List.nodup_append] at hd
      exact hd.2.2 f (List.mem_map.2 ⟨_, hf, rfl⟩) f (List.mem_map.2 ⟨_, hg, rfl⟩) rfl

theorem openMetaReport_history {S : Setting σ} {s : Server σ} {ms : String} {e : FSError} :
    openMetaReport S s ms ≠ .history e := by
  unfold openMetaReport
  split
  · simp
  · split
    · split <;> simp
    · simp

theorem report_up' {S : Setting σ} {fuel : Nat} {w : World σ} {cwd : Proj.Path} {name : String} {q₀ q : Profile}
    (hq₀ : ProfileAt S.env w.fs cwd "database" q₀) (hq : ProfileAt S.env w.fs cwd name q)
    (target : Option String) {s : Server σ} (hs : w.servers q.databaseUrl = some s) :
    report S fuel w cwd (.up name target) = match openMeta S s q.metadataSchema with
      | none => (match HDir.fromDir fuel (w.fs.history q₀.history) with
        | none => none
        | some (.error e) => some (.history e)
        | some (.ok _) => some (openMetaReport S s q.metadataSchema))
      | some m => upReport S.B fuel (w.fs.history q₀.history) target ⟨s.metas m, s.data⟩ := by
  obtain ⟨p, hp, h0, h⟩ := profileAt_default hq₀ hq
  obtain ⟨h1, _, _, _⟩ := profile_dirs h0
  obtain ⟨_, _, h3, h4⟩ := profile_dirs h
  simp only [report, hp, DEFAULT_PROFILE, h1, h3, h4, hs]
  cases openMeta S s q.metadataSchema with
  | some m => rfl
  | none =>
    cases HDir.fromDir fuel (w.fs.history q₀.history) with
    | none => rfl
    | some x => cases x <;> rfl

theorem report_open_error {S : Setting σ} {fuel : Nat} {w : World σ} {cwd : Proj.Path} {a : Args} {q₀ : Profile}
    (hs : StartsOn S w cwd a q₀) {e : FSError}
    (h : HDir.fromDir fuel (w.fs.history q₀.history) = some (.error e)) :
    report S fuel w cwd a = some (.history e) := by
  obtain ⟨⟨n, hn, hq₀⟩, hall, hcon⟩ := hs
  cases a with
  | stage p => cases hn; rw [report_stage hq₀]; unfold stageReport; rw [h]
  | make p v => cases hn; rw [report_make hq₀]; unfold makeReport; rw [h]
  | reset p => cases hn; rw [report_reset hq₀]; unfold resetReport; rw [h]
  | status p =>
    cases hn
    obtain ⟨q, hq⟩ := hall p (by simp [Args.uses])
    rw [report_status hq₀ hq]; unfold statusReport; rw [h]
  | up p v =>
    cases hn
    obtain ⟨q, hq⟩ := hall p (by simp [Args.uses])
    cases hsv : w.servers q.databaseUrl with
    | none => exact absurd hsv (hcon p v q rfl hq)
    | some s =>
      rw [report_up' hq₀ hq v hsv]
      cases openMeta S s q.metadataSchema with
      | none => simp only [h]
      | some m => unfold upReport; rw [h]
  | _ => cases hn

theorem report_history_cases {S : Setting σ} {fuel : Nat} {w : World σ} {cwd : Proj.Path} {a : Args} {q₀ : Profile}
    (hs : StartsOn S w cwd a q₀) {e : FSError} (h : report S fuel w cwd a = some (.history e)) :
    HDir.fromDir fuel (w.fs.history q₀.history) = some (.error e) ∨ e = .fileSystem ∨ e = .yaml ∨
      ∃ lo hi, HDir.upwardRange fuel (w.fs.history q₀.history) lo hi = some (.error e) := by
  obtain ⟨⟨n, hn, hq₀⟩, hall, hcon⟩ := hs
  cases a with
  | stage p =>
    cases hn; rw [report_stage hq₀] at h
    rcases stageReport_history h with h | h | h | h
    · exact .inl h
    · exact .inr (.inr (.inr ⟨_, _, h⟩))
    · exact .inr (.inl h)
    · exact .inr (.inr (.inl h))
  | make p v =>
    cases hn; rw [report_make hq₀] at h
    rcases makeReport_history h with h | h | h
    · exact .inl h
    · exact .inr (.inl h)
    · exact .inr (.inr (.inl h))
  | reset p =>
    cases hn; rw [report_reset hq₀] at h
    rcases resetReport_history h with h | h | h
    · exact .inl h
    · exact .inr (.inl h)
    · exact .inr (.inr (.inl h))
  | status p =>
    cases hn
    obtain ⟨q, hq⟩ := hall p (by simp [Args.uses])
    rw [report_status hq₀ hq] at h
    rcases statusReport_history h with h | h | h | h
    · exact .inl h
    · exact .inr (.inr (.inr ⟨_, _, h⟩))
    · exact .inr (.inl h)
    · exact .inr (.inr (.inl h))
  | up p v =>
    cases hn
    obtain ⟨q, hq⟩ := hall p (by simp [Args.uses])
    cases hsv : w.servers q.databaseUrl with
    | none => exact absurd hsv (hcon p v q rfl hq)
    | some s =>
      rw [report_up' hq₀ hq v hsv] at h
      cases ho : openMeta S s q.metadataSchema with
      | none =>
        rw [ho] at h
        dsimp only at h
        split at h
        · cases h
        · next he => cases h; exact .inl he
        · injection h with h; exact absurd h openMetaReport_history
      | some m =>
        rw [ho] at h
        rcases upReport_history h with h | h | h | ⟨_, _, _, _, _, _, _, _, h⟩
        · exact .inl h
        · exact .inr (.inl h)
        · exact .inr (.inr (.inl h))
        · exact .inr (.inr (.inr ⟨_, _, h⟩))
  | _ => cases hn

theorem fromDir_unreachable {d : HDir} {k : Nat} {hi lo : String} :
    HDir.fromDir k d ≠ some (.error (.unreachable hi lo)) := by
  intro h
  unfold HDir.fromDir at h
  cases hs : HDir.scan d d [] with
  | ok nm =>
    rw [hs] at h
    dsimp only at h
    cases hw : HDir.walk nm k "init" Version.INIT <;> rw [hw] at h <;> cases h
  | error e =>
    rw [hs] at h
    cases h
    rcases scan_error hs with h | ⟨_, _, _, h⟩
    · obtain ⟨f, _, h⟩ := List.mem_map.1 h
      rcases getVersion_kind h with h | h <;> cases h
    · cases h

theorem range_unreachable {d : HDir} {k : Nat} {a b hi lo : String}
    (h : HDir.upwardRange k d a b = some (.error (.unreachable hi lo))) : hi = b ∧ lo = a := by
  rcases rangeLoop_error h with ⟨_, _, _, _, _, _, _, h⟩ | ⟨c, _, _, h⟩
  · cases h; exact ⟨rfl, rfl⟩
  · rcases getVersion_kind h with h | h <;> cases h

theorem order_none_iff {t : Pg.VTable} {n : String} : t.order n = none ↔ ∀ r ∈ t.rows, r.version.name ≠ n := by
  constructor
  · intro h r hr he
    unfold Pg.VTable.order at h
    rw [Option.map_eq_none_iff, List.find?_eq_none] at h
    exact h r hr (by simp [he])
  · exact Pg.IsChain.order_none

/-- `down` says that there is no version of a name exactly if that version was asked for and is not
recorded. -/
theorem downReport_version {B : Pg.Behaviour σ} {target : Option String} {db : Pg.DB σ} {t : Pg.VTable}
    (ht : Pg.ensureInitialized B db = (.table t, true)) (hch : Pg.IsChain t) {v : String} :
    downReport B target db = some (.noMatchingVersion v) ↔
      target = some v ∧ ∀ r ∈ t.rows, r.version.name ≠ v := by
  obtain ⟨q, l, hq⟩ := hch.split_last
  have hlm : l ∈ t.rows := by rw [hq]; simp
  have hcur := hch.current hq
  unfold downReport
  rw [ht]
  dsimp only
  rw [hcur]
  dsimp only
  rw [hch.order hlm]
  cases target with
  | some n =>
    dsimp only [Option.getD_some]
    cases ho : t.order n with
    | none =>
      dsimp only
      rw [order_none_iff] at ho
      constructor
      · intro h; cases h; exact ⟨rfl, ho⟩
      · rintro ⟨h, _⟩; cases h; rfl
    | some o =>
      dsimp only
      constructor
      · intro h
        exfalso
        revert h
        split
        · simp
        · simp
        · split
          · split <;> simp
          · simp
      · rintro ⟨h, hn⟩
        cases h
        rw [order_none_iff.2 hn] at ho
        cases ho
  | none =>
    constructor
    · intro h
      exfalso
      revert h
      split
      · simp
      · next hne =>
        have hprev : ∃ r ∈ t.rows, l.version.previous = some r.version.name := by
          rcases List.eq_nil_or_concat q with hn | ⟨a, r, hr⟩
          · subst hn
            have := hch.linked
            rw [hq] at this
            exact absurd this.1 (hne rfl)
          · refine ⟨r, by rw [hq, hr]; simp, ?_⟩
            have := hch.linked
            rw [hq, hr, List.map_append] at this
            have := this.prev_last
            simpa using this
        obtain ⟨r, hr, hp⟩ := hprev
        rw [hp]
        dsimp only [Option.getD_none, Option.getD_some]
        rw [hch.order hr]
        dsimp only
        split
        · simp
        · simp
        · split
          · split <;> simp
          · simp
    · rintro ⟨h, _⟩; cases h

theorem ensure_written {B : Pg.Behaviour σ} {db : Pg.DB σ} (hr : Pg.Reach B db) (hw : db.metaSchema ≠ .absent) :
    ∃ t, db.metaSchema = .table t ∧ Pg.ensureInitialized B db = (.table t, true) ∧ Pg.IsChain t := by
  cases hm : db.metaSchema with
  | absent => exact absurd hm hw
  | noTable => exact absurd hm hr.hasTable
  | table t => exact ⟨t, rfl, by unfold Pg.ensureInitialized; rw [hm], hr.good t hm⟩

theorem loadReport_iff {x e : Def.LoadErrorE} :
    loadReport x = some (.definitions e) ↔ x = e ∧ e ≠ .panic ∧ ∀ s, e ≠ .snapshot s := by
  cases x <;> simp only [loadReport, reduceCtorEq, Option.some.injEq, Report.definitions.injEq, false_iff]
  all_goals first
    | (constructor
       · rintro rfl; simp
       · exact fun h => h.1)
    | (rintro ⟨rfl, h1, h2⟩; simp at h1 h2)

theorem stageReport_definitions {k : Nat} {defs : Except Def.LoadErrorE Database} {d : HDir} {e : Def.LoadErrorE} :
    stageReport k defs d = some (.definitions e) ↔
      (∃ o, HDir.fromDir k d = some (.ok o)) ∧ defs = .error e ∧ e ≠ .panic ∧ ∀ s, e ≠ .snapshot s := by
  unfold stageReport
  cases HDir.fromDir k d with
  | none => simp
  | some x =>
    cases x with
    | error x => simp
    | ok o =>
      cases defs with
      | error x => simp [loadReport_iff]
      | ok t =>
        simp only [reduceCtorEq, false_and, and_false, iff_false]
        split
        · simp
        · next x _ => cases x <;> simp [replayReport]
        · split
          · simp
          · split
            · simp
            · unfold saveReport
              split <;> simp

theorem statusReport_definitions {k : Nat} {defs : Except Def.LoadErrorE Database} {d : HDir} {e : Def.LoadErrorE} :
    statusReport k defs d = some (.definitions e) ↔
      (∃ o, HDir.fromDir k d = some (.ok o)) ∧ defs = .error e ∧ e ≠ .panic ∧ ∀ s, e ≠ .snapshot s := by
  unfold statusReport
  cases HDir.fromDir k d with
  | none => simp
  | some x =>
    cases x with
    | error x => simp
    | ok o =>
      cases defs with
      | error x => simp [loadReport_iff]
      | ok t =>
        simp only [reduceCtorEq, false_and, and_false, iff_false]
        split
        · simp
        · split
          · simp
          · next x _ => cases x <;> simp [replayReport]
          · simp

end Prog
end Podo
