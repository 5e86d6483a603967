import Verif.Spec.Initial
import Verif.Proofs.Repair
import Verif.Props.Life
/-
Lemmas for C96.
-/
namespace Podo

/-! ### Saving again what was cut short -/

theorem save_again {d dv : HDir} {v : Version} (h : d.save v = some dv) (x : Option Version) :
    HDir.save (dv.set (v.name ++ ".yaml") (.file x)) v = some dv := by
  have hk : ¬ v.name.toList.contains '/' = true := by
    intro hc
    unfold HDir.save at h
    rw [if_pos hc] at h
    cases h
  have hg : (dv.set (v.name ++ ".yaml") (.file x)).get? (v.name ++ ".yaml") = some (.file x) := by
    rw [AMap.get?_set _ _ _ _ (by rw [save_get h, if_pos rfl]; rfl), if_pos rfl]
  have e : dv = (dv.set (v.name ++ ".yaml") (.file x)).set (v.name ++ ".yaml") (.file (some v)) := by
    rw [AMap.set_set]
    unfold HDir.save at h
    rw [if_neg hk] at h
    split at h
    · cases h
    · cases h; rw [AMap.set_set]
    · next hn => cases h; rw [set_insertNew hn]
  unfold HDir.save
  rw [if_neg hk, hg]
  exact congrArg some e.symm

theorem save_there {d : HDir} {v : Version} (hd : d.NodupKeys) (hn : '/' ∉ v.name.toList)
    (h : d.get? (v.name ++ ".yaml") = some (.file (some v))) : d.save v = some d := by
  unfold HDir.save
  rw [if_neg (by simpa using hn), h]
  exact congrArg some (AMap.set_self hd h)

theorem saved_noSlash {d d' : HDir} {v : Version} (h : d.save v = some d') : '/' ∉ v.name.toList := by
  unfold HDir.save at h
  split at h
  · cases h
  · next hc => simpa using hc

theorem crash_one {d d' : HDir} {b : Version} (hd : d.NodupKeys) (h : CrashState d [b] d') :
    d'.saveAll [b] = d.saveAll [b] := by
  cases h with
  | before => rfl
  | truncated hs => simp only [HDir.saveAll, hs, save_again hs]
  | cut l hs hne => simp only [HDir.saveAll, hs, save_again hs]
  | saved hs hc =>
    cases hc
    simp only [HDir.saveAll, hs, save_there (save_nodup hd hs) (saved_noSlash hs) (by rw [save_get hs, if_pos rfl])]

theorem crash_get {d d' : HDir} {b : Version} (h : CrashState d [b] d') {f : String} (hf : f ≠ b.name ++ ".yaml") :
    d'.get? f = d.get? f := by
  have key : ∀ {dv : HDir} (x : Option Version), d.save b = some dv →
      (dv.set (b.name ++ ".yaml") (.file x)).get? f = d.get? f := by
    intro dv x hs
    rw [AMap.get?_set _ _ _ _ (by rw [save_get hs, if_pos rfl]; rfl), if_neg hf, save_get hs, if_neg hf]
  cases h with
  | before => rfl
  | truncated hs => exact key _ hs
  | cut l hs hne => exact key _ hs
  | saved hs hc => cases hc; rw [save_get hs, if_neg hf]

theorem crash_nodup {d d' : HDir} {b : Version} (hd : d.NodupKeys) (h : CrashState d [b] d') : d'.NodupKeys := by
  cases h with
  | before => exact hd
  | truncated hs => exact AMap.nodupKeys_set (save_nodup hd hs) _ _
  | cut l hs hne => exact AMap.nodupKeys_set (save_nodup hd hs) _ _
  | saved hs hc => cases hc; exact save_nodup hd hs

/-- Saving two versions again, wherever that was interrupted. -/
theorem crash_two {d d' : HDir} {a b : Version} (hd : d.NodupKeys) (hab : a.name ++ ".yaml" ≠ b.name ++ ".yaml")
    (h : CrashState d [a, b] d') : d'.saveAll [a, b] = d.saveAll [a, b] := by
  cases h with
  | before => rfl
  | truncated hs => simp only [HDir.saveAll, hs, save_again hs]
  | cut l hs hne => simp only [HDir.saveAll, hs, save_again hs]
  | saved hs hc =>
    rename_i dv
    have hn := crash_nodup (save_nodup hd hs) hc
    have hg : d'.get? (a.name ++ ".yaml") = some (.file (some a)) := by
      rw [crash_get hc hab, save_get hs, if_pos rfl]
    have h1 := save_there hn (saved_noSlash hs) hg
    have h2 := crash_one (save_nodup hd hs) hc
    have e1 : d'.saveAll [a, b] = d'.saveAll [b] := by
      show (match d'.save a with
        | none => (d', false)
        | some d'' => HDir.saveAll d'' [b]) = _
      rw [h1]
    have e2 : d.saveAll [a, b] = dv.saveAll [b] := by
      show (match d.save a with
        | none => (d, false)
        | some d'' => HDir.saveAll d'' [b]) = _
      rw [hs]
    rw [e1, e2, h2]

/-! ### A history that is not complete yet -/

/-- The stage cannot be read, and no version but init. -/
structure Half (d : HDir) : Prop where
  stage : ∃ e, d.getVersion "stage" = .error e
  only : ∀ n v, d.getVersion n = .ok v → v.name = "init" ∧ v.previous = none

theorem getVersion_of_get {d : HDir} {n : String} {v : Version} (h : d.getVersion n = .ok v) :
    d.get? (n ++ ".yaml") = some (.file (some v)) := by
  unfold HDir.getVersion at h
  split at h
  · next hg => cases h; exact hg
  · cases h
  · cases h
  · cases h

theorem getVersion_error {d : HDir} {n : String} (h : ∀ v, d.get? (n ++ ".yaml") ≠ some (.file (some v))) :
    ∃ e, d.getVersion n = .error e := by
  cases he : d.getVersion n with
  | error e => exact ⟨e, rfl⟩
  | ok v => exact absurd (getVersion_of_get he) (h v)

theorem half_nil : Half [] := ⟨⟨_, rfl⟩, fun n v h => by cases h⟩

theorem half_of {d : HDir} (hs : ∀ v, d.get? "stage.yaml" ≠ some (.file (some v)))
    (ho : ∀ f v, d.get? f = some (.file (some v)) → f ≠ "stage.yaml" → v.name = "init" ∧ v.previous = none) :
    Half d := by
  refine ⟨getVersion_error hs, fun n v h => ho _ v (getVersion_of_get h) ?_⟩
  intro e
  have := getVersion_of_get h
  rw [e] at this
  exact hs v this

/-- What is left of the version files: as in `init`, or the stage is missing. -/
theorem half_or_done {d : HDir} (h : CrashState [] [Version.newInit, Version.newStage "init"] d) :
    Half d ∨ d = initDir := by
  have hn1 : Version.newInit.name ++ ".yaml" = "init.yaml" := rfl
  have hn2 : (Version.newStage "init").name ++ ".yaml" = "stage.yaml" := rfl
  have key : ∀ {dv : HDir} (x : Option Version), (∀ v, x = some v → v.name = "init" ∧ v.previous = none) →
      HDir.save [] Version.newInit = some dv → Half (dv.set (Version.newInit.name ++ ".yaml") (.file x)) := by
    intro dv x hx hs
    have hg : ∀ f, (dv.set (Version.newInit.name ++ ".yaml") (.file x)).get? f =
        if f = "init.yaml" then some (.file x) else none := by
      intro f
      rw [AMap.get?_set _ _ _ _ (by rw [save_get hs, if_pos rfl]; rfl), save_get hs, hn1]
      split <;> rfl
    refine half_of ?_ ?_
    · intro v; rw [hg]; simp
    · intro f v hf _
      rw [hg] at hf
      split at hf
      · injection hf with hf; injection hf with hf; exact hx v hf
      · cases hf
  cases h with
  | before => exact .inl half_nil
  | truncated hs => exact .inl (key none (fun _ h => by cases h) hs)
  | cut l hs _ => exact .inl (key _ (fun v h => by cases h; exact ⟨rfl, rfl⟩) hs)
  | saved hs hc =>
    rename_i dv
    have hinit : ∀ f, dv.get? f = if f = "init.yaml" then some (.file (some Version.newInit)) else none := by
      intro f; rw [save_get hs, hn1]; rfl
    cases hc with
    | before =>
      refine .inl (half_of (fun v => by rw [hinit]; simp) ?_)
      intro f v hf _
      rw [hinit] at hf
      split at hf
      · cases hf; exact ⟨rfl, rfl⟩
      · cases hf
    | truncated hs2 =>
      rename_i dv2
      have hg : ∀ f, (dv2.set ((Version.newStage "init").name ++ ".yaml") (.file none)).get? f =
          if f = "stage.yaml" then some (.file none) else dv.get? f := by
        intro f
        rw [AMap.get?_set _ _ _ _ (by rw [save_get hs2, if_pos rfl]; rfl), save_get hs2, hn2]
        split <;> simp_all
      refine .inl (half_of (fun v => by rw [hg]; simp) ?_)
      intro f v hf hne
      rw [hg, if_neg hne, hinit] at hf
      split at hf
      · cases hf; exact ⟨rfl, rfl⟩
      · cases hf
    | cut l _ hne => exact absurd rfl hne
    | saved hs2 hc2 =>
      cases hc2
      right
      have e1 : dv = [("init.yaml", .file (some Version.newInit))] := by
        have : HDir.save [] Version.newInit = some [("init.yaml", .file (some Version.newInit))] := rfl
        rw [this] at hs; exact (Option.some.inj hs).symm
      subst e1
      have : HDir.save [("init.yaml", .file (some Version.newInit))] (Version.newStage "init") = some initDir := rfl
      rw [this] at hs2; exact (Option.some.inj hs2).symm

theorem half_calculate {d : HDir} (h : Half d) (fuel : Nat) :
    calculateSnapshot fuel d "stage" = none ∨ ∃ e, calculateSnapshot fuel d "stage" = some (.error (.fs e)) := by
  obtain ⟨e, he⟩ := h.stage
  unfold calculateSnapshot HDir.upwardRange
  cases fuel with
  | zero => exact .inl rfl
  | succ k =>
    unfold HDir.rangeLoop
    rw [he]
    exact .inr ⟨e, rfl⟩

theorem half_range {d : HDir} (h : Half d) {fuel : Nat} {cur n : String} {to : Version} (ht : d.getVersion n = .ok to)
    {l : List String} (hl : HDir.upwardRange fuel d cur to.name = some (.ok l)) : l = [] := by
  obtain ⟨h1, h2⟩ := h.only _ _ ht
  rw [h1] at hl
  unfold HDir.upwardRange at hl
  cases fuel with
  | zero => cases hl
  | succ k =>
    unfold HDir.rangeLoop at hl
    split at hl
    · cases hl
    · next v hv =>
      split at hl
      · injection hl with hl; injection hl with hl; exact hl.symm
      · rw [(h.only _ _ hv).2] at hl
        cases hl

theorem half_up {σ : Type} {B : Pg.Behaviour σ} {d : HDir} (h : Half d) {fuel : Nat} {target : Option String}
    {db db' : Pg.DB σ} {o : Pg.Outcome} (hu : Pg.up B fuel d target db = some (db', o)) : db' = db := by
  rcases Pg.up_cases hu with ⟨rfl, _⟩ | ⟨opened, t, _, _, cur, to, l, _, hto, hl, hc⟩
  · rfl
  · rcases hc with ⟨_, rfl, _⟩ | ⟨hne, _⟩
    · rfl
    · exact absurd (half_range h hto hl) hne

/-- No history command does anything. -/
theorem half_plan {d : HDir} (h : Half d) {fuel : Nat} {c : HistCmd} (hc : c ≠ .init)
    (hs : ∀ defs, c = .stage defs → ∃ t, defs = .ok t) {r : Except CmdFail (List Version)}
    (hp : c.plan fuel d = some r) : ∃ e, r = .error (.error (.fs e)) := by
  obtain ⟨e, he⟩ := h.stage
  cases c with
  | init => exact absurd rfl hc
  | stage defs =>
    obtain ⟨t, rfl⟩ := hs _ rfl
    simp only [HistCmd.plan, stagePlan] at hp
    split at hp
    · cases hp
    · cases hp; exact ⟨_, rfl⟩
    · rcases half_calculate h fuel with hn | ⟨x, hx⟩
      · rw [show Version.STAGE = "stage" from rfl, hn] at hp; cases hp
      · rw [show Version.STAGE = "stage" from rfl, hx] at hp; cases hp; exact ⟨_, rfl⟩
  | make stamp label =>
    simp only [HistCmd.plan, makePlan, he] at hp
    split at hp
    · cases hp
    · cases hp; exact ⟨_, rfl⟩
    · cases hp; exact ⟨_, rfl⟩
  | reset =>
    simp only [HistCmd.plan, resetPlan, show Version.STAGE = "stage" from rfl, he] at hp
    split at hp
    · cases hp
    · cases hp; exact ⟨_, rfl⟩
    · cases hp; exact ⟨_, rfl⟩

namespace Proj

theorem insertEntry_again (m : AMap Def.Yaml) (k : String) (x y : Def.Yaml) :
    Def.insertEntry (Def.insertEntry m k x) k y = Def.insertEntry m k y := by
  unfold Def.insertEntry
  by_cases h : m.has k = true
  · rw [if_pos h, if_pos h]
    have : (m.set k x).has k = true := by
      unfold AMap.has at h ⊢
      rw [AMap.get?_set _ _ _ _ h, if_pos rfl]; rfl
    rw [if_pos this, AMap.set_set]
  · rw [if_neg h, if_neg h]
    have hn : m.get? k = none := by
      unfold AMap.has at h
      cases hg : m.get? k with
      | none => rfl
      | some v => rw [hg] at h; exact absurd rfl h
    have : (m.insertNew k x).has k = true := by
      unfold AMap.has
      rw [AMap.get?_insertNew _ _ _ _ hn, if_pos rfl]; rfl
    rw [if_pos this]
    unfold AMap.set AMap.insertNew
    rw [List.map_append]
    have h2 : List.map (fun p : String × Def.Yaml => if p.1 = k then (k, y) else p) m = m := by
      conv => rhs; rw [← List.map_id m]
      apply List.map_congr_left
      intro p hp
      rw [if_neg]
      · rfl
      · intro e
        exact AMap.get?_eq_none_iff.1 hn (e ▸ List.mem_map_of_mem hp)
    rw [h2]
    simp

/-- What `init` does when it finds no project, whether it can save the versions or not. -/
theorem init_run {env : Env} {fs : Fs} {cwd : Path} {e : ProjectError} (h0 : discover env fs cwd = .error e) :
    init env fs cwd =
      if ((fs.history (cwd ++ ["database", "history"])).saveAll [Version.newInit, Version.newStage "init"]).2 = true then
        (⟨update fs.config cwd (some (some baseProject)),
          update fs.history (cwd ++ ["database", "history"])
            ((fs.history (cwd ++ ["database", "history"])).saveAll [Version.newInit, Version.newStage "init"]).1,
          update fs.definitions (cwd ++ ["database", "definitions"])
            (Def.insertEntry (fs.definitions (cwd ++ ["database", "definitions"])) "public.yaml" initDoc)⟩, .done)
      else
        (⟨update fs.config cwd (some (some baseProject)),
          update fs.history (cwd ++ ["database", "history"])
            ((fs.history (cwd ++ ["database", "history"])).saveAll [Version.newInit, Version.newStage "init"]).1,
          fs.definitions⟩, .failed) := by
  generalize hs : (fs.history (cwd ++ ["database", "history"])).saveAll [Version.newInit, Version.newStage "init"] = r
  obtain ⟨dir, ok⟩ := r
  cases ok with
  | true => rw [if_pos rfl]; exact init_new h0 hs
  | false =>
    rw [if_neg (by simp)]
    have el : loadProject env cwd (some baseProject) = .ok (initProject env cwd) := rfl
    have ehd : (initProject env cwd).historyDir DEFAULT_PROFILE = .ok (cwd ++ ["database", "history"]) :=
      congrArg Except.ok (join_history env cwd)
    have edd : (initProject env cwd).definitionsDir DEFAULT_PROFILE =
        .ok (cwd ++ ["database", "definitions"]) := congrArg Except.ok (join_definitions env cwd)
    unfold init
    rw [h0]
    dsimp only
    rw [el]
    dsimp only
    rw [ehd, edd]
    dsimp only
    have ea : Change.applyAll (Version.newInit.changes ++ (Version.newStage Version.newInit.name).changes)
        Database.new = .ok ⟨[("public", Schema.new "public")]⟩ := rfl
    rw [ea]
    dsimp only
    rw [show Version.newInit.name = "init" from rfl, hs]
    rfl

theorem discover_fails {env : Env} {fs : Fs} {cwd : Path} (h : ∀ d, Above d cwd → d ≠ cwd → fs.config d = none)
    (hc : ∀ y, fs.config cwd ≠ some (some y)) : ∃ e, discover env fs cwd = .error e := by
  cases hcc : fs.config cwd with
  | none =>
    refine ⟨.projectNotFound [], (discoverUp_none cwd.reverse).2 ?_⟩
    rw [List.reverse_reverse]
    intro d hd
    by_cases e : d = cwd
    · rw [e]; exact hcc
    · exact h d hd e
  | some c =>
    cases c with
    | some y => exact absurd hcc (hc y)
    | none =>
      obtain ⟨y, h1, h2⟩ := (C51_nearest_project env fs cwd).1 cwd
        ⟨List.prefix_refl _, by rw [hcc]; simp, fun d hd _ => hd⟩
      rw [hcc] at h1; cases h1
      exact ⟨_, h2⟩

theorem discover_here {env : Env} {fs : Fs} {cwd : Path} {y : YProject} (h : fs.config cwd = some (some y)) :
    discover env fs cwd = loadProject env cwd (some y) := by
  obtain ⟨y', h1, h2⟩ := (C51_nearest_project env fs cwd).1 cwd
    ⟨List.prefix_refl _, by rw [h]; simp, fun d hd _ => hd⟩
  rw [h] at h1; cases h1
  exact h2

theorem update_twice {α β : Type} [DecidableEq α] (f : α → β) (a : α) (b c : β) :
    update (update f a b) a c = update f a c := Prog.update_update f a b c

/-- Files in which a new `init` makes no difference to an old one. -/
structure Redone (fs fs' : Fs) (cwd : Path) : Prop where
  config : ∀ c, update fs'.config cwd c = update fs.config cwd c
  history : ∀ d, update fs'.history (cwd ++ ["database", "history"]) d =
    update fs.history (cwd ++ ["database", "history"]) d
  saved : (fs'.history (cwd ++ ["database", "history"])).saveAll [Version.newInit, Version.newStage "init"] =
    (fs.history (cwd ++ ["database", "history"])).saveAll [Version.newInit, Version.newStage "init"]
  definitions : fs'.definitions = fs.definitions ∨
    (((fs.history (cwd ++ ["database", "history"])).saveAll [Version.newInit, Version.newStage "init"]).2 = true ∧
      ∃ y, fs'.definitions = update fs.definitions (cwd ++ ["database", "definitions"])
        (Def.insertEntry (fs.definitions (cwd ++ ["database", "definitions"])) "public.yaml" y))

theorem Redone.init {env : Env} {fs fs' : Fs} {cwd : Path} (h : Redone fs fs' cwd) {e e' : ProjectError}
    (h0 : discover env fs cwd = .error e) (h0' : discover env fs' cwd = .error e') :
    init env fs' cwd = init env fs cwd := by
  rw [init_run h0, init_run h0', h.config, h.saved, h.history]
  rcases h.definitions with hd | ⟨ht, y, hd⟩
  · rw [hd]
  · rw [if_pos ht, if_pos ht, hd]
    rw [update_twice]
    have : update fs.definitions (cwd ++ ["database", "definitions"])
        (Def.insertEntry (fs.definitions (cwd ++ ["database", "definitions"])) "public.yaml" y)
        (cwd ++ ["database", "definitions"]) = _ := Prog.update_self _ _ _
    rw [this, insertEntry_again]

theorem Redone.withoutConfig {fs fs' : Fs} {cwd : Path} (h : Redone fs fs' cwd) :
    Redone fs (fs'.withoutConfig cwd) cwd :=
  ⟨fun c => (update_twice _ _ _ _).trans (h.config c), h.history, h.saved, h.definitions⟩

theorem init_names : Version.newInit.name ++ ".yaml" ≠ (Version.newStage "init").name ++ ".yaml" := by decide

theorem nodup_saveAll {d : HDir} (hd : d.NodupKeys) {a b : Version} : (d.saveAll [a, b]).1.NodupKeys := by
  unfold HDir.saveAll
  split
  · exact hd
  · next d1 h1 =>
    unfold HDir.saveAll
    split
    · exact save_nodup hd h1
    · next d2 h2 => exact save_nodup (save_nodup hd h1) h2

theorem crash_saveAll {d : HDir} {a b : Version} : CrashState d [a, b] (d.saveAll [a, b]).1 := by
  unfold HDir.saveAll
  split
  · exact .before _ _
  · next d1 h1 =>
    refine .saved h1 ?_
    unfold HDir.saveAll
    split
    · exact .before _ _
    · next d2 h2 => exact .saved h2 (.before _ _)

theorem InitDies.redone {env : Env} {fs fs' : Fs} {cwd : Path}
    (hd : (fs.history (cwd ++ ["database", "history"])).NodupKeys) (h : InitDies env fs cwd fs') :
    Redone fs fs' cwd := by
  have hsame : Redone fs fs cwd := ⟨fun _ => rfl, fun _ => rfl, rfl, .inl rfl⟩
  have key : ∀ {d : HDir} {c : Option (Option YProject)} {D : Path → AMap Def.Yaml},
      CrashState (fs.history (cwd ++ ["database", "history"])) [Version.newInit, Version.newStage "init"] d →
      (D = fs.definitions ∨
        (((fs.history (cwd ++ ["database", "history"])).saveAll
          [Version.newInit, Version.newStage "init"]).2 = true ∧
        ∃ y, D = update fs.definitions (cwd ++ ["database", "definitions"])
          (Def.insertEntry (fs.definitions (cwd ++ ["database", "definitions"])) "public.yaml" y))) →
      Redone fs ⟨update fs.config cwd c, update fs.history (cwd ++ ["database", "history"]) d, D⟩ cwd := by
    intro d c D hc hD
    refine ⟨fun _ => update_twice _ _ _ _, fun _ => update_twice _ _ _ _, ?_, hD⟩
    show (update fs.history _ d _).saveAll _ = _
    rw [Prog.update_self]
    exact crash_two hd init_names hc
  cases h with
  | before => exact hsame
  | config h0 _ => exact ⟨fun _ => update_twice _ _ _ _, fun _ => rfl, rfl, .inl rfl⟩
  | history h0 hc => exact key hc (.inl rfl)
  | definitions h0 hs =>
    rename_i d y
    refine key ?_ (.inr ⟨by rw [hs], y, rfl⟩)
    have := crash_saveAll (d := fs.history (cwd ++ ["database", "history"])) (a := Version.newInit)
      (b := Version.newStage "init")
    rw [hs] at this
    exact this
  | after =>
    cases hx : discover env fs cwd with
    | ok p =>
      have : init env fs cwd = (fs, .exists_ p.baseDir) := by unfold init; rw [hx]
      rw [this]; exact hsame
    | error e =>
      rw [init_run hx]
      split
      · next ht => exact key crash_saveAll (.inr ⟨ht, _, rfl⟩)
      · exact key crash_saveAll (.inl rfl)

end Proj
end Podo
