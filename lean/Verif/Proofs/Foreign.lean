import Verif.Spec.Foreign
import Verif.Proofs.History
import Verif.Proofs.Load
/-
Lemmas for C90.
-/
namespace Podo
open Pg
variable {α σ : Type} {Own : String → Prop} {l l' : AMap α} {d d' : HDir}

theorem SameOwn.refl (Own : String → Prop) : ∀ l : AMap α, SameOwn Own l l
  | [] => .nil
  | (f, e) :: l => .both f e (SameOwn.refl Own l)

theorem SameOwn.symm (h : SameOwn Own l l') : SameOwn Own l' l := by
  induction h with
  | nil => exact .nil
  | both f e _ ih => exact .both f e ih
  | left f e hf _ ih => exact .right f e hf ih
  | right f e hf _ ih => exact .left f e hf ih

theorem SameOwn.get? (h : SameOwn Own l l') {k : String} (hk : Own k) : AMap.get? l k = AMap.get? l' k := by
  induction h with
  | nil => rfl
  | both f e _ ih => simp only [AMap.get?_cons, ih]
  | left f e hf _ ih =>
    rw [AMap.get?_cons, if_neg (fun he => hf (by dsimp only at he; rw [he]; exact hk)), ih]
  | right f e hf _ ih =>
    rw [AMap.get?_cons, if_neg (fun he => hf (by dsimp only at he; rw [he]; exact hk)), ih]

theorem SameOwn.append (h : SameOwn Own l l') {m : AMap α} : SameOwn Own (l ++ m) (l' ++ m) := by
  induction h with
  | nil => exact SameOwn.refl Own m
  | both f e _ ih => exact .both f e ih
  | left f e hf _ ih => exact .left f e hf ih
  | right f e hf _ ih => exact .right f e hf ih

theorem SameOwn.insertNew (h : SameOwn Own l l') (k : String) (v : α) :
    SameOwn Own (AMap.insertNew l k v) (AMap.insertNew l' k v) := h.append

theorem set_cons (p : String × α) (m : AMap α) (k : String) (v : α) :
    AMap.set (p :: m) k v = (if p.1 = k then (k, v) else p) :: AMap.set m k v := by
  unfold AMap.set
  simp only [List.map_cons]

theorem SameOwn.set (h : SameOwn Own l l') (k : String) (v : α) :
    SameOwn Own (AMap.set l k v) (AMap.set l' k v) := by
  induction h with
  | nil => exact .nil
  | both f e _ ih =>
    rw [set_cons, set_cons]
    dsimp only
    split
    · exact .both k v ih
    · exact .both f e ih
  | left f e hf _ ih =>
    rw [set_cons]
    dsimp only
    split
    case isTrue he => subst he; exact .left f v hf ih
    case isFalse => exact .left f e hf ih
  | right f e hf _ ih =>
    rw [set_cons]
    dsimp only
    split
    case isTrue he => subst he; exact .right f v hf ih
    case isFalse => exact .right f e hf ih

theorem SameOwn.filter (h : SameOwn Own l l') {p : String → Bool} (hp : ∀ f, p f = true → Own f) :
    l.filter (fun x => p x.1) = l'.filter (fun x => p x.1) := by
  induction h with
  | nil => rfl
  | both f e _ ih => simp only [List.filter_cons, ih]
  | left f e hf _ ih =>
    rw [List.filter_cons_of_neg (a := (f, e)) (p := fun x => p x.1) (fun hh => hf (hp f hh)), ih]
  | right f e hf _ ih =>
    rw [List.filter_cons_of_neg (a := (f, e)) (p := fun x => p x.1) (fun hh => hf (hp f hh)), ih]

theorem own_yaml (n : String) : VersionFileName (n ++ ".yaml") := ⟨n, rfl⟩

/-! ## Version files -/

theorem SameOwn.getVersion (h : SameOwn VersionFileName d d') : d'.getVersion = d.getVersion := by
  funext n
  unfold HDir.getVersion
  rw [h.get? (own_yaml n)]

theorem SameOwn.scan_eq (hg : d'.getVersion = d.getVersion) {l l' : List (String × Entry)}
    (h : SameOwn VersionFileName l l') (nm : AMap String) : HDir.scan d' l' nm = HDir.scan d l nm := by
  induction h generalizing nm with
  | nil => rfl
  | both f e _ ih =>
    simp only [HDir.scan, hg, ih]
  | left f e hf _ ih =>
    rw [HDir.scan.eq_2, if_pos (Or.inr (by
      cases hb : endsYaml f with
      | false => rfl
      | true => exact absurd (endsYaml_iff.1 hb) hf)), ih]
  | right f e hf _ ih =>
    rw [HDir.scan.eq_2, if_pos (Or.inr (by
      cases hb : endsYaml f with
      | false => rfl
      | true => exact absurd (endsYaml_iff.1 hb) hf)), ih]

theorem SameOwn.fromDir (h : SameOwn VersionFileName d d') (fuel : Nat) :
    HDir.fromDir fuel d' = HDir.fromDir fuel d := by
  unfold HDir.fromDir
  rw [SameOwn.scan_eq h.getVersion h]

theorem SameOwn.rangeLoop (h : SameOwn VersionFileName d d') (a b : String) (n : Nat) (c : String)
    (acc : List String) : HDir.rangeLoop d' a b n c acc = HDir.rangeLoop d a b n c acc := by
  induction n generalizing c acc with
  | zero => rfl
  | succ n ih => simp only [HDir.rangeLoop, h.getVersion, ih]

theorem SameOwn.upwardRange (h : SameOwn VersionFileName d d') (fuel : Nat) (a b : String) :
    HDir.upwardRange fuel d' a b = HDir.upwardRange fuel d a b := h.rangeLoop a b fuel b []

theorem SameOwn.replayVersions (h : SameOwn VersionFileName d d') (ns : List String) (s : Database) :
    replayVersions d' ns s = replayVersions d ns s := by
  induction ns generalizing s with
  | nil => rfl
  | cons n ns ih => simp only [Podo.replayVersions, h.getVersion, ih]

theorem SameOwn.calculateSnapshot (h : SameOwn VersionFileName d d') (fuel : Nat) (v : String) :
    calculateSnapshot fuel d' v = calculateSnapshot fuel d v := by
  simp only [Podo.calculateSnapshot, h.getVersion, h.upwardRange, h.replayVersions]

theorem SameOwn.plan (h : SameOwn VersionFileName d d') (fuel : Nat) (c : HistCmd) :
    c.plan fuel d' = c.plan fuel d := by
  cases c with
  | init => rfl
  | stage defs => simp only [HistCmd.plan, stagePlan, h.fromDir, h.calculateSnapshot, h.getVersion]
  | make stamp label => simp only [HistCmd.plan, makePlan, h.fromDir, h.getVersion]
  | reset => simp only [HistCmd.plan, resetPlan, h.fromDir, h.getVersion]

theorem SameOwn.printed (h : SameOwn VersionFileName d d') (fuel : Nat) (c : HistCmd) :
    c.printed fuel d' = c.printed fuel d := by
  cases c with
  | init => rfl
  | stage defs => simp only [HistCmd.printed, stagePrinted, h.fromDir, h.calculateSnapshot, h.getVersion]
  | make stamp label => simp only [HistCmd.printed, makePrinted, h.fromDir, h.getVersion]
  | reset => rfl

theorem SameOwn.save (h : SameOwn VersionFileName d d') (v : Version) :
    (d.save v = none ∧ d'.save v = none) ∨
      ∃ x x', d.save v = some x ∧ d'.save v = some x' ∧ SameOwn VersionFileName x x' := by
  unfold HDir.save
  by_cases hs : v.name.toList.contains '/' = true
  · rw [if_pos hs, if_pos hs]; exact .inl ⟨rfl, rfl⟩
  · rw [if_neg hs, if_neg hs, ← h.get? (own_yaml v.name)]
    cases d.get? (v.name ++ ".yaml") with
    | none => exact .inr ⟨_, _, rfl, rfl, h.insertNew _ _⟩
    | some e =>
      cases e with
      | dir => exact .inl ⟨rfl, rfl⟩
      | file c => exact .inr ⟨_, _, rfl, rfl, h.set _ _⟩

theorem SameOwn.saveAll (vs : List Version) {d d' : HDir} (h : SameOwn VersionFileName d d') :
    SameOwn VersionFileName (d.saveAll vs).1 (d'.saveAll vs).1 ∧ (d'.saveAll vs).2 = (d.saveAll vs).2 := by
  induction vs generalizing d d' with
  | nil => exact ⟨h, rfl⟩
  | cons v vs ih =>
    rcases h.save v with ⟨h1, h2⟩ | ⟨x, x', h1, h2, hx⟩
    · rw [HDir.saveAll, HDir.saveAll, h1, h2]; exact ⟨h, rfl⟩
    · rw [HDir.saveAll, HDir.saveAll, h1, h2]; exact ih hx

theorem SameOwn.upLoop (B : Behaviour σ) (h : SameOwn VersionFileName d d') (ns : List String) (t : VTable) (s : σ) :
    upLoop B d' ns t s = upLoop B d ns t s := by
  induction ns generalizing t s with
  | nil => rfl
  | cons n ns ih => simp only [Pg.upLoop, h.getVersion, ih]

theorem SameOwn.up (B : Behaviour σ) (h : SameOwn VersionFileName d d') (fuel : Nat) (target : Option String)
    (db : DB σ) : Pg.up B fuel d' target db = Pg.up B fuel d target db := by
  simp only [Pg.up, h.fromDir, h.getVersion, h.upwardRange, h.upLoop]

theorem SameOwn.upLoopPrinted (B : Behaviour σ) (h : SameOwn VersionFileName d d') (ns : List String) (t : VTable)
    (s : σ) : upLoopPrinted B d' ns t s = upLoopPrinted B d ns t s := by
  induction ns generalizing t s with
  | nil => rfl
  | cons n ns ih => simp only [Pg.upLoopPrinted, h.getVersion, ih]

theorem SameOwn.upPrinted (B : Behaviour σ) (h : SameOwn VersionFileName d d') (fuel : Nat)
    (target : Option String) (db : DB σ) :
    Pg.upPrinted B fuel d' target db = Pg.upPrinted B fuel d target db := by
  simp only [Pg.upPrinted, h.fromDir, h.getVersion, h.upwardRange, h.upLoopPrinted]

/-! ## Definition files -/

theorem SameOwn.collect {F : Type} {es es' : List (DirTree F)} (h : SameOwn YamlName (filesOf es) (filesOf es')) :
    Load.collect es' = Load.collect es := by
  rw [Load.collect_eq, Load.collect_eq, h.filter (p := Load.isYaml) (fun _ hf => Load.isYaml_iff.1 hf)]

theorem filesOf_flat {F : Type} (m : AMap F) : filesOf (m.map fun f => DirTree.file f.1 f.2) = m := by
  induction m with
  | nil => rfl
  | cons p m ih => simp only [List.map_cons, filesOf, filesOfEntry, ih]; rfl

theorem SameOwn.insertEntry {m m' : AMap Def.Yaml} (h : SameOwn YamlName m m') {k : String} (hk : YamlName k)
    (v : Def.Yaml) : SameOwn YamlName (Def.insertEntry m k v) (Def.insertEntry m' k v) := by
  unfold Def.insertEntry AMap.has
  rw [h.get? hk]
  split
  · exact h.set _ _
  · exact h.insertNew _ _

namespace Prog
open Proj
variable {w w' : World σ}

theorem SameOwnFiles.symm (h : SameOwnFiles w w') : SameOwnFiles w' w :=
  ⟨h.config.symm, h.servers.symm, fun p => (h.history p).symm, fun p => (h.definitions p).symm⟩

theorem SameOwnFiles.definitionsE (h : SameOwnFiles w w') (ds : Path) :
    definitionsE w'.fs ds = definitionsE w.fs ds := by
  unfold Prog.definitionsE Def.loadDirE
  rw [SameOwn.collect (es := (w.fs.definitions ds).map fun f => .file f.1 f.2)
    (by rw [filesOf_flat, filesOf_flat]; exact h.definitions ds)]

theorem SameOwnFiles.definitions_eq (h : SameOwnFiles w w') (ds : Path) :
    Prog.definitions w'.fs ds = Prog.definitions w.fs ds := by
  unfold Prog.definitions Def.loadDir
  rw [SameOwn.collect (es := (w.fs.definitions ds).map fun f => .file f.1 f.2)
    (by rw [filesOf_flat, filesOf_flat]; exact h.definitions ds)]

theorem SameOwnFiles.discover (h : SameOwnFiles w w') (env : Env) (cwd : Path) :
    Proj.discover env w'.fs cwd = Proj.discover env w.fs cwd := by
  unfold Proj.discover; rw [h.config]

theorem SameOwnFiles.tryCurrentVersion (h : SameOwnFiles w w') (S : Setting σ) (url ms : String) :
    tryCurrentVersion S w' url ms = tryCurrentVersion S w url ms := by
  unfold Prog.tryCurrentVersion; rw [h.servers]

theorem SameOwnFiles.statusIn (h : SameOwnFiles w w') (S : Setting σ) (fuel : Nat) (hd ds : Path)
    (url ms : String) : statusIn S fuel w' hd ds url ms = statusIn S fuel w hd ds url ms := by
  simp only [Prog.statusIn, (h.history hd).fromDir, (h.history hd).getVersion,
    (h.history hd).calculateSnapshot, h.definitions_eq, h.tryCurrentVersion]

theorem SameOwnFiles.put (h : SameOwnFiles w w') (p : Path) {x x' : HDir} (hx : SameOwn VersionFileName x x') :
    SameOwnFiles ⟨{ w.fs with history := update w.fs.history p x }, w.servers⟩
      ⟨{ w'.fs with history := update w'.fs.history p x' }, w'.servers⟩ := by
  refine ⟨h.config, h.servers, fun q => ?_, h.definitions⟩
  show SameOwn _ (update w.fs.history p x q) (update w'.fs.history p x' q)
  unfold update
  split
  · exact hx
  · exact h.history q

theorem SameOwnFiles.runHist (h : SameOwnFiles w w') (fuel : Nat) (p : Path) (c : HistCmd) {w₁ : World σ}
    {out : List String} {e : Ending} (hr : runHist fuel w p c = some (w₁, out, e)) :
    ∃ w₁', runHist fuel w' p c = some (w₁', out, e) ∧ SameOwnFiles w₁ w₁' := by
  unfold Prog.runHist at hr ⊢
  rw [(h.history p).plan, (h.history p).printed]
  cases hp : c.plan fuel (w.fs.history p) with
  | none => rw [hp] at hr; cases hr
  | some r =>
    rw [hp] at hr
    cases r with
    | error e' =>
      simp only [Option.some.injEq, Prod.mk.injEq] at hr
      obtain ⟨rfl, rfl, rfl⟩ := hr
      exact ⟨w', rfl, h⟩
    | ok vs =>
      simp only [Option.some.injEq, Prod.mk.injEq] at hr
      obtain ⟨rfl, rfl, rfl⟩ := hr
      obtain ⟨h1, h2⟩ := SameOwn.saveAll vs (h.history p)
      exact ⟨_, by dsimp only; rw [h2], h.put p h1⟩

theorem SameOwnFiles.putServer (h : SameOwnFiles w w') (url ms : String) (s : Server σ) (db : DB σ) :
    SameOwnFiles (putServer w url ms s db) (putServer w' url ms s db) := by
  refine ⟨h.config, ?_, h.history, h.definitions⟩
  show update w'.servers _ _ = update w.servers _ _
  rw [h.servers]

theorem yamlName_public : YamlName "public.yaml" := ⟨"public", by decide, by decide⟩

theorem SameOwnFiles.init (h : SameOwnFiles w w') (env : Env) (cwd : Path) :
    (Proj.init env w'.fs cwd).2 = (Proj.init env w.fs cwd).2 ∧
      SameOwnFiles ⟨(Proj.init env w.fs cwd).1, w.servers⟩ ⟨(Proj.init env w'.fs cwd).1, w'.servers⟩ := by
  have hc : SameOwnFiles (σ := σ) ⟨{ w.fs with config := update w.fs.config cwd (some (some baseProject)) }, w.servers⟩
      ⟨{ w'.fs with config := update w'.fs.config cwd (some (some baseProject)) }, w'.servers⟩ :=
    ⟨by show update w'.fs.config _ _ = update w.fs.config _ _; rw [h.config], h.servers, h.history, h.definitions⟩
  unfold Proj.init
  rw [h.discover env cwd]
  cases Proj.discover env w.fs cwd with
  | ok p => exact ⟨rfl, h⟩
  | error e =>
    dsimp only
    cases loadProject env cwd (some baseProject) with
    | error e => exact ⟨rfl, hc⟩
    | ok p =>
      dsimp only
      cases p.historyDir DEFAULT_PROFILE with
      | error e => exact ⟨rfl, hc⟩
      | ok hd =>
        cases p.definitionsDir DEFAULT_PROFILE with
        | error e => exact ⟨rfl, hc⟩
        | ok ds =>
          dsimp only
          cases Change.applyAll (Version.newInit.changes ++ (Version.newStage Version.newInit.name).changes)
              Database.new with
          | error e => exact ⟨rfl, hc⟩
          | ok snapshot =>
            dsimp only
            obtain ⟨h1, h2⟩ := SameOwn.saveAll [Version.newInit, Version.newStage Version.newInit.name]
              (h.history hd)
            have hp := hc.put hd h1
            dsimp only at hp
            rw [h2]
            cases ((w.fs.history hd).saveAll [Version.newInit, Version.newStage Version.newInit.name]).2 with
            | false => exact ⟨rfl, hp⟩
            | true =>
              simp only [Bool.true_eq_false, if_false]
              cases Def.saveDoc snapshot with
              | error e => exact ⟨rfl, hp⟩
              | ok y =>
                refine ⟨rfl, hp.config, hp.servers, hp.history, fun q => ?_⟩
                dsimp only
                unfold update
                split
                · exact (h.definitions ds).insertEntry yamlName_public y
                · exact h.definitions q

theorem SameOwnFiles.run (h : SameOwnFiles w w') (S : Setting σ) (fuel : Nat) (cwd : Path) (a : Args)
    {w₁ : World σ} {out : List String} {e : Ending} (hr : run S fuel w cwd a = some (w₁, out, e)) :
    ∃ w₁', run S fuel w' cwd a = some (w₁', out, e) ∧ SameOwnFiles w₁ w₁' := by
  have same : ∀ {o : List String} {x : Ending}, some (w, o, x) = some (w₁, out, e) →
      ∃ w₁', some (w', o, x) = some (w₁', out, e) ∧ SameOwnFiles w₁ w₁' := by
    intro o x hh
    simp only [Option.some.injEq, Prod.mk.injEq] at hh
    obtain ⟨rfl, rfl, rfl⟩ := hh
    exact ⟨w', rfl, h⟩
  cases a with
  | init =>
    obtain ⟨h1, h2⟩ := h.init S.env cwd
    unfold Prog.run at hr ⊢
    dsimp only at hr ⊢
    revert hr h1 h2
    generalize Proj.init S.env w.fs cwd = r
    generalize Proj.init S.env w'.fs cwd = r'
    obtain ⟨fs, o⟩ := r
    obtain ⟨fs', o'⟩ := r'
    intro hr h1 h2
    dsimp only at h1 h2
    subst h1
    cases o' with
    | exists_ b =>
      simp only [Option.some.injEq, Prod.mk.injEq] at hr ⊢
      obtain ⟨rfl, rfl, rfl⟩ := hr
      exact ⟨_, ⟨rfl, rfl, rfl⟩, h2⟩
    | done =>
      simp only [Option.some.injEq, Prod.mk.injEq] at hr ⊢
      obtain ⟨rfl, rfl, rfl⟩ := hr
      exact ⟨_, ⟨rfl, rfl, rfl⟩, h2⟩
    | failed =>
      simp only [Option.some.injEq, Prod.mk.injEq] at hr ⊢
      obtain ⟨rfl, rfl, rfl⟩ := hr
      exact ⟨_, ⟨rfl, rfl, rfl⟩, h2⟩
    | panic =>
      simp only [Option.some.injEq, Prod.mk.injEq] at hr ⊢
      obtain ⟨rfl, rfl, rfl⟩ := hr
      exact ⟨_, ⟨rfl, rfl, rfl⟩, h2⟩
  | status profile =>
    unfold Prog.run at hr ⊢
    dsimp only at hr ⊢
    rw [h.discover]
    simp only [h.statusIn]
    cases hd : Proj.discover S.env w.fs cwd with
    | error _ => rw [hd] at hr; exact same hr
    | ok p =>
      rw [hd] at hr
      dsimp only at hr ⊢
      revert hr
      generalize p.historyDir DEFAULT_PROFILE = a1
      generalize p.definitionsDir DEFAULT_PROFILE = a2
      generalize p.databaseUrl profile = a3
      generalize p.metadataSchema profile = a4
      intro hr
      cases a1 <;> cases a2 <;> cases a3 <;> cases a4 <;> dsimp only at hr ⊢ <;> try exact same hr
      revert hr
      generalize Prog.statusIn S fuel w _ _ _ _ = r
      intro hr
      cases r with
      | none => cases hr
      | some r => exact same hr
  | stage profile =>
    unfold Prog.run at hr ⊢
    dsimp only at hr ⊢
    rw [h.discover]
    simp only [h.definitions_eq]
    cases hd : Proj.discover S.env w.fs cwd with
    | error _ => rw [hd] at hr; exact same hr
    | ok p =>
      rw [hd] at hr
      dsimp only at hr ⊢
      revert hr
      generalize p.historyDir profile = a1
      generalize p.definitionsDir profile = a2
      intro hr
      cases a1 <;> cases a2 <;> dsimp only at hr ⊢ <;> first | exact same hr | exact h.runHist _ _ _ hr
  | reset profile =>
    unfold Prog.run at hr ⊢
    dsimp only at hr ⊢
    rw [h.discover]
    cases hd : Proj.discover S.env w.fs cwd with
    | error _ => rw [hd] at hr; exact same hr
    | ok p =>
      rw [hd] at hr
      dsimp only at hr ⊢
      cases hh : p.historyDir profile with
      | error _ => rw [hh] at hr; exact same hr
      | ok x => rw [hh] at hr; exact h.runHist _ _ _ hr
  | make profile version =>
    unfold Prog.run at hr ⊢
    dsimp only at hr ⊢
    rw [h.discover]
    cases hd : Proj.discover S.env w.fs cwd with
    | error _ => rw [hd] at hr; exact same hr
    | ok p =>
      rw [hd] at hr
      dsimp only at hr ⊢
      cases hh : p.historyDir profile with
      | error _ => rw [hh] at hr; exact same hr
      | ok x => rw [hh] at hr; exact h.runHist _ _ _ hr
  | up profile version =>
    unfold Prog.run at hr ⊢
    dsimp only at hr ⊢
    rw [h.discover]
    simp only [h.servers]
    cases hd : Proj.discover S.env w.fs cwd with
    | error _ => rw [hd] at hr; exact same hr
    | ok p =>
      rw [hd] at hr
      dsimp only at hr ⊢
      revert hr
      generalize p.historyDir DEFAULT_PROFILE = a1
      generalize p.databaseUrl profile = a3
      generalize p.metadataSchema profile = a4
      intro hr
      cases a1 <;> cases a3 <;> cases a4 <;> dsimp only at hr ⊢ <;> try exact same hr
      rename_i hp url ms
      simp only [(h.history hp).up, (h.history hp).fromDir, (h.history hp).upPrinted]
      cases hs : w.servers url with
      | none => rw [hs] at hr; exact same hr
      | some s =>
        rw [hs] at hr
        dsimp only at hr ⊢
        cases ho : openMeta S s ms with
        | none =>
          rw [ho] at hr
          dsimp only at hr ⊢
          cases hf : HDir.fromDir fuel (w.fs.history hp) with
          | none => rw [hf] at hr; cases hr
          | some x => rw [hf] at hr; exact same hr
        | some m =>
          rw [ho] at hr
          dsimp only at hr ⊢
          cases hu : Pg.up S.B fuel (w.fs.history hp) version ⟨s.metas m, s.data⟩ with
          | none => rw [hu] at hr; cases hr
          | some x =>
            rw [hu] at hr
            obtain ⟨db, o⟩ := x
            simp only [Option.some.injEq, Prod.mk.injEq] at hr ⊢
            obtain ⟨rfl, rfl, rfl⟩ := hr
            exact ⟨_, ⟨rfl, rfl, rfl⟩, h.putServer _ _ _ _⟩
  | down profile version =>
    unfold Prog.run at hr ⊢
    dsimp only at hr ⊢
    rw [h.discover]
    simp only [h.servers]
    cases hd : Proj.discover S.env w.fs cwd with
    | error _ => rw [hd] at hr; exact same hr
    | ok p =>
      rw [hd] at hr
      dsimp only at hr ⊢
      revert hr
      generalize p.databaseUrl profile = a3
      generalize p.metadataSchema profile = a4
      intro hr
      cases a3 <;> cases a4 <;> dsimp only at hr ⊢ <;> try exact same hr
      rename_i url ms
      cases hs : w.servers url with
      | none => rw [hs] at hr; exact same hr
      | some s =>
        rw [hs] at hr
        dsimp only at hr ⊢
        cases ho : openMeta S s ms with
        | none => rw [ho] at hr; exact same hr
        | some m =>
          rw [ho] at hr
          dsimp only at hr ⊢
          revert hr
          generalize Pg.down S.B version ⟨s.metas m, s.data⟩ = x
          intro hr
          obtain ⟨db, o⟩ := x
          simp only [Option.some.injEq, Prod.mk.injEq] at hr ⊢
          obtain ⟨rfl, rfl, rfl⟩ := hr
          exact ⟨_, ⟨rfl, rfl, rfl⟩, h.putServer _ _ _ _⟩
  | clone => unfold Prog.run at hr ⊢; exact same hr
  | print => unfold Prog.run at hr ⊢; exact same hr
  | sync profile => unfold Prog.run at hr ⊢; exact same hr

/-! ## Errors on standard error -/

theorem SameOwnFiles.saveReport (h : SameOwn VersionFileName d d') (vs : List Version) :
    saveReport d' vs = saveReport d vs := by
  unfold Prog.saveReport; rw [(h.saveAll vs).2]

theorem SameOwnFiles.upLoopReport (B : Behaviour σ) (h : SameOwn VersionFileName d d') (ns : List String) (t : VTable)
    (s : σ) : upLoopReport B d' ns t s = upLoopReport B d ns t s := by
  induction ns generalizing t s with
  | nil => rfl
  | cons n ns ih => simp only [Prog.upLoopReport, h.getVersion, ih]

theorem SameOwnFiles.upReport (B : Behaviour σ) (h : SameOwn VersionFileName d d') (fuel : Nat)
    (target : Option String) (db : DB σ) : upReport B fuel d' target db = upReport B fuel d target db := by
  simp only [Prog.upReport, h.fromDir, h.getVersion, h.upwardRange, h.upLoop, upLoopReport B h]

theorem SameOwnFiles.report (h : SameOwnFiles w w') (S : Setting σ) (fuel : Nat) (cwd : Path) (a : Args) :
    report S fuel w' cwd a = report S fuel w cwd a := by
  have h' := h.history
  cases a with
  | init =>
    obtain ⟨h1, _⟩ := h.init S.env cwd
    unfold Prog.report
    dsimp only
    revert h1
    generalize Proj.init S.env w.fs cwd = r
    generalize Proj.init S.env w'.fs cwd = r'
    obtain ⟨fs, o⟩ := r
    obtain ⟨fs', o'⟩ := r'
    intro h1
    dsimp only at h1
    subst h1
    cases o' <;> rfl
  | status profile =>
    have e : ∀ p defs, statusReport fuel defs (w'.fs.history p) = statusReport fuel defs (w.fs.history p) := by
      intro p defs
      simp only [statusReport, (h' p).fromDir, (h' p).getVersion, (h' p).calculateSnapshot]
    simp only [Prog.report, h.discover, h.definitionsE, e]
  | stage profile =>
    have e : ∀ p defs, stageReport fuel defs (w'.fs.history p) = stageReport fuel defs (w.fs.history p) := by
      intro p defs
      simp only [stageReport, (h' p).fromDir, (h' p).getVersion, (h' p).calculateSnapshot, saveReport (h' p)]
    simp only [Prog.report, h.discover, h.definitionsE, e]
  | reset profile =>
    have e : ∀ p, resetReport fuel (w'.fs.history p) = resetReport fuel (w.fs.history p) := by
      intro p
      simp only [resetReport, (h' p).fromDir, (h' p).getVersion, saveReport (h' p)]
    simp only [Prog.report, h.discover, e]
  | make profile version =>
    have e : ∀ p, makeReport fuel S.now version (w'.fs.history p) = makeReport fuel S.now version (w.fs.history p) := by
      intro p
      simp only [makeReport, (h' p).fromDir, (h' p).getVersion, saveReport (h' p)]
    simp only [Prog.report, h.discover, e]
  | up profile version =>
    have e : ∀ p, HDir.fromDir fuel (w'.fs.history p) = HDir.fromDir fuel (w.fs.history p) := fun p => (h' p).fromDir fuel
    have e' : ∀ p db, Prog.upReport S.B fuel (w'.fs.history p) version db =
        Prog.upReport S.B fuel (w.fs.history p) version db := fun p db => upReport S.B (h' p) fuel version db
    simp only [Prog.report, h.discover, h.servers, e, e']
  | down profile version => simp only [Prog.report, h.discover, h.servers]
  | clone => rfl
  | print => rfl
  | sync profile => rfl

/-! ## What is kept -/

theorem save_other {d dv : HDir} {v : Version} (hs : d.save v = some dv) {f : String} (hf : ¬ VersionFileName f) :
    dv.get? f = d.get? f := by
  have hne : v.name ++ ".yaml" ≠ f := fun he => hf (he ▸ own_yaml v.name)
  unfold HDir.save at hs
  split at hs
  · cases hs
  · cases hg : d.get? (v.name ++ ".yaml") with
    | none =>
      rw [hg] at hs
      simp only [Option.some.injEq] at hs
      subst hs
      rw [AMap.get?_insertNew _ _ _ _ hg, if_neg (Ne.symm hne)]
    | some e =>
      rw [hg] at hs
      cases e with
      | dir => cases hs
      | file c =>
        simp only [Option.some.injEq] at hs
        subst hs
        rw [AMap.get?_set _ _ _ _ (by rw [hg]; rfl), if_neg (Ne.symm hne)]

theorem saveAll_other (vs : List Version) (d : HDir) {f : String} (hf : ¬ VersionFileName f) :
    (d.saveAll vs).1.get? f = d.get? f := by
  induction vs generalizing d with
  | nil => rfl
  | cons v vs ih =>
    rw [HDir.saveAll]
    cases hs : d.save v with
    | none => rfl
    | some dv => rw [← save_other hs hf]; exact ih dv

theorem OthersKept.refl (w : World σ) : OthersKept w w := ⟨fun _ _ _ => rfl, fun _ _ _ => rfl⟩

theorem others_runHist {w w₁ : World σ} {fuel : Nat} {p : Path} {c : HistCmd} {out : List String} {e : Ending}
    (hr : runHist fuel w p c = some (w₁, out, e)) : OthersKept w w₁ := by
  unfold Prog.runHist at hr
  split at hr
  · cases hr
  · simp only [Option.some.injEq, Prod.mk.injEq] at hr
    obtain ⟨rfl, -, -⟩ := hr
    exact .refl _
  · simp only [Option.some.injEq, Prod.mk.injEq] at hr
    obtain ⟨rfl, -, -⟩ := hr
    refine ⟨fun q f hf => ?_, fun _ _ _ => rfl⟩
    show (update w.fs.history p _ q).get? f = _
    unfold update
    split
    · rename_i hq; subst hq; exact saveAll_other _ _ hf
    · rfl

theorem insertEntry_other {m : AMap Def.Yaml} {k : String} {y : Def.Yaml} {f : String} (hf : k ≠ f) :
    (Def.insertEntry m k y).get? f = m.get? f := by
  unfold Def.insertEntry
  cases hh : m.has k with
  | true =>
    rw [if_pos rfl, AMap.get?_set _ _ _ _ hh, if_neg (Ne.symm hf)]
  | false =>
    rw [if_neg (by decide), AMap.get?_insertNew _ _ _ _ (AMap.has_eq_false_iff.1 hh), if_neg (Ne.symm hf)]

theorem others_init (env : Env) (w : World σ) (cwd : Path) :
    OthersKept w ⟨(Proj.init env w.fs cwd).1, w.servers⟩ := by
  have hc : ∀ c : Path → Option (Option YProject), OthersKept w ⟨{ w.fs with config := c }, w.servers⟩ :=
    fun _ => ⟨fun _ _ _ => rfl, fun _ _ _ => rfl⟩
  unfold Proj.init
  split
  · exact .refl _
  · dsimp only
    split
    · exact hc _
    · split
      · rename_i hd ds _ _
        split
        · exact hc _
        · have hh : ∀ q f, ¬ VersionFileName f → (update w.fs.history hd ((w.fs.history hd).saveAll
              [Version.newInit, Version.newStage Version.newInit.name]).1 q).get? f = (w.fs.history q).get? f := by
            intro q f hf
            unfold update
            split
            · rename_i hq; subst hq; exact saveAll_other _ _ hf
            · rfl
          split
          · exact ⟨hh, fun _ _ _ => rfl⟩
          · split
            · exact ⟨hh, fun _ _ _ => rfl⟩
            · refine ⟨hh, fun q f hf => ?_⟩
              dsimp only
              unfold update
              split
              · rename_i hq
                subst hq
                exact insertEntry_other fun he => hf (he ▸ yamlName_public)
              · rfl
      · exact hc _

theorem others_run {S : Setting σ} {fuel : Nat} {w w₁ : World σ} {cwd : Path} {a : Args} {out : List String}
    {e : Ending} (hr : run S fuel w cwd a = some (w₁, out, e)) : OthersKept w w₁ := by
  have same : ∀ {o : List String} {x : Ending}, some (w, o, x) = some (w₁, out, e) → OthersKept w w₁ := by
    intro o x hh
    simp only [Option.some.injEq, Prod.mk.injEq] at hh
    obtain ⟨rfl, -, -⟩ := hh
    exact .refl _
  have put : ∀ {url m : String} {s : Server σ} {db : DB σ} {o : List String} {x : Ending},
      some (putServer w url m s db, o, x) = some (w₁, out, e) → OthersKept w w₁ := by
    intro url m s db o x hh
    simp only [Option.some.injEq, Prod.mk.injEq] at hh
    obtain ⟨rfl, -, -⟩ := hh
    exact ⟨fun _ _ _ => rfl, fun _ _ _ => rfl⟩
  unfold Prog.run at hr
  split at hr
  · have hi := others_init S.env w cwd
    revert hr hi
    generalize Proj.init S.env w.fs cwd = r
    intro hr hi
    obtain ⟨fs, o⟩ := r
    cases o <;> (simp only [Option.some.injEq, Prod.mk.injEq] at hr; obtain ⟨rfl, -, -⟩ := hr; exact hi)
  all_goals (repeat' split at hr) <;> first | exact same hr | exact others_runHist hr | exact put hr | cases hr

end Prog
end Podo
