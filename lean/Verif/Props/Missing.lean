import Verif.Proofs.Missing
import Verif.Props.Edited
import Verif.Props.Merge
import Verif.Props.Program
/-
C89: version files that are missing.
-/
namespace Podo
open Pg
variable {σ : Type}

/-! ### C89 -/

/-- C89, for the files.  Whichever files of a project are missing, its history opens.  Of the versions that follow
one another from init to the stage, let `A` be those before the first that is missing: the current version is then
the last but one of these, or init. -/
theorem C89_opens {d d' : HDir} (hr : Reachable d) (hm : FilesMissing d d') {l : List String}
    (hl : VersionPath d "init" "stage" l) {A C : List String} (hA : l = A ++ C) (hin : ∀ n ∈ A, ¬ Lacks d' n)
    (hC : ∀ n ∈ C.head?, Lacks d' n) (cv : String) : Opens d' cv ↔ cv = A.dropLast.getLast?.getD "init" := by
  obtain ⟨vs, st, _, h, _⟩ := hr.sound
  have ho := missing_opens h hm hl hA hin hC
  exact ⟨fun h' => h'.unique ho, fun e => e ▸ ho⟩

/-- C89, what is noticed.  If the file of any version is missing, `stage` fails and changes nothing, whatever the
definitions, and `status` does not succeed. -/
theorem C89_stage_status_partial {d d' : HDir} (hr : Reachable d) (hm : FilesMissing d d') {n : String} {v : Version}
    (hv : Stored d n v) (hl : Lacks d' n) :
    (∀ defs d'' ok, Runs (.stage defs) d' d'' ok ↔ d'' = d' ∧ ok = false) ∧
    ∀ (S : Prog.Setting σ) (w w' : Prog.World σ) (cwd : Proj.Path) (name : String) (q₀ q : Proj.Profile)
      (out : List String) (e : Prog.Ending), Prog.ProfileAt S.env w.fs cwd "database" q₀ →
      Prog.ProfileAt S.env w.fs cwd name q → w.fs.history q₀.history = d' →
      Prog.Ends S w cwd (.status name) w' out e → e ≠ .success := by
  obtain ⟨vs, st, _, h, _⟩ := hr.sound
  obtain ⟨cv, ho⟩ := missing_opens' h hm
  obtain ⟨k₁, nm, h1⟩ := ho.from
  obtain ⟨k₂, err, h2⟩ := missing_snapshot h hm hv hl
  have hstage : ∀ defs, HistCmd.exec (k₁ + k₂) (.stage defs) d' = some (d', false) := by
    intro defs
    unfold HistCmd.exec
    simp only [HistCmd.plan, stagePlan]
    rw [h1 _ (by omega), show Version.STAGE = "stage" from rfl, h2 _ (by omega)]
    cases defs <;> rfl
  refine ⟨fun defs d'' ok => ⟨?_, ?_⟩, ?_⟩
  · rintro ⟨fuel, hx⟩
    have h3 := exec_mono (Nat.le_max_left fuel (k₁ + k₂)) hx
    rw [exec_mono (Nat.le_max_right fuel (k₁ + k₂)) (hstage defs)] at h3
    cases h3
    exact ⟨rfl, rfl⟩
  · rintro ⟨rfl, rfl⟩
    exact ⟨_, hstage defs⟩
  · rintro S w w' cwd name q₀ q out e hq₀ hq rfl ⟨fuel, hx⟩ rfl
    rw [Prog.run_status hq₀ hq] at hx
    cases hs : Prog.statusIn S fuel w q₀.history q₀.definitions q.databaseUrl q.metadataSchema with
    | none => rw [hs] at hx; cases hx
    | some r =>
      rw [hs] at hx
      obtain ⟨o, e⟩ := r
      have h3 := Prog.statusIn_mono (Nat.le_max_left fuel (k₁ + k₂)) hs
      unfold Prog.statusIn at h3
      rw [h1 _ (by omega), show Version.STAGE = "stage" from rfl, h2 _ (by omega)] at h3
      simp only at h3
      cases hx
      have hne : ∀ c : CmdFail, Prog.CmdFail.ending c ≠ .success := by
        intro c h
        cases c with
        | error e => cases e <;> cases h
        | load e => cases e <;> cases h
        | panic => cases h
      split at h3
      · next x _ =>
        have := congrArg (fun x => x.map Prod.snd) h3
        simp only [Option.map_some, Option.some.injEq] at this
        exact hne _ this
      · split at h3
        · cases h3
        · have := congrArg (fun x => x.map Prod.snd) h3
          simp only [Option.map_some, Option.some.injEq] at this
          exact hne _ this

-- The project of the examples in C86, without its last made version.
def demoGap : HDir := AMap.erase demoA "20200102000000-a.yaml"

theorem erase_missing {d : HDir} (hd : d.NodupKeys) (f : String) : FilesMissing d (AMap.erase d f) := by
  refine ⟨AMap.nodupKeys_erase hd f, fun g e h => ?_⟩
  rw [AMap.get?_erase] at h
  split at h
  · cases h
  · exact h

theorem demoGap_missing : FilesMissing demoA demoGap := erase_missing (by decide) _

example : Lacks demoGap "20200102000000-a" ∧ (∃ v, Stored demoA "20200102000000-a" v) ∧
    VersionPath demoA "init" "stage" ["20200101000000-first", "20200102000000-a", "stage"] ∧
    Opens demoGap "init" := by
  have hp : VersionPath demoA "init" "stage" ["20200101000000-first", "20200102000000-a", "stage"] :=
    .later (l := ["20200101000000-first", "20200102000000-a"]) (.later (l := ["20200101000000-first"])
      (.later (l := []) (.here rfl) rfl rfl) rfl rfl) rfl rfl
  refine ⟨rfl, ⟨_, rfl⟩, hp, ?_⟩
  refine (C89_opens demoA_reachable demoGap_missing hp (A := ["20200101000000-first"]) rfl ?_ ?_ _).2 rfl
  · intro n hn
    simp only [List.mem_singleton] at hn
    subst hn
    intro h
    cases (show some _ = none from h)
  · intro n hn
    cases hn
    rfl

/-- C89, for `up` to a version that is named.  If the files from the version the database is on to the target are
there, `up` does what it would have done with all files; if one of them is missing, it fails and leaves the database as
it is. -/
theorem C89_up_named_partial {B : Behaviour σ} {d d' : HDir} (hr : Reachable d) (hm : FilesMissing d d') {db : DB σ}
    (hdb : Reach B db) {a t : String} (ha : db.version? = some a) {l : List String} (hp : VersionPath d a t l) :
    ((∀ n ∈ a :: l, ¬ Lacks d' n) → ∀ r, (∃ fuel, up B fuel d' (some t) db = some r) ↔
      ∃ fuel, up B fuel d (some t) db = some r) ∧
    ((∃ n ∈ a :: l, Lacks d' n) → ∀ r, (∃ fuel, up B fuel d' (some t) db = some r) ↔ r = (db, .error)) := by
  obtain ⟨vs, st, _, h, _⟩ := hr.sound
  refine ⟨fun hin r => ?_, fun ⟨n, hn, hl⟩ r => up_missing_fails h hm hdb ha hp hn hl r⟩
  obtain ⟨k, hk⟩ := up_missing_same h hm hdb ha hp hin
  constructor
  · rintro ⟨fuel, hu⟩
    exact ⟨max fuel k, by rw [← hk _ (Nat.le_max_right ..)]; exact UConc.up_mono (Nat.le_max_left ..) hu⟩
  · rintro ⟨fuel, hu⟩
    exact ⟨max fuel k, by rw [hk _ (Nat.le_max_right ..)]; exact UConc.up_mono (Nat.le_max_left ..) hu⟩

/-- What is not noticed: `up` without a target, in every project.  Where nothing but the file of the stage is
missing (not put under version control, say), it stops before the last version: it does what `up` to the version
before the last would do with all files there. -/
theorem C89_no_stage_false {B : Behaviour σ} {d d' : HDir} (hr : Reachable d) (hm : FilesMissing d d')
    {A : List String} {m : String} (hl : VersionPath d "init" "stage" (A ++ [m, "stage"]))
    (hno : Lacks d' "stage") (hall : ∀ f, f ≠ "stage.yaml" → d'.get? f = d.get? f) {db : DB σ} (hdb : Reach B db)
    {a p : String} (ha : db.version? = some a) (hp : p = A.getLast?.getD "init") (hon : OnPath d a p)
    (r : DB σ × Outcome) :
    (∃ fuel, up B fuel d' none db = some r) ↔ ∃ fuel, up B fuel d (some p) db = some r := by
  obtain ⟨vs, st, _, h, _⟩ := hr.sound
  have hA : A ++ [m] = vs.map Version.name := by
    have e := VersionPath.unique h.storedNames h.acyclic hl h.whole_path
    rw [show A ++ [m, "stage"] = (A ++ [m]) ++ ["stage"] by simp] at e
    exact (List.append_inj' e rfl).1
  have hmade : ∀ n ∈ A ++ [m], n ≠ "stage" := by
    intro n hn
    rw [hA] at hn
    obtain ⟨v, hv, rfl⟩ := List.mem_map.1 hn
    exact h.made_ne_stage hv
  have hthere : ∀ n v, Stored d n v → n ≠ "stage" → ¬ Lacks d' n := by
    intro n v hv hn hlk
    unfold Lacks at hlk
    unfold Stored at hv
    rw [hall _ (yaml_ne_stage hn), hv] at hlk
    cases hlk
  have ho : Opens d' p := by
    refine (C89_opens hr hm hl (A := A ++ [m]) (C := ["stage"]) (by simp) ?_ ?_ p).2 (by simpa using hp)
    · intro n hn
      have hn' := hA ▸ hn
      obtain ⟨v, hv, rfl⟩ := List.mem_map.1 hn'
      exact hthere _ v (h.stored (by simp [hv])) (hmade _ hn)
    · intro n hn
      cases hn
      exact hno
  have hps : p ≠ "stage" := by
    rw [hp]
    cases hg : A.getLast? with
    | none => simp
    | some x => exact hmade x (List.mem_append_left _ (List.mem_of_getLast? hg))
  obtain ⟨l, hpath⟩ := hon
  simp only [up_none_eq ho]
  refine (C89_up_named_partial hr hm hdb ha hpath).1 ?_ r
  intro n hn
  obtain ⟨v, hv⟩ := path_all_stored hpath n hn
  refine hthere n v hv ?_
  rintro rfl
  rcases path_next hpath _ hn with e | ⟨k, w, hw, hwp⟩
  · exact hps e.symm
  · exact h.stage_last (h.stored_iff.1 hw).1 hwp

/-- The project of the examples, all made but the stage not there: `up` on a new database succeeds, without the last
version. -/
example : let d' := AMap.erase demoA "stage.yaml"
    VersionPath demoA "init" "stage" (["20200101000000-first"] ++ ["20200102000000-a", "stage"]) ∧
    FilesMissing demoA d' ∧ (∃ v, Stored d' "20200102000000-a" v) ∧
    ∃ db, up anyB 9 d' none ⟨.absent, []⟩ = some (db, .ok) ∧ db.version? = some "20200101000000-first" :=
  ⟨.later (l := ["20200101000000-first", "20200102000000-a"]) (.later (l := ["20200101000000-first"])
      (.later (l := []) (.here rfl) rfl rfl) rfl rfl) rfl rfl, erase_missing (by decide) _, ⟨_, rfl⟩, _, rfl, rfl⟩

/-- Neither do `make` and `reset` notice that a made version is missing, nor `up`, which brings a new database to
init and says that it succeeded. -/
theorem C89_made_false : ∃ (d d' d₁ d₂ : HDir) (db : DB (List String)), Reachable d ∧ FilesMissing d d' ∧
    (∃ v, Stored d "20200101000000-first" v) ∧ Lacks d' "20200101000000-first" ∧
    Runs (.make "20200102000000" none) d' d₁ true ∧ (∃ v, Stored d₁ "20200102000000-auto" v) ∧
    Runs .reset d' d₂ true ∧ up anyB 9 d' none db = some (db, .ok) ∧ db.version? = some "init" :=
  ⟨demoDir, AMap.erase demoDir "20200101000000-first.yaml", _, _, ⟨.absent, []⟩, demoDir_reachable,
    erase_missing (by decide) _, ⟨_, rfl⟩, rfl, ⟨9, rfl⟩, ⟨_, rfl⟩, ⟨9, rfl⟩, rfl, rfl⟩

end Podo
