import Verif.Proofs.Commands
import Verif.Proofs.DiffApply
import Verif.Proofs.DiffEmpty
import Verif.Props.History
import Verif.Props.Diff
/-
C23–C29 and C55, C57: the commands that work on version files.
-/
set_option linter.unusedSimpArgs false
namespace Podo
open Change Diff

/-- A directory reached by staging two tables and a view, making, and staging again (for
examples). -/
def demoCommands : List HistCmd :=
  [ .stage (.ok (built [.createSchema "public", .createTable "public" "t" [⟨"id", "int8", true, none⟩]])),
    .make "20200101000000" (some "first"),
    .stage (.ok (built [.createSchema "public", .createTable "public" "t" [⟨"id", "int8", true, none⟩],
      .createView "public" "v" "SELECT 1"])) ]

/-- Running commands one after the other. -/
def runCommands (fuel : Nat) : List HistCmd → HDir → Option HDir
  | [], d => some d
  | c :: cs, d => match c.exec fuel d with
    | some (d', _) => runCommands fuel cs d'
    | none => none

def demoDir : HDir := (runCommands 9 demoCommands initDir).getD []

def demoMade : Version :=
  ⟨"20200101000000-first", some "init", [.createTable "public" "t" [⟨"id", "int8", true, none⟩]],
    [(Change.createTable "public" "t" [⟨"id", "int8", true, none⟩]).renderSql],
    [(Change.dropTable "public" "t").renderSql]⟩

def demoStage : Version :=
  ⟨"stage", some "20200101000000-first", [.createView "public" "v" "SELECT 1"],
    [(Change.createView "public" "v" "SELECT 1").renderSql], [(Change.dropView "public" "v").renderSql]⟩

theorem demoDir_eq : demoDir = [("init.yaml", .file (some Version.newInit)),
    ("stage.yaml", .file (some demoStage)),
    ("20200101000000-first.yaml", .file (some demoMade))] := by rfl

theorem noYaml {n : String} (h : yamlRev.isPrefixOf n.toList.reverse = false) :
    ∀ stem, n ≠ stem ++ ".yaml" := by
  intro stem he
  have := endsYaml_iff.2 ⟨stem, he⟩
  unfold endsYaml at this
  rw [h] at this; cases this

theorem demoDir_reachable : Reachable demoDir := by
  have h1 : Reachable ((runCommands 9 (demoCommands.take 1) initDir).getD []) :=
    .step (fuel := 9) (c := demoCommands[0]) (ok := true) .init (by intro _ _ h; cases h) rfl
  have h2 : Reachable ((runCommands 9 (demoCommands.take 2) initDir).getD []) :=
    .step (fuel := 9) (c := demoCommands[1]) (ok := true) h1
      (by intro _ _ h; cases h; exact ⟨rfl, noYaml (by decide)⟩) rfl
  exact .step (fuel := 9) (c := demoCommands[2]) (ok := true) h2 (by intro _ _ h; cases h) rfl

/-! ### C23 -/

/-- C23 (partial).  `make` with a free name: succeeds, records the staged changes and scripts under the
new name, leaves an empty stage on top of it, touches no other file, and does not change the snapshot of
the stage.  Missing for the full property: names ending in `.yaml` (not free in the sense of
`FreshName`), for which it is false, see `C23_yaml_label_false`, and names with a slash, with which
`make` fails. -/
theorem C23_make_keeps_snapshot_partial {d : HDir} (hr : Reachable d) {stamp : String} {label : Option String}
    {n : String} (hn : n = stamp ++ "-" ++ label.getD "auto") (hf : FreshName d n)
    (hsl : '/' ∉ n.toList) {st : Version} (hst : Stored d "stage" st)
    (hne : st.changes ≠ [] ∨ st.up ≠ [] ∨ st.down ≠ []) :
    ∃ d', Runs (.make stamp label) d d' true ∧
      Stored d' n ⟨n, st.previous, st.changes, st.up, st.down⟩ ∧
      Stored d' "stage" ⟨"stage", some n, [], [], []⟩ ∧
      (∀ f, f ≠ n ++ ".yaml" → f ≠ "stage.yaml" → d'.get? f = d.get? f) ∧
      ∃ s, SnapshotOf d "stage" s ∧ SnapshotOf d' "stage" s ∧ SnapshotOf d' n s := by
  subst hn
  change FreshName d (madeName stamp label) at hf
  change '/' ∉ (madeName stamp label).toList at hsl
  obtain ⟨vs, st₀, s, hh, hrec⟩ := hr.sound
  cases hst.unique hh.stored_stage
  obtain ⟨d', hd', hh'⟩ := hh.make hf hsl
  have hplan := hh.makePlan (Version.isEmpty_false hne) stamp label
  have hrec' : Recorded Database.new (Version.newInit :: (vs ++ [{ st with name := madeName stamp label }]
      ++ [Version.newStage (madeName stamp label)])) s := by
    have hrec := hrec
    rw [show Version.newInit :: (vs ++ [st]) = (Version.newInit :: vs) ++ [st] from rfl] at hrec
    obtain ⟨s₁, h1, h2⟩ := recorded_append.1 hrec
    obtain ⟨rs₁, ht₁, hu₁, hd₁⟩ := recorded_single.1 h2
    have := recorded_append.2 ⟨s₁, h1, Recorded.cons (v := { st with name := madeName stamp label })
      ht₁ hu₁ hd₁ (recorded_single.2 ⟨[], .nil, rfl, rfl⟩ :
        Recorded s [Version.newStage (madeName stamp label)] s)⟩
    simpa using this
  refine ⟨d', runs_of_plan hplan hd', hh'.stored (v := { st with name := madeName stamp label })
    (by simp), hh'.stored_stage, ?_, s, ?_, ?_, ?_⟩
  · intro f h1 h2
    rw [HDir.saveAll] at hd'
    split at hd'
    · cases hd'
    · next d₁ hd₁ =>
      rw [HDir.saveAll] at hd'
      split at hd'
      · cases hd'
      · next d₂ hd₂ =>
        simp only [HDir.saveAll, Prod.mk.injEq] at hd'
        obtain ⟨rfl, _⟩ := hd'
        rw [save_get_newStage hd₂, if_neg h2, save_get hd₁]; exact if_neg h1
  · exact ⟨_, hh.calculate hrec.applyAll (k := vs.length + 2) (by omega)⟩
  · exact ⟨_, hh'.calculate hrec'.applyAll (k := vs.length + 3) (by simp)⟩
  · refine hh'.snapshotOf (A := Version.newInit :: vs) (v := { st with name := madeName stamp label })
      (C := [Version.newStage (madeName stamp label)]) (by simp) ?_
    rw [show Version.newInit :: (vs ++ [st]) = (Version.newInit :: vs) ++ [st] from rfl] at hrec
    obtain ⟨s₁, h1, h2⟩ := recorded_append.1 hrec
    obtain ⟨rs₁, ht₁, hu₁, hd₁⟩ := recorded_single.1 h2
    exact recorded_append.2 ⟨s₁, h1, recorded_single.2 ⟨rs₁, ht₁, hu₁, hd₁⟩⟩

/-- With nothing staged, `make` succeeds and touches nothing. -/
theorem C23_make_nothing {d : HDir} (hr : Reachable d) (stamp : String) (label : Option String)
    {p : Option String} (hst : Stored d "stage" ⟨"stage", p, [], [], []⟩) :
    Runs (.make stamp label) d d true := by
  obtain ⟨vs, st₀, s, hh, _⟩ := hr.sound
  cases hst.unique hh.stored_stage
  exact runs_of_plan (hh.makeEmptyPlan rfl stamp label) rfl

/-- C23 is false for labels ending in `.yaml`: `make` succeeds, and from then on the history cannot be
opened, as podo looks for the file without its last `.yaml`. -/
theorem C23_yaml_label_false {d : HDir} (hr : Reachable d) {stamp : String} {label : Option String}
    {stem : String} (hn : stamp ++ "-" ++ label.getD "auto" = stem ++ ".yaml")
    (hstem : ∀ s, stem ≠ s ++ ".yaml") (hf : d.get? (stem ++ ".yaml") = none)
    (hf' : d.get? (stem ++ ".yaml.yaml") = none)
    (hsl : '/' ∉ stem.toList) {st : Version} (hst : Stored d "stage" st)
    (hne : st.changes ≠ [] ∨ st.up ≠ [] ∨ st.down ≠ []) :
    ∃ d', Runs (.make stamp label) d d' true ∧ FailsToOpen d' := by
  change madeName stamp label = stem ++ ".yaml" at hn
  obtain ⟨vs, st₀, s, hh, hrec⟩ := hr.sound
  cases hst.unique hh.stored_stage
  have hplan := hh.makePlan (Version.isEmpty_false hne) stamp label
  rw [hn] at hplan
  rw [yaml_yaml] at hf'
  obtain ⟨d₁, hd₁, hnd₁, hg₁⟩ := hh.saveMade (n := stem ++ ".yaml") hf'
    (by simp only [String.toList_append, List.mem_append, not_or]; exact ⟨hsl, by decide⟩)
  have hns : stem ++ ".yaml" ≠ "stage" := by
    intro he
    exact noYaml (n := "stage") (by decide) stem he.symm
  have hstage₁ : d₁.get? ("stage" ++ ".yaml") = some (.file (some st)) := by
    rw [hg₁, if_neg (Ne.symm hns)]; exact hh.stored_stage
  obtain ⟨d', hd'⟩ := save_some (d := d₁) (v := Version.newStage (stem ++ ".yaml"))
    (by simp [Version.newStage, Version.STAGE])
    (by simp only [Version.newStage, Version.STAGE]; rw [hstage₁]; simp)
  refine ⟨d', runs_of_plan hplan (by simp only [HDir.saveAll, hd₁, hd']), ?_⟩
  refine fails_of_scan fun nm hnm => ?_
  have hall := ((scan_ok_iff _ _ _ _ AMap.nodupKeys_nil).1 hnm).1
  have hstemstage : stem ++ ".yaml" ≠ "stage" ++ ".yaml" := by
    intro he
    rw [he] at hf
    have := hh.stored_stage
    unfold Stored at this
    rw [hf] at this; cases this
  have hne2 : (stem ++ ".yaml") ++ ".yaml" ≠ (Version.newStage (stem ++ ".yaml")).name ++ ".yaml" :=
    fun he => hns (append_yaml_inj he)
  have hin : d'.get? ((stem ++ ".yaml") ++ ".yaml") =
      some (.file (some { st with name := stem ++ ".yaml" })) := by
    rw [save_get hd', if_neg hne2, hg₁, if_pos rfl]
  have hnone : d'.get? (stem ++ ".yaml") = none := by
    rw [save_get_newStage hd', if_neg (show stem ++ ".yaml" ≠ "stage.yaml" from hstemstage), hg₁, if_neg, hf]
    intro he
    have := congrArg String.length he
    simp at this
  have htrim : trimYaml ((stem ++ ".yaml") ++ ".yaml") = stem := by
    have h0 := trimYaml_append hstem
    unfold trimYaml at h0 ⊢
    have : ((stem ++ ".yaml") ++ ".yaml").toList.reverse =
        'l' :: 'm' :: 'a' :: 'y' :: '.' :: (stem ++ ".yaml").toList.reverse := by
      simp only [String.toList_append, List.reverse_append]; rfl
    rw [this, trimYamlRev, h0]
  have : (.error .fileSystem : Except FSError Version) ∈ reads d' d' := by
    unfold reads
    refine List.mem_map.2 ⟨_, List.mem_filter.2 ⟨AMap.mem_of_get? hin, ?_⟩, ?_⟩
    · have : endsYaml ((stem ++ ".yaml") ++ ".yaml") = true := endsYaml_iff.2 ⟨_, rfl⟩
      simp [this]
    · simp only [htrim]
      unfold HDir.getVersion
      rw [hnone]
  obtain ⟨v, hv⟩ := hall _ this
  cases hv

-- The hypotheses of C23 hold of `demoDir`.
example : Reachable demoDir ∧ FreshName demoDir "20200102000000-auto" ∧
    '/' ∉ "20200102000000-auto".toList ∧ Stored demoDir "stage" demoStage ∧ demoStage.changes ≠ [] :=
  ⟨demoDir_reachable, ⟨rfl, noYaml (by decide)⟩, by decide, rfl, by simp [demoStage]⟩

example : ∃ d', Runs (.make "20200102000000" (some "b.yaml")) demoDir d' true ∧ FailsToOpen d' :=
  C23_yaml_label_false demoDir_reachable (stem := "20200102000000-b") (by decide) (noYaml (by decide))
    rfl rfl (by decide) (st := demoStage) rfl (.inl (by simp [demoStage]))

/-! ### C24 -/

/-- C24.  Whatever commands are run later, with free names for `make`, the file of a made version stays
the same. -/
theorem C24_made_versions_immutable {d d' : HDir} (hr : Reachable d) (hl : Later d d') {n : String}
    {v : Version} (hn : n ≠ "stage") (hv : Stored d n v) : Stored d' n v := by
  have key : Reachable d' ∧ Stored d' n v := by
    induction hl with
    | refl => exact ⟨hr, hv⟩
    | @relisted d₁ d' _ hp ih =>
      refine ⟨.relisted ih.1 hp, ?_⟩
      obtain ⟨_, _, _, hh, _⟩ := ih.1.sound
      have := ih.2
      unfold Stored at this ⊢
      rw [← AMap.get?_perm hh.nodup hp]; exact this
    | @step d₁ d' fuel c ok _ hf he ih =>
      refine ⟨.step ih.1 hf he, ?_⟩
      obtain ⟨vs, st, s, hh, hrec⟩ := ih.1.sound
      have hmem : v ∈ Version.newInit :: vs ∧ v.name = n := by
        obtain ⟨h1, h2⟩ := hh.stored_iff.1 ih.2
        refine ⟨?_, h2⟩
        simp only [List.mem_cons, List.mem_append, List.not_mem_nil, or_false] at h1 ⊢
        rcases h1 with h | h | h
        · exact .inl h
        · exact .inr h
        · exact absurd (h2.symm.trans (h ▸ hh.stage)) hn
      have hin : ∀ l, v ∈ Version.newInit :: (vs ++ l) := by
        intro l
        rcases List.mem_cons.1 hmem.1 with h | h
        · simp [h]
        · simp [h]
      rcases exec_cases hh he hrec hf with rfl | ⟨st', s', h1, _, _⟩ | ⟨m, _, h1, _⟩
      · exact ih.2
      · exact h1.stored_iff.2 ⟨hin _, hmem.2⟩
      · refine h1.stored_iff.2 ⟨?_, hmem.2⟩
        have := hin [{ st with name := m }, Version.newStage m]
        simpa using this
  exact key.2

example : Later initDir demoDir ∧ Stored initDir "init" Version.newInit := by
  refine ⟨?_, rfl⟩
  have h1 : Later initDir ((runCommands 9 (demoCommands.take 1) initDir).getD []) :=
    .step (fuel := 9) (c := demoCommands[0]) (ok := true) (.refl _) (by intro _ _ h; cases h) rfl
  have h2 : Later initDir ((runCommands 9 (demoCommands.take 2) initDir).getD []) :=
    .step (fuel := 9) (c := demoCommands[1]) (ok := true) h1
      (by intro _ _ h; cases h; exact ⟨rfl, noYaml (by decide)⟩) rfl
  exact .step (fuel := 9) (c := demoCommands[2]) (ok := true) h2 (by intro _ _ h; cases h) rfl

/-- C24, for all names of versions that are not there (ending in `.yaml` or with a slash as well), and
with commands that die at any point while they save. -/
theorem C24_any_labels_and_crashes {d d' : HDir} (hr : LaterAny initDir d) (hl : LaterAny d d')
    {n : String} {v : Version} (hn : n ≠ "stage") (hv : Stored d n v) : Stored d' n v := by
  obtain ⟨h1, h2, _⟩ := laterAny_kept hr (by decide) (fun v h => by cases h; rfl)
  exact (laterAny_kept hl h1 h2).2.2 _ _ (fun h => hn (append_yaml_inj (b := "stage") h)) hv

/-- A label that ends in `.yaml` is covered, and so is a process that dies while it writes. -/
example : ∃ d d', LaterAny initDir d ∧ Stored d "t-a.yaml" { demoMade with name := "t-a.yaml" } ∧
    LaterAny initDir d' ∧ d'.get? "stage.yaml" = some (.file none) := by
  have h1 : LaterAny initDir ((runCommands 9 (demoCommands.take 1) initDir).getD []) :=
    .step (fuel := 9) (c := demoCommands[0]) (ok := true) (.refl _) (by intro _ _ h; cases h) rfl
  have h2 : LaterAny initDir ((runCommands 9 [demoCommands[0], .make "t" (some "a.yaml")]
      initDir).getD []) :=
    .step (fuel := 9) (c := .make "t" (some "a.yaml")) (ok := true) h1
      (by intro _ _ h; cases h; rfl) rfl
  refine ⟨_, _, h2, rfl, .crash (fuel := 9) (c := .reset) h1 (by intro _ _ h; cases h) rfl
    (.truncated rfl), rfl⟩

/-- Without free names C24 is false: `make` twice in the same second with the same label overwrites the
version just made with the newly staged changes, and the history cannot be opened any more.  (`st`
is the stage, `v` the last made version.) -/
theorem C24_same_second_false {d : HDir} (hr : Reachable d) {stamp : String} {label : Option String}
    {n : String} {v st : Version} (hn : n = stamp ++ "-" ++ label.getD "auto") (hv : Stored d n v)
    (hsl : '/' ∉ n.toList) (hst : Stored d "stage" st) (hprev : st.previous = some n)
    (hni : n ≠ "init") (hne : st.changes ≠ [] ∨ st.up ≠ [] ∨ st.down ≠ []) :
    ∃ d', Runs (.make stamp label) d d' true ∧
      Stored d' n ⟨n, st.previous, st.changes, st.up, st.down⟩ ∧ FailsToOpen d' := by
  obtain ⟨vs, st₀, s, hh, hrec⟩ := hr.sound
  cases hst.unique hh.stored_stage
  have hplan := hh.makePlan (Version.isEmpty_false hne) stamp label
  rw [show madeName stamp label = n from hn.symm] at hplan
  have hrank := hh.acyclic
  have hns : n ≠ "stage" := by
    rintro rfl
    obtain ⟨rank, hrank⟩ := hrank
    exact absurd (hrank _ _ _ hst hprev) (Nat.lt_irrefl _)
  obtain ⟨d₁, hd₁⟩ := save_some (d := d) (v := { st with name := n }) hsl (by
    unfold Stored at hv; simp [hv])
  have hs₁ : d₁.get? ("stage" ++ ".yaml") = some (.file (some st)) := by
    rw [save_get hd₁, if_neg (fun he => hns (append_yaml_inj he).symm)]; exact hst
  obtain ⟨d', hd'⟩ := save_some (d := d₁) (v := Version.newStage n)
    (by simp [Version.newStage, Version.STAGE])
    (by simp only [Version.newStage, Version.STAGE]; rw [hs₁]; simp)
  have hm' : Stored d' n { st with name := n } := by
    unfold Stored
    rw [save_get_newStage hd', if_neg (show n ++ ".yaml" ≠ "stage.yaml" from fun he =>
      hns (append_yaml_inj (b := "stage") he)), save_get hd₁, if_pos rfl]
  have hs' : Stored d' "stage" (Version.newStage n) := by
    unfold Stored
    rw [save_get_newStage hd']; rfl
  refine ⟨d', runs_of_plan hplan (by simp only [HDir.saveAll, hd₁, hd']), hm', ?_⟩
  have hplain : ∀ stem, n ≠ stem ++ ".yaml" := by
    obtain ⟨hmem, hvn⟩ := hh.stored_iff.1 hv
    simp only [List.mem_cons, List.mem_append, List.not_mem_nil, or_false] at hmem
    rcases hmem with h | h | h
    · subst h; exact absurd hvn.symm hni
    · rw [← hvn]; exact hh.plain v h
    · subst h; exact absurd (hvn.symm.trans hh.stage) hns
  exact fails_of_branch hplain (noYaml (by decide)) hns hm' hs' hprev rfl

example : Stored demoDir "20200101000000-first" demoMade ∧ Stored demoDir "stage" demoStage ∧
    demoStage.previous = some "20200101000000-first" ∧ demoStage.changes ≠ [] :=
  ⟨rfl, rfl, rfl, by simp [demoStage]⟩

/-! ### C25 and C26 -/

/-- The plain part of a stage's name. -/
theorem stage_plain : ∀ stem, "stage" ≠ stem ++ ".yaml" := noYaml (by decide)

/-- C25 (partial: see `C25_crash_false` for what is missing).  If the process dies during `make`, the
directory is the old one, or the new one, or one that fails to open; no crash leaves a directory that
opens with some other content. -/
theorem C25_make_crash_partial {d : HDir} (hr : Reachable d) {stamp : String} {label : Option String}
    {fuel : Nat} {ws : List Version} (hp : (HistCmd.make stamp label).plan fuel d = some (.ok ws))
    (hf : FreshName d (stamp ++ "-" ++ label.getD "auto"))
    {d' : HDir} (hc : CrashState d ws d') :
    d' = d ∨ Runs (.make stamp label) d d' true ∨ FailsToOpen d' := by
  change FreshName d (madeName stamp label) at hf
  obtain ⟨vs, st, s, hh, hrec⟩ := hr.sound
  rcases plan_cases hh hp hrec with rfl | ⟨_, _, h, _⟩ | ⟨_, _, h, hne, rfl⟩ | ⟨h, _⟩
  · cases hc; exact .inl rfl
  · cases h
  · cases h
    have hns : madeName stamp label ≠ "stage" := by
      intro he
      have := hh.stored_stage
      unfold Stored at this
      rw [← he, hf.1] at this; cases this
    cases hc with
    | before => exact .inl rfl
    | truncated hd₁ =>
      refine .inr (.inr (fails_of_unreadable hf.2 ?_))
      rw [AMap.get?_set _ _ _ _ (by rw [save_get hd₁, if_pos rfl]; rfl)]
      rw [if_pos rfl]
    | cut l hd₁ _ =>
      refine .inr (.inr (fails_of_branch (a := madeName stamp label) (b := "stage")
        (v := { st with name := madeName stamp label, down := l }) (w := st) hf.2 stage_plain hns
        ?_ ?_ hh.prev hh.prev))
      · unfold Stored
        rw [AMap.get?_set _ _ _ _ (by rw [save_get hd₁, if_pos rfl]; rfl)]
        rw [if_pos rfl]
      · unfold Stored
        rw [AMap.get?_set _ _ _ _ (by rw [save_get hd₁, if_pos rfl]; rfl)]
        rw [if_neg (fun he => hns (append_yaml_inj he).symm), save_get hd₁,
          if_neg (fun he => hns (append_yaml_inj he).symm)]
        exact hh.stored_stage
    | @saved _ _ _ d₁ _ hd₁ hc =>
      have hs₁ : Stored d₁ "stage" st := by
        unfold Stored
        rw [save_get hd₁, if_neg (fun he => hns (append_yaml_inj he).symm)]
        exact hh.stored_stage
      have hm₁ : Stored d₁ (madeName stamp label) { st with name := madeName stamp label } := by
        unfold Stored; rw [save_get hd₁, if_pos rfl]
      cases hc with
      | before =>
        exact .inr (.inr (fails_of_branch hf.2 stage_plain hns hm₁ hs₁ hh.prev hh.prev))
      | truncated hd₂ =>
        refine .inr (.inr (fails_of_unreadable (n := "stage") stage_plain ?_))
        rw [show "stage" ++ ".yaml" = (Version.newStage (madeName stamp label)).name ++ ".yaml" from rfl,
          AMap.get?_set _ _ _ _ (by rw [save_get hd₂, if_pos rfl]; rfl)]
        rw [if_pos rfl]
      | cut l hd₂ hdn => exact absurd rfl hdn
      | saved hd₂ hc =>
        cases hc
        exact .inr (.inl ⟨fuel, by unfold HistCmd.exec; rw [hp]; simp only [HDir.saveAll, hd₁, hd₂]⟩)
  · cases h

/-- C25 is false, for every history with something staged: there is a crash point inside `make` after
which the history cannot be opened, although every file in it is readable. -/
theorem C25_crash_false {d : HDir} (hr : Reachable d) {stamp : String} {label : Option String}
    {n : String} (hn : n = stamp ++ "-" ++ label.getD "auto") (hf : FreshName d n)
    (hsl : '/' ∉ n.toList) {st : Version} (hst : Stored d "stage" st)
    (hne : st.changes ≠ [] ∨ st.up ≠ [] ∨ st.down ≠ []) :
    ∃ fuel ws d', (HistCmd.make stamp label).plan fuel d = some (.ok ws) ∧ CrashState d ws d' ∧
      FailsToOpen d' ∧ AllReadable d' := by
  subst hn
  change FreshName d (madeName stamp label) at hf
  change '/' ∉ (madeName stamp label).toList at hsl
  obtain ⟨vs, st₀, s, hh, _⟩ := hr.sound
  cases hst.unique hh.stored_stage
  obtain ⟨k, hk⟩ := hh.makePlan (Version.isEmpty_false hne) stamp label
  obtain ⟨d₁, hd₁, hnd, hg⟩ := hh.saveMade hf.1 hsl
  have hns : madeName stamp label ≠ "stage" := by
    intro he
    have := hh.stored_stage
    unfold Stored at this
    rw [← he, hf.1] at this; cases this
  refine ⟨k, _, d₁, hk, .saved hd₁ (.before _ _), ?_, ?_⟩
  · refine fails_of_branch hf.2 stage_plain hns (v := { st with name := madeName stamp label }) (w := st)
      ?_ ?_ hh.prev hh.prev
    · unfold Stored; rw [hg, if_pos rfl]
    · unfold Stored; rw [hg, if_neg (Ne.symm hns)]; exact hst
  · rintro f c ⟨hm, stem, rfl⟩
    have := AMap.get?_of_mem hnd hm
    rw [hg] at this
    by_cases h : stem = madeName stamp label
    · rw [if_pos h] at this; cases this; exact ⟨_, rfl⟩
    · rw [if_neg h] at this
      obtain ⟨v, _, _, hc⟩ := (hh.files _ _).1 this
      cases hc; exact ⟨v, rfl⟩

/-- C26 (partial: see `C26_crash_false`).  If the process dies during `stage` or `reset`, all made
versions are as before, and the directory is the old one, or the new one, or fails to open, or opens
with a stage that differs from the new one in its down script only. -/
theorem C26_stage_crash_partial {d : HDir} (hr : Reachable d) {c : HistCmd}
    (hcmd : c = .reset ∨ ∃ defs, c = .stage defs) {fuel : Nat} {ws : List Version}
    (hp : c.plan fuel d = some (.ok ws)) {d' : HDir} (hc : CrashState d ws d') :
    (∀ f, f ≠ "stage.yaml" → d'.get? f = d.get? f) ∧
    (d' = d ∨ Runs c d d' true ∨ FailsToOpen d' ∨
      ∃ st' l dv, Stored d' "stage" { st' with down := l } ∧ Runs c d dv true ∧ Stored dv "stage" st') := by
  obtain ⟨vs, st, s, hh, hrec⟩ := hr.sound
  have hws : ws = [] ∨ ∃ st', ws = [st'] ∧ st'.name = "stage" := by
    rcases plan_cases hh hp hrec with rfl | ⟨_, st', _, rfl, h⟩ | ⟨_, _, rfl, _⟩ | ⟨_, rfl⟩
    · exact .inl rfl
    · obtain ⟨rs, s', _, rfl⟩ := stageVersion_ok h
      exact .inr ⟨_, rfl, hh.stage⟩
    · rcases hcmd with h | ⟨_, h⟩ <;> cases h
    · exact .inr ⟨_, rfl, hh.stage⟩
  rcases hws with rfl | ⟨st', rfl, hn⟩
  · cases hc; exact ⟨fun _ _ => rfl, .inl rfl⟩
  · have hrun : ∀ dv, d.save st' = some dv → Runs c d dv true := by
      intro dv hdv
      exact ⟨fuel, by unfold HistCmd.exec; rw [hp]; simp only [HDir.saveAll, hdv]⟩
    have hset : ∀ dv x f, d.save st' = some dv → (dv.set (st'.name ++ ".yaml") x).get? f =
        if f = "stage.yaml" then some x else d.get? f := by
      intro dv x f hdv
      rw [AMap.get?_set _ _ _ _ (by rw [save_get hdv, if_pos rfl]; rfl), hn]
      rw [show "stage" ++ ".yaml" = "stage.yaml" from rfl]
      by_cases h : f = "stage.yaml"
      · rw [if_pos h, if_pos h]
      · rw [if_neg h, if_neg h, save_get hdv, hn]; exact if_neg h
    cases hc with
    | before => exact ⟨fun _ _ => rfl, .inl rfl⟩
    | truncated hdv =>
      refine ⟨fun f hf => by rw [hset _ _ _ hdv, if_neg hf], .inr (.inr (.inl
        (fails_of_unreadable (n := "stage") stage_plain ?_)))⟩
      rw [show "stage" ++ ".yaml" = "stage.yaml" from rfl, hset _ _ _ hdv, if_pos rfl]
    | @cut _ _ _ dv l hdv _ =>
      refine ⟨fun f hf => by rw [hset _ _ _ hdv, if_neg hf], .inr (.inr (.inr
        ⟨st', l, dv, ?_, hrun dv hdv, ?_⟩))⟩
      · unfold Stored
        rw [show "stage" ++ ".yaml" = "stage.yaml" from rfl, hset _ _ _ hdv, if_pos rfl]
      · unfold Stored
        rw [save_get hdv, hn, if_pos rfl]
    | saved hdv hc =>
      cases hc
      exact ⟨fun f hf => by rw [save_get hdv, hn]; exact if_neg hf, .inr (.inl (hrun _ hdv))⟩

/-- C26 is false, for every history: there is a crash point inside `reset` after which the history
cannot be opened. -/
theorem C26_crash_false {d : HDir} (hr : Reachable d) :
    ∃ fuel ws d', HistCmd.reset.plan fuel d = some (.ok ws) ∧ CrashState d ws d' ∧ FailsToOpen d' := by
  obtain ⟨vs, st, s, hh, _⟩ := hr.sound
  obtain ⟨k, hk⟩ := hh.resetPlan
  obtain ⟨dv, hdv, _⟩ := hh.saveStage (st' := st.reset) hh.stage rfl
  refine ⟨k, _, _, hk, .truncated hdv, fails_of_unreadable (n := "stage") stage_plain ?_⟩
  rw [show st.reset.name = "stage" from hh.stage] 
  rw [AMap.get?_set _ _ _ _ (by rw [save_get hdv, show st.reset.name = "stage" from hh.stage, if_pos rfl]; rfl)]
  rw [if_pos rfl]

/-- C25 on the example: `make` of what is staged may die and leave something else than what was there. -/
example : Reachable demoDir ∧ FreshName demoDir "20200102000000-auto" ∧ ∃ ws d',
    (HistCmd.make "20200102000000" none).plan 9 demoDir = some (.ok ws) ∧ CrashState demoDir ws d' ∧
    d'.get? "20200102000000-auto.yaml" = some (.file none) :=
  ⟨demoDir_reachable, ⟨rfl, noYaml (by decide)⟩, _, _, rfl, .truncated rfl, rfl⟩

/-- So may `stage`, with the view of the examples taken out of the definitions, and `reset`. -/
example : ∃ ws d', (HistCmd.stage (.ok (built [.createSchema "public"]))).plan 9 demoDir = some (.ok ws) ∧
    CrashState demoDir ws d' ∧ d'.get? "stage.yaml" = some (.file none) :=
  ⟨_, _, rfl, .truncated rfl, rfl⟩

example : ∃ ws d', HistCmd.reset.plan 9 demoDir = some (.ok ws) ∧
    CrashState demoDir ws d' ∧ d'.get? "stage.yaml" = some (.file none) :=
  ⟨_, _, rfl, .truncated rfl, rfl⟩

/-! ### C27 and C28 -/

/-- C27.  After any sequence of commands the snapshot of the stage can be calculated, and so can that
of every made version. -/
theorem C27_history_replays {d : HDir} (hr : Reachable d) :
    (∃ s, SnapshotOf d "stage" s) ∧ ∀ n v, Stored d n v → ∃ s, SnapshotOf d n s := by
  obtain ⟨vs, st, s, hh, hrec⟩ := hr.sound
  refine ⟨⟨s, _, hh.calculate hrec.applyAll (k := vs.length + 2) (by omega)⟩, fun n v hv => ?_⟩
  obtain ⟨hmem, rfl⟩ := hh.stored_iff.1 hv
  obtain ⟨A, C, hl⟩ := List.append_of_mem hmem
  rw [hl, show A ++ v :: C = (A ++ [v]) ++ C by simp] at hrec
  obtain ⟨s₁, h1, _⟩ := recorded_append.1 hrec
  exact ⟨s₁, hh.snapshotOf hl h1⟩

/-- C28.  In every version file: the up script is the SQL of the changes, in order; the changes apply
to the snapshot of the predecessor and lead to the snapshot of the version; the down script is the
SQL of the changes that revert them one by one, in reverse order. -/
theorem C28_scripts_aligned {d : HDir} (hr : Reachable d) {n : String} {v : Version}
    (hv : Stored d n v) :
    v.up = v.changes.map Change.renderSql ∧
    ∃ s reverts s', (v.previous = none ∧ s = Database.new ∨
        ∃ p, v.previous = some p ∧ SnapshotOf d p s) ∧
      TakenFrom v.changes s reverts s' ∧ SnapshotOf d n s' ∧
      v.down = reverts.reverse.map Change.renderSql ∧ v.down.length = v.changes.length := by
  obtain ⟨vs, st, s, hh, hrec⟩ := hr.sound
  obtain ⟨hmem, rfl⟩ := hh.stored_iff.1 hv
  obtain ⟨A, C, hl⟩ := List.append_of_mem hmem
  have hlink := hh.linked
  rw [hl] at hlink
  have hprev := hlink.prev_last
  have hrec' := hrec
  rw [hl, show A ++ v :: C = (A ++ [v]) ++ C by simp] at hrec'
  obtain ⟨s₁, h1, _⟩ := recorded_append.1 hrec'
  obtain ⟨s₀, h0, h2⟩ := recorded_append.1 h1
  obtain ⟨rs, ht, hu, hd⟩ := recorded_single.1 h2
  have hlen : rs.length = v.changes.length := by
    exact ht.length
  refine ⟨hu, s₀, rs, s₁, ?_, ht, hh.snapshotOf hl h1, hd, by rw [hd]; simp [hlen]⟩
  rcases List.eq_nil_or_concat A with rfl | ⟨A', w, rfl⟩
  · cases h0; exact .inl ⟨by simpa using hprev, rfl⟩
  · right
    refine ⟨w.name, by simpa using hprev, hh.snapshotOf (A := A') (v := w) (C := v :: C) ?_ ?_⟩
    · rw [hl]; simp
    · simpa using h0

example : Stored demoDir "stage" demoStage ∧
    demoStage.up = ["CREATE VIEW \"public\".\"v\" AS SELECT 1"] := ⟨rfl, rfl⟩

/-! ### C29 -/

/-- C29.  `reset` succeeds, empties the stage, touches no other file, and the snapshot of the stage is
then that of the version below it. -/
theorem C29_reset {d : HDir} (hr : Reachable d) :
    ∃ d' st p s, Runs .reset d d' true ∧ Stored d "stage" st ∧ st.previous = some p ∧
      Stored d' "stage" ⟨"stage", some p, [], [], []⟩ ∧
      (∀ f, f ≠ "stage.yaml" → d'.get? f = d.get? f) ∧
      SnapshotOf d p s ∧ SnapshotOf d' "stage" s ∧ Opens d p := by
  obtain ⟨vs, st, s, hh, hrec⟩ := hr.sound
  obtain ⟨dv, hdv, hh'⟩ := hh.saveStage (st' := st.reset) hh.stage rfl
  rw [show Version.newInit :: (vs ++ [st]) = (Version.newInit :: vs) ++ [st] from rfl] at hrec
  obtain ⟨s₁, h1, _⟩ := recorded_append.1 hrec
  have hlast : ∃ A w, Version.newInit :: vs = A ++ [w] ∧
      w.name = ((vs.map Version.name).getLast?).getD "init" := by
    rcases List.eq_nil_or_concat vs with rfl | ⟨A, w, rfl⟩
    · exact ⟨[], Version.newInit, rfl, rfl⟩
    · exact ⟨Version.newInit :: A, w, by simp, by simp⟩
  obtain ⟨A, w, hA, hw⟩ := hlast
  refine ⟨dv, st, w.name, s₁, runs_of_plan hh.resetPlan (saveAll_single hdv), hh.stored_stage,
    by rw [hw]; exact hh.prev, ?_, ?_, ?_, ?_, ?_⟩
  · have := hh'.stored_stage
    rw [show st.reset = ⟨st.name, st.previous, [], [], []⟩ from rfl, hh.stage, hh.prev, ← hw] at this
    exact this
  · intro f hf
    rw [save_get hdv, show st.reset.name = "stage" from hh.stage]; exact if_neg hf
  · refine hh.snapshotOf (A := A) (v := w) (C := [st]) ?_ (hA ▸ h1)
    rw [show Version.newInit :: (vs ++ [st]) = (Version.newInit :: vs) ++ [st] from rfl, hA]; simp
  · exact ⟨_, hh'.calculate (s := s₁) (by
      rw [show Version.newInit :: (vs ++ [st.reset]) = (Version.newInit :: vs) ++ [st.reset] from rfl]
      exact (recorded_append.2 ⟨s₁, h1, recorded_single.2 ⟨[], .nil, rfl, rfl⟩⟩ :
        Recorded _ _ s₁).applyAll) (k := vs.length + 2) (by omega)⟩
  · obtain ⟨nm, _, h⟩ := hh.fromDir
    have := h (vs.length + 2) (by omega)
    rw [hw]
    exact ⟨_, nm, this⟩

/-- C29 on the example, where a view is staged. -/
example : ∃ d', Reachable demoDir ∧ Stored demoDir "stage" demoStage ∧ Runs .reset demoDir d' true ∧
    Stored d' "stage" ⟨"stage", some "20200101000000-first", [], [], []⟩ ∧
    Stored d' "20200101000000-first" demoMade :=
  ⟨_, demoDir_reachable, rfl, ⟨9, rfl⟩, rfl, rfl⟩

/-! ### C57 -/

/-- C57 (partial in the same way as C01 and C02).  `stage` succeeds exactly when the diff from the
staged snapshot to the definitions can be applied; then the snapshot of the new stage has exactly the
content of the definitions, but for indexes that change without changing their key expressions and
for owned sequences that are new or changed; made versions are not touched; and the old staged
changes are kept as a prefix. -/
theorem C57_stage_reaches_definitions_partial {d : HDir} (hr : Reachable d) {t : Database} (ht : t.WF) :
    ∃ s st, SnapshotOf d "stage" s ∧ Stored d "stage" st ∧ s.WF ∧
      ((∃ d', Runs (.stage (.ok t)) d d' true) ↔ ∃ s', applyAll (compareDiff s t) s = .ok s') ∧
      ∀ d', Runs (.stage (.ok t)) d d' true → ∃ s' st', SnapshotOf d' "stage" s' ∧
        Stored d' "stage" st' ∧ applyAll (compareDiff s t) s = .ok s' ∧
        st'.changes = st.changes ++ compareDiff s t ∧ st'.previous = st.previous ∧ (∀ f, f ≠ "stage.yaml" → d'.get? f = d.get? f) ∧
        (s'.content = t.content ↔
          SameKeyIndexesAgree s.content t.content ∧ OwnedSequencesUnchanged s.content t.content) := by
  obtain ⟨vs, st, s, hh, hrec⟩ := hr.sound
  have hwf : s.WF := applyAll_wf Database.new_wf hrec.applyAll
  refine ⟨s, st, ⟨_, hh.calculate hrec.applyAll (k := vs.length + 2) (by omega)⟩, hh.stored_stage, hwf,
    ?_, ?_⟩
  · constructor
    · rintro ⟨d', k, hk⟩
      unfold HistCmd.exec at hk
      split at hk
      · cases hk
      · cases hk
      · next ws hws =>
        simp only [Option.some.injEq] at hk
        rcases plan_cases hh hws hrec with h | ⟨defs, st', h, _, hst⟩ | ⟨_, _, h, _⟩ | ⟨h, _⟩
        · exfalso
          subst h
          simp only [HistCmd.plan, stagePlan] at hws
          split at hws <;> try cases hws
          split at hws <;> try cases hws
          split at hws <;> try cases hws
          split at hws <;> cases hws
        · cases h
          obtain ⟨rs, s', h1, _⟩ := stageVersion_ok hst
          exact ⟨s', h1.applyAll⟩
        · cases h
        · cases h
    · rintro ⟨s', hs'⟩
      obtain ⟨f, r, w, hdone⟩ := (C09_stage_succeeds_iff hwf ht).2 ⟨s', hs'⟩
      obtain ⟨st', hst⟩ := stageVersion_of_done hdone st
      obtain ⟨rs, s'', _, hst'⟩ := stageVersion_ok hst
      obtain ⟨d', hd', _⟩ := hh.saveStage (st' := st') (by rw [hst']; exact hh.stage) (by rw [hst'])
      exact ⟨d', runs_of_plan (hh.stagePlan hrec hst) (saveAll_single hd')⟩
  · rintro d' ⟨k, hk⟩
    unfold HistCmd.exec at hk
    split at hk
    · cases hk
    · cases hk
    · next ws hws =>
      simp only [Option.some.injEq] at hk
      rcases plan_cases hh hws hrec with h | ⟨defs, st', h, rfl, hst⟩ | ⟨_, _, h, _⟩ | ⟨h, _⟩
      · exfalso
        subst h
        simp only [HistCmd.plan, stagePlan] at hws
        split at hws <;> try cases hws
        split at hws <;> try cases hws
        split at hws <;> try cases hws
        split at hws <;> cases hws
      · cases h
        obtain ⟨rs, s', h1, hst'⟩ := stageVersion_ok hst
        obtain ⟨d₁, hd₁, hh'⟩ := hh.saveStage (st' := st') (by rw [hst']; exact hh.stage) (by rw [hst'])
        rw [saveAll_single hd₁] at hk
        cases hk
        refine ⟨s', st', ?_, hh'.stored_stage, h1.applyAll, by rw [hst'], by rw [hst'], ?_,
          C01_diff_reaches_target_partial hwf ht h1.applyAll⟩
        · refine ⟨_, hh'.calculate (k := vs.length + 2) ?_ (by omega)⟩
          rw [show ∀ x, Version.newInit :: (vs ++ [x]) = (Version.newInit :: vs) ++ [x] from
            fun _ => rfl] at hrec ⊢
          have ha := hrec.applyAll
          rw [List.flatMap_append, applyAll_append] at ha ⊢
          cases hx : applyAll ((Version.newInit :: vs).flatMap Version.changes) Database.new with
          | error e => rw [hx] at ha; cases ha
          | ok y =>
            rw [hx] at ha
            simp only [List.flatMap_cons, List.flatMap_nil, List.append_nil] at ha ⊢
            change applyAll st.changes y = _ at ha
            change applyAll st'.changes y = _
            rw [hst']
            simp only
            rw [applyAll_append, ha]
            exact h1.applyAll
        · intro f hf
          rw [save_get hd₁, show st'.name = "stage" by rw [hst']; exact hh.stage]; exact if_neg hf
      · cases h
      · cases h

example : Reachable demoDir ∧ demoTarget.WF := ⟨demoDir_reachable, demoTarget_wf⟩

/-- Definitions with an owned sequence, and two that differ in whether an index is unique (for examples). -/
def ownedDefs : Database :=
  ⟨[("public", ⟨"public", [("q", .sequence ⟨"public", "q", "int8", 1, 1, 10, 1, 1, false, some "u",
    some "id"⟩)], []⟩)]⟩

def indexDefs (unique : Bool) : List Change :=
  [.createSchema "public", .createTable "public" "u" [⟨"id", "int8", true, none⟩],
    .createIndex "public" "u" "i" unique "btree" ["id"]]

def indexStaged : HDir := (runCommands 9 [.stage (.ok (built (indexDefs false)))] initDir).getD []

/-- The full C57 is false, whatever else the definitions say: `stage` ends well, and a sequence owned by a
column that was not staged before, unchanged, is staged without its owner. -/
theorem C57_owned_sequence_false {d d' : HDir} (hr : Reachable d) {t : Database} (ht : t.WF)
    (h : Runs (.stage (.ok t)) d d' true) {s s' : Database} (hs : SnapshotOf d "stage" s)
    (hs' : SnapshotOf d' "stage" s') {n r : String} {q : Sequence}
    (hq : t.content.objAt (.relation n r) = some (.sequence q))
    (ho : q.ownedByTable ≠ none ∨ q.ownedByColumn ≠ none)
    (hne : s.content.objAt (.relation n r) ≠ some (.sequence q)) :
    s'.content.objAt (.relation n r) =
        some (.sequence { q with ownedByTable := none, ownedByColumn := none }) ∧
      s'.content ≠ t.content := by
  obtain ⟨s₁, st, h1, _, hwf, _, h2⟩ := C57_stage_reaches_definitions_partial hr ht
  obtain ⟨s₂, _, h3, _, h4, _⟩ := h2 d' h
  cases hs.unique h1
  cases hs'.unique h3
  exact C01_owned_sequence_false hwf ht h4 hq ho hne

theorem ownedDefs_wf : ownedDefs.WF := by
  refine ⟨by simp [ownedDefs], ?_⟩
  simp only [ownedDefs, List.mem_singleton]
  rintro p rfl
  refine ⟨rfl, by simp, ?_, by simp, by simp⟩
  simp only [List.mem_singleton]
  rintro p rfl
  exact ⟨rfl, rfl, trivial⟩

example : ∃ d' s', Runs (.stage (.ok ownedDefs)) initDir d' true ∧ SnapshotOf d' "stage" s' ∧
    s'.content ≠ ownedDefs.content :=
  ⟨(runCommands 9 [.stage (.ok ownedDefs)] initDir).getD [],
    built [.createSchema "public", .createSequence "public" "q" "int8" 1 1 10 1 1 false],
    ⟨9, rfl⟩, ⟨9, rfl⟩, (C57_owned_sequence_false .init ownedDefs_wf ⟨9, rfl⟩
      (s := built [.createSchema "public"]) ⟨9, rfl⟩ ⟨9, rfl⟩ (n := "public") (r := "q") rfl
      (.inl (by simp)) (by intro h; cases h)).2⟩

/-- The full C57 is false, whatever else the definitions say: `stage` ends well, and an index that the
definitions make unique, say, without changing its key expressions, is staged as it was. -/
theorem C57_index_false {d d' : HDir} (hr : Reachable d) {t : Database} (ht : t.WF)
    (h : Runs (.stage (.ok t)) d d' true) {s s' : Database} (hs : SnapshotOf d "stage" s)
    (hs' : SnapshotOf d' "stage" s') {n r : String} {i j : Index}
    (hi : s.content.objAt (.relation n r) = some (.index i))
    (hj : t.content.objAt (.relation n r) = some (.index j))
    (hk : i.keyExpressions = j.keyExpressions) :
    s'.content.objAt (.relation n r) = some (.index i) ∧ (i ≠ j → s'.content ≠ t.content) := by
  obtain ⟨s₁, st, h1, _, hwf, _, h2⟩ := C57_stage_reaches_definitions_partial hr ht
  obtain ⟨s₂, _, h3, _, h4, _⟩ := h2 d' h
  cases hs.unique h1
  cases hs'.unique h3
  exact C01_index_attributes_false hwf ht h4 hi hj hk

example : ∃ d t s', Reachable d ∧ Runs (.stage (.ok t)) d d true ∧ SnapshotOf d "stage" s' ∧
    s'.content ≠ t.content := by
  have hd : Reachable indexStaged := .step (fuel := 9) (ok := true) .init (by intro _ _ h; cases h)
    (c := .stage (.ok (built (indexDefs false)))) rfl
  exact ⟨indexStaged, built (indexDefs true), built (indexDefs false), hd, ⟨9, rfl⟩, ⟨9, rfl⟩,
    (C57_index_false hd (applyAll_wf (cs := indexDefs true) Database.new_wf (by rfl)) ⟨9, rfl⟩
      (s := built (indexDefs false)) ⟨9, rfl⟩ ⟨9, rfl⟩ (n := "public") (r := "i")
      (i := ⟨"public", "i", "u", false, "btree", ["id"]⟩) (j := ⟨"public", "i", "u", true, "btree", ["id"]⟩)
      rfl rfl rfl).2
      (by decide)⟩

end Podo
