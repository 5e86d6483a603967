import Verif.Props.Follow
import Verif.Props.ProgramPg
import Verif.Props.Undo
/-
C67, the whole way: `stage`, `make`, `up` and `down` again.
-/
namespace Podo
namespace Prog
open Proj Diff Change Pg
variable {σ : Type}

/-- The reverting changes, last first, are what the staging loop puts in the down script. -/
theorem takenFrom_loop {cs rs : List Change} {s s' : Database} (h : TakenFrom cs s rs s') :
    stageLoop cs s [] [] = .done s' cs rs.reverse := by
  induction h with
  | nil => rfl
  | @cons c cs s r s₁ rs s' hr ha _ ih =>
    rw [stageLoop, hr]
    simp only [ha]
    rw [stageLoop_acc, ih]
    simp

/-- C67 (partial), the whole way.  When nothing was staged before and `stage` has succeeded and staged
something, `make`, `up` and then `down` succeed, provided that the server executes the two scripts.  The
database is then on its old version, and it has its old schema if the down script of the difference loses
nothing (C08) — for every server that does what statements say, where the SQL text of the staged changes and
of the changes that revert them is right and free of surprises.  Where the reverting changes apply at
all, it has its old schema in no other case. -/
theorem C67_workflow_partial {S : Setting σ} {w w₁ : World σ} {cwd : Proj.Path} {q : Profile}
    (hq : ProfileAt S.env w.fs cwd "database" q) (hr : Reachable (w.fs.history q.history))
    {t s₀ : Database} (ht : definitions w.fs q.definitions = .ok t)
    (hnone : ∀ st₀, Stored (w.fs.history q.history) "stage" st₀ → st₀.changes = [])
    (hi : S.Reads q.metadataSchema) {sv : Server σ} (hsv : w.servers q.databaseUrl = some sv)
    (hdb : Pg.Reach S.B (sv.db q.metadataSchema)) {cur : Version}
    (hcur : (sv.db q.metadataSchema).applied.getLast? = some cur)
    (hop : Opens (w.fs.history q.history) cur.name)
    {label : Option String} {n : String} (hn : n = S.now ++ "-" ++ label.getD "auto")
    (hf : FreshName (w.fs.history q.history) n) (hsl : '/' ∉ n.toList) {o₁ : List String}
    (h₁ : Ends S w cwd (.stage "database") w₁ o₁ .success) {st : Version}
    (hst : Stored (w₁.fs.history q.history) "stage" st) (hne : st.changes ≠ []) {y z : σ}
    (hup : Pg.Script S.B sv.data st.up y) (hcy : S.B.commits y = true)
    (hrec : Pg.Recordable S.B (sv.db q.metadataSchema) [{ st with name := n }])
    (hdn : Pg.Script S.B y st.down z) (hcz : S.B.commits z = true)
    {cat : σ → Content} {free : Change → Content → Prop} (ho : Obedient S.B cat free)
    (hs₀ : SnapshotOf (w.fs.history q.history) cur.name s₀) (hc : cat sv.data = s₀.content)
    (hp : Plain free s₀ st.changes)
    (hpd : ∀ rs s₁, TakenFrom st.changes s₀ rs s₁ → Plain free s₁ rs.reverse) :
    ∃ w₂ w₃ w₄ o₂ o₃ o₄ sv₄, Ends S w₁ cwd (.make "database" label) w₂ o₂ .success ∧
      Ends S w₂ cwd (.up "database" none) w₃ o₃ .success ∧
      Ends S w₃ cwd (.down "database" none) w₄ o₄ .success ∧
      w₄.servers q.databaseUrl = some sv₄ ∧
      (sv₄.db q.metadataSchema).applied = (sv.db q.metadataSchema).applied ∧
      (Undoable s₀ t → cat sv₄.data = cat sv.data) ∧
      ∀ rs s₁ s₂, TakenFrom st.changes s₀ rs s₁ → applyAll rs.reverse s₁ = .ok s₂ →
        (cat sv₄.data = cat sv.data ↔ Undoable s₀ t) := by
  have htwf : t.WF := definitions_wf ht
  obtain ⟨s, st₀, hs, hst₀, hswf, _, hall⟩ := C57_stage_reaches_definitions_partial hr htwf
  obtain ⟨w₂, w₃, o₂, o₃, sv₃, out, h2, h3, h4, h5, happ₃, _⟩ := C63_workflow_partial hq hr ht hs hi hsv hdb hcur
    hop hn hf hsl h₁ hst hne hup hcy hrec
  -- the profile stays
  have hq₁ := (profileAt_config (C64_only_the_profile h₁ (by simp)).1).2 hq
  have hq₂ := (profileAt_config (C64_only_the_profile h2 (by simp)).1).2 hq₁
  have hq₃ := (profileAt_config (C64_only_the_profile h3 (by simp)).1).2 hq₂
  -- nothing was staged
  obtain ⟨hpv, v₀, hv₀⟩ := stage_previous hr hop hst₀
  have hsame : s = s₀ := by
    obtain ⟨_, sx, rs, sy, hp0, htk, hsy, _⟩ := C28_scripts_aligned hr hst₀
    rw [hnone _ hst₀] at htk
    cases htk
    rw [hpv] at hp0
    rcases hp0 with ⟨h0, _⟩ | ⟨p', h0, hs2⟩
    · cases h0
    · cases h0
      rw [← hs2.unique hs₀]
      exact hs.unique hsy
  subst hsame
  -- the staged version
  obtain ⟨f₁, h₁⟩ := h₁
  rw [run_stage hq, ht] at h₁
  obtain ⟨d₁, he₁, hw₁⟩ := runHist_success h₁
  have hd₁ : w₁.fs.history q.history = d₁ := by rw [hw₁]; exact update_self _ _ _
  rw [hd₁] at hst
  obtain ⟨s₁, st₁, hs₁, hst₁, ha₁, hch₁, hpr₁, hfiles₁, _⟩ := hall d₁ ⟨f₁, he₁⟩
  cases hst.unique hst₁
  rw [hnone _ hst₀, List.nil_append] at hch₁
  have hr₁ : Reachable d₁ := .step hr (by intro _ _ h; cases h) he₁
  obtain ⟨hupt, s₂, rs, s₃, hp0, htk, hs₃, hdown, _⟩ := C28_scripts_aligned hr₁ hst₁
  cases hs₃.unique hs₁
  rw [hpr₁, hpv] at hp0
  have he : s₂ = s := by
    rcases hp0 with ⟨h0, _⟩ | ⟨p', h0, hs2⟩
    · cases h0
    · cases h0
      exact hs2.unique (stage_keeps_snapshot hr hop he₁ hs₀)
  subst he
  have hcy' : cat y = s₁.content :=
    script_follow ho hswf htk.applyAll hp hc (by rw [← hupt]; exact hup)
  -- the table of versions after `up`
  have hreach₃ : Pg.Reach S.B (sv₃.db q.metadataSchema) := by
    obtain ⟨f₂, h2⟩ := h2
    rw [run_make hq₁] at h2
    obtain ⟨d₂, he₂, hw₂⟩ := runHist_success h2
    rw [hd₁] at he₂
    have hnstage : n ++ ".yaml" ≠ "stage.yaml" := by
      intro h
      have := hf.1
      rw [h] at this
      have h2 : (w.fs.history q.history).get? "stage.yaml" = _ := hst₀
      rw [this] at h2
      cases h2
    have hf₁ : FreshName d₁ n := ⟨by rw [hfiles₁ _ hnstage]; exact hf.1, hf.2⟩
    have hr₂ : Reachable d₂ := .step hr₁ (by
      intro a b h; cases h; rw [← show n = madeName S.now label from hn]; exact hf₁) he₂
    have hsv₂ : w₂.servers q.databaseUrl = some sv := by
      rw [hw₂, hw₁]; exact hsv
    obtain ⟨f₃, h3⟩ := h3
    rw [run_up hq₂ hq₂ hi none hsv₂, Option.map_eq_some_iff] at h3
    obtain ⟨⟨db₃, o⟩, hu, h3⟩ := h3
    injection h3 with h3
    rw [← h3] at h4
    have h4' : some (⟨update sv.metas q.metadataSchema db₃.metaSchema, db₃.data⟩ : Server σ) = some sv₃ := by
      rw [← h4]; exact (update_self _ _ _).symm
    cases h4'
    have e : (⟨update sv.metas q.metadataSchema db₃.metaSchema q.metadataSchema, db₃.data⟩ : Pg.DB σ) = db₃ := by
      rw [update_self]
    show Pg.Reach S.B (⟨update sv.metas q.metadataSchema db₃.metaSchema q.metadataSchema, db₃.data⟩ : Pg.DB σ)
    rw [e]
    have hd₂ : w₂.fs.history q.history = d₂ := by rw [hw₂]; exact update_self _ _ _
    exact .up hdb (by rw [hd₂]; exact hr₂.namedAfterVersion) hu
  have hpre : (sv.db q.metadataSchema).applied ≠ [] := by
    intro h; rw [h] at hcur; cases hcur
  have hok : (Pg.down S.B none (sv₃.db q.metadataSchema)).2 = .ok :=
    (C36_down_one_succeeds hreach₃ happ₃ hpre).2 ⟨z, by
      show Pg.Script S.B sv₃.data st.down z
      rw [h5]; exact hdn, hcz⟩
  obtain ⟨hs4, happ₄⟩ := C36_down_one_partial hreach₃ happ₃ hpre (Prod.ext rfl hok)
  change Pg.Script S.B sv₃.data st.down _ at hs4
  rw [h5, hdown] at hs4
  refine ⟨w₂, w₃, putServer w₃ q.databaseUrl q.metadataSchema sv₃ (Pg.down S.B none (sv₃.db q.metadataSchema)).1,
    o₂, o₃, _, ⟨update sv₃.metas q.metadataSchema (Pg.down S.B none (sv₃.db q.metadataSchema)).1.metaSchema,
      (Pg.down S.B none (sv₃.db q.metadataSchema)).1.data⟩, h2, h3,
    ⟨0, by rw [run_down hq₃ hi none h4, hok]; rfl⟩, update_self _ _ _, ?_, ?_, ?_⟩
  · show (⟨update sv₃.metas q.metadataSchema _ q.metadataSchema, _⟩ : Pg.DB σ).applied = _
    rw [update_self]
    exact happ₄
  · intro hund
    have hloop := takenFrom_loop htk
    rw [hch₁] at hloop
    obtain ⟨d', k1, k2⟩ := (C08_diff_undone_iff hswf htwf hloop).2 hund
    have := script_follow ho (takenFrom_wf htk hswf) k1 (hpd _ _ htk) hcy' hs4
    rw [hc, ← k2]
    exact this
  · intro rs' s₁' s₂' htk' hap
    have hloop := takenFrom_loop htk
    rw [takenFrom_loop htk'] at hloop
    injection hloop with e1 _ e3
    subst e1
    have hloop := takenFrom_loop htk'
    rw [hch₁] at hloop
    have hcz := script_follow ho (takenFrom_wf htk' hswf) hap (hpd _ _ htk') hcy' (by rw [e3]; exact hs4)
    rw [← C08_diff_undone_iff hswf htwf hloop, hc]
    constructor
    · intro h
      exact ⟨s₂', hap, by rw [← hcz]; exact h⟩
    · rintro ⟨d', k1, k2⟩
      rw [hap] at k1
      cases k1
      rw [← k2]
      exact hcz

/-- C67 applies the whole way: staged, made, applied, taken back, and the table is gone. -/
example : ∃ w₁ o₁ w₂ o₂ w₃ o₃ w₄ o₄ sv₄,
    Ends exSetting exWorld ["w"] (.stage "database") w₁ o₁ .success ∧
    Ends exSetting w₁ ["w"] (.make "database" none) w₂ o₂ .success ∧
    Ends exSetting w₂ ["w"] (.up "database" none) w₃ o₃ .success ∧
    Ends exSetting w₃ ["w"] (.down "database" none) w₄ o₄ .success ∧
    w₄.servers progProfile.databaseUrl = some sv₄ ∧
    (exDb sv₄.data).content = (exDb false).content := by
  obtain ⟨w₁, o₁, h1, hd⟩ := exWorld_staged
  have hq : ProfileAt exSetting.env exWorld.fs ["w"] "database" progProfile := progFs_profile _ _
  have hrec : Pg.Recordable exSetting.B ((⟨fun _ => .absent, false⟩ : Server Bool).db "podo_meta")
      [{ exStage with name := "20200202_000000-auto" }] := by
    refine ⟨?_, fun _ _ => rfl, by decide, fun t h => by (cases h), fun _ => ⟨rfl, rfl, by decide⟩,
      fun h => by (cases h)⟩
    intro v hv
    simp only [List.mem_singleton] at hv
    subst hv
    refine ⟨by decide, ?_⟩
    intro p hp
    cases hp
    decide
  obtain ⟨w₂, w₃, w₄, o₂, o₃, o₄, sv₄, h2, h3, h4, h5, _, h6, _⟩ :=
    C67_workflow_partial (S := exSetting) (w := exWorld) (w₁ := w₁) hq (hi := podo_meta_reads) (hr := .init)
      (t := exDb true) exWorld_defs (by
        intro st₀ h
        have h0 : Stored (exWorld.fs.history progProfile.history) "stage" (Version.newStage "init") := rfl
        cases h.unique h0
        rfl)
      (sv := ⟨fun _ => .absent, false⟩) rfl (.new false) (cur := Version.newInit) rfl ⟨9, _, rfl⟩
      (label := none) (n := "20200202_000000-auto") rfl ⟨rfl, noYaml (by decide)⟩ (by decide) h1
      (st := exStage) (by rw [hd]; rfl) (by simp [exStage])
      (y := true) (z := false) (Pg.script_iff.2 rfl) rfl hrec (Pg.script_iff.2 rfl) rfl
      exB_obedient (s₀ := exDb false) ⟨9, rfl⟩ rfl (exPlain false) (by
        intro rs s₁ htk
        have e1 : (exCreate).revert (exDb false) = .ok exDrop := rfl
        have e2 : (exCreate).apply (exDb false) = .ok (exDb true) := rfl
        change TakenFrom [exCreate] _ _ _ at htk
        cases htk with
        | cons hrev hap ht' =>
          cases ht'
          rw [e1] at hrev
          rw [e2] at hap
          cases hrev
          cases hap
          exact exPlain true)
  refine ⟨w₁, o₁, w₂, o₂, w₃, o₃, w₄, o₄, sv₄, h1, h2, h3, h4, h5, h6 ?_⟩
  have e : ∀ n, (exDb false).content n = if "public" = n then some (Schema.content ⟨"public", [], []⟩)
      else none := by
    intro n
    show Option.map Schema.content (if "public" = n then _ else none) = _
    split <;> rfl
  constructor
  · intro n r tb c h _
    exfalso
    simp only [Content.tableAt, e] at h
    split at h
    · simp [Schema.content, AMap.get?] at h
    · cases h
  · intro n r q h _
    exfalso
    simp only [Content.objAt, e] at h
    split at h
    · simp [Schema.content, AMap.get?] at h
    · cases h
  · intro n sc pre i ix post h hrel
    exfalso
    have : sc.relations = [] := by
      change (if "public" = n then _ else none) = some sc at h
      split at h
      · cases h; rfl
      · cases h
    rw [this] at hrel
    cases pre <;> cases hrel

end Prog
end Podo
