import Verif.Proofs.Keeping
import Verif.Props.Workflow
import Verif.Props.Minded
/-
C98: the values in columns.
-/
namespace Podo
open Pg Change

/-- C98 for the diff.  The changes from one snapshot to another are about the values of a column exactly if the other
snapshot has no such column, or one of another type: nothing else of the column, the table or the schema makes podo
touch them. -/
theorem C98_diff_touches_iff {s t : Database} (hs : s.WF) (ht : t.WF) {n r k : String} {a : Column}
    (ha : s.content.objAt (.column n r k) = some (.column a)) :
    (∃ c ∈ Diff.compareDiff s t, c.Touches n r k) ↔
      ∀ b, t.content.objAt (.column n r k) = some (.column b) → b.dataType ≠ a.dataType :=
  ⟨fun ⟨_, hc, hd⟩ => diff_touches hs ht ha hc hd, diff_touched hs ht ha⟩

/-- Without the condition on names, C98 is false: whatever the column, there is a change about something else — a
constraint, in a schema whose name has quotes in it — and what podo writes for it converts the column's values. -/
theorem C98_quote_false (s t k ty : String) (hs : plain s) (ht : plain t) (hk : plain k) :
    ∃ (c : Change) (ty' : String), Says c.renderSql (.setDataType s t k (ty ++ ty')) ∧ ∀ a b d, ¬ c.Touches a b d := by
  refine ⟨.dropCheck (s ++ "\".\"" ++ t ++ "\" ALTER COLUMN \"" ++ k ++ "\" SET DATA TYPE " ++ ty) "t" "c",
    "\".\"t\" DROP CONSTRAINT \"c\"", ⟨_, rfl, .inr ?_⟩, fun _ _ _ h => h⟩
  rw [render_dropCheck, text_setDataType, qualified_plain hs ht, quoted_plain hk]
  simp [Sql.qa, Sql.qn, ← String.toList_inj]

namespace Prog
open Proj
variable {σ α : Type} {vals : σ → String → String → String → α} {clean : String → Prop}

/-- C98 for `up` (partial).  Whichever way `podo up` ends, the values in every column that none of the changes of the
versions it has applied is about are what they were — for every server that is careful with values.  Missing: names
with quotes in them; see `C98_quote_false`. -/
theorem C98_up_keeps_partial {S : Setting σ} {w w' : World σ} {cwd : Proj.Path} {name : String} {q₀ q : Profile}
    (hk : Careful S.B vals clean)
    (hq₀ : ProfileAt S.env w.fs cwd "database" q₀) (hq : ProfileAt S.env w.fs cwd name q)
    (hi : S.Reads q.metadataSchema) {s : Server σ} (hs : w.servers q.databaseUrl = some s)
    (hr : Pg.Reach S.B (s.db q.metadataSchema)) (hd : Reachable (w.fs.history q₀.history)) {target : Option String}
    {out : List String} {e : Ending} (h : Ends S w cwd (.up name target) w' out e) :
    ∃ s', w'.servers q.databaseUrl = some s' ∧ ∀ n r k,
      (∀ v ∈ (s'.db q.metadataSchema).applied, v ∉ (s.db q.metadataSchema).applied → ∀ c ∈ v.changes,
        clean c.renderSql ∧ (∀ m ∈ c.place, plain m) ∧ ¬ c.Touches n r k) →
      vals s'.data n r k = vals s.data n r k := by
  obtain ⟨fuel, h⟩ := h
  rw [run_up hq₀ hq hi target hs] at h
  cases hu : Pg.up S.B fuel (w.fs.history q₀.history) target (s.db q.metadataSchema) with
  | none => rw [hu] at h; cases h
  | some x =>
    obtain ⟨db', o⟩ := x
    rw [hu, Option.map_some] at h
    injection h with h
    injection h with h1 h2
    subst h1
    refine ⟨⟨update s.metas q.metadataSchema db'.metaSchema, db'.data⟩, update_self _ _ _, ?_⟩
    intro n r k hc
    have e : (⟨update s.metas q.metadataSchema db'.metaSchema, db'.data⟩ : Server σ).db q.metadataSchema = db' := by
      unfold Server.db
      dsimp only
      rw [update_self]
    rw [e] at hc
    show vals db'.data n r k = vals (s.db q.metadataSchema).data n r k
    by_cases ho : o = .ok
    · subst ho
      obtain ⟨_, _, ws, _, _, _, _, h5, h6, h7, _⟩ := C31_up_applies_missing_partial hr hd.namedAfterVersion hu
      have hnd : (db'.applied.map Version.name).Nodup := by
        rcases C35_version_table_chain_partial (.up hr hd.namedAfterVersion hu) with ha | ⟨t, ht, hch⟩
        · unfold DB.applied; rw [ha]; simp
        · unfold DB.applied
          rw [ht, List.map_map]
          exact hch.names
      refine script_chain (f := Version.up) (fun w hw x x' hx => ?_) h6
      have hnew : w ∉ (s.db q.metadataSchema).applied := by
        intro hm
        rw [h7, List.map_append, List.nodup_append] at hnd
        exact hnd.2.2 _ (List.mem_map_of_mem hm) _ (List.mem_map_of_mem hw) rfl
      rw [(C28_scripts_aligned hd (h5 w hw)).1] at hx
      exact script_keeps hk (hc w (by rw [h7]; exact List.mem_append_right _ hw) hnew) hx
    · rw [(C30_up_all_or_nothing _ hu ho).data]

/-- C98 for `down` (partial).  The same for `podo down`: the values in every column that none of the changes of the
versions it has taken back is about are what they were, if the versions were made by podo.  Missing: as above. -/
theorem C98_down_keeps_partial {S : Setting σ} {w w' : World σ} {cwd : Proj.Path} {name : String} {q : Profile}
    (hk : Careful S.B vals clean) (hq : ProfileAt S.env w.fs cwd name q)
    (hi : S.Reads q.metadataSchema) {s : Server σ} (hs : w.servers q.databaseUrl = some s)
    (hr : Pg.Reach S.B (s.db q.metadataSchema))
    (hd : ∀ v ∈ (s.db q.metadataSchema).applied, ∃ d, Reachable d ∧ Stored d v.name v) {target : Option String}
    {out : List String} {e : Ending} (h : Ends S w cwd (.down name target) w' out e) :
    ∃ s', w'.servers q.databaseUrl = some s' ∧ ∀ n r k,
      (∀ v ∈ (s.db q.metadataSchema).applied, v ∉ (s'.db q.metadataSchema).applied → (∀ x ∈ v.down, clean x) ∧
        ∀ c ∈ v.changes, (∀ m ∈ c.place, plain m) ∧ ¬ c.Touches n r k) →
      vals s'.data n r k = vals s.data n r k := by
  obtain ⟨fuel, h⟩ := h
  rw [run_down hq hi target hs] at h
  injection h with h
  injection h with h1 h2
  subst h1
  cases hu : Pg.down S.B target (s.db q.metadataSchema) with
  | mk db' o =>
    refine ⟨⟨update s.metas q.metadataSchema db'.metaSchema, db'.data⟩, update_self _ _ _, ?_⟩
    intro n r k hc
    have e : (⟨update s.metas q.metadataSchema db'.metaSchema, db'.data⟩ : Server σ).db q.metadataSchema = db' := by
      unfold Server.db
      dsimp only
      rw [update_self]
    rw [e] at hc
    show vals db'.data n r k = vals (s.db q.metadataSchema).data n r k
    by_cases ho : o = .ok
    · subst ho
      obtain ⟨pre, v, post, h1, h2, h3⟩ := down_does hr hu
      have hnd : ((s.db q.metadataSchema).applied.map Version.name).Nodup := by
        rcases C35_version_table_chain_partial hr with ha | ⟨t, ht, hch⟩
        · unfold DB.applied; rw [ha]; simp
        · unfold DB.applied
          rw [ht, List.map_map]
          exact hch.names
      refine script_chain (f := Version.down) (fun w hw x x' hx => ?_) h2
      have hw := List.mem_reverse.1 hw
      have hm : w ∈ (s.db q.metadataSchema).applied := by rw [h1]; simp [hw]
      have hgone : w ∉ db'.applied := by
        intro hm
        rw [h3] at hm
        rw [h1, show pre ++ v :: post = (pre ++ [v]) ++ post by simp, List.map_append, List.nodup_append] at hnd
        exact hnd.2.2 _ (List.mem_map_of_mem hm) _ (List.mem_map_of_mem hw) rfl
      obtain ⟨h4, h5⟩ := hc w hm hgone
      obtain ⟨d, hd, hst⟩ := hd w hm
      exact down_keeps hk hd hst h5 h4 hx
    · have := C30_down_all_or_nothing S.B target (s.db q.metadataSchema) (by rw [hu]; exact ho)
      rw [hu] at this
      rw [this.data]

/-- C98, the whole way (partial).  When nothing was staged before and `stage` has succeeded and staged something,
`make` and `up` succeed, provided that the server executes the script, and the values in every column that the old
version and the definitions both have, with the same type, are what they were.  Missing: as above, and definitions staged
on top of others; see `C87_restage_false`. -/
theorem C98_workflow_partial {S : Setting σ} {w w₁ : World σ} {cwd : Proj.Path} {q : Profile}
    (hk : Careful S.B vals clean)
    (hq : ProfileAt S.env w.fs cwd "database" q) (hr : Reachable (w.fs.history q.history))
    {t s₀ : Database} (ht : definitions w.fs q.definitions = .ok t)
    (hnone : ∀ st₀, Stored (w.fs.history q.history) "stage" st₀ → st₀.changes = [])
    (hi : S.Reads q.metadataSchema) {sv : Server σ} (hsv : w.servers q.databaseUrl = some sv)
    (hdb : Pg.Reach S.B (sv.db q.metadataSchema)) {cur : Version}
    (hcur : (sv.db q.metadataSchema).applied.getLast? = some cur)
    (hop : Opens (w.fs.history q.history) cur.name)
    {label : Option String} {n : String} (hn : n = S.now ++ "-" ++ label.getD "auto")
    (hf : FreshName (w.fs.history q.history) n) (hsl : '/' ∉ n.toList) {o₁ : List String}
    (h₁ : Ends S w cwd (.stage "database") w₁ o₁ .success) {st : Version}
    (hst : Stored (w₁.fs.history q.history) "stage" st) (hne : st.changes ≠ []) {y : σ}
    (hup : Pg.Script S.B sv.data st.up y) (hcy : S.B.commits y = true)
    (hrec : Pg.Recordable S.B (sv.db q.metadataSchema) [{ st with name := n }])
    (hs₀ : SnapshotOf (w.fs.history q.history) cur.name s₀)
    (hc : ∀ c ∈ st.changes, clean c.renderSql ∧ ∀ m ∈ c.place, plain m) :
    ∃ w₂ w₃ o₂ o₃ sv₃, Ends S w₁ cwd (.make "database" label) w₂ o₂ .success ∧
      Ends S w₂ cwd (.up "database" none) w₃ o₃ .success ∧ w₃.servers q.databaseUrl = some sv₃ ∧
      ∀ n r k a b, s₀.content.objAt (.column n r k) = some (.column a) →
        t.content.objAt (.column n r k) = some (.column b) → b.dataType = a.dataType →
        vals sv₃.data n r k = vals sv.data n r k := by
  have htwf : t.WF := definitions_wf ht
  obtain ⟨s, st₀, hs, hst₀, hswf, _, hall⟩ := C57_stage_reaches_definitions_partial hr htwf
  obtain ⟨w₂, w₃, o₂, o₃, sv₃, out, h2, h3, h4, h5, _, _⟩ := C63_workflow_partial hq hr ht hs hi hsv hdb hcur
    hop hn hf hsl h₁ hst hne hup hcy hrec
  obtain ⟨hpv, v₀, hv₀⟩ := stage_previous hr hop hst₀
  have hsame : s = s₀ := by
    obtain ⟨_, sx, rs, sy, hp0, htk, hsy, _⟩ := C28_scripts_aligned hr hst₀
    rw [hnone _ hst₀] at htk
    cases htk
    rw [hpv] at hp0
    rcases hp0 with ⟨h0, _⟩ | ⟨p', h0, hs2⟩
    · cases h0
    · cases h0
      rw [← hs2.unique hs₀]
      exact hs.unique hsy
  subst hsame
  obtain ⟨f₁, h₁⟩ := h₁
  rw [run_stage hq, ht] at h₁
  obtain ⟨d₁, he₁, hw₁⟩ := runHist_success h₁
  have hd₁ : w₁.fs.history q.history = d₁ := by rw [hw₁]; exact update_self _ _ _
  rw [hd₁] at hst
  obtain ⟨s₁, st₁, hs₁, hst₁, ha₁, hch₁, hpr₁, hfiles₁, _⟩ := hall d₁ ⟨f₁, he₁⟩
  cases hst.unique hst₁
  rw [hnone _ hst₀, List.nil_append] at hch₁
  have hr₁ : Reachable d₁ := .step hr (by intro _ _ h; cases h) he₁
  obtain ⟨hupt, _⟩ := C28_scripts_aligned hr₁ hst₁
  refine ⟨w₂, w₃, o₂, o₃, sv₃, h2, h3, h4, ?_⟩
  intro n r k a b ha hb hab
  rw [h5]
  rw [hupt] at hup
  refine script_keeps hk (fun c hm => ⟨(hc c hm).1, (hc c hm).2, fun ht => ?_⟩) hup
  exact (C98_diff_touches_iff hswf htwf ha).1 ⟨c, by rw [← hch₁]; exact hm, ht⟩ b hb hab

/-! ### A table with a column that stays -/

def keepAdd : Change := .addColumn "public" "t" "x" "int8" false none
def keepDrop : Change := .dropColumn "public" "t" "x"

theorem keepAdd_plain : ∀ m ∈ keepAdd.place, plain m := by
  show ∀ m ∈ ["public", "t", "x"], '"' ∉ m.toList
  decide

/-- A server that knows four statements.  Its state says whether there is no table, a table with one column, or a table
with two, and what is in the first column. -/
def holdB : Pg.Behaviour (Nat × String) :=
  ⟨fun x q => if x.1 = 0 ∧ q = exCreate.renderSql then some (1, "") else if x.1 = 1 ∧ q = exDrop.renderSql then some (0, "")
    else if x.1 = 1 ∧ q = keepAdd.renderSql then some (2, x.2) else if x.1 = 2 ∧ q = keepDrop.renderSql then some (1, x.2)
    else none,
   fun _ => true, fun _ => true, fun _ => true⟩

/-- What is in its columns. -/
def keepVals (x : Nat × String) (s t k : String) : Option String :=
  if s = "public" ∧ t = "t" then
    if k = "id" ∧ x.1 ≠ 0 then some x.2 else if k = "x" ∧ x.1 = 2 then some "" else none
  else none

theorem holdB_careful : Pg.Careful holdB keepVals (fun _ => True) := by
  intro q x x' s t k _ hx hne
  have hst : s = "public" ∧ t = "t" := by
    apply Classical.byContradiction
    intro h
    simp [keepVals, h] at hne
  obtain ⟨rfl, rfl⟩ := hst
  simp only [holdB] at hx
  split at hx
  · next h =>
    rw [h.2]
    exact ⟨_, says_nullable _ _ _ (by decide) (by decide) (by decide), rfl, rfl⟩
  · split at hx
    · next h =>
      rw [h.2]
      exact ⟨exDrop, ⟨.dropTable "public" "t", rfl, .inr (by decide)⟩, rfl, rfl⟩
    · have hkx : ∀ n : Nat, n ≠ 0 → x' = (n, x.2) → x.1 ≠ 0 → k = "x" := by
        intro n hn e h0
        subst e
        apply Classical.byContradiction
        intro hk
        simp [keepVals, hk, hn, h0] at hne
      split at hx
      · next h =>
        cases hx
        have := hkx 2 (by decide) rfl (by rw [h.1]; decide)
        subst this
        rw [h.2]
        exact ⟨_, (C17_add_column_false _ _ _ _ _ _ (by decide) (by decide) (by decide)).1, rfl, rfl, rfl⟩
      · split at hx
        · next h =>
          cases hx
          have := hkx 1 (by decide) rfl (by rw [h.1]; decide)
          subst this
          rw [h.2]
          exact ⟨keepDrop, ⟨.dropColumn "public" "t" "x", rfl, .inr (by decide)⟩, rfl, rfl, rfl⟩
        · cases hx

/-- The table with a second column. -/
def keepDoc : Def.Yaml :=
  .map [some "schema public"] [.map [some "table t"] [.map [some "column id", some "column x"] [.str "int8", .str "int8"]]]

def keepDb : Database :=
  ⟨[("public", ⟨"public", [("t", .table ⟨"public", "t", [⟨"public", "t", "id", "int8", false, none⟩,
    ⟨"public", "t", "x", "int8", false, none⟩], []⟩)], []⟩)]⟩

def keepSetting : Setting (Nat × String) :=
  ⟨demoEnv, holdB, readSchema, fun _ => none, "cannot connect", "20210101_000000"⟩

def keepServer : Server (Nat × String) :=
  ⟨update (fun _ => .absent) "podo_meta" (mindUp false).metaSchema, (1, "42")⟩

def keepWorld : World (Nat × String) :=
  ⟨(mindWorld true (mindMade false) [("public.yaml", keepDoc)]).fs, fun _ => some keepServer⟩

theorem keepServer_db : keepServer.db "podo_meta" = ⟨(mindUp false).metaSchema, (1, "42")⟩ := by
  unfold Server.db keepServer
  dsimp only
  rw [update_self]

theorem mindMade_reachable : Reachable (mindMade false) :=
  .step (d := mindStaged false) (fuel := 9) (c := .make tenPast.text none) (ok := true)
    (.step (d := initDir) (fuel := 9) (c := .stage (.ok (mindDb false))) (ok := true) .init (by intro _ _ h; cases h) rfl)
    (by intro a b h; cases h; exact ⟨by decide +kernel, noYaml (by decide +kernel)⟩) (by decide +kernel)

theorem keep_reach : Pg.Reach holdB (keepServer.db "podo_meta") := by
  rw [keepServer_db]
  exact .elsewhere (db := ⟨(mindUp false).metaSchema, (1, "")⟩) (1, "42") (.up (fuel := 9) (d := mindMade false) (target := none) (o := .ok)
    (.new (0, "")) mindMade_reachable.namedAfterVersion rfl)

def keepStage : Version :=
  ⟨"stage", some "20201025_021000-auto", [keepAdd], [keepAdd.renderSql], [keepDrop.renderSql]⟩

/-- The version files after `stage`, and after `make`. -/
def keepStaged : HDir :=
  [("init.yaml", .file (some Version.newInit)), ("stage.yaml", .file (some keepStage)),
    ("20201025_021000-auto.yaml", .file (some (mindVersion false)))]

def keepVersion : Version := { keepStage with name := "20210101_000000-auto" }

def keepMade : HDir :=
  [("init.yaml", .file (some Version.newInit)), ("stage.yaml", .file (some (Version.newStage "20210101_000000-auto"))),
    ("20201025_021000-auto.yaml", .file (some (mindVersion false))),
    ("20210101_000000-auto.yaml", .file (some keepVersion))]

theorem keepStaged_exec : (HistCmd.stage (.ok keepDb)).exec 9 (mindMade false) = some (keepStaged, true) := rfl

theorem keepMade_reachable : Reachable keepMade :=
  .step (d := keepStaged) (fuel := 9) (c := .make "20210101_000000" none) (ok := true)
    (.step (d := mindMade false) (fuel := 9) (c := .stage (.ok keepDb)) (ok := true) mindMade_reachable
      (by intro _ _ h; cases h) keepStaged_exec)
    (by intro a b h; cases h; exact ⟨by decide +kernel, noYaml (by decide +kernel)⟩) (by decide +kernel)

theorem keep_staged : ∃ w₁ o₁, Ends keepSetting keepWorld ["w"] (.stage "database") w₁ o₁ .success ∧
    Stored (w₁.fs.history progProfile.history) "stage" keepStage := by
  have hd : keepWorld.fs.history progProfile.history = mindMade false := mindWorld_history _ _ _
  obtain ⟨w₁, o, h1, _, h2, _⟩ := runHist_ok (w := keepWorld) (h := progProfile.history) (c := .stage (.ok keepDb))
    (fuel := 9) (d := keepStaged) (by rw [hd]; exact keepStaged_exec)
  refine ⟨w₁, o, ⟨9, ?_⟩, ?_⟩
  · have hq : ProfileAt keepSetting.env keepWorld.fs ["w"] "database" progProfile := mindWorld_profile _ _
    rw [run_stage hq, show definitions keepWorld.fs progProfile.definitions = .ok keepDb from by
      show Def.loadDir [.file "public.yaml" keepDoc] = _; decide +kernel]
    exact h1
  · rw [h2]
    dsimp only
    rw [update_self]
    rfl

theorem keep_recordable : Pg.Recordable holdB (keepServer.db "podo_meta") [keepVersion] := by
  rw [keepServer_db]
  refine ⟨?_, fun _ _ => rfl, by decide, fun t h => by (cases h; decide), fun h => by (cases h), fun h => by (cases h)⟩
  intro v hv
  simp only [List.mem_singleton] at hv
  subst hv
  refine ⟨by decide, ?_⟩
  intro p hp
  cases hp
  decide

/-- A second column is added to the definitions, staged, made and applied: what is in the first one is still there. -/
example : ∃ w₁ o₁ w₂ o₂ w₃ o₃ sv₃, Ends keepSetting keepWorld ["w"] (.stage "database") w₁ o₁ .success ∧
    Ends keepSetting w₁ ["w"] (.make "database" none) w₂ o₂ .success ∧
    Ends keepSetting w₂ ["w"] (.up "database" none) w₃ o₃ .success ∧
    w₃.servers progProfile.databaseUrl = some sv₃ ∧ keepVals sv₃.data "public" "t" "id" = some "42" := by
  obtain ⟨w₁, o₁, h1, hst⟩ := keep_staged
  have hq : ProfileAt keepSetting.env keepWorld.fs ["w"] "database" progProfile := mindWorld_profile _ _
  have hd : keepWorld.fs.history progProfile.history = mindMade false := mindWorld_history _ _ _
  obtain ⟨w₂, w₃, o₂, o₃, sv₃, h2, h3, h4, h5⟩ :=
    C98_workflow_partial (S := keepSetting) (w := keepWorld) (w₁ := w₁) (vals := keepVals) (clean := fun _ => True)
      holdB_careful hq (by rw [hd]; exact mindMade_reachable) (t := keepDb)
      (by show Def.loadDir [.file "public.yaml" keepDoc] = _; decide +kernel)
      (by
        rw [hd]
        intro st₀ h
        have h0 : Stored (mindMade false) "stage" (Version.newStage "20201025_021000-auto") := rfl
        cases h.unique h0
        rfl)
      podo_meta_reads (sv := keepServer) rfl keep_reach (cur := mindVersion false)
      (by show (keepServer.db "podo_meta").applied.getLast? = _; rw [keepServer_db]; rfl)
      (by rw [hd]; exact ⟨9, _, rfl⟩)
      (label := none) (n := "20210101_000000-auto") rfl (by rw [hd]; exact ⟨rfl, noYaml (by decide)⟩) (by decide) h1
      (st := keepStage) hst (by simp [keepStage])
      (y := (2, "42")) (Pg.script_iff.2 rfl) rfl keep_recordable (s₀ := mindDb false)
      (by rw [hd]; exact (mindMade_snapshots false).2)
      (by intro c hc; cases hc with
          | head => exact ⟨trivial, keepAdd_plain⟩
          | tail _ h => cases h)
  refine ⟨w₁, o₁, w₂, o₂, w₃, o₃, sv₃, h1, h2, h3, h4, ?_⟩
  rw [h5 "public" "t" "id" _ _ rfl rfl rfl]
  decide

/-- The same database, with a project that has the version already. -/
def keepWorld₂ : World (Nat × String) := ⟨(mindWorld true keepMade []).fs, fun _ => some keepServer⟩

def keepDb₂ : Pg.DB (Nat × String) := ⟨.table ⟨[⟨Version.newInit, 1⟩, ⟨mindVersion false, 2⟩, ⟨keepVersion, 3⟩], 4⟩, (2, "42")⟩

theorem keep_up : Pg.up holdB 9 keepMade none ⟨(mindUp false).metaSchema, (1, "42")⟩ = some (keepDb₂, .ok) := rfl

/-- `up` alone. -/
example : ∃ w' out s', Ends keepSetting keepWorld₂ ["w"] (.up "database" none) w' out .success ∧
    w'.servers progProfile.databaseUrl = some s' ∧ keepVals s'.data "public" "t" "id" = some "42" := by
  have hq : ProfileAt keepSetting.env keepWorld₂.fs ["w"] "database" progProfile := mindWorld_profile _ _
  have hd : keepWorld₂.fs.history progProfile.history = keepMade := mindWorld_history _ _ _
  have r := run_up (S := keepSetting) (fuel := 9) hq hq podo_meta_reads none (s := keepServer) rfl
  rw [hd, show keepServer.db progProfile.metadataSchema = _ from keepServer_db] at r
  change _ = (Pg.up holdB 9 keepMade none ⟨(mindUp false).metaSchema, (1, "42")⟩).map _ at r
  rw [keep_up, Option.map_some] at r
  have he : Ends keepSetting keepWorld₂ ["w"] (.up "database" none) _ _ _ := ⟨9, r⟩
  obtain ⟨s', h1, h2⟩ := C98_up_keeps_partial (vals := keepVals) (clean := fun _ => True) holdB_careful hq hq
    podo_meta_reads (s := keepServer) rfl keep_reach (by rw [hd]; exact keepMade_reachable) he
  refine ⟨_, _, s', he, h1, ?_⟩
  rw [h2 "public" "t" "id"]
  · decide
  · have hs : s' = ⟨update keepServer.metas "podo_meta" keepDb₂.metaSchema, keepDb₂.data⟩ := by
      have := update_self keepWorld₂.servers progProfile.databaseUrl
        (some ⟨update keepServer.metas "podo_meta" keepDb₂.metaSchema, keepDb₂.data⟩)
      exact Option.some.inj (h1.symm.trans this)
    subst hs
    intro v hv hno
    have e : (⟨update keepServer.metas "podo_meta" keepDb₂.metaSchema, keepDb₂.data⟩ : Server _).db
        progProfile.metadataSchema = keepDb₂ := by
      unfold Server.db
      dsimp only
      exact congrArg (fun m => (⟨m, keepDb₂.data⟩ : Pg.DB _)) (update_self _ _ _)
    rw [e] at hv
    rw [show keepServer.db progProfile.metadataSchema = _ from keepServer_db] at hno
    change v ∈ [Version.newInit, mindVersion false, keepVersion] at hv
    change v ∉ [Version.newInit, mindVersion false] at hno
    have hv : v = keepVersion := by
      simp only [List.mem_cons, List.not_mem_nil, or_false] at hv hno
      rcases hv with h | h | h
      · exact absurd (.inl h) hno
      · exact absurd (.inr h) hno
      · exact h
    subst hv
    intro c hc
    cases hc with
    | head => exact ⟨trivial, keepAdd_plain, fun h => absurd h.2.2 (by decide)⟩
    | tail _ h => cases h

def keepServer₂ : Server (Nat × String) := ⟨update (fun _ => .absent) "podo_meta" keepDb₂.metaSchema, (2, "42")⟩

def keepWorld₃ : World (Nat × String) := ⟨(mindWorld true keepMade []).fs, fun _ => some keepServer₂⟩

theorem keepServer₂_db : keepServer₂.db "podo_meta" = keepDb₂ := by
  unfold Server.db keepServer₂
  dsimp only
  rw [update_self]
  rfl

/-- And taken back: the second column is gone, what is in the first one is still there. -/
example : ∃ w' out s', Ends keepSetting keepWorld₃ ["w"] (.down "database" none) w' out .success ∧
    w'.servers progProfile.databaseUrl = some s' ∧ keepVals s'.data "public" "t" "id" = some "42" := by
  have hq : ProfileAt keepSetting.env keepWorld₃.fs ["w"] "database" progProfile := mindWorld_profile _ _
  have hreach : Pg.Reach holdB keepDb₂ := .up (fuel := 9) (d := keepMade) (target := none) (o := .ok)
    (keepServer_db ▸ keep_reach) keepMade_reachable.namedAfterVersion keep_up
  have happ : keepDb₂.applied = [Version.newInit, mindVersion false] ++ [keepVersion] := rfl
  have hok : (Pg.down holdB none keepDb₂).2 = .ok :=
    (C36_down_one_succeeds hreach happ (by simp)).2 ⟨(1, "42"), Pg.script_iff.2 rfl, rfl⟩
  obtain ⟨_, hafter⟩ := C36_down_one_partial hreach happ (by simp) (Prod.ext rfl hok)
  have r := run_down (S := keepSetting) (fuel := 0) hq podo_meta_reads none (s := keepServer₂) rfl
  rw [show keepServer₂.db progProfile.metadataSchema = _ from keepServer₂_db] at r
  change _ = some (_, _, pgEnding (Pg.down holdB none keepDb₂).2) at r
  rw [hok] at r
  have he : Ends keepSetting keepWorld₃ ["w"] (.down "database" none) _ _ _ := ⟨0, r⟩
  obtain ⟨s', h1, h2⟩ := C98_down_keeps_partial (vals := keepVals) (clean := fun _ => True) holdB_careful hq
    podo_meta_reads (s := keepServer₂) rfl
    (by rw [show keepServer₂.db progProfile.metadataSchema = _ from keepServer₂_db]; exact hreach)
    (by
      rw [show keepServer₂.db progProfile.metadataSchema = _ from keepServer₂_db, happ]
      intro v hv
      refine ⟨keepMade, keepMade_reachable, ?_⟩
      simp only [List.cons_append, List.nil_append, List.mem_cons, List.not_mem_nil, or_false] at hv
      rcases hv with rfl | rfl | rfl <;> rfl) he
  refine ⟨_, _, s', he, h1, ?_⟩
  rw [h2 "public" "t" "id"]
  · decide
  · have hs : s' = ⟨update keepServer₂.metas "podo_meta" (Pg.down holdB none keepDb₂).1.metaSchema,
        (Pg.down holdB none keepDb₂).1.data⟩ := by
      have := update_self keepWorld₃.servers progProfile.databaseUrl
        (some ⟨update keepServer₂.metas "podo_meta" (Pg.down holdB none keepDb₂).1.metaSchema,
          (Pg.down holdB none keepDb₂).1.data⟩)
      exact Option.some.inj (h1.symm.trans this)
    subst hs
    intro v hv hno
    have e : (⟨update keepServer₂.metas "podo_meta" (Pg.down holdB none keepDb₂).1.metaSchema,
        (Pg.down holdB none keepDb₂).1.data⟩ : Server _).db progProfile.metadataSchema =
        (Pg.down holdB none keepDb₂).1 := by
      unfold Server.db
      dsimp only
      exact congrArg (fun m => (⟨m, (Pg.down holdB none keepDb₂).1.data⟩ : Pg.DB _)) (update_self _ _ _)
    rw [e, hafter] at hno
    rw [show keepServer₂.db progProfile.metadataSchema = _ from keepServer₂_db, happ] at hv
    have hv : v = keepVersion := by
      simp only [List.cons_append, List.nil_append, List.mem_cons, List.not_mem_nil, or_false] at hv hno
      rcases hv with h | h | h
      · exact absurd (.inl h) hno
      · exact absurd (.inr h) hno
      · exact h
    subst hv
    refine ⟨fun _ _ => trivial, ?_⟩
    intro c hc
    cases hc with
    | head => exact ⟨keepAdd_plain, fun h => absurd h.2.2 (by decide)⟩
    | tail _ h => cases h

theorem keepTable_wf {cs : List Column} (h1 : (cs.map Column.name).Nodup)
    (h2 : ∀ c ∈ cs, c.schemaName = "public" ∧ c.tableName = "t") :
    (⟨[("public", ⟨"public", [("t", .table ⟨"public", "t", cs, []⟩)], []⟩)]⟩ : Database).WF := by
  refine ⟨by simp, ?_⟩
  simp only [List.mem_singleton]
  rintro p rfl
  refine ⟨rfl, by simp, ?_, by simp, by simp⟩
  simp only [List.mem_singleton]
  rintro p rfl
  exact ⟨rfl, rfl, ⟨h1, h2, by simp, by simp⟩⟩

theorem keepId_wf : (mindDb false).WF := keepTable_wf (by decide) (by simp)

/-- The diff: adding the column `x` is not about the values in `id`, while another type is. -/
example : ¬ ∃ c ∈ Diff.compareDiff (mindDb false) keepDb, c.Touches "public" "t" "id" := by
  intro h
  exact (C98_diff_touches_iff keepId_wf (keepTable_wf (by decide) (by simp))
    (a := ⟨"public", "t", "id", "int8", false, none⟩) rfl).1 h ⟨"public", "t", "id", "int8", false, none⟩ rfl rfl

def keepWide : Database :=
  ⟨[("public", ⟨"public", [("t", .table ⟨"public", "t", [⟨"public", "t", "id", "text", false, none⟩], []⟩)], []⟩)]⟩

example : ∃ c ∈ Diff.compareDiff (mindDb false) keepWide, c.Touches "public" "t" "id" := by
  refine (C98_diff_touches_iff keepId_wf (keepTable_wf (by decide) (by simp))
    (a := ⟨"public", "t", "id", "int8", false, none⟩) rfl).2 fun b hb => ?_
  have hb : some (Obj.column ⟨"public", "t", "id", "text", false, none⟩) = some (.column b) := hb
  cases hb
  decide

/-- Dropping a constraint of a table in a schema with such a name converts `shop.orders.price`. -/
example : ∃ (c : Change) (ty : String), Pg.Says c.renderSql (.setDataType "shop" "orders" "price" ("int4 -- " ++ ty)) ∧
    ∀ a b d, ¬ c.Touches a b d :=
  C98_quote_false "shop" "orders" "price" "int4 -- " (by unfold plain; decide) (by unfold plain; decide) (by unfold plain; decide)

end Prog
end Podo
