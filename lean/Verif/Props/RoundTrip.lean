import Verif.Proofs.RoundTrip
import Verif.Props.Queries
import Verif.Props.Follow
import Verif.Proofs.Definable
/-
C76: what podo brought into a database is what `clone` reads of it.
-/
namespace Podo
namespace Sys
open Introspect

variable {g : System} {S : List String} {o : Aggs} {cat : Catalog}

/-- C76 (partial).  If the schemas `S` of a database are as a snapshot says, introspection gives that
snapshot, and podo sees no difference.  Missing for the full property: the databases that are not
`Readable`, and the order of columns; the theorems below show that the property is false there. -/
theorem C76_read_back_partial (h : Sound g) (ho : Lawful o) (hr : Readable g S o) (hg : Gives g S o cat)
    {t : Database} (ht : t.WF) (hsh : Shows g S t) :
    ∃ d, introspect cat = .ok d ∧ d.content = t.content ∧
      Diff.compareDiff d t = [] ∧ Diff.compareDiff t d = [] := by
  obtain ⟨d, hd, hs⟩ := C75_reads_partial h ho hr hg
  have hw := introspect_wf hd
  have he := shows_unique hw ht hs hsh
  exact ⟨d, hd, he, (compareDiff_nil hw ht).2 (by rw [he]), (compareDiff_nil ht hw).2 (by rw [he])⟩

open Proj Def in
/-- C76 (partial), with the files: the definition file `clone` writes states that snapshot. -/
theorem C76_clone_back_partial {env : Env} {connect : String → Option Catalog} {fs : Fs} {cwd : Proj.Path}
    {profile : String} {p : Project} {url : String} {ds : Proj.Path}
    (h1 : discover env fs cwd = .ok p) (h2 : p.databaseUrl profile = .ok url)
    (h3 : p.definitionsDir DEFAULT_PROFILE = .ok ds) (h4 : connect url = some cat)
    (hg : Gives g ["public"] o cat) (h : Sound g) (ho : Lawful o) (hr : Readable g ["public"] o)
    (h64 : ∀ r ∈ cat.sequences, r.Int64) (hok : cat.Expressible)
    {t : Database} (ht : t.WF) (hsh : Shows g ["public"] t) :
    ∃ fs' y d, clone env connect fs cwd profile = (fs', .done) ∧
      AMap.get? (fs'.definitions ds) "public.yaml" = some y ∧ loadDoc y = .ok d ∧
      d.content = t.content ∧ Diff.compareDiff t d = [] := by
  obtain ⟨fs', y, d, e1, e2, e3, hs⟩ := C75_clone_partial h1 h2 h3 h4 hg h ho hr h64 hok
  have hw := loadDoc_wf e3
  have he := shows_unique hw ht hs hsh
  exact ⟨fs', y, d, e1, e2, e3, he, (compareDiff_nil ht hw).2 (by rw [he])⟩

/-- C76, which definitions come back: definition files can express what is in the database exactly when
the snapshot that says what is there can be written to a file and read back. -/
theorem C76_expressible_iff (h : Sound g) (ho : Lawful o) (hr : Readable g S o) (hg : Gives g S o cat)
    {t : Database} (ht : t.WF) (hsh : Shows g S t) :
    (cat.Expressible ↔ Def.SnapshotOk t) ∧ ((∀ r ∈ cat.sequences, r.Int64) ↔ Def.SnapshotInt64 t) := by
  obtain ⟨d, hd, he, _⟩ := C76_read_back_partial h ho hr hg ht hsh
  have hw := introspect_wf hd
  rw [← expressible_iff hd, ← int64_iff hd]
  exact ⟨⟨Def.snapshotOk_content he ht, Def.snapshotOk_content he.symm hw⟩,
    Def.snapshotInt64_content he ht, Def.snapshotInt64_content he.symm hw⟩

open Proj Def in
/-- C76, and those are the only ones: of a readable database, the file `clone` wrote loads with the content
of the database if and only if that content can be written to a file and read back. -/
theorem C76_clone_back_iff {env : Env} {connect : String → Option Catalog} {fs fs' : Fs}
    {cwd : Proj.Path} {profile : String} {p : Project} {url : String} {ds : Proj.Path} {y : Def.Yaml}
    (hc : clone env connect fs cwd profile = (fs', .done))
    (h1 : discover env fs cwd = .ok p) (h2 : p.databaseUrl profile = .ok url)
    (h3 : p.definitionsDir DEFAULT_PROFILE = .ok ds) (h4 : connect url = some cat)
    (hy : AMap.get? (fs'.definitions ds) "public.yaml" = some y)
    (hg : Gives g ["public"] o cat) (h : Sound g) (ho : Lawful o) (hr : Readable g ["public"] o)
    {t : Database} (ht : t.WF) (hsh : Shows g ["public"] t) (h64 : SnapshotInt64 t) :
    (∃ d, loadDoc y = .ok d ∧ d.content = t.content) ↔ SnapshotOk t := by
  obtain ⟨a1, a2⟩ := C76_expressible_iff h ho hr hg ht hsh
  obtain ⟨p', url', ds', c', d, y', e1, e2, e3, e4, e5, e6, rfl⟩ := clone_done hc
  rw [h1] at e1; cases e1
  rw [h2] at e2; cases e2
  rw [h3] at e3; cases e3
  rw [h4] at e4; cases e4
  have hyy : y' = y := by simpa [cloned, update, get?_insertEntry] using hy
  subst hyy
  obtain ⟨d₀, hd, he, _⟩ := C76_read_back_partial h ho hr hg ht hsh
  rw [e5] at hd
  cases hd
  have hi := (int64_iff e5).2 (a2.2 h64)
  rw [← a1, ← expressible_iff e5]
  constructor
  · rintro ⟨d', hl, hc'⟩
    exact loads_content (introspect_wf e5) hi e6 hl (hc'.trans he.symm)
  · intro hok
    obtain ⟨y'', b1, b2⟩ := saved_loads (introspect_wf e5) hi hok
    rw [e6] at b1
    cases b1
    exact ⟨d, b2, he⟩

/-- A foreign key of the usual match, which is what definitions state that say nothing about the match:
`clone` reads something else, so that podo sees a difference between the database and the definitions
although there is none. -/
theorem C76_usual_match_false (hg : Gives g S o cat) {t : Database} (ht : t.WF) {s n : String} {u : Table}
    (hu : HasRelation t s n (.table u)) {m : String} {k : ForeignKey}
    (hk : u.constraints.get? m = some (.foreignKey k)) (hm : k.matchOption = "SIMPLE") {d : Database}
    (hd : introspect cat = .ok d) :
    d.content ≠ t.content ∧ Diff.compareDiff d t ≠ [] ∧ Diff.compareDiff t d ≠ [] := by
  have hw := introspect_wf hd
  have key : d.content.keyOnly ≠ t.content.keyOnly := by
    intro he
    obtain ⟨u', hu', e⟩ := keyOnly_table he.symm hu
    have := congrFun (congrArg TableContent.constraints e) m
    unfold Table.content at this
    dsimp only at this
    rw [hk] at this
    exact no_simple hg hd hu' this.symm hm
  exact ⟨fun e => key (by rw [e]), fun e => key ((compareDiff_nil hw ht).1 e),
    fun e => key ((compareDiff_nil ht hw).1 e).symm⟩

/-- The order of columns: a table of two columns or more can be read with another order of columns, as the
query does not ask for one. -/
theorem C76_column_order_false (h : Sound g) (ho : Lawful o) (hr : Readable g S o) {t : Database} (ht : t.WF)
    (hsh : Shows g S t) {s n : String} {u : Table} (hu : HasRelation t s n (.table u))
    (h2 : 2 ≤ u.columns.length) :
    ∃ cat d u', Gives g S o cat ∧ introspect cat = .ok d ∧ HasRelation d s n (.table u') ∧
      u'.columns ≠ u.columns := by
  have hg := gives_rows g S o
  have hg' : Gives g S o { rows g S o with columns := (rows g S o).columns.reverse } :=
    { hg with columns := (List.reverse_perm _).trans hg.columns }
  obtain ⟨d, hd, hs⟩ := C75_reads_partial h ho hr hg
  obtain ⟨d', hd', hs'⟩ := C75_reads_partial h ho hr hg'
  obtain ⟨v, hv⟩ := (hs.tables s n).2 ((hsh.tables s n).1 ⟨u, hu⟩)
  obtain ⟨v', hv'⟩ := (hs'.tables s n).2 ((hsh.tables s n).1 ⟨u, hu⟩)
  have e1 := (represents hd).columns s n v hv
  have e2 := (represents hd').columns s n v' hv'
  have hrev : v'.columns = v.columns.reverse := by
    dsimp only at e2
    rw [List.filter_reverse] at e2
    exact describeColumns_unique e2 (describeColumns_reverse e1)
  by_cases hne : v.columns = u.columns
  · refine ⟨_, d', v', hg', hd', hv', ?_⟩
    rw [hrev, hne]
    exact reverse_ne (nodup_of_map (wf_table ht hu).1.cols_nodup) h2
  · exact ⟨_, d, v, hg, hd, hv, hne⟩

end Sys

namespace Prog
open Proj Diff Sys Introspect Pg

/-- The system tables of the servers tell their schemas, where there is nothing outside of `S`. -/
def Tells {σ : Type} (tables : σ → System) (S : List String) (cat : σ → Content) : Prop :=
  ∀ x d, Database.WF d → (∀ s sc, d.schemas.get? s = some sc → s ∈ S) → cat x = d.content →
    Shows (tables x) S d

/-- C76 (partial), the whole way (see C66).  What was defined, staged, made and applied to a database comes
back when the database is cloned. -/
theorem C76_workflow_partial {S : Setting σ} {w w₁ : World σ} {cwd : Proj.Path} {q : Profile}
    (hq : ProfileAt S.env w.fs cwd "database" q) (hr : Reachable (w.fs.history q.history))
    {t s : Database} (ht : definitions w.fs q.definitions = .ok t)
    (hs : SnapshotOf (w.fs.history q.history) "stage" s)
    (hi : S.Reads q.metadataSchema) {sv : Server σ} (hsv : w.servers q.databaseUrl = some sv)
    (hdb : Pg.Reach S.B (sv.db q.metadataSchema)) {cur : Version}
    (hcur : (sv.db q.metadataSchema).applied.getLast? = some cur)
    (hop : Opens (w.fs.history q.history) cur.name)
    {label : Option String} {n : String} (hn : n = S.now ++ "-" ++ label.getD "auto")
    (hf : FreshName (w.fs.history q.history) n) (hsl : '/' ∉ n.toList) {o₁ : List String}
    (h₁ : Ends S w cwd (.stage "database") w₁ o₁ .success) {st : Version}
    (hst : Stored (w₁.fs.history q.history) "stage" st) (hne : st.changes ≠ []) {y : σ}
    (hup : Pg.Script S.B sv.data st.up y) (hcy : S.B.commits y = true)
    (hrec : Pg.Recordable S.B (sv.db q.metadataSchema) [{ st with name := n }])
    {cat : σ → Content} {free : Change → Content → Prop} (ho : Obedient S.B cat free) {s₀ : Database}
    (hs₀ : SnapshotOf (w.fs.history q.history) cur.name s₀) (hc : cat sv.data = s₀.content)
    (hp : Plain free s₀ st.changes)
    (hix : SameKeyIndexesAgree s.content t.content) (hos : OwnedSequencesUnchanged s.content t.content)
    {tables : σ → System} (htell : Tells tables ["public"] cat)
    (hpub : ∀ s sc, t.schemas.get? s = some sc → s ∈ ["public"]) (hok : Def.SnapshotOk t) :
    ∃ w₂ w₃ o₂ o₃ sv₃, Ends S w₁ cwd (.make "database" label) w₂ o₂ .success ∧
      Ends S w₂ cwd (.up "database" none) w₃ o₃ .success ∧
      w₃.servers q.databaseUrl = some sv₃ ∧
      ∀ connect rows o, connect q.databaseUrl = some rows → Gives (tables sv₃.data) ["public"] o rows →
        Sys.Sound (tables sv₃.data) → Lawful o → Readable (tables sv₃.data) ["public"] o →
        ∃ fs y d, clone S.env connect w₃.fs cwd "database" = (fs, .done) ∧
          AMap.get? (fs.definitions q.definitions) "public.yaml" = some y ∧ Def.loadDoc y = .ok d ∧
          d.content = t.content ∧ compareDiff t d = [] := by
  obtain ⟨w₂, w₃, o₂, o₃, sv₃, h2, h3, h4, h5⟩ := C66_workflow_partial hq hr ht hs hi hsv hdb hcur hop hn hf
    hsl h₁ hst hne hup hcy hrec ho hs₀ hc hp
  refine ⟨w₂, w₃, o₂, o₃, sv₃, h2, h3, h4, ?_⟩
  intro connect rows o hcon hg hsound hlaw hread
  have htwf : t.WF := definitions_wf ht
  have hshow := htell _ t htwf hpub (h5.2 ⟨hix, hos⟩)
  obtain ⟨a1, a2⟩ := C76_expressible_iff hsound hlaw hread hg htwf hshow
  have hcfg : w₃.fs.config = w.fs.config := by
    rw [(C64_only_the_profile h3 (by simp)).1, (C64_only_the_profile h2 (by simp)).1,
      (C64_only_the_profile h₁ (by simp)).1]
  obtain ⟨p, hp1, hp2⟩ := hq
  have hd : discover S.env w₃.fs cwd = .ok p := by
    unfold discover at hp1 ⊢
    rw [hcfg]; exact hp1
  exact C76_clone_back_partial hd (by unfold Project.databaseUrl; rw [hp2])
    (by unfold Project.definitionsDir DEFAULT_PROFILE; rw [hp2]) hcon hg hsound hlaw hread
    (a2.2 (Def.snapshot_int64 (definitions_snapshot.1 ht))) (a1.2 hok) htwf hshow

/-- The system tables of the servers of the example. -/
def exTables (b : Bool) : System where
  namespaces := [{ oid := 11, nspname := "pg_catalog" }, { oid := 2200, nspname := "public" }]
  classes := if b then [{ oid := 100, relname := "t", relnamespace := 2200, relkind := .table }] else []
  types := [{ oid := 20, typname := "int8", typnamespace := 11, typlen := 8 }]
  attributes := if b then [{ attrelid := 100, attnum := 1, attname := "id", atttypid := 20 }] else []
  attrdefs := []
  constraints := []
  indexes := []
  ams := []
  sequences := []
  depends := []
  procs := []
  langs := []
  typmodout := fun _ _ => ""

theorem exTables_sound (b : Bool) : Sys.Sound (exTables b) where
  ns_oid := by cases b <;> decide +kernel
  ns_name := by cases b <;> decide +kernel
  class_oid := by cases b <;> decide +kernel
  class_name := by cases b <;> decide +kernel
  class_ns := by cases b <;> decide +kernel
  type_oid := by cases b <;> decide +kernel
  type_zero := by cases b <;> decide +kernel
  type_ns := by cases b <;> decide +kernel
  type_elem := by cases b <;> decide +kernel
  attr_num := by cases b <;> decide +kernel
  attr_name := by cases b <;> decide +kernel
  attr_class := by cases b <;> decide +kernel
  attr_type := by cases b <;> decide +kernel
  attr_zero := by cases b <;> decide +kernel
  attrdef := by cases b <;> decide +kernel
  attrdef_text := by cases b <;> decide +kernel
  con_oid := by cases b <;> decide +kernel
  con_name := by cases b <;> decide +kernel
  con_class := by intro _ h; cases h
  con_zero := by intro _ h; cases h
  con_key := by intro _ h; cases h
  con_check := by intro _ h; cases h
  fk_class := by intro _ h; cases h
  fk_key := by intro _ h; cases h
  fk_index := by intro _ h; cases h
  fk_table := by intro _ h; cases h
  key_index := by intro _ h; cases h
  fk_columns := by intro _ h; cases h
  index_oid := by cases b <;> decide +kernel
  index_class := by intro _ h; cases h
  index_table := by intro _ h; cases h
  index_key := by intro _ h; cases h
  index_exprs := by intro _ h; cases h
  am_oid := by cases b <;> decide +kernel
  seq_oid := by cases b <;> decide +kernel
  seq_class := by intro _ h; cases h
  seq_type := by intro _ h; cases h
  lang_oid := by cases b <;> decide +kernel
  proc_ns := by intro _ h; cases h
  proc_lang := by intro _ h; cases h

theorem exTables_readable (b : Bool) : Readable (exTables b) ["public"] inOrder where
  temp := by cases b <;> decide
  owned := by cases b <;> (unfold System.In; decide)
  kinds := by cases b <;> (unfold System.In; decide)
  checks := by intro _ h; cases h
  columns := by cases b <;> (unfold System.In; decide)
  keys := fun _ _ _ _ _ _ => .inr fun _ => rfl
  fk_key := by intro _ h; cases h
  fk := by intro _ h; cases h
  indexes := by intro _ h; cases h
  owners := by intro _ h; cases h
  functions := by intro _ h; cases h
  function_names := by cases b <;> decide

theorem exTables_tells : Tells exTables ["public"] fun x => (exDb x).content := by
  intro x d hd _ he
  obtain ⟨d', h1, h2⟩ := C75_reads_partial (exTables_sound x) inOrder_lawful (exTables_readable x)
    (gives_rows _ _ _)
  have : introspect (rows (exTables x) ["public"] inOrder) = .ok (exDb x) := by
    cases x <;> rfl
  rw [this] at h1
  cases h1
  exact shows_content (exDb_wf x) hd h2 he

theorem exAgree : SameKeyIndexesAgree (exDb false).content (exDb true).content ∧
    OwnedSequencesUnchanged (exDb false).content (exDb true).content := by
  have e : ∀ n, (exDb true).content n = if "public" = n then some (Schema.content ⟨"public",
        [("t", .table ⟨"public", "t", [⟨"public", "t", "id", "int8", false, none⟩], []⟩)], []⟩)
        else none := by
    intro n
    show Option.map Schema.content (if "public" = n then _ else none) = _
    split <;> rfl
  constructor
  · rintro n r p q _ h7 _
    exfalso
    obtain ⟨sc, h7, h8⟩ := h7
    rw [e] at h7
    split at h7
    · cases h7
      simp only [Schema.content, AMap.get?] at h8
      split at h8 <;> cases h8
    · cases h7
  · rintro n r q ⟨sc, h6, h7⟩ _
    exfalso
    rw [e] at h6
    split at h6
    · cases h6
      simp only [Schema.content, AMap.get?] at h7
      split at h7 <;> cases h7
    · cases h6

/-- C76 applies the whole way: defined, staged, made, applied and cloned. -/
example : ∃ w₁ o₁ w₂ o₂ w₃ o₃ sv₃, Ends exSetting exWorld ["w"] (.stage "database") w₁ o₁ .success ∧
    Ends exSetting w₁ ["w"] (.make "database" none) w₂ o₂ .success ∧
    Ends exSetting w₂ ["w"] (.up "database" none) w₃ o₃ .success ∧
    w₃.servers progProfile.databaseUrl = some sv₃ ∧
    ∃ fs y d, clone exSetting.env (fun _ => some (rows (exTables sv₃.data) ["public"] inOrder)) w₃.fs ["w"]
        "database" = (fs, .done) ∧
      AMap.get? (fs.definitions progProfile.definitions) "public.yaml" = some y ∧ Def.loadDoc y = .ok d ∧
      d.content = (exDb true).content := by
  obtain ⟨w₁, o₁, h1, hd⟩ := exWorld_staged
  have hq : ProfileAt exSetting.env exWorld.fs ["w"] "database" progProfile := progFs_profile _ _
  have hrec : Pg.Recordable exSetting.B ((⟨fun _ => .absent, false⟩ : Server Bool).db "podo_meta")
      [{ exStage with name := "20200202_000000-auto" }] := by
    refine ⟨?_, fun _ _ => rfl, by decide, fun t h => by (cases h), fun _ => ⟨rfl, rfl, by decide⟩,
      fun h => by (cases h)⟩
    intro v hv
    simp only [List.mem_singleton] at hv
    subst hv
    refine ⟨by decide, ?_⟩
    intro p hp
    cases hp
    decide
  obtain ⟨w₂, w₃, o₂, o₃, sv₃, h2, h3, h4, h5⟩ :=
    C76_workflow_partial (S := exSetting) (w := exWorld) (w₁ := w₁) hq (hi := podo_meta_reads) (hr := .init)
      (t := exDb true) (s := exDb false) exWorld_defs ⟨9, rfl⟩
      (sv := ⟨fun _ => .absent, false⟩) rfl (.new false) (cur := Version.newInit) rfl ⟨9, _, rfl⟩
      (label := none) (n := "20200202_000000-auto") rfl ⟨rfl, noYaml (by decide)⟩ (by decide) h1
      (st := exStage) (by rw [hd]; rfl) (by simp [exStage])
      (y := true) (Pg.script_iff.2 rfl) rfl hrec exB_obedient (s₀ := exDb false) ⟨9, rfl⟩ rfl (exPlain false)
      exAgree.1 exAgree.2 exTables_tells (by
        intro s sc h
        have h : (if "public" = s then _ else none) = some sc := h
        split at h
        · next e => rw [← e]; simp
        · cases h) (by decide +kernel)
  refine ⟨w₁, o₁, w₂, o₂, w₃, o₃, sv₃, h1, h2, h3, h4, ?_⟩
  obtain ⟨fs, y, d, e1, e2, e3, e4, _⟩ := h5 (fun _ => some (rows (exTables sv₃.data) ["public"] inOrder)) _ inOrder rfl
    (gives_rows _ _ _) (exTables_sound _)
    inOrder_lawful (exTables_readable _)
  exact ⟨fs, y, d, e1, e2, e3, e4⟩

end Prog

namespace Sys
open Introspect

/-- What is read of the database of the examples is a snapshot to which C76 applies: it is read back, and
its columns can come in another order. -/
example : ∃ t, t.WF ∧ Shows demoSystem ["public"] t ∧
    ∃ u, HasRelation t "public" "users" (.table u) ∧ 2 ≤ u.columns.length := by
  obtain ⟨d, h1, h2⟩ := C75_reads_partial demoSystem_sound inOrder_lawful demoSystem_readable
    (gives_rows _ _ _)
  obtain ⟨u, hu⟩ := (h2.tables "public" "users").2 ⟨by decide, demoSystem.classes[0],
    ⟨List.getElem_mem _, rfl, { oid := 2200, nspname := "public" }, by decide, rfl, rfl⟩, .inl rfl⟩
  refine ⟨d, introspect_wf h1, h2, u, hu, ?_⟩
  have := describeColumns_length ((represents h1).columns _ _ _ hu)
  rw [← this]
  decide +kernel

/-- C76 applies to the database `oddSystem` and a snapshot with a foreign key of the usual match. -/
example : ∃ t : Database, t.WF ∧ ∃ u k, HasRelation t "public" "links" (.table u) ∧
    u.constraints.get? "usual" = some (.foreignKey k) ∧ k.matchOption = "SIMPLE" ∧
    ∃ d, introspect (rows oddSystem ["public"] inOrder) = .ok d ∧ d.content ≠ t.content := by
  let k : ForeignKey := {
    schemaName := "public", tableName := "links", name := "usual", columns := ["user"],
    targetSchema := "public", targetTable := "users", targetColumns := ["id"], matchOption := "SIMPLE",
    updateRule := "NO ACTION", deleteRule := "NO ACTION", deferrable := false, initiallyDeferred := false }
  let u : Table := ⟨"public", "links", [], [("usual", .foreignKey k)]⟩
  let t : Database := ⟨[("public", ⟨"public", [("links", .table u)], []⟩)]⟩
  have hw : t.WF := by
    refine ⟨by decide, ?_⟩
    intro p hp
    cases List.mem_singleton.1 hp
    refine ⟨rfl, by decide, ?_, by decide, (by intro _ h; cases h)⟩
    intro q hq
    cases List.mem_singleton.1 hq
    refine ⟨rfl, rfl, by decide, (by intro _ h; cases h), by decide, ?_⟩
    intro r hr
    cases List.mem_singleton.1 hr
    exact ⟨rfl, rfl, rfl⟩
  have hu : HasRelation t "public" "links" (.table u) := ⟨_, rfl, rfl⟩
  obtain ⟨d, hd⟩ : ∃ d, introspect (rows oddSystem ["public"] inOrder) = .ok d := ⟨_, rfl⟩
  exact ⟨t, hw, u, k, hu, rfl, rfl, d, hd,
    (C76_usual_match_false (gives_rows _ _ _) hw hu (m := "usual") (k := k) rfl rfl hd).1⟩

end Sys
end Podo
