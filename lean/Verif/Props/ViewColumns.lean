import Verif.Spec.ViewColumns
import Verif.Props.Views
import Verif.Proofs.Errors
/-
C107: views that do not change, and the columns they read.
-/
namespace Podo
open Pg Change Diff
variable {σ : Type} {B : Behaviour σ} {view : σ → String → String → Option (List (String × String × String))}
  {clean : String → Prop}

/-- A column whose type changes is altered. -/
theorem setDataType_mem {s t : Database} (hs : s.WF) (ht : t.WF) {n r k : String} {a b : Column}
    (ha : s.content.objAt (.column n r k) = some (.column a)) (hb : t.content.objAt (.column n r k) = some (.column b))
    (hne : a.dataType ≠ b.dataType) : .setDataType n r k b.dataType ∈ compareDiff s t := by
  have at_ : ∀ {d : Database}, d.WF → ∀ {c : Column}, d.content.objAt (.column n r k) = some (.column c) →
      ∃ sc x, d.schemas.get? n = some sc ∧ sc.relations.get? r = some (.table x) ∧ columnNamed x.columns k = some c ∧
        x.WF ∧ x.schemaName = n ∧ x.name = r := by
    intro d hd c h
    simp only [Content.objAt, Option.map_eq_some_iff, Option.bind_eq_some_iff] at h
    obtain ⟨c', ⟨tb, h1, h2⟩, h3⟩ := h
    cases h3
    obtain ⟨sc, x, hsc, hx⟩ := tableAt_model h1
    have e := tableAt_table hsc hx
    rw [h1] at e
    cases e
    have hm := hd.home _ (AMap.mem_of_get? hsc)
    have hr := hm.2.rels_home _ (AMap.mem_of_get? hx)
    exact ⟨sc, x, hsc, hx, h2, hr.2.2, hr.2.1.trans hm.1, hr.1⟩
  obtain ⟨sa, x, h1, h2, h3, _, _, _⟩ := at_ hs ha
  obtain ⟨sb, y, g1, g2, g3, gw, gn, gr⟩ := at_ ht hb
  obtain ⟨p, q, e, _, _⟩ := diff_around hs ht h1 h2 g1 g2
  have hbm : b ∈ y.columns ∧ b.name = k := by
    have : y.columns.find? (·.name == k) = some b := g3
    exact ⟨List.mem_of_find?_eq_some this, by simpa using List.find?_some this⟩
  have hbh := gw.cols_home b hbm.1
  rw [e]
  refine List.mem_append_left _ (List.mem_append_right _ ?_)
  rw [tableUpdate_eq, colsPart]
  refine List.mem_append_left _ (List.mem_append_left _ (List.mem_flatMap.2 ⟨b, hbm.1, ?_⟩))
  rw [hbm.2, findCol_eq_columnNamed, h3]
  simp [columnUpdate, hne, newSetDataType, hbh.1, hbh.2, gn, gr, hbm.2]

/-- C107 (partial): a view whose definition does not change stays, and reads what it read, at every point of the
script.  Missing: that the columns it reads can be changed, see `C107_type_false`. -/
theorem C107_view_left_alone_partial (hV : ViewsHold B view clean) {s t : Database} (hs : s.WF) (ht : t.WF)
    (hclean : ∀ c ∈ compareDiff s t, clean c.renderSql ∧ ∀ z ∈ c.quotedNames, plain z)
    {n v : String} (hsame : s.content.objAt (.relation n v) = t.content.objAt (.relation n v))
    {pre post : List Change} (he : compareDiff s t = pre ++ post)
    {y z : σ} (h : Script B y (pre.map Change.renderSql) z) {cols : List (String × String × String)}
    (hy : view y n v = some cols) : view z n v = some cols := by
  have hin : ∀ c ∈ pre, c ∈ compareDiff s t := fun c hc => by rw [he]; exact List.mem_append_left _ hc
  clear he
  induction pre generalizing y with
  | nil => cases h; exact hy
  | cons c cs ih =>
    cases h with
    | @cons _ _ y₁ _ _ hq h =>
      refine ih h ?_ fun c hc => hin c (List.mem_cons_of_mem _ hc)
      have hm := hin c List.mem_cons_self
      have hn := C06_every_change_needed hs ht hm
      apply Classical.byContradiction
      intro hne
      obtain ⟨k, hk, rfl | ⟨d, rfl⟩ | ⟨s', r, a, b, rfl⟩⟩ := hV.goes _ _ _ _ _ _ (hclean c hm).1 hq hy hne
      · obtain rfl := says_dropsView (hclean c hm).2 hk
        exact hn.2 hsame
      · obtain ⟨d, rfl⟩ := says_createsView (hclean c hm).2 hk
        exact hn.2 hsame
      · obtain ⟨b, rfl⟩ := says_renames (hclean c hm).2 hk
        exact hn

/-- C107 is false wherever the type of a column changes that a view reads, and the view does not change: wherever the
changes are carried out, and in whatever order the snapshots list their objects, the script cannot be run to its end. -/
theorem C107_type_false (hV : ViewsHold B view clean) {s t : Database} (hs : s.WF) (ht : t.WF)
    (hclean : ∀ c ∈ compareDiff s t, clean c.renderSql ∧ ∀ z ∈ c.quotedNames, plain z)
    {n r k : String} {a b : Column} (ha : s.content.objAt (.column n r k) = some (.column a))
    (hb : t.content.objAt (.column n r k) = some (.column b)) (hne : a.dataType ≠ b.dataType)
    {m v : String} (hsame : s.content.objAt (.relation m v) = t.content.objAt (.relation m v))
    {y : σ} {cols : List (String × String × String)} (hy : view y m v = some cols) (hk : (n, r, k) ∈ cols) :
    ¬ ∃ z, Script B y ((compareDiff s t).map Change.renderSql) z := by
  rintro ⟨z, h⟩
  have hm := setDataType_mem hs ht ha hb hne
  obtain ⟨pre, post, e⟩ := List.append_of_mem hm
  have h' := h
  rw [e, List.map_append] at h'
  obtain ⟨y₁, h1, h2⟩ := script_append.1 h'
  have hv := C107_view_left_alone_partial hV hs ht hclean hsame e h1 hy
  cases h2 with
  | @cons _ _ _ _ _ h2 _ =>
    rw [hV.held _ _ _ _ _ _ _ _ _ ((C56_sql_says_change_partial _ (hclean _ hm).2 (by intros; contradiction)
      (by intros; contradiction)).2 trivial) hv hk] at h2
    cases h2

/-- For `podo up`: where it succeeds, the first version it has applied changes the type of no column that an unchanged view
of the database reads. -/
theorem C107_up_false (hV : ViewsHold B view clean) {db db' : DB σ} (hR : Pg.Reach B db) {d : HDir}
    (hd : Reachable d) {fuel : Nat} {target : Option String} (h : Pg.up B fuel d target db = some (db', .ok))
    {ver : Version} {vs : List Version} (hver : db'.applied = db.applied ++ ver :: vs)
    {s t : Database} (hs : s.WF) (ht : t.WF) (hch : ver.changes = compareDiff s t)
    (hclean : ∀ c ∈ compareDiff s t, clean c.renderSql ∧ ∀ z ∈ c.quotedNames, plain z)
    {n r k : String} {a b : Column} (ha : s.content.objAt (.column n r k) = some (.column a))
    (hb : t.content.objAt (.column n r k) = some (.column b)) (hne : a.dataType ≠ b.dataType)
    {m v : String} (hsame : s.content.objAt (.relation m v) = t.content.objAt (.relation m v)) :
    ∀ cols, view db.data m v = some cols → (n, r, k) ∉ cols := by
  intro cols hy hk
  obtain ⟨_, _, ws, _, _, _, _, h5, h6, h7, _⟩ := C31_up_applies_missing_partial hR hd.namedAfterVersion h
  rw [hver] at h7
  obtain rfl := List.append_cancel_left h7
  rw [List.flatMap_cons] at h6
  obtain ⟨y, h6, _⟩ := script_append.1 h6
  rw [(C28_scripts_aligned hd (h5 ver List.mem_cons_self)).1, hch] at h6
  exact C107_type_false hV hs ht hclean ha hb hne hsame hy hk ⟨y, h6⟩

/-! ### A column that a view reads -/

def vcTable : Change := .createTable "public" "t" [⟨"id", "int4", false, none⟩]
def vcView : Change := .createView "public" "v" "SELECT id FROM t"
def vcType : Change := .setDataType "public" "t" "id" "int8"
def vcOther : Change := .dropTable "public" "o"

/-- A server that knows four statements.  Its state says what there is: 2 nothing, 0 the table, 1 the table and the view;
it drops another table at any time. -/
def vcB : Pg.Behaviour Nat :=
  ⟨fun x q => if q = vcOther.renderSql then some x
    else if x = 2 ∧ q = vcTable.renderSql then some 0
    else if x = 0 ∧ q = vcView.renderSql then some 1
    else if x = 0 ∧ q = vcType.renderSql then some 0
    else none,
   fun _ => true, fun _ => true, fun _ => true⟩

def vcOver (x : Nat) (s v : String) : Option (List (String × String × String)) :=
  if x = 1 ∧ s = "public" ∧ v = "v" then some [("public", "t", "id")] else none

theorem vc_exec {x x' : Nat} {q : String} (h : vcB.exec x q = some x') :
    (q = vcOther.renderSql ∧ x' = x) ∨ x = 2 ∨ x = 0 := by
  simp only [vcB] at h
  split at h
  · next e => cases h; exact .inl ⟨e, rfl⟩
  · split at h
    · next e => exact .inr (.inl e.1)
    · split at h
      · next e => exact .inr (.inr e.1)
      · split at h
        · next e => exact .inr (.inr e.1)
        · cases h

theorem vc_plain : ∀ c ∈ [vcTable, vcView, vcType, vcOther], ∀ z ∈ c.quotedNames, plain z := by
  unfold plain
  decide

theorem vcOver_some {x : Nat} {s v : String} {cols : List (String × String × String)} (h : vcOver x s v = some cols) :
    x = 1 ∧ s = "public" ∧ v = "v" ∧ cols = [("public", "t", "id")] := by
  simp only [vcOver] at h
  split at h
  · next e => injection h with h; exact ⟨e.1, e.2.1, e.2.2, h.symm⟩
  · cases h

theorem vcB_holds : ViewsHold vcB vcOver (fun _ => True) := by
  constructor
  · intro q x s r k ty s' v cols hq hv _
    obtain ⟨rfl, rfl, rfl, rfl⟩ := vcOver_some hv
    cases he : vcB.exec 1 q with
    | none => rfl
    | some x' =>
      exfalso
      rcases vc_exec he with ⟨rfl, _⟩ | h | h
      · obtain ⟨st, e, hd, _, hq⟩ := says_text hq
        cases hd
        rw [text_setDataType] at hq
        replace hq := congrArg (List.take 1) hq
        simp [vcOther, render_dropTable] at hq
      · cases h
      · cases h
  · intro q x x' s v cols _ he hv hne
    obtain ⟨rfl, rfl, rfl, rfl⟩ := vcOver_some hv
    rcases vc_exec he with ⟨_, rfl⟩ | h | h
    · exact absurd rfl hne
    · cases h
    · cases h

/-- The table, with one type or another, the view, and perhaps another table. -/
def vcDb (ty : String) (o : Bool) : Database :=
  ⟨[("public", ⟨"public", [("t", .table ⟨"public", "t", [⟨"public", "t", "id", ty, false, none⟩], []⟩),
      ("v", .view ⟨"public", "v", "SELECT id FROM t"⟩)] ++
      (if o then [("o", .table ⟨"public", "o", [], []⟩)] else []), []⟩)]⟩

theorem vcDb_wf (ty : String) (o : Bool) : (vcDb ty o).WF := by
  cases o <;>
  · refine ⟨by simp [vcDb, AMap.NodupKeys, AMap.keys], ?_⟩
    intro p hp
    cases List.mem_singleton.1 hp
    refine ⟨rfl, by simp [AMap.NodupKeys, AMap.keys], ?_, by simp [AMap.NodupKeys, AMap.keys], by simp⟩
    intro p hp
    simp only [Bool.false_eq_true, if_true, if_false, List.mem_cons, List.mem_append, List.not_mem_nil, or_false] at hp
    rcases hp with (rfl | rfl) | rfl <;>
    first
      | exact ⟨rfl, rfl, trivial⟩
      | exact ⟨rfl, rfl, by simp, by simp, by simp [AMap.NodupKeys, AMap.keys], by simp⟩

theorem vc_clean (o : Bool) : ∀ c ∈ compareDiff (vcDb "int4" o) (vcDb "int8" false), True ∧
    ∀ z ∈ c.quotedNames, plain z := by
  intro c hc
  refine ⟨trivial, vc_plain c ?_⟩
  cases o with
  | true =>
    change c ∈ [vcType, vcOther] at hc
    simp only [List.mem_cons] at hc ⊢
    rcases hc with h | h | h <;> simp_all
  | false =>
    change c ∈ [vcType] at hc
    simp only [List.mem_cons] at hc ⊢
    rcases hc with h | h <;> simp_all

theorem vc_clean_other : ∀ c ∈ compareDiff (vcDb "int8" true) (vcDb "int8" false), True ∧
    ∀ z ∈ c.quotedNames, plain z := by
  intro c hc
  refine ⟨trivial, vc_plain c ?_⟩
  change c ∈ [vcOther] at hc
  simp only [List.mem_cons] at hc ⊢
  rcases hc with h | h <;> simp_all

/-- podo takes the change for a good one; the server can carry it out only without the view. -/
example : applyAll (compareDiff (vcDb "int4" true) (vcDb "int8" false)) (vcDb "int4" true) = .ok (vcDb "int8" false) ∧
    (¬ ∃ y, Script vcB 1 ((compareDiff (vcDb "int4" true) (vcDb "int8" false)).map Change.renderSql) y) ∧
    Script vcB 0 ((compareDiff (vcDb "int4" true) (vcDb "int8" false)).map Change.renderSql) 0 :=
  ⟨rfl, C107_type_false vcB_holds (vcDb_wf _ _) (vcDb_wf _ _) (vc_clean true) (n := "public") (r := "t") (k := "id")
    (a := ⟨"public", "t", "id", "int4", false, none⟩) (b := ⟨"public", "t", "id", "int8", false, none⟩) rfl rfl
    (by decide) (m := "public") (v := "v") rfl rfl (by simp), script_iff.2 rfl⟩

/-- Where another table is dropped, the view stays. -/
example : Script vcB 1 ([vcOther].map Change.renderSql) 1 ∧ vcOver 1 "public" "v" = some [("public", "t", "id")] := by
  have h : Script vcB 1 ([vcOther].map Change.renderSql) 1 := script_iff.2 rfl
  exact ⟨h, C107_view_left_alone_partial vcB_holds (vcDb_wf _ _) (vcDb_wf _ _) vc_clean_other (n := "public") (v := "v")
    rfl (pre := [vcOther]) (post := []) rfl h rfl⟩

/-- The versions with the table and the view, and with another type. -/
def vcFirst : Version :=
  ⟨"20201025_021000-auto", some "init", [vcTable, vcView], [vcTable.renderSql, vcView.renderSql],
    [vwDropView.renderSql, vwDropTable.renderSql]⟩
def vcSecond : Version :=
  ⟨"20210101_000000-auto", some "20201025_021000-auto", [vcType], [vcType.renderSql],
    [(Change.setDataType "public" "t" "id" "int4").renderSql]⟩

def vcMade : HDir :=
  [("init.yaml", .file (some Version.newInit)), ("stage.yaml", .file (some (Version.newStage "20201025_021000-auto"))),
    ("20201025_021000-auto.yaml", .file (some vcFirst))]

def vcMade₂ : HDir :=
  [("init.yaml", .file (some Version.newInit)), ("stage.yaml", .file (some (Version.newStage "20210101_000000-auto"))),
    ("20201025_021000-auto.yaml", .file (some vcFirst)), ("20210101_000000-auto.yaml", .file (some vcSecond))]

theorem vcMade_reachable : Reachable vcMade :=
  .step (d := [("init.yaml", .file (some Version.newInit)), ("stage.yaml", .file (some { vcFirst with name := "stage" }))])
    (fuel := 9) (c := .make "20201025_021000" none) (ok := true)
    (.step (d := initDir) (fuel := 9) (c := .stage (.ok (vcDb "int4" false))) (ok := true) .init
      (by intro _ _ h; cases h) rfl)
    (by intro a b h; cases h; exact ⟨by decide +kernel, noYaml (by decide +kernel)⟩) (by decide +kernel)

theorem vcMade₂_reachable : Reachable vcMade₂ :=
  .step (d := [("init.yaml", .file (some Version.newInit)), ("stage.yaml", .file (some { vcSecond with name := "stage" })),
      ("20201025_021000-auto.yaml", .file (some vcFirst))])
    (fuel := 9) (c := .make "20210101_000000" none) (ok := true)
    (.step (d := vcMade) (fuel := 9) (c := .stage (.ok (vcDb "int8" false))) (ok := true) vcMade_reachable
      (by intro _ _ h; cases h) rfl)
    (by intro a b h; cases h; exact ⟨by decide +kernel, noYaml (by decide +kernel)⟩) (by decide +kernel)

/-- The database on the first version, with its view (1) or where someone has dropped the view by hand (0); and on the
second. -/
def vcOn (x : Nat) : Pg.DB Nat := ⟨.table ⟨[⟨Version.newInit, 1⟩, ⟨vcFirst, 2⟩], 3⟩, x⟩
def vcOn₂ : Pg.DB Nat := ⟨.table ⟨[⟨Version.newInit, 1⟩, ⟨vcFirst, 2⟩, ⟨vcSecond, 3⟩], 4⟩, 0⟩

theorem vc_reach : Pg.Reach vcB (vcOn 1) :=
  .up (fuel := 9) (d := vcMade) (target := none) (o := .ok) (.new 2) vcMade_reachable.namedAfterVersion rfl

/-- With the view there, `podo up` fails. -/
example : ∃ db' o, Pg.up vcB 9 vcMade₂ none (vcOn 1) = some (db', o) ∧ o ≠ .ok := by
  have h : Pg.up vcB 9 vcMade₂ none (vcOn 1) = some _ := rfl
  exact ⟨_, _, h, by intro e; cases e⟩

/-- Without it, `podo up` succeeds, and the theorem says that no view read the column. -/
example : ∀ cols, vcOver 0 "public" "v" = some cols → ("public", "t", "id") ∉ cols :=
  C107_up_false vcB_holds (db := vcOn 0) (.elsewhere 0 vc_reach) vcMade₂_reachable (fuel := 9) (target := none)
    (db' := vcOn₂) rfl (ver := vcSecond) (vs := []) rfl (vcDb_wf "int4" false) (vcDb_wf "int8" false) rfl (vc_clean false)
    (n := "public") (r := "t") (k := "id") (a := ⟨"public", "t", "id", "int4", false, none⟩)
    (b := ⟨"public", "t", "id", "int8", false, none⟩) rfl rfl (by decide) (m := "public") (v := "v") rfl
end Podo
