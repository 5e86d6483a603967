import Verif.Proofs.Views
import Verif.Props.TableIndex
/-
C106: tables, and views that read them.
-/
namespace Podo
open Pg Change Diff
variable {σ : Type} {B : Behaviour σ} {view : σ → String → String → Option (List (String × String))}
  {table : σ → String → String → Prop} {reads : String → String → String → Prop} {clean : String → Prop}

theorem drop_table_view {s : Database} (hs : s.WF) {n r v : String} {a : Schema} (ha : s.schemas.get? n = some a)
    {x : Table} {w : View} (hr : (r, .table x) ∈ a.relations) (hv : (v, .view w) ∈ a.relations) :
    relationDrop (.table x) = [.dropTable n r] ∧ relationDrop (.view w) = [.dropView n v] := by
  have hma := hs.home _ (AMap.mem_of_get? ha)
  have h1 := hma.2.rels_home _ hr
  have h2 := hma.2.rels_home _ hv
  have e1 : x.schemaName = n := h1.2.1.trans hma.1
  have e2 : x.name = r := h1.1
  have e3 : w.schemaName = n := h2.2.1.trans hma.1
  have e4 : w.name = v := h2.1
  exact ⟨by simp only [relationDrop, tableDrop, newDropTable, e1, e2],
    by simp only [relationDrop, viewDrop, newDropView, e3, e4]⟩

theorem create_table_view {s : Database} (hs : s.WF) {n r v : String} {a : Schema} (ha : s.schemas.get? n = some a)
    {x : Table} {w : View} (hr : (r, .table x) ∈ a.relations) (hv : (v, .view w) ∈ a.relations) :
    (∃ cols, relationCreate (.table x) = .createTable n r cols :: x.constraints.values.flatMap constraintCreate) ∧
      relationCreate (.view w) = [.createView n v w.query] := by
  have hma := hs.home _ (AMap.mem_of_get? ha)
  have h1 := hma.2.rels_home _ hr
  have h2 := hma.2.rels_home _ hv
  have e1 : x.schemaName = n := h1.2.1.trans hma.1
  have e2 : x.name = r := h1.1
  have e3 : w.schemaName = n := h2.2.1.trans hma.1
  have e4 : w.name = v := h2.1
  exact ⟨⟨x.columns.map fun c => ⟨c.name, c.dataType, c.notNull, c.default⟩,
      by simp only [relationCreate, tableCreate, newCreateTable, e1, e2]⟩,
    by simp only [relationCreate, viewCreate, newCreateView, e3, e4]⟩

theorem view_stays (hV : ViewsRead B view table reads clean) {n v : String} {cs : List Change}
    (hc : ∀ c ∈ cs, clean c.renderSql ∧ (∀ z ∈ c.quotedNames, plain z) ∧ Path.relation n v ∉ c.targets)
    {x x' : σ} (h : Script B x (cs.map Change.renderSql) x') {rs : List (String × String)} (hx : view x n v = some rs) :
    view x' n v = some rs := by
  induction cs generalizing x with
  | nil => cases h; exact hx
  | cons c cs ih =>
    cases h with
    | @cons _ _ y _ _ he hs =>
      refine ih (fun c hm => hc c (List.mem_cons_of_mem _ hm)) hs ?_
      obtain ⟨h1, h2, h3⟩ := hc c List.mem_cons_self
      apply Classical.byContradiction
      intro hne
      obtain ⟨k, hk, rfl | ⟨d, rfl⟩⟩ := hV.goes _ _ _ _ _ _ h1 he hx hne
      · obtain rfl := says_dropsView h2 hk
        exact h3 (List.mem_singleton.2 rfl)
      · obtain ⟨d, rfl⟩ := says_createsView h2 hk
        exact h3 (List.mem_singleton.2 rfl)

theorem view_stays_away (hV : ViewsRead B view table reads clean) {n v : String} {cs : List Change}
    (hc : ∀ c ∈ cs, clean c.renderSql ∧ (∀ z ∈ c.quotedNames, plain z) ∧ ∀ d, c ≠ .createView n v d)
    {x x' : σ} (h : Script B x (cs.map Change.renderSql) x') (hx : view x n v = none) : view x' n v = none := by
  induction cs generalizing x with
  | nil => cases h; exact hx
  | cons c cs ih =>
    cases h with
    | @cons _ _ y _ _ he hs =>
      refine ih (fun c hm => hc c (List.mem_cons_of_mem _ hm)) hs ?_
      obtain ⟨h1, h2, h3⟩ := hc c List.mem_cons_self
      apply Classical.byContradiction
      intro hne
      obtain ⟨k, hk, d, rfl⟩ := hV.comes _ _ _ _ _ h1 he hx hne
      obtain ⟨d, rfl⟩ := says_createsView h2 hk
      exact h3 d rfl

theorem table_stays_away (hV : ViewsRead B view table reads clean) {n r : String} {cs : List Change}
    (hc : ∀ c ∈ cs, clean c.renderSql ∧ (∀ z ∈ c.quotedNames, plain z) ∧ ∀ cols, c ≠ .createTable n r cols)
    {x x' : σ} (h : Script B x (cs.map Change.renderSql) x') (hx : ¬ table x n r) : ¬ table x' n r := by
  induction cs generalizing x with
  | nil => cases h; exact hx
  | cons c cs ih =>
    cases h with
    | @cons _ _ y _ _ he hs =>
      refine ih (fun c hm => hc c (List.mem_cons_of_mem _ hm)) hs fun hne => ?_
      obtain ⟨h1, h2, h3⟩ := hc c List.mem_cons_self
      obtain ⟨k, hk, d, rfl⟩ := hV.made _ _ _ _ _ h1 he hx hne
      obtain ⟨d, rfl⟩ := says_createsTable h2 hk
      exact h3 d rfl

theorem table_stays (hV : ViewsRead B view table reads clean) {n r : String} {cs : List Change}
    (hc : ∀ c ∈ cs, clean c.renderSql ∧ (∀ z ∈ c.quotedNames, plain z) ∧ c ≠ .dropTable n r)
    {x x' : σ} (h : Script B x (cs.map Change.renderSql) x') (hx : table x n r) : table x' n r := by
  induction cs generalizing x with
  | nil => cases h; exact hx
  | cons c cs ih =>
    cases h with
    | @cons _ _ y _ _ he hs =>
      refine ih (fun c hm => hc c (List.mem_cons_of_mem _ hm)) hs (Classical.byContradiction fun hne => ?_)
      obtain ⟨h1, h2, h3⟩ := hc c List.mem_cons_self
      exact h3 (says_dropsTable h2 (hV.lost _ _ _ _ _ h1 he hx hne))

/-- C106 is false where a table and a view that reads it are both removed and the table is listed before the view:
wherever the changes are carried out, the script cannot be run to its end.  `DROP TABLE` comes first, and is refused
because of the view. -/
theorem C106_table_first_false (hV : ViewsRead B view table reads clean) {s t : Database} (hs : s.WF) (ht : t.WF)
    (hclean : ∀ c ∈ compareDiff s t, clean c.renderSql ∧ ∀ z ∈ c.quotedNames, plain z)
    {n r v : String} {a : Schema} (ha : s.schemas.get? n = some a) {x : Table} {w : View} {l1 l2 l3 : AMap Relation}
    (hl : a.relations = l1 ++ (r, .table x) :: (l2 ++ (v, .view w) :: l3))
    (hr : t.content.objAt (.relation n r) = none) (hv : t.content.objAt (.relation n v) = none)
    {y : σ} {rs : List (String × String)} (hy : view y n v = some rs) (hrs : (n, r) ∈ rs) :
    ¬ ∃ z, Script B y ((compareDiff s t).map Change.renderSql) z := by
  rintro ⟨z, h⟩
  have hma := hs.home _ (AMap.mem_of_get? ha)
  have hvm : (v, .view w) ∈ a.relations := by rw [hl]; simp
  obtain ⟨e1, e2⟩ := drop_table_view hs ha (r := r) (x := x) (by rw [hl]; simp) hvm
  obtain ⟨u, m, q, e⟩ := drops_in_order hs ha hl hr hv
  obtain ⟨p', q', e', hp, hq⟩ := drop_around hs ht ha (AMap.get?_of_mem hma.2.rels_nodup hvm) hv
  rw [e1, e2] at e
  rw [e2] at e'
  have e3 : (u ++ .dropTable n r :: m) ++ .dropView n v :: q = p' ++ .dropView n v :: q' := by
    rw [e] at e'
    simpa using e'
  have hpre := split_at (D := fun c => c = .dropView n v) e3
    (fun c hc h => hp c hc (by rw [h]; exact List.mem_singleton.2 rfl))
    (fun c hc h => hq c hc (by rw [h]; exact List.mem_singleton.2 rfl)) rfl
  have hm : Change.dropTable n r ∈ compareDiff s t := by rw [e]; simp
  have hu : ∀ c ∈ u, c ∈ compareDiff s t := fun c hc => by rw [e]; exact List.mem_append_left _ hc
  rw [e, List.map_append] at h
  simp only [List.singleton_append, List.map_cons] at h
  obtain ⟨y₁, h1, h2⟩ := script_append.1 h
  cases h2 with
  | @cons _ _ _ _ _ h2 _ =>
    have hs1 := view_stays hV (fun c hc => ⟨(hclean c (hu c hc)).1, (hclean c (hu c hc)).2, hp c (by
      rw [← hpre]; exact List.mem_append_left _ hc)⟩) h1 hy
    rw [hV.held _ _ _ _ _ _ _ ((C56_sql_says_change_partial _ (hclean _ hm).2 (by intros; contradiction)
      (by intros; contradiction)).2 trivial) hs1 hrs] at h2
    cases h2

/-- C106 (partial): where the view is listed before the table, the view is gone when the script comes to drop the table,
however the rest of the script goes.  Missing: the other order, see `C106_table_first_false`. -/
theorem C106_view_first_partial (hV : ViewsRead B view table reads clean) {s t : Database} (hs : s.WF) (ht : t.WF)
    (hclean : ∀ c ∈ compareDiff s t, clean c.renderSql ∧ ∀ z ∈ c.quotedNames, plain z)
    {n r v : String} {a : Schema} (ha : s.schemas.get? n = some a) {x : Table} {w : View} {l1 l2 l3 : AMap Relation}
    (hl : a.relations = l1 ++ (v, .view w) :: (l2 ++ (r, .table x) :: l3))
    (hr : t.content.objAt (.relation n r) = none) (hv : t.content.objAt (.relation n v) = none)
    {pre post : List Change} (he : compareDiff s t = pre ++ .dropTable n r :: post)
    {y y' : σ} (h : Script B y (pre.map Change.renderSql) y') : view y' n v = none := by
  have hma := hs.home _ (AMap.mem_of_get? ha)
  have hrm : (r, .table x) ∈ a.relations := by rw [hl]; simp
  obtain ⟨e1, e2⟩ := drop_table_view hs ha (v := v) (w := w) hrm (by rw [hl]; simp)
  obtain ⟨u, m, q, e⟩ := drops_in_order hs ha hl hv hr
  obtain ⟨p', q', e', hp, hq⟩ := drop_around hs ht ha (AMap.get?_of_mem hma.2.rels_nodup hrm) hr
  rw [e1, e2] at e
  rw [e1] at e'
  have hsplit : ∀ p q, compareDiff s t = p ++ .dropTable n r :: q → p = p' := fun p q e3 =>
    split_at (D := fun c => c = .dropTable n r) (c := .dropTable n r) (d := .dropTable n r) (post := q) (w := q')
      (by rw [← e3, e']; simp)
      (fun c hc h => hp c hc (by rw [h]; exact List.mem_singleton.2 rfl))
      (fun c hc h => hq c hc (by rw [h]; exact List.mem_singleton.2 rfl)) rfl
  have hpre : pre = u ++ .dropView n v :: m :=
    (hsplit _ _ he).trans (hsplit _ q (by rw [e]; simp)).symm
  have hin : ∀ c ∈ pre, c ∈ compareDiff s t := fun c hc => by rw [he]; exact List.mem_append_left _ hc
  rw [hpre] at h hin
  rw [List.map_append, List.map_cons] at h
  obtain ⟨y₁, _, h2⟩ := script_append.1 h
  cases h2 with
  | @cons _ _ y₂ _ _ h2 h3 =>
    have hm := hin (.dropView n v) (by simp)
    have hg := hV.gone _ _ _ _ _ ((C56_sql_says_change_partial _ (hclean _ hm).2 (by intros; contradiction)
      (by intros; contradiction)).2 trivial) h2
    refine view_stays_away hV (fun c hc => ?_) h3 hg
    have hc' := hin c (by simp [hc])
    refine ⟨(hclean c hc').1, (hclean c hc').2, ?_⟩
    rintro d rfl
    have := (C06_every_change_needed hs ht hc').1
    rw [hv] at this
    cases this

/-- C106 is false where a table and a view that reads it are both new and the view is listed before the table: wherever
the changes are carried out, the script cannot be run to its end.  `CREATE VIEW` comes first, and is refused for want of
the table. -/
theorem C106_new_view_first_false (hV : ViewsRead B view table reads clean) {s t : Database} (hs : s.WF) (ht : t.WF)
    (hclean : ∀ c ∈ compareDiff s t, clean c.renderSql ∧ ∀ z ∈ c.quotedNames, plain z)
    {n r v : String} {b : Schema} (hb : t.schemas.get? n = some b) {x : Table} {w : View} {l1 l2 l3 : AMap Relation}
    (hl : b.relations = l1 ++ (v, .view w) :: (l2 ++ (r, .table x) :: l3))
    (hr : s.content.objAt (.relation n r) = none) (hv : s.content.objAt (.relation n v) = none)
    (hw : reads w.query n r) {y : σ} (hy : ¬ table y n r) :
    ¬ ∃ z, Script B y ((compareDiff s t).map Change.renderSql) z := by
  rintro ⟨z, h⟩
  have hmb := ht.home _ (AMap.mem_of_get? hb)
  have hrm : (r, .table x) ∈ b.relations := by rw [hl]; simp
  obtain ⟨⟨cols, e1⟩, e2⟩ := create_table_view ht hb (v := v) (w := w) hrm (by rw [hl]; simp)
  obtain ⟨u, m, q, e⟩ := creates_in_order hs ht hb hl hv hr
  obtain ⟨p', q', e', hp, hq⟩ := create_around hs ht hb (AMap.get?_of_mem hmb.2.rels_nodup hrm) hr
  rw [e1, e2] at e
  rw [e1] at e'
  have hcon : ∀ c ∈ x.constraints.values.flatMap constraintCreate, ¬ ∃ cols, c = .createTable n r cols := by
    rintro c hc ⟨cols, rfl⟩
    obtain ⟨o, _, hc⟩ := List.mem_flatMap.1 hc
    cases o <;> cases List.mem_singleton.1 hc
  have hnot : ∀ c : Change, Path.relation n r ∉ c.targets → ¬ ∃ cols, c = .createTable n r cols := by
    rintro c hc ⟨cols, rfl⟩
    exact hc (List.mem_singleton.2 rfl)
  have e3 : (u ++ .createView n v w.query :: m) ++ .createTable n r cols ::
      (x.constraints.values.flatMap constraintCreate ++ q) =
      p' ++ .createTable n r cols :: (x.constraints.values.flatMap constraintCreate ++ q') := by
    rw [e] at e'
    simpa using e'
  have hpre := split_at (D := fun c => ∃ cols, c = Change.createTable n r cols) e3 (fun c hc => hnot c (hp c hc))
    (fun c hc => (List.mem_append.1 hc).elim (hcon c) fun hc => hnot c (hq c hc)) ⟨_, rfl⟩
  have hm : Change.createView n v w.query ∈ compareDiff s t := by rw [e]; simp
  have hu : ∀ c ∈ u, c ∈ compareDiff s t := fun c hc => by rw [e]; exact List.mem_append_left _ hc
  rw [e, List.map_append] at h
  simp only [List.singleton_append, List.map_cons] at h
  obtain ⟨y₁, h1, h2⟩ := script_append.1 h
  cases h2 with
  | @cons _ _ _ _ _ h2 _ =>
    have hs1 := table_stays_away hV (fun c hc => ⟨(hclean c (hu c hc)).1, (hclean c (hu c hc)).2, fun cols h =>
      hnot c (hp c (by rw [← hpre]; exact List.mem_append_left _ hc)) ⟨cols, h⟩⟩) h1 hy
    rw [hV.needs _ _ _ _ _ _ _ ((C56_sql_says_change_partial _ (hclean _ hm).2 (by intros; contradiction)
      (by intros; contradiction)).2 trivial) hw hs1] at h2
    cases h2

/-- C106 (partial): where the new table is listed before the new view, the table is there when the script comes to create
the view, however the rest of the script goes.  Missing: the other order, see `C106_new_view_first_false`. -/
theorem C106_new_table_first_partial (hV : ViewsRead B view table reads clean) {s t : Database} (hs : s.WF) (ht : t.WF)
    (hclean : ∀ c ∈ compareDiff s t, clean c.renderSql ∧ ∀ z ∈ c.quotedNames, plain z)
    {n r v : String} {b : Schema} (hb : t.schemas.get? n = some b) {x : Table} {w : View} {l1 l2 l3 : AMap Relation}
    (hl : b.relations = l1 ++ (r, .table x) :: (l2 ++ (v, .view w) :: l3))
    (hr : s.content.objAt (.relation n r) = none) (hv : s.content.objAt (.relation n v) = none)
    {pre post : List Change} {d : String} (he : compareDiff s t = pre ++ .createView n v d :: post)
    {y y' : σ} (h : Script B y (pre.map Change.renderSql) y') : table y' n r := by
  have hmb := ht.home _ (AMap.mem_of_get? hb)
  have hvm : (v, .view w) ∈ b.relations := by rw [hl]; simp
  obtain ⟨⟨cols, e1⟩, e2⟩ := create_table_view ht hb (r := r) (x := x) (by rw [hl]; simp) hvm
  obtain ⟨u, m, q, e⟩ := creates_in_order hs ht hb hl hr hv
  obtain ⟨p', q', e', hp, hq⟩ := create_around hs ht hb (AMap.get?_of_mem hmb.2.rels_nodup hvm) hv
  rw [e1, e2] at e
  rw [e2] at e'
  have hsplit : ∀ p q d, compareDiff s t = p ++ .createView n v d :: q → p = p' := fun p q d e3 =>
    split_at (D := fun c => ∃ d, c = .createView n v d) (c := .createView n v d) (d := .createView n v w.query)
      (post := q) (w := q') (by rw [← e3, e']; simp)
      (fun c hc ⟨d, h⟩ => hp c hc (by rw [h]; exact List.mem_singleton.2 rfl))
      (fun c hc ⟨d, h⟩ => hq c hc (by rw [h]; exact List.mem_singleton.2 rfl)) ⟨_, rfl⟩
  have hpre : pre = u ++ .createTable n r cols :: (x.constraints.values.flatMap constraintCreate ++ m) :=
    (hsplit _ _ _ he).trans (hsplit _ q w.query (by rw [e]; simp)).symm
  have hin : ∀ c ∈ pre, c ∈ compareDiff s t := fun c hc => by rw [he]; exact List.mem_append_left _ hc
  rw [hpre] at h hin
  rw [List.map_append, List.map_cons] at h
  obtain ⟨y₁, _, h2⟩ := script_append.1 h
  cases h2 with
  | @cons _ _ y₂ _ _ h2 h3 =>
    have hm := hin (.createTable n r cols) (by simp)
    obtain ⟨cols', hc'⟩ := says_newTable (hclean _ hm).2
    refine table_stays hV (fun c hc => ?_) h3 (hV.built _ _ _ _ _ _ hc' h2)
    have hc' := hin c (List.mem_append_right _ (List.mem_cons_of_mem _ hc))
    refine ⟨(hclean c hc').1, (hclean c hc').2, ?_⟩
    rintro rfl
    have := C06_every_change_needed hs ht hc'
    refine this.1 ?_
    simp only [Content.objAt, Option.map_eq_none_iff] at hr
    rw [Content.tableAt, ← Option.bind_assoc, hr]
    rfl

theorem takenFrom_split {a b rs : List Change} {s s' : Database} (h : TakenFrom (a ++ b) s rs s') :
    ∃ ra rb s₁, rs = ra ++ rb ∧ TakenFrom a s ra s₁ ∧ TakenFrom b s₁ rb s' := by
  induction a generalizing s rs with
  | nil => exact ⟨[], rs, s, rfl, .nil, h⟩
  | cons c a ih =>
    cases h with
    | @cons _ _ _ r s₁ rs _ h1 h2 h3 =>
      obtain ⟨ra, rb, s₂, rfl, h4, h5⟩ := ih h3
      exact ⟨r :: ra, rb, s₂, rfl, .cons h1 h2 h4, h5⟩

theorem takenFrom_targets {cs rs : List Change} {s s' : Database} (h : TakenFrom cs s rs s') (hs : s.WF) {q : Path}
    (hq : ∀ c ∈ cs, q ∉ c.targets) : ∀ r ∈ rs, q ∉ r.targets := by
  induction h with
  | nil => intro r hr; cases hr
  | @cons c cs s r s₁ rs s' hr ha _ ih =>
    intro r' hm
    rcases List.mem_cons.1 hm with rfl | hm
    · exact fun h => hq c (.head _) (revert_targets hs hr h)
    · exact ih (apply_wf hs ha) (fun c hc => hq c (.tail _ hc)) r' hm

/-- C106 (partial): the same for the down script of such a version, which takes the reverts from the last to the first
(C28).  Where the new table is listed before the new view, the view is gone again when the down script comes to drop the
table, however the rest of it goes.  Missing: the other order, where the version cannot be carried out in the first
place, see `C106_new_view_first_false`. -/
theorem C106_down_partial (hV : ViewsRead B view table reads clean) {s t s' : Database} (hs : s.WF) (ht : t.WF)
    {rs : List Change} (hrs : TakenFrom (compareDiff s t) s rs s')
    (hclean : ∀ c ∈ rs, clean c.renderSql ∧ ∀ z ∈ c.quotedNames, plain z)
    {n r v : String} {b : Schema} (hb : t.schemas.get? n = some b) {x : Table} {w : View} {l1 l2 l3 : AMap Relation}
    (hl : b.relations = l1 ++ (r, .table x) :: (l2 ++ (v, .view w) :: l3))
    (hr : s.content.objAt (.relation n r) = none) (hv : s.content.objAt (.relation n v) = none)
    {pre post : List Change} (he : rs.reverse = pre ++ .dropTable n r :: post)
    {y y' : σ} (h : Script B y (pre.map Change.renderSql) y') : view y' n v = none := by
  have hmb := ht.home _ (AMap.mem_of_get? hb)
  have hvm : (v, .view w) ∈ b.relations := by rw [hl]; simp
  have hrm : (r, .table x) ∈ b.relations := by rw [hl]; simp
  obtain ⟨⟨cols, e1⟩, e2⟩ := create_table_view ht hb hrm hvm
  obtain ⟨u, m, q, e⟩ := creates_in_order hs ht hb hl hr hv
  obtain ⟨p₁, q₁, d₁, hp₁, hq₁⟩ := create_around hs ht hb (AMap.get?_of_mem hmb.2.rels_nodup hrm) hr
  obtain ⟨p₂, q₂, d₂, hp₂, hq₂⟩ := create_around hs ht hb (AMap.get?_of_mem hmb.2.rels_nodup hvm) hv
  rw [e1, e2] at e
  rw [e1] at d₁
  rw [e2] at d₂
  have hcon : ∀ k, ∀ c ∈ x.constraints.values.flatMap constraintCreate, Path.relation n k ∉ c.targets := by
    intro k c hc
    obtain ⟨o, _, hc⟩ := List.mem_flatMap.1 hc
    cases o <;> cases List.mem_singleton.1 hc <;>
      simp [newAddPrimaryKey, newAddUnique, newAddForeignKey, newAddCheck, targets]
  -- nothing else is about the table
  have hu : u = p₁ := split_at (D := fun c => ∃ cols, c = .createTable n r cols) (c := .createTable n r cols)
    (d := .createTable n r cols)
    (post := x.constraints.values.flatMap constraintCreate ++ (m ++ (.createView n v w.query :: q)))
    (w := x.constraints.values.flatMap constraintCreate ++ q₁)
    (by have := e.symm.trans d₁; simpa using this)
    (fun c hc ⟨d, h⟩ => hp₁ c hc (by rw [h]; exact List.mem_singleton.2 rfl))
    (fun c hc ⟨d, h⟩ => by
      rcases List.mem_append.1 hc with hc | hc
      · exact hcon r c hc (by rw [h]; exact List.mem_singleton.2 rfl)
      · exact hq₁ c hc (by rw [h]; exact List.mem_singleton.2 rfl)) ⟨_, rfl⟩
  have hmq : m ++ (.createView n v w.query :: q) = q₁ := by
    have := e.symm.trans d₁
    rw [hu] at this
    simpa using this
  -- nothing before it is about the view
  have hp : u ++ .createTable n r cols :: (x.constraints.values.flatMap constraintCreate ++ m) = p₂ :=
    split_at (D := fun c => ∃ d, c = .createView n v d) (c := .createView n v w.query)
    (d := .createView n v w.query) (post := q) (w := q₂)
    (by have := e.symm.trans d₂; simpa using this)
    (fun c hc ⟨d, h⟩ => hp₂ c hc (by rw [h]; exact List.mem_singleton.2 rfl))
    (fun c hc ⟨d, h⟩ => hq₂ c hc (by rw [h]; exact List.mem_singleton.2 rfl)) ⟨_, rfl⟩
  have e' : compareDiff s t = u ++ (.createTable n r cols :: ((x.constraints.values.flatMap constraintCreate ++ m) ++
      (.createView n v w.query :: q))) := by rw [e]; simp
  rw [e'] at hrs
  obtain ⟨ru, rb, s₁, rfl, t1, t2⟩ := takenFrom_split hrs
  have w1 := takenFrom_wf t1 hs
  cases t2 with
  | @cons _ _ _ rT s₂ rb _ hT hTa t2 =>
    have w2 := apply_wf w1 hTa
    obtain ⟨rm, rq', s₃, rfl, t3, t4⟩ := takenFrom_split t2
    have w3 := takenFrom_wf t3 w2
    cases t4 with
    | @cons _ _ _ rV s₄ rq _ hVr hVa t5 =>
      have eT : rT = .dropTable n r := by
        obtain ⟨sc, _, rfl, _, h'⟩ := lookSchema_inv w1 hT
        cases h'; rfl
      have eV : rV = .dropView n v := by
        obtain ⟨sc, _, rfl, _, h'⟩ := lookSchema_inv w3 hVr
        cases h'; rfl
      subst eT eV
      have a1 : ∀ c ∈ ru, Path.relation n r ∉ c.targets := takenFrom_targets t1 hs (by rw [hu]; exact hp₁)
      have a2 : ∀ c ∈ rm ++ .dropView n v :: rq, Path.relation n r ∉ c.targets := takenFrom_targets t2 w2 (by
        intro c hc
        rw [List.append_assoc, hmq] at hc
        rcases List.mem_append.1 hc with hc | hc
        · exact hcon r c hc
        · exact hq₁ c hc)
      have a3 : ∀ c ∈ rm, Path.relation n v ∉ c.targets := takenFrom_targets t3 w2 (by
        intro c hc
        exact hp₂ c (by rw [← hp]; simp only [List.mem_append, List.mem_cons] at hc ⊢; exact .inr (.inr hc)))
      have hpre : pre = rq.reverse ++ .dropView n v :: rm.reverse :=
        split_at (D := fun c => c = .dropTable n r) (c := .dropTable n r) (d := .dropTable n r) (post := post)
          (w := ru.reverse) (by rw [← he]; simp)
          (fun c hc h => a2 c (by simp only [List.mem_append, List.mem_cons, List.mem_reverse] at hc ⊢; exact hc.symm.elim (·.elim (.inr ∘ .inl) .inl) (.inr ∘ .inr))
            (by rw [h]; exact List.mem_singleton.2 rfl))
          (fun c hc h => a1 c (List.mem_reverse.1 hc) (by rw [h]; exact List.mem_singleton.2 rfl)) rfl
      rw [hpre, List.map_append, List.map_cons] at h
      obtain ⟨y₁, _, h2⟩ := script_append.1 h
      cases h2 with
      | @cons _ _ y₂ _ _ h2 h3 =>
        have hg := hV.gone _ _ _ _ _ ((C56_sql_says_change_partial _ (hclean (.dropView n v) (by simp)).2
          (by intros; contradiction) (by intros; contradiction)).2 trivial) h2
        refine view_stays_away hV (fun c hc => ?_) h3 hg
        rw [List.mem_reverse] at hc
        refine ⟨(hclean c (by simp [hc])).1, (hclean c (by simp [hc])).2, ?_⟩
        rintro d rfl
        exact a3 _ hc (List.mem_singleton.2 rfl)

/-- C106 (partial): the same for the down script of a version that removes a table and a view.  Where the old snapshot
lists the view before the table, the table is there again when the down script comes to create the view, however the rest
of it goes.  Missing: the other order, where the version cannot be carried out in the first place, see
`C106_table_first_false`. -/
theorem C106_down_removed_partial (hV : ViewsRead B view table reads clean) {s t s' : Database} (hs : s.WF) (ht : t.WF)
    {rs : List Change} (hrs : TakenFrom (compareDiff s t) s rs s')
    (hclean : ∀ c ∈ rs, clean c.renderSql ∧ ∀ z ∈ c.quotedNames, plain z)
    {n r v : String} {a : Schema} (ha : s.schemas.get? n = some a) {x : Table} {w : View} {l1 l2 l3 : AMap Relation}
    (hl : a.relations = l1 ++ (v, .view w) :: (l2 ++ (r, .table x) :: l3))
    (hr : t.content.objAt (.relation n r) = none) (hv : t.content.objAt (.relation n v) = none)
    {pre post : List Change} {d : String} (he : rs.reverse = pre ++ .createView n v d :: post)
    {y y' : σ} (h : Script B y (pre.map Change.renderSql) y') : table y' n r := by
  have hma := hs.home _ (AMap.mem_of_get? ha)
  have hvm : (v, .view w) ∈ a.relations := by rw [hl]; simp
  have hrm : (r, .table x) ∈ a.relations := by rw [hl]; simp
  obtain ⟨e1, e2⟩ := drop_table_view hs ha hrm hvm
  obtain ⟨u, m, q, e⟩ := drops_in_order hs ha hl hv hr
  obtain ⟨p₁, q₁, d₁, hp₁, hq₁⟩ := drop_around hs ht ha (AMap.get?_of_mem hma.2.rels_nodup hrm) hr
  obtain ⟨p₂, q₂, d₂, hp₂, hq₂⟩ := drop_around hs ht ha (AMap.get?_of_mem hma.2.rels_nodup hvm) hv
  rw [e1, e2] at e
  rw [e1] at d₁
  rw [e2] at d₂
  -- nothing else is about the view
  have hu : u = p₂ := split_at (D := fun c => c = .dropView n v) (c := .dropView n v) (d := .dropView n v)
    (post := m ++ (.dropTable n r :: q)) (w := q₂)
    (by have := e.symm.trans d₂; simpa using this)
    (fun c hc h => hp₂ c hc (by rw [h]; exact List.mem_singleton.2 rfl))
    (fun c hc h => hq₂ c hc (by rw [h]; exact List.mem_singleton.2 rfl)) rfl
  have hmq : m ++ (.dropTable n r :: q) = q₂ := by
    have := e.symm.trans d₂
    rw [hu] at this
    simpa using this
  -- nothing before it is about the table
  have hp : u ++ .dropView n v :: m = p₁ :=
    split_at (D := fun c => c = .dropTable n r) (c := .dropTable n r) (d := .dropTable n r) (post := q) (w := q₁)
    (by have := e.symm.trans d₁; simpa using this)
    (fun c hc h => hp₁ c hc (by rw [h]; exact List.mem_singleton.2 rfl))
    (fun c hc h => hq₁ c hc (by rw [h]; exact List.mem_singleton.2 rfl)) rfl
  have e' : compareDiff s t = u ++ (.dropView n v :: (m ++ (.dropTable n r :: q))) := by rw [e]; simp
  rw [e'] at hrs
  obtain ⟨ru, rb, s₁, rfl, t1, t2⟩ := takenFrom_split hrs
  have w1 := takenFrom_wf t1 hs
  cases t2 with
  | @cons _ _ _ rV s₂ rb _ hVr hVa t2 =>
    have w2 := apply_wf w1 hVa
    obtain ⟨rm, rq', s₃, rfl, t3, t4⟩ := takenFrom_split t2
    have w3 := takenFrom_wf t3 w2
    cases t4 with
    | @cons _ _ _ rT s₄ rq _ hT hTa t5 =>
      obtain ⟨cols, eT⟩ : ∃ cols, rT = .createTable n r cols := by
        obtain ⟨sc, tb, rfl, rfl, h3, _, h'⟩ := lookTable_inv w3 hT
        cases h'
        exact ⟨tb.columns.map fun c => ⟨c.name, c.dataType, c.notNull, c.default⟩, by simp only [newCreateTable, h3]⟩
      subst eT
      have a1 : ∀ c ∈ ru, Path.relation n v ∉ c.targets := takenFrom_targets t1 hs (by rw [hu]; exact hp₂)
      have a2 : ∀ c ∈ rm ++ .createTable n r cols :: rq, Path.relation n v ∉ c.targets :=
        takenFrom_targets t2 w2 (by rw [hmq]; exact hq₂)
      have a3 : ∀ c ∈ rm, Path.relation n r ∉ c.targets := takenFrom_targets t3 w2 (by
        intro c hc
        exact hp₁ c (by rw [← hp]; simp [hc]))
      have hpre : pre = rq.reverse ++ .createTable n r cols :: rm.reverse :=
        split_at (D := fun c => ∃ d, c = .createView n v d) (c := .createView n v d) (d := rV) (post := post)
          (w := ru.reverse) (by rw [← he]; simp)
          (fun c hc ⟨d, h⟩ => a2 c (by
            simp only [List.mem_append, List.mem_cons, List.mem_reverse] at hc ⊢
            exact hc.symm.elim (·.elim (.inr ∘ .inl) .inl) (.inr ∘ .inr))
            (by rw [h]; exact List.mem_singleton.2 rfl))
          (fun c hc ⟨d, h⟩ => a1 c (List.mem_reverse.1 hc) (by rw [h]; exact List.mem_singleton.2 rfl)) ⟨d, rfl⟩
      rw [hpre, List.map_append, List.map_cons] at h
      obtain ⟨y₁, _, h2⟩ := script_append.1 h
      cases h2 with
      | @cons _ _ y₂ _ _ h2 h3 =>
        obtain ⟨cols', hc'⟩ := says_newTable (hclean (.createTable n r cols) (by simp)).2
        refine table_stays hV (fun c hc => ?_) h3 (hV.built _ _ _ _ _ _ hc' h2)
        rw [List.mem_reverse] at hc
        refine ⟨(hclean c (by simp [hc])).1, (hclean c (by simp [hc])).2, ?_⟩
        rintro rfl
        exact a3 _ hc (List.mem_singleton.2 rfl)

/-- No order is safe: whatever the order in which the old snapshot lists them, there is one with the same objects that
lists the table before the view, so that the script podo writes from it cannot be run. -/
theorem C106_some_order_false (hV : ViewsRead B view table reads clean) {s t : Database} (hs : s.WF) (ht : t.WF)
    (hclean : ∀ c ∈ compareDiff s t, clean c.renderSql ∧ ∀ z ∈ c.quotedNames, plain z)
    {n r v : String} {a : Schema} (ha : s.schemas.get? n = some a) {x : Table} {w : View}
    (hsr : a.relations.get? r = some (.table x)) (hsv : a.relations.get? v = some (.view w))
    (hr : t.content.objAt (.relation n r) = none) (hv : t.content.objAt (.relation n v) = none)
    {y : σ} {rs : List (String × String)} (hy : view y n v = some rs) (hrs : (n, r) ∈ rs) :
    ∃ s' : Database, s'.WF ∧ s'.content = s.content ∧
      ¬ ∃ z, Script B y ((compareDiff s' t).map Change.renderSql) z := by
  have hrv : r ≠ v := by
    rintro rfl
    rw [hsr] at hsv
    cases hsv
  obtain ⟨s', hs', hc, _, a', ha', hl⟩ := listed_last hs ha hsv
  obtain ⟨l1, l2, e⟩ := List.append_of_mem (AMap.mem_erase.2 ⟨AMap.mem_of_get? hsr, hrv⟩)
  refine ⟨s', hs', hc, C106_table_first_false hV hs' ht
    (fun c h => hclean c ((compareDiff_same hs' hs ht ht hc rfl fun _ _ => rfl).mem_iff.1 h)) ha' (l1 := l1) (l2 := l2)
    (l3 := []) (x := x) (w := w) ?_ hr hv hy hrs⟩
  rw [hl, e]
  simp

/-- The same for new ones: there is always an order of the definitions, with the same objects and the same columns in
the same order, that lists the view before the table. -/
theorem C106_some_new_order_false (hV : ViewsRead B view table reads clean) {s t : Database} (hs : s.WF) (ht : t.WF)
    (hclean : ∀ c ∈ compareDiff s t, clean c.renderSql ∧ ∀ z ∈ c.quotedNames, plain z)
    {n r v : String} {b : Schema} (hb : t.schemas.get? n = some b) {x : Table} {w : View}
    (htr : b.relations.get? r = some (.table x)) (htv : b.relations.get? v = some (.view w))
    (hr : s.content.objAt (.relation n r) = none) (hv : s.content.objAt (.relation n v) = none)
    (hw : reads w.query n r) {y : σ} (hy : ¬ table y n r) :
    ∃ t' : Database, t'.WF ∧ t'.content = t.content ∧ (∀ n r, t'.tableNamed n r = t.tableNamed n r) ∧
      ¬ ∃ z, Script B y ((compareDiff s t').map Change.renderSql) z := by
  have hrv : v ≠ r := by
    rintro rfl
    rw [htr] at htv
    cases htv
  obtain ⟨t', ht', hc, ho, b', hb', hl⟩ := listed_last ht hb htr
  obtain ⟨l1, l2, e⟩ := List.append_of_mem (AMap.mem_erase.2 ⟨AMap.mem_of_get? htv, hrv⟩)
  refine ⟨t', ht', hc, ho, C106_new_view_first_false hV hs ht'
    (fun c h => hclean c ((compareDiff_same hs hs ht' ht rfl hc fun n r => by rw [ho]).mem_iff.1 h)) hb' (l1 := l1)
    (l2 := l2) (l3 := []) (x := x) (w := w) ?_ hr hv hw hy⟩
  rw [hl, e]
  simp

/-- For `podo up`: a version with a new view and a new table that it reads, listed in that order, can be made, but
never applied.  Where `podo up` succeeds, the first version it has applied is not such a one, unless the table is already in
the database. -/
theorem C106_up_false (hV : ViewsRead B view table reads clean) {db db' : DB σ} (hR : Pg.Reach B db) {d : HDir}
    (hd : Reachable d) {fuel : Nat} {target : Option String} (h : Pg.up B fuel d target db = some (db', .ok))
    {ver : Version} {vs : List Version} (hver : db'.applied = db.applied ++ ver :: vs)
    {s t : Database} (hs : s.WF) (ht : t.WF) (hch : ver.changes = compareDiff s t)
    (hclean : ∀ c ∈ compareDiff s t, clean c.renderSql ∧ ∀ z ∈ c.quotedNames, plain z)
    {n r v : String} {b : Schema} (hb : t.schemas.get? n = some b) {x : Table} {w : View} {l1 l2 l3 : AMap Relation}
    (hl : b.relations = l1 ++ (v, .view w) :: (l2 ++ (r, .table x) :: l3))
    (hr : s.content.objAt (.relation n r) = none) (hv : s.content.objAt (.relation n v) = none)
    (hw : reads w.query n r) : table db.data n r := by
  apply Classical.byContradiction
  intro hy
  obtain ⟨_, _, ws, _, _, _, _, h5, h6, h7, _⟩ := C31_up_applies_missing_partial hR hd.namedAfterVersion h
  rw [hver] at h7
  obtain rfl := List.append_cancel_left h7
  rw [List.flatMap_cons] at h6
  obtain ⟨y, h6, _⟩ := script_append.1 h6
  rw [(C28_scripts_aligned hd (h5 ver List.mem_cons_self)).1, hch] at h6
  exact C106_new_view_first_false hV hs ht hclean hb hl hr hv hw hy ⟨y, h6⟩

/-- The same for removals: where `podo up` succeeds, the first version it has applied does not remove a table and then a
view, in that order, unless the view of the database does not read the table. -/
theorem C106_up_removed_false (hV : ViewsRead B view table reads clean) {db db' : DB σ} (hR : Pg.Reach B db) {d : HDir}
    (hd : Reachable d) {fuel : Nat} {target : Option String} (h : Pg.up B fuel d target db = some (db', .ok))
    {ver : Version} {vs : List Version} (hver : db'.applied = db.applied ++ ver :: vs)
    {s t : Database} (hs : s.WF) (ht : t.WF) (hch : ver.changes = compareDiff s t)
    (hclean : ∀ c ∈ compareDiff s t, clean c.renderSql ∧ ∀ z ∈ c.quotedNames, plain z)
    {n r v : String} {a : Schema} (ha : s.schemas.get? n = some a) {x : Table} {w : View} {l1 l2 l3 : AMap Relation}
    (hl : a.relations = l1 ++ (r, .table x) :: (l2 ++ (v, .view w) :: l3))
    (hr : t.content.objAt (.relation n r) = none) (hv : t.content.objAt (.relation n v) = none) :
    ∀ rs, view db.data n v = some rs → (n, r) ∉ rs := by
  intro rs hy hrs
  obtain ⟨_, _, ws, _, _, _, _, h5, h6, h7, _⟩ := C31_up_applies_missing_partial hR hd.namedAfterVersion h
  rw [hver] at h7
  obtain rfl := List.append_cancel_left h7
  rw [List.flatMap_cons] at h6
  obtain ⟨y, h6, _⟩ := script_append.1 h6
  rw [(C28_scripts_aligned hd (h5 ver List.mem_cons_self)).1, hch] at h6
  exact C106_table_first_false hV hs ht hclean ha hl hr hv hy hrs ⟨y, h6⟩

/-! ### A table with a view that reads it -/

def vwTable : Change := .createTable "public" "t" [⟨"id", "int8", false, none⟩]
def vwView : Change := .createView "public" "v" "SELECT id FROM t"
def vwDropView : Change := .dropView "public" "v"
def vwDropTable : Change := .dropTable "public" "t"

/-- A server that knows four statements.  Its state says what there is: 0 nothing, 1 the table, 2 the table and the
view.  It takes `CREATE TABLE` for a table that is there, and `DROP VIEW` where there is nothing, and then does
nothing. -/
def vwB : Pg.Behaviour Nat :=
  ⟨fun x q => if x = 0 ∧ q = vwTable.renderSql then some 1
    else if x = 1 ∧ q = vwView.renderSql then some 2
    else if x = 2 ∧ q = vwDropView.renderSql then some 1
    else if x = 1 ∧ q = vwDropTable.renderSql then some 0
    else if x = 2 ∧ q = vwTable.renderSql then some 2
    else if x = 0 ∧ q = vwDropView.renderSql then some 0
    else none,
   fun _ => true, fun _ => true, fun _ => true⟩

def vwOver (x : Nat) (s v : String) : Option (List (String × String)) :=
  if x = 2 ∧ s = "public" ∧ v = "v" then some [("public", "t")] else none

def vwThere (x : Nat) (s r : String) : Prop := x ≠ 0 ∧ s = "public" ∧ r = "t"

def vwReads (d s r : String) : Prop := d = "SELECT id FROM t" ∧ s = "public" ∧ r = "t"

theorem vw_exec {x x' : Nat} {q : String} (h : vwB.exec x q = some x') :
    (x = 0 ∧ q = vwTable.renderSql ∧ x' = 1) ∨ (x = 1 ∧ q = vwView.renderSql ∧ x' = 2) ∨
    (x = 2 ∧ q = vwDropView.renderSql ∧ x' = 1) ∨ (x = 1 ∧ q = vwDropTable.renderSql ∧ x' = 0) ∨
    (x = 2 ∧ q = vwTable.renderSql ∧ x' = 2) ∨ (x = 0 ∧ q = vwDropView.renderSql ∧ x' = 0) := by
  simp only [vwB] at h
  split at h
  · next e => cases h; exact .inl ⟨e.1, e.2, rfl⟩
  · split at h
    · next e => cases h; exact .inr (.inl ⟨e.1, e.2, rfl⟩)
    · split at h
      · next e => cases h; exact .inr (.inr (.inl ⟨e.1, e.2, rfl⟩))
      · split at h
        · next e => cases h; exact .inr (.inr (.inr (.inl ⟨e.1, e.2, rfl⟩)))
        · split at h
          · next e => cases h; exact .inr (.inr (.inr (.inr (.inl ⟨e.1, e.2, rfl⟩))))
          · split at h
            · next e => cases h; exact .inr (.inr (.inr (.inr (.inr ⟨e.1, e.2, rfl⟩))))
            · cases h

theorem vw_plain : ∀ c ∈ [vwTable, vwView, vwDropView, vwDropTable], ∀ z ∈ c.quotedNames, plain z := by
  unfold plain
  decide

theorem vw_says (c : Change) (h : c ∈ [vwTable, vwView, vwDropView, vwDropTable]) (ht : c.TextRight) :
    Says c.renderSql c :=
  (C56_sql_says_change_partial c (vw_plain c h)
    (by rintro _ _ _ _ _ _ _ _ _ _ _ _ rfl; simp [vwTable, vwView, vwDropView, vwDropTable] at h)
    (by rintro _ _ _ _ _ _ rfl; simp [vwTable, vwView, vwDropView, vwDropTable] at h)).2 ht

theorem vwOver_some {x : Nat} {s v : String} {rs : List (String × String)} (h : vwOver x s v = some rs) :
    x = 2 ∧ s = "public" ∧ v = "v" ∧ rs = [("public", "t")] := by
  simp only [vwOver] at h
  split at h
  · next e => injection h with h; exact ⟨e.1, e.2.1, e.2.2, h.symm⟩
  · cases h

theorem vwB_reads : ViewsRead vwB vwOver vwThere vwReads (fun _ => True) := by
  constructor
  · intro q x s r s' v rs hq hv hrs
    obtain ⟨rfl, rfl, rfl, rfl⟩ := vwOver_some hv
    cases he : vwB.exec 2 q with
    | none => rfl
    | some x' =>
      exfalso
      rcases vw_exec he with ⟨h, _⟩ | ⟨h, _⟩ | ⟨_, rfl, _⟩ | ⟨h, _⟩ | ⟨_, rfl, _⟩ | ⟨h, _⟩
      · cases h
      · cases h
      · cases says_dropsTable (vw_plain vwDropView (by simp)) hq
      · cases h
      · cases says_dropsTable (vw_plain vwTable (by simp)) hq
      · cases h
  · intro q x x' s v hq he
    rcases vw_exec he with ⟨rfl, rfl, rfl⟩ | ⟨rfl, rfl, rfl⟩ | ⟨rfl, rfl, rfl⟩ | ⟨rfl, rfl, rfl⟩ | ⟨rfl, rfl, rfl⟩ |
      ⟨rfl, rfl, rfl⟩
    · cases says_dropsView (vw_plain vwTable (by simp)) hq
    · cases says_dropsView (vw_plain vwView (by simp)) hq
    · rfl
    · cases says_dropsView (vw_plain vwDropTable (by simp)) hq
    · cases says_dropsView (vw_plain vwTable (by simp)) hq
    · rfl
  · intro q x x' s v rs _ he hv hne
    obtain ⟨rfl, rfl, rfl, rfl⟩ := vwOver_some hv
    rcases vw_exec he with ⟨h, _⟩ | ⟨h, _⟩ | ⟨_, rfl, _⟩ | ⟨h, _⟩ | ⟨_, rfl, rfl⟩ | ⟨h, _⟩
    · cases h
    · cases h
    · exact ⟨vwDropView, vw_says _ (by simp) trivial, .inl rfl⟩
    · cases h
    · exact absurd rfl hne
    · cases h
  · intro q x x' s v _ he hv hne
    obtain ⟨rs, h⟩ := Option.ne_none_iff_exists'.1 hne
    obtain ⟨rfl, rfl, rfl, rfl⟩ := vwOver_some h
    rcases vw_exec he with ⟨_, _, h⟩ | ⟨rfl, rfl, _⟩ | ⟨_, _, h⟩ | ⟨_, _, h⟩ | ⟨rfl, _, _⟩ | ⟨_, _, h⟩
    · cases h
    · exact ⟨vwView, vw_says _ (by simp) trivial, _, rfl⟩
    · cases h
    · cases h
    · cases hv
    · cases h
  · intro q x s v d s' r hq hd ht
    obtain ⟨rfl, rfl, rfl⟩ := hd
    cases he : vwB.exec x q with
    | none => rfl
    | some x' =>
      exfalso
      rcases vw_exec he with ⟨rfl, rfl, _⟩ | ⟨rfl, rfl, _⟩ | ⟨rfl, rfl, _⟩ | ⟨rfl, rfl, _⟩ | ⟨rfl, rfl, _⟩ |
        ⟨rfl, rfl, _⟩
      rotate_right
      · obtain ⟨d, h⟩ := says_createsView (vw_plain vwDropView (by simp)) hq
        cases h
      · obtain ⟨d, h⟩ := says_createsView (vw_plain vwTable (by simp)) hq
        cases h
      all_goals exact ht ⟨by decide, rfl, rfl⟩
  · intro q x x' s r _ he h1 h2
    obtain ⟨h2, rfl, rfl⟩ := h2
    rcases vw_exec he with ⟨rfl, rfl, _⟩ | ⟨rfl, rfl, _⟩ | ⟨rfl, rfl, _⟩ | ⟨rfl, rfl, _⟩ | ⟨rfl, rfl, _⟩ |
      ⟨rfl, rfl, rfl⟩
    rotate_right
    · exact absurd rfl h2
    · exact ⟨vwTable, vw_says _ (by simp) (by intro c hc; cases List.mem_singleton.1 hc; rfl), _, rfl⟩
    all_goals exact absurd ⟨by decide, rfl, rfl⟩ h1
  · intro q x x' s r cols hq he
    rcases vw_exec he with ⟨rfl, rfl, rfl⟩ | ⟨rfl, rfl, rfl⟩ | ⟨rfl, rfl, rfl⟩ | ⟨rfl, rfl, rfl⟩ | ⟨rfl, rfl, rfl⟩ |
      ⟨rfl, rfl, rfl⟩
    · obtain ⟨d, h⟩ := says_createsTable (vw_plain vwTable (by simp)) hq
      cases h
      exact ⟨by decide, rfl, rfl⟩
    · obtain ⟨d, h⟩ := says_createsTable (vw_plain vwView (by simp)) hq
      cases h
    · obtain ⟨d, h⟩ := says_createsTable (vw_plain vwDropView (by simp)) hq
      cases h
    · obtain ⟨d, h⟩ := says_createsTable (vw_plain vwDropTable (by simp)) hq
      cases h
    · obtain ⟨d, h⟩ := says_createsTable (vw_plain vwTable (by simp)) hq
      cases h
      exact ⟨by decide, rfl, rfl⟩
    · obtain ⟨d, h⟩ := says_createsTable (vw_plain vwDropView (by simp)) hq
      cases h
  · intro q x x' s r _ he h1 h2
    obtain ⟨h1, rfl, rfl⟩ := h1
    rcases vw_exec he with ⟨rfl, rfl, rfl⟩ | ⟨rfl, rfl, rfl⟩ | ⟨rfl, rfl, rfl⟩ | ⟨rfl, rfl, rfl⟩ | ⟨rfl, rfl, rfl⟩ |
      ⟨rfl, rfl, rfl⟩
    · exact absurd rfl h1
    · exact absurd ⟨by decide, rfl, rfl⟩ h2
    · exact absurd ⟨by decide, rfl, rfl⟩ h2
    · exact vw_says vwDropTable (by simp) trivial
    · exact absurd ⟨by decide, rfl, rfl⟩ h2
    · exact absurd rfl h1

/-- The table and the view, in either order. -/
def vwDb (first : Bool) : Database :=
  ⟨[("public", ⟨"public", if first
    then [("t", .table ⟨"public", "t", [⟨"public", "t", "id", "int8", false, none⟩], []⟩),
      ("v", .view ⟨"public", "v", "SELECT id FROM t"⟩)]
    else [("v", .view ⟨"public", "v", "SELECT id FROM t"⟩),
      ("t", .table ⟨"public", "t", [⟨"public", "t", "id", "int8", false, none⟩], []⟩)], []⟩)]⟩

theorem vwDb_wf (first : Bool) : (vwDb first).WF := by
  cases first <;>
  · refine ⟨by decide, ?_⟩
    intro p hp
    cases List.mem_singleton.1 hp
    refine ⟨rfl, by dsimp only; decide, ?_, by dsimp only; decide, by simp⟩
    intro p hp
    simp only [Bool.false_eq_true, if_true, if_false, List.mem_cons, List.not_mem_nil, or_false] at hp
    rcases hp with rfl | rfl <;>
    first
      | exact ⟨rfl, rfl, by decide, by decide, by decide, by decide⟩
      | exact ⟨rfl, rfl, trivial⟩

theorem vw_clean {cs : List Change} (h : ∀ c ∈ cs, c ∈ [vwTable, vwView, vwDropView, vwDropTable]) :
    ∀ c ∈ cs, True ∧ ∀ z ∈ c.quotedNames, plain z := fun c hc => ⟨trivial, vw_plain c (h c hc)⟩

theorem vw_drops (first : Bool) : ∀ c ∈ compareDiff (vwDb first) tiEmpty, True ∧ ∀ z ∈ c.quotedNames, plain z := by
  refine vw_clean fun c hc => ?_
  cases first with
  | true =>
    change c ∈ [vwDropTable, vwDropView] at hc
    simp only [List.mem_cons] at hc ⊢
    rcases hc with h | h | h <;> simp_all
  | false =>
    change c ∈ [vwDropView, vwDropTable] at hc
    simp only [List.mem_cons] at hc ⊢
    rcases hc with h | h | h <;> simp_all

theorem vw_creates (first : Bool) : ∀ c ∈ compareDiff tiEmpty (vwDb first), True ∧ ∀ z ∈ c.quotedNames, plain z := by
  refine vw_clean fun c hc => ?_
  cases first with
  | true =>
    change c ∈ [vwTable, vwView] at hc
    simp only [List.mem_cons] at hc ⊢
    rcases hc with h | h | h <;> simp_all
  | false =>
    change c ∈ [vwView, vwTable] at hc
    simp only [List.mem_cons] at hc ⊢
    rcases hc with h | h | h <;> simp_all

/-- podo takes the changes for good ones in either order; the server can run them in only one. -/
example : applyAll (compareDiff (vwDb true) tiEmpty) (vwDb true) = .ok tiEmpty ∧
    (¬ ∃ y, Script vwB 2 ((compareDiff (vwDb true) tiEmpty).map Change.renderSql) y) ∧
    Script vwB 2 ((compareDiff (vwDb false) tiEmpty).map Change.renderSql) 0 :=
  ⟨rfl, C106_table_first_false vwB_reads (vwDb_wf _) tiEmpty_wf (vw_drops _) (n := "public") (r := "t")
    (v := "v") rfl (l1 := []) (l2 := []) (l3 := []) rfl rfl rfl rfl (by simp), script_iff.2 rfl⟩

/-- The view is gone when it is listed first, and the table is dropped after it. -/
example : Script vwB 2 ([vwDropView].map Change.renderSql) 1 ∧ vwOver 1 "public" "v" = none := by
  have h : Script vwB 2 ([vwDropView].map Change.renderSql) 1 := script_iff.2 rfl
  exact ⟨h, C106_view_first_partial vwB_reads (vwDb_wf false) tiEmpty_wf (vw_drops _) (n := "public") (r := "t")
    (v := "v") rfl (l1 := []) (l2 := []) (l3 := []) rfl rfl rfl (pre := [vwDropView]) (post := []) rfl h⟩

/-- The same for creating them. -/
example : applyAll (compareDiff tiEmpty (vwDb false)) tiEmpty = .ok (vwDb false) ∧
    (¬ ∃ y, Script vwB 0 ((compareDiff tiEmpty (vwDb false)).map Change.renderSql) y) ∧
    Script vwB 0 ((compareDiff tiEmpty (vwDb true)).map Change.renderSql) 2 :=
  ⟨rfl, C106_new_view_first_false vwB_reads tiEmpty_wf (vwDb_wf _) (vw_creates _) (n := "public") (r := "t")
    (v := "v") rfl (l1 := []) (l2 := []) (l3 := []) rfl rfl rfl ⟨rfl, rfl, rfl⟩ (fun h => h.1 rfl), script_iff.2 rfl⟩

/-- The table is there when it is listed first, and the view is created after it. -/
example : Script vwB 0 ([vwTable].map Change.renderSql) 1 ∧ vwThere 1 "public" "t" := by
  have h : Script vwB 0 ([vwTable].map Change.renderSql) 1 := script_iff.2 rfl
  exact ⟨h, C106_new_table_first_partial vwB_reads tiEmpty_wf (vwDb_wf true) (vw_creates _) (n := "public") (r := "t")
    (v := "v") rfl (l1 := []) (l2 := []) (l3 := []) rfl rfl rfl (pre := [vwTable]) (post := []) rfl h⟩

/-- On the way down the view is gone when the table is to be dropped. -/
example : Script vwB 2 ([vwDropView].map Change.renderSql) 1 ∧ vwOver 1 "public" "v" = none := by
  have h : Script vwB 2 ([vwDropView].map Change.renderSql) 1 := script_iff.2 rfl
  have ht : TakenFrom (compareDiff tiEmpty (vwDb true)) tiEmpty [vwDropTable, vwDropView] (vwDb true) :=
    .cons (c := vwTable) rfl rfl (.cons (c := vwView) rfl rfl .nil)
  exact ⟨h, C106_down_partial vwB_reads tiEmpty_wf (vwDb_wf true) ht (vw_clean fun c hc => by
      simp only [List.mem_cons, List.not_mem_nil, or_false] at hc ⊢
      exact .inr (.inr hc.symm)) (n := "public") (r := "t")
    (v := "v") rfl (l1 := []) (l2 := []) (l3 := []) rfl rfl rfl (pre := [vwDropView]) (post := []) rfl h⟩

/-- On the way down the table is there again when the view is to be created. -/
example : Script vwB 0 ([vwTable].map Change.renderSql) 1 ∧ vwThere 1 "public" "t" := by
  have h : Script vwB 0 ([vwTable].map Change.renderSql) 1 := script_iff.2 rfl
  have ht : TakenFrom (compareDiff (vwDb false) tiEmpty) (vwDb false) [vwView, vwTable] tiEmpty :=
    .cons (c := vwDropView) rfl rfl (.cons (c := vwDropTable) rfl rfl .nil)
  exact ⟨h, C106_down_removed_partial vwB_reads (vwDb_wf false) tiEmpty_wf ht (vw_clean fun c hc => by
      simp only [List.mem_cons, List.not_mem_nil, or_false] at hc ⊢
      exact hc.elim (.inr ∘ .inl) .inl) (n := "public") (r := "t")
    (v := "v") rfl (l1 := []) (l2 := []) (l3 := []) rfl rfl rfl (pre := [vwTable]) (post := []) rfl h⟩

/-- Whatever the order in which they are listed. -/
example : ∃ s : Database, s.WF ∧ s.content = (vwDb false).content ∧
    ¬ ∃ z, Script vwB 2 ((compareDiff s tiEmpty).map Change.renderSql) z :=
  C106_some_order_false vwB_reads (vwDb_wf false) tiEmpty_wf (vw_drops _) (n := "public") (r := "t") (v := "v") rfl rfl
    rfl rfl rfl rfl (by simp)

example : ∃ t : Database, t.WF ∧ t.content = (vwDb true).content ∧
    (∀ n r, t.tableNamed n r = (vwDb true).tableNamed n r) ∧
    ¬ ∃ z, Script vwB 0 ((compareDiff tiEmpty t).map Change.renderSql) z :=
  C106_some_new_order_false vwB_reads tiEmpty_wf (vwDb_wf true) (vw_creates _) (n := "public") (r := "t") (v := "v")
    rfl rfl rfl rfl rfl ⟨rfl, rfl, rfl⟩ (fun h => h.1 rfl)

/-- The version with the view and the table. -/
def vwFirst : Version :=
  ⟨"20201025_021000-auto", some "init", [vwView, vwTable], [vwView.renderSql, vwTable.renderSql],
    [vwDropTable.renderSql, vwDropView.renderSql]⟩

def vwMade : HDir :=
  [("init.yaml", .file (some Version.newInit)), ("stage.yaml", .file (some (Version.newStage "20201025_021000-auto"))),
    ("20201025_021000-auto.yaml", .file (some vwFirst))]

theorem vwMade_reachable : Reachable vwMade :=
  .step (d := [("init.yaml", .file (some Version.newInit)), ("stage.yaml", .file (some { vwFirst with name := "stage" }))])
    (fuel := 9) (c := .make "20201025_021000" none) (ok := true)
    (.step (d := initDir) (fuel := 9) (c := .stage (.ok (vwDb false))) (ok := true) .init (by intro _ _ h; cases h) rfl)
    (by intro a b h; cases h; exact ⟨by decide +kernel, noYaml (by decide +kernel)⟩) (by decide +kernel)

/-- The database after the version, where the table had been there before. -/
def vwOn : Pg.DB Nat := ⟨.table ⟨[⟨Version.newInit, 1⟩, ⟨vwFirst, 2⟩], 3⟩, 2⟩

/-- With the table there before, `podo up` succeeds, and the theorem says that it was there. -/
example : vwThere 1 "public" "t" :=
  C106_up_false vwB_reads (db := ⟨.absent, 1⟩) (.new 1) vwMade_reachable (fuel := 9) (target := none)
    (db' := vwOn) rfl (ver := vwFirst) (vs := []) rfl tiEmpty_wf (vwDb_wf false) rfl (vw_creates _)
    (n := "public") (r := "t") (v := "v") rfl (l1 := []) (l2 := []) (l3 := []) rfl rfl rfl ⟨rfl, rfl, rfl⟩

/-- In an empty database, `podo up` fails. -/
example : ∃ db' o, Pg.up vwB 9 vwMade none ⟨.absent, 0⟩ = some (db', o) ∧ o ≠ .ok := by
  have h : Pg.up vwB 9 vwMade none ⟨.absent, 0⟩ = some _ := rfl
  exact ⟨_, _, h, by intro e; cases e⟩

/-- The versions with the table and the view, and without them. -/
def vwFirst₂ : Version :=
  ⟨"20201025_021000-auto", some "init", [vwTable, vwView], [vwTable.renderSql, vwView.renderSql],
    [vwDropView.renderSql, vwDropTable.renderSql]⟩
def vwSecond : Version :=
  ⟨"20210101_000000-auto", some "20201025_021000-auto", [vwDropTable, vwDropView],
    [vwDropTable.renderSql, vwDropView.renderSql], [vwView.renderSql, vwTable.renderSql]⟩

def vwMade₂ : HDir :=
  [("init.yaml", .file (some Version.newInit)), ("stage.yaml", .file (some (Version.newStage "20201025_021000-auto"))),
    ("20201025_021000-auto.yaml", .file (some vwFirst₂))]

def vwMade₃ : HDir :=
  [("init.yaml", .file (some Version.newInit)), ("stage.yaml", .file (some (Version.newStage "20210101_000000-auto"))),
    ("20201025_021000-auto.yaml", .file (some vwFirst₂)), ("20210101_000000-auto.yaml", .file (some vwSecond))]

theorem vwMade₂_reachable : Reachable vwMade₂ :=
  .step (d := [("init.yaml", .file (some Version.newInit)), ("stage.yaml", .file (some { vwFirst₂ with name := "stage" }))])
    (fuel := 9) (c := .make "20201025_021000" none) (ok := true)
    (.step (d := initDir) (fuel := 9) (c := .stage (.ok (vwDb true))) (ok := true) .init (by intro _ _ h; cases h) rfl)
    (by intro a b h; cases h; exact ⟨by decide +kernel, noYaml (by decide +kernel)⟩) (by decide +kernel)

theorem vwMade₃_reachable : Reachable vwMade₃ :=
  .step (d := [("init.yaml", .file (some Version.newInit)), ("stage.yaml", .file (some { vwSecond with name := "stage" })),
      ("20201025_021000-auto.yaml", .file (some vwFirst₂))])
    (fuel := 9) (c := .make "20210101_000000" none) (ok := true)
    (.step (d := vwMade₂) (fuel := 9) (c := .stage (.ok tiEmpty)) (ok := true) vwMade₂_reachable
      (by intro _ _ h; cases h) rfl)
    (by intro a b h; cases h; exact ⟨by decide +kernel, noYaml (by decide +kernel)⟩) (by decide +kernel)

/-- The database on the first version; where it still has its view, and where someone has dropped the view by hand. -/
def vwOn₂ (x : Nat) : Pg.DB Nat := ⟨.table ⟨[⟨Version.newInit, 1⟩, ⟨vwFirst₂, 2⟩], 3⟩, x⟩
def vwOn₃ : Pg.DB Nat := ⟨.table ⟨[⟨Version.newInit, 1⟩, ⟨vwFirst₂, 2⟩, ⟨vwSecond, 3⟩], 4⟩, 0⟩

theorem vw_reach : Pg.Reach vwB (vwOn₂ 2) :=
  .up (fuel := 9) (d := vwMade₂) (target := none) (o := .ok) (.new 0) vwMade₂_reachable.namedAfterVersion rfl

/-- With the view there, `podo up` fails. -/
example : ∃ db' o, Pg.up vwB 9 vwMade₃ none (vwOn₂ 2) = some (db', o) ∧ o ≠ .ok := by
  have h : Pg.up vwB 9 vwMade₃ none (vwOn₂ 2) = some _ := rfl
  exact ⟨_, _, h, by intro e; cases e⟩

/-- Without it, `podo up` succeeds, and the theorem says that no view read the table. -/
example : ∀ rs, vwOver 1 "public" "v" = some rs → ("public", "t") ∉ rs :=
  C106_up_removed_false vwB_reads (db := vwOn₂ 1) (.elsewhere 1 vw_reach) vwMade₃_reachable (fuel := 9) (target := none)
    (db' := vwOn₃) rfl (ver := vwSecond) (vs := []) rfl (vwDb_wf true) tiEmpty_wf rfl (vw_drops _)
    (n := "public") (r := "t") (v := "v") rfl (l1 := []) (l2 := []) (l3 := []) rfl rfl rfl
end Podo
