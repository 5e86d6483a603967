import Verif.Proofs.Along
import Verif.Props.Commands
import Verif.Props.Pg
import Verif.Props.Keep
/-
C104: what goes along with a column that is dropped.
-/
namespace Podo
open Pg Change Diff
variable {σ : Type} {B : Behaviour σ} {cons : σ → String → String → String → Option (List String)}
  {clean : String → Prop}

/-- The places of a table and one of its constraints, in two snapshots. -/
theorem constraint_models {s t : Database} (hs : s.WF) (ht : t.WF) {n r m : String} {o : Constraint}
    (ho : s.content.objAt (.constraint n r m) = some (.constraint o)) (hr : t.content.tableAt n r ≠ none)
    (ho' : ∀ o', t.content.objAt (.constraint n r m) = some (.constraint o') → o'.untimed ≠ o.untimed) :
    ∃ x y, Around (Away n r) (compareDiff s t) (tableUpdate x y) ∧ x.WF ∧ y.WF ∧ x.schemaName = n ∧ x.name = r ∧
      y.schemaName = n ∧ y.name = r ∧ x.constraints.get? m = some o ∧
      (∀ o', y.constraints.get? m = some o' → o'.untimed ≠ o.untimed) ∧
      (∀ k, s.content.objAt (.column n r k) = (columnNamed x.columns k).map .column) ∧
      ∀ k, t.content.objAt (.column n r k) = (columnNamed y.columns k).map .column := by
  obtain ⟨tb, h1⟩ : ∃ tb, s.content.tableAt n r = some tb := by
    cases h : s.content.tableAt n r with
    | none => simp [Content.objAt, h] at ho
    | some tb => exact ⟨tb, rfl⟩
  obtain ⟨tb', h2⟩ := Option.ne_none_iff_exists'.1 hr
  obtain ⟨a, x, ha, hx⟩ := tableAt_model h1
  obtain ⟨b, y, hb, hy⟩ := tableAt_model h2
  have hma := hs.home _ (AMap.mem_of_get? ha)
  have hmb := ht.home _ (AMap.mem_of_get? hb)
  have hmx := hma.2.rels_home _ (AMap.mem_of_get? hx)
  have hmy := hmb.2.rels_home _ (AMap.mem_of_get? hy)
  have es : s.content.tableAt n r = some x.content := by
    simp [Content.tableAt, Database.content, Schema.content, ha, hx, Relation.content, RelContent.table?]
  have et : t.content.tableAt n r = some y.content := by
    simp [Content.tableAt, Database.content, Schema.content, hb, hy, Relation.content, RelContent.table?]
  refine ⟨x, y, diff_around hs ht ha hx hb hy, hmx.2.2, hmy.2.2, hmx.2.1.trans hma.1, hmx.1, hmy.2.1.trans hmb.1, hmy.1,
    ?_, ?_, ?_, ?_⟩
  · simpa [Content.objAt, es, Table.content] using ho
  · intro o' h
    exact ho' o' (by simp [Content.objAt, et, Table.content, h])
  · intro k; simp [Content.objAt, es, Table.content]
  · intro k; simp [Content.objAt, et, Table.content]

/-- Where the statements that drop a constraint, and a column of its table, stand among the changes. -/
theorem along_order {s t : Database} (hs : s.WF) (ht : t.WF) {n r m : String} {o : Constraint}
    (ho : s.content.objAt (.constraint n r m) = some (.constraint o)) (hr : t.content.tableAt n r ≠ none)
    (ho' : ∀ o', t.content.objAt (.constraint n r m) = some (.constraint o') → o'.untimed ≠ o.untimed) :
    ∃ pre d post, compareDiff s t = pre ++ d :: post ∧ d.DropsConstraint n r m ∧ d.TextRight ∧
      (∀ c ∈ pre, ¬ c.AddsConstraint n r m ∧ ¬ c.DropsConstraint n r m) ∧ (∀ c ∈ post, ¬ c.DropsConstraint n r m) ∧
      ∀ k, s.content.objAt (.column n r k) ≠ none → t.content.objAt (.column n r k) = none →
        .dropColumn n r k ∈ pre := by
  obtain ⟨x, y, ⟨p, q, e, hp, hq⟩, hwx, hwy, rfl, rfl, hy1, hy2, hox, hoy, hcx, hcy⟩ := constraint_models hs ht ho hr ho'
  obtain ⟨rest, ⟨p', q', e', hp', hq'⟩, hrest⟩ := cons_around hwx hwy hy1.symm hy2.symm hox hoy x.schemaName x.name
  obtain ⟨d, hd, hd1, hd2⟩ := constraintDrop_single hwx hox
  refine ⟨p ++ (colsPart x y ++ p'), d, rest ++ q' ++ q, ?_, hd1, hd2, ?_, ?_, ?_⟩
  · rw [e, tableUpdate_eq, e', hd]
    simp
  · intro c hc
    simp only [List.mem_append] at hc
    rcases hc with hc | hc | hc
    · exact away_not (hp c hc)
    · exact colTable_not (colTable_colsPart hwx hwy hy1.symm hy2.symm hc) _ _ _
    · exact hp' c hc
  · intro c hc
    simp only [List.mem_append] at hc
    rcases hc with (hc | hc) | hc
    · exact hrest c hc
    · exact (hq' c hc).2
    · exact (away_not (hq c hc)).2
  · intro k h1 h2
    rw [hcx] at h1
    rw [hcy] at h2
    cases hk : columnNamed x.columns k with
    | none => rw [hk] at h1; exact absurd rfl h1
    | some c =>
      exact List.mem_append_right _ (List.mem_append_left _ (dropColumn_mem hwx hk (by simpa using h2)))

theorem not_came (hB : DropsAlong B cons clean) {n r m : String} {c : Change} (h1 : clean c.renderSql)
    (h2 : ∀ z ∈ c.quotedNames, plain z) (h3 : ¬ c.AddsConstraint n r m) (h4 : ∀ a b, c ≠ .renameColumn n r a b)
    {x x' : σ} (he : B.exec x c.renderSql = some x') {cols : List String} (hc : cons x' n r m = some cols) :
    cons x n r m = some cols := by
  apply Classical.byContradiction
  intro hne
  obtain ⟨k, hk, hk' | ⟨a, b, rfl⟩⟩ := hB.comes _ _ _ _ _ _ _ h1 he hc hne
  · exact h3 (says_adds h2 hk hk')
  · obtain ⟨b', rfl⟩ := says_renames h2 hk
    exact h4 _ _ rfl

theorem script_back (hB : DropsAlong B cons clean) {n r m : String} {cs : List Change}
    (hc : ∀ c ∈ cs, clean c.renderSql ∧ (∀ z ∈ c.quotedNames, plain z) ∧ ¬ c.AddsConstraint n r m ∧
      ∀ a b, c ≠ .renameColumn n r a b) {x x' : σ} (h : Script B x (cs.map Change.renderSql) x') {cols : List String}
    (hx : cons x' n r m = some cols) : cons x n r m = some cols := by
  induction cs generalizing x with
  | nil => cases h; exact hx
  | cons c cs ih =>
    cases h with
    | @cons _ _ y _ _ he hs =>
      obtain ⟨h1, h2, h3, h4⟩ := hc c List.mem_cons_self
      exact not_came hB h1 h2 h3 h4 he (ih (fun c hm => hc c (List.mem_cons_of_mem _ hm)) hs)

theorem script_forth (hB : DropsAlong B cons clean) {n r m : String} {cs : List Change} {cols : List String}
    (hc : ∀ c ∈ cs, clean c.renderSql ∧ (∀ z ∈ c.quotedNames, plain z) ∧ ¬ c.DropsConstraint n r m ∧
      (∀ k ∈ cols, c ≠ .dropColumn n r k) ∧ c ≠ .dropTable n r ∧
      ∀ a b, c ≠ .renameColumn n r a b) {x x' : σ} (h : Script B x (cs.map Change.renderSql) x')
    (hx : cons x n r m = some cols) : cons x' n r m = some cols := by
  induction cs generalizing x with
  | nil => cases h; exact hx
  | cons c cs ih =>
    cases h with
    | @cons _ _ y _ _ he hs =>
      obtain ⟨h1, h2, h3, h4, h5, h6⟩ := hc c List.mem_cons_self
      refine ih (fun c hm => hc c (List.mem_cons_of_mem _ hm)) hs ?_
      apply Classical.byContradiction
      intro hne
      obtain ⟨k, hk, hk' | ⟨k', hk', rfl⟩ | rfl | ⟨a, b, rfl⟩⟩ := hB.goes _ _ _ _ _ _ _ h1 he hx hne
      · exact h3 (says_drops h2 hk hk')
      · exact h4 _ hk' (says_dropsColumn h2 hk)
      · exact h5 (says_dropsTable h2 hk)
      · obtain ⟨b', rfl⟩ := says_renames h2 hk
        exact h6 _ _ rfl

/-- C104 is false where a column is removed and so is a constraint over it (`cols`: its columns in the database), or the
constraint is replaced by one over other columns: wherever the changes are carried out, the script cannot be run to its
end.  `DROP COLUMN` comes first and takes the constraint along, and `DROP CONSTRAINT` is refused. -/
theorem C104_column_false (hB : DropsAlong B cons clean) {s t : Database} (hs : s.WF) (ht : t.WF)
    (hclean : ∀ c ∈ compareDiff s t, clean c.renderSql ∧ ∀ z ∈ c.quotedNames, plain z)
    {n r m k : String} {o : Constraint} {cols : List String}
    (ho : s.content.objAt (.constraint n r m) = some (.constraint o)) (hr : t.content.tableAt n r ≠ none)
    (ho' : ∀ o', t.content.objAt (.constraint n r m) = some (.constraint o') → o'.untimed ≠ o.untimed)
    (hk : s.content.objAt (.column n r k) ≠ none) (hk' : t.content.objAt (.column n r k) = none)
    {x : σ} (hx : cons x n r m = some cols) (hkc : k ∈ cols) :
    ¬ ∃ y, Script B x ((compareDiff s t).map Change.renderSql) y := by
  rintro ⟨y, h⟩
  obtain ⟨pre, d, post, e, h1, h2, h3, _, h5⟩ := along_order hs ht ho hr ho'
  obtain ⟨p, q, hpq⟩ := List.append_of_mem (h5 k hk hk')
  have hok : ∀ c ∈ pre, clean c.renderSql ∧ (∀ z ∈ c.quotedNames, plain z) ∧ ¬ c.AddsConstraint n r m ∧
      ∀ a b, c ≠ .renameColumn n r a b := by
    intro c hc
    have hm : c ∈ compareDiff s t := by rw [e]; exact List.mem_append_left _ hc
    refine ⟨(hclean c hm).1, (hclean c hm).2, (h3 c hc).1, ?_⟩
    rintro a b rfl
    exact C06_every_change_needed hs ht hm
  have hdm : d ∈ compareDiff s t := by rw [e]; exact List.mem_append_right _ List.mem_cons_self
  have hcm : Change.dropColumn n r k ∈ pre := h5 k hk hk'
  have hcd : Change.dropColumn n r k ∈ compareDiff s t := by rw [e]; exact List.mem_append_left _ hcm
  rw [e, hpq, List.map_append, List.map_append, List.map_cons, List.map_cons] at h
  obtain ⟨x₃, ha, hb⟩ := script_append.1 h
  obtain ⟨x₁, ha, hc⟩ := script_append.1 ha
  cases hc with
  | @cons _ _ x₂ _ _ hc hq =>
    cases hb with
    | @cons _ _ x₄ _ _ hd _ =>
      rw [hpq] at hok
      have hsd : Says d.renderSql d := (C56_sql_says_change_partial d (hclean d hdm).2
        (by rintro _ _ _ _ _ _ _ _ _ _ _ _ rfl; exact h1.elim) (by rintro _ _ _ _ _ _ rfl; exact h1.elim)).2 h2
      have hsc : Says (Change.dropColumn n r k).renderSql (.dropColumn n r k) :=
        (C56_sql_says_change_partial _ (hclean _ hcd).2 (by intros; contradiction) (by intros; contradiction)).2 trivial
      cases hx3 : cons x₃ n r m with
      | none => rw [hB.refused _ _ _ _ _ _ hsd h1 hx3] at hd; cases hd
      | some cols' =>
        have hx2 := script_back hB (fun c hc => hok c (List.mem_append_right _ (List.mem_cons_of_mem _ hc))) hq hx3
        obtain ⟨g1, g2, g3, g4⟩ := hok _ (List.mem_append_right _ List.mem_cons_self)
        have hx1 := not_came hB g1 g2 g3 g4 hc hx2
        have hx0 := script_back hB (fun c hc => hok c (List.mem_append_left _ hc)) ha hx1
        rw [hx] at hx0
        cases hx0
        rw [hB.along _ _ _ _ _ _ _ _ hsc hc hx1 hkc] at hx2
        cases hx2

theorem split_at {α : Type} {D : α → Prop} {pre post p w : List α} {c d : α} (h : pre ++ c :: post = p ++ d :: w)
    (hp : ∀ z ∈ p, ¬ D z) (hw : ∀ z ∈ w, ¬ D z) (hc : D c) : pre = p := by
  rcases List.append_eq_append_iff.1 h with ⟨l, h1, h2⟩ | ⟨l, h1, h2⟩
  · cases l with
    | nil => simpa using h1.symm
    | cons z l =>
      injection h2 with h2 h3
      subst h2
      exact absurd hc (hp c (by rw [h1]; simp))
  · cases l with
    | nil => simpa using h1
    | cons z l =>
      injection h2 with h2 h3
      exact absurd hc (hw c (by rw [h3]; simp))

/-- C104 (partial): where no column of the constraint is removed, the constraint is there, over the columns it was over,
when the script comes to drop it, however the rest of the script goes.  Missing: constraints over columns that are
removed as well, see `C104_column_false`. -/
theorem C104_still_there_partial (hB : DropsAlong B cons clean) {s t : Database} (hs : s.WF) (ht : t.WF)
    (hclean : ∀ c ∈ compareDiff s t, clean c.renderSql ∧ ∀ z ∈ c.quotedNames, plain z)
    {n r m : String} {o : Constraint} {cols : List String}
    (ho : s.content.objAt (.constraint n r m) = some (.constraint o)) (hr : t.content.tableAt n r ≠ none)
    (ho' : ∀ o', t.content.objAt (.constraint n r m) = some (.constraint o') → o'.untimed ≠ o.untimed)
    (hk : ∀ k ∈ cols, t.content.objAt (.column n r k) ≠ none)
    {x x' : σ} (hx : cons x n r m = some cols) {pre post : List Change} {c : Change}
    (he : compareDiff s t = pre ++ c :: post) (hc : c.DropsConstraint n r m)
    (h : Script B x (pre.map Change.renderSql) x') : cons x' n r m = some cols := by
  obtain ⟨p, d, w, e, h1, h2, h3, h4, h5⟩ := along_order hs ht ho hr ho'
  obtain rfl := split_at (D := fun c => c.DropsConstraint n r m) (he.symm.trans e) (fun z hz => (h3 z hz).2) h4 hc
  refine script_forth hB (fun c hc => ?_) h hx
  have hm : c ∈ compareDiff s t := by rw [e]; exact List.mem_append_left _ hc
  have hn := C06_every_change_needed hs ht hm
  refine ⟨(hclean c hm).1, (hclean c hm).2, (h3 c hc).2, ?_, ?_, ?_⟩
  · rintro k hkc rfl
    exact hk k hkc hn.2
  · rintro rfl
    exact hr hn.2
  · rintro a b rfl
    exact hn

/-- For `podo up`: a version with such changes can be made, but never applied.  Where `podo up` succeeds, the first
version it has applied is not one whose changes lead from a snapshot to one without a column and without, or with
another, constraint over it. -/
theorem C104_up_false (hB : DropsAlong B cons clean) {db db' : DB σ} (hr : Pg.Reach B db) {d : HDir} (hd : Reachable d)
    {fuel : Nat} {target : Option String} (h : Pg.up B fuel d target db = some (db', .ok))
    {v : Version} {vs : List Version} (hv : db'.applied = db.applied ++ v :: vs)
    {s t : Database} (hs : s.WF) (ht : t.WF) (hch : v.changes = compareDiff s t)
    (hclean : ∀ c ∈ compareDiff s t, clean c.renderSql ∧ ∀ z ∈ c.quotedNames, plain z)
    {n r m k : String} {o : Constraint} {cols : List String}
    (ho : s.content.objAt (.constraint n r m) = some (.constraint o)) (htr : t.content.tableAt n r ≠ none)
    (ho' : ∀ o', t.content.objAt (.constraint n r m) = some (.constraint o') → o'.untimed ≠ o.untimed)
    (hk : s.content.objAt (.column n r k) ≠ none) (hk' : t.content.objAt (.column n r k) = none)
    (hx : cons db.data n r m = some cols) : k ∉ cols := by
  intro hkc
  obtain ⟨_, _, ws, _, _, _, _, h5, h6, h7, _⟩ := C31_up_applies_missing_partial hr hd.namedAfterVersion h
  rw [hv] at h7
  obtain rfl := List.append_cancel_left h7
  rw [List.flatMap_cons] at h6
  obtain ⟨y, h6, _⟩ := script_append.1 h6
  rw [(C28_scripts_aligned hd (h5 v List.mem_cons_self)).1, hch] at h6
  exact C104_column_false hB hs ht hclean ho htr ho' hk hk' hx hkc ⟨y, h6⟩

/-! ### A table with a check constraint over one of its columns, or over none -/

def alongCreate : Change := .createTable "public" "t" [⟨"id", "int8", false, none⟩, ⟨"x", "int8", false, none⟩]
def alongAdd : Change := .addCheck "public" "t" "u" "(true)" false false
def alongColumn : Change := .dropColumn "public" "t" "x"
def alongDrop : Change := .dropCheck "public" "t" "u"

/-- A server that knows four statements.  Its state says how far it has come: 0 nothing, 1 the table, 2 the table and
the constraint, 3 only the constraint's column is gone, 4 and 5 both are gone, one by one or at once.  `w`: the
constraint is over the column. -/
def alongB (w : Bool) : Pg.Behaviour Nat :=
  ⟨fun x q => if x = 0 ∧ q = alongCreate.renderSql then some 1
    else if x = 1 ∧ q = alongAdd.renderSql then some 2
    else if x = 2 ∧ q = alongColumn.renderSql then some (if w then 5 else 3)
    else if x = 3 ∧ q = alongDrop.renderSql then some 4
    else if x = 2 ∧ q = alongDrop.renderSql then some 1
    else none,
   fun _ => true, fun _ => true, fun _ => true⟩

def alongCons (w : Bool) (x : Nat) (s t n : String) : Option (List String) :=
  if (x = 2 ∨ x = 3) ∧ s = "public" ∧ t = "t" ∧ n = "u" then some (if w then ["x"] else []) else none

theorem along_exec {w : Bool} {x x' : Nat} {q : String} (h : (alongB w).exec x q = some x') :
    (x = 0 ∧ q = alongCreate.renderSql ∧ x' = 1) ∨ (x = 1 ∧ q = alongAdd.renderSql ∧ x' = 2) ∨
    (x = 2 ∧ q = alongColumn.renderSql ∧ x' = if w then 5 else 3) ∨ (x = 3 ∧ q = alongDrop.renderSql ∧ x' = 4) ∨
    (x = 2 ∧ q = alongDrop.renderSql ∧ x' = 1) := by
  simp only [alongB] at h
  split at h
  · next e => cases h; exact .inl ⟨e.1, e.2, rfl⟩
  · split at h
    · next e => cases h; exact .inr (.inl ⟨e.1, e.2, rfl⟩)
    · split at h
      · next e => injection h with h; exact .inr (.inr (.inl ⟨e.1, e.2, h.symm⟩))
      · split at h
        · next e => cases h; exact .inr (.inr (.inr (.inl ⟨e.1, e.2, rfl⟩)))
        · split at h
          · next e => cases h; exact .inr (.inr (.inr (.inr ⟨e.1, e.2, rfl⟩)))
          · cases h

theorem along_plain : ∀ c ∈ [alongCreate, alongAdd, alongColumn, alongDrop], ∀ z ∈ c.quotedNames, plain z := by
  unfold plain
  decide

theorem alongCons_some {w : Bool} {x : Nat} {s t n : String} {cols : List String}
    (h : alongCons w x s t n = some cols) : (x = 2 ∨ x = 3) ∧ s = "public" ∧ t = "t" ∧ n = "u" ∧
      cols = if w then ["x"] else [] := by
  simp only [alongCons] at h
  split at h
  · next e => injection h with h; exact ⟨e.1, e.2.1, e.2.2.1, e.2.2.2, h.symm⟩
  · cases h

theorem alongB_drops (w : Bool) : DropsAlong (alongB w) (alongCons w) (fun _ => True) := by
  constructor
  · intro q x x' s t k n cols hq he hc hk
    obtain ⟨hx, rfl, rfl, rfl, rfl⟩ := alongCons_some hc
    cases w with
    | false => cases hk
    | true =>
      rcases along_exec he with ⟨rfl, _, _⟩ | ⟨rfl, _, _⟩ | ⟨rfl, _, rfl⟩ | ⟨rfl, _, rfl⟩ | ⟨rfl, _, rfl⟩
      · simp at hx
      · simp at hx
      · rfl
      · rfl
      · rfl
  · intro q x s t n c hq hd hc
    cases he : (alongB w).exec x q with
    | none => rfl
    | some x' =>
      exfalso
      rcases along_exec he with ⟨rfl, rfl, _⟩ | ⟨rfl, rfl, _⟩ | ⟨rfl, rfl, _⟩ | ⟨rfl, rfl, _⟩ | ⟨rfl, rfl, _⟩
      · exact says_drops (along_plain _ (by simp)) hq hd
      · exact says_drops (along_plain _ (by simp)) hq hd
      · exact says_drops (along_plain _ (by simp)) hq hd
      · obtain ⟨rfl, rfl, rfl⟩ := says_drops (along_plain _ (by simp)) hq hd
        cases hc
      · obtain ⟨rfl, rfl, rfl⟩ := says_drops (along_plain _ (by simp)) hq hd
        cases hc
  · intro q x x' s t n cols _ he hc hne
    obtain ⟨hx, rfl, rfl, rfl, rfl⟩ := alongCons_some hc
    rcases along_exec he with ⟨rfl, rfl, rfl⟩ | ⟨rfl, rfl, rfl⟩ | ⟨rfl, rfl, rfl⟩ | ⟨rfl, rfl, rfl⟩ | ⟨rfl, rfl, rfl⟩
    · simp at hx
    · exact ⟨alongAdd, (C56_sql_says_change_partial alongAdd (along_plain _ (by simp)) (by intros; contradiction)
        (by intros; contradiction)).2 ⟨⟨"true", rfl⟩, rfl, rfl⟩, .inl ⟨rfl, rfl, rfl⟩⟩
    · exact absurd (by simp [alongCons]) hne
    · simp at hx
    · simp at hx
  · intro q x x' s t n cols _ he hc hne
    obtain ⟨hx, rfl, rfl, rfl, rfl⟩ := alongCons_some hc
    rcases along_exec he with ⟨rfl, rfl, rfl⟩ | ⟨rfl, rfl, rfl⟩ | ⟨rfl, rfl, rfl⟩ | ⟨rfl, rfl, rfl⟩ | ⟨rfl, rfl, rfl⟩
    · simp at hx
    · simp at hx
    · cases w with
      | false => exact absurd rfl hne
      | true =>
        exact ⟨alongColumn, ⟨.dropColumn "public" "t" "x", rfl, .inr (by decide)⟩, .inr (.inl ⟨"x", by simp, rfl⟩)⟩
    · exact ⟨alongDrop, ⟨.dropConstraint "public" "t" "u", rfl, .inr (by decide)⟩, .inl ⟨rfl, rfl, rfl⟩⟩
    · exact ⟨alongDrop, ⟨.dropConstraint "public" "t" "u", rfl, .inr (by decide)⟩, .inl ⟨rfl, rfl, rfl⟩⟩

/-- The table, with and without the column `x` and the constraint. -/
def alongDb (col con : Bool) : Database :=
  ⟨[("public", ⟨"public", [("t", .table ⟨"public", "t", ⟨"public", "t", "id", "int8", false, none⟩ ::
    (if col then [⟨"public", "t", "x", "int8", false, none⟩] else []),
    if con then [("u", .check ⟨"public", "t", "u", "(true)", false, false⟩)] else []⟩)], []⟩)]⟩

theorem alongDb_wf (col con : Bool) : (alongDb col con).WF := by
  cases col <;> cases con <;>
  · refine ⟨by decide, ?_⟩
    intro p hp
    cases List.mem_singleton.1 hp
    refine ⟨rfl, by dsimp only; decide, ?_, by dsimp only; decide, by simp⟩
    intro p hp
    cases List.mem_singleton.1 hp
    exact ⟨rfl, rfl, by decide, by decide, by decide, by decide⟩

theorem along_clean : ∀ c ∈ compareDiff (alongDb true true) (alongDb false false), True ∧ ∀ z ∈ c.quotedNames, plain z := by
  intro c hc
  change c ∈ [alongColumn, alongDrop] at hc
  exact ⟨trivial, along_plain c (by simp only [List.mem_cons] at hc ⊢; rcases hc with h | h | h <;> simp_all)⟩

/-- podo takes the changes for good ones, and writes two statements; the server cannot run the second. -/
example : applyAll (compareDiff (alongDb true true) (alongDb false false)) (alongDb true true) = .ok (alongDb false false) ∧
    ¬ ∃ y, Script (alongB true) 2 ((compareDiff (alongDb true true) (alongDb false false)).map Change.renderSql) y :=
  ⟨rfl, C104_column_false (alongB_drops true) (alongDb_wf _ _) (alongDb_wf _ _) along_clean (n := "public") (r := "t")
    (m := "u") (k := "x") (o := .check ⟨"public", "t", "u", "(true)", false, false⟩) (cols := ["x"]) rfl
    (by intro h; cases h) (by intro o' h; cases h) (by intro h; cases h) rfl rfl (by simp)⟩

/-- A constraint over no column is still there after the column has been dropped. -/
example : Script (alongB false) 2 ([alongColumn].map Change.renderSql) 3 ∧ alongCons false 3 "public" "t" "u" = some [] := by
  have h : Script (alongB false) 2 ([alongColumn].map Change.renderSql) 3 := script_iff.2 rfl
  exact ⟨h, C104_still_there_partial (alongB_drops false) (alongDb_wf true true) (alongDb_wf false false) along_clean
    (n := "public") (r := "t") (m := "u") (o := .check ⟨"public", "t", "u", "(true)", false, false⟩) (cols := []) rfl
    (by intro h; cases h) (by intro o' h; cases h) (by simp) rfl (pre := [alongColumn]) (post := []) (c := alongDrop) rfl
    ⟨rfl, rfl, rfl⟩ h⟩

/-- The version with the table, and the one after it. -/
def alongFirst : Version :=
  ⟨"20201025_021000-auto", some "init", [alongCreate, alongAdd], [alongCreate.renderSql, alongAdd.renderSql],
    [alongDrop.renderSql, (Change.dropTable "public" "t").renderSql]⟩
def alongSecond : Version :=
  ⟨"20210101_000000-auto", some "20201025_021000-auto", [alongColumn, alongDrop],
    [alongColumn.renderSql, alongDrop.renderSql],
    [alongAdd.renderSql, (Change.addColumn "public" "t" "x" "int8" false none).renderSql]⟩

def alongMade : HDir :=
  [("init.yaml", .file (some Version.newInit)), ("stage.yaml", .file (some (Version.newStage "20201025_021000-auto"))),
    ("20201025_021000-auto.yaml", .file (some alongFirst))]

def alongMade₂ : HDir :=
  [("init.yaml", .file (some Version.newInit)), ("stage.yaml", .file (some (Version.newStage "20210101_000000-auto"))),
    ("20201025_021000-auto.yaml", .file (some alongFirst)), ("20210101_000000-auto.yaml", .file (some alongSecond))]

theorem alongMade_reachable : Reachable alongMade :=
  .step (d := [("init.yaml", .file (some Version.newInit)), ("stage.yaml", .file (some { alongFirst with name := "stage" }))])
    (fuel := 9) (c := .make "20201025_021000" none) (ok := true)
    (.step (d := initDir) (fuel := 9) (c := .stage (.ok (alongDb true true))) (ok := true) .init (by intro _ _ h; cases h) rfl)
    (by intro a b h; cases h; exact ⟨by decide +kernel, noYaml (by decide +kernel)⟩) (by decide +kernel)

theorem alongMade₂_reachable : Reachable alongMade₂ :=
  .step (d := [("init.yaml", .file (some Version.newInit)), ("stage.yaml", .file (some { alongSecond with name := "stage" })),
      ("20201025_021000-auto.yaml", .file (some alongFirst))])
    (fuel := 9) (c := .make "20210101_000000" none) (ok := true)
    (.step (d := alongMade) (fuel := 9) (c := .stage (.ok (alongDb false false))) (ok := true) alongMade_reachable
      (by intro _ _ h; cases h) rfl)
    (by intro a b h; cases h; exact ⟨by decide +kernel, noYaml (by decide +kernel)⟩) (by decide +kernel)

/-- The database on the first version, and on the second. -/
def alongOn : Pg.DB Nat := ⟨.table ⟨[⟨Version.newInit, 1⟩, ⟨alongFirst, 2⟩], 3⟩, 2⟩
def alongOn₂ : Pg.DB Nat := ⟨.table ⟨[⟨Version.newInit, 1⟩, ⟨alongFirst, 2⟩, ⟨alongSecond, 3⟩], 4⟩, 4⟩

theorem along_reach (w : Bool) : Pg.Reach (alongB w) alongOn :=
  .up (fuel := 9) (d := alongMade) (target := none) (o := .ok) (.new 0) alongMade_reachable.namedAfterVersion
    (by cases w <;> rfl)

/-- With the constraint over no column, `podo up` succeeds, and the theorem says that the constraint is not over `x`. -/
example : "x" ∉ ([] : List String) :=
  C104_up_false (alongB_drops false) (along_reach false) alongMade₂_reachable (fuel := 9) (target := none)
    (db' := alongOn₂) rfl (v := alongSecond) (vs := []) rfl (alongDb_wf true true) (alongDb_wf false false) rfl along_clean
    (n := "public") (r := "t") (m := "u") (k := "x") (o := .check ⟨"public", "t", "u", "(true)", false, false⟩) rfl
    (by intro h; cases h) (by intro o' h; cases h) (by intro h; cases h) rfl rfl

/-- With the constraint over the column, `podo up` fails. -/
example : ∃ db' o, Pg.up (alongB true) 9 alongMade₂ none alongOn = some (db', o) ∧ o ≠ .ok := by
  have h : Pg.up (alongB true) 9 alongMade₂ none alongOn = some _ := rfl
  exact ⟨_, _, h, by intro e; cases e⟩
end Podo
