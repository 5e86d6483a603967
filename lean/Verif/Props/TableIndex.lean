import Verif.Proofs.TableIndex
import Verif.Proofs.DiffSame
import Verif.Props.Along
import Verif.Spec.Errors
/-
C105: what goes along with a table that is dropped.
-/
namespace Podo
open Pg Change Diff
variable {σ : Type} {B : Behaviour σ} {idx : σ → String → String → Option String} {clean : String → Prop}

/-- The relations of a schema are compared in their order, all together. -/
theorem relations_within {s t : Database} (hs : s.WF) {n : String} {a : Schema} (ha : s.schemas.get? n = some a) :
    ∃ A f C, compareDiff s t = A ++ (a.relations.flatMap f ++ C) ∧
      ∀ p ∈ a.relations, t.content.objAt (.relation n p.1) = none → f p = relationDrop p.2 := by
  have hma := hs.home _ (AMap.mem_of_get? ha)
  obtain ⟨l1, l2, hl⟩ := List.append_of_mem (AMap.mem_of_get? ha)
  have hin : ∃ A f C, schemaPart t (n, a) = A ++ (a.relations.flatMap f ++ C) ∧
      ∀ p ∈ a.relations, t.content.objAt (.relation n p.1) = none → f p = relationDrop p.2 := by
    have hna : a.name = n := hma.1
    cases hb : t.schemas.get? n with
    | none =>
      refine ⟨[], fun p => relationDrop p.2, (a.functions.flatMap fun p => functionDrop p.2) ++ [.dropSchema a.name], ?_,
        fun _ _ _ => rfl⟩
      simp only [schemaPart, hna, hb, schemaDrop_eq, contentsDrop, List.nil_append, List.append_assoc]
    | some b =>
      refine ⟨b.relations.flatMap fun p => if a.hasRelation p.2.name then [] else relationCreate p.2,
        fun p => match b.relations.get? p.2.name with
          | some ti => relationUpdate p.2 ti
          | none => relationDrop p.2,
        (b.functions.values.flatMap fun ti => if a.hasFunction ti.name then [] else functionCreate ti) ++
          (a.functions.values.flatMap fun si =>
            match b.functions.get? si.name with
            | some ti => functionUpdate si ti
            | none => functionDrop si), ?_, ?_⟩
      · have e : schemaPart t (n, a) = schemaUpdate a b := by simp only [schemaPart, hna, hb]
        rw [e, schemaUpdate_split, List.append_assoc]
        rfl
      · intro p hp ht
        have hpn : p.2.name = p.1 := (hma.2.rels_home p hp).1
        have hg : b.relations.get? p.1 = none := by
          simpa [Content.objAt, Database.content, Schema.content, hb] using ht
        simp only [hpn, hg]
  obtain ⟨A, f, C, e, hf⟩ := hin
  refine ⟨(t.schemas.flatMap fun p => if s.hasSchema p.2.name then [] else schemaCreate p.2) ++
    (l1.flatMap (schemaPart t) ++ A), f, C ++ l2.flatMap (schemaPart t), ?_, hf⟩
  rw [compareDiff_split, hl, List.flatMap_append, List.flatMap_cons, e]
  simp only [List.append_assoc]

/-- Of two relations that are both removed, the one listed first is dropped first. -/
theorem drops_in_order {s t : Database} (hs : s.WF) {n : String} {a : Schema} (ha : s.schemas.get? n = some a)
    {l1 l2 l3 : AMap Relation} {p q : String × Relation} (hl : a.relations = l1 ++ p :: (l2 ++ q :: l3))
    (hp : t.content.objAt (.relation n p.1) = none) (hq : t.content.objAt (.relation n q.1) = none) :
    ∃ u v w, compareDiff s t = u ++ (relationDrop p.2 ++ (v ++ (relationDrop q.2 ++ w))) := by
  obtain ⟨A, f, C, e, hf⟩ := relations_within (t := t) hs ha
  have h1 := hf p (by rw [hl]; simp) hp
  have h2 := hf q (by rw [hl]; simp) hq
  rw [hl] at e
  refine ⟨A ++ l1.flatMap f, l2.flatMap f, l3.flatMap f ++ C, ?_⟩
  rw [e]
  simp only [List.flatMap_append, List.flatMap_cons, h1, h2, List.append_assoc]

/-- The statements that drop a table and an index of one schema. -/
theorem drop_table_index {s : Database} (hs : s.WF) {n r i : String} {a : Schema} (ha : s.schemas.get? n = some a)
    {x : Table} {ix : Index} (hr : (r, .table x) ∈ a.relations) (hi : (i, .index ix) ∈ a.relations) :
    relationDrop (.table x) = [.dropTable n r] ∧ relationDrop (.index ix) = [.dropIndex n i] := by
  have hma := hs.home _ (AMap.mem_of_get? ha)
  have h1 := hma.2.rels_home _ hr
  have h2 := hma.2.rels_home _ hi
  have e1 : x.schemaName = n := h1.2.1.trans hma.1
  have e2 : x.name = r := h1.1
  have e3 : ix.schemaName = n := h2.2.1.trans hma.1
  have e4 : ix.name = i := h2.1
  exact ⟨by simp only [relationDrop, tableDrop, newDropTable, e1, e2],
    by simp only [relationDrop, indexDrop, newDropIndex, e3, e4]⟩

theorem needed_adds {S T : Content} {c : Change} {n r i : String} (h : Needed S T c) (ha : c.AddsConstraint n r i) :
    T.objAt (.constraint n r i) ≠ none := by
  cases c <;> simp only [Change.AddsConstraint] at ha
  all_goals
    obtain ⟨rfl, rfl, rfl⟩ := ha
    intro e
    have := h.1
    rw [e] at this
    cases this

theorem index_not_came (hB : IndexesAlong B idx clean) {s t : Database} (hs : s.WF) (ht : t.WF)
    (hclean : ∀ c ∈ compareDiff s t, clean c.renderSql ∧ ∀ z ∈ c.quotedNames, plain z) {n i : String}
    (hi : t.content.objAt (.relation n i) = none) (hcon : ∀ r, t.content.objAt (.constraint n r i) = none)
    {cs : List Change} (hc : ∀ c ∈ cs, c ∈ compareDiff s t) {x x' : σ} (h : Script B x (cs.map Change.renderSql) x')
    {r : String} (hx : idx x' n i = some r) : idx x n i = some r := by
  induction cs generalizing x with
  | nil => cases h; exact hx
  | cons c cs ih =>
    cases h with
    | @cons _ _ y _ _ he hs' =>
      have hy := ih (fun c hm => hc c (List.mem_cons_of_mem _ hm)) hs'
      have hm := hc c List.mem_cons_self
      apply Classical.byContradiction
      intro hne
      obtain ⟨k, hk, ⟨r', u, m, ks, rfl⟩ | ⟨r', hk'⟩⟩ := hB.comes _ _ _ _ _ _ (hclean c hm).1 he hy hne
      · obtain ⟨r', u, m, ks, rfl⟩ := says_createsIndex (hclean c hm).2 hk
        have := (C06_every_change_needed hs ht hm).1
        rw [hi] at this
        cases this
      · exact needed_adds (C06_every_change_needed hs ht hm) (says_adds (hclean c hm).2 hk hk') (hcon r')

theorem index_not_gone (hB : IndexesAlong B idx clean) {n r i : String} {cs : List Change}
    (hc : ∀ c ∈ cs, clean c.renderSql ∧ (∀ z ∈ c.quotedNames, plain z) ∧ Away n r c ∧ Away n i c)
    {x x' : σ} (h : Script B x (cs.map Change.renderSql) x') (hx : idx x n i = some r) : idx x' n i = some r := by
  induction cs generalizing x with
  | nil => cases h; exact hx
  | cons c cs ih =>
    cases h with
    | @cons _ _ y _ _ he hs =>
      refine ih (fun c hm => hc c (List.mem_cons_of_mem _ hm)) hs ?_
      obtain ⟨h1, h2, h3, h4⟩ := hc c List.mem_cons_self
      apply Classical.byContradiction
      intro hne
      obtain ⟨k, hk, rfl | rfl | ⟨k', rfl⟩ | ⟨m, hm⟩⟩ := hB.goes _ _ _ _ _ _ h1 he hx hne
      · obtain rfl := says_dropsIndex h2 hk
        exact (h4 (.relation n i) (List.mem_singleton.2 rfl)).2 ⟨rfl, rfl⟩
      · obtain rfl := says_dropsTable h2 hk
        exact (h3 (.relation n r) (List.mem_singleton.2 rfl)).2 ⟨rfl, rfl⟩
      · obtain rfl := says_dropsColumn h2 hk
        exact (h3 (.column n r k') (List.mem_singleton.2 rfl)).2 ⟨rfl, rfl⟩
      · exact (away_not h3).2 (says_drops h2 hk hm)

/-- C105 is false where a table and an index on it are both removed and the table is listed before the index: wherever
the changes are carried out, the script cannot be run to its end.  `DROP TABLE` comes first and takes the index along,
and `DROP INDEX` is refused. -/
theorem C105_table_first_false (hB : IndexesAlong B idx clean) {s t : Database} (hs : s.WF) (ht : t.WF)
    (hclean : ∀ c ∈ compareDiff s t, clean c.renderSql ∧ ∀ z ∈ c.quotedNames, plain z)
    {n r i : String} {a : Schema} (ha : s.schemas.get? n = some a) {x : Table} {ix : Index} {l1 l2 l3 : AMap Relation}
    (hl : a.relations = l1 ++ (r, .table x) :: (l2 ++ (i, .index ix) :: l3))
    (hr : t.content.objAt (.relation n r) = none) (hi : t.content.objAt (.relation n i) = none)
    (hcon : ∀ r', t.content.objAt (.constraint n r' i) = none) {y : σ} (hy : idx y n i = some r) :
    ¬ ∃ z, Script B y ((compareDiff s t).map Change.renderSql) z := by
  rintro ⟨z, h⟩
  obtain ⟨u, v, w, e⟩ := drops_in_order hs ha hl hr hi
  obtain ⟨e1, e2⟩ := drop_table_index hs ha (by rw [hl]; simp) (i := i) (ix := ix) (r := r) (x := x) (by rw [hl]; simp)
  rw [e1, e2] at e
  have hin : ∀ c, (c ∈ u ∨ c = .dropTable n r ∨ c ∈ v ∨ c = .dropIndex n i) → c ∈ compareDiff s t := by
    intro c hc
    rw [e]
    simp only [List.mem_append, List.mem_singleton]
    rcases hc with hc | hc | hc | hc <;> simp [hc]
  rw [e] at h
  simp only [List.map_append, List.map_cons, List.map_nil] at h
  obtain ⟨y₁, h1, h⟩ := script_append.1 h
  obtain ⟨y₂, h2, h⟩ := script_append.1 h
  obtain ⟨y₃, h3, h⟩ := script_append.1 h
  obtain ⟨y₄, h4, _⟩ := script_append.1 h
  cases h2 with
  | @cons _ _ _ _ _ h2 hn =>
    cases hn
    cases h4 with
    | @cons _ _ _ _ _ h4 hn =>
      have hm1 := hin (.dropTable n r) (.inr (.inl rfl))
      have hm2 := hin (.dropIndex n i) (.inr (.inr (.inr rfl)))
      have s1 : Says (Change.dropTable n r).renderSql (.dropTable n r) :=
        (C56_sql_says_change_partial _ (hclean _ hm1).2 (by intros; contradiction) (by intros; contradiction)).2 trivial
      have s2 : Says (Change.dropIndex n i).renderSql (.dropIndex n i) :=
        (C56_sql_says_change_partial _ (hclean _ hm2).2 (by intros; contradiction) (by intros; contradiction)).2 trivial
      cases h5 : idx y₃ n i with
      | none => rw [hB.refused _ _ _ _ s2 h5] at h4; cases h4
      | some r' =>
        have g3 := index_not_came hB hs ht hclean hi hcon (fun c hc => hin c (.inr (.inr (.inl hc)))) h3 h5
        have g2 := index_not_came hB hs ht hclean hi hcon (cs := [.dropTable n r])
          (fun c hc => hin c (.inr (.inl (List.mem_singleton.1 hc)))) (.cons h2 .nil) g3
        have g1 := index_not_came hB hs ht hclean hi hcon (fun c hc => hin c (.inl hc)) h1 g2
        rw [hy] at g1
        cases g1
        rw [hB.along _ _ _ _ _ _ s1 h2 g2] at g3
        cases g3

/-- No order is safe: of the snapshots with the same objects there is always one that lists the table before the
index, so that the script podo writes from it cannot be run. -/
theorem C105_some_order_false (hB : IndexesAlong B idx clean) {s t : Database} (hs : s.WF) (ht : t.WF)
    (hclean : ∀ c ∈ compareDiff s t, clean c.renderSql ∧ ∀ z ∈ c.quotedNames, plain z)
    {n r i : String} (hsr : s.content.tableAt n r ≠ none) {ix : Index}
    (hsi : s.content.objAt (.relation n i) = some (.index ix))
    (hr : t.content.objAt (.relation n r) = none) (hi : t.content.objAt (.relation n i) = none)
    (hcon : ∀ r', t.content.objAt (.constraint n r' i) = none) {y : σ} (hy : idx y n i = some r) :
    ∃ s' : Database, s'.WF ∧ s'.content = s.content ∧
      ¬ ∃ z, Script B y ((compareDiff s' t).map Change.renderSql) z := by
  obtain ⟨tb, h1⟩ := Option.ne_none_iff_exists'.1 hsr
  obtain ⟨a, x, ha, hx⟩ := tableAt_model h1
  have hix : a.relations.get? i = some (.index ix) := by
    simp only [Content.objAt, Database.content, ha, Option.map_some, Option.bind_some, Schema.content,
      Option.map_map, Option.map_eq_some_iff] at hsi
    obtain ⟨rel, h2, h3⟩ := hsi
    rw [h2]
    cases rel <;> simp [Relation.content, RelContent.obj] at h3
    rw [h3]
  have hma := hs.home _ (AMap.mem_of_get? ha)
  have hmi := hma.2.rels_home _ (AMap.mem_of_get? hix)
  have hri : r ≠ i := by
    rintro rfl
    rw [hx] at hix
    cases hix
  have hge : (a.relations.erase i).get? i = none := by rw [AMap.get?_erase]; simp
  let rels := (a.relations.erase i).insertNew i (.index ix)
  have hget : ∀ k, rels.get? k = a.relations.get? k := by
    intro k
    rw [AMap.get?_insertNew _ _ _ _ hge, AMap.get?_erase]
    by_cases hk : k = i
    · subst hk; simp [hix]
    · simp [hk]
  let a' : Schema := { a with relations := rels }
  have hnd : AMap.NodupKeys rels := AMap.nodupKeys_insertNew (AMap.nodupKeys_erase hma.2.rels_nodup i) hge
  have hwa : a'.WF := by
    refine ⟨hnd, ?_, hma.2.funs_nodup, hma.2.funs_home⟩
    intro p hp
    have := (AMap.get?_iff_mem hnd (k := p.1) (v := p.2)).2 hp
    rw [hget] at this
    exact hma.2.rels_home p (AMap.mem_of_get? this)
  have hgs : ∀ k, (s.schemas.set n a').get? k = if k = n then some a' else s.schemas.get? k := by
    intro k
    rw [AMap.get?_set _ _ _ _ (by rw [ha]; rfl)]
  let s' : Database := ⟨s.schemas.set n a'⟩
  have hws : s'.WF := by
    have hnd' := AMap.nodupKeys_set hs.nodup n a'
    refine ⟨hnd', ?_⟩
    intro p hp
    have hp' := (AMap.get?_iff_mem hnd' (k := p.1) (v := p.2)).2 hp
    rw [hgs] at hp'
    split at hp'
    · next e =>
      injection hp' with hp'
      rw [← hp', e]
      exact ⟨hma.1, hwa⟩
    · exact hs.home p (AMap.mem_of_get? hp')
  have hcs : s'.content = s.content := by
    funext k
    simp only [Database.content, s', hgs]
    split
    · next e =>
      subst e
      rw [ha]
      simp only [Option.map_some, Option.some.injEq, a', Schema.content, SchemaContent.mk.injEq, true_and, and_true]
      funext k
      rw [hget]
    · rfl
  have hm : (r, .table x) ∈ a.relations.erase i :=
    AMap.mem_erase.2 ⟨AMap.mem_of_get? hx, hri⟩
  obtain ⟨l1, l2, hl⟩ := List.append_of_mem hm
  refine ⟨s', hws, hcs, C105_table_first_false hB hws ht
    (fun c h => hclean c ((compareDiff_same hws hs ht ht hcs rfl fun _ _ => rfl).mem_iff.1 h)) (n := n) (r := r) (i := i)
    (a := a') (x := x) (ix := ix) (l1 := l1) (l2 := l2) (l3 := []) (by rw [hgs]; simp) ?_ hr hi hcon hy⟩
  change rels = _
  simp only [rels, AMap.insertNew]
  rw [show a.relations.erase i = l1 ++ (r, .table x) :: l2 from hl]
  simp

/-- C105 (partial): where the index is listed before the table, the index is there when the script comes to drop it,
however the rest of the script goes.  Missing: the other order, see `C105_table_first_false`; podo keeps the relations of
a schema in a hash map, so both come about. -/
theorem C105_index_first_partial (hB : IndexesAlong B idx clean) {s t : Database} (hs : s.WF) (ht : t.WF)
    (hclean : ∀ c ∈ compareDiff s t, clean c.renderSql ∧ ∀ z ∈ c.quotedNames, plain z)
    {n r i : String} {a : Schema} (ha : s.schemas.get? n = some a) {x : Table} {ix : Index} {l1 l2 l3 : AMap Relation}
    (hl : a.relations = l1 ++ (i, .index ix) :: (l2 ++ (r, .table x) :: l3))
    (hr : t.content.objAt (.relation n r) = none) (hi : t.content.objAt (.relation n i) = none)
    {pre post : List Change} (he : compareDiff s t = pre ++ .dropIndex n i :: post)
    {y y' : σ} (hy : idx y n i = some r) (h : Script B y (pre.map Change.renderSql) y') : idx y' n i = some r := by
  obtain ⟨u, v, w, e⟩ := drops_in_order hs ha hl hi hr
  obtain ⟨e1, e2⟩ := drop_table_index hs ha (i := i) (ix := ix) (r := r) (x := x) (by rw [hl]; simp) (by rw [hl]; simp)
  rw [e1, e2] at e
  have hcl := clean_diff hs ht
  have hi' : ∀ p q, compareDiff s t = p ++ .dropIndex n i :: q → Change.dropIndex n i ∉ p := fun p q e' hm =>
    (hcl _ _ _ _ _ e' rfl _ hm (.relation n i) (List.mem_singleton.2 rfl)).2 ⟨rfl, rfl⟩
  have e' : compareDiff s t = u ++ .dropIndex n i :: (v ++ (.dropTable n r :: w)) := by rw [e]; simp
  obtain rfl := split_at (D := fun c => c = .dropIndex n i) (he.symm.trans e')
    (fun z hz e => hi' _ _ e' (e ▸ hz)) (fun z hz e => by
      subst e
      obtain ⟨p, q, hpq⟩ := List.append_of_mem hz
      exact hi' (u ++ .dropIndex n i :: p) q (by rw [e', hpq]; simp) (by simp)) rfl
  refine index_not_gone hB (fun c hc => ?_) h hy
  have hm : c ∈ compareDiff s t := by rw [he]; exact List.mem_append_left _ hc
  refine ⟨(hclean c hm).1, (hclean c hm).2, ?_, hcl _ _ _ _ _ he rfl c hc⟩
  exact hcl (pre ++ .dropIndex n i :: v) (.dropTable n r) w n r (by rw [e']; simp) rfl c (List.mem_append_left _ hc)

/-- For `podo up`: a version with such changes can be made, but never applied.  Where `podo up` succeeds, the first
version it has applied is not one whose changes lead from a snapshot that lists a table before an index to one without
the two, unless the index is on another table in the database. -/
theorem C105_up_false (hB : IndexesAlong B idx clean) {db db' : DB σ} (hr : Pg.Reach B db) {d : HDir} (hd : Reachable d)
    {fuel : Nat} {target : Option String} (h : Pg.up B fuel d target db = some (db', .ok))
    {v : Version} {vs : List Version} (hv : db'.applied = db.applied ++ v :: vs)
    {s t : Database} (hs : s.WF) (ht : t.WF) (hch : v.changes = compareDiff s t)
    (hclean : ∀ c ∈ compareDiff s t, clean c.renderSql ∧ ∀ z ∈ c.quotedNames, plain z)
    {n r i : String} {a : Schema} (ha : s.schemas.get? n = some a) {x : Table} {ix : Index} {l1 l2 l3 : AMap Relation}
    (hl : a.relations = l1 ++ (r, .table x) :: (l2 ++ (i, .index ix) :: l3))
    (htr : t.content.objAt (.relation n r) = none) (hti : t.content.objAt (.relation n i) = none)
    (hcon : ∀ r', t.content.objAt (.constraint n r' i) = none) : idx db.data n i ≠ some r := by
  intro hy
  obtain ⟨_, _, ws, _, _, _, _, h5, h6, h7, _⟩ := C31_up_applies_missing_partial hr hd.namedAfterVersion h
  rw [hv] at h7
  obtain rfl := List.append_cancel_left h7
  rw [List.flatMap_cons] at h6
  obtain ⟨y, h6, _⟩ := script_append.1 h6
  rw [(C28_scripts_aligned hd (h5 v List.mem_cons_self)).1, hch] at h6
  exact C105_table_first_false hB hs ht hclean ha hl htr hti hcon hy ⟨y, h6⟩

/-! ### A table with an index on it, or beside it -/

def tiCreate : Change := .createTable "public" "t" [⟨"id", "int8", false, none⟩]
def tiIndex : Change := .createIndex "public" "t" "ti" false "btree" ["id"]
def tiTable : Change := .dropTable "public" "t"
def tiDrop : Change := .dropIndex "public" "ti"

/-- A server that knows four statements.  Its state says how far it has come: 0 nothing, 1 the table, 2 the table and
the index, 3 both are gone, 4 only the index is left.  `w`: the index is on the table. -/
def tiB (w : Bool) : Pg.Behaviour Nat :=
  ⟨fun x q => if x = 0 ∧ q = tiCreate.renderSql then some 1
    else if x = 1 ∧ q = tiIndex.renderSql then some 2
    else if x = 2 ∧ q = tiTable.renderSql then some (if w then 3 else 4)
    else if x = 4 ∧ q = tiDrop.renderSql then some 3
    else if x = 2 ∧ q = tiDrop.renderSql then some 1
    else if x = 1 ∧ q = tiTable.renderSql then some 3
    else none,
   fun _ => true, fun _ => true, fun _ => true⟩

def tiIdx (w : Bool) (x : Nat) (s i : String) : Option String :=
  if (x = 2 ∨ x = 4) ∧ s = "public" ∧ i = "ti" then some (if w then "t" else "o") else none

theorem ti_exec {w : Bool} {x x' : Nat} {q : String} (h : (tiB w).exec x q = some x') :
    (x = 0 ∧ q = tiCreate.renderSql ∧ x' = 1) ∨ (x = 1 ∧ q = tiIndex.renderSql ∧ x' = 2) ∨
    (x = 2 ∧ q = tiTable.renderSql ∧ x' = if w then 3 else 4) ∨ (x = 4 ∧ q = tiDrop.renderSql ∧ x' = 3) ∨
    (x = 2 ∧ q = tiDrop.renderSql ∧ x' = 1) ∨ (x = 1 ∧ q = tiTable.renderSql ∧ x' = 3) := by
  simp only [tiB] at h
  split at h
  · next e => cases h; exact .inl ⟨e.1, e.2, rfl⟩
  · split at h
    · next e => cases h; exact .inr (.inl ⟨e.1, e.2, rfl⟩)
    · split at h
      · next e => injection h with h; exact .inr (.inr (.inl ⟨e.1, e.2, h.symm⟩))
      · split at h
        · next e => cases h; exact .inr (.inr (.inr (.inl ⟨e.1, e.2, rfl⟩)))
        · split at h
          · next e => cases h; exact .inr (.inr (.inr (.inr (.inl ⟨e.1, e.2, rfl⟩))))
          · split at h
            · next e => cases h; exact .inr (.inr (.inr (.inr (.inr ⟨e.1, e.2, rfl⟩))))
            · cases h

theorem ti_plain : ∀ c ∈ [tiCreate, tiIndex, tiTable, tiDrop], ∀ z ∈ c.quotedNames, plain z := by
  unfold plain
  decide

theorem ti_says (c : Change) (h : c ∈ [tiCreate, tiIndex, tiTable, tiDrop]) (ht : c.TextRight) : Says c.renderSql c :=
  (C56_sql_says_change_partial c (ti_plain c h)
    (by rintro _ _ _ _ _ _ _ _ _ _ _ _ rfl; simp [tiCreate, tiIndex, tiTable, tiDrop] at h)
    (by rintro _ _ _ _ _ _ rfl; simp [tiCreate, tiIndex, tiTable, tiDrop] at h)).2 ht

theorem tiIdx_some {w : Bool} {x : Nat} {s i r : String} (h : tiIdx w x s i = some r) :
    (x = 2 ∨ x = 4) ∧ s = "public" ∧ i = "ti" ∧ r = if w then "t" else "o" := by
  simp only [tiIdx] at h
  split at h
  · next e => injection h with h; exact ⟨e.1, e.2.1, e.2.2, h.symm⟩
  · cases h

theorem tiB_along (w : Bool) : IndexesAlong (tiB w) (tiIdx w) (fun _ => True) := by
  constructor
  · intro q x x' s r i hq he hc
    obtain ⟨hx, rfl, rfl, rfl⟩ := tiIdx_some hc
    rcases ti_exec he with ⟨rfl, _, _⟩ | ⟨rfl, _, _⟩ | ⟨rfl, rfl, rfl⟩ | ⟨rfl, _, rfl⟩ | ⟨rfl, _, rfl⟩ | ⟨rfl, _, rfl⟩
    · simp at hx
    · simp at hx
    · cases w with
      | true => rfl
      | false => exact absurd (says_dropsTable (ti_plain tiTable (by simp)) hq) (by decide)
    · rfl
    · rfl
    · rfl
  · intro q x s i hq hc
    cases he : (tiB w).exec x q with
    | none => rfl
    | some x' =>
      exfalso
      rcases ti_exec he with ⟨rfl, rfl, _⟩ | ⟨rfl, rfl, _⟩ | ⟨rfl, rfl, _⟩ | ⟨rfl, rfl, _⟩ | ⟨rfl, rfl, _⟩ | ⟨rfl, rfl, _⟩
      · cases says_dropsIndex (ti_plain tiCreate (by simp)) hq
      · cases says_dropsIndex (ti_plain tiIndex (by simp)) hq
      · cases says_dropsIndex (ti_plain tiTable (by simp)) hq
      · cases says_dropsIndex (ti_plain tiDrop (by simp)) hq; cases hc
      · cases says_dropsIndex (ti_plain tiDrop (by simp)) hq; cases hc
      · cases says_dropsIndex (ti_plain tiTable (by simp)) hq
  · intro q x x' s i r _ he hc hne
    obtain ⟨hx, rfl, rfl, rfl⟩ := tiIdx_some hc
    rcases ti_exec he with ⟨rfl, rfl, rfl⟩ | ⟨rfl, rfl, rfl⟩ | ⟨rfl, rfl, rfl⟩ | ⟨rfl, rfl, rfl⟩ | ⟨rfl, rfl, rfl⟩ |
      ⟨rfl, rfl, rfl⟩
    · simp at hx
    · exact ⟨tiIndex, ti_says _ (by simp) (by intro h; cases h), .inl ⟨_, _, _, _, rfl⟩⟩
    · exact absurd (by simp [tiIdx]) hne
    · simp at hx
    · simp at hx
    · simp at hx
  · intro q x x' s i r _ he hc hne
    obtain ⟨hx, rfl, rfl, rfl⟩ := tiIdx_some hc
    rcases ti_exec he with ⟨rfl, rfl, rfl⟩ | ⟨rfl, rfl, rfl⟩ | ⟨rfl, rfl, rfl⟩ | ⟨rfl, rfl, rfl⟩ | ⟨rfl, rfl, rfl⟩ |
      ⟨rfl, rfl, rfl⟩
    · simp at hx
    · simp at hx
    · cases w with
      | false => exact absurd rfl hne
      | true => exact ⟨tiTable, ti_says _ (by simp) trivial, .inr (.inl rfl)⟩
    · exact ⟨tiDrop, ti_says _ (by simp) trivial, .inl rfl⟩
    · exact ⟨tiDrop, ti_says _ (by simp) trivial, .inl rfl⟩
    · simp at hx

/-- The table and the index, in either order. -/
def tiDb (first : Bool) : Database :=
  ⟨[("public", ⟨"public", if first
    then [("t", .table ⟨"public", "t", [⟨"public", "t", "id", "int8", false, none⟩], []⟩),
      ("ti", .index ⟨"public", "ti", "t", false, "btree", ["id"]⟩)]
    else [("ti", .index ⟨"public", "ti", "t", false, "btree", ["id"]⟩),
      ("t", .table ⟨"public", "t", [⟨"public", "t", "id", "int8", false, none⟩], []⟩)], []⟩)]⟩

def tiEmpty : Database := ⟨[("public", ⟨"public", [], []⟩)]⟩

theorem tiDb_wf (first : Bool) : (tiDb first).WF := by
  cases first <;>
  · refine ⟨by decide, ?_⟩
    intro p hp
    cases List.mem_singleton.1 hp
    refine ⟨rfl, by dsimp only; decide, ?_, by dsimp only; decide, by simp⟩
    intro p hp
    simp only [Bool.false_eq_true, if_true, if_false, List.mem_cons, List.not_mem_nil, or_false] at hp
    rcases hp with rfl | rfl <;>
    first
      | exact ⟨rfl, rfl, by decide, by decide, by decide, by decide⟩
      | exact ⟨rfl, rfl, trivial⟩

theorem tiEmpty_wf : tiEmpty.WF := by
  refine ⟨by decide, ?_⟩
  intro p hp
  cases List.mem_singleton.1 hp
  exact ⟨rfl, by dsimp only; decide, by simp, by dsimp only; decide, by simp⟩

theorem ti_clean (first : Bool) : ∀ c ∈ compareDiff (tiDb first) tiEmpty, True ∧ ∀ z ∈ c.quotedNames, plain z := by
  intro c hc
  refine ⟨trivial, ti_plain c ?_⟩
  cases first with
  | true =>
    change c ∈ [tiTable, tiDrop] at hc
    simp only [List.mem_cons] at hc ⊢
    rcases hc with h | h | h <;> simp_all
  | false =>
    change c ∈ [tiDrop, tiTable] at hc
    simp only [List.mem_cons] at hc ⊢
    rcases hc with h | h | h <;> simp_all

theorem ti_none (n r i : String) : tiEmpty.content.objAt (.constraint n r i) = none := by
  by_cases h : n = "public"
  · subst h; rfl
  · have : tiEmpty.schemas.get? n = none := by simp [tiEmpty, AMap.get?, Ne.symm h]
    simp [Content.objAt, Content.tableAt, Database.content, this]

/-- podo takes the changes for good ones in either order; the server can run them in only one. -/
example : applyAll (compareDiff (tiDb true) tiEmpty) (tiDb true) = .ok tiEmpty ∧
    applyAll (compareDiff (tiDb false) tiEmpty) (tiDb false) = .ok tiEmpty ∧
    (¬ ∃ y, Script (tiB true) 2 ((compareDiff (tiDb true) tiEmpty).map Change.renderSql) y) ∧
    Script (tiB true) 2 ((compareDiff (tiDb false) tiEmpty).map Change.renderSql) 3 :=
  ⟨rfl, rfl, C105_table_first_false (tiB_along true) (tiDb_wf _) tiEmpty_wf (ti_clean _) (n := "public") (r := "t")
    (i := "ti") rfl (l1 := []) (l2 := []) (l3 := []) rfl rfl rfl (fun r => ti_none _ r _) rfl, script_iff.2 rfl⟩

/-- Whatever the order in which the snapshot lists them. -/
example : ∃ s : Database, s.WF ∧ s.content = (tiDb false).content ∧
    ¬ ∃ z, Script (tiB true) 2 ((compareDiff s tiEmpty).map Change.renderSql) z := by
  exact C105_some_order_false (tiB_along true) (tiDb_wf false) tiEmpty_wf (ti_clean _) (n := "public") (r := "t")
    (i := "ti") (by intro h; cases h) rfl rfl rfl (fun r => ti_none _ r _) rfl

/-- The index is there when it is listed first, and is dropped first. -/
example : tiIdx true 2 "public" "ti" = some "t" :=
  C105_index_first_partial (tiB_along true) (tiDb_wf false) tiEmpty_wf (ti_clean _) (n := "public") (r := "t")
    (i := "ti") rfl (l1 := []) (l2 := []) (l3 := []) rfl rfl rfl (pre := []) (post := [tiTable]) rfl (y := 2) rfl .nil

/-- The version with the table and the index, and the one after it. -/
def tiFirst : Version :=
  ⟨"20201025_021000-auto", some "init", [tiCreate, tiIndex], [tiCreate.renderSql, tiIndex.renderSql],
    [tiDrop.renderSql, tiTable.renderSql]⟩
def tiSecond : Version :=
  ⟨"20210101_000000-auto", some "20201025_021000-auto", [tiTable, tiDrop],
    [tiTable.renderSql, tiDrop.renderSql], [tiIndex.renderSql, tiCreate.renderSql]⟩

def tiMade : HDir :=
  [("init.yaml", .file (some Version.newInit)), ("stage.yaml", .file (some (Version.newStage "20201025_021000-auto"))),
    ("20201025_021000-auto.yaml", .file (some tiFirst))]

def tiMade₂ : HDir :=
  [("init.yaml", .file (some Version.newInit)), ("stage.yaml", .file (some (Version.newStage "20210101_000000-auto"))),
    ("20201025_021000-auto.yaml", .file (some tiFirst)), ("20210101_000000-auto.yaml", .file (some tiSecond))]

theorem tiMade_reachable : Reachable tiMade :=
  .step (d := [("init.yaml", .file (some Version.newInit)), ("stage.yaml", .file (some { tiFirst with name := "stage" }))])
    (fuel := 9) (c := .make "20201025_021000" none) (ok := true)
    (.step (d := initDir) (fuel := 9) (c := .stage (.ok (tiDb true))) (ok := true) .init (by intro _ _ h; cases h) rfl)
    (by intro a b h; cases h; exact ⟨by decide +kernel, noYaml (by decide +kernel)⟩) (by decide +kernel)

theorem tiMade₂_reachable : Reachable tiMade₂ :=
  .step (d := [("init.yaml", .file (some Version.newInit)), ("stage.yaml", .file (some { tiSecond with name := "stage" })),
      ("20201025_021000-auto.yaml", .file (some tiFirst))])
    (fuel := 9) (c := .make "20210101_000000" none) (ok := true)
    (.step (d := tiMade) (fuel := 9) (c := .stage (.ok tiEmpty)) (ok := true) tiMade_reachable
      (by intro _ _ h; cases h) rfl)
    (by intro a b h; cases h; exact ⟨by decide +kernel, noYaml (by decide +kernel)⟩) (by decide +kernel)

/-- The database on the first version, and on the second. -/
def tiOn : Pg.DB Nat := ⟨.table ⟨[⟨Version.newInit, 1⟩, ⟨tiFirst, 2⟩], 3⟩, 2⟩
def tiOn₂ : Pg.DB Nat := ⟨.table ⟨[⟨Version.newInit, 1⟩, ⟨tiFirst, 2⟩, ⟨tiSecond, 3⟩], 4⟩, 3⟩

theorem ti_reach (w : Bool) : Pg.Reach (tiB w) tiOn :=
  .up (fuel := 9) (d := tiMade) (target := none) (o := .ok) (.new 0) tiMade_reachable.namedAfterVersion
    (by cases w <;> rfl)

/-- With the index on another table, `podo up` succeeds, and the theorem says that the index is not on `t`. -/
example : tiIdx false tiOn.data "public" "ti" ≠ some "t" :=
  C105_up_false (tiB_along false) (ti_reach false) tiMade₂_reachable (fuel := 9) (target := none)
    (db' := tiOn₂) rfl (v := tiSecond) (vs := []) rfl (tiDb_wf true) tiEmpty_wf rfl (ti_clean _)
    (n := "public") (r := "t") (i := "ti") rfl (l1 := []) (l2 := []) (l3 := []) rfl rfl rfl (fun r => ti_none _ r _)

/-- With the index on the table, `podo up` fails. -/
example : ∃ db' o, Pg.up (tiB true) 9 tiMade₂ none tiOn = some (db', o) ∧ o ≠ .ok := by
  have h : Pg.up (tiB true) 9 tiMade₂ none tiOn = some _ := rfl
  exact ⟨_, _, h, by intro e; cases e⟩
end Podo
