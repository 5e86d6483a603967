import Verif.Spec.Views
import Verif.Proofs.Along
import Verif.Proofs.DiffSame
/-
What the text of a change can be read as, for views; and where the changes of a diff stand.
-/
namespace Podo
open Pg Change

theorem reads_dropView {c : Change} (hp : ∀ n ∈ c.quotedNames, plain n) {s t : String} {r : List Char}
    (hr : r.head? ≠ some '"')
    (e : c.renderSql.toList = "DROP VIEW ".toList ++ ((qualified s t).toList ++ r)) : c = .dropView s t := by
  cases ht : alterTail c with
  | some x =>
    rw [(alterTail_some ht).1] at e
    replace e := congrArg (List.take 1) e
    simp at e
  | none =>
    cases c
    case setDefault d => cases d <;> cases ht
    case addColumn => cases ht
    case setNotNull => cases ht
    case setDataType => cases ht
    case dropColumn => cases ht
    case renameColumn => cases ht
    case addPrimaryKey => cases ht
    case alterPrimaryKey => cases ht
    case dropPrimaryKey => cases ht
    case addUnique => cases ht
    case alterUnique => cases ht
    case dropUnique => cases ht
    case addForeignKey => cases ht
    case alterForeignKey => cases ht
    case dropForeignKey => cases ht
    case addCheck => cases ht
    case alterCheck => cases ht
    case dropCheck => cases ht
    case createSchema =>
      rw [render_createSchema] at e
      replace e := congrArg (List.take 6) e
      simp at e
    case dropSchema =>
      rw [render_dropSchema] at e
      replace e := congrArg (List.take 6) e
      simp at e
    case createTable =>
      rw [render_createTable] at e
      replace e := congrArg (List.take 6) e
      simp at e
    case dropTable =>
      rw [render_dropTable] at e
      replace e := congrArg (List.take 6) e
      simp at e
    case createFunction =>
      rw [render_createFunction] at e
      replace e := congrArg (List.take 6) e
      simp at e
    case dropFunction =>
      rw [render_dropFunction] at e
      replace e := congrArg (List.take 6) e
      simp at e
    case createView =>
      rw [render_createView] at e
      replace e := congrArg (List.take 6) e
      simp at e
    case dropView s' t' =>
      rw [render_dropView] at e
      simp only [String.toList_append] at e
      replace e := List.append_cancel_left e
      rw [← List.append_nil (Sql.qa s' t').toList] at e
      obtain ⟨rfl, rfl, _⟩ := qualified_split (hp _ (.head _)) (hp _ (.tail _ (.head _))) hr (by simp) e.symm
      rfl
    case createIndex =>
      rw [render_createIndex] at e
      replace e := congrArg (List.take 6) e
      simp at e
    case dropIndex =>
      rw [render_dropIndex] at e
      replace e := congrArg (List.take 6) e
      simp at e
    case createSequence =>
      rw [render_createSequence] at e
      replace e := congrArg (List.take 6) e
      simp at e
    case dropSequence =>
      rw [render_dropSequence] at e
      replace e := congrArg (List.take 6) e
      simp at e

theorem reads_createView {c : Change} (hp : ∀ n ∈ c.quotedNames, plain n) {s t : String} {r : List Char}
    (hr : r.head? ≠ some '"')
    (e : c.renderSql.toList = "CREATE VIEW ".toList ++ ((qualified s t).toList ++ r)) : ∃ d, c = .createView s t d := by
  cases ht : alterTail c with
  | some x =>
    rw [(alterTail_some ht).1] at e
    replace e := congrArg (List.take 1) e
    simp at e
  | none =>
    cases c
    case setDefault d => cases d <;> cases ht
    case addColumn => cases ht
    case setNotNull => cases ht
    case setDataType => cases ht
    case dropColumn => cases ht
    case renameColumn => cases ht
    case addPrimaryKey => cases ht
    case alterPrimaryKey => cases ht
    case dropPrimaryKey => cases ht
    case addUnique => cases ht
    case alterUnique => cases ht
    case dropUnique => cases ht
    case addForeignKey => cases ht
    case alterForeignKey => cases ht
    case dropForeignKey => cases ht
    case addCheck => cases ht
    case alterCheck => cases ht
    case dropCheck => cases ht
    case createSchema =>
      rw [render_createSchema] at e
      replace e := congrArg (List.take 8) e
      simp at e
    case dropSchema =>
      rw [render_dropSchema] at e
      replace e := congrArg (List.take 8) e
      simp at e
    case createTable =>
      rw [render_createTable] at e
      replace e := congrArg (List.take 8) e
      simp at e
    case dropTable =>
      rw [render_dropTable] at e
      replace e := congrArg (List.take 8) e
      simp at e
    case createFunction =>
      rw [render_createFunction] at e
      replace e := congrArg (List.take 8) e
      simp at e
    case dropFunction =>
      rw [render_dropFunction] at e
      replace e := congrArg (List.take 8) e
      simp at e
    case createView s' t' q' =>
      rw [render_createView] at e
      simp only [String.toList_append, List.append_assoc] at e
      obtain ⟨rfl, rfl, _⟩ := qualified_split (hp _ (.head _)) (hp _ (.tail _ (.head _))) hr
        (by simp) (List.append_cancel_left e).symm
      exact ⟨q', rfl⟩
    case dropView =>
      rw [render_dropView] at e
      replace e := congrArg (List.take 8) e
      simp at e
    case createIndex =>
      rw [render_createIndex] at e
      replace e := congrArg (List.take 8) e
      split at e <;> simp at e
    case dropIndex =>
      rw [render_dropIndex] at e
      replace e := congrArg (List.take 8) e
      simp at e
    case createSequence =>
      rw [render_createSequence] at e
      replace e := congrArg (List.take 8) e
      simp at e
    case dropSequence =>
      rw [render_dropSequence] at e
      replace e := congrArg (List.take 8) e
      simp at e

theorem says_dropsView {c : Change} (hp : ∀ n ∈ c.quotedNames, plain n) {s v : String}
    (h : Says c.renderSql (.dropView s v)) : c = .dropView s v := by
  obtain ⟨st, e, hd, he, hq⟩ := says_text h
  cases hd
  rw [text_dropView] at hq
  simp only [String.toList_append, List.append_assoc] at hq
  exact reads_dropView hp he hq

theorem says_createsView {c : Change} (hp : ∀ n ∈ c.quotedNames, plain n) {s v d : String}
    (h : Says c.renderSql (.createView s v d)) : ∃ d, c = .createView s v d := by
  obtain ⟨st, e, hd, he, hq⟩ := says_text h
  cases hd
  rw [text_createView] at hq
  exact reads_createView (r := " AS ".toList ++ (d.toList ++ e.toList)) hp (by simp) (by rw [hq]; simp)

theorem says_createsTable {c : Change} (hp : ∀ n ∈ c.quotedNames, plain n) {s r : String} {cols : List NewColumn}
    (h : Says c.renderSql (.createTable s r cols)) : ∃ cols, c = .createTable s r cols := by
  obtain ⟨st, e, hd, he, hq⟩ := says_text h
  obtain ⟨defs, rfl, _⟩ := hd
  rw [text_createTable] at hq
  exact reads_createTable (r := " (".toList ++ ((commaList (defs.map ColumnDef.text)).toList ++ (")".toList ++ e.toList)))
    (fun n hn => hp n (place_quoted hn)) (by simp) (by rw [hq]; simp)

/-- The text for a new table asks for a table of that name, though not always with the right columns (C56). -/
theorem says_newTable {s t : String} {cols : List NewColumn}
    (hp : ∀ n ∈ (Change.createTable s t cols).quotedNames, plain n) :
    ∃ cols', Says (Change.createTable s t cols).renderSql (.createTable s t cols') := by
  have hs : plain s := hp _ (.head _)
  have ht : plain t := hp _ (.tail _ (.head _))
  have hcols : ∀ c ∈ cols, plain c.name := fun c hc =>
    hp _ (.tail _ (.tail _ (List.mem_map.2 ⟨c, hc, rfl⟩)))
  have hmap : cols.map Sql.newColumn = (cols.map fun c => ColumnDef.mk c.name c.dataType
      (if c.notNull then none else some false) c.default).map ColumnDef.text := by
    rw [List.map_map]
    exact List.map_congr_left fun c h => newColumn_text c (hcols c h)
  have hsql : (Change.createTable s t cols).renderSql = "CREATE TABLE " ++ (qualified s t ++ (" (" ++
      (commaList ((cols.map fun c => ColumnDef.mk c.name c.dataType
        (if c.notNull then none else some false) c.default).map ColumnDef.text) ++ ");"))) := by
    simp only [render_createTable]
    rw [hmap, ← commaList_eq, ← qualified_plain hs ht]
    simp only [String.append_assoc]
  rw [hsql]
  exact ⟨_, says_of (st := .createTable s t (cols.map fun c => ColumnDef.mk c.name c.dataType
      (if c.notNull then none else some false) c.default)) ⟨_, rfl, rfl⟩
      (.inr (by simp only [text_createTable, String.append_assoc, String.append_right_inj]; rfl))⟩

/-! ### Where the changes of a diff stand -/

open Diff

theorem away_targets {n k : String} {c : Change} (h : Away n k c) : Path.relation n k ∉ c.targets :=
  fun hq => (h _ hq).2 ⟨rfl, rfl⟩

/-- Everything a diff says about a relation that is removed stands in one place. -/
theorem drop_around {s t : Database} (hs : s.WF) (ht : t.WF) {n k : String} {a : Schema} {x : Relation}
    (ha : s.schemas.get? n = some a) (hx : a.relations.get? k = some x)
    (hk : t.content.objAt (.relation n k) = none) :
    Around (fun c => Path.relation n k ∉ c.targets) (compareDiff s t) (relationDrop x) := by
  have hma := AMap.mem_of_get? ha
  have hmx := AMap.mem_of_get? hx
  have hna : a.name = n := (hs.home _ hma).1
  have hwa : a.WF := (hs.home _ hma).2
  have hnx : x.name = k := (hwa.rels_home _ hmx).1
  rw [compareDiff_split]
  refine (Around.left fun c hc => ?_).trans ((Around.flatMap hs.nodup hma fun p hp hne c hc => ?_).trans ?_)
  · obtain ⟨m, hm, h, _⟩ := newSchemas_mem ht hc
    refine away_targets (away_inSch h ?_ k)
    rintro rfl
    rw [ha] at hm
    cases hm
  · exact away_targets (away_inSch (schemaPart_mem hs ht hp hc) (Ne.symm hne) k)
  · cases hb : t.schemas.get? n with
    | none =>
      have e : schemaPart t (n, a) = schemaDrop a := by simp only [schemaPart, hna, hb]
      rw [e, schemaDrop_eq, contentsDrop]
      refine (Around.right fun c hc => ?_).trans ((Around.right fun c hc => ?_).trans
        (Around.flatMap (f := fun p : String × Relation => relationDrop p.2) hwa.rels_nodup hmx fun p hp hne c hc => ?_))
      · rw [List.mem_singleton] at hc; subst hc; simp [targets]
      · obtain ⟨p, hp, hc⟩ := List.mem_flatMap.1 hc
        simp only [functionDrop, List.mem_singleton] at hc
        subst hc
        simp [newDropFunction, targets]
      · refine away_targets (away_inRel (relationDrop_inRel hc).1 ?_)
        rw [(hwa.rels_home p hp).1]
        exact Ne.symm hne
    | some b =>
      have hnb : b.name = n := (ht.home _ (AMap.mem_of_get? hb)).1
      have hwb : b.WF := (ht.home _ (AMap.mem_of_get? hb)).2
      have hg : b.relations.get? k = none := by
        simpa [Content.objAt, Database.content, Schema.content, hb] using hk
      have e : schemaPart t (n, a) = schemaUpdate a b := by
        simp only [schemaPart, hna, hb]
      rw [e, schemaUpdate_split]
      refine (Around.right fun c hc => away_targets
          (away_funSchema (funPart_schema hwa hwb (hna.trans hnb.symm) hc) n k)).trans
        ((Around.left fun c hc => away_targets ((relsAdded_schema hwb hc).2.2 k (by rw [hx]; simp) n)).trans
        ((Around.flatMap hwa.rels_nodup hmx fun p hp hne c hc =>
          away_targets (away_inRel (relsUpdated_mem hwa hwb (hna.trans hnb.symm) hp hc).2.1 (Ne.symm hne))).trans ?_))
      simp only [hnx, hg]
      exact Around.rfl

/-- Everything a diff says about a relation that is new stands in one place. -/
theorem create_around {s t : Database} (hs : s.WF) (ht : t.WF) {n k : String} {b : Schema} {y : Relation}
    (hb : t.schemas.get? n = some b) (hy : b.relations.get? k = some y)
    (hk : s.content.objAt (.relation n k) = none) :
    Around (fun c => Path.relation n k ∉ c.targets) (compareDiff s t) (relationCreate y) := by
  have hmb := AMap.mem_of_get? hb
  have hmy := AMap.mem_of_get? hy
  have hnb : b.name = n := (ht.home _ hmb).1
  have hwb : b.WF := (ht.home _ hmb).2
  have hny : y.name = k := (hwb.rels_home _ hmy).1
  rw [compareDiff_split]
  cases ha : s.schemas.get? n with
  | none =>
    refine (Around.right fun c hc => ?_).trans ((Around.flatMap ht.nodup hmb fun p hp hne c hc => ?_).trans ?_)
    · obtain ⟨p, hp, hc⟩ := List.mem_flatMap.1 hc
      refine away_targets (away_inSch (schemaPart_mem hs ht hp hc) ?_ k)
      rintro rfl
      exact AMap.get?_eq_none_iff.1 ha (List.mem_map_of_mem (f := Prod.fst) hp)
    · split at hc
      · cases hc
      · refine away_targets (away_inSch (schemaCreate_inSch (ht.home p hp).2 hc).1 ?_ k)
        rw [(ht.home p hp).1]
        exact Ne.symm hne
    · have e : s.hasSchema b.name = false := by rw [hnb]; exact AMap.has_of_none ha
      simp only [e, Bool.false_eq_true, if_false, schemaCreate, flatMap_values]
      rw [← List.singleton_append]
      refine (Around.left fun c hc => ?_).trans ((Around.right fun c hc => ?_).trans
        (Around.flatMap (f := fun p : String × Relation => relationCreate p.2) hwb.rels_nodup hmy fun p hp hne c hc => ?_))
      · rw [List.mem_singleton] at hc; subst hc; simp [newCreateSchema, targets]
      · obtain ⟨p, hp, hc⟩ := List.mem_flatMap.1 hc
        simp only [functionCreate, List.mem_singleton] at hc
        subst hc
        simp [newCreateFunction, targets]
      · refine away_targets (away_inRel (relationCreate_inRel (hwb.rels_home p hp).2.2 hc).1 ?_)
        rw [(hwb.rels_home p hp).1]
        exact Ne.symm hne
  | some a =>
    have hma := AMap.mem_of_get? ha
    have hna : a.name = n := (hs.home _ hma).1
    have hwa : a.WF := (hs.home _ hma).2
    have hg : a.relations.get? k = none := by
      simpa [Content.objAt, Database.content, Schema.content, ha] using hk
    refine (Around.left fun c hc => ?_).trans ((Around.flatMap hs.nodup hma fun p hp hne c hc => ?_).trans ?_)
    · obtain ⟨m, hm, h, _⟩ := newSchemas_mem ht hc
      refine away_targets (away_inSch h ?_ k)
      rintro rfl
      rw [ha] at hm
      cases hm
    · exact away_targets (away_inSch (schemaPart_mem hs ht hp hc) (Ne.symm hne) k)
    · have e : schemaPart t (n, a) = schemaUpdate a b := by
        simp only [schemaPart, hna, hb]
      rw [e, schemaUpdate_split]
      refine (Around.right fun c hc => away_targets
          (away_funSchema (funPart_schema hwa hwb (hna.trans hnb.symm) hc) n k)).trans
        ((Around.right fun c hc => ?_).trans
        ((Around.flatMap hwb.rels_nodup hmy fun p hp hne c hc => ?_).trans ?_))
      · obtain ⟨p, hp, hc⟩ := List.mem_flatMap.1 hc
        refine away_targets (away_inRel (relsUpdated_mem hwa hwb (hna.trans hnb.symm) hp hc).2.1 ?_)
        rintro rfl
        exact AMap.get?_eq_none_iff.1 hg (List.mem_map_of_mem (f := Prod.fst) hp)
      · split at hc
        · cases hc
        · refine away_targets (away_inRel (relationCreate_inRel (hwb.rels_home p hp).2.2 hc).1 ?_)
          rw [(hwb.rels_home p hp).1]
          exact Ne.symm hne
      · have e : a.hasRelation y.name = false := by rw [hny]; exact AMap.has_of_none hg
        simp only [e, Bool.false_eq_true, if_false]
        exact Around.rfl

/-- New relations of a schema are created in the order in which the schema lists them. -/
theorem creates_in_order {s t : Database} (hs : s.WF) (ht : t.WF) {n : String} {b : Schema} (hb : t.schemas.get? n = some b)
    {l1 l2 l3 : AMap Relation} {p q : String × Relation} (hl : b.relations = l1 ++ p :: (l2 ++ q :: l3))
    (hp : s.content.objAt (.relation n p.1) = none) (hq : s.content.objAt (.relation n q.1) = none) :
    ∃ u v w, compareDiff s t = u ++ (relationCreate p.2 ++ (v ++ (relationCreate q.2 ++ w))) := by
  have hmb := ht.home _ (AMap.mem_of_get? hb)
  have hnb : b.name = n := hmb.1
  have hpm : p ∈ b.relations := by rw [hl]; simp
  have hqm : q ∈ b.relations := by rw [hl]; simp
  have hpn : p.2.name = p.1 := (hmb.2.rels_home p hpm).1
  have hqn : q.2.name = q.1 := (hmb.2.rels_home q hqm).1
  cases ha : s.schemas.get? n with
  | none =>
    obtain ⟨m1, m2, hm⟩ := List.append_of_mem (AMap.mem_of_get? hb)
    have e : s.hasSchema b.name = false := by rw [hnb]; exact AMap.has_of_none ha
    refine ⟨(m1.flatMap fun p => if s.hasSchema p.2.name then [] else schemaCreate p.2) ++
      (newCreateSchema b :: l1.flatMap fun p => relationCreate p.2), l2.flatMap fun p => relationCreate p.2,
      (l3.flatMap fun p => relationCreate p.2) ++ ((b.functions.flatMap fun p => functionCreate p.2) ++
      ((m2.flatMap fun p => if s.hasSchema p.2.name then [] else schemaCreate p.2) ++
      s.schemas.flatMap (schemaPart t))), ?_⟩
    rw [compareDiff_split, hm, List.flatMap_append, List.flatMap_cons]
    simp only [e, Bool.false_eq_true, if_false, schemaCreate, flatMap_values, hl, List.flatMap_append, List.flatMap_cons,
      List.append_assoc, List.cons_append]
  | some a =>
    have hma := hs.home _ (AMap.mem_of_get? ha)
    have hna : a.name = n := hma.1
    obtain ⟨m1, m2, hm⟩ := List.append_of_mem (AMap.mem_of_get? ha)
    have e : schemaPart t (n, a) = schemaUpdate a b := by simp only [schemaPart, hna, hb]
    have hg : ∀ k, s.content.objAt (.relation n k) = none → a.hasRelation k = false := fun k hk =>
      AMap.has_of_none (by simpa [Content.objAt, Database.content, Schema.content, ha] using hk)
    refine ⟨(t.schemas.flatMap fun p => if s.hasSchema p.2.name then [] else schemaCreate p.2) ++
      (m1.flatMap (schemaPart t) ++ l1.flatMap fun p => if a.hasRelation p.2.name then [] else relationCreate p.2),
      l2.flatMap fun p => if a.hasRelation p.2.name then [] else relationCreate p.2,
      (l3.flatMap fun p => if a.hasRelation p.2.name then [] else relationCreate p.2) ++
      ((a.relations.flatMap fun p => match b.relations.get? p.2.name with
        | some ti => relationUpdate p.2 ti
        | none => relationDrop p.2) ++
      (((b.functions.values.flatMap fun ti => if a.hasFunction ti.name then [] else functionCreate ti) ++
        (a.functions.values.flatMap fun si =>
          match b.functions.get? si.name with
          | some ti => functionUpdate si ti
          | none => functionDrop si)) ++ m2.flatMap (schemaPart t))), ?_⟩
    rw [compareDiff_split, hm, List.flatMap_append, List.flatMap_cons, e, schemaUpdate_split]
    rw [show (b.relations.flatMap fun p => if a.hasRelation p.2.name then [] else relationCreate p.2) =
        (l1.flatMap fun p => if a.hasRelation p.2.name then [] else relationCreate p.2) ++ (relationCreate p.2 ++
        ((l2.flatMap fun p => if a.hasRelation p.2.name then [] else relationCreate p.2) ++ (relationCreate q.2 ++
        (l3.flatMap fun p => if a.hasRelation p.2.name then [] else relationCreate p.2)))) by
      rw [hl]
      simp only [List.flatMap_append, List.flatMap_cons, hpn, hqn, hg _ hp, hg _ hq, Bool.false_eq_true, if_false]]
    simp only [List.append_assoc]
    rfl
/-! ### Other orders of the same snapshot -/

/-- A relation can be listed after all others, with nothing else changed. -/
theorem listed_last {s : Database} (hs : s.WF) {n k : String} {a : Schema} {y : Relation}
    (ha : s.schemas.get? n = some a) (hy : a.relations.get? k = some y) :
    ∃ s' : Database, s'.WF ∧ s'.content = s.content ∧ (∀ n r, s'.tableNamed n r = s.tableNamed n r) ∧
      ∃ a', s'.schemas.get? n = some a' ∧ a'.relations = a.relations.erase k ++ [(k, y)] := by
  have hma := hs.home _ (AMap.mem_of_get? ha)
  have hge : (a.relations.erase k).get? k = none := by rw [AMap.get?_erase]; simp
  let rels := (a.relations.erase k).insertNew k y
  have hget : ∀ j, rels.get? j = a.relations.get? j := by
    intro j
    rw [AMap.get?_insertNew _ _ _ _ hge, AMap.get?_erase]
    by_cases hj : j = k
    · subst hj; simp [hy]
    · simp [hj]
  let a' : Schema := { a with relations := rels }
  have hnd : AMap.NodupKeys rels := AMap.nodupKeys_insertNew (AMap.nodupKeys_erase hma.2.rels_nodup k) hge
  have hwa : a'.WF := by
    refine ⟨hnd, ?_, hma.2.funs_nodup, hma.2.funs_home⟩
    intro p hp
    have := (AMap.get?_iff_mem hnd (k := p.1) (v := p.2)).2 hp
    rw [hget] at this
    exact hma.2.rels_home p (AMap.mem_of_get? this)
  have hgs : ∀ j, (s.schemas.set n a').get? j = if j = n then some a' else s.schemas.get? j := by
    intro j
    rw [AMap.get?_set _ _ _ _ (by rw [ha]; rfl)]
  refine ⟨⟨s.schemas.set n a'⟩, ?_, ?_, ?_, a', by rw [hgs]; simp, rfl⟩
  · have hnd' := AMap.nodupKeys_set hs.nodup n a'
    refine ⟨hnd', ?_⟩
    intro p hp
    have hp' := (AMap.get?_iff_mem hnd' (k := p.1) (v := p.2)).2 hp
    rw [hgs] at hp'
    split at hp'
    · next e =>
      injection hp' with hp'
      rw [← hp', e]
      exact ⟨hma.1, hwa⟩
    · exact hs.home p (AMap.mem_of_get? hp')
  · funext j
    simp only [Database.content, hgs]
    split
    · next e =>
      subst e
      rw [ha]
      simp only [Option.map_some, Option.some.injEq, a', Schema.content, SchemaContent.mk.injEq, true_and, and_true]
      funext j
      rw [hget]
    · rfl
  · intro m r
    simp only [Database.tableNamed, hgs]
    split
    · next e =>
      subst e
      simp only [ha, Option.bind_some, a', hget]
    · rfl

end Podo
