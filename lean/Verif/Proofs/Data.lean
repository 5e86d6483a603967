import Verif.Spec.Data
import Verif.Proofs.DiffNeeded
import Verif.Props.Diff
import Verif.Props.Commands
/-
Lemmas for C87.
-/
set_option linter.unusedSimpArgs false
namespace Podo
open Spec Diff Change

theorem discards_target {c : Change} {p : Path} (h : c.Discards p) : ∃ q ∈ c.targets, q.Contains p := by
  cases c <;> simp only [Change.Discards] at h
  case dropSchema s => exact ⟨_, by simp [Change.targets], h⟩
  case dropTable s t => exact ⟨_, by simp [Change.targets], h⟩
  case dropColumn s t c => subst h; exact ⟨.column s t c, by simp [Change.targets], rfl, rfl, rfl⟩
  case renameColumn s t a b => obtain ⟨rfl, _⟩ := h; exact ⟨.column s t a, by simp [Change.targets], rfl, rfl, rfl⟩
  case dropSequence s q => subst h; exact ⟨.relation s q, by simp [Change.targets], rfl, rfl⟩

theorem holds_congr {C C' : Content} {p : Path} (h : C'.objAt p = C.objAt p) : C'.Holds p ↔ C.Holds p := by
  cases p <;> simp only [Content.Holds, h]

theorem Content.Holds.column {C : Content} {s t c : String} (h : C.Holds (.column s t c)) :
    ∃ sc tb x, C s = some sc ∧ sc.relations t = some (.table tb) ∧ tb.columns c = some x := by
  simp only [Content.Holds, Content.objAt, Content.tableAt] at h
  cases h1 : C s with
  | none => simp [h1] at h
  | some sc =>
    cases h2 : sc.relations t with
    | none => simp [h1, h2] at h
    | some r =>
      cases r with
      | table tb =>
        cases h3 : tb.columns c with
        | none => simp [h1, h2, h3, RelContent.table?] at h
        | some x => exact ⟨sc, tb, x, rfl, h2, h3⟩
      | view => simp [h1, h2, RelContent.table?] at h
      | index => simp [h1, h2, RelContent.table?] at h
      | sequence => simp [h1, h2, RelContent.table?] at h

theorem holds_column {C : Content} {s t c : String} {sc : SchemaContent} {tb : TableContent} {x : Column}
    (h1 : C s = some sc) (h2 : sc.relations t = some (.table tb)) (h3 : tb.columns c = some x) :
    C.Holds (.column s t c) := by
  simp [Content.Holds, Content.objAt, Content.tableAt, h1, h2, h3, RelContent.table?]

/-- What holds data lies in a schema and in a relation, and is no function or constraint. -/
theorem Content.Holds.relation {C : Content} {p : Path} (h : C.Holds p) :
    ∃ s r sc x, (Path.relation s r).Contains p ∧ C s = some sc ∧ sc.relations r = some x ∧
      ((∃ tb, x = .table tb) ∨ ∃ q, x = .sequence q) := by
  cases p with
  | schema | function | constraint => exact absurd h (by simp [Content.Holds])
  | column s t c =>
    obtain ⟨sc, tb, x, h1, h2, _⟩ := h.column
    exact ⟨s, t, sc, _, ⟨rfl, rfl⟩, h1, h2, .inl ⟨tb, rfl⟩⟩
  | relation s q =>
    obtain ⟨x, hx⟩ := h
    obtain ⟨sc, h1, h2⟩ := objAt_sequence.1 hx
    exact ⟨s, q, sc, _, ⟨rfl, rfl⟩, h1, h2, .inr ⟨x, rfl⟩⟩

/-- The schema of what holds data is there. -/
theorem Content.Holds.schema {C : Content} {p : Path} (h : C.Holds p) {s : String}
    (hp : (Path.schema s).Contains p) : C s ≠ none := by
  obtain ⟨s', r, sc, x, h1, h2, _⟩ := h.relation
  have : s' = s := by
    cases p <;> simp only [Path.Contains] at h1 hp <;> (try exact h1.elim) <;> simp_all
  subst this
  rw [h2]; simp

theorem Content.Holds.inRelation {C : Content} {p : Path} (h : C.Holds p) {s r : String}
    (hp : (Path.relation s r).Contains p) :
    ∃ sc x, C s = some sc ∧ sc.relations r = some x ∧ ((∃ tb, x = .table tb) ∨ ∃ q, x = .sequence q) := by
  obtain ⟨s', r', sc, x, h1, h2, h3, h4⟩ := h.relation
  have : s' = s ∧ r' = r := by
    cases p <;> simp only [Path.Contains] at h1 hp <;> (try exact h1.elim) <;> simp_all
  obtain ⟨rfl, rfl⟩ := this
  exact ⟨sc, x, h2, h3, h4⟩

/-- A relation of a schema is put under a new name. -/
theorem not_holds_new {C C' : Content} {s n : String} {p : Path}
    {f : (String → Option RelContent) → Option (String → Option RelContent)}
    (hf : ∀ m m', f m = some m' → m n = none)
    (h : inSchema C s (onRels f) = some C') (hp : (Path.relation s n).Contains p) : ¬ C.Holds p := by
  intro hh
  obtain ⟨sc, sc', h1, h2, rfl⟩ := inSchema_some h
  obtain ⟨m, h3, rfl⟩ := onRels_some h2
  obtain ⟨sc₂, x, e1, e2, _⟩ := hh.inRelation hp
  rw [h1] at e1
  cases e1
  rw [hf _ _ h3] at e2
  cases e2

theorem not_holds_removed {C C' : Content} {s n : String} {p : Path} {q : RelContent → Bool}
    (h : inSchema C s (onRels fun rels => remove q rels n) = some C') (hp : (Path.relation s n).Contains p) :
    ¬ C'.Holds p ∧ ∃ sc x, C s = some sc ∧ sc.relations n = some x ∧ q x = true := by
  obtain ⟨sc, sc', h1, h2, rfl⟩ := inSchema_some h
  obtain ⟨m, h3, rfl⟩ := onRels_some h2
  obtain ⟨⟨x, h4, h5⟩, rfl⟩ := remove_some h3
  refine ⟨fun hh => ?_, sc, x, h1, h4, h5⟩
  obtain ⟨sc₂, y, e1, e2, _⟩ := hh.inRelation hp
  rw [upd_same] at e1
  cases e1
  dsimp only at e2
  rw [upd_same] at e2
  cases e2

theorem contains_column {s t c : String} {p : Path} (h : (Path.column s t c).Contains p) : p = .column s t c := by
  cases p <;> simp only [Path.Contains] at h
  obtain ⟨rfl, rfl, rfl⟩ := h; rfl

/-- After a change, data is still there exactly if the change does not take it. -/
theorem effect_holds {c : Change} {C C' : Content} (h : effect c C = some C') {p : Path} (hp : C.Holds p) :
    C'.Holds p ↔ ¬ c.Discards p := by
  by_cases ht : ∃ q ∈ c.targets, q.Contains p
  · obtain ⟨q, hq, hc⟩ := ht
    cases c with
    | createSchema s =>
      simp only [Change.targets, List.mem_singleton] at hq; subst hq
      exact absurd (putNew_some h).1 (hp.schema hc)
    | dropSchema s =>
      simp only [Change.targets, List.mem_singleton] at hq; subst hq
      simp only [Change.Discards, hc, not_true, iff_false]
      rw [(remove_some h).2]
      exact fun hh => hh.schema hc (upd_same ..)
    | createTable s t cols =>
      simp only [Change.targets, List.mem_singleton] at hq; subst hq
      refine absurd hp (not_holds_new (fun m m' hm => ?_) h hc)
      split at hm
      · exact (putNew_some hm).1
      · cases hm
    | createIndex s t i u me ks =>
      simp only [Change.targets, List.mem_singleton] at hq; subst hq
      refine absurd hp (not_holds_new (fun m m' hm => ?_) h hc)
      split at hm
      · exact (putNew_some hm).1
      · cases hm
    | createView | createSequence =>
      simp only [Change.targets, List.mem_singleton] at hq; subst hq
      exact absurd hp (not_holds_new (fun m m' hm => (putNew_some hm).1) h hc)
    | dropTable s t =>
      simp only [Change.targets, List.mem_singleton] at hq; subst hq
      simp only [Change.Discards, hc, not_true, iff_false]
      exact (not_holds_removed h hc).1
    | dropView s v =>
      simp only [Change.targets, List.mem_singleton] at hq; subst hq
      obtain ⟨sc, x, e1, e2, e3⟩ := (not_holds_removed h hc).2
      obtain ⟨sc', x', e1', e2', e3'⟩ := hp.inRelation hc
      rw [e1] at e1'; cases e1'
      rw [e2] at e2'; cases e2'
      rcases e3' with ⟨_, rfl⟩ | ⟨_, rfl⟩ <;> simp [isView] at e3
    | dropIndex s v =>
      simp only [Change.targets, List.mem_singleton] at hq; subst hq
      obtain ⟨sc, x, e1, e2, e3⟩ := (not_holds_removed h hc).2
      obtain ⟨sc', x', e1', e2', e3'⟩ := hp.inRelation hc
      rw [e1] at e1'; cases e1'
      rw [e2] at e2'; cases e2'
      rcases e3' with ⟨_, rfl⟩ | ⟨_, rfl⟩ <;> simp [isIndex] at e3
    | dropSequence s v =>
      simp only [Change.targets, List.mem_singleton] at hq; subst hq
      obtain ⟨hn, sc, x, e1, e2, e3⟩ := not_holds_removed h hc
      have : p = .relation s v := by
        cases p with
        | relation s' r' => obtain ⟨rfl, rfl⟩ := hc; rfl
        | column s' r' c' =>
          obtain ⟨rfl, rfl⟩ := hc
          obtain ⟨sc', tb, _, e1', e2', _⟩ := hp.column
          rw [e1] at e1'; cases e1'
          rw [e2] at e2'; cases e2'
          simp [isSequence] at e3
        | schema | function | constraint => exact absurd hp (by simp [Content.Holds])
      simp only [Change.Discards, this, not_true, iff_false]
      exact this ▸ hn
    | addColumn s t c =>
      simp only [Change.targets, List.mem_singleton] at hq; subst hq
      cases contains_column hc
      obtain ⟨sc, tb, tb', h1, h2, h3, rfl⟩ := inTable_some h
      obtain ⟨m, h4, rfl⟩ := onCols_some h3
      obtain ⟨sc₂, tb₂, x, e1, e2, e3⟩ := hp.column
      rw [h1] at e1; cases e1
      rw [h2] at e2; cases e2
      rw [(putNew_some h4).1] at e3
      cases e3
    | setDataType s t c | setDefault s t c | setNotNull s t c =>
      simp only [Change.targets, List.mem_singleton] at hq; subst hq
      cases contains_column hc
      obtain ⟨sc, tb, tb', h1, h2, h3, rfl⟩ := inTable_some h
      obtain ⟨m, h4, rfl⟩ := onCols_some h3
      obtain ⟨x, y, _, _, rfl⟩ := alter_some h4
      simp only [Change.Discards, not_false_iff, iff_true]
      exact holds_column (upd_same ..) (upd_same ..) (upd_same ..)
    | dropColumn s t c =>
      simp only [Change.targets, List.mem_singleton] at hq; subst hq
      cases contains_column hc
      obtain ⟨sc, tb, tb', h1, h2, h3, rfl⟩ := inTable_some h
      obtain ⟨m, h4, rfl⟩ := onCols_some h3
      simp only [Change.Discards, not_true, iff_false]
      intro hh
      obtain ⟨sc₂, tb₂, x, e1, e2, e3⟩ := hh.column
      rw [upd_same] at e1; cases e1
      dsimp only at e2
      rw [upd_same] at e2; cases e2
      rw [(remove_some h4).2] at e3
      dsimp only at e3
      rw [upd_same] at e3
      cases e3
    | renameColumn s t a b =>
      obtain ⟨sc, tb, tb', h1, h2, h3, rfl⟩ := inTable_some h
      obtain ⟨m, h4, rfl⟩ := onCols_some h3
      have hx : ∃ x, tb.columns a = some x ∧ upd tb.columns a none b = none ∧
          m = upd (upd tb.columns a none) b (some { x with name := b }) := by
        cases hx : tb.columns a with
        | none => simp [hx] at h4
        | some x =>
          simp only [hx] at h4
          exact ⟨x, rfl, putNew_some h4⟩
      obtain ⟨x, hx, hb, rfl⟩ := hx
      simp only [Change.targets, List.mem_cons, List.not_mem_nil, or_false] at hq
      by_cases hab : a = b
      · subst hab
        have hq : q = .column s t a := by rcases hq with h | h <;> exact h
        subst hq
        cases contains_column hc
        simp only [Change.Discards, ne_eq, not_true, and_false, not_false_iff, iff_true]
        exact holds_column (upd_same ..) (upd_same ..) (upd_same ..)
      · rcases hq with rfl | rfl
        · cases contains_column hc
          simp only [Change.Discards, ne_eq, hab, not_false_iff, and_self, not_true, iff_false]
          intro hh
          obtain ⟨sc₂, tb₂, x, e1, e2, e3⟩ := hh.column
          rw [upd_same] at e1; cases e1
          dsimp only at e2
          rw [upd_same] at e2; cases e2
          dsimp only at e3
          rw [upd_ne _ _ hab, upd_same] at e3
          cases e3
        · cases contains_column hc
          obtain ⟨sc₂, tb₂, y, e1, e2, e3⟩ := hp.column
          rw [h1] at e1; cases e1
          rw [h2] at e2; cases e2
          rw [upd_ne _ _ (fun e => hab e.symm)] at hb
          rw [hb] at e3
          cases e3
    | addPrimaryKey | addUnique | addForeignKey | addCheck | alterPrimaryKey | alterUnique | alterForeignKey
    | alterCheck | dropPrimaryKey | dropUnique | dropForeignKey | dropCheck | createFunction | dropFunction =>
      simp only [Change.targets, List.mem_singleton] at hq; subst hq
      cases p <;> simp only [Path.Contains] at hc <;> exact absurd hp (by simp [Content.Holds])
  · have hf := effect_frame h (p := p) fun q hq hc => ht ⟨q, hq, hc⟩
    constructor
    · exact fun _ hd => ht (discards_target hd)
    · exact fun _ => (holds_congr hf).2 hp

/-- Over a list of changes: data is taken exactly if at some point of the way it is not there. -/
theorem applyAll_discards {cs : List Change} {s s' : Database} (hs : s.WF) (h : applyAll cs s = .ok s') {p : Path}
    (hp : s.content.Holds p) :
    (∃ c ∈ cs, c.Discards p) ↔ ∃ pre s₁, pre <+: cs ∧ applyAll pre s = .ok s₁ ∧ ¬ s₁.content.Holds p := by
  induction cs generalizing s with
  | nil =>
    constructor
    · rintro ⟨_, h, _⟩; cases h
    · rintro ⟨pre, s₁, hpre, h1, h2⟩
      have := List.prefix_nil.1 hpre
      subst this
      cases h1
      exact absurd hp h2
  | cons c cs ih =>
    simp only [applyAll] at h
    cases hc : c.apply s with
    | error e => simp [hc] at h
    | ok s₁ =>
      simp only [hc] at h
      have hw : s₁.WF := apply_wf hs hc
      have hone := effect_holds (apply_effect hs hc) hp
      by_cases hd : c.Discards p
      · refine ⟨fun _ => ⟨[c], s₁, by simp, ?_, fun hh => hone.1 hh hd⟩, fun _ => ⟨c, by simp, hd⟩⟩
        simp [applyAll, hc]
      · have hp₁ := hone.2 hd
        have := ih hw h hp₁
        constructor
        · rintro ⟨x, hx, hxd⟩
          rcases List.mem_cons.1 hx with rfl | hx
          · exact absurd hxd hd
          · obtain ⟨pre, s₂, e1, e2, e3⟩ := this.1 ⟨x, hx, hxd⟩
            refine ⟨c :: pre, s₂, List.cons_prefix_cons.2 ⟨rfl, e1⟩, ?_, e3⟩
            simp [applyAll, hc, e2]
        · rintro ⟨pre, s₂, e1, e2, e3⟩
          cases pre with
          | nil => cases e2; exact absurd hp e3
          | cons y pre =>
            obtain ⟨rfl, e4⟩ := List.cons_prefix_cons.1 e1
            simp only [applyAll, hc] at e2
            obtain ⟨x, hx, hxd⟩ := this.2 ⟨pre, s₂, e4, e2, e3⟩
            exact ⟨x, List.mem_cons_of_mem _ hx, hxd⟩

/-- What there is at a path inside a schema that is not there: nothing. -/
theorem objAt_no_schema {C : Content} {s : String} {p : Path} (h : C s = none) (hp : (Path.schema s).Contains p) :
    C.objAt p = none := by
  cases p <;> simp only [Path.Contains] at hp <;> subst hp <;> simp [Content.objAt, Content.tableAt, h]

/-- A change of the diff that takes a column finds it missing in the target. -/
theorem diff_discards_column {s t : Database} (hs : s.WF) (ht : t.WF) {n r k : String} {c : Change}
    (hc : c ∈ compareDiff s t) (hd : c.Discards (.column n r k)) : t.content.objAt (.column n r k) = none := by
  have hn := C06_every_change_needed hs ht hc
  cases c <;> simp only [Change.Discards] at hd <;> simp only [Needed] at hn
  case dropSchema m => exact objAt_no_schema hn.2 hd
  case dropTable m x =>
    obtain ⟨rfl, rfl⟩ := hd
    simp [Content.objAt, hn.2]
  case dropColumn m x y => cases hd; exact hn.2
  case dropSequence => cases hd

/-- A change of the diff that takes a sequence finds another thing, or nothing, in the target. -/
theorem diff_discards_sequence {s t : Database} (hs : s.WF) (ht : t.WF) {n r : String} {q : Sequence} {c : Change}
    (hq : s.content.objAt (.relation n r) = some (.sequence q))
    (hc : c ∈ compareDiff s t) (hd : c.Discards (.relation n r)) :
    t.content.objAt (.relation n r) ≠ some (.sequence q) := by
  have hn := C06_every_change_needed hs ht hc
  cases c <;> simp only [Change.Discards] at hd <;> simp only [Needed] at hn
  case dropSchema m => rw [objAt_no_schema hn.2 hd]; simp
  case dropTable m x =>
    obtain ⟨rfl, rfl⟩ := hd
    obtain ⟨sc, h1, h2⟩ := objAt_sequence.1 hq
    exact absurd (by simp [Content.tableAt, h1, h2, RelContent.table?]) hn.1
  case dropColumn => cases hd
  case dropSequence => cases hd; rw [hq] at hn; exact fun h => hn.2 h.symm

/-- The part of the diff that is about one schema of the source. -/
theorem mem_diff_schema {s t : Database} (hs : s.WF) {n : String} {a : Schema} (h : s.schemas.get? n = some a)
    {c : Change} (hc : c ∈ (match t.schemas.get? n with | some b => schemaUpdate a b | none => schemaDrop a)) :
    c ∈ compareDiff s t := by
  simp only [compareDiff, flatMap_values, List.mem_append, List.mem_flatMap]
  have hm := AMap.mem_of_get? h
  refine .inr ⟨_, hm, ?_⟩
  rw [(hs.home _ hm).1]
  exact hc

theorem mem_schemaUpdate {a b : Schema} (ha : a.WF) {r : String} {x : Relation} (h : a.relations.get? r = some x)
    {c : Change} (hc : c ∈ (match b.relations.get? r with | some y => relationUpdate x y | none => relationDrop x)) :
    c ∈ schemaUpdate a b := by
  simp only [schemaUpdate, flatMap_values, List.mem_append, List.mem_flatMap]
  have hm := AMap.mem_of_get? h
  refine .inl (.inl (.inr ⟨_, hm, ?_⟩))
  rw [(ha.rels_home _ hm).1]
  exact hc

theorem diff_drops_column {s t : Database} (hs : s.WF) {n r k : String}
    (hp : s.content.Holds (.column n r k)) (hm : t.content.objAt (.column n r k) = none) :
    ∃ c ∈ compareDiff s t, c.Discards (.column n r k) := by
  obtain ⟨sc, tb, x, h1, h2, h3⟩ := hp.column
  obtain ⟨a, ha, rfl⟩ := Option.map_eq_some_iff.1 h1
  have hma := AMap.mem_of_get? ha
  have hwa := (hs.home _ hma).2
  obtain ⟨rel, hr, he⟩ := Option.map_eq_some_iff.1 h2
  have hmr := AMap.mem_of_get? hr
  have hwr := hwa.rels_home _ hmr
  cases rel with
  | view => cases he
  | index => cases he
  | sequence => cases he
  | table tab =>
    cases he
    have hn : tab.name = r := hwr.1
    have hsn : tab.schemaName = n := hwr.2.1.trans (hs.home _ hma).1
    cases hb : t.schemas.get? n with
    | none =>
      refine ⟨.dropSchema n, mem_diff_schema hs ha ?_, rfl⟩
      rw [hb]
      have hnm : a.name = n := (hs.home _ hma).1
      simp [schemaDrop, newDropSchema, hnm]
    | some b =>
      cases hy : b.relations.get? r with
      | none =>
        refine ⟨.dropTable n r, mem_diff_schema hs ha ?_, rfl, rfl⟩
        rw [hb]
        refine mem_schemaUpdate hwa hr ?_
        rw [hy]
        simp [relationDrop, tableDrop, newDropTable, hn, hsn]
      | some y =>
        have hother : (∀ tab', y ≠ .table tab') →
            ∃ c ∈ compareDiff s t, c.Discards (.column n r k) := fun hno => by
          refine ⟨.dropTable n r, mem_diff_schema hs ha ?_, rfl, rfl⟩
          rw [hb]
          refine mem_schemaUpdate hwa hr ?_
          rw [hy]
          cases y with
          | table tab' => exact absurd rfl (hno tab')
          | view | index | sequence =>
            simp [relationUpdate, relationDrop, tableDrop, newDropTable, hn, hsn]
        cases y with
        | view => exact hother (by intro _ h; cases h)
        | index => exact hother (by intro _ h; cases h)
        | sequence => exact hother (by intro _ h; cases h)
        | table tab' =>
          have hno : columnNamed tab'.columns k = none := by
            simp [Content.objAt, Content.tableAt, Database.content, Schema.content, hb, hy, Relation.content,
              RelContent.table?, Table.content] at hm
            exact hm
          have hx : x ∈ tab.columns ∧ x.name = k := by
            have : tab.columns.find? (·.name == k) = some x := h3
            exact ⟨List.mem_of_find?_eq_some this, by simpa using List.find?_some this⟩
          refine ⟨.dropColumn n r k, mem_diff_schema hs ha ?_, rfl⟩
          rw [hb]
          refine mem_schemaUpdate hwa hr ?_
          rw [hy]
          simp only [relationUpdate, tableUpdate, List.mem_append, List.mem_flatMap]
          refine .inl (.inl (.inr ⟨x, hx.1, ?_⟩))
          have hno' : tab'.hasColumn k = false := by
            simp only [Table.hasColumn, findCol_eq_columnNamed, hno]
            rfl
          have hh := (show tab.WF from hwr.2.2).cols_home x hx.1
          rw [hx.2, hno']
          simp [columnDrop, newDropColumn, hh.1, hh.2, hn, hsn, hx.2]

theorem diff_drops_sequence {s t : Database} (hs : s.WF) (ht : t.WF) {n r : String} {q : Sequence}
    (hq : s.content.objAt (.relation n r) = some (.sequence q))
    (hm : t.content.objAt (.relation n r) ≠ some (.sequence q)) :
    ∃ c ∈ compareDiff s t, c.Discards (.relation n r) := by
  obtain ⟨sc, h1, h2⟩ := objAt_sequence.1 hq
  obtain ⟨a, ha, rfl⟩ := Option.map_eq_some_iff.1 h1
  have hma := AMap.mem_of_get? ha
  have hwa := (hs.home _ hma).2
  obtain ⟨rel, hr, he⟩ := Option.map_eq_some_iff.1 h2
  have hmr := AMap.mem_of_get? hr
  have hwr := hwa.rels_home _ hmr
  cases rel with
  | view => cases he
  | index => cases he
  | table => cases he
  | sequence q' =>
    cases he
    have hn : q.name = r := hwr.1
    have hsn : q.schemaName = n := hwr.2.1.trans (hs.home _ hma).1
    have key : ∀ c ∈ [newDropSequence q], c ∈ compareDiff s t → ∃ c ∈ compareDiff s t, c.Discards (.relation n r) := by
      intro c hc h
      simp only [List.mem_singleton] at hc
      subst hc
      exact ⟨_, h, by simp [newDropSequence, Change.Discards, hn, hsn]⟩
    refine key _ (List.mem_singleton.2 rfl) (mem_diff_schema hs ha ?_)
    cases hb : t.schemas.get? n with
    | none =>
      simp only [schemaDrop, flatMap_values, List.mem_append, List.mem_flatMap]
      exact .inl (.inl ⟨_, hmr, by simp [relationDrop, sequenceDrop]⟩)
    | some b =>
      have hmb := AMap.mem_of_get? hb
      refine mem_schemaUpdate hwa hr ?_
      cases hy : b.relations.get? r with
      | none => simp [relationDrop, sequenceDrop]
      | some y =>
        cases y with
        | table | view | index => simp [relationUpdate, relationDrop, sequenceDrop]
        | sequence q₂ =>
          have hwb := (ht.home _ hmb).2.rels_home _ (AMap.mem_of_get? hy)
          have h3 : q₂.name = r := hwb.1
          have h4 : q₂.schemaName = n := hwb.2.1.trans (ht.home _ hmb).1
          have hne : q₂ ≠ q := by
            intro e
            apply hm
            rw [objAt_sequence]
            exact ⟨b.content, by simp [Database.content, hb], by simp [Schema.content, hy, Relation.content, e]⟩
          simp only [relationUpdate, sequenceUpdate]
          split
          · simp
          · rename_i hall
            refine absurd ?_ hne
            simp only [not_or, ne_eq, Decidable.not_not] at hall
            cases q; cases q₂
            simp_all

theorem replayVersions_wf {d : HDir} {ns : List String} {s s' : Database} (hs : s.WF)
    (h : replayVersions d ns s = .ok s') : s'.WF := by
  induction ns generalizing s with
  | nil => simp only [replayVersions, Except.ok.injEq] at h; exact h ▸ hs
  | cons n ns ih =>
    simp only [replayVersions] at h
    cases hv : d.getVersion n with
    | error e => simp [hv] at h
    | ok v =>
      simp only [hv] at h
      cases ha : applyAll v.changes s with
      | error e => simp [ha] at h
      | ok s₁ => simp only [ha] at h; exact ih (applyAll_wf hs ha) h

/-- A snapshot that podo calculates is well-formed, whatever the directory. -/
theorem SnapshotOf.wf {d : HDir} {n : String} {s : Database} (h : SnapshotOf d n s) : s.WF := by
  obtain ⟨k, h⟩ := h
  unfold calculateSnapshot at h
  split at h
  · cases h
  · cases h
  · split at h
    · cases h
    · split at h
      · cases h
      · rename_i ha
        simp only [Option.some.injEq] at h
        exact replayVersions_wf (applyAll_wf Database.new_wf ha) h

theorem runs_reachable {d d' : HDir} {c : HistCmd} {ok : Bool} (hr : Reachable d) (h : Runs c d d' ok)
    (hm : ∀ stamp label, c ≠ .make stamp label) : Reachable d' := by
  obtain ⟨k, h⟩ := h
  exact .step hr (fun a b e => absurd e (hm a b)) h

end Podo
