import Verif.Proofs.DiffEmpty
import Verif.Spec.Needed
/-
Every change of a computed diff is called for by a difference.
-/
set_option linter.unusedSimpArgs false
namespace Podo
open Spec Diff Change

section
variable {S T : Content}

/-- What we know about a place in the two contents. -/
theorem objAt_column {C : Content} {s t c : String} :
    C.objAt (.column s t c) = ((C.tableAt s t).bind fun tb => tb.columns c).map .column := rfl
theorem objAt_constraint {C : Content} {s t c : String} :
    C.objAt (.constraint s t c) = ((C.tableAt s t).bind fun tb => tb.constraints c).map .constraint :=
  rfl
theorem objAt_relation {C : Content} {s r : String} :
    C.objAt (.relation s r) = ((C s).bind fun sc => sc.relations r).map RelContent.obj := rfl
theorem objAt_function {C : Content} {s r : String} :
    C.objAt (.function s r) = ((C s).bind fun sc => sc.functions r).map .function := rfl

theorem objAt_sequence {C : Content} {n r : String} {q : Sequence} :
    C.objAt (.relation n r) = some (.sequence q) ↔
      ∃ sc, C n = some sc ∧ sc.relations r = some (.sequence q) := by
  rw [objAt_relation]
  cases hC : C n with
  | none => simp
  | some sc =>
    cases hr : sc.relations r with
    | none => simp [hr]
    | some x => cases x <;> simp [hr, RelContent.obj]

theorem objAt_index {C : Content} {n r : String} {i : Index} :
    C.objAt (.relation n r) = some (.index i) ↔
      ∃ sc, C n = some sc ∧ sc.relations r = some (.index i) := by
  rw [objAt_relation]
  cases hC : C n with
  | none => simp
  | some sc =>
    cases hr : sc.relations r with
    | none => simp [hr]
    | some x => cases x <;> simp [hr, RelContent.obj]

theorem reached_objAt_sequence {S T : Content} {n r : String} {q : Sequence}
    (hq : T.objAt (.relation n r) = some (.sequence q))
    (hx : S.objAt (.relation n r) ≠ some (.sequence q)) :
    (reached S T).objAt (.relation n r) =
      some (.sequence { q with ownedByTable := none, ownedByColumn := none }) := by
  obtain ⟨sc, h1, h2⟩ := objAt_sequence.1 hq
  have hS := @objAt_sequence S n r q
  have e : (reached S T).objAt (.relation n r) =
      some (reachedRel ((S n).bind fun sc => sc.relations r) (.sequence q)).obj := by
    rw [objAt_relation]
    simp [reached, reachedSchema, h1, h2]
  rw [e]
  have hx' : ((S n).bind fun sc => sc.relations r) ≠ some (.sequence q) := by
    intro h
    obtain ⟨ssc, h3, h4⟩ := Option.bind_eq_some_iff.1 h
    exact hx (hS.2 ⟨ssc, h3, h4⟩)
  generalize ((S n).bind fun sc => sc.relations r) = x at hx'
  cases x with
  | none => rfl
  | some x =>
    cases x with
    | sequence p =>
      have : ¬ p = q := fun h => hx' (by rw [h])
      simp only [reachedRel, if_neg this, RelContent.obj]
    | _ => rfl

theorem reached_objAt_index {S T : Content} {n r : String} {i j : Index}
    (hi : S.objAt (.relation n r) = some (.index i)) (hj : T.objAt (.relation n r) = some (.index j)) :
    (reached S T).objAt (.relation n r) =
      if i.keyExpressions = j.keyExpressions then some (.index i) else some (.index j) := by
  obtain ⟨sc, h1, h2⟩ := objAt_index.1 hj
  obtain ⟨ssc, h3, h4⟩ := objAt_index.1 hi
  rw [objAt_relation]
  simp only [reached, reachedSchema, h1, h2, h3, h4, Option.map_some, Option.bind_some, reachedRel]
  split <;> simp [RelContent.obj]

theorem needed_columnUpdate {a b : Column} (h1 : a.schemaName = b.schemaName)
    (h2 : a.tableName = b.tableName) (h3 : a.name = b.name)
    (hS : S.objAt (.column b.schemaName b.tableName b.name) = some (.column a))
    (hT : T.objAt (.column b.schemaName b.tableName b.name) = some (.column b)) {c : Change}
    (h : c ∈ columnUpdate a b) : Needed S T c := by
  simp only [columnUpdate, List.mem_append] at h
  rcases h with (h | h) | h <;> (split at h) <;>
    simp only [List.mem_singleton, List.not_mem_nil] at h <;> subst h <;>
    exact ⟨a, b, hS, hT, by assumption, rfl⟩

theorem needed_constraintCreate {b : Constraint}
    (hS : S.objAt (.constraint b.schemaName b.tableName b.name) ≠
      some (.constraint b))
    (hT : T.objAt (.constraint b.schemaName b.tableName b.name) = some (.constraint b)) {c : Change}
    (h : c ∈ constraintCreate b) : Needed S T c := by
  cases b <;> simp only [constraintCreate, primaryKeyCreate, uniqueCreate, foreignKeyCreate,
    checkCreate, List.mem_singleton] at h <;> subst h <;> exact ⟨hT, hT ▸ hS⟩

theorem needed_constraintDrop {a : Constraint}
    (hS : S.objAt (.constraint a.schemaName a.tableName a.name) = some (.constraint a))
    (hT : T.objAt (.constraint a.schemaName a.tableName a.name) ≠ some (.constraint a)) {c : Change}
    (h : c ∈ constraintDrop a) : Needed S T c := by
  cases a <;> simp only [constraintDrop, primaryKeyDrop, uniqueDrop, foreignKeyDrop,
    checkDrop, List.mem_singleton] at h <;> subst h <;> exact ⟨⟨_, hS⟩, hS ▸ (Ne.symm hT)⟩

theorem needed_constraintDropCreate {a b : Constraint} (hab : a ≠ b)
    (h1 : a.schemaName = b.schemaName) (h2 : a.tableName = b.tableName) (h3 : a.name = b.name)
    (hS : S.objAt (.constraint b.schemaName b.tableName b.name) = some (.constraint a))
    (hT : T.objAt (.constraint b.schemaName b.tableName b.name) = some (.constraint b)) {c : Change}
    (h : c ∈ constraintDrop a ++ constraintCreate b) : Needed S T c := by
  rcases List.mem_append.1 h with h | h
  · refine needed_constraintDrop (a := a) (by rw [h1, h2, h3]; exact hS) ?_ h
    rw [h1, h2, h3, hT]; simpa using (Ne.symm hab)
  · exact needed_constraintCreate (by rw [hS]; simpa using hab) hT h

theorem needed_constraintUpdate {a b : Constraint}
    (h1 : a.schemaName = b.schemaName) (h2 : a.tableName = b.tableName) (h3 : a.name = b.name)
    (hS : S.objAt (.constraint b.schemaName b.tableName b.name) = some (.constraint a))
    (hT : T.objAt (.constraint b.schemaName b.tableName b.name) = some (.constraint b)) {c : Change}
    (h : c ∈ constraintUpdate a b) : Needed S T c := by
  cases a with
  | primaryKey a =>
    cases b with
    | primaryKey b =>
      simp only [constraintUpdate, primaryKeyUpdate] at h
      split at h
      · next k =>
        exact needed_constraintDropCreate (a := .primaryKey a) (b := .primaryKey b)
          (fun e => k (by cases e; rfl)) h1 h2 h3 hS hT h
      · next k =>
        split at h
        · next k2 =>
          simp only [List.mem_singleton] at h
          subst h
          refine ⟨a, hS, hT.trans ?_, k2⟩
          obtain ⟨x1, x2, x3, x4, x5, x6⟩ := a
          obtain ⟨y1, y2, y3, y4, y5, y6⟩ := b
          simp only [Decidable.not_not, Constraint.schemaName, Constraint.tableName,
            Constraint.name] at k h1 h2 h3
          subst k h1 h2 h3; rfl
        · cases h
    | unique b | foreignKey b | check b =>
      exact needed_constraintDropCreate (by intro e; cases e) h1 h2 h3 hS hT h
  | unique a =>
    cases b with
    | unique b =>
      simp only [constraintUpdate, uniqueUpdate] at h
      split at h
      · next k =>
        exact needed_constraintDropCreate (a := .unique a) (b := .unique b)
          (fun e => k (by cases e; rfl)) h1 h2 h3 hS hT h
      · next k =>
        split at h
        · next k2 =>
          simp only [List.mem_singleton] at h
          subst h
          refine ⟨a, hS, hT.trans ?_, k2⟩
          obtain ⟨x1, x2, x3, x4, x5, x6⟩ := a
          obtain ⟨y1, y2, y3, y4, y5, y6⟩ := b
          simp only [Decidable.not_not, Constraint.schemaName, Constraint.tableName,
            Constraint.name] at k h1 h2 h3
          subst k h1 h2 h3; rfl
        · cases h
    | primaryKey b | foreignKey b | check b =>
      exact needed_constraintDropCreate (by intro e; cases e) h1 h2 h3 hS hT h
  | foreignKey a =>
    cases b with
    | foreignKey b =>
      simp only [constraintUpdate, foreignKeyUpdate] at h
      split at h
      · next k =>
        exact needed_constraintDropCreate (a := .foreignKey a) (b := .foreignKey b)
          (fun e => by cases e; simp at k) h1 h2 h3 hS hT h
      · next k =>
        split at h
        · next k2 =>
          simp only [List.mem_singleton] at h
          subst h
          refine ⟨a, hS, hT.trans ?_, k2⟩
          simp only [not_or, Decidable.not_not, Constraint.schemaName, Constraint.tableName,
            Constraint.name] at k h1 h2 h3
          cases a; cases b
          simp_all [newAlterForeignKey]
        · cases h
    | primaryKey b | unique b | check b =>
      exact needed_constraintDropCreate (by intro e; cases e) h1 h2 h3 hS hT h
  | check a =>
    cases b with
    | check b =>
      simp only [constraintUpdate, checkUpdate] at h
      split at h
      · next k =>
        exact needed_constraintDropCreate (a := .check a) (b := .check b)
          (fun e => k (by cases e; rfl)) h1 h2 h3 hS hT h
      · next k =>
        split at h
        · next k2 =>
          simp only [List.mem_singleton] at h
          subst h
          refine ⟨a, hS, hT.trans ?_, k2⟩
          obtain ⟨x1, x2, x3, x4, x5, x6⟩ := a
          obtain ⟨y1, y2, y3, y4, y5, y6⟩ := b
          simp only [Decidable.not_not, Constraint.schemaName, Constraint.tableName,
            Constraint.name] at k h1 h2 h3
          subst k h1 h2 h3; rfl
        · cases h
    | primaryKey b | foreignKey b | unique b =>
      exact needed_constraintDropCreate (by intro e; cases e) h1 h2 h3 hS hT h

theorem needed_tableUpdate {a b : Table} (ha : a.WF) (hb : b.WF)
    (h1 : a.schemaName = b.schemaName) (h2 : a.name = b.name)
    (hS : S.tableAt b.schemaName b.name = some a.content)
    (hT : T.tableAt b.schemaName b.name = some b.content) {c : Change}
    (h : c ∈ tableUpdate a b) : Needed S T c := by
  have cS : ∀ k, S.objAt (.column b.schemaName b.name k)
      = (columnNamed a.columns k).map .column := by
    intro k; rw [objAt_column, hS]; rfl
  have cT : ∀ k, T.objAt (.column b.schemaName b.name k)
      = (columnNamed b.columns k).map .column := by
    intro k; rw [objAt_column, hT]; rfl
  have kS : ∀ k, S.objAt (.constraint b.schemaName b.name k)
      = (a.constraints.get? k).map .constraint := by
    intro k; rw [objAt_constraint, hS]; rfl
  have kT : ∀ k, T.objAt (.constraint b.schemaName b.name k)
      = (b.constraints.get? k).map .constraint := by
    intro k; rw [objAt_constraint, hT]; rfl
  rw [tableUpdate_eq] at h
  rcases List.mem_append.1 h with h | h
  · simp only [colsPart, List.mem_append, List.mem_flatMap] at h
    rcases h with ⟨ti, hti, h⟩ | ⟨si, hsi, h⟩
    · have hh := hb.cols_home ti hti
      have hget := columnNamed_of_mem hb.cols_nodup hti
      rw [findCol_eq_columnNamed] at h
      cases e : columnNamed a.columns ti.name with
      | none =>
        rw [e] at h
        simp only [columnCreate, List.mem_singleton] at h
        subst h
        refine ⟨?_, ?_⟩
        · rw [hh.1, hh.2, cS, e]; rfl
        · rw [hh.1, hh.2, cT, hget]
          cases ti; simp only at hh; simp [hh.1, hh.2]
      | some si =>
        rw [e] at h
        have a' := ha.cols_home si (columnNamed_mem e)
        refine needed_columnUpdate (a := si) (b := ti) (a'.1.trans (h1.trans hh.1.symm))
          (a'.2.trans (h2.trans hh.2.symm)) (columnNamed_name e) ?_ ?_ h
        · rw [hh.1, hh.2, cS, e]; rfl
        · rw [hh.1, hh.2, cT, hget]; rfl
    · have hh := ha.cols_home si hsi
      split at h
      · cases h
      · next hf =>
        simp only [columnDrop, List.mem_singleton] at h
        subst h
        simp only [newDropColumn, Needed, hh.1, hh.2, h1, h2, cS, cT]
        rw [columnNamed_of_mem ha.cols_nodup hsi]
        refine ⟨by simp, ?_⟩
        simp only [Table.hasColumn, findCol_eq_columnNamed, Bool.not_eq_true,
          Option.isSome_eq_false_iff, Option.isNone_iff_eq_none] at hf
        rw [hf]; rfl
  · simp only [consPart, flatMap_values, List.mem_append, List.mem_flatMap] at h
    rcases h with ⟨ti, hti, h⟩ | ⟨si, hsi, h⟩
    · have hh := hb.cons_home ti hti
      have hget := AMap.get?_of_mem hb.cons_nodup hti
      rw [hh.1] at h
      cases e : a.constraints.get? ti.1 with
      | none =>
        rw [e] at h
        refine needed_constraintCreate (b := ti.2) ?_ ?_ h
        · rw [hh.1, hh.2.1, hh.2.2, kS, e]; simp
        · rw [hh.1, hh.2.1, hh.2.2, kT, hget]; rfl
      | some si =>
        rw [e] at h
        have a' := ha.constraint e
        refine needed_constraintUpdate (a := si) (b := ti.2) (a'.2.1.trans (h1.trans hh.2.1.symm))
          (a'.2.2.trans (h2.trans hh.2.2.symm)) (a'.1.trans hh.1.symm) ?_ ?_ h
        · rw [hh.1, hh.2.1, hh.2.2, kS, e]; rfl
        · rw [hh.1, hh.2.1, hh.2.2, kT, hget]; rfl
    · have hh := ha.cons_home si hsi
      split at h
      · cases h
      · next hf =>
        refine needed_constraintDrop (a := si.2) ?_ ?_ h
        · rw [hh.1, hh.2.1, hh.2.2, h1, h2, kS, AMap.get?_of_mem ha.cons_nodup hsi]; rfl
        · rw [hh.1, hh.2.1, hh.2.2, h1, h2, kT]
          rw [hh.1] at hf
          cases e : b.constraints.get? si.1 with
          | none => simp
          | some x => exact absurd (show b.hasConstraint si.1 = true from AMap.has_of_some e) hf

theorem tableAt_of_rel {C : Content} {s r : String} {o : Option RelContent}
    (h : ((C s).bind fun sc => sc.relations r) = o) :
    C.tableAt s r = o.bind RelContent.table? := by
  subst h
  simp only [Content.tableAt]
  cases C s <;> rfl

theorem needed_relationCreate {b : Relation} (hb : b.WF) {o : Option RelContent}
    (hS : ((S b.schemaName).bind fun sc => sc.relations b.name) = o)
    (ho : o.map RelContent.obj ≠ some b.content.obj)
    (hT : ((T b.schemaName).bind fun sc => sc.relations b.name) = some b.content) {c : Change}
    (hst : ∀ x tb, b = .table x → o ≠ some (.table tb))
    (h : c ∈ relationCreate b) : Needed S T c := by
  have oS : S.objAt (.relation b.schemaName b.name) = o.map RelContent.obj := by
    rw [objAt_relation, hS]
  have oT : T.objAt (.relation b.schemaName b.name) = some b.content.obj := by
    rw [objAt_relation, hT]; rfl
  have hne : S.objAt (.relation b.schemaName b.name) ≠ T.objAt (.relation b.schemaName b.name) := by
    rw [oS, oT]; exact ho
  cases b with
  | table b =>
    have tS : S.tableAt b.schemaName b.name = none := by
      refine (tableAt_of_rel hS).trans ?_
      cases o with
      | none => rfl
      | some o => cases o with
        | table tb => exact absurd rfl (hst b tb rfl)
        | view x | index x | sequence x => rfl
    have tT : T.tableAt b.schemaName b.name = some b.content := tableAt_of_rel hT
    simp only [relationCreate, tableCreate, List.mem_cons] at h
    rcases h with rfl | h
    · refine ⟨tS, b.content, tT, ?_⟩
      exact (columnNamed_new b hb).symm
    · rw [flatMap_values] at h
      obtain ⟨p, hp, h⟩ := List.mem_flatMap.1 h
      have hh := (show b.WF from hb).cons_home p hp
      refine needed_constraintCreate (b := p.2) ?_ ?_ h
      · rw [hh.1, hh.2.1, hh.2.2, objAt_constraint, tS]; simp
      · rw [hh.1, hh.2.1, hh.2.2, objAt_constraint, tT]
        simp [Table.content, AMap.get?_of_mem (show b.WF from hb).cons_nodup hp]
  | view b =>
    simp only [relationCreate, viewCreate, List.mem_singleton] at h; subst h
    exact ⟨oT, hne⟩
  | sequence b =>
    simp only [relationCreate, sequenceCreate, List.mem_singleton] at h; subst h
    exact ⟨⟨_, _, oT⟩, hne⟩
  | index b =>
    simp only [relationCreate, indexCreate, List.mem_singleton] at h; subst h
    exact ⟨oT, hne⟩

theorem needed_relationDrop {a : Relation} {o : Option RelContent}
    (hS : ((S a.schemaName).bind fun sc => sc.relations a.name) = some a.content)
    (hT : ((T a.schemaName).bind fun sc => sc.relations a.name) = o)
    (ho : o.map RelContent.obj ≠ some a.content.obj) {c : Change}
    (hst : ∀ x tb, a = .table x → o ≠ some (.table tb))
    (h : c ∈ relationDrop a) : Needed S T c := by
  have oS : S.objAt (.relation a.schemaName a.name) = some a.content.obj := by
    rw [objAt_relation, hS]; rfl
  have oT : T.objAt (.relation a.schemaName a.name) = o.map RelContent.obj := by
    rw [objAt_relation, hT]
  have hne : S.objAt (.relation a.schemaName a.name) ≠ T.objAt (.relation a.schemaName a.name) := by
    rw [oS, oT]; exact Ne.symm ho
  cases a with
  | table a =>
    have tT : T.tableAt a.schemaName a.name = none := by
      refine (tableAt_of_rel hT).trans ?_
      cases o with
      | none => rfl
      | some o => cases o with
        | table tb => exact absurd rfl (hst a tb rfl)
        | view x | index x | sequence x => rfl
    have tS : S.tableAt a.schemaName a.name = some a.content := tableAt_of_rel hS
    simp only [relationDrop, tableDrop, List.mem_singleton] at h
    subst h
    exact ⟨by simp [newDropTable, tS], tT⟩
  | view b =>
    simp only [relationDrop, viewDrop, List.mem_singleton] at h; subst h
    exact ⟨⟨_, oS⟩, hne⟩
  | sequence b =>
    simp only [relationDrop, sequenceDrop, List.mem_singleton] at h; subst h
    exact ⟨⟨_, oS⟩, hne⟩
  | index b =>
    simp only [relationDrop, indexDrop, List.mem_singleton] at h; subst h
    exact ⟨⟨_, oS⟩, hne⟩

theorem needed_relationUpdate {a b : Relation} (ha : a.WF) (hb : b.WF)
    (h1 : a.schemaName = b.schemaName) (h2 : a.name = b.name)
    (hS : ((S b.schemaName).bind fun sc => sc.relations b.name) = some a.content)
    (hT : ((T b.schemaName).bind fun sc => sc.relations b.name) = some b.content) {c : Change}
    (h : c ∈ relationUpdate a b) : Needed S T c := by
  by_cases hab : ∃ x y, a = .table x ∧ b = .table y
  · obtain ⟨x, y, rfl, rfl⟩ := hab
    exact needed_tableUpdate ha hb h1 h2 (tableAt_of_rel hS) (tableAt_of_rel hT) h
  · rcases relationUpdate_cases a b with e | e | ⟨x, y, rfl, rfl, _⟩
    · rw [e] at h; cases h
    · have hne : a.content.obj ≠ b.content.obj := by
        intro he
        have hnil : relationUpdate a b = [] := by
          rw [relationUpdate_nil ha hb h1 h2]
          cases a <;> cases b <;>
            simp only [Relation.content, RelContent.obj, reduceCtorEq, Obj.table.injEq,
              Obj.view.injEq, Obj.index.injEq, Obj.sequence.injEq] at he
          · exact absurd ⟨_, _, rfl, rfl⟩ hab
          all_goals subst he; rfl
        rw [hnil] at h; cases h
      rw [e] at h
      rcases List.mem_append.1 h with h | h
      · refine needed_relationDrop (a := a) (o := some b.content) (by rw [h1, h2]; exact hS)
          (by rw [h1, h2]; exact hT) ?_ ?_ h
        · simpa using (Ne.symm hne)
        · rintro x tb rfl e
          apply hab
          cases b <;> simp only [Relation.content, reduceCtorEq, Option.some.injEq] at e
          exact ⟨_, _, rfl, rfl⟩
      · refine needed_relationCreate hb hS ?_ hT ?_ h
        · simpa using hne
        · rintro x tb rfl e
          apply hab
          cases a <;> simp only [Relation.content, reduceCtorEq, Option.some.injEq] at e
          exact ⟨_, _, rfl, rfl⟩
    · exact absurd ⟨_, _, rfl, rfl⟩ hab
end

theorem needed_functionCreate {S T : Content} {b : Function}
    (hS : S.objAt (.function b.schemaName b.name) ≠ some (.function b))
    (hT : T.objAt (.function b.schemaName b.name) = some (.function b)) :
    Needed S T (newCreateFunction b) := ⟨hT, hT ▸ hS⟩

theorem needed_functionDrop {S T : Content} {a : Function}
    (hS : S.objAt (.function a.schemaName a.name) = some (.function a))
    (hT : T.objAt (.function a.schemaName a.name) ≠ some (.function a)) :
    Needed S T (newDropFunction a) := by
  refine ⟨?_, hS ▸ Ne.symm hT⟩
  rw [hS]; simp

/-- Every change of a computed diff is called for. -/
theorem diff_needed {s t : Database} (hs : s.WF) (ht : t.WF) {c : Change}
    (h : c ∈ compareDiff s t) : Needed s.content t.content c := by
  simp only [compareDiff, flatMap_values, List.mem_append, List.mem_flatMap] at h
  rcases h with ⟨p, hp, h⟩ | ⟨p, hp, h⟩
  · -- a schema of the target
    have hh := ht.home p hp
    have htp : t.content p.1 = some p.2.content := by
      simp [Database.content, AMap.get?_of_mem ht.nodup hp]
    rw [hh.1] at h
    cases e : s.schemas.get? p.1 with
    | some x => rw [if_pos (show s.hasSchema p.1 = true from AMap.has_of_some e)] at h; cases h
    | none =>
      have hsp : s.content p.1 = none := by simp [Database.content, e]
      have hf : ¬ s.hasSchema p.1 = true := by
        rw [show s.hasSchema p.1 = false from AMap.has_of_none e]; simp
      rw [if_neg hf] at h
      simp only [schemaCreate, flatMap_values, List.mem_cons, List.mem_append,
        List.mem_flatMap] at h
      rcases h with rfl | ⟨q, hq, h⟩ | ⟨q, hq, h⟩
      · simp only [newCreateSchema, hh.1, Needed, hsp, htp]
        simp
      · have hr := hh.2.rels_home q hq
        have hn : q.2.schemaName = p.1 := hr.2.1.trans hh.1
        refine needed_relationCreate hr.2.2 (o := none) ?_ ?_ ?_ ?_ h
        · rw [hn, hsp]; rfl
        · simp
        · rw [hn, htp, hr.1]
          simp [Schema.content, AMap.get?_of_mem hh.2.rels_nodup hq]
        · simp
      · have hr := hh.2.funs_home q hq
        have hn : q.2.schemaName = p.1 := hr.2.trans hh.1
        simp only [functionCreate, List.mem_singleton] at h
        subst h
        refine needed_functionCreate ?_ ?_
        · rw [hn, objAt_function, hsp]; simp
        · rw [hn, objAt_function, htp, hr.1]
          simp [Schema.content, AMap.get?_of_mem hh.2.funs_nodup hq]
  · -- a schema of the source
    have hh := hs.home p hp
    have hsp : s.content p.1 = some p.2.content := by
      simp [Database.content, AMap.get?_of_mem hs.nodup hp]
    rw [hh.1] at h
    cases e : t.schemas.get? p.1 with
    | none =>
      have htp : t.content p.1 = none := by simp [Database.content, e]
      rw [e] at h
      simp only [schemaDrop, flatMap_values, List.mem_append, List.mem_flatMap,
        List.mem_singleton] at h
      rcases h with (⟨q, hq, h⟩ | ⟨q, hq, h⟩) | rfl
      · have hr := hh.2.rels_home q hq
        have hn : q.2.schemaName = p.1 := hr.2.1.trans hh.1
        refine needed_relationDrop (o := none) ?_ ?_ ?_ ?_ h
        · rw [hn, hsp, hr.1]
          simp [Schema.content, AMap.get?_of_mem hh.2.rels_nodup hq]
        · rw [hn, htp]; rfl
        · simp
        · simp
      · have hr := hh.2.funs_home q hq
        have hn : q.2.schemaName = p.1 := hr.2.trans hh.1
        simp only [functionDrop, List.mem_singleton] at h
        subst h
        refine needed_functionDrop ?_ ?_
        · rw [hn, objAt_function, hsp, hr.1]
          simp [Schema.content, AMap.get?_of_mem hh.2.funs_nodup hq]
        · rw [hn, objAt_function, htp]; simp
      · simp only [newDropSchema, hh.1, Needed, hsp, htp]
        simp
    | some tsc =>
      have hh' := ht.home _ (AMap.mem_of_get? e)
      have htp : t.content p.1 = some tsc.content := by simp [Database.content, e]
      rw [e] at h
      simp only [schemaUpdate, flatMap_values, List.mem_append, List.mem_flatMap] at h
      rcases h with ((⟨q, hq, h⟩ | ⟨q, hq, h⟩) | ⟨q, hq, h⟩) | ⟨q, hq, h⟩
      · have hr := hh'.2.rels_home q hq
        have hn : q.2.schemaName = p.1 := hr.2.1.trans hh'.1
        rw [hr.1] at h
        cases e2 : p.2.relations.get? q.1 with
        | some x =>
          rw [if_pos (show p.2.hasRelation q.1 = true from AMap.has_of_some e2)] at h; cases h
        | none =>
          have hf : ¬ p.2.hasRelation q.1 = true := by
            rw [show p.2.hasRelation q.1 = false from AMap.has_of_none e2]; simp
          rw [if_neg hf] at h
          refine needed_relationCreate hr.2.2 (o := none) ?_ ?_ ?_ ?_ h
          · rw [hn, hsp, hr.1]; simp [Schema.content, e2]
          · simp
          · rw [hn, htp, hr.1]
            simp [Schema.content, AMap.get?_of_mem hh'.2.rels_nodup hq]
          · simp
      · have hr := hh.2.rels_home q hq
        have hn : q.2.schemaName = p.1 := hr.2.1.trans hh.1
        rw [hr.1] at h
        cases e2 : tsc.relations.get? q.1 with
        | none =>
          rw [e2] at h
          refine needed_relationDrop (o := none) ?_ ?_ ?_ ?_ h
          · rw [hn, hsp, hr.1]
            simp [Schema.content, AMap.get?_of_mem hh.2.rels_nodup hq]
          · rw [hn, htp, hr.1]; simp [Schema.content, e2]
          · simp
          · simp
        | some x =>
          rw [e2] at h
          have hr' := hh'.2.rels_home _ (AMap.mem_of_get? e2)
          have hn' : x.schemaName = p.1 := hr'.2.1.trans hh'.1
          have hm' : x.name = q.1 := hr'.1
          refine needed_relationUpdate hr.2.2 hr'.2.2 (hn.trans hn'.symm) (hr.1.trans hr'.1.symm)
            ?_ ?_ h
          · rw [hn', hsp, hm']
            simp [Schema.content, AMap.get?_of_mem hh.2.rels_nodup hq]
          · rw [hn', htp, hm']
            simp [Schema.content, e2]
      · have hr := hh'.2.funs_home q hq
        have hn : q.2.schemaName = p.1 := hr.2.trans hh'.1
        rw [hr.1] at h
        cases e2 : p.2.functions.get? q.1 with
        | some x =>
          rw [if_pos (show p.2.hasFunction q.1 = true from AMap.has_of_some e2)] at h; cases h
        | none =>
          have hf : ¬ p.2.hasFunction q.1 = true := by
            rw [show p.2.hasFunction q.1 = false from AMap.has_of_none e2]; simp
          rw [if_neg hf] at h
          simp only [functionCreate, List.mem_singleton] at h
          subst h
          refine needed_functionCreate ?_ ?_
          · rw [hn, objAt_function, hsp, hr.1]; simp [Schema.content, e2]
          · rw [hn, objAt_function, htp, hr.1]
            simp [Schema.content, AMap.get?_of_mem hh'.2.funs_nodup hq]
      · have hr := hh.2.funs_home q hq
        have hn : q.2.schemaName = p.1 := hr.2.trans hh.1
        rw [hr.1] at h
        have oS : s.content.objAt (.function p.1 q.1) = some (.function q.2) := by
          rw [objAt_function, hsp]
          simp [Schema.content, AMap.get?_of_mem hh.2.funs_nodup hq]
        cases e2 : tsc.functions.get? q.1 with
        | none =>
          rw [e2] at h
          simp only [functionDrop, List.mem_singleton] at h
          subst h
          refine needed_functionDrop ?_ ?_
          · rw [hn, hr.1]; exact oS
          · rw [hn, objAt_function, htp, hr.1]; simp [Schema.content, e2]
        | some x =>
          rw [e2] at h
          have hr' := hh'.2.funs_home _ (AMap.mem_of_get? e2)
          have hn' : x.schemaName = p.1 := hr'.2.trans hh'.1
          have hm' : x.name = q.1 := hr'.1
          have oT : t.content.objAt (.function p.1 q.1) = some (.function x) := by
            rw [objAt_function, htp]
            simp [Schema.content, e2]
          simp only [functionUpdate] at h
          split at h
          · next k =>
            have hne : q.2 ≠ x := by intro e; rw [e] at k; simp at k
            simp only [List.mem_cons, List.not_mem_nil, or_false] at h
            rcases h with rfl | rfl
            · refine needed_functionDrop ?_ ?_
              · rw [hn, hr.1]; exact oS
              · rw [hn, hr.1, oT]; simpa using Ne.symm hne
            · refine needed_functionCreate ?_ ?_
              · rw [hn', hm', oS]; simpa using hne
              · rw [hn', hm']; exact oT
          · cases h

theorem needed_differs {S T : Content} {c : Change} (h : Needed S T c) {q : Path}
    (hq : q ∈ c.targets) : S.wholeAt q ≠ T.wholeAt q := by
  have hobj : ∀ p, S.objAt p ≠ T.objAt p → S.wholeAt p ≠ T.wholeAt p := by
    intro p hp hw
    apply hp
    cases p with
    | schema n =>
      simp only [Content.wholeAt, Content.objAt] at hw ⊢
      cases hS : S n <;> cases hT : T n <;> simp_all
    | relation n r =>
      simp only [Content.wholeAt, Content.objAt] at hw ⊢
      have := Option.map_injective (f := Whole.relation) (fun a b h => by cases h; rfl) hw
      rw [this]
    | function n r => exact (by
        simp only [Content.wholeAt, Content.objAt] at hw ⊢
        have := Option.map_injective (f := Whole.function) (fun a b h => by cases h; rfl) hw
        rw [this])
    | column n r k => exact (by
        simp only [Content.wholeAt, Content.objAt] at hw ⊢
        have := Option.map_injective (f := Whole.column) (fun a b h => by cases h; rfl) hw
        rw [this])
    | constraint n r k => exact (by
        simp only [Content.wholeAt, Content.objAt] at hw ⊢
        have := Option.map_injective (f := Whole.constraint) (fun a b h => by cases h; rfl) hw
        rw [this])
  have htab : ∀ n r, S.tableAt n r ≠ T.tableAt n r →
      S.wholeAt (.relation n r) ≠ T.wholeAt (.relation n r) := by
    intro n r hne hw
    apply hne
    simp only [Content.wholeAt] at hw
    have := Option.map_injective (f := Whole.relation) (fun a b h => by cases h; rfl) hw
    rw [tableAt_of_rel this, tableAt_of_rel rfl]
  have hsch : ∀ n, S n ≠ T n → S.wholeAt (.schema n) ≠ T.wholeAt (.schema n) := by
    intro n hne hw
    exact hne (Option.map_injective (f := Whole.schema) (fun a b h => by cases h; rfl) hw)
  cases c <;> simp only [Change.targets, List.mem_singleton] at hq
  case renameColumn => exact absurd h id
  all_goals subst hq
  case createSchema => exact hsch _ fun e => h.2 (e ▸ h.1)
  case dropSchema => exact hsch _ fun e => h.1 (e ▸ h.2)
  case createTable =>
    obtain ⟨h1, tb, h2, _⟩ := h
    exact htab _ _ fun e => by rw [h1, h2] at e; cases e
  case dropTable => exact htab _ _ fun e => h.1 (e ▸ h.2)
  case addColumn => exact hobj _ fun e => by rw [h.1, h.2] at e; cases e
  case setDataType =>
    obtain ⟨a, b, h1, h2, h3, _⟩ := h
    exact hobj _ fun e => by rw [h1, h2] at e; cases e; exact h3 rfl
  case setDefault =>
    obtain ⟨a, b, h1, h2, h3, _⟩ := h
    exact hobj _ fun e => by rw [h1, h2] at e; cases e; exact h3 rfl
  case setNotNull =>
    obtain ⟨a, b, h1, h2, h3, _⟩ := h
    exact hobj _ fun e => by rw [h1, h2] at e; cases e; exact h3 rfl
  case dropColumn => exact hobj _ fun e => h.1 (e ▸ h.2)
  case alterPrimaryKey =>
    obtain ⟨a, h1, h2, h3⟩ := h
    refine hobj _ fun e => ?_
    rw [h1, h2] at e
    cases a; simp only [Option.some.injEq, Obj.constraint.injEq, Constraint.primaryKey.injEq,
      PrimaryKey.mk.injEq, true_and] at e
    rcases h3 with h3 | h3
    · exact h3 e.1
    · exact h3 e.2
  case alterUnique =>
    obtain ⟨a, h1, h2, h3⟩ := h
    refine hobj _ fun e => ?_
    rw [h1, h2] at e
    cases a; simp only [Option.some.injEq, Obj.constraint.injEq, Constraint.unique.injEq,
      Unique.mk.injEq, true_and] at e
    rcases h3 with h3 | h3
    · exact h3 e.1
    · exact h3 e.2
  case alterForeignKey =>
    obtain ⟨a, h1, h2, h3⟩ := h
    refine hobj _ fun e => ?_
    rw [h1, h2] at e
    cases a; simp only [Option.some.injEq, Obj.constraint.injEq, Constraint.foreignKey.injEq,
      ForeignKey.mk.injEq, true_and] at e
    rcases h3 with h3 | h3
    · exact h3 e.1
    · exact h3 e.2
  case alterCheck =>
    obtain ⟨a, h1, h2, h3⟩ := h
    refine hobj _ fun e => ?_
    rw [h1, h2] at e
    cases a; simp only [Option.some.injEq, Obj.constraint.injEq, Constraint.check.injEq,
      Check.mk.injEq, true_and] at e
    rcases h3 with h3 | h3
    · exact h3 e.1
    · exact h3 e.2
  all_goals exact hobj _ h.2

end Podo
