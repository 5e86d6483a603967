import Verif.Proofs.RunX
/-
The strict run of a computed diff, block by block.
-/
set_option linter.unusedSimpArgs false
namespace Podo
open Spec Diff Change

/-! ### Columns -/

theorem column_ext {a b : Column} (h1 : a.schemaName = b.schemaName) (h2 : a.tableName = b.tableName)
    (h3 : a.name = b.name) (h4 : a.dataType = b.dataType) (h5 : a.notNull = b.notNull)
    (h6 : a.default = b.default) : a = b := by
  cases a; cases b; simp_all

theorem run_columnUpdate {s t : Column} {m : PM Column} (h1 : s.schemaName = t.schemaName)
    (h2 : s.tableName = t.tableName) (h3 : s.name = t.name) (hm : m t.name = some s) :
    runX colX (columnUpdate s t) m = .ok (upd m t.name (some t)) := by
  obtain ⟨a, b, n, ty, nn, df⟩ := s
  obtain ⟨a', b', n', ty', nn', df'⟩ := t
  simp only at h1 h2 h3 hm
  subst h1 h2 h3
  simp only [columnUpdate, newSetDataType, newSetDefault, newSetNotNull]
  by_cases k1 : ty = ty' <;> by_cases k2 : df = df' <;> by_cases k3 : nn = nn' <;>
    simp [k1, k2, k3, runX, colX, alter, hm, upd_same, upd_upd] <;>
    (subst k1 k2 k3; exact (upd_eq_self m n hm).symm)

theorem run_columnCreate {t : Column} {m : PM Column} (hm : m t.name = none) :
    runX colX (columnCreate t) m = .ok (upd m t.name (some t)) := by
  simp [columnCreate, newAddColumn, runX, colX, putNew, hm]

theorem run_columnDrop {s : Column} {m : PM Column} (hm : m s.name = some s) :
    runX colX (columnDrop s) m = .ok (upd m s.name none) := by
  simp [columnDrop, newDropColumn, runX, colX, remove, hm]

/-- The column part of a table update. -/
def colsPart (s t : Table) : List Change :=
  (t.columns.flatMap fun ti =>
    match Table.findCol s.columns ti.name with
    | some si => columnUpdate si ti
    | none => columnCreate ti) ++
  (s.columns.flatMap fun si => if t.hasColumn si.name then [] else columnDrop si)

theorem run_colsPart {s t : Table} (hs : s.WF) (ht : t.WF) (h1 : s.schemaName = t.schemaName)
    (h2 : s.name = t.name) :
    runX colX (colsPart s t) (columnNamed s.columns) = .ok (columnNamed t.columns) := by
  rw [colsPart, runX_append]
  rw [runX_keyed' (α := Column) Column.name (fun ti => some ti) ht.cols_nodup (m := columnNamed s.columns)]
  · simp only
    rw [runX_keyed' (α := Column) Column.name (fun si => columnNamed t.columns si.name) hs.cols_nodup]
    · congr 1
      funext j
      by_cases hj : j ∈ s.columns.map Column.name
      · obtain ⟨c, hc, rfl⟩ := List.mem_map.1 hj
        rw [overlay_mem _ _ hs.cols_nodup hc]
      · rw [overlay_not_mem _ _ hj]
        by_cases hj' : j ∈ t.columns.map Column.name
        · obtain ⟨c, hc, rfl⟩ := List.mem_map.1 hj'
          rw [overlay_mem _ _ ht.cols_nodup hc, columnNamed_of_mem ht.cols_nodup hc]
        · rw [overlay_not_mem _ _ hj', columnNamed_eq_none.2 hj, columnNamed_eq_none.2 hj']
    · intro si hsi m hm
      by_cases hj : si.name ∈ t.columns.map Column.name
      · obtain ⟨c, hc, hcn⟩ := List.mem_map.1 hj
        have e := columnNamed_of_mem ht.cols_nodup hc
        rw [hcn] at e
        have hh : t.hasColumn si.name = true := by
          simp [Table.hasColumn, findCol_eq_columnNamed, e]
        rw [if_pos hh]
        simp only [runX]
        rw [upd_eq_self]
        rw [hm, ← hcn, overlay_mem _ _ ht.cols_nodup hc, hcn, e]
      · have e := columnNamed_eq_none.2 hj
        have hh : ¬ t.hasColumn si.name = true := by
          simp [Table.hasColumn, findCol_eq_columnNamed, e]
        rw [if_neg hh, e]
        refine run_columnDrop ?_
        rw [hm, overlay_not_mem _ _ hj]
        exact columnNamed_of_mem hs.cols_nodup hsi
  · intro ti hti m hm
    rw [findCol_eq_columnNamed]
    cases hc : columnNamed s.columns ti.name with
    | none => exact run_columnCreate (hm.trans hc)
    | some si =>
      have a := hs.cols_home si (columnNamed_mem hc)
      have b := ht.cols_home ti hti
      exact run_columnUpdate (a.1.trans (h1.trans b.1.symm)) (a.2.trans (h2.trans b.2.symm))
        (columnNamed_name hc) (hm.trans hc)

/-! ### Constraints -/

theorem run_constraintCreate {t : Constraint} {m : PM Constraint} (hm : m t.name = none) :
    runX conX (constraintCreate t) m = .ok (upd m t.name (some t)) := by
  cases t <;> simp only [Constraint.name] at hm <;>
    simp [constraintCreate, primaryKeyCreate, uniqueCreate, foreignKeyCreate, checkCreate,
      newAddPrimaryKey, newAddUnique, newAddForeignKey, newAddCheck, runX, conX, putNew, hm,
      Constraint.name]

theorem run_constraintDrop {s : Constraint} {m : PM Constraint} (hm : m s.name = some s) :
    runX conX (constraintDrop s) m = .ok (upd m s.name none) := by
  cases s <;> simp only [Constraint.name] at hm <;>
    simp [constraintDrop, primaryKeyDrop, uniqueDrop, foreignKeyDrop, checkDrop,
      newDropPrimaryKey, newDropUnique, newDropForeignKey, newDropCheck, runX, conX, remove, hm,
      Constraint.name, isPrimaryKey, isUnique, isForeignKey, isCheck]

theorem run_dropCreate {s t : Constraint} {m : PM Constraint} (hn : s.name = t.name)
    (hm : m t.name = some s) :
    runX conX (constraintDrop s ++ constraintCreate t) m = .ok (upd m t.name (some t)) := by
  rw [runX_append, run_constraintDrop (hn ▸ hm)]
  simp only
  rw [run_constraintCreate (by rw [hn, upd_same]), hn, upd_upd]

theorem run_constraintUpdate {s t : Constraint} {m : PM Constraint}
    (h1 : s.schemaName = t.schemaName) (h2 : s.tableName = t.tableName) (h3 : s.name = t.name)
    (hm : m t.name = some s) :
    runX conX (constraintUpdate s t) m = .ok (upd m t.name (some t)) := by
  cases s with
  | primaryKey s =>
    cases t with
    | primaryKey t =>
      obtain ⟨a, b, n, cols, df, ini⟩ := s
      obtain ⟨a', b', n', cols', df', ini'⟩ := t
      simp only [Constraint.name, Constraint.schemaName, Constraint.tableName] at h1 h2 h3 hm
      subst h1 h2 h3
      simp only [constraintUpdate, primaryKeyUpdate]
      by_cases k : cols = cols'
      · subst k
        simp only [ne_eq, not_true, if_false, newAlterPrimaryKey]
        by_cases k2 : df = df' <;> by_cases k3 : ini = ini' <;>
          simp [k2, k3, runX, conX, alter, hm, Constraint.name]
        subst k2 k3; exact (upd_eq_self m n hm).symm
      · rw [if_pos k]
        exact run_dropCreate (s := .primaryKey _) (t := .primaryKey _) rfl hm
    | unique t => exact run_dropCreate h3 hm
    | foreignKey t => exact run_dropCreate h3 hm
    | check t => exact run_dropCreate h3 hm
  | unique s =>
    cases t with
    | unique t =>
      obtain ⟨a, b, n, cols, df, ini⟩ := s
      obtain ⟨a', b', n', cols', df', ini'⟩ := t
      simp only [Constraint.name, Constraint.schemaName, Constraint.tableName] at h1 h2 h3 hm
      subst h1 h2 h3
      simp only [constraintUpdate, uniqueUpdate]
      by_cases k : cols = cols'
      · subst k
        simp only [ne_eq, not_true, if_false, newAlterUnique]
        by_cases k2 : df = df' <;> by_cases k3 : ini = ini' <;>
          simp [k2, k3, runX, conX, alter, hm, Constraint.name]
        subst k2 k3; exact (upd_eq_self m n hm).symm
      · rw [if_pos k]
        exact run_dropCreate (s := .unique _) (t := .unique _) rfl hm
    | primaryKey t => exact run_dropCreate h3 hm
    | foreignKey t => exact run_dropCreate h3 hm
    | check t => exact run_dropCreate h3 hm
  | foreignKey s =>
    cases t with
    | foreignKey t =>
      obtain ⟨a, b, n, c1, c2, c3, c4, c5, c6, c7, df, ini⟩ := s
      obtain ⟨a', b', n', d1, d2, d3, d4, d5, d6, d7, df', ini'⟩ := t
      simp only [Constraint.name, Constraint.schemaName, Constraint.tableName] at h1 h2 h3 hm
      subst h1 h2 h3
      simp only [constraintUpdate, foreignKeyUpdate]
      by_cases k : (c1 ≠ d1 ∨ c2 ≠ d2 ∨ c3 ≠ d3 ∨ c4 ≠ d4 ∨ c5 ≠ d5 ∨ c6 ≠ d6 ∨ c7 ≠ d7)
      · rw [if_pos k]
        exact run_dropCreate (s := .foreignKey _) (t := .foreignKey _) rfl hm
      · rw [if_neg k]
        simp only [not_or, Decidable.not_not] at k
        obtain ⟨rfl, rfl, rfl, rfl, rfl, rfl, rfl⟩ := k
        simp only [newAlterForeignKey]
        by_cases k2 : df = df' <;> by_cases k3 : ini = ini' <;>
          simp [k2, k3, runX, conX, alter, hm, Constraint.name]
        subst k2 k3; exact (upd_eq_self m n hm).symm
    | primaryKey t => exact run_dropCreate h3 hm
    | unique t => exact run_dropCreate h3 hm
    | check t => exact run_dropCreate h3 hm
  | check s =>
    cases t with
    | check t =>
      obtain ⟨a, b, n, cols, df, ini⟩ := s
      obtain ⟨a', b', n', cols', df', ini'⟩ := t
      simp only [Constraint.name, Constraint.schemaName, Constraint.tableName] at h1 h2 h3 hm
      subst h1 h2 h3
      simp only [constraintUpdate, checkUpdate]
      by_cases k : cols = cols'
      · subst k
        simp only [ne_eq, not_true, if_false, newAlterCheck]
        by_cases k2 : df = df' <;> by_cases k3 : ini = ini' <;>
          simp [k2, k3, runX, conX, alter, hm, Constraint.name]
        subst k2 k3; exact (upd_eq_self m n hm).symm
      · rw [if_pos k]
        exact run_dropCreate (s := .check _) (t := .check _) rfl hm
    | primaryKey t => exact run_dropCreate h3 hm
    | unique t => exact run_dropCreate h3 hm
    | foreignKey t => exact run_dropCreate h3 hm

/-- The constraint part of a table update. -/
def consPart (s t : Table) : List Change :=
  (t.constraints.values.flatMap fun ti =>
    match s.constraints.get? ti.name with
    | some si => constraintUpdate si ti
    | none => constraintCreate ti) ++
  (s.constraints.values.flatMap fun si =>
    if t.hasConstraint si.name then [] else constraintDrop si)

theorem flatMap_values {α β : Type} (m : AMap α) (f : α → List β) :
    m.values.flatMap f = m.flatMap fun p => f p.2 := by
  simp [AMap.values, List.flatMap_map]

theorem AMap.not_mem_keys {α : Type} {m : AMap α} {j : String} (h : j ∉ m.map Prod.fst) :
    m.get? j = none := AMap.get?_eq_none_iff.2 h

theorem run_consPart {s t : Table} (hs : s.WF) (ht : t.WF) (h1 : s.schemaName = t.schemaName)
    (h2 : s.name = t.name) :
    runX conX (consPart s t) (fun c => s.constraints.get? c) = .ok (fun c => t.constraints.get? c) := by
  have hsn : (s.constraints.map Prod.fst).Nodup := hs.cons_nodup
  have htn : (t.constraints.map Prod.fst).Nodup := ht.cons_nodup
  rw [consPart, runX_append, flatMap_values, flatMap_values]
  rw [runX_keyed' (α := Constraint) (β := String × Constraint) Prod.fst (fun ti => some ti.2) htn]
  · simp only
    rw [runX_keyed' (α := Constraint) (β := String × Constraint) Prod.fst
      (fun si => t.constraints.get? si.1) hsn]
    · congr 1
      funext j
      by_cases hj : j ∈ s.constraints.map Prod.fst
      · obtain ⟨c, hc, rfl⟩ := List.mem_map.1 hj
        rw [overlay_mem _ _ hsn hc]
      · rw [overlay_not_mem _ _ hj]
        by_cases hj' : j ∈ t.constraints.map Prod.fst
        · obtain ⟨c, hc, rfl⟩ := List.mem_map.1 hj'
          rw [overlay_mem _ _ htn hc, AMap.get?_of_mem ht.cons_nodup hc]
        · rw [overlay_not_mem _ _ hj', AMap.not_mem_keys hj, AMap.not_mem_keys hj']
    · intro si hsi m hm
      have hname := (hs.cons_home si hsi).1
      rw [hname]
      by_cases hj : si.1 ∈ t.constraints.map Prod.fst
      · obtain ⟨c, hc, hcn⟩ := List.mem_map.1 hj
        have e := AMap.get?_of_mem ht.cons_nodup hc
        rw [hcn] at e
        rw [if_pos (show t.hasConstraint si.1 = true from AMap.has_of_some e)]
        simp only [runX]
        rw [upd_eq_self]
        rw [hm, ← hcn, overlay_mem _ _ htn hc, hcn, e]
      · have e := AMap.not_mem_keys hj
        have hh : ¬ t.hasConstraint si.1 = true := by
          rw [show t.hasConstraint si.1 = false from AMap.has_of_none e]; simp
        rw [if_neg hh, e]
        have := run_constraintDrop (s := si.2) (m := m) ?_
        · rw [hname] at this; exact this
        · rw [hname, hm, overlay_not_mem _ _ hj]
          exact AMap.get?_of_mem hs.cons_nodup hsi
  · intro ti hti m hm
    have hh := ht.cons_home ti hti
    rw [hh.1]
    cases hc : s.constraints.get? ti.1 with
    | none =>
      have := run_constraintCreate (t := ti.2) (m := m) (by rw [hh.1]; exact hm.trans hc)
      rw [hh.1] at this; exact this
    | some si =>
      have a := hs.constraint hc
      have := run_constraintUpdate (s := si) (t := ti.2) (m := m)
        (a.2.1.trans (h1.trans hh.2.1.symm)) (a.2.2.trans (h2.trans hh.2.2.symm))
        (a.1.trans hh.1.symm) (by rw [hh.1]; exact hm.trans hc)
      rw [hh.1] at this; exact this

/-! ### Which table or schema a change is about -/

theorem colTable_update {s t : Column} {c : Change} (h : c ∈ columnUpdate s t) :
    colTable c = some (t.schemaName, t.tableName) := by
  simp only [columnUpdate, List.mem_append] at h
  rcases h with (h | h) | h <;> (split at h) <;> simp only [List.mem_singleton, List.not_mem_nil] at h <;>
    subst h <;> rfl

theorem colTable_colsPart {s t : Table} (hs : s.WF) (ht : t.WF)
    (h1 : s.schemaName = t.schemaName) (h2 : s.name = t.name) {c : Change}
    (h : c ∈ colsPart s t) : colTable c = some (t.schemaName, t.name) := by
  simp only [colsPart, List.mem_append, List.mem_flatMap] at h
  rcases h with ⟨ti, hti, h⟩ | ⟨si, hsi, h⟩
  · have hh := ht.cols_home ti hti
    split at h
    · rw [colTable_update h, hh.1, hh.2]
    · simp only [columnCreate, List.mem_singleton] at h
      subst h
      simp [newAddColumn, colTable, hh.1, hh.2]
  · have hh := hs.cols_home si hsi
    split at h
    · cases h
    · simp only [columnDrop, List.mem_singleton] at h
      subst h
      simp [newDropColumn, colTable, hh.1, hh.2, h1, h2]

theorem conTable_create {t : Constraint} {c : Change} (h : c ∈ constraintCreate t) :
    conTable c = some (t.schemaName, t.tableName) := by
  cases t <;> simp only [constraintCreate, primaryKeyCreate, uniqueCreate, foreignKeyCreate,
    checkCreate, List.mem_singleton] at h <;> subst h <;> rfl

theorem conTable_drop {t : Constraint} {c : Change} (h : c ∈ constraintDrop t) :
    conTable c = some (t.schemaName, t.tableName) := by
  cases t <;> simp only [constraintDrop, primaryKeyDrop, uniqueDrop, foreignKeyDrop,
    checkDrop, List.mem_singleton] at h <;> subst h <;> rfl

theorem conTable_update {s t : Constraint} (h1 : s.schemaName = t.schemaName)
    (h2 : s.tableName = t.tableName) {c : Change} (h : c ∈ constraintUpdate s t) :
    conTable c = some (t.schemaName, t.tableName) := by
  have key : ∀ {s t : Constraint}, s.schemaName = t.schemaName → s.tableName = t.tableName →
      c ∈ constraintDrop s ++ constraintCreate t →
      conTable c = some (t.schemaName, t.tableName) := by
    intro s t h1 h2 h
    rcases List.mem_append.1 h with h | h
    · rw [conTable_drop h, h1, h2]
    · exact conTable_create h
  cases s <;> cases t <;> simp only [constraintUpdate] at h <;> (try exact key h1 h2 h)
  · simp only [primaryKeyUpdate] at h
    split at h
    · exact key (s := .primaryKey _) (t := .primaryKey _) h1 h2 h
    · split at h
      · simp only [List.mem_singleton] at h; subst h; rfl
      · cases h
  · simp only [foreignKeyUpdate] at h
    split at h
    · exact key (s := .foreignKey _) (t := .foreignKey _) h1 h2 h
    · split at h
      · simp only [List.mem_singleton] at h; subst h; rfl
      · cases h
  · simp only [uniqueUpdate] at h
    split at h
    · exact key (s := .unique _) (t := .unique _) h1 h2 h
    · split at h
      · simp only [List.mem_singleton] at h; subst h; rfl
      · cases h
  · simp only [checkUpdate] at h
    split at h
    · exact key (s := .check _) (t := .check _) h1 h2 h
    · split at h
      · simp only [List.mem_singleton] at h; subst h; rfl
      · cases h

theorem conTable_consPart {s t : Table} (hs : s.WF) (ht : t.WF)
    (h1 : s.schemaName = t.schemaName) (h2 : s.name = t.name) {c : Change}
    (h : c ∈ consPart s t) : conTable c = some (t.schemaName, t.name) := by
  simp only [consPart, flatMap_values, List.mem_append, List.mem_flatMap] at h
  rcases h with ⟨ti, hti, h⟩ | ⟨si, hsi, h⟩
  · have hh := ht.cons_home ti hti
    split at h
    · next si hsi =>
      have a := hs.constraint hsi
      rw [conTable_update (a.2.1.trans (h1.trans hh.2.1.symm))
        (a.2.2.trans (h2.trans hh.2.2.symm)) h, hh.2.1, hh.2.2]
    · rw [conTable_create h, hh.2.1, hh.2.2]
  · have hh := hs.cons_home si hsi
    split at h
    · cases h
    · rw [conTable_drop h, hh.2.1, hh.2.2, h1, h2]

/-! ### Tables -/

theorem tableUpdate_eq (s t : Table) : tableUpdate s t = colsPart s t ++ consPart s t := by
  simp only [tableUpdate, colsPart, consPart, List.append_assoc]
  rfl

theorem run_tableUpdate {s t : Table} (hs : s.WF) (ht : t.WF)
    (h1 : s.schemaName = t.schemaName) (h2 : s.name = t.name) {m : PM RelContent}
    (hm : m t.name = some (.table s.content)) :
    runX relX (tableUpdate s t) m = .ok (upd m t.name (some (.table t.content))) := by
  rw [tableUpdate_eq, runX_append,
    lift_col _ (fun c hc => colTable_colsPart hs ht h1 h2 hc) hm]
  have e : s.content.columns = columnNamed s.columns := rfl
  rw [e, run_colsPart hs ht h1 h2]
  simp only [mapX]
  rw [lift_con _ (fun c hc => conTable_consPart hs ht h1 h2 hc) (upd_same _ _ _)]
  have e : s.content.constraints = fun c => s.constraints.get? c := rfl
  rw [e, run_consPart hs ht h1 h2]
  simp only [mapX, upd_upd, Table.content, h1, h2]

theorem run_tableCreate {t : Table} (ht : t.WF) {m : PM RelContent} (hm : m t.name = none) :
    runX relX (tableCreate t) m = .ok (upd m t.name (some (.table t.content))) := by
  have hnd : ((t.columns.map fun c => NewColumn.mk c.name c.dataType c.notNull c.default).map
      NewColumn.name).Nodup := by
    rw [List.map_map]; exact ht.cols_nodup
  have e3 := columnNamed_new t ht
  have hstep : relX (newCreateTable t) m = .ok (upd m t.name (some (.table
      ⟨t.schemaName, t.name, columnNamed t.columns, fun _ => none⟩))) := by
    simp only [newCreateTable, relX, colTable, conTable, relOnlyX]
    rw [if_pos hnd, e3]
    simp only [putNew, hm, ofOpt_some]
  simp only [tableCreate, runX, hstep]
  have hcs : ∀ c ∈ t.constraints.values.flatMap constraintCreate,
      conTable c = some (t.schemaName, t.name) := by
    intro c hc
    rw [flatMap_values] at hc
    obtain ⟨p, hp, hc⟩ := List.mem_flatMap.1 hc
    have hh := ht.cons_home p hp
    rw [conTable_create hc, hh.2.1, hh.2.2]
  rw [lift_con _ hcs (upd_same _ _ _), flatMap_values]
  have htn : (t.constraints.map Prod.fst).Nodup := ht.cons_nodup
  rw [runX_keyed' (α := Constraint) (β := String × Constraint) Prod.fst (fun ti => some ti.2) htn]
  · simp only [mapX, upd_upd]
    congr 4
    simp only [Table.content, TableContent.mk.injEq, true_and]
    funext j
    by_cases hj' : j ∈ t.constraints.map Prod.fst
    · obtain ⟨c, hc, rfl⟩ := List.mem_map.1 hj'
      rw [overlay_mem _ _ htn hc, AMap.get?_of_mem ht.cons_nodup hc]
    · rw [overlay_not_mem _ _ hj', AMap.not_mem_keys hj']
  · intro ti hti m' hm'
    have hh := ht.cons_home ti hti
    have := run_constraintCreate (t := ti.2) (m := m') (by rw [hh.1]; exact hm')
    rw [hh.1] at this; exact this

/-! ### Relations -/

/-- A relation as created from scratch. -/
def created : Relation → RelContent
  | .sequence q => .sequence { q with ownedByTable := none, ownedByColumn := none }
  | r => r.content

/-- A created relation's table, when it is an index, must be there. -/
def tableThere (m : PM RelContent) : Relation → Prop
  | .index ix => ∃ tb, m ix.tableName = some (.table tb)
  | _ => True

open Classical in
theorem run_relationCreate {t : Relation} (ht : t.WF) {m : PM RelContent} (hm : m t.name = none) :
    runX relX (relationCreate t) m =
      if tableThere m t then .ok (upd m t.name (some (created t))) else .error true := by
  cases t with
  | table t => rw [if_pos (show tableThere m (.table t) from trivial)]; exact run_tableCreate ht hm
  | view t =>
    simp only [Relation.name] at hm
    simp [relationCreate, viewCreate, newCreateView, runX, relX, colTable, conTable, relOnlyX,
      putNew, hm, tableThere, created, Relation.content, Relation.name]
  | sequence t =>
    simp only [Relation.name] at hm
    simp [relationCreate, sequenceCreate, newCreateSequence, runX, relX, colTable, conTable,
      relOnlyX, putNew, hm, tableThere, created, Relation.content, Relation.name]
  | index t =>
    simp only [Relation.name] at hm
    by_cases hp : tableThere m (.index t)
    · rw [if_pos hp]
      obtain ⟨tb, hp⟩ := hp
      simp [relationCreate, indexCreate, newCreateIndex, runX, relX, colTable, conTable,
        relOnlyX, created, Relation.content, Relation.name, hp, putNew, hm]
    · rw [if_neg hp]
      simp only [relationCreate, indexCreate, newCreateIndex, runX, relX, colTable, conTable,
        relOnlyX]
      split
      · next b h =>
        split at h
        · next tb htb => exact absurd ⟨tb, htb⟩ hp
        · exact h.symm
      · next h =>
        split at h
        · next tb htb => exact absurd ⟨tb, htb⟩ hp
        · cases h

theorem run_relationDrop {s : Relation} {m : PM RelContent} (hm : m s.name = some s.content) :
    runX relX (relationDrop s) m = .ok (upd m s.name none) := by
  cases s <;> simp only [Relation.name, Relation.content] at hm <;>
    simp [relationDrop, tableDrop, viewDrop, sequenceDrop, indexDrop, newDropTable, newDropView,
      newDropSequence, newDropIndex, runX, relX, colTable, conTable, relOnlyX, remove, hm,
      isTable, isView, isSequence, isIndex, Relation.name]

/-- The condition under which updating relation `s` to `t` goes through. -/
def updReady (s t : Relation) (m : PM RelContent) : Prop :=
  match t with
  | .index ix => (∀ ix₀, s = .index ix₀ → ix₀.keyExpressions ≠ ix.keyExpressions) →
      tableThere (upd m ix.name none) t
  | _ => True

open Classical in
theorem run_relDropCreate {s t : Relation} (ht : t.WF) (hn : s.name = t.name) {m : PM RelContent}
    (hm : m t.name = some s.content) :
    runX relX (relationDrop s ++ relationCreate t) m =
      if tableThere (upd m t.name none) t then .ok (upd m t.name (some (created t)))
      else .error true := by
  rw [runX_append, run_relationDrop (hn ▸ hm)]
  simp only
  rw [hn, run_relationCreate ht (upd_same _ _ _), upd_upd]

theorem updReady_eq {s t : Relation} {m : PM RelContent}
    (h : ∀ i j, s = .index i → t = .index j → i.keyExpressions ≠ j.keyExpressions) :
    updReady s t m ↔ tableThere (upd m t.name none) t := by
  cases t with
  | table t => exact Iff.rfl
  | view t => exact Iff.rfl
  | sequence t => exact Iff.rfl
  | index t =>
    constructor
    · intro hu; exact hu fun ix₀ e => h ix₀ t e rfl
    · exact fun hh _ => hh

open Classical in
theorem run_relMixed {s t : Relation} (ht : t.WF) (hn : s.name = t.name) {m : PM RelContent}
    (hm : m t.name = some s.content)
    (h1 : relationUpdate s t = relationDrop s ++ relationCreate t)
    (h2 : ∀ i j, s = .index i → t = .index j → i.keyExpressions ≠ j.keyExpressions)
    (h3 : reachedRel (some s.content) t.content = created t) :
    runX relX (relationUpdate s t) m =
      if updReady s t m then .ok (upd m t.name (some (reachedRel (some s.content) t.content)))
      else .error true := by
  rw [h1, run_relDropCreate ht hn hm, h3]
  by_cases h : tableThere (upd m t.name none) t
  · rw [if_pos h, if_pos ((updReady_eq h2).2 h)]
  · rw [if_neg h, if_neg (mt (updReady_eq h2).1 h)]

open Classical in
theorem run_relationUpdate {s t : Relation} (hs : s.WF) (ht : t.WF)
    (h1 : s.schemaName = t.schemaName) (hn : s.name = t.name) {m : PM RelContent}
    (hm : m t.name = some s.content) :
    runX relX (relationUpdate s t) m =
      if updReady s t m then .ok (upd m t.name (some (reachedRel (some s.content) t.content)))
      else .error true := by
  cases s with
  | table s =>
    cases t with
    | table t =>
      rw [if_pos (show updReady (.table s) (.table t) m from trivial)]
      exact run_tableUpdate hs ht h1 hn hm
    | view t => exact run_relMixed ht hn hm rfl (fun _ _ => by intro a b; cases a <;> cases b) rfl
    | sequence t => exact run_relMixed ht hn hm rfl (fun _ _ => by intro a b; cases a <;> cases b) rfl
    | index t => exact run_relMixed ht hn hm rfl (fun _ _ => by intro a b; cases a <;> cases b) rfl
  | view s =>
    cases t with
    | view t =>
      obtain ⟨a, n, q⟩ := s
      obtain ⟨a', n', q'⟩ := t
      simp only [Relation.name, Relation.schemaName] at h1 hn
      subst h1 hn
      by_cases k : q = q'
      · subst k
        rw [if_pos (show updReady (.view ⟨a, n, q⟩) (.view ⟨a, n, q⟩) m from trivial)]
        simp only [relationUpdate, viewUpdate, ne_eq, not_true, if_false, runX, reachedRel, Relation.content]
        rw [upd_eq_self]; exact hm
      · exact run_relMixed (s := .view ⟨a, n, q⟩) ht rfl hm (by simp [relationUpdate, viewUpdate, k, relationDrop, viewDrop, relationCreate, viewCreate]) (fun _ _ => by intro a b; cases a) rfl
    | table t => exact run_relMixed ht hn hm rfl (fun _ _ => by intro a b; cases a <;> cases b) rfl
    | sequence t => exact run_relMixed ht hn hm rfl (fun _ _ => by intro a b; cases a <;> cases b) rfl
    | index t => exact run_relMixed ht hn hm rfl (fun _ _ => by intro a b; cases a <;> cases b) rfl
  | sequence s =>
    cases t with
    | sequence t =>
      by_cases k : s = t
      · subst k
        rw [if_pos (show updReady (.sequence s) (.sequence s) m from trivial)]
        simp only [relationUpdate, sequenceUpdate, ne_eq, not_true, or_self, if_false, runX, reachedRel,
          Relation.content, if_true]
        rw [upd_eq_self]; exact hm
      · have hne : s.dataType ≠ t.dataType ∨ s.increment ≠ t.increment ∨ s.minValue ≠ t.minValue
            ∨ s.maxValue ≠ t.maxValue ∨ s.start ≠ t.start ∨ s.cache ≠ t.cache ∨ s.cycle ≠ t.cycle
            ∨ s.ownedByTable ≠ t.ownedByTable ∨ s.ownedByColumn ≠ t.ownedByColumn := by
          apply Classical.byContradiction
          intro hne
          simp only [not_or, Decidable.not_not] at hne
          apply k
          cases s; cases t
          simp only [Relation.name, Relation.schemaName] at h1 hn
          simp_all
        refine run_relMixed ht hn hm ?_ (fun _ _ => by intro a b; cases a) ?_
        · simp only [relationUpdate, sequenceUpdate, if_pos hne]; rfl
        · simp only [reachedRel, Relation.content, if_neg k]; rfl
    | table t => exact run_relMixed ht hn hm rfl (fun _ _ => by intro a b; cases a <;> cases b) rfl
    | view t => exact run_relMixed ht hn hm rfl (fun _ _ => by intro a b; cases a <;> cases b) rfl
    | index t => exact run_relMixed ht hn hm rfl (fun _ _ => by intro a b; cases a <;> cases b) rfl
  | index s =>
    cases t with
    | index t =>
      by_cases k : s.keyExpressions = t.keyExpressions
      · have : updReady (.index s) (.index t) m := fun h => absurd k (h s rfl)
        rw [if_pos this]
        simp only [relationUpdate, indexUpdate, reachedRel, Relation.content, k, ne_eq, not_true,
          if_false, runX, if_true]
        rw [upd_eq_self]; exact hm
      · refine run_relMixed ht hn hm ?_ (fun i j a b => by cases a; cases b; exact k) ?_
        · simp only [relationUpdate, indexUpdate, ne_eq, k, not_false_eq_true, if_true]; rfl
        · simp only [reachedRel, Relation.content, if_neg k]; rfl
    | table t => exact run_relMixed ht hn hm rfl (fun _ _ => by intro a b; cases a <;> cases b) rfl
    | view t => exact run_relMixed ht hn hm rfl (fun _ _ => by intro a b; cases a <;> cases b) rfl
    | sequence t => exact run_relMixed ht hn hm rfl (fun _ _ => by intro a b; cases a <;> cases b) rfl

end Podo
