import Verif.Spec.Effect
/-
`Change.apply` refines the content-level specification `Spec.effect`, and preserves
well-formedness.
-/
set_option linter.unusedSimpArgs false
namespace Podo
open Spec

theorem findCol_eq_columnNamed (cols : List Column) (n : String) :
    Table.findCol cols n = columnNamed cols n := by
  induction cols with
  | nil => rfl
  | cons c cs ih =>
    simp only [columnNamed] at ih
    simp only [Table.findCol, columnNamed, List.find?_cons, ih]
    by_cases h : c.name = n
    · simp [h]
    · have : (c.name == n) = false := by simpa using h
      simp [h, this]

theorem columnNamed_cons (c : Column) (cs : List Column) (n : String) :
    columnNamed (c :: cs) n = if c.name = n then some c else columnNamed cs n := by
  rw [← findCol_eq_columnNamed, ← findCol_eq_columnNamed]; rfl

@[simp] theorem columnNamed_nil (n : String) : columnNamed [] n = none := rfl

theorem columnNamed_append (xs ys : List Column) (n : String) :
    columnNamed (xs ++ ys) n = (columnNamed xs n).or (columnNamed ys n) := by
  induction xs with
  | nil => simp
  | cons c cs ih =>
    simp only [List.cons_append, columnNamed_cons, ih]
    split <;> simp

theorem columnNamed_name {cols : List Column} {n : String} {c : Column}
    (h : columnNamed cols n = some c) : c.name = n := by
  have := List.find?_some h
  simpa using this

theorem columnNamed_mem {cols : List Column} {n : String} {c : Column}
    (h : columnNamed cols n = some c) : c ∈ cols := List.mem_of_find?_eq_some h

theorem columnNamed_eq_none {cols : List Column} {n : String} :
    columnNamed cols n = none ↔ n ∉ cols.map Column.name := by
  induction cols with
  | nil => simp
  | cons c cs ih =>
    rw [columnNamed_cons]
    by_cases h : c.name = n
    · simp [h]
    · simp [h, ih, Ne.symm h]

theorem columnNamed_of_mem {cols : List Column} (hn : (cols.map Column.name).Nodup) {c : Column}
    (h : c ∈ cols) : columnNamed cols c.name = some c := by
  induction cols with
  | nil => simp at h
  | cons d cs ih =>
    rw [columnNamed_cons]
    simp only [List.map_cons, List.nodup_cons] at hn
    rcases List.mem_cons.1 h with h | h
    · subst h; simp
    · have : d.name ≠ c.name := fun e => hn.1 (e ▸ List.mem_map_of_mem h)
      simp [this, ih hn.2 h]

theorem columnNamed_eraseCol {cols : List Column} (hn : (cols.map Column.name).Nodup)
    (n j : String) :
    columnNamed (Table.eraseCol cols n) j = if j = n then none else columnNamed cols j := by
  induction cols with
  | nil => simp [Table.eraseCol]
  | cons c cs ih =>
    simp only [List.map_cons, List.nodup_cons] at hn
    simp only [Table.eraseCol]
    by_cases h : c.name = n
    · simp only [h, if_true, columnNamed_cons]
      by_cases hj : j = n
      · subst hj
        simp only [if_true]
        rw [columnNamed_eq_none]; rw [h] at hn; exact hn.1
      · simp [hj, Ne.symm hj]
    · simp only [h, if_false, columnNamed_cons, ih hn.2]
      by_cases hc : c.name = j
      · have : j ≠ n := fun e => h (hc.trans e)
        simp [hc, this]
      · simp [hc]

theorem columnNamed_setCol (cols : List Column) (n : String) (f : Column → Column)
    (hf : ∀ c, (f c).name = c.name) (j : String) :
    columnNamed (Table.setCol cols n f) j
      = if j = n then (columnNamed cols n).map f else columnNamed cols j := by
  induction cols with
  | nil => simp [Table.setCol]
  | cons c cs ih =>
    simp only [Table.setCol]
    by_cases h : c.name = n
    · simp only [h, if_true, columnNamed_cons, hf]
      by_cases hj : j = n
      · simp [hj]
      · simp [hj, Ne.symm hj]
    · simp only [h, if_false, columnNamed_cons, ih]
      by_cases hc : c.name = j
      · have : j ≠ n := fun e => h (hc.trans e)
        simp [hc, this]
      · simp [hc]

theorem map_name_setCol (cols : List Column) (n : String) (f : Column → Column)
    (hf : ∀ c, (f c).name = c.name) :
    (Table.setCol cols n f).map Column.name = cols.map Column.name := by
  induction cols with
  | nil => rfl
  | cons c cs ih =>
    simp only [Table.setCol]
    split <;> simp [hf, ih]

theorem eraseCol_sublist (cols : List Column) (n : String) :
    (Table.eraseCol cols n).Sublist cols := by
  induction cols with
  | nil => exact List.Sublist.refl _
  | cons c cs ih =>
    simp only [Table.eraseCol]
    split
    · exact List.sublist_cons_self _ _
    · exact List.Sublist.cons_cons _ ih

theorem mem_setCol {cols : List Column} {n : String} {f : Column → Column} {c : Column}
    (h : c ∈ Table.setCol cols n f) : c ∈ cols ∨ ∃ c₀ ∈ cols, c = f c₀ := by
  induction cols with
  | nil => simp [Table.setCol] at h
  | cons d cs ih =>
    simp only [Table.setCol] at h
    split at h
    · rcases List.mem_cons.1 h with h | h
      · exact Or.inr ⟨d, by simp, h⟩
      · exact Or.inl (List.mem_cons_of_mem _ h)
    · rcases List.mem_cons.1 h with h | h
      · exact Or.inl (by simp [h])
      · rcases ih h with h | ⟨c₀, h, e⟩
        · exact Or.inl (List.mem_cons_of_mem _ h)
        · exact Or.inr ⟨c₀, List.mem_cons_of_mem _ h, e⟩

/-- Result of a fallible operation as content. -/
def okMap {α β : Type} (f : α → β) (x : SResult α) : Option β :=
  match x with
  | .ok a => some (f a)
  | .error _ => none

@[simp] theorem okMap_ok {α β : Type} (f : α → β) (a : α) : okMap f (.ok a) = some (f a) := rfl
@[simp] theorem okMap_error {α β : Type} (f : α → β) (e : SnapshotError) :
    okMap f (.error e) = none := rfl

/-! ### Tables -/

theorem okMap_addColumn (t : Table) (c : Column) :
    okMap Table.content (t.addColumn c) = onCols (fun m => putNew m c.name c) t.content := by
  simp only [Table.addColumn, onCols, putNew, Table.content]
  cases h : columnNamed t.columns c.name with
  | some x => simp [Table.hasColumn, findCol_eq_columnNamed, h]
  | none =>
    have h' : t.hasColumn c.name = false := by simp [Table.hasColumn, findCol_eq_columnNamed, h]
    simp only [h', okMap_ok, Table.content, Option.map_some, Option.some.injEq, Option.isSome_none,
      Bool.false_eq_true, if_false, TableContent.mk.injEq, true_and, and_true]
    funext j
    rw [columnNamed_append, columnNamed_cons, upd, columnNamed_nil]
    by_cases hj : j = c.name
    · simp [hj, h]
    · simp [hj, Ne.symm hj]

theorem okMap_modifyColumn (t : Table) (n : String) (f : Column → Column)
    (hf : ∀ c, (f c).name = c.name) :
    okMap Table.content (t.modifyColumn n f)
      = onCols (fun m => alter (fun c => some (f c)) m n) t.content := by
  simp only [Table.modifyColumn, findCol_eq_columnNamed, onCols, alter, Table.content]
  cases h : columnNamed t.columns n with
  | none => simp
  | some c =>
    simp only [okMap_ok, Table.content, Option.map_some, Option.some.injEq,
      TableContent.mk.injEq, true_and, and_true]
    funext j
    rw [columnNamed_setCol _ _ _ hf, h]; rfl

theorem okMap_removeColumn (t : Table) (hw : t.WF) (n : String) :
    okMap (fun p : Column × Table => p.2.content) (t.removeColumn n)
      = onCols (fun m => remove (fun _ => true) m n) t.content := by
  simp only [Table.removeColumn, findCol_eq_columnNamed, onCols, remove, Table.content]
  cases h : columnNamed t.columns n with
  | none => simp
  | some c =>
    simp only [okMap_ok, Table.content, if_true, Option.map_some, Option.some.injEq,
      TableContent.mk.injEq, true_and, and_true]
    funext j
    rw [columnNamed_eraseCol hw.cols_nodup]; rfl

theorem okMap_addConstraint (t : Table) (c : Constraint) :
    okMap Table.content (t.addConstraint c) = onCons (fun m => putNew m c.name c) t.content := by
  simp only [Table.addConstraint, onCons, putNew, Table.content]
  cases h : t.constraints.get? c.name with
  | some x => simp [AMap.has_of_some h]
  | none =>
    simp only [AMap.has_of_none h, okMap_ok, Table.content, Option.map_some, Option.some.injEq,
      Option.isSome_none, Bool.false_eq_true, if_false, TableContent.mk.injEq, true_and]
    funext j
    rw [AMap.get?_insertNew _ _ _ _ h]; rfl

theorem okMap_removeConstraint (t : Table) (n : String) :
    okMap Table.content (t.removeConstraint n)
      = onCons (fun m => remove (fun _ => true) m n) t.content := by
  simp only [Table.removeConstraint, onCons, remove, Table.content]
  cases h : t.constraints.get? n with
  | none => simp
  | some c =>
    simp only [okMap_ok, Table.content, if_true, Option.map_some, Option.some.injEq,
      TableContent.mk.injEq, true_and]
    funext j
    rw [AMap.get?_erase]; rfl

theorem okMap_dropConstraint {α : Type} (t : Table) (n : String) (as : Constraint → SResult α)
    (p : Constraint → Bool) (hp : ∀ c, p c = true ↔ ∃ x, as c = .ok x) :
    okMap Table.content (t.dropConstraint n as) = onCons (fun m => remove p m n) t.content := by
  have h0 := okMap_removeConstraint t n
  simp only [Table.dropConstraint, Table.getConstraint, onCons, remove, Table.content] at *
  cases h : t.constraints.get? n with
  | none => simp
  | some c =>
    simp only
    cases ha : as c with
    | error e =>
      have : p c = false := by
        cases hb : p c with
        | false => rfl
        | true => obtain ⟨x, hx⟩ := (hp c).1 hb; rw [ha] at hx; cases hx
      simp [this]
    | ok x =>
      have : p c = true := (hp c).2 ⟨x, ha⟩
      simp only [h, if_true] at h0
      simp only [this, if_true, h0]

theorem okMap_alterConstraint (t : Table) (n : String) (conv : Constraint → SResult Constraint)
    (f : Constraint → Option Constraint) (hf : ∀ c, okMap id (conv c) = f c) :
    okMap Table.content (t.alterConstraint n conv) = onCons (fun m => alter f m n) t.content := by
  simp only [Table.alterConstraint, Table.getConstraint, onCons, alter, Table.content]
  cases h : t.constraints.get? n with
  | none => simp
  | some c =>
    have := hf c
    simp only
    cases hc : conv c with
    | error e => rw [hc] at this; simp at this; simp [← this]
    | ok c' =>
      rw [hc] at this; simp at this
      simp only [← this, okMap_ok, Table.content, Table.setConstraint, Option.map_some,
        Option.some.injEq, TableContent.mk.injEq, true_and]
      funext j
      rw [AMap.get?_set _ _ _ _ (by simp [h])]; rfl

theorem okMap_renameColumn (t : Table) (hw : t.WF) (a b : String) :
    okMap Table.content (t.renameColumn a b)
      = onCols (fun m => match m a with
          | some col => putNew (upd m a none) b { col with name := b }
          | none => none) t.content := by
  have h0 := okMap_removeColumn t hw a
  simp only [Table.renameColumn]
  simp only [Table.removeColumn, findCol_eq_columnNamed] at h0 ⊢
  cases h : columnNamed t.columns a with
  | none => simp [onCols, Table.content, h]
  | some col =>
    rw [h] at h0
    simp only [okMap_ok] at h0 ⊢
    rw [okMap_addColumn]
    simp only [onCols, remove, Table.content, h, if_true, Option.map_some, Option.some.injEq,
      TableContent.mk.injEq, true_and, and_true] at h0 ⊢
    rw [h0]

theorem buildColumns_eq (s t : String) (cols : List NewColumn) (tb : Table) :
    okMap id (Table.buildColumns s t tb cols) =
      if ((tb.columns.map Column.name) ++ cols.map NewColumn.name).Nodup then
        some { tb with columns := (tb.columns ++
          cols.map fun n => Column.mk s t n.name n.dataType n.notNull n.default) }
      else if (tb.columns.map Column.name).Nodup then none
      else okMap id (Table.buildColumns s t tb cols) := by
  induction cols generalizing tb with
  | nil =>
    by_cases h : (tb.columns.map Column.name).Nodup <;> simp [Table.buildColumns, h]
  | cons c cs ih =>
    by_cases h0 : (tb.columns.map Column.name).Nodup
    · simp only [Table.buildColumns, Table.addColumn, Table.hasColumn, findCol_eq_columnNamed]
      cases hc : columnNamed tb.columns c.name with
      | some x =>
        have hmem : c.name ∈ tb.columns.map Column.name :=
          Decidable.byContradiction fun hn => by
            rw [columnNamed_eq_none.2 hn] at hc; cases hc
        have : ¬ ((tb.columns.map Column.name) ++ (c :: cs).map NewColumn.name).Nodup := by
          intro hnd
          exact (List.nodup_append.1 hnd).2.2 _ hmem _ (by simp) rfl
        rw [if_neg this, if_pos h0]
        simp
      | none =>
        simp only [Option.isSome_none, Bool.false_eq_true, if_false]
        rw [ih]
        rw [columnNamed_eq_none] at hc
        have h1 : ((tb.columns ++ [Column.mk s t c.name c.dataType c.notNull c.default]).map
            Column.name).Nodup := by
          rw [List.map_append, List.nodup_append]
          refine ⟨h0, by simp, ?_⟩
          intro a ha b hb e
          simp at hb; subst hb; subst e; exact hc ha
        simp only [List.map_append, List.map_cons, List.map_nil, List.append_assoc,
          List.cons_append, List.nil_append] at h1 ⊢
        by_cases h2 : (tb.columns.map Column.name ++ c.name :: cs.map NewColumn.name).Nodup
        · rw [if_pos h2, if_pos h2]
        · rw [if_neg h2, if_neg h2, if_pos h1, if_pos h0]
    · have : ¬ ((tb.columns.map Column.name) ++ (c :: cs).map NewColumn.name).Nodup :=
        fun h => h0 (List.nodup_append.1 h).1
      rw [if_neg this, if_neg h0]

/-- `CreateTable` builds the table exactly when its column names are distinct. -/
theorem buildColumns_new (s t : String) (cols : List NewColumn) :
    okMap id (Table.buildColumns s t (Table.new s t) cols) =
      if (cols.map NewColumn.name).Nodup then
        some ⟨s, t, cols.map fun n => ⟨s, t, n.name, n.dataType, n.notNull, n.default⟩, []⟩
      else none := by
  rw [buildColumns_eq]
  simp [Table.new]

/-! ### Schemas -/

theorem content_rel_get (sc : Schema) (r : String) :
    sc.content.relations r = (sc.relations.get? r).map Relation.content := rfl

theorem okMap_addRelation (sc : Schema) (r : Relation) :
    okMap Schema.content (sc.addRelation r)
      = onRels (fun m => putNew m r.name r.content) sc.content := by
  simp only [Schema.addRelation, onRels, putNew, Schema.content]
  cases h : sc.relations.get? r.name with
  | some x => simp [AMap.has_of_some h]
  | none =>
    simp only [AMap.has_of_none h, okMap_ok, Schema.content, Option.map_some, Option.map_none,
      Option.some.injEq, Option.isSome_none, Bool.false_eq_true, if_false,
      SchemaContent.mk.injEq, true_and, and_true]
    funext j
    rw [AMap.get?_insertNew _ _ _ _ h, upd]
    split <;> simp

theorem okMap_removeRelation (sc : Schema) (n : String) :
    okMap Schema.content (sc.removeRelation n)
      = onRels (fun m => remove (fun _ => true) m n) sc.content := by
  simp only [Schema.removeRelation, onRels, remove, Schema.content]
  cases h : sc.relations.get? n with
  | none => simp
  | some c =>
    simp only [okMap_ok, Schema.content, Option.map_some, if_true, Option.some.injEq,
      SchemaContent.mk.injEq, true_and, and_true]
    funext j
    rw [AMap.get?_erase, upd]
    split <;> simp

theorem okMap_dropRelationAs {α : Type} (sc : Schema) (n : String) (as : Relation → SResult α)
    (p : RelContent → Bool) (hp : ∀ r, p r.content = true ↔ ∃ x, as r = .ok x) :
    okMap Schema.content (sc.dropRelationAs n as)
      = onRels (fun m => remove p m n) sc.content := by
  have h0 := okMap_removeRelation sc n
  simp only [Schema.dropRelationAs, Schema.getRelation, onRels, remove, Schema.content] at *
  cases h : sc.relations.get? n with
  | none => simp
  | some c =>
    simp only [Option.map_some]
    cases ha : as c with
    | error e =>
      have : p c.content = false := by
        cases hb : p c.content with
        | false => rfl
        | true => obtain ⟨x, hx⟩ := (hp c).1 hb; rw [ha] at hx; cases hx
      simp [this]
    | ok x =>
      have : p c.content = true := (hp c).2 ⟨x, ha⟩
      simp only [h, Option.map_some, if_true] at h0
      simp only [this, if_true, h0, Option.map_some]

theorem okMap_withTable (sc : Schema) (t : String) (f : Table → SResult Table)
    (g : TableContent → Option TableContent)
    (hfg : ∀ tb, sc.relations.get? t = some (.table tb) →
      okMap Table.content (f tb) = g tb.content) :
    okMap Schema.content (sc.withTable t f)
      = onRels (fun rels => alter (fun
          | .table tb => (g tb).map .table
          | _ => none) rels t) sc.content := by
  simp only [Schema.withTable, Schema.getRelation, onRels, alter, Schema.content]
  cases h : sc.relations.get? t with
  | none => simp
  | some r =>
    cases r with
    | table tb =>
      have := hfg tb h
      simp only [Relation.asTable, Option.map_some, Relation.content]
      cases hf : f tb with
      | error e => rw [hf] at this; simp only [okMap_error] at this; simp [← this]
      | ok tb' =>
        rw [hf] at this; simp only [okMap_ok] at this
        simp only [← this, okMap_ok, Schema.content, Schema.setRelation, Option.map_some,
          Option.some.injEq, SchemaContent.mk.injEq, true_and, and_true]
        funext j
        rw [AMap.get?_set _ _ _ _ (by simp [h]), upd]
        split <;> simp [Relation.content]
    | view _ => simp [Relation.asTable, Relation.content]
    | index _ => simp [Relation.asTable, Relation.content]
    | sequence _ => simp [Relation.asTable, Relation.content]

theorem okMap_addFunction (sc : Schema) (f : Function) :
    okMap Schema.content (sc.addFunction f)
      = onFuns (fun m => putNew m f.name f) sc.content := by
  simp only [Schema.addFunction, onFuns, putNew, Schema.content]
  cases h : sc.functions.get? f.name with
  | some x => simp [AMap.has_of_some h]
  | none =>
    simp only [AMap.has_of_none h, okMap_ok, Schema.content, Option.map_some,
      Option.some.injEq, Option.isSome_none, Bool.false_eq_true, if_false,
      SchemaContent.mk.injEq, true_and]
    funext j
    rw [AMap.get?_insertNew _ _ _ _ h]; rfl

theorem okMap_removeFunction (sc : Schema) (n : String) :
    okMap Schema.content (sc.removeFunction n)
      = onFuns (fun m => remove (fun _ => true) m n) sc.content := by
  simp only [Schema.removeFunction, onFuns, remove, Schema.content]
  cases h : sc.functions.get? n with
  | none => simp
  | some c =>
    simp only [okMap_ok, Schema.content, Option.map_some, if_true, Option.some.injEq,
      SchemaContent.mk.injEq, true_and]
    funext j
    rw [AMap.get?_erase]; rfl

/-! ### Databases -/

theorem okMap_withSchema (d : Database) (s : String) (f : Schema → SResult Schema)
    (g : SchemaContent → Option SchemaContent)
    (hfg : ∀ sc, d.schemas.get? s = some sc → okMap Schema.content (f sc) = g sc.content) :
    okMap Database.content (d.withSchema s f) = inSchema d.content s g := by
  simp only [Database.withSchema, Database.getSchema, inSchema, alter]
  cases h : d.schemas.get? s with
  | none => simp [Database.content, h]
  | some sc =>
    have := hfg sc h
    have h' : d.content s = some sc.content := by simp [Database.content, h]
    simp only [h', Option.map_some]
    cases hf : f sc with
    | error e => rw [hf] at this; simp only [okMap_error] at this; simp [← this]
    | ok sc' =>
      rw [hf] at this; simp only [okMap_ok] at this
      simp only [← this, okMap_ok, Database.setSchema, Option.map_some, Option.some.injEq]
      funext j
      simp only [Database.content, upd]
      rw [AMap.get?_set _ _ _ _ (by simp [h])]
      split <;> simp

theorem okMap_dbWithTable (d : Database) (s t : String) (f : Table → SResult Table)
    (g : TableContent → Option TableContent)
    (hfg : ∀ sc tb, d.schemas.get? s = some sc → sc.relations.get? t = some (.table tb) →
      okMap Table.content (f tb) = g tb.content) :
    okMap Database.content (d.withTable s t f) = inTable d.content s t g := by
  apply okMap_withSchema
  intro sc hsc
  apply okMap_withTable
  intro tb htb
  exact hfg sc tb hsc htb

theorem okMap_addSchema (d : Database) (sc : Schema) :
    okMap Database.content (d.addSchema sc) = putNew d.content sc.name sc.content := by
  simp only [Database.addSchema, putNew]
  cases h : d.schemas.get? sc.name with
  | some x => simp [AMap.has_of_some h, Database.content, h]
  | none =>
    have h' : d.content sc.name = none := by simp [Database.content, h]
    simp only [AMap.has_of_none h, h', okMap_ok, Option.some.injEq, Option.isSome_none,
      Bool.false_eq_true, if_false]
    funext j
    simp only [Database.content, upd]
    rw [AMap.get?_insertNew _ _ _ _ h]
    split <;> simp

theorem okMap_removeSchema (d : Database) (s : String) :
    okMap Database.content (d.removeSchema s) = remove (fun _ => true) d.content s := by
  simp only [Database.removeSchema, remove]
  cases h : d.schemas.get? s with
  | none => simp [Database.content, h]
  | some c =>
    have h' : d.content s = some c.content := by simp [Database.content, h]
    simp only [h', okMap_ok, Option.map_some, if_true, Option.some.injEq]
    funext j
    simp only [Database.content, upd]
    rw [AMap.get?_erase]
    split <;> simp

theorem Database.WF.schema {d : Database} (h : d.WF) {s : String} {sc : Schema}
    (e : d.schemas.get? s = some sc) : sc.name = s ∧ sc.WF := h.home _ (AMap.mem_of_get? e)

theorem Schema.WF.relation {sc : Schema} (h : sc.WF) {r : String} {rel : Relation}
    (e : sc.relations.get? r = some rel) : rel.name = r ∧ rel.schemaName = sc.name ∧ rel.WF :=
  h.rels_home _ (AMap.mem_of_get? e)

theorem Schema.WF.function {sc : Schema} (h : sc.WF) {f : String} {fn : Function}
    (e : sc.functions.get? f = some fn) : fn.name = f ∧ fn.schemaName = sc.name :=
  h.funs_home _ (AMap.mem_of_get? e)

theorem Table.WF.constraint {t : Table} (h : t.WF) {c : String} {con : Constraint}
    (e : t.constraints.get? c = some con) :
    con.name = c ∧ con.schemaName = t.schemaName ∧ con.tableName = t.name :=
  h.cons_home _ (AMap.mem_of_get? e)

theorem Table.WF.column {t : Table} (h : t.WF) {c : String} {col : Column}
    (e : columnNamed t.columns c = some col) :
    col.name = c ∧ col.schemaName = t.schemaName ∧ col.tableName = t.name :=
  ⟨columnNamed_name e, h.cols_home _ (columnNamed_mem e)⟩

/-- Applying a change to a well-formed snapshot has exactly the specified effect on its content,
and is refused exactly when the specification refuses it. -/
theorem apply_refines (c : Change) (d : Database) (hd : d.WF) :
    okMap Database.content (c.apply d) = effect c d.content := by
  have wft : ∀ {s t sc tb}, d.schemas.get? s = some sc → sc.relations.get? t = some (.table tb) →
      tb.WF := fun h1 h2 => ((hd.schema h1).2.relation h2).2.2
  cases c with
  | createSchema s => exact okMap_addSchema d _
  | dropSchema s => exact okMap_removeSchema d _
  | createTable s t cols =>
    apply okMap_withSchema
    intro sc _
    have h := buildColumns_new s t cols
    cases hb : Table.buildColumns s t (Table.new s t) cols with
    | error e =>
      rw [hb] at h
      by_cases hn : (cols.map NewColumn.name).Nodup
      · simp [hn] at h
      · simp [hn, onRels]
    | ok tb =>
      rw [hb] at h
      by_cases hn : (cols.map NewColumn.name).Nodup
      · simp only [okMap_ok, id, hn, if_true, Option.some.injEq] at h
        simp only [hn, if_true]
        rw [okMap_addRelation, h]
        rfl
      · simp [hn] at h
  | dropTable s t => exact okMap_withSchema _ _ _ _ fun sc _ => okMap_removeRelation sc t
  | addColumn s t c ty nn df =>
    exact okMap_dbWithTable _ _ _ _ _ fun sc tb _ _ => okMap_addColumn tb _
  | setDataType s t c ty =>
    exact okMap_dbWithTable _ _ _ _ _ fun sc tb _ _ => okMap_modifyColumn tb _ _ fun _ => rfl
  | setDefault s t c ty =>
    exact okMap_dbWithTable _ _ _ _ _ fun sc tb _ _ => okMap_modifyColumn tb _ _ fun _ => rfl
  | setNotNull s t c ty =>
    exact okMap_dbWithTable _ _ _ _ _ fun sc tb _ _ => okMap_modifyColumn tb _ _ fun _ => rfl
  | dropColumn s t c =>
    refine okMap_dbWithTable _ _ _ _ _ fun sc tb h1 h2 => ?_
    rw [← okMap_removeColumn tb (wft h1 h2)]
    cases tb.removeColumn c <;> rfl
  | renameColumn s t a b =>
    exact okMap_dbWithTable _ _ _ _ _ fun sc tb h1 h2 => okMap_renameColumn tb (wft h1 h2) a b
  | addPrimaryKey s t c cols df ini =>
    exact okMap_dbWithTable _ _ _ _ _ fun sc tb _ _ => okMap_addConstraint tb _
  | alterPrimaryKey s t c df ini =>
    exact okMap_dbWithTable _ _ _ _ _ fun sc tb _ _ => okMap_alterConstraint tb _ _ _ fun c => by
      cases c <;> rfl
  | dropPrimaryKey s t c =>
    exact okMap_dbWithTable _ _ _ _ _ fun sc tb _ _ => okMap_dropConstraint tb _ _ _ fun c => by
      cases c <;> simp [isPrimaryKey, Constraint.asPrimaryKey]
  | addUnique s t c cols df ini =>
    exact okMap_dbWithTable _ _ _ _ _ fun sc tb _ _ => okMap_addConstraint tb _
  | alterUnique s t c df ini =>
    exact okMap_dbWithTable _ _ _ _ _ fun sc tb _ _ => okMap_alterConstraint tb _ _ _ fun c => by
      cases c <;> rfl
  | dropUnique s t c =>
    exact okMap_dbWithTable _ _ _ _ _ fun sc tb _ _ => okMap_dropConstraint tb _ _ _ fun c => by
      cases c <;> simp [isUnique, Constraint.asUnique]
  | addForeignKey s t c cols ts tt tcols mo ur dr df ini =>
    exact okMap_dbWithTable _ _ _ _ _ fun sc tb _ _ => okMap_addConstraint tb _
  | alterForeignKey s t c df ini =>
    exact okMap_dbWithTable _ _ _ _ _ fun sc tb _ _ => okMap_alterConstraint tb _ _ _ fun c => by
      cases c <;> rfl
  | dropForeignKey s t c =>
    exact okMap_dbWithTable _ _ _ _ _ fun sc tb _ _ => okMap_dropConstraint tb _ _ _ fun c => by
      cases c <;> simp [isForeignKey, Constraint.asForeignKey]
  | addCheck s t c ex df ini =>
    exact okMap_dbWithTable _ _ _ _ _ fun sc tb _ _ => okMap_addConstraint tb _
  | alterCheck s t c df ini =>
    exact okMap_dbWithTable _ _ _ _ _ fun sc tb _ _ => okMap_alterConstraint tb _ _ _ fun c => by
      cases c <;> rfl
  | dropCheck s t c =>
    exact okMap_dbWithTable _ _ _ _ _ fun sc tb _ _ => okMap_dropConstraint tb _ _ _ fun c => by
      cases c <;> simp [isCheck, Constraint.asCheck]
  | createFunction s f b l r v =>
    exact okMap_withSchema _ _ _ _ fun sc _ => okMap_addFunction sc _
  | dropFunction s f => exact okMap_withSchema _ _ _ _ fun sc _ => okMap_removeFunction sc _
  | createView s v q => exact okMap_withSchema _ _ _ _ fun sc _ => okMap_addRelation sc _
  | dropView s v =>
    exact okMap_withSchema _ _ _ _ fun sc _ => okMap_dropRelationAs sc _ _ _ fun r => by
      cases r <;> simp [isView, Relation.asView, Relation.content]
  | createIndex s t i u m ks =>
    apply okMap_withSchema
    intro sc hsc
    simp only [Schema.getRelation, onRels, Schema.content]
    cases h : sc.relations.get? t with
    | none => simp
    | some r =>
      cases r with
      | table tb =>
        have hn : tb.name = t := ((hd.schema hsc).2.relation h).1
        simp only [Relation.asTable, Option.map_some, Relation.content]
        rw [okMap_addRelation, hn]
        rfl
      | view _ => simp [Relation.asTable, Relation.content]
      | index _ => simp [Relation.asTable, Relation.content]
      | sequence _ => simp [Relation.asTable, Relation.content]
  | dropIndex s v =>
    exact okMap_withSchema _ _ _ _ fun sc _ => okMap_dropRelationAs sc _ _ _ fun r => by
      cases r <;> simp [isIndex, Relation.asIndex, Relation.content]
  | createSequence s q ty inc mn mx st ca cy =>
    exact okMap_withSchema _ _ _ _ fun sc _ => okMap_addRelation sc _
  | dropSequence s v =>
    exact okMap_withSchema _ _ _ _ fun sc _ => okMap_dropRelationAs sc _ _ _ fun r => by
      cases r <;> simp [isSequence, Relation.asSequence, Relation.content]

end Podo
