import Verif.Proofs.Refine
/-
Every change preserves well-formedness.
-/
set_option linter.unusedSimpArgs false
namespace Podo

/-! ### Tables -/

/-- A table operation that keeps the table's identity and well-formedness. -/
def KeepsTable (f : Table → SResult Table) (s t : String) : Prop :=
  ∀ tb tb', tb.WF → tb.schemaName = s → tb.name = t → f tb = .ok tb' →
    tb'.WF ∧ tb'.schemaName = s ∧ tb'.name = t

theorem addColumn_wf {tb tb' : Table} {c : Column} (hw : tb.WF)
    (hs : c.schemaName = tb.schemaName) (ht : c.tableName = tb.name)
    (h : tb.addColumn c = .ok tb') :
    tb'.WF ∧ tb'.schemaName = tb.schemaName ∧ tb'.name = tb.name := by
  simp only [Table.addColumn] at h
  cases hc : tb.hasColumn c.name with
  | true => simp [hc] at h
  | false =>
    simp only [hc, Bool.false_eq_true, if_false, Except.ok.injEq] at h
    subst h
    have hn : c.name ∉ tb.columns.map Column.name := by
      rw [← columnNamed_eq_none]
      simpa [Table.hasColumn, findCol_eq_columnNamed] using hc
    refine ⟨⟨?_, ?_, hw.cons_nodup, hw.cons_home⟩, rfl, rfl⟩
    · simp only [List.map_append, List.map_cons, List.map_nil]
      rw [List.nodup_append]
      refine ⟨hw.cols_nodup, by simp, ?_⟩
      intro a ha b hb e
      simp at hb; subst hb; subst e; exact hn ha
    · intro x hx
      simp only [List.mem_append, List.mem_singleton] at hx
      rcases hx with hx | hx
      · exact hw.cols_home x hx
      · subst hx; exact ⟨hs, ht⟩

theorem removeColumn_wf {tb tb' : Table} {c : Column} {n : String} (hw : tb.WF)
    (h : tb.removeColumn n = .ok (c, tb')) :
    tb'.WF ∧ tb'.schemaName = tb.schemaName ∧ tb'.name = tb.name
      ∧ c.schemaName = tb.schemaName ∧ c.tableName = tb.name := by
  simp only [Table.removeColumn, findCol_eq_columnNamed] at h
  cases hc : columnNamed tb.columns n with
  | none => simp [hc] at h
  | some x =>
    simp only [hc, Except.ok.injEq, Prod.mk.injEq] at h
    obtain ⟨rfl, rfl⟩ := h
    have hsub := eraseCol_sublist tb.columns n
    exact ⟨⟨hw.cols_nodup.sublist (hsub.map _), fun y hy => hw.cols_home y (hsub.subset hy),
      hw.cons_nodup, hw.cons_home⟩, rfl, rfl, hw.cols_home _ (columnNamed_mem hc)⟩

theorem modifyColumn_wf {tb tb' : Table} {n : String} {f : Column → Column} (hw : tb.WF)
    (hf : ∀ c, (f c).name = c.name ∧ (f c).schemaName = c.schemaName
      ∧ (f c).tableName = c.tableName)
    (h : tb.modifyColumn n f = .ok tb') :
    tb'.WF ∧ tb'.schemaName = tb.schemaName ∧ tb'.name = tb.name := by
  simp only [Table.modifyColumn] at h
  cases hc : Table.findCol tb.columns n with
  | none => simp [hc] at h
  | some x =>
    simp only [hc, Except.ok.injEq] at h
    subst h
    refine ⟨⟨?_, ?_, hw.cons_nodup, hw.cons_home⟩, rfl, rfl⟩
    · simp only
      rw [map_name_setCol _ _ _ fun c => (hf c).1]
      exact hw.cols_nodup
    · intro y hy
      rcases mem_setCol hy with hy | ⟨c₀, hy', rfl⟩
      · exact hw.cols_home y hy
      · have := hw.cols_home c₀ hy'
        exact ⟨(hf c₀).2.1.trans this.1, (hf c₀).2.2.trans this.2⟩

theorem addConstraint_wf {tb tb' : Table} {c : Constraint} (hw : tb.WF)
    (hs : c.schemaName = tb.schemaName) (ht : c.tableName = tb.name)
    (h : tb.addConstraint c = .ok tb') :
    tb'.WF ∧ tb'.schemaName = tb.schemaName ∧ tb'.name = tb.name := by
  simp only [Table.addConstraint] at h
  cases hc : tb.constraints.get? c.name with
  | some x => simp [AMap.has_of_some hc] at h
  | none =>
    simp only [AMap.has_of_none hc, Bool.false_eq_true, if_false, Except.ok.injEq] at h
    subst h
    refine ⟨⟨hw.cols_nodup, hw.cols_home, AMap.nodupKeys_insertNew hw.cons_nodup hc, ?_⟩,
      rfl, rfl⟩
    intro p hp
    simp only [AMap.insertNew, List.mem_append, List.mem_singleton] at hp
    rcases hp with hp | hp
    · exact hw.cons_home p hp
    · subst hp; exact ⟨rfl, hs, ht⟩

theorem removeConstraint_wf {tb tb' : Table} {n : String} (hw : tb.WF)
    (h : tb.removeConstraint n = .ok tb') :
    tb'.WF ∧ tb'.schemaName = tb.schemaName ∧ tb'.name = tb.name := by
  simp only [Table.removeConstraint] at h
  cases hc : tb.constraints.get? n with
  | none => simp [hc] at h
  | some x =>
    simp only [hc, Except.ok.injEq] at h
    subst h
    exact ⟨⟨hw.cols_nodup, hw.cols_home, AMap.nodupKeys_erase hw.cons_nodup n,
      fun p hp => hw.cons_home p (AMap.mem_erase.1 hp).1⟩, rfl, rfl⟩

theorem dropConstraint_wf {α : Type} {tb tb' : Table} {n : String} {as : Constraint → SResult α}
    (hw : tb.WF) (h : tb.dropConstraint n as = .ok tb') :
    tb'.WF ∧ tb'.schemaName = tb.schemaName ∧ tb'.name = tb.name := by
  simp only [Table.dropConstraint] at h
  split at h
  · cases h
  · split at h
    · cases h
    · exact removeConstraint_wf hw h

theorem mem_set {α : Type} {m : AMap α} {k : String} {v : α} {p : String × α}
    (h : p ∈ AMap.set m k v) : p ∈ m ∨ p = (k, v) := by
  simp only [AMap.set, List.mem_map] at h
  obtain ⟨q, hq, rfl⟩ := h
  split
  · exact Or.inr rfl
  · exact Or.inl hq

theorem alterConstraint_wf {tb tb' : Table} {n : String}
    {conv : Constraint → SResult Constraint} (hw : tb.WF)
    (hc : ∀ c c', conv c = .ok c' → c'.name = c.name ∧ c'.schemaName = c.schemaName
      ∧ c'.tableName = c.tableName)
    (h : tb.alterConstraint n conv = .ok tb') :
    tb'.WF ∧ tb'.schemaName = tb.schemaName ∧ tb'.name = tb.name := by
  simp only [Table.alterConstraint, Table.getConstraint] at h
  cases hg : tb.constraints.get? n with
  | none => simp [hg] at h
  | some c =>
    simp only [hg] at h
    cases hv : conv c with
    | error e => simp [hv] at h
    | ok c' =>
      simp only [hv, Except.ok.injEq] at h
      subst h
      have h1 := hw.constraint hg
      have h2 := hc c c' hv
      refine ⟨⟨hw.cols_nodup, hw.cols_home, AMap.nodupKeys_set hw.cons_nodup _ _, ?_⟩, rfl, rfl⟩
      intro p hp
      rcases mem_set hp with hp | rfl
      · exact hw.cons_home p hp
      · exact ⟨h2.1.trans h1.1, h2.2.1.trans h1.2.1, h2.2.2.trans h1.2.2⟩

theorem renameColumn_wf {tb tb' : Table} {a b : String} (hw : tb.WF)
    (h : tb.renameColumn a b = .ok tb') :
    tb'.WF ∧ tb'.schemaName = tb.schemaName ∧ tb'.name = tb.name := by
  simp only [Table.renameColumn] at h
  cases hr : tb.removeColumn a with
  | error e => simp [hr] at h
  | ok p =>
    obtain ⟨c, t1⟩ := p
    simp only [hr] at h
    have h1 := removeColumn_wf hw hr
    have h2 := addColumn_wf h1.1 (c := { c with name := b }) (h1.2.2.2.1.trans h1.2.1.symm)
      (h1.2.2.2.2.trans h1.2.2.1.symm) h
    exact ⟨h2.1, h2.2.1.trans h1.2.1, h2.2.2.trans h1.2.2.1⟩

/-! ### Schemas -/

theorem addRelation_wf {sc sc' : Schema} {r : Relation} (hw : sc.WF) (hs : r.schemaName = sc.name)
    (hr : r.WF) (h : sc.addRelation r = .ok sc') : sc'.WF ∧ sc'.name = sc.name := by
  simp only [Schema.addRelation] at h
  cases hc : sc.relations.get? r.name with
  | some x => simp [AMap.has_of_some hc] at h
  | none =>
    simp only [AMap.has_of_none hc, Bool.false_eq_true, if_false, Except.ok.injEq] at h
    subst h
    refine ⟨⟨AMap.nodupKeys_insertNew hw.rels_nodup hc, ?_, hw.funs_nodup, hw.funs_home⟩, rfl⟩
    intro p hp
    simp only [AMap.insertNew, List.mem_append, List.mem_singleton] at hp
    rcases hp with hp | hp
    · exact hw.rels_home p hp
    · subst hp; exact ⟨rfl, hs, hr⟩

theorem removeRelation_wf {sc sc' : Schema} {n : String} (hw : sc.WF)
    (h : sc.removeRelation n = .ok sc') : sc'.WF ∧ sc'.name = sc.name := by
  simp only [Schema.removeRelation] at h
  cases hc : sc.relations.get? n with
  | none => simp [hc] at h
  | some x =>
    simp only [hc, Except.ok.injEq] at h
    subst h
    exact ⟨⟨AMap.nodupKeys_erase hw.rels_nodup n,
      fun p hp => hw.rels_home p (AMap.mem_erase.1 hp).1, hw.funs_nodup, hw.funs_home⟩, rfl⟩

theorem dropRelationAs_wf {α : Type} {sc sc' : Schema} {n : String} {as : Relation → SResult α}
    (hw : sc.WF) (h : sc.dropRelationAs n as = .ok sc') : sc'.WF ∧ sc'.name = sc.name := by
  simp only [Schema.dropRelationAs] at h
  split at h
  · cases h
  · split at h
    · cases h
    · exact removeRelation_wf hw h

theorem addFunction_wf {sc sc' : Schema} {f : Function} (hw : sc.WF) (hs : f.schemaName = sc.name)
    (h : sc.addFunction f = .ok sc') : sc'.WF ∧ sc'.name = sc.name := by
  simp only [Schema.addFunction] at h
  cases hc : sc.functions.get? f.name with
  | some x => simp [AMap.has_of_some hc] at h
  | none =>
    simp only [AMap.has_of_none hc, Bool.false_eq_true, if_false, Except.ok.injEq] at h
    subst h
    refine ⟨⟨hw.rels_nodup, hw.rels_home, AMap.nodupKeys_insertNew hw.funs_nodup hc, ?_⟩, rfl⟩
    intro p hp
    simp only [AMap.insertNew, List.mem_append, List.mem_singleton] at hp
    rcases hp with hp | hp
    · exact hw.funs_home p hp
    · subst hp; exact ⟨rfl, hs⟩

theorem removeFunction_wf {sc sc' : Schema} {n : String} (hw : sc.WF)
    (h : sc.removeFunction n = .ok sc') : sc'.WF ∧ sc'.name = sc.name := by
  simp only [Schema.removeFunction] at h
  cases hc : sc.functions.get? n with
  | none => simp [hc] at h
  | some x =>
    simp only [hc, Except.ok.injEq] at h
    subst h
    exact ⟨⟨hw.rels_nodup, hw.rels_home, AMap.nodupKeys_erase hw.funs_nodup n,
      fun p hp => hw.funs_home p (AMap.mem_erase.1 hp).1⟩, rfl⟩

theorem withTable_wf {sc sc' : Schema} {t : String} {f : Table → SResult Table} (hw : sc.WF)
    (hf : KeepsTable f sc.name t) (h : sc.withTable t f = .ok sc') :
    sc'.WF ∧ sc'.name = sc.name := by
  simp only [Schema.withTable, Schema.getRelation] at h
  cases hg : sc.relations.get? t with
  | none => simp [hg] at h
  | some r =>
    simp only [hg] at h
    cases r with
    | table tb =>
      simp only [Relation.asTable] at h
      cases hv : f tb with
      | error e => simp [hv] at h
      | ok tb' =>
        simp only [hv, Except.ok.injEq] at h
        subst h
        obtain ⟨h1, h2, h3⟩ := hw.relation hg
        obtain ⟨k1, k2, k3⟩ := hf tb tb' h3 h2 h1 hv
        refine ⟨⟨AMap.nodupKeys_set hw.rels_nodup _ _, ?_, hw.funs_nodup, hw.funs_home⟩, rfl⟩
        intro p hp
        rcases mem_set hp with hp | rfl
        · exact hw.rels_home p hp
        · exact ⟨k3, k2, k1⟩
    | view _ => simp [Relation.asTable] at h
    | index _ => simp [Relation.asTable] at h
    | sequence _ => simp [Relation.asTable] at h

/-! ### Databases -/

theorem withSchema_wf {d d' : Database} {s : String} {f : Schema → SResult Schema} (hw : d.WF)
    (hf : ∀ sc sc', d.schemas.get? s = some sc → sc.WF → sc.name = s → f sc = .ok sc' →
      sc'.WF ∧ sc'.name = sc.name)
    (h : d.withSchema s f = .ok d') : d'.WF := by
  simp only [Database.withSchema, Database.getSchema] at h
  cases hg : d.schemas.get? s with
  | none => simp [hg] at h
  | some sc =>
    simp only [hg] at h
    cases hv : f sc with
    | error e => simp [hv] at h
    | ok sc' =>
      simp only [hv, Except.ok.injEq] at h
      subst h
      obtain ⟨h1, h2⟩ := hw.schema hg
      obtain ⟨k1, k2⟩ := hf sc sc' hg h2 h1 hv
      refine ⟨AMap.nodupKeys_set hw.nodup _ _, ?_⟩
      intro p hp
      rcases mem_set hp with hp | rfl
      · exact hw.home p hp
      · exact ⟨k2.trans h1, k1⟩

theorem dbWithTable_wf {d d' : Database} {s t : String} {f : Table → SResult Table} (hw : d.WF)
    (hf : KeepsTable f s t) (h : d.withTable s t f = .ok d') : d'.WF :=
  withSchema_wf hw (fun sc sc' _ h1 h2 h3 => withTable_wf h1 (h2 ▸ hf) h3) h

theorem Schema.new_wf (n : String) : (Schema.new n).WF :=
  ⟨by simp [Schema.new], by simp [Schema.new], by simp [Schema.new], by simp [Schema.new]⟩

theorem Table.new_wf (s n : String) : (Table.new s n).WF :=
  ⟨by simp [Table.new], by simp [Table.new], by simp [Table.new], by simp [Table.new]⟩

theorem buildColumns_wf {s t : String} {cols : List NewColumn} {tb tb' : Table} (hw : tb.WF)
    (hs : tb.schemaName = s) (ht : tb.name = t) (h : Table.buildColumns s t tb cols = .ok tb') :
    tb'.WF ∧ tb'.schemaName = s ∧ tb'.name = t := by
  induction cols generalizing tb with
  | nil => simp only [Table.buildColumns, Except.ok.injEq] at h; subst h; exact ⟨hw, hs, ht⟩
  | cons c cs ih =>
    simp only [Table.buildColumns] at h
    split at h
    · cases h
    · next t1 h1 =>
      have := addColumn_wf hw hs.symm ht.symm h1
      exact ih this.1 (this.2.1.trans hs) (this.2.2.trans ht) h

/-- Applying a change to a well-formed snapshot gives a well-formed snapshot. -/
theorem apply_wf {c : Change} {d d' : Database} (hw : d.WF) (h : c.apply d = .ok d') : d'.WF := by
  cases c with
  | createSchema s =>
    simp only [Change.apply, Database.addSchema] at h
    cases hc : d.schemas.get? (Schema.new s).name with
    | some x => simp [AMap.has_of_some hc] at h
    | none =>
      simp only [AMap.has_of_none hc, Bool.false_eq_true, if_false, Except.ok.injEq] at h
      subst h
      refine ⟨AMap.nodupKeys_insertNew hw.nodup hc, ?_⟩
      intro p hp
      simp only [AMap.insertNew, List.mem_append, List.mem_singleton] at hp
      rcases hp with hp | hp
      · exact hw.home p hp
      · subst hp; exact ⟨rfl, Schema.new_wf s⟩
  | dropSchema s =>
    simp only [Change.apply, Database.removeSchema] at h
    cases hc : d.schemas.get? s with
    | none => simp [hc] at h
    | some x =>
      simp only [hc, Except.ok.injEq] at h
      subst h
      exact ⟨AMap.nodupKeys_erase hw.nodup s, fun p hp => hw.home p (AMap.mem_erase.1 hp).1⟩
  | createTable s t cols =>
    refine withSchema_wf hw (fun sc sc' _ h1 h2 h3 => ?_) h
    split at h3
    · cases h3
    · next tb hb =>
      have := buildColumns_wf (Table.new_wf s t) rfl rfl hb
      exact addRelation_wf h1 (by exact this.2.1.trans h2.symm) (by exact this.1) h3
  | dropTable s t => exact withSchema_wf hw (fun sc sc' _ h1 h2 h3 => removeRelation_wf h1 h3) h
  | addColumn s t c ty nn df =>
    refine dbWithTable_wf hw (fun tb tb' h1 h2 h3 h4 => ?_) h
    have := addColumn_wf h1 (by exact h2.symm) (by exact h3.symm) h4
    exact ⟨this.1, this.2.1.trans h2, this.2.2.trans h3⟩
  | setDataType s t c ty =>
    refine dbWithTable_wf hw (fun tb tb' h1 h2 h3 h4 => ?_) h
    have := modifyColumn_wf h1 (by exact fun _ => ⟨rfl, rfl, rfl⟩) h4
    exact ⟨this.1, this.2.1.trans h2, this.2.2.trans h3⟩
  | setDefault s t c ty =>
    refine dbWithTable_wf hw (fun tb tb' h1 h2 h3 h4 => ?_) h
    have := modifyColumn_wf h1 (by exact fun _ => ⟨rfl, rfl, rfl⟩) h4
    exact ⟨this.1, this.2.1.trans h2, this.2.2.trans h3⟩
  | setNotNull s t c ty =>
    refine dbWithTable_wf hw (fun tb tb' h1 h2 h3 h4 => ?_) h
    have := modifyColumn_wf h1 (by exact fun _ => ⟨rfl, rfl, rfl⟩) h4
    exact ⟨this.1, this.2.1.trans h2, this.2.2.trans h3⟩
  | dropColumn s t c =>
    refine dbWithTable_wf hw (fun tb tb' h1 h2 h3 h4 => ?_) h
    split at h4
    · cases h4
    · next col t1 hr =>
      simp only [Except.ok.injEq] at h4
      subst h4
      have := removeColumn_wf h1 hr
      exact ⟨this.1, this.2.1.trans h2, this.2.2.1.trans h3⟩
  | renameColumn s t a b =>
    refine dbWithTable_wf hw (fun tb tb' h1 h2 h3 h4 => ?_) h
    have := renameColumn_wf h1 h4
    exact ⟨this.1, this.2.1.trans h2, this.2.2.trans h3⟩
  | addPrimaryKey s t c cols df ini =>
    refine dbWithTable_wf hw (fun tb tb' h1 h2 h3 h4 => ?_) h
    have := addConstraint_wf h1 (by exact h2.symm) (by exact h3.symm) h4
    exact ⟨this.1, this.2.1.trans h2, this.2.2.trans h3⟩
  | addUnique s t c cols df ini =>
    refine dbWithTable_wf hw (fun tb tb' h1 h2 h3 h4 => ?_) h
    have := addConstraint_wf h1 (by exact h2.symm) (by exact h3.symm) h4
    exact ⟨this.1, this.2.1.trans h2, this.2.2.trans h3⟩
  | addForeignKey s t c cols ts tt tcols mo ur dr df ini =>
    refine dbWithTable_wf hw (fun tb tb' h1 h2 h3 h4 => ?_) h
    have := addConstraint_wf h1 (by exact h2.symm) (by exact h3.symm) h4
    exact ⟨this.1, this.2.1.trans h2, this.2.2.trans h3⟩
  | addCheck s t c ex df ini =>
    refine dbWithTable_wf hw (fun tb tb' h1 h2 h3 h4 => ?_) h
    have := addConstraint_wf h1 (by exact h2.symm) (by exact h3.symm) h4
    exact ⟨this.1, this.2.1.trans h2, this.2.2.trans h3⟩
  | alterPrimaryKey s t c df ini =>
    refine dbWithTable_wf hw (fun tb tb' h1 h2 h3 h4 => ?_) h
    have := alterConstraint_wf h1 (fun c c' hc => by
      cases c <;> simp [Constraint.asPrimaryKey] at hc
      subst hc; exact ⟨rfl, rfl, rfl⟩) h4
    exact ⟨this.1, this.2.1.trans h2, this.2.2.trans h3⟩
  | alterUnique s t c df ini =>
    refine dbWithTable_wf hw (fun tb tb' h1 h2 h3 h4 => ?_) h
    have := alterConstraint_wf h1 (fun c c' hc => by
      cases c <;> simp [Constraint.asUnique] at hc
      subst hc; exact ⟨rfl, rfl, rfl⟩) h4
    exact ⟨this.1, this.2.1.trans h2, this.2.2.trans h3⟩
  | alterForeignKey s t c df ini =>
    refine dbWithTable_wf hw (fun tb tb' h1 h2 h3 h4 => ?_) h
    have := alterConstraint_wf h1 (fun c c' hc => by
      cases c <;> simp [Constraint.asForeignKey] at hc
      subst hc; exact ⟨rfl, rfl, rfl⟩) h4
    exact ⟨this.1, this.2.1.trans h2, this.2.2.trans h3⟩
  | alterCheck s t c df ini =>
    refine dbWithTable_wf hw (fun tb tb' h1 h2 h3 h4 => ?_) h
    have := alterConstraint_wf h1 (fun c c' hc => by
      cases c <;> simp [Constraint.asCheck] at hc
      subst hc; exact ⟨rfl, rfl, rfl⟩) h4
    exact ⟨this.1, this.2.1.trans h2, this.2.2.trans h3⟩
  | dropPrimaryKey s t c =>
    refine dbWithTable_wf hw (fun tb tb' h1 h2 h3 h4 => ?_) h
    have := dropConstraint_wf h1 h4
    exact ⟨this.1, this.2.1.trans h2, this.2.2.trans h3⟩
  | dropUnique s t c =>
    refine dbWithTable_wf hw (fun tb tb' h1 h2 h3 h4 => ?_) h
    have := dropConstraint_wf h1 h4
    exact ⟨this.1, this.2.1.trans h2, this.2.2.trans h3⟩
  | dropForeignKey s t c =>
    refine dbWithTable_wf hw (fun tb tb' h1 h2 h3 h4 => ?_) h
    have := dropConstraint_wf h1 h4
    exact ⟨this.1, this.2.1.trans h2, this.2.2.trans h3⟩
  | dropCheck s t c =>
    refine dbWithTable_wf hw (fun tb tb' h1 h2 h3 h4 => ?_) h
    have := dropConstraint_wf h1 h4
    exact ⟨this.1, this.2.1.trans h2, this.2.2.trans h3⟩
  | createFunction s f b l r v =>
    exact withSchema_wf hw (fun sc sc' _ h1 h2 h3 => addFunction_wf h1 (by exact h2.symm) h3) h
  | dropFunction s f =>
    exact withSchema_wf hw (fun sc sc' _ h1 h2 h3 => removeFunction_wf h1 h3) h
  | createView s v q =>
    exact withSchema_wf hw
      (fun sc sc' _ h1 h2 h3 => addRelation_wf h1 (by exact h2.symm) (by exact trivial) h3) h
  | dropView s v => exact withSchema_wf hw (fun sc sc' _ h1 h2 h3 => dropRelationAs_wf h1 h3) h
  | createIndex s t i u m ks =>
    refine withSchema_wf hw (fun sc sc' _ h1 h2 h3 => ?_) h
    split at h3
    · cases h3
    · split at h3
      · cases h3
      · exact addRelation_wf h1 (by exact h2.symm) (by exact trivial) h3
  | dropIndex s v => exact withSchema_wf hw (fun sc sc' _ h1 h2 h3 => dropRelationAs_wf h1 h3) h
  | createSequence s q ty inc mn mx st ca cy =>
    exact withSchema_wf hw
      (fun sc sc' _ h1 h2 h3 => addRelation_wf h1 (by exact h2.symm) (by exact trivial) h3) h
  | dropSequence s v =>
    exact withSchema_wf hw (fun sc sc' _ h1 h2 h3 => dropRelationAs_wf h1 h3) h

theorem Database.new_wf : Database.new.WF := ⟨by simp [Database.new], by simp [Database.new]⟩

theorem applyAll_wf {cs : List Change} {d d' : Database} (hw : d.WF)
    (h : Change.applyAll cs d = .ok d') : d'.WF := by
  induction cs generalizing d with
  | nil => simp only [Change.applyAll, Except.ok.injEq] at h; exact h ▸ hw
  | cons c cs ih =>
    simp only [Change.applyAll] at h
    split at h
    · cases h
    · next d1 h1 => exact ih (apply_wf hw h1) h

/-- Lists of changes refine lists of effects. -/
theorem applyAll_refines (cs : List Change) (d : Database) (hd : d.WF) :
    okMap Database.content (Change.applyAll cs d) = Spec.effects cs d.content := by
  induction cs generalizing d with
  | nil => rfl
  | cons c cs ih =>
    have h := apply_refines c d hd
    simp only [Change.applyAll, Spec.effects]
    cases ha : c.apply d with
    | error e => rw [ha] at h; simp only [okMap_error] at h; simp [← h]
    | ok d1 =>
      rw [ha] at h; simp only [okMap_ok] at h
      simp only [← h, Option.bind_some, ih d1 (apply_wf hd ha)]

theorem applyAll_append (xs ys : List Change) (d : Database) :
    Change.applyAll (xs ++ ys) d = (match Change.applyAll xs d with
      | .error e => .error e
      | .ok d' => Change.applyAll ys d') := by
  induction xs generalizing d with
  | nil => rfl
  | cons c xs ih =>
    simp only [List.cons_append, Change.applyAll]
    cases c.apply d with
    | error e => rfl
    | ok d' => exact ih d'

end Podo
