import Verif.Proofs.Frame
import Verif.Spec.Lossy
/-
The revert of a change undoes it, except in the lossy cases.
-/
set_option linter.unusedSimpArgs false
namespace Podo
open Spec

/-! ### Undoing, combinator by combinator -/

theorem undo_putNew {α : Type} {m m' : String → Option α} {k : String} {v : α} {p : α → Bool}
    (h : putNew m k v = some m') (hp : p v = true) : remove p m' k = some m := by
  obtain ⟨h1, rfl⟩ := putNew_some h
  simp only [remove, upd_same, hp, if_true, upd_upd]
  rw [upd_eq_self m k h1]

theorem undo_remove {α : Type} {m m' : String → Option α} {k : String} {v : α} {p : α → Bool}
    (h : remove p m k = some m') (hv : m k = some v) : putNew m' k v = some m := by
  obtain ⟨_, rfl⟩ := remove_some h
  simp only [putNew, upd_same, upd_upd]
  rw [upd_eq_self m k hv]

theorem undo_alter {α : Type} {m m' : String → Option α} {k : String} {v : α} {f g : α → Option α}
    (h : alter f m k = some m') (hv : m k = some v) (hg : ∀ w, f v = some w → g w = some v) :
    alter g m' k = some m := by
  obtain ⟨x, y, h1, h2, rfl⟩ := alter_some h
  rw [hv] at h1; cases h1
  simp only [alter, upd_same, hg y h2, Option.map_some, upd_upd]
  rw [upd_eq_self m k hv]

theorem undo_inSchema {C C' : Content} {s : String} {sc : SchemaContent}
    {f g : SchemaContent → Option SchemaContent} (h : inSchema C s f = some C')
    (hs : C s = some sc) (hg : ∀ w, f sc = some w → g w = some sc) :
    inSchema C' s g = some C := undo_alter h hs hg

theorem undo_onRels {f g : (String → Option RelContent) → Option (String → Option RelContent)}
    {sc : SchemaContent} (hg : ∀ w, f sc.relations = some w → g w = some sc.relations) :
    ∀ w, onRels f sc = some w → onRels g w = some sc := by
  intro w h
  obtain ⟨m, h1, rfl⟩ := onRels_some h
  simp only [onRels, hg m h1, Option.map_some]

theorem undo_onFuns {f g : (String → Option Function) → Option (String → Option Function)}
    {sc : SchemaContent} (hg : ∀ w, f sc.functions = some w → g w = some sc.functions) :
    ∀ w, onFuns f sc = some w → onFuns g w = some sc := by
  intro w h
  obtain ⟨m, h1, rfl⟩ := onFuns_some h
  simp only [onFuns, hg m h1, Option.map_some]

theorem undo_onCols {f g : (String → Option Column) → Option (String → Option Column)}
    {tb : TableContent} (hg : ∀ w, f tb.columns = some w → g w = some tb.columns) :
    ∀ w, onCols f tb = some w → onCols g w = some tb := by
  intro w h
  obtain ⟨m, h1, rfl⟩ := onCols_some h
  simp only [onCols, hg m h1, Option.map_some]

theorem undo_onCons {f g : (String → Option Constraint) → Option (String → Option Constraint)}
    {tb : TableContent} (hg : ∀ w, f tb.constraints = some w → g w = some tb.constraints) :
    ∀ w, onCons f tb = some w → onCons g w = some tb := by
  intro w h
  obtain ⟨m, h1, rfl⟩ := onCons_some h
  simp only [onCons, hg m h1, Option.map_some]

theorem undo_inTable {C C' : Content} {s t : String} {sc : SchemaContent} {tb : TableContent}
    {f g : TableContent → Option TableContent} (h : inTable C s t f = some C')
    (hs : C s = some sc) (ht : sc.relations t = some (.table tb))
    (hg : ∀ w, f tb = some w → g w = some tb) : inTable C' s t g = some C := by
  refine undo_inSchema h hs (undo_onRels fun w hw => undo_alter hw ht ?_)
  intro x hx
  simp only [Option.map_eq_some_iff] at hx
  obtain ⟨y, hy, rfl⟩ := hx
  simp only [hg y hy, Option.map_some]

/-! ### Looking objects up in the model -/

theorem content_schema {d : Database} {s : String} {c : SchemaContent}
    (h : d.content s = some c) : ∃ sc, d.schemas.get? s = some sc ∧ sc.content = c := by
  simpa [Database.content, Option.map_eq_some_iff] using h

theorem content_rel {sc : Schema} {r : String} {c : RelContent}
    (h : sc.content.relations r = some c) :
    ∃ rel, sc.relations.get? r = some rel ∧ rel.content = c := by
  simpa [Schema.content, Option.map_eq_some_iff] using h

theorem content_table {sc : Schema} {r : String} {c : TableContent}
    (h : sc.content.relations r = some (.table c)) :
    ∃ tb, sc.relations.get? r = some (.table tb) ∧ tb.content = c := by
  obtain ⟨rel, h1, h2⟩ := content_rel h
  cases rel with
  | table tb => simp only [Relation.content, RelContent.table.injEq] at h2; exact ⟨tb, h1, h2⟩
  | view _ => simp [Relation.content] at h2
  | index _ => simp [Relation.content] at h2
  | sequence _ => simp [Relation.content] at h2

theorem lookSchema_of {d : Database} {s : String} {sc : Schema} (h : d.schemas.get? s = some sc)
    (k : Schema → SResult Change) : Change.lookSchema d s k = k sc := by
  simp [Change.lookSchema, Database.getSchema, h]

theorem lookTable_of {d : Database} {s t : String} {sc : Schema} {tb : Table}
    (h : d.schemas.get? s = some sc) (h' : sc.relations.get? t = some (.table tb))
    (k : Schema → Table → SResult Change) : Change.lookTable d s t k = k sc tb := by
  simp [Change.lookTable, lookSchema_of h, Schema.getRelation, h', Relation.asTable]

theorem lookColumn_of {d : Database} {s t c : String} {sc : Schema} {tb : Table} {col : Column}
    (h : d.schemas.get? s = some sc) (h' : sc.relations.get? t = some (.table tb))
    (hc : tb.content.columns c = some col)
    (k : Schema → Table → Column → SResult Change) : Change.lookColumn d s t c k = k sc tb col := by
  have hc' : Table.findCol tb.columns c = some col := by rw [findCol_eq_columnNamed]; exact hc
  simp [Change.lookColumn, lookTable_of h h', Table.getColumn, hc']

theorem lookConstraint_of {α : Type} {d : Database} {s t c : String} {sc : Schema} {tb : Table}
    {con : Constraint} {x : α} {as : Constraint → SResult α}
    (h : d.schemas.get? s = some sc) (h' : sc.relations.get? t = some (.table tb))
    (hc : tb.content.constraints c = some con) (ha : as con = .ok x)
    (k : Schema → Table → α → SResult Change) :
    Change.lookConstraint d s t c as k = k sc tb x := by
  have hc' : tb.constraints.get? c = some con := hc
  simp [Change.lookConstraint, lookTable_of h h', Table.getConstraint, hc', ha]

theorem lookRelation_of {α : Type} {d : Database} {s r : String} {sc : Schema}
    {rel : Relation} {x : α} {as : Relation → SResult α}
    (h : d.schemas.get? s = some sc) (h' : sc.relations.get? r = some rel) (ha : as rel = .ok x)
    (k : Schema → α → SResult Change) : Change.lookRelation d s r as k = k sc x := by
  simp [Change.lookRelation, lookSchema_of h, Schema.getRelation, h', ha]

/-- Everything a successful change inside a table tells us. -/
structure InTable (d : Database) (s t : String) (sc : Schema) (tb : Table) : Prop where
  schema : d.schemas.get? s = some sc
  table : sc.relations.get? t = some (.table tb)
  sname : sc.name = s
  tname : tb.name = t
  swf : sc.WF
  twf : tb.WF
  home : tb.schemaName = s
  cs : d.content s = some sc.content
  ct : sc.content.relations t = some (.table tb.content)

theorem inTable_model {d : Database} (hd : d.WF) {s t : String} {C' : Content}
    {f : TableContent → Option TableContent} (h : inTable d.content s t f = some C') :
    ∃ sc tb, InTable d s t sc tb ∧ ∃ w, f tb.content = some w := by
  obtain ⟨scC, tbC, tb', h1, h2, h3, _⟩ := inTable_some h
  obtain ⟨sc, hs, rfl⟩ := content_schema h1
  obtain ⟨tb, ht, rfl⟩ := content_table h2
  have hsc := hd.schema hs
  have hr := hsc.2.relation ht
  refine ⟨sc, tb, ⟨hs, ht, hsc.1, hr.1, hsc.2, hr.2.2, ?_, h1, h2⟩, tb', h3⟩
  exact hr.2.1.trans hsc.1

theorem inSchema_model {d : Database} (hd : d.WF) {s : String} {C' : Content}
    {f : SchemaContent → Option SchemaContent} (h : inSchema d.content s f = some C') :
    ∃ sc, d.schemas.get? s = some sc ∧ sc.name = s ∧ sc.WF ∧ d.content s = some sc.content
      ∧ ∃ w, f sc.content = some w := by
  obtain ⟨scC, w, h1, h2, _⟩ := inSchema_some h
  obtain ⟨sc, hs, rfl⟩ := content_schema h1
  exact ⟨sc, hs, (hd.schema hs).1, (hd.schema hs).2, h1, w, h2⟩

theorem columnNamed_new (tb : Table) (hw : tb.WF) :
    columnNamed ((tb.columns.map fun c => NewColumn.mk c.name c.dataType c.notNull c.default).map
      fun n => Column.mk tb.schemaName tb.name n.name n.dataType n.notNull n.default)
      = columnNamed tb.columns := by
  have : ((tb.columns.map fun c => NewColumn.mk c.name c.dataType c.notNull c.default).map
      fun n => Column.mk tb.schemaName tb.name n.name n.dataType n.notNull n.default)
      = tb.columns := by
    rw [List.map_map]
    conv => rhs; rw [← List.map_id tb.columns]
    apply List.map_congr_left
    intro c hc
    have := hw.cols_home c hc
    obtain ⟨a, b, n, ty, nn, df⟩ := c
    simp only at this
    simp [this.1, this.2]
  rw [this]

/-- The revert recorded before a change, applied after it, restores the content. -/
theorem revert_effect {c : Change} {d : Database} {C' : Content} (hd : d.WF)
    (h : effect c d.content = some C') (hl : ¬ Lossy d.content c) :
    ∃ r, c.revert d = .ok r ∧ effect r C' = some d.content := by
  cases c with
  | createSchema s => exact ⟨_, rfl, undo_putNew h rfl⟩
  | dropSchema s =>
    refine ⟨_, rfl, ?_⟩
    obtain ⟨⟨scC, h1, _⟩, _⟩ := remove_some h
    obtain ⟨sc, hs, rfl⟩ := content_schema h1
    have hn := (hd.schema hs).1
    have e : sc.content = ⟨s, fun _ => none, fun _ => none⟩ := by
      have hr : ∀ r, sc.content.relations r = none := fun r =>
        Classical.byContradiction fun e => hl ⟨_, h1, Or.inl ⟨r, e⟩⟩
      have hf : ∀ r, sc.content.functions r = none := fun r =>
        Classical.byContradiction fun e => hl ⟨_, h1, Or.inr ⟨r, e⟩⟩
      have h3 : sc.content = ⟨sc.content.name, sc.content.relations, sc.content.functions⟩ := rfl
      have h4 : sc.content.name = s := hn
      rw [h3, h4, funext hr, funext hf]
    exact undo_remove h (h1.trans (by rw [e]))
  | createTable s t cols =>
    obtain ⟨sc, hs, hn, hw, hC, w, hw'⟩ := inSchema_model hd h
    refine ⟨_, lookSchema_of hs _, ?_⟩
    simp only [hn]
    refine undo_inSchema h hC (undo_onRels fun w hw => ?_)
    by_cases hnd : (cols.map NewColumn.name).Nodup
    · rw [if_pos hnd] at hw; exact undo_putNew hw rfl
    · rw [if_neg hnd] at hw; cases hw
  | dropTable s t =>
    obtain ⟨sc, hs, hn, hw, hC, w, hw'⟩ := inSchema_model hd h
    obtain ⟨m, hm, _⟩ := onRels_some hw'
    obtain ⟨⟨rC, hr, _⟩, _⟩ := remove_some hm
    have : ∃ tb, rC = .table tb ∧ ∀ c, tb.constraints c = none := by
      refine Classical.byContradiction fun hne => hl ⟨_, rC, hC, hr, ?_⟩
      intro tb htb
      refine Classical.byContradiction fun hne' => hne ⟨tb, htb, fun c => ?_⟩
      exact Classical.byContradiction fun e => hne' ⟨c, e⟩
    obtain ⟨tbC, rfl, hcon⟩ := this
    obtain ⟨tb, ht, rfl⟩ := content_table hr
    have hrel := hw.relation ht
    refine ⟨_, lookTable_of hs ht _, ?_⟩
    have e1 : tb.schemaName = s := hrel.2.1.trans hn
    have e2 : tb.name = t := hrel.1
    have htw : tb.WF := hrel.2.2
    simp only [Change.newCreateTable, effect, e1]
    refine undo_inSchema h hC (undo_onRels fun w hw => ?_)
    have hnd : ((tb.columns.map fun c => NewColumn.mk c.name c.dataType c.notNull c.default).map
        NewColumn.name).Nodup := by
      rw [List.map_map]; exact htw.cols_nodup
    rw [if_pos hnd]
    have e3 := columnNamed_new tb htw
    simp only [e1, e2] at e3 ⊢
    rw [e3]
    refine undo_remove hw (hr.trans ?_)
    have h3 : tb.content = ⟨tb.content.schemaName, tb.content.name, tb.content.columns,
      tb.content.constraints⟩ := rfl
    have h4 : tb.content.schemaName = s := e1
    have h5 : tb.content.name = t := e2
    rw [h3, h4, h5, funext hcon]
    rfl
  | addColumn s t c ty nn df =>
    obtain ⟨sc, tb, I, w, hw⟩ := inTable_model hd h
    refine ⟨_, lookTable_of I.schema I.table _, ?_⟩
    simp only [I.sname, I.tname]
    exact undo_inTable h I.cs I.ct (undo_onCols fun w hw => undo_putNew hw rfl)
  | setDataType s t c ty | setDefault s t c ty | setNotNull s t c ty =>
    obtain ⟨sc, tb, I, w, hw⟩ := inTable_model hd h
    obtain ⟨m, hm, _⟩ := onCols_some hw
    obtain ⟨x, y, hx, hy, _⟩ := alter_some hm
    have hxn : x.name = c := columnNamed_name hx
    refine ⟨_, lookColumn_of I.schema I.table hx _, ?_⟩
    simp only [I.sname, I.tname, hxn]
    refine undo_inTable h I.cs I.ct (undo_onCols fun w hw => undo_alter hw hx ?_)
    intro w hw
    cases hw; rfl
  | dropColumn s t c =>
    obtain ⟨sc, tb, I, w, hw⟩ := inTable_model hd h
    obtain ⟨m, hm, _⟩ := onCols_some hw
    obtain ⟨⟨x, hx, _⟩, _⟩ := remove_some hm
    have hxn : x.name = c := columnNamed_name hx
    have hh := I.twf.cols_home x (columnNamed_mem hx)
    refine ⟨_, lookColumn_of I.schema I.table hx _, ?_⟩
    simp only [I.sname, I.tname, hxn]
    refine undo_inTable h I.cs I.ct (undo_onCols fun w hw => ?_)
    have e : Column.mk s t c x.dataType x.notNull x.default = x := by
      obtain ⟨a, b, n, ty, nn, df⟩ := x
      simp only at hh hxn ⊢
      rw [hh.1, hh.2, hxn, I.home, I.tname]
    rw [e]
    exact undo_remove hw hx
  | renameColumn s t a b =>
    have hab : a = b := Classical.byContradiction fun e => hl e
    subst hab
    obtain ⟨sc, tb, I, w, hw⟩ := inTable_model hd h
    obtain ⟨m, hm, _⟩ := onCols_some hw
    cases hx : tb.content.columns a with
    | none => simp [hx] at hm
    | some x =>
      have hxn : x.name = a := columnNamed_name hx
      refine ⟨_, lookColumn_of I.schema I.table hx _, ?_⟩
      simp only [I.sname, I.tname, hxn]
      refine undo_inTable h I.cs I.ct (undo_onCols fun w hw => ?_)
      simp only [hx] at hw
      have e : ({ x with name := a } : Column) = x := by rw [← hxn]
      rw [e] at hw
      obtain ⟨_, rfl⟩ := putNew_some hw
      simp only [upd_upd, upd_same, e, putNew]
      rw [upd_eq_self _ a hx]
  | addPrimaryKey s t c | addUnique s t c | addForeignKey s t c | addCheck s t c =>
    obtain ⟨sc, tb, I, w, hw⟩ := inTable_model hd h
    refine ⟨_, lookTable_of I.schema I.table _, ?_⟩
    simp only [I.sname, I.tname]
    exact undo_inTable h I.cs I.ct (undo_onCons fun w hw => undo_putNew hw rfl)
  | alterPrimaryKey s t c | alterUnique s t c | alterForeignKey s t c | alterCheck s t c =>
    obtain ⟨sc, tb, I, w, hw⟩ := inTable_model hd h
    obtain ⟨m, hm, _⟩ := onCons_some hw
    obtain ⟨x, y, hx, hy, _⟩ := alter_some hm
    have hxn := (I.twf.constraint hx).1
    cases x <;> simp only [reduceCtorEq] at hy
    refine ⟨_, lookConstraint_of I.schema I.table hx rfl _, ?_⟩
    simp only [Constraint.name] at hxn
    simp only [I.sname, I.tname, hxn]
    refine undo_inTable h I.cs I.ct (undo_onCons fun w hw => undo_alter hw hx ?_)
    intro w hw
    cases hw; rfl
  | dropPrimaryKey s t c | dropUnique s t c | dropForeignKey s t c | dropCheck s t c =>
    obtain ⟨sc, tb, I, w, hw⟩ := inTable_model hd h
    obtain ⟨m, hm, _⟩ := onCons_some hw
    obtain ⟨⟨x, hx, hp⟩, _⟩ := remove_some hm
    have hxn := I.twf.constraint hx
    cases x <;> simp only [isPrimaryKey, isUnique, isForeignKey, isCheck, Bool.false_eq_true] at hp
    rename_i k
    refine ⟨_, lookConstraint_of I.schema I.table hx rfl _, ?_⟩
    simp only [Constraint.name, Constraint.schemaName, Constraint.tableName] at hxn
    (try simp only [I.sname, I.tname, hxn.1])
    refine undo_inTable h I.cs I.ct (undo_onCons fun w hw => ?_)
    refine undo_remove hw (hx.trans ?_)
    have h1 := hxn.1
    have h2 := hxn.2.1.trans I.home
    have h3 := hxn.2.2.trans I.tname
    cases k
    simp only at h1 h2 h3
    subst h1 h2 h3
    rfl
  | createFunction s f =>
    obtain ⟨sc, hs, hn, hw, hC, w, hw'⟩ := inSchema_model hd h
    refine ⟨_, lookSchema_of hs _, ?_⟩
    simp only [hn]
    exact undo_inSchema h hC (undo_onFuns fun w hw => undo_putNew hw rfl)
  | dropFunction s f =>
    obtain ⟨sc, hs, hn, hw, hC, w, hw'⟩ := inSchema_model hd h
    obtain ⟨m, hm, _⟩ := onFuns_some hw'
    obtain ⟨⟨x, hx, _⟩, _⟩ := remove_some hm
    have hx' : sc.functions.get? f = some x := hx
    have hh := hw.function hx'
    refine ⟨.createFunction sc.name f x.body x.language x.returns x.volatility, ?_, ?_⟩
    · simp only [Change.revert, lookSchema_of hs, Schema.getFunction, hx']
    · simp only [hn]
      refine undo_inSchema h hC (undo_onFuns fun w hw => undo_remove hw (hx.trans ?_))
      cases x
      simp only at hh
      rw [hh.1, hh.2, hn]
  | createView s v | createSequence s v =>
    obtain ⟨sc, hs, hn, hw, hC, w, hw'⟩ := inSchema_model hd h
    refine ⟨_, lookSchema_of hs _, ?_⟩
    simp only [hn]
    exact undo_inSchema h hC (undo_onRels fun w hw => undo_putNew hw rfl)
  | createIndex s t i =>
    obtain ⟨sc, hs, hn, hw, hC, w, hw'⟩ := inSchema_model hd h
    refine ⟨_, lookSchema_of hs _, ?_⟩
    simp only [hn]
    refine undo_inSchema h hC (undo_onRels fun w hw => ?_)
    split at hw
    · exact undo_putNew hw rfl
    · cases hw
  | dropView s v =>
    obtain ⟨sc, hs, hn, hw, hC, w, hw'⟩ := inSchema_model hd h
    obtain ⟨m, hm, _⟩ := onRels_some hw'
    obtain ⟨⟨rC, hr, hp⟩, _⟩ := remove_some hm
    obtain ⟨rel, hrel, rfl⟩ := content_rel hr
    cases rel <;> simp only [Relation.content, isView, Bool.false_eq_true] at hp
    rename_i x
    have hh := hw.relation hrel
    refine ⟨_, lookRelation_of hs hrel rfl _, ?_⟩
    refine undo_inSchema h hC (undo_onRels fun w hw => undo_remove hw (hr.trans ?_))
    cases x
    simp only [Relation.name, Relation.schemaName] at hh
    simp only [Relation.content, hh.1, hh.2.1, hn]
  | dropIndex s v =>
    obtain ⟨sc, hs, hn, hw, hC, w, hw'⟩ := inSchema_model hd h
    obtain ⟨m, hm, _⟩ := onRels_some hw'
    obtain ⟨⟨rC, hr, hp⟩, hm'⟩ := remove_some hm
    obtain ⟨rel, hrel, rfl⟩ := content_rel hr
    cases rel <;> simp only [Relation.content, isIndex, Bool.false_eq_true] at hp
    rename_i x
    have hh := hw.relation hrel
    simp only [Relation.name, Relation.schemaName] at hh
    have htab : ∃ tb, sc.content.relations x.tableName = some (.table tb) :=
      Classical.byContradiction fun e =>
        hl ⟨_, x, hC, hr, fun tb htb => e ⟨tb, htb⟩⟩
    obtain ⟨tb, htab⟩ := htab
    refine ⟨_, lookRelation_of hs hrel rfl _, ?_⟩
    simp only [hn, hh.1]
    refine undo_inSchema h hC (undo_onRels fun w hw => ?_)
    have hne : x.tableName ≠ v := fun e => by
      rw [e, hr] at htab; simp [Relation.content] at htab
    have hwt : w x.tableName = some (.table tb) := by
      rw [(remove_some hw).2, upd_ne _ _ hne]; exact htab
    simp only [hwt]
    refine undo_remove hw (hr.trans ?_)
    cases x
    simp only at hh
    simp only [Relation.content, hh.1, hh.2.1, hn]
  | dropSequence s v =>
    obtain ⟨sc, hs, hn, hw, hC, w, hw'⟩ := inSchema_model hd h
    obtain ⟨m, hm, _⟩ := onRels_some hw'
    obtain ⟨⟨rC, hr, hp⟩, hm'⟩ := remove_some hm
    obtain ⟨rel, hrel, rfl⟩ := content_rel hr
    cases rel <;> simp only [Relation.content, isSequence, Bool.false_eq_true] at hp
    rename_i x
    have hh := hw.relation hrel
    simp only [Relation.name, Relation.schemaName] at hh
    have ho : x.ownedByTable = none ∧ x.ownedByColumn = none := by
      constructor
      · exact Classical.byContradiction fun e => hl ⟨_, x, hC, hr, Or.inl e⟩
      · exact Classical.byContradiction fun e => hl ⟨_, x, hC, hr, Or.inr e⟩
    refine ⟨_, lookRelation_of hs hrel rfl _, ?_⟩
    simp only [Change.newCreateSequence, hn, hh.1, hh.2.1]
    refine undo_inSchema h hC (undo_onRels fun w hw => undo_remove hw (hr.trans ?_))
    cases x
    simp only at hh ho
    simp only [Relation.content, hh.1, hh.2.1, hn, ho.1, ho.2]

/-- In the lossy cases the recorded revert never restores the content. -/
theorem revert_lossy {c r : Change} {d : Database} {C' : Content} (hd : d.WF)
    (h : effect c d.content = some C') (hl : Lossy d.content c) (hr : c.revert d = .ok r) :
    effect r C' ≠ some d.content := by
  intro hu
  cases c with
  | renameColumn s t a b =>
    obtain ⟨sc, tb, I, w, hw⟩ := inTable_model hd h
    obtain ⟨m, hm, _⟩ := onCols_some hw
    cases hx : tb.content.columns a with
    | none => simp [hx] at hm
    | some x =>
      simp only [hx] at hm
      obtain ⟨hb, _⟩ := putNew_some hm
      rw [upd_ne _ _ (Ne.symm hl)] at hb
      have hb' : Table.findCol tb.columns b = none := by rw [findCol_eq_columnNamed]; exact hb
      simp [Change.revert, Change.lookColumn, lookTable_of I.schema I.table, Table.getColumn,
        hb'] at hr
  | dropSchema s =>
    cases hr
    obtain ⟨sc, h1, h2⟩ := hl
    rw [(putNew_some hu).2, upd_same] at h1
    cases h1
    rcases h2 with ⟨x, hx⟩ | ⟨x, hx⟩ <;> exact hx rfl
  | dropTable s t =>
    obtain ⟨scC, rC, h1, h2, h3⟩ := hl
    obtain ⟨sc, hs, rfl⟩ := content_schema h1
    obtain ⟨rel, hrel, rfl⟩ := content_rel h2
    cases rel with
    | table tb =>
      obtain ⟨c, hc⟩ := h3 tb.content rfl
      have hh := (hd.schema hs).2.relation hrel
      have hn := (hd.schema hs).1
      simp only [Change.revert, lookTable_of hs hrel, Except.ok.injEq] at hr
      subst hr
      simp only [Change.newCreateTable, effect] at hu
      obtain ⟨s1, s2, k1, k2, k3⟩ := inSchema_some hu
      obtain ⟨m, k4, k5⟩ := onRels_some k2
      rw [k3, k5] at h1
      have e1 : tb.schemaName = s := hh.2.1.trans hn
      rw [e1, upd_same] at h1
      have e2 := congrArg (fun x => x.bind fun y => SchemaContent.relations y t) h1
      simp only [Option.bind_some] at e2
      split at k4
      · obtain ⟨_, rfl⟩ := putNew_some k4
        have e3 : tb.name = t := hh.1
        rw [e3, upd_same, h2] at e2
        simp only [Relation.content, Option.some.injEq, RelContent.table.injEq] at e2
        apply hc
        rw [← e2]
      · cases k4
    | view x => simp [Change.revert, Change.lookTable, lookSchema_of hs, Schema.getRelation, hrel,
        Relation.asTable] at hr
    | index x => simp [Change.revert, Change.lookTable, lookSchema_of hs, Schema.getRelation, hrel,
        Relation.asTable] at hr
    | sequence x => simp [Change.revert, Change.lookTable, lookSchema_of hs, Schema.getRelation,
        hrel, Relation.asTable] at hr
  | dropSequence s q =>
    obtain ⟨scC, x, h1, h2, h3⟩ := hl
    obtain ⟨sc, hs, rfl⟩ := content_schema h1
    obtain ⟨rel, hrel, hrc⟩ := content_rel h2
    cases rel <;> simp only [Relation.content, reduceCtorEq, RelContent.sequence.injEq] at hrc
    subst hrc
    rename_i x
    have hh := (hd.schema hs).2.relation hrel
    have hn := (hd.schema hs).1
    simp only [Change.revert, lookRelation_of hs hrel (as := Relation.asSequence) (x := x) rfl,
      Except.ok.injEq] at hr
    subst hr
    simp only [Change.newCreateSequence, effect] at hu
    obtain ⟨s1, s2, k1, k2, k3⟩ := inSchema_some hu
    obtain ⟨m, k4, k5⟩ := onRels_some k2
    have e1 : x.schemaName = s := hh.2.1.trans hn
    rw [k3, k5, e1, upd_same] at h1
    have e2 := congrArg (fun x => x.bind fun y => SchemaContent.relations y q) h1
    simp only [Option.bind_some] at e2
    obtain ⟨_, rfl⟩ := putNew_some k4
    have e3 : x.name = q := hh.1
    rw [e3, upd_same, h2] at e2
    simp only [Option.some.injEq, RelContent.sequence.injEq] at e2
    rw [← e2] at h3
    simp at h3
  | dropIndex s i =>
    obtain ⟨scC, x, h1, h2, h3⟩ := hl
    obtain ⟨sc, hs, rfl⟩ := content_schema h1
    obtain ⟨rel, hrel, hrc⟩ := content_rel h2
    cases rel <;> simp only [Relation.content, reduceCtorEq, RelContent.index.injEq] at hrc
    subst hrc
    rename_i x
    have hn := (hd.schema hs).1
    simp only [Change.revert, lookRelation_of hs hrel (as := Relation.asIndex) (x := x) rfl,
      Except.ok.injEq] at hr
    subst hr
    obtain ⟨s0, s0', j1, j2, j3⟩ := inSchema_some h
    rw [h1] at j1; cases j1
    obtain ⟨m0, j4, j5⟩ := onRels_some j2
    obtain ⟨_, rfl⟩ := remove_some j4
    simp only [effect, hn] at hu
    obtain ⟨s1, s2, k1, k2, k3⟩ := inSchema_some hu
    rw [j3, upd_same] at k1
    cases k1
    obtain ⟨m, k4, k5⟩ := onRels_some k2
    rw [j5] at k4
    simp only at k4
    split at k4
    · next tb htb =>
      by_cases e : x.tableName = i
      · rw [e, upd_same] at htb; cases htb
      · rw [upd_ne _ _ e] at htb; exact h3 tb htb
    · cases k4
  | _ => exact hl

/-- The revert recorded before a change undoes it exactly when the change is not lossy. -/
theorem revert_undoes_iff {c : Change} {d d' : Database} (hd : d.WF) (h : c.apply d = .ok d') :
    (∃ r d'', c.revert d = .ok r ∧ r.apply d' = .ok d'' ∧ d''.content = d.content)
      ↔ ¬ Lossy d.content c := by
  have he := apply_effect hd h
  constructor
  · rintro ⟨r, d'', h1, h2, h3⟩ hl
    exact revert_lossy hd he hl h1 (h3 ▸ apply_effect (apply_wf hd h) h2)
  · intro hl
    obtain ⟨r, h1, h2⟩ := revert_effect hd he hl
    obtain ⟨d'', h3, h4⟩ := apply_of_effect (apply_wf hd h) h2
    exact ⟨r, d'', h1, h3, h4⟩

end Podo
