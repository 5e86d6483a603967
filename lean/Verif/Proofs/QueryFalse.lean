import Verif.Proofs.QueryShow
/-
Lemmas for the databases that the catalogue queries do not read right.
-/
namespace Podo
namespace Sys
open Introspect

variable {g : System} {S : List String} {o : Aggs} {cat : Catalog} {d : Database}

theorem spelled_exists (h : Sound g) {t : Typ} (ht : t ∈ g.types) (m : Int) : ∃ x, g.Spelled t.oid m x := by
  by_cases hz : t.typelem = 0 ∨ t.typlen ≠ -1
  · exact ⟨_, .plain ht hz⟩
  · have h1 : t.typelem ≠ 0 := fun e => hz (.inl e)
    have h2 : t.typlen = -1 := Decidable.byContradiction fun e => hz (.inr e)
    obtain ⟨e, he, ee⟩ := h.type_elem t ht h1
    exact ⟨_, .array ht ee.symm h1 h2 he⟩

/-- Every column of a table that is not generated can be in a snapshot. -/
theorem isColumn_exists (h : Sound g) {s : String} {c : Class} {a : Attribute} (ha : a ∈ g.attributes)
    (e : a.attrelid = c.oid) (hp : a.attnum > 0) (hd : a.attisdropped = false) (hgen : a.generated = false)
    {ty : String} (hty : g.Spelled a.atttypid a.atttypmod ty) :
    ∃ col, g.IsColumn s c col ∧ col.name = a.attname ∧ col.dataType = ty := by
  classical
  obtain ⟨ad, had⟩ := exists_leftJoin (g.attrdefs.filter fun ad => a.attrelid = ad.adrelid ∧ a.attnum = ad.adnum)
  have hdef := (default_iff h hgen had
    (d := if defaultText a ad = "" then none else some (defaultText a ad))).1 (by
      split
      · rename_i hh
        exact ⟨hh.symm, by simp⟩
      · rename_i hh
        exact ⟨rfl, by simpa using hh⟩)
  refine ⟨{ name := a.attname, schemaName := s, tableName := c.relname, dataType := ty,
            default := if defaultText a ad = "" then none else some (defaultText a ad),
            notNull := decide (a.attnotnull = true ∨
              ∃ t ∈ g.types, t.oid = a.atttypid ∧ t.typdomain = true ∧ t.typnotnull = true) },
    ⟨rfl, rfl, a, ha, e, hp, hd, hgen, rfl, hty, ?_, hdef⟩, rfl, rfl⟩
  exact decide_eq_true_iff

/-- A column in a snapshot that was read comes from a column of a table. -/
theorem column_row (hg : Gives g S o cat) (hd : introspect cat = .ok d) {s n : String} {t : Table}
    (ht : HasRelation d s n (.table t)) {col : Column} (hc : col ∈ t.columns) :
    ∃ a ∈ g.attributes, ∃ c, g.Rel s n c ∧ a.attrelid = c.oid ∧ c.relkind = .table ∧ a.attname = col.name ∧
      ∃ u ∈ g.types, a.atttypid = u.oid ∧ some col.dataType = typeText g a u := by
  obtain ⟨r, hr, hdc⟩ := (mem_describeColumns ((represents hd).columns s n t ht)).1 hc
  rw [List.mem_filter, decide_eq_true_eq] at hr
  obtain ⟨a, ha, ad, had, c, hc, ec, ns, hn, en, u, hu, eu, m, hm, em, ⟨_, hpos, hdr, hk, hS⟩, rfl⟩ :=
    mem_columnRows.1 (hg.columns.mem_iff.1 hr.1)
  exact ⟨a, ha, c, ⟨hc, hr.2.2, ns, hn, en.symm, hr.2.1⟩, ec, hk, hdc.name.symm, u, hu, eu, hdc.dataType⟩

/-- A row for every column of a table. -/
theorem row_of_column (h : Sound g) {s n : String} (hs : s ∈ S) {c : Class} (hc : g.Rel s n c)
    (hk : c.relkind = .table) (htemp : ∀ ns ∈ g.namespaces, ns.nspname = s → ns.otherTemp = false)
    {a : Attribute} (ha : a ∈ g.attributes) (e : a.attrelid = c.oid) (hp : a.attnum > 0)
    (hd : a.attisdropped = false) :
    ∃ r ∈ columnRows g S, r.schema = s ∧ r.table = n ∧ r.name = a.attname := by
  obtain ⟨hc1, hc2, ns, hn, en, hns⟩ := hc
  obtain ⟨t, ht, et⟩ := h.attr_type a ha hd
  obtain ⟨m, hm, em⟩ := h.type_ns t ht
  obtain ⟨ad, had⟩ := exists_leftJoin (g.attrdefs.filter fun ad => a.attrelid = ad.adrelid ∧ a.attnum = ad.adnum)
  exact ⟨_, mem_columnRows.2 ⟨a, ha, ad, had, c, hc1, e, ns, hn, en.symm, t, ht, et.symm, m, hm, em.symm,
    ⟨htemp ns hn hns, hp, hd, hk, by rw [hns]; exact hs⟩, rfl⟩, hns, hc2, rfl⟩

/-- A foreign key in a snapshot that was read never has the match `SIMPLE`. -/
theorem no_simple (hg : Gives g S o cat) (hd : introspect cat = .ok d) {s n : String} {t : Table}
    (ht : HasRelation d s n (.table t)) {m : String} {k : ForeignKey}
    (hk : t.constraints.get? m = some (.foreignKey k)) : k.matchOption ≠ "SIMPLE" := by
  obtain ⟨_, _, _, hl⟩ := ((represents hd).constraints s n t ht m _).1 hk
  cases hl with
  | foreignKey hr hdc =>
    obtain ⟨q, _, _, _, _, _, _, _, _, _, _, _, _, _, _, _, rfl⟩ :=
      mem_foreignKeyRows.1 (hg.foreignKeys.mem_iff.1 hr)
    rw [hdc.matchOption]
    dsimp only [fkRow]
    cases q.confmatchtype <;> simp [matchText]

/-- The foreign key a constraint is. -/
theorem isConstraint_fk (h : Sound g) {s : String} {c : Class} {k : Con} (hk : k ∈ g.constraints)
    (hf : k.contype = .foreignKey) (e : k.conrelid = c.oid) :
    ∃ cols fc ts tt tcols, g.Named c.oid k.conkey cols ∧ g.Rel ts tt fc ∧ fc.oid = k.confrelid ∧
      g.Named fc.oid k.confkey tcols ∧
      g.IsConstraint s c (.foreignKey {
        schemaName := s, tableName := c.relname, name := k.conname,
        columns := cols, targetSchema := ts, targetTable := tt, targetColumns := tcols,
        matchOption := k.confmatchtype.sql, updateRule := k.confupdtype.sql,
        deleteRule := k.confdeltype.sql, deferrable := k.condeferrable,
        initiallyDeferred := k.condeferred }) := by
  obtain ⟨fc, hfc, efc⟩ := h.fk_class k hk hf
  obtain ⟨ns, hns, ens⟩ := h.class_ns fc hfc
  have h1 : g.Named c.oid k.conkey (keyNames g c.oid k.conkey) := by
    refine named_keyNames h fun n hn => ?_
    obtain ⟨a, ha, e1, e2, _⟩ := (h.con_key k hk (by rw [hf]; simp) (by rw [hf]; simp)).2 n hn
    exact ⟨a, ha, e1.trans e, e2⟩
  have h2 : g.Named fc.oid k.confkey (keyNames g fc.oid k.confkey) := by
    refine named_keyNames h fun n hn => ?_
    obtain ⟨a, ha, e1, e2, _⟩ := h.fk_key k hk hf n hn
    exact ⟨a, ha, e1.trans efc.symm, e2⟩
  have hrel : g.Rel ns.nspname fc.relname fc := ⟨hfc, rfl, ns, hns, ens, rfl⟩
  exact ⟨_, fc, _, _, _, h1, hrel, efc, h2, .foreignKey hk hf e h1 hrel efc h2⟩

theorem con_kind (h : Sound g) {s n : String} {c : Class} (hc : g.Rel s n c) {k : Con}
    (hk : k ∈ g.constraints) (ht : k.contype ≠ .check) (e : k.conrelid = c.oid) :
    c.relkind = .table ∨ c.relkind = .partitioned := key_kind h hk ht hc.1 e.symm

/-- A foreign key of a snapshot that was read, by its name: its row. -/
theorem fk_row (h : Sound g) (hg : Gives g S o cat) (hd : introspect cat = .ok d) {s n : String} {c : Class}
    (hc : g.Rel s n c) {k : Con} (hk : k ∈ g.constraints) (e : k.conrelid = c.oid) {t : Table}
    (ht : HasRelation d s n (.table t)) {f : ForeignKey}
    (hkf : t.constraints.get? k.conname = some (.foreignKey f)) :
    ∃ ns fc pkc npkc, k.confrelid = fc.oid ∧ fc ∈ g.classes ∧ pkc ∈ targetKeys g k ∧
      (fkRow g o k ns c fc pkc npkc).Describes f := by
  obtain ⟨e1, e2, e3, hl⟩ := ((represents hd).constraints s n t ht _ _).1 hkf
  cases hl with
  | foreignKey hr hdc =>
    obtain ⟨q, hq, ns, hn, en, c', hc', ec', fc, hfc, efc, pkc, hpkc, npkc, _, _, rfl⟩ :=
      mem_foreignKeyRows.1 (hg.foreignKeys.mem_iff.1 hr)
    have hcc : c' = c := by
      refine rel_inj h ⟨hc', ?_, ns, hn, en.trans (ns_of_con h hq hc' ec'.symm).symm, ?_⟩ hc
      · exact hdc.table.symm.trans e2
      · exact hdc.schema.symm.trans e1
    subst hcc
    have hname : q.conname = k.conname := hdc.name.symm.trans e3
    have := key_inj h.con_name hq hk (by simp [hname, ec', e])
    subst this
    exact ⟨ns, fc, pkc, npkc, efc, hfc, hpkc, hdc⟩

/-- The index of a snapshot that was read, by its name: its row. -/
theorem index_row (h : Sound g) (hg : Gives g S o cat) (hd : introspect cat = .ok d) {s n : String} {c : Class}
    (hc : g.Rel s n c) {x : Idx} (hx : x ∈ g.indexes) (e : x.indexrelid = c.oid) {i : Index}
    (hi : HasRelation d s n (.index i)) :
    (∀ k ∈ g.constraints, k.conindid ≠ c.oid) ∧
    (∀ e, exprsText x.indexprs = some e → i.keyExpressions = [e]) ∧
    (exprsText x.indexprs = none →
      some i.keyExpressions = arrayAgg (o.index x.indexrelid) (keyNames g x.indrelid x.indkey)) := by
  obtain ⟨e1, e2, r, hr, hdc⟩ := ((represents hd).indexes s n i).1 hi
  obtain ⟨y, hy, c', hc', ec', ns, hn, en, _, _, _, _, _, _, hno, _, rfl⟩ :=
    mem_indexRows.1 (hg.indexes.mem_iff.1 hr)
  have hcc : c' = c :=
    rel_inj h ⟨hc', hdc.name.symm.trans e2, ns, hn, en.symm, hdc.schema.symm.trans e1⟩ hc
  subst hcc
  have := key_inj h.index_oid hy hx (ec'.symm.trans e.symm)
  subst this
  exact ⟨hno, hdc.expressions, hdc.columns⟩

/-- The keys of an index whose columns are all keys. -/
theorem keys_exist {rel : Nat} {ks : List Int} {es : List String}
    (ha : ∀ n ∈ ks, n = 0 ∨ ∃ a ∈ g.attributes, a.attrelid = rel ∧ a.attnum = n)
    (hl : es.length = ks.countP (· = 0)) : ∃ ss, g.Keys rel ks es ss := by
  induction ks generalizing es with
  | nil => exact ⟨[], by rw [List.eq_nil_of_length_eq_zero hl]; exact .nil⟩
  | cons n ns ih =>
    by_cases h0 : n = 0
    · subst h0
      match es, hl with
      | [], hl => simp at hl
      | e :: es, hl =>
        obtain ⟨ss, hs⟩ := ih (es := es) (fun m hm => ha m (List.mem_cons_of_mem _ hm)) (by simpa using hl)
        exact ⟨e :: ss, .expression hs⟩
    · obtain ⟨ss, hs⟩ := ih (es := es) (fun m hm => ha m (List.mem_cons_of_mem _ hm)) (by simpa [h0] using hl)
      rcases ha n List.mem_cons_self with h | ⟨a, h1, h2, h3⟩
      · exact absurd h h0
      · exact ⟨a.attname :: ss, .column h0 h1 h2 h3 hs⟩

theorem keys_length {rel : Nat} {ks : List Int} {es ss : List String} (h : g.Keys rel ks es ss) :
    ss.length = ks.length := by
  induction h with
  | nil => rfl
  | column _ _ _ _ _ ih => simp [ih]
  | expression _ ih => simp [ih]

/-- The index with given keys. -/
theorem isIndex_exists (h : Sound g) {s n : String} {c : Class} (hc : g.Rel s n c) {x : Idx}
    (hx : x ∈ g.indexes) (e : x.indexrelid = c.oid) (hno : ¬ g.OwnedIndex c.oid) {ss : List String}
    (hk : g.Keys x.indrelid (x.indkey.take x.indnkeyatts) x.indexprs ss) :
    ∃ i, g.IsIndex s i ∧ i.name = n ∧ i.keyExpressions = ss := by
  obtain ⟨t, ht, et, _⟩ := h.index_table x hx
  obtain ⟨c', hc', ec', _, am, ham, eam⟩ := h.index_class x hx
  have := class_inj h hc' hc.1 (ec'.trans e)
  subst this
  exact ⟨{ name := n, schemaName := s, tableName := t.relname, keyExpressions := ss, unique := x.indisunique,
           method := am.amname },
    ⟨c', hc, rfl, hno, x, hx, e, rfl, t, ht, et, rfl, am, ham, eam, rfl, hk⟩, rfl, rfl⟩

theorem modified_known {n b : String} (h : AMap.get? modified n = some b) :
    ∃ b ∈ modifiable, n = b ∨ n = "_" ++ b := by
  have hm := AMap.mem_of_get? h
  have : ∀ p ∈ modified, ∃ b ∈ modifiable, p.1 = b ∨ p.1 = "_" ++ b := by decide
  exact this _ hm

theorem sublist_pair {α : Type} {l : List α} {x y : α} (hx : x ∈ l) (hy : y ∈ l) (hne : x ≠ y) :
    [x, y].Sublist l ∨ [y, x].Sublist l := by
  induction l with
  | nil => cases hx
  | cons z t ih =>
    rcases List.mem_cons.1 hx with rfl | hx' <;> rcases List.mem_cons.1 hy with rfl | hy'
    · exact absurd rfl hne
    · exact .inl (List.Sublist.cons_cons _ (List.singleton_sublist.2 hy'))
    · exact .inr (List.Sublist.cons_cons _ (List.singleton_sublist.2 hx'))
    · rcases ih hx' hy' with h | h
      · exact .inl (.cons _ h)
      · exact .inr (.cons _ h)

theorem flatMap_sublist {α β : Type} {l m : List α} {f : α → List β} (h : l.Sublist m) :
    (l.flatMap f).Sublist (m.flatMap f) := by
  induction h with
  | slnil => exact .slnil
  | @cons l m a _ ih =>
    rw [List.flatMap_cons]
    exact ih.trans (List.sublist_append_right _ _)
  | @cons_cons l m a _ ih =>
    rw [List.flatMap_cons, List.flatMap_cons]
    exact (List.Sublist.refl _).append ih

/-- Two functions of one name in one schema: two rows for one place. -/
theorem functions_twice (h : Sound g) {p q : Proc} (hpq : [p, q].Sublist g.procs) {ns : Namespace}
    (hns : ns ∈ g.namespaces) (ep : p.pronamespace = ns.oid) (eq' : q.pronamespace = ns.oid)
    (hname : p.proname = q.proname) (hS : ns.nspname ∈ S) :
    ¬ ((functionRows g S).map fun r => (r.schema, r.name)).Nodup := by
  intro hnd
  unfold functionRows at hnd
  have hsub := (flatMap_sublist (f := fun p =>
    (g.namespaces.filter fun n => p.pronamespace = n.oid).flatMap fun n =>
    (g.langs.filter fun l => p.prolang = l.oid).flatMap fun l =>
    if n.nspname ∈ S then
      [({ schema := n.nspname, name := p.proname, body := p.prosrc, language := l.lanname,
          returns := if p.proretset then "setof " ++ p.prorettype else p.prorettype,
          volatility := volatilityText p.provolatile } : FunctionRow)]
    else []) hpq)
  have hone : ∀ r : Proc, r ∈ g.procs → r.pronamespace = ns.oid →
      ∃ row, ((g.namespaces.filter fun n => r.pronamespace = n.oid).flatMap fun n =>
        (g.langs.filter fun l => r.prolang = l.oid).flatMap fun l =>
        if n.nspname ∈ S then
          [({ schema := n.nspname, name := r.proname, body := r.prosrc, language := l.lanname,
              returns := if r.proretset then "setof " ++ r.prorettype else r.prorettype,
              volatility := volatilityText r.provolatile } : FunctionRow)]
        else []) = [row] ∧ row.schema = ns.nspname ∧ row.name = r.proname := by
    intro r hr er
    obtain ⟨l, hl, el⟩ := h.proc_lang r hr
    rw [filter_key h.ns_oid hns (by intro y _; simp [er, eq_comm]),
      filter_key h.lang_oid hl (by intro y _; simp [el, eq_comm])]
    simp [hS]
  obtain ⟨r1, h1, s1, n1⟩ := hone p (hpq.subset (by simp)) ep
  obtain ⟨r2, h2, s2, n2⟩ := hone q (hpq.subset (by simp)) eq'
  have := (hsub.map fun r => (r.schema, r.name)).nodup hnd
  rw [List.flatMap_cons, List.flatMap_cons, List.flatMap_nil, h1, h2] at this
  simp [s1, s2, n1, n2, hname] at this

/-- Columns of a relation are told apart by their names. -/
theorem named_nums (h : Sound g) {rel : Nat} {ks ks' : List Int} {ss : List String} (h1 : g.Named rel ks ss)
    (h2 : g.Named rel ks' ss) : ks = ks' := by
  induction h1 generalizing ks' with
  | nil => cases h2; rfl
  | @cons a n ns ss ha e1 e2 _ ih =>
    generalize hq : a.attname :: ss = q at h2
    cases h2 with
    | nil => cases hq
    | @cons b m ms ts hb f1 f2 hh =>
      injection hq with q1 q2
      subst q2
      have := key_inj h.attr_name ha hb (by simp [e1, f1, q1])
      subst this
      rw [ih hh, ← e2, ← f2]

/-- No row twice for a column: the names of the columns of a key are different. -/
theorem named_reverse (h : Sound g) {rel : Nat} {ks : List Int} {ss : List String} (hn : g.Named rel ks ss)
    (hks : ks.Nodup) : ss.Nodup := by
  induction hn with
  | nil => exact List.nodup_nil
  | @cons a n ns ss ha e1 e2 hh ih =>
    rw [List.nodup_cons] at hks ⊢
    refine ⟨fun hmem => hks.1 ?_, ih hks.2⟩
    clear ih hks
    induction hh with
    | nil => cases hmem
    | @cons b m ms ts hb f1 f2 _ ih =>
      rcases List.mem_cons.1 hmem with q | q
      · have := key_inj h.attr_name ha hb (by simp [e1, f1, q])
        subst this
        rw [← e2, f2]
        exact List.mem_cons_self
      · exact List.mem_cons_of_mem _ (ih q)

theorem reverse_ne {α : Type} {l : List α} (h : l.Nodup) (h2 : 2 ≤ l.length) : l.reverse ≠ l := by
  match l, h, h2 with
  | x :: y :: t, h, _ =>
    intro e
    have hl : (x :: y :: t).reverse.getLast? = some x := by simp
    rw [e] at hl
    have : x ∈ y :: t := by
      rw [List.getLast?_cons_cons] at hl
      exact List.mem_of_getLast? hl
    exact (List.nodup_cons.1 h).1 this

theorem describe_exists {rs : List ColumnRow} {cs : List Column} (h : DescribeColumns rs cs) {r : ColumnRow}
    (hr : r ∈ rs) : ∃ col ∈ cs, r.Describes col := by
  induction h with
  | nil => cases hr
  | @cons r' c rs cs hd _ ih =>
    rcases List.mem_cons.1 hr with rfl | hr
    · exact ⟨c, List.mem_cons_self, hd⟩
    · obtain ⟨col, h1, h2⟩ := ih hr
      exact ⟨col, List.mem_cons_of_mem _ h1, h2⟩

/-- A foreign key whose index belongs to no constraint. -/
theorem targetKeys_none (h : Sound g) {k : Con} (hk : k ∈ g.constraints) (hf : k.contype = .foreignKey)
    (hno : ∀ d ∈ g.depends, d.classid = .class_ → d.objid = k.conindid → d.refclassid ≠ .constraint) :
    targetKeys g k = [none] := by
  obtain ⟨d1, e1, e1'⟩ := h.fk_index k hk hf
  have f1 : (g.depends.filter fun d1 => d1.objid = k.oid ∧ d1.classid = .constraint ∧
      d1.refclassid = .class_ ∧ d1.refobjsubid = 0) = [d1] := by
    rw [← e1]
    refine List.filter_congr fun d _ => ?_
    rw [decide_eq_decide]
    constructor
    · rintro ⟨a, b, c⟩; exact ⟨b, a, c⟩
    · rintro ⟨a, b, c⟩; exact ⟨b, a, c⟩
  have f2 : (g.depends.filter fun d2 => d2.refclassid = .constraint ∧ d2.classid = .class_ ∧
      some d2.objid = (some d1).map (·.refobjid) ∧ d2.objsubid = 0 ∧ d2.internal) = [] := by
    rw [List.filter_eq_nil_iff]
    intro d hd hh
    rw [decide_eq_true_eq, Option.map_some, Option.some_inj, e1'] at hh
    exact hno d hd hh.2.1 hh.2.2.1 hh.1
  unfold targetKeys
  rw [f1]
  simp only [leftJoin, List.map_cons, List.map_nil, List.flatMap_cons, List.flatMap_nil, List.append_nil]
  rw [f2]
  simp only [List.flatMap_cons, List.flatMap_nil, List.append_nil]
  rw [List.filter_eq_nil_iff.2 (by simp)]

end Sys
end Podo
