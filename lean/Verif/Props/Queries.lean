import Verif.Proofs.QueryFalse
import Verif.Proofs.QueryDemo
import Verif.Spec.Queries
/-
C75: what `clone` reads is what is in the database.
-/
namespace Podo
namespace Sys
open Introspect

variable {g : System} {S : List String} {o : Aggs} {cat : Catalog} {d : Database}

/-- C75 (partial).  Whatever the order in which PostgreSQL returns the rows, introspection of the schemas `S`
succeeds, and the snapshot holds the tables, columns, constraints, indexes, sequences and functions in them
as PostgreSQL's system tables tell, and nothing else.  Missing for the full property: databases that are
not `Readable`; the theorems below show that the property is false for them. -/
theorem C75_reads_partial (h : Sound g) (ho : Lawful o) (hr : Readable g S o) (hg : Gives g S o cat) :
    ∃ d, introspect cat = .ok d ∧ Shows g S d := by
  obtain ⟨d, hd⟩ := (C53_succeeds_iff cat).2 (gives_consistent h ho hr hg)
  exact ⟨d, hd, represents_shows h ho hr hg (C53_represents hd)⟩

open Proj Def in
/-- C75 (partial), what a user does: `clone` writes a definition file that loads as a snapshot of what is in
the schema `public` of the database, if definition files can express it. -/
theorem C75_clone_partial {env : Env} {connect : String → Option Catalog} {fs : Fs} {cwd : Proj.Path}
    {profile : String} {p : Project} {url : String} {ds : Proj.Path}
    (h1 : discover env fs cwd = .ok p) (h2 : p.databaseUrl profile = .ok url)
    (h3 : p.definitionsDir DEFAULT_PROFILE = .ok ds) (h4 : connect url = some cat)
    (hg : Gives g ["public"] o cat) (h : Sound g) (ho : Lawful o) (hr : Readable g ["public"] o)
    (h64 : ∀ r ∈ cat.sequences, r.Int64) (hok : cat.Expressible) :
    ∃ fs' y d, clone env connect fs cwd profile = (fs', .done) ∧
      AMap.get? (fs'.definitions ds) "public.yaml" = some y ∧ loadDoc y = .ok d ∧ Shows g ["public"] d := by
  have hcons := gives_consistent h ho hr hg
  obtain ⟨fs', hc⟩ := C60_succeeds_partial h1 h2 h3 h4 hcons h64 hok
  obtain ⟨p', url', ds', c, y, e1, e2, e3, e4, e5, e6⟩ := C60_cloned_file_partial hc
  rw [h1] at e1; cases e1
  rw [h2] at e2; cases e2
  rw [h3] at e3; cases e3
  rw [h4] at e4; cases e4
  obtain ⟨d, hd, hrep⟩ := e6 h64 hok
  exact ⟨fs', y, d, hc, e5, hd, represents_shows h ho hr hg hrep⟩

/-! ### Databases that are read wrong -/

/-- A foreign key with the usual match, `MATCH SIMPLE`: it is read as `NONE`, which is no SQL. -/
theorem C75_simple_match_false (h : Sound g) (hg : Gives g S o cat) (hd : introspect cat = .ok d)
    {s n : String} (hs : s ∈ S) {c : Class} (hc : g.Rel s n c) {k : Con} (hk : k ∈ g.constraints)
    (hf : k.contype = .foreignKey) (e : k.conrelid = c.oid) (hm : k.confmatchtype = .simple) :
    ¬ Shows g S d := by
  intro hsh
  obtain ⟨t, ht⟩ := (hsh.tables s n).2 ⟨hs, c, hc, con_kind h hc hk (by rw [hf]; simp) e⟩
  obtain ⟨cols, fc, ts, tt, tcols, _, _, _, _, hi⟩ := isConstraint_fk h (s := s) hk hf e
  exact no_simple hg hd ht ((hsh.constraints s n t ht k.conname _).2 ⟨rfl, c, hc, hi⟩) (by rw [hm]; rfl)

/-- Two foreign keys to the columns of one key, in different orders: the query does not look at the order in
which a foreign key refers to columns, so at least one of the two is read wrong. -/
theorem C75_target_order_false (h : Sound g) (hg : Gives g S o cat) (hd : introspect cat = .ok d)
    {s n s' n' : String} (hs : s ∈ S) (hs' : s' ∈ S) {c c' : Class} (hc : g.Rel s n c) (hc' : g.Rel s' n' c')
    {k k' p : Con} (hk : k ∈ g.constraints) (hk' : k' ∈ g.constraints) (hp : p ∈ g.constraints)
    (hf : k.contype = .foreignKey) (hf' : k'.contype = .foreignKey)
    (hpt : p.contype = .primaryKey ∨ p.contype = .unique) (e : k.conrelid = c.oid) (e' : k'.conrelid = c'.oid)
    (hpi : p.conindid = k.conindid) (hpi' : p.conindid = k'.conindid)
    (ho : o.target k.oid = o.target k'.oid) (hne : k.confkey ≠ k'.confkey) : ¬ Shows g S d := by
  intro hsh
  obtain ⟨t, ht⟩ := (hsh.tables s n).2 ⟨hs, c, hc, con_kind h hc hk (by rw [hf]; simp) e⟩
  obtain ⟨t', ht'⟩ := (hsh.tables s' n').2 ⟨hs', c', hc', con_kind h hc' hk' (by rw [hf']; simp) e'⟩
  obtain ⟨cols, fc, ts, tt, tcols, _, hfc, efc, htn, hi⟩ := isConstraint_fk h (s := s) hk hf e
  obtain ⟨cols', fc', ts', tt', tcols', _, hfc', efc', htn', hi'⟩ := isConstraint_fk h (s := s') hk' hf' e'
  obtain ⟨_, gc, pkc, _, egc, hgc, hpkc, hdc⟩ := fk_row h hg hd hc hk e ht
    ((hsh.constraints s n t ht k.conname _).2 ⟨rfl, c, hc, hi⟩)
  obtain ⟨_, gc', pkc', _, egc', hgc', hpkc', hdc'⟩ := fk_row h hg hd hc' hk' e' ht'
    ((hsh.constraints s' n' t' ht' k'.conname _).2 ⟨rfl, c', hc', hi'⟩)
  rw [targetKeys_eq h hk hf hp hpt hpi, List.mem_singleton] at hpkc
  rw [targetKeys_eq h hk' hf' hp hpt hpi', List.mem_singleton] at hpkc'
  subst hpkc
  subst hpkc'
  have hrel : k.confrelid = k'.confrelid := by
    rw [← (h.fk_columns k hk hf p hp hpt hpi).1, ← (h.fk_columns k' hk' hf' p hp hpt hpi').1]
  have hgcc := class_inj h hgc hgc' (egc.symm.trans (hrel.trans egc'))
  subst hgcc
  have h1 := hdc.targetColumns
  have h2 := hdc'.targetColumns
  dsimp only [fkRow] at h1 h2
  rw [Option.bind_some] at h1 h2
  rw [ho, ← h2] at h1
  have := Option.some.inj h1
  subst this
  rw [efc, hrel, ← efc'] at htn
  exact hne (named_nums h htn htn')

/-- A key of several columns: the query does not say in which order their names are to be aggregated, so
the order can come out wrong. -/
theorem C75_key_order_false (h : Sound g) {s n : String} (hs : s ∈ S) {c : Class} (hc : g.Rel s n c) {k : Con}
    (hk : k ∈ g.constraints) (hp : k.contype = .primaryKey) (e : k.conrelid = c.oid) (hnd : k.conkey.Nodup)
    (hl : 2 ≤ k.conkey.length) :
    ∃ o, Lawful o ∧ ∀ cat d, Gives g S o cat → introspect cat = .ok d → ¬ Shows g S d := by
  refine ⟨⟨fun _ => List.reverse, fun _ xs => xs, fun _ xs => xs⟩, ⟨fun _ xs => List.reverse_perm xs,
    fun _ _ => .refl _, fun _ _ => .refl _⟩, fun cat d hg hd hsh => ?_⟩
  obtain ⟨t, ht⟩ := (hsh.tables s n).2 ⟨hs, c, hc, con_kind h hc hk (by rw [hp]; simp) e⟩
  have hnm : g.Named c.oid k.conkey (keyNames g c.oid k.conkey) := by
    refine named_keyNames h fun n hn => ?_
    obtain ⟨a, ha, e1, e2, _⟩ := (h.con_key k hk (by rw [hp]; simp) (by rw [hp]; simp)).2 n hn
    exact ⟨a, ha, e1.trans e, e2⟩
  have hget := (hsh.constraints s n t ht k.conname _).2 ⟨rfl, c, hc, .primaryKey hk hp e hnm⟩
  obtain ⟨e1, e2, e3, hlist⟩ := ((represents hd).constraints s n t ht _ _).1 hget
  cases hlist with
  | @primaryKey r pk hr hdc =>
    obtain ⟨q, hq, ns, hn, en, c', hc', ec', _, _, _, _, rfl⟩ := mem_keyRows.1 (hg.primaryKeys.mem_iff.1 hr)
    have hcc : c' = c := rel_inj h ⟨hc', hdc.table.symm.trans e2, ns, hn,
      en.trans (ns_of_con h hq hc' ec'.symm).symm, hdc.schema.symm.trans e1⟩ hc
    subst hcc
    have hname : q.conname = k.conname := hdc.name.symm
    have := key_inj h.con_name hq hk (by simp [hname, ec', e])
    subst this
    have hcols := hdc.columns
    dsimp only at hcols
    rw [e] at hcols
    have hne := named_ne_nil hnm (by intro h0; rw [h0] at hl; simp at hl)
    have hagg : (arrayAgg List.reverse (keyNames g c'.oid q.conkey)).getD [] =
        (keyNames g c'.oid q.conkey).reverse := by
      cases hx : keyNames g c'.oid q.conkey with
      | nil => exact absurd hx hne
      | cons => rfl
    rw [hagg] at hcols
    exact reverse_ne (named_reverse h hnm hnd) (by rw [named_length hnm]; exact hl) hcols.symm

/-- A partitioned table: it is read without its columns. -/
theorem C75_partitioned_false (h : Sound g) (hg : Gives g S o cat) (hd : introspect cat = .ok d)
    {s n : String} (hs : s ∈ S) {c : Class} (hc : g.Rel s n c) (hk : c.relkind = .partitioned) {a : Attribute}
    (ha : a ∈ g.attributes) (e : a.attrelid = c.oid) (hp : a.attnum > 0) (hdr : a.attisdropped = false)
    (hgen : a.generated = false) : ¬ Shows g S d := by
  intro hsh
  obtain ⟨t, ht⟩ := (hsh.tables s n).2 ⟨hs, c, hc, .inr hk⟩
  obtain ⟨u, hu, eu⟩ := h.attr_type a ha hdr
  obtain ⟨ty, hty⟩ := spelled_exists h hu a.atttypmod
  rw [eu] at hty
  obtain ⟨col, hcol, _⟩ := isColumn_exists h (s := s) ha e hp hdr hgen hty
  obtain ⟨_, _, c', hc', _, hk', _⟩ := column_row hg hd ht ((hsh.columns s n t ht col).2 ⟨c, hc, hcol⟩)
  rw [rel_inj h hc' hc, hk] at hk'
  cases hk'

/-- A column of a type of fixed length that has elements, such as `point`: the type is read as an array of
the elements, which is another type. -/
theorem C75_element_type_false (h : Sound g) (hg : Gives g S o cat) (hd : introspect cat = .ok d)
    {s n : String} (hs : s ∈ S) {c : Class} (hc : g.Rel s n c) (hk : c.relkind = .table) {a : Attribute}
    (ha : a ∈ g.attributes) (e : a.attrelid = c.oid) (hp : a.attnum > 0) (hdr : a.attisdropped = false)
    (hgen : a.generated = false) (hm : a.atttypmod = -1) {u : Typ} (hu : u ∈ g.types) (eu : u.oid = a.atttypid)
    (hz : u.typelem ≠ 0) (hlen : u.typlen ≠ -1) (hname : ∀ x, u.typname ≠ x ++ "[]") : ¬ Shows g S d := by
  intro hsh
  obtain ⟨t, ht⟩ := (hsh.tables s n).2 ⟨hs, c, hc, .inl hk⟩
  have hty := System.Spelled.plain (m := a.atttypmod) hu (.inr hlen)
  rw [eu] at hty
  obtain ⟨col, hcol, e1, e2⟩ := isColumn_exists h (s := s) ha e hp hdr hgen hty
  obtain ⟨b, hb, c', hc', eb, _, en, v, hv, ev, htt⟩ :=
    column_row hg hd ht ((hsh.columns s n t ht col).2 ⟨c, hc, hcol⟩)
  have hcc := rel_inj h hc' hc
  subst hcc
  have := key_inj h.attr_name hb ha (by simp [eb, e, en, e1])
  subst this
  have := key_inj h.type_oid hv hu (ev.symm.trans eu.symm)
  subst this
  obtain ⟨w, hw, ew⟩ := h.type_elem v hu hz
  have hfind : (g.types.find? fun x => x.oid = v.typelem) = some w := by
    have := find_key h.type_oid hw
    rw [ew] at this
    exact this
  rw [e2] at htt
  simp only [typeText, typeName, typeModifier, hfind, if_pos hz, hm, ne_eq, not_true_eq_false, if_false,
    Option.map_some, System.modifier, if_true, String.append_empty] at htt
  exact hname _ (Option.some.inj htt)

/-- A generated column: it is read as a plain one. -/
theorem C75_generated_false (h : Sound g) (hg : Gives g S o cat) (hd : introspect cat = .ok d)
    {s n : String} (hs : s ∈ S) {c : Class} (hc : g.Rel s n c) (hk : c.relkind = .table)
    (htemp : ∀ ns ∈ g.namespaces, ns.nspname = s → ns.otherTemp = false) {a : Attribute}
    (ha : a ∈ g.attributes) (e : a.attrelid = c.oid) (hp : a.attnum > 0) (hdr : a.attisdropped = false)
    (hgen : a.generated = true) : ¬ Shows g S d := by
  intro hsh
  obtain ⟨t, ht⟩ := (hsh.tables s n).2 ⟨hs, c, hc, .inl hk⟩
  obtain ⟨r, hr, e1, e2, e3⟩ := row_of_column h hs hc hk htemp ha e hp hdr
  have hr' : r ∈ cat.columns.filter fun r => r.schema = s ∧ r.table = n := by
    rw [List.mem_filter, decide_eq_true_eq]
    exact ⟨hg.columns.mem_iff.2 hr, e1, e2⟩
  obtain ⟨col, hcol, hdc⟩ := describe_exists ((represents hd).columns s n t ht) hr'
  obtain ⟨c', hc', _, _, b, hb, eb, _, _, hbg, en, _⟩ := (hsh.columns s n t ht col).1 hcol
  have hcc := rel_inj h hc' hc
  subst hcc
  have := key_inj h.attr_name hb ha (by simp [eb, e, en, hdc.name, e3])
  subst this
  rw [hgen] at hbg
  cases hbg

/-- A table on which the user has no privilege: its columns are read, the table is not, and introspection
fails. -/
theorem C75_unprivileged_false (h : Sound g) (hg : Gives g S o cat)
    {s n : String} (hs : s ∈ S) {c : Class} (hc : g.Rel s n c) (hk : c.relkind = .table)
    (htemp : ∀ ns ∈ g.namespaces, ns.nspname = s → ns.otherTemp = false) (hown : c.owned = false)
    (hread : c.readable = false) {a : Attribute} (ha : a ∈ g.attributes) (e : a.attrelid = c.oid)
    (hp : a.attnum > 0) (hdr : a.attisdropped = false) : ¬ ∃ d, introspect cat = .ok d := by
  rw [C53_succeeds_iff]
  intro hcons
  obtain ⟨r, hr, e1, e2, e3⟩ := row_of_column h hs hc hk htemp ha e hp hdr
  have := hcons.column_table _ (List.mem_map_of_mem (hg.columns.mem_iff.2 hr))
  obtain ⟨c', hc', ns, hns, ens, _, _, hpriv, _, heq⟩ := mem_tableRows.1 (hg.tables.mem_iff.1 this)
  injection heq with q1 q2
  have hcc := rel_inj h ⟨hc', q2.symm.trans e2, ns, hns, ens, q1.symm.trans e1⟩ hc
  rw [hcc, hown, hread] at hpriv
  simp at hpriv

/-- A check on a foreign table: the check is read, the table is not, and introspection fails. -/
theorem C75_foreign_table_false (h : Sound g) (hg : Gives g S o cat) {s n : String} (hs : s ∈ S)
    {c : Class} (hc : g.Rel s n c) (hk : c.relkind = .other) (hown : c.owned = true) {k : Con}
    (hkk : k ∈ g.constraints) (hty : k.contype = .check) (e : k.conrelid = c.oid) :
    ¬ ∃ d, introspect cat = .ok d := by
  rw [C53_succeeds_iff]
  intro hcons
  obtain ⟨hc1, hc2, ns, hn, en, hns⟩ := id hc
  have hrow := mem_checkRows.2 ⟨k, hkk, ns, hn, en.trans (ns_of_con h hkk hc1 e.symm), c, hc1, e.symm,
    ⟨hown, hty, h.con_zero k hkk, by rw [hns]; exact hs⟩, rfl⟩
  have := hcons.constraint_table ((ns.nspname, c.relname), k.conname)
    (List.mem_append_right _ (List.mem_map.2 ⟨_, hg.checks.mem_iff.2 hrow, rfl⟩))
  obtain ⟨c', hc', ns', hns', ens', hkind, _, _, _, heq⟩ := mem_tableRows.1 (hg.tables.mem_iff.1 this)
  injection heq with q1 q2
  have hcc := rel_inj h ⟨hc', q2.symm.trans hc2, ns', hns', ens', q1.symm.trans hns⟩ hc
  rw [hcc, hk] at hkind
  rcases hkind with h | h <;> cases h

/-- A foreign key to columns with a unique index that belongs to no constraint: introspection fails. -/
theorem C75_unique_index_false (h : Sound g) (hg : Gives g S o cat) {s n : String} (hs : s ∈ S)
    {c : Class} (hc : g.Rel s n c) (hown : c.owned = true) {k : Con} (hk : k ∈ g.constraints)
    (hf : k.contype = .foreignKey) (e : k.conrelid = c.oid)
    (hno : ∀ d ∈ g.depends, d.classid = .class_ → d.objid = k.conindid → d.refclassid ≠ .constraint) :
    ¬ ∃ d, introspect cat = .ok d := by
  rw [C53_succeeds_iff]
  intro hcons
  obtain ⟨hc1, hc2, ns, hn, en, hns⟩ := id hc
  obtain ⟨fc, hfc, efc⟩ := h.fk_class k hk hf
  have htk : targetKeys g k = [none] := targetKeys_none h hk hf hno
  have hrow := (mem_foreignKeyRows (o := o)).2 ⟨k, hk, ns, hn, en.trans (ns_of_con h hk hc1 e.symm), c, hc1, e, fc, hfc,
    efc.symm, none, by rw [htk]; simp, none, by
      refine mem_leftJoin.2 (.inl ⟨?_, rfl⟩)
      simp, ⟨hf, .inl hown, by rw [hns]; exact hs⟩, rfl⟩
  exact (hcons.target _ (hg.foreignKeys.mem_iff.2 hrow)).1 rfl

/-- The index that such a foreign key uses: it is not read. -/
theorem C75_used_index_false (h : Sound g) (hg : Gives g S o cat) (hd : introspect cat = .ok d)
    {s n : String} (hs : s ∈ S) {c : Class} (hc : g.Rel s n c) {x : Idx} (hx : x ∈ g.indexes)
    (e : x.indexrelid = c.oid) (hat : x.indnkeyatts = x.indkey.length) (hno : ¬ g.OwnedIndex c.oid) {k : Con}
    (hk : k ∈ g.constraints) (hki : k.conindid = c.oid) : ¬ Shows g S d := by
  intro hsh
  obtain ⟨ss, hkeys⟩ := keys_exist (h.index_key x hx).2 (h.index_exprs x hx)
  obtain ⟨i, hi, e1, _⟩ := isIndex_exists h hc hx e hno (by rw [hat, List.take_length]; exact hkeys)
  exact (index_row h hg hd hc hx e ((hsh.indexes s n i).2 ⟨hs, e1, hi⟩)).1 k hk hki

/-- An index with an expression and another key: the expressions, with commas between them, are read as one
key, the columns not at all. -/
theorem C75_mixed_index_false (h : Sound g) (hg : Gives g S o cat) (hd : introspect cat = .ok d)
    {s n : String} (hs : s ∈ S) {c : Class} (hc : g.Rel s n c) {x : Idx} (hx : x ∈ g.indexes)
    (e : x.indexrelid = c.oid) (hat : x.indnkeyatts = x.indkey.length) (hno : ¬ g.OwnedIndex c.oid)
    (h0 : 0 ∈ x.indkey) (h2 : 2 ≤ x.indkey.length) :
    ¬ Shows g S d ∧
    ∀ i, HasRelation d s n (.index i) → i.keyExpressions = [", ".intercalate x.indexprs] := by
  have hex : exprsText x.indexprs = some (", ".intercalate x.indexprs) := by
    cases hh : x.indexprs with
    | nil =>
      have := h.index_exprs x hx
      rw [hh] at this
      exact absurd (by simp) ((List.countP_eq_zero.1 this.symm) 0 h0)
    | cons => rfl
  have hone : ∀ i, HasRelation d s n (.index i) → i.keyExpressions = [", ".intercalate x.indexprs] :=
    fun i hi => (index_row h hg hd hc hx e hi).2.1 _ hex
  refine ⟨fun hsh => ?_, hone⟩
  obtain ⟨ss, hkeys⟩ := keys_exist (h.index_key x hx).2 (h.index_exprs x hx)
  obtain ⟨i, hi, e1, e2⟩ := isIndex_exists h hc hx e hno (by rw [hat, List.take_length]; exact hkeys)
  have hlen := keys_length hkeys
  rw [← e2, hone i ((hsh.indexes s n i).2 ⟨hs, e1, hi⟩)] at hlen
  rw [← hlen] at h2
  simp at h2

/-- An index with further columns (`INCLUDE`): they are read as keys. -/
theorem C75_included_columns_false (h : Sound g) (ho : Lawful o) (hg : Gives g S o cat)
    (hd : introspect cat = .ok d) {s n : String} (hs : s ∈ S) {c : Class} (hc : g.Rel s n c) {x : Idx}
    (hx : x ∈ g.indexes) (e : x.indexrelid = c.oid) (hno : ¬ g.OwnedIndex c.oid) (h0 : 0 ∉ x.indkey)
    (hlt : x.indnkeyatts < x.indkey.length) : ¬ Shows g S d := by
  intro hsh
  have hnil : x.indexprs = [] := by
    have := h.index_exprs x hx
    rw [List.countP_eq_zero.2 (by intro n hn; simp only [decide_eq_true_eq]; rintro rfl; exact h0 hn)] at this
    exact List.eq_nil_of_length_eq_zero this
  have hat : ∀ n ∈ x.indkey, ∃ a ∈ g.attributes, a.attrelid = x.indrelid ∧ a.attnum = n := by
    intro n hn
    rcases (h.index_key x hx).2 n hn with rfl | h
    · exact absurd hn h0
    · exact h
  have hkeys : g.Keys x.indrelid (x.indkey.take x.indnkeyatts) x.indexprs
      (keyNames g x.indrelid (x.indkey.take x.indnkeyatts)) := by
    refine (keys_named fun hm => h0 (List.mem_of_mem_take hm)).2 ⟨hnil, ?_⟩
    exact named_keyNames h fun n hn => hat n (List.mem_of_mem_take hn)
  obtain ⟨i, hi, e1, e2⟩ := isIndex_exists h hc hx e hno hkeys
  have hrow := (index_row h hg hd hc hx e ((hsh.indexes s n i).2 ⟨hs, e1, hi⟩)).2.2 (by rw [hnil]; rfl)
  have hnm := named_keyNames h hat
  have hlen : i.keyExpressions.length = x.indkey.length := by
    cases hh : keyNames g x.indrelid x.indkey with
    | nil => exact absurd hh (named_ne_nil hnm (h.index_key x hx).1)
    | cons y ys =>
      rw [hh] at hrow
      rw [Option.some.inj hrow, (ho.index _ _).length_eq, ← hh, named_length hnm]
  have hlen' := keys_length hkeys
  rw [← e2, hlen, List.length_take] at hlen'
  omega

/-- A table in a schema for the temporary tables of another session: it is not read. -/
theorem C75_temporary_false (h : Sound g) (hg : Gives g S o cat) (hd : introspect cat = .ok d)
    {s n : String} (hs : s ∈ S) {c : Class} (hc : g.Rel s n c) (hk : c.relkind = .table)
    (htemp : ∃ ns ∈ g.namespaces, ns.nspname = s ∧ ns.otherTemp = true) : ¬ Shows g S d := by
  intro hsh
  have hrow := ((represents hd).tables s n).1 ((hsh.tables s n).2 ⟨hs, c, hc, .inl hk⟩)
  obtain ⟨_, _, ns, hns, _, _, hno, _, _, heq⟩ := mem_tableRows.1 (hg.tables.mem_iff.1 hrow)
  injection heq with q1 q2
  obtain ⟨ns', hns', e', ht⟩ := htemp
  have := ns_inj h hns hns' (q1.symm.trans e'.symm)
  subst this
  rw [ht] at hno
  cases hno

/-- A column with a modifier, such as `geometry(Point)`, whose type is not one of ten and not an array of
them: introspection fails. -/
theorem C75_modifier_false (h : Sound g) (hg : Gives g S o cat) {s n : String} (hs : s ∈ S) {c : Class}
    (hc : g.Rel s n c) (hk : c.relkind = .table)
    (htemp : ∀ ns ∈ g.namespaces, ns.nspname = s → ns.otherTemp = false) {a : Attribute}
    (ha : a ∈ g.attributes) (e : a.attrelid = c.oid) (hp : a.attnum > 0) (hdr : a.attisdropped = false)
    (hm : a.atttypmod ≠ -1) {u : Typ} (hu : u ∈ g.types) (eu : u.oid = a.atttypid)
    (hno : ∀ b ∈ modifiable, u.typname ≠ b ∧ u.typname ≠ "_" ++ b) : ¬ ∃ d, introspect cat = .ok d := by
  rw [C53_succeeds_iff]
  intro hcons
  obtain ⟨hc1, hc2, ns, hn, en, hns⟩ := hc
  obtain ⟨m, hm', em⟩ := h.type_ns u hu
  obtain ⟨ad, had⟩ := exists_leftJoin (g.attrdefs.filter fun ad => a.attrelid = ad.adrelid ∧ a.attnum = ad.adnum)
  refine hcons.column_type _ (hg.columns.mem_iff.2 (mem_columnRows.2 ⟨a, ha, ad, had, c, hc1, e, ns, hn, en.symm,
    u, hu, eu.symm, m, hm', em.symm, ⟨htemp ns hn hns, hp, hdr, hk, by rw [hns]; exact hs⟩, rfl⟩)) ?_
  have hnone : AMap.get? modified u.typname = none := by
    cases hg : AMap.get? modified u.typname with
    | none => rfl
    | some b =>
      obtain ⟨b', hb', hor⟩ := modified_known hg
      rcases hor with h | h
      · exact absurd h (hno b' hb').1
      · exact absurd h (hno b' hb').2
  show typeText g a u = none
  unfold typeText typeModifier
  rw [if_pos hm, hnone]
  cases typeName g u <;> rfl

/-- Something else that depends on a column and has the oid of a sequence (oids are different within one
system table only): a sequence that nothing owns is read as owned by that column. -/
theorem C75_owner_false (h : Sound g) (hg : Gives g S o cat) (hd : introspect cat = .ok d)
    {s n : String} (hs : s ∈ S) {c : Class} (hc : g.Rel s n c) {x : Seq} (hx : x ∈ g.sequences)
    (ex : x.seqrelid = c.oid) (hno : ∀ a, ¬ g.Owner c.oid a) {p : Depend} (hp : p ∈ g.depends)
    (ep : p.objid = c.oid) {a : Attribute} (ha : a ∈ g.attributes) (e1 : a.attrelid = p.refobjid)
    (e2 : a.attnum = p.refobjsubid) : ¬ Shows g S d := by
  intro hsh
  obtain ⟨hc1, hc2, ns, hn, en, hns⟩ := id hc
  obtain ⟨t, ht, et⟩ := h.seq_type x hx
  have hfind : (g.types.find? fun y => y.oid = x.seqtypid) = some t := by
    have := find_key h.type_oid ht
    rw [et] at this
    exact this
  have hown : a ∈ owners g x.seqrelid := by
    simp only [owners, List.mem_flatMap, List.mem_filter, decide_eq_true_eq]
    exact ⟨p, ⟨hp, ep.trans ex.symm⟩, ha, e1, e2⟩
  have hrow := mem_sequenceRows.2 ⟨x, hx, c, hc1, ex, ns, hn, en, some a, mem_leftJoin.2 (.inr ⟨a, hown, rfl⟩), t,
    hfind, by rw [hns]; exact hs, rfl⟩
  have hq := ((represents hd).sequences s n _).2 ⟨hns, hc2, _, hg.sequences.mem_iff.2 hrow, (sequenceOf_iff _ _).1 rfl⟩
  obtain ⟨_, _, c', hc', _, y, _, _, _, _, _, _, _, _, _, hcol, _⟩ := (hsh.sequences s n _).1 hq
  obtain ⟨b, hb, _⟩ := (hcol a.attname).1 rfl
  exact hno b (rel_inj h hc' ⟨hc1, rfl, ns, hn, en, hns⟩ ▸ hb)

/-- The same for a sequence that a column owns: it is listed twice, and introspection fails. -/
theorem C75_two_owners_false (h : Sound g) (hg : Gives g S o cat)
    {s n : String} (hs : s ∈ S) {c : Class} (hc : g.Rel s n c) {x : Seq} (hx : x ∈ g.sequences)
    (ex : x.seqrelid = c.oid) {a b : Attribute} (ha : g.Owner c.oid a) {p : Depend} (hp : p ∈ g.depends)
    (ep : p.objid = c.oid) (hb : b ∈ g.attributes) (e1 : b.attrelid = p.refobjid)
    (e2 : b.attnum = p.refobjsubid) (hne : a.attname ≠ b.attname) : ¬ ∃ d, introspect cat = .ok d := by
  rw [C53_succeeds_iff]
  intro hcons
  obtain ⟨hc1, hc2, ns, hn, en, hns⟩ := hc
  obtain ⟨t, ht, et⟩ := h.seq_type x hx
  have hfind : (g.types.find? fun y => y.oid = x.seqtypid) = some t := by
    have := find_key h.type_oid ht
    rw [et] at this
    exact this
  have row : ∀ a : Attribute, a ∈ owners g x.seqrelid → _ := fun a hown =>
    hg.sequences.mem_iff.2 (mem_sequenceRows.2 ⟨x, hx, c, hc1, ex, ns, hn, en, some a,
      mem_leftJoin.2 (.inr ⟨a, hown, rfl⟩), t, hfind, by rw [hns]; exact hs, rfl⟩)
  have ra := row a (by
    obtain ⟨ha, q, hq, _, eq1, _, eq2, eq3⟩ := ha
    simp only [owners, List.mem_flatMap, List.mem_filter, decide_eq_true_eq]
    exact ⟨q, ⟨hq, eq1.trans ex.symm⟩, ha, eq2.symm, eq3.symm⟩)
  have rb := row b (by
    simp only [owners, List.mem_flatMap, List.mem_filter, decide_eq_true_eq]
    exact ⟨p, ⟨hp, ep.trans ex.symm⟩, hb, e1, e2⟩)
  have hnd : (cat.sequences.map fun r : SequenceRow => (r.schema, r.name)).Nodup :=
    (List.nodup_append.1 (List.nodup_append.1 hcons.relations).1).1
  have := key_inj hnd ra rb rfl
  injection this with _ _ _ _ _ _ _ _ _ _ e
  exact hne (Option.some.inj e)

/-- A view: it is not read. -/
theorem C75_view_false (hd : introspect cat = .ok d) {s n : String} (hs : s ∈ S) {c : Class}
    (hc : g.Rel s n c) (hk : c.relkind = .view) : ¬ Shows g S d := by
  intro hsh
  exact (represents hd).views s n { name := n, schemaName := s, query := c.viewdef } ((hsh.views s n _).2 ⟨hs, rfl, rfl, c, hc, hk, rfl⟩)

/-- A function with parameters, or a procedure: it is read as a function without parameters. -/
theorem C75_parameters_false (h : Sound g) (hg : Gives g S o cat) (hd : introspect cat = .ok d)
    {ns : Namespace} (hns : ns ∈ g.namespaces) (hs : ns.nspname ∈ S) {p : Proc} (hp : p ∈ g.procs)
    (e : p.pronamespace = ns.oid) (hargs : p.pronargs ≠ 0 ∨ p.function = false) : ¬ Shows g S d := by
  intro hsh
  obtain ⟨l, hl, el⟩ := h.proc_lang p hp
  have hrow := mem_functionRows.2 ⟨p, hp, ns, hns, e, l, hl, el.symm, hs, rfl⟩
  obtain ⟨f, hf⟩ : ∃ f, HasFunction d ns.nspname p.proname f :=
    ⟨functionOf { schema := ns.nspname, name := p.proname, body := p.prosrc, language := l.lanname,
                  returns := if p.proretset then "setof " ++ p.prorettype else p.prorettype,
                  volatility := volatilityText p.provolatile }, ((represents hd).functions ns.nspname p.proname _).2
      ⟨rfl, rfl, _, hg.functions.mem_iff.2 hrow, ⟨rfl, rfl, rfl, rfl, rfl, rfl⟩⟩⟩
  obtain ⟨_, hnm, _, q, hq, hfn, hz, hname, ⟨ns', hns', ens', en⟩, _⟩ :=
    (hsh.functions ns.nspname p.proname f).1 hf
  rw [hnm] at hname
  have hnn := ns_inj h hns' hns en
  subst hnn
  have hne : p ≠ q := by
    rintro rfl
    rcases hargs with h | h
    · exact h hz
    · rw [hfn] at h; cases h
  have hnd := ((C53_succeeds_iff cat).1 ⟨d, hd⟩).functions
  have hnd' := (hg.functions.map fun r : FunctionRow => (r.schema, r.name)).nodup_iff.1 hnd
  rcases sublist_pair hp hq hne with hsub | hsub
  · exact functions_twice h hsub hns e ens'.symm hname.symm hs hnd'
  · exact functions_twice h hsub hns ens'.symm e hname hs hnd'

/-- Two functions of one name, which PostgreSQL allows if they have different parameters: introspection
fails. -/
theorem C75_overloaded_false (h : Sound g) (hg : Gives g S o cat) {ns : Namespace}
    (hns : ns ∈ g.namespaces) (hs : ns.nspname ∈ S) {p q : Proc} (hp : p ∈ g.procs) (hq : q ∈ g.procs)
    (hne : p ≠ q) (ep : p.pronamespace = ns.oid) (eq' : q.pronamespace = ns.oid)
    (hname : p.proname = q.proname) : ¬ ∃ d, introspect cat = .ok d := by
  rw [C53_succeeds_iff]
  intro hcons
  have hnd := hcons.functions
  have hnd' := (hg.functions.map fun r : FunctionRow => (r.schema, r.name)).nodup_iff.1 hnd
  rcases sublist_pair hp hq hne with hsub | hsub
  · exact functions_twice h hsub hns ep eq' hname hs hnd'
  · exact functions_twice h hsub hns eq' ep hname.symm hs hnd'

/-! ### Examples -/

/-- The hypotheses of `C75_reads_partial` are met by a database, and this is what is read of it. -/
example : Sound demoSystem ∧ Readable demoSystem ["public"] inOrder ∧ Lawful inOrder ∧
    Gives demoSystem ["public"] inOrder (rows demoSystem ["public"] inOrder) :=
  ⟨demoSystem_sound, demoSystem_readable, inOrder_lawful, gives_rows _ _ _⟩

example : (rows demoSystem ["public"] inOrder).columns = [
      ⟨"public", "users", "id", "nextval('users_id_seq'::regclass)", true, some "int8"⟩,
      ⟨"public", "users", "email", "", false, some "varchar(20)"⟩,
      ⟨"public", "users", "tags", "", false, some "varchar(20)[]"⟩,
      ⟨"public", "posts", "id", "", true, some "int8"⟩,
      ⟨"public", "posts", "author", "", false, some "int8"⟩] ∧
    (rows demoSystem ["public"] inOrder).foreignKeys = [
      ⟨"author", "public", "posts", ["author"], "users", some "public", some ["id"], false, false, "FULL",
        "NO ACTION", "CASCADE"⟩] ∧
    (rows demoSystem ["public"] inOrder).checks = [
      ⟨"public", "users", "positive", "((id > 0))", false, false⟩] ∧
    (rows demoSystem ["public"] inOrder).indexes = [
      ⟨"public", "by_author", "posts", false, "btree", some ["author", "id"], none⟩,
      ⟨"public", "by_lower", "users", true, "btree", none, some "lower((email)::text)"⟩] ∧
    (rows demoSystem ["public"] inOrder).sequences = [
      ⟨"public", "users_id_seq", "int8", 1, 1, 9223372036854775807, 1, 1, false, some "users", some "id"⟩] := by
  decide +kernel

/-- So are those of `C75_clone_partial`. -/
example : (rows demoSystem ["public"] inOrder).Expressible ∧
    ∀ r ∈ (rows demoSystem ["public"] inOrder).sequences, r.Int64 := by
  refine ⟨⟨by decide +kernel, by decide +kernel, by decide +kernel, by decide +kernel, by decide +kernel,
    by decide +kernel, by decide +kernel, by decide +kernel, by decide +kernel, by decide +kernel⟩, ?_⟩
  have : (rows demoSystem ["public"] inOrder).sequences = [⟨"public", "users_id_seq", "int8", 1, 1,
      9223372036854775807, 1, 1, false, some "users", some "id"⟩] := by decide +kernel
  rw [this]
  intro r hr
  cases List.mem_singleton.1 hr
  exact ⟨⟨by decide, by decide⟩, ⟨by decide, by decide⟩, ⟨by decide, by decide⟩, ⟨by decide, by decide⟩,
    ⟨by decide, by decide⟩⟩

/-- The hypotheses of each theorem about what is read wrong are met in `oddSystem`, which is read. -/
example : ∃ d, introspect (rows oddSystem ["public"] inOrder) = .ok d := ⟨_, rfl⟩

theorem odd_rel (i : Fin oddSystem.classes.length) (e : oddSystem.classes[i].relnamespace = 2200) :
    oddSystem.Rel "public" oddSystem.classes[i].relname oddSystem.classes[i] :=
  ⟨List.getElem_mem _, rfl, { oid := 2200, nspname := "public" }, by decide, e.symm, rfl⟩

section
variable {d : Database} (hd : introspect (rows oddSystem ["public"] inOrder) = .ok d)
include hd

-- the foreign key `usual`
example : ¬ Shows oddSystem ["public"] d :=
  C75_simple_match_false oddSystem_sound (gives_rows _ _ _) hd (by decide) (odd_rel ⟨10, by decide⟩ rfl)
    (k := oddSystem.constraints[7]) (List.getElem_mem _) rfl rfl rfl

-- the foreign keys `forward` and `backward`
example : ¬ Shows oddSystem ["public"] d :=
  C75_target_order_false oddSystem_sound (gives_rows _ _ _) hd (by decide) (by decide)
    (odd_rel ⟨10, by decide⟩ rfl) (odd_rel ⟨10, by decide⟩ rfl) (k := oddSystem.constraints[5])
    (k' := oddSystem.constraints[6]) (p := oddSystem.constraints[4]) (List.getElem_mem _) (List.getElem_mem _)
    (List.getElem_mem _) rfl rfl (.inl rfl) rfl rfl rfl rfl rfl (by decide)

-- the table `measures`
example : ¬ Shows oddSystem ["public"] d :=
  C75_partitioned_false oddSystem_sound (gives_rows _ _ _) hd (by decide) (odd_rel ⟨7, by decide⟩ rfl) rfl
    (a := oddSystem.attributes[7]) (List.getElem_mem _) rfl (by decide) rfl rfl

-- the column `p`
example : ¬ Shows oddSystem ["public"] d := by
  refine C75_element_type_false oddSystem_sound (gives_rows _ _ _) hd (by decide) (odd_rel ⟨10, by decide⟩ rfl)
    rfl (a := oddSystem.attributes[12]) (List.getElem_mem _) rfl (by decide) rfl rfl rfl
    (u := oddSystem.types[5]) (List.getElem_mem _) rfl (by decide) (by decide) ?_
  intro x e
  have h1 := congrArg (fun s : String => s.toList.getLast?) e
  simp only [String.toList_append] at h1
  have h2 : (x.toList ++ "[]".toList).getLast? = some ']' := by simp
  rw [h2] at h1
  revert h1
  decide

-- the column `g`
example : ¬ Shows oddSystem ["public"] d :=
  C75_generated_false oddSystem_sound (gives_rows _ _ _) hd (by decide) (odd_rel ⟨10, by decide⟩ rfl) rfl
    (by decide) (a := oddSystem.attributes[13]) (List.getElem_mem _) rfl (by decide) rfl rfl

-- the index `used`
example : ¬ Shows oddSystem ["public"] d :=
  C75_used_index_false oddSystem_sound (gives_rows _ _ _) hd (by decide) (odd_rel ⟨13, by decide⟩ rfl)
    (x := oddSystem.indexes[7]) (List.getElem_mem _) rfl rfl (by unfold System.OwnedIndex; decide)
    (k := oddSystem.constraints[8]) (List.getElem_mem _) rfl

-- the index `mixed`
example : ¬ Shows oddSystem ["public"] d :=
  (C75_mixed_index_false oddSystem_sound (gives_rows _ _ _) hd (by decide) (odd_rel ⟨11, by decide⟩ rfl)
    (x := oddSystem.indexes[5]) (List.getElem_mem _) rfl rfl (by unfold System.OwnedIndex; decide) (by decide)
    (by decide)).1

-- the index `covering`
example : ¬ Shows oddSystem ["public"] d :=
  C75_included_columns_false oddSystem_sound inOrder_lawful (gives_rows _ _ _) hd (by decide)
    (odd_rel ⟨12, by decide⟩ rfl) (x := oddSystem.indexes[6]) (List.getElem_mem _) rfl
    (by unfold System.OwnedIndex; decide) (by decide) (by decide)

-- the view `v`
example : ¬ Shows oddSystem ["public"] d :=
  C75_view_false hd (by decide) (odd_rel ⟨15, by decide⟩ rfl) rfl

-- the function `add`
example : ¬ Shows oddSystem ["public"] d :=
  C75_parameters_false oddSystem_sound (gives_rows _ _ _) hd (ns := { oid := 2200, nspname := "public" })
    (by decide) (by decide) (p := oddSystem.procs[1]) (List.getElem_mem _) rfl (.inl (by decide))

end

-- the sequence `free`
example {d : Database} (hd : introspect (rows oddSystem ["public"] inOrder) = .ok d) :
    ¬ Shows oddSystem ["public"] d :=
  C75_owner_false oddSystem_sound (gives_rows _ _ _) hd (by decide) (odd_rel ⟨16, by decide⟩ rfl)
    (x := oddSystem.sequences[1]) (List.getElem_mem _) rfl
    (by
      have : ∀ a ∈ oddSystem.attributes, ¬ ∃ d ∈ oddSystem.depends, d.classid = .class_ ∧ d.objid = 119 ∧
        d.refclassid = .class_ ∧ d.refobjid = a.attrelid ∧ d.refobjsubid = a.attnum := by decide +kernel
      exact fun a ha => this a ha.1 ha.2)
    (p := { classid := .other, objid := 119, refclassid := .class_, refobjid := 100, refobjsubid := 2 })
    (by decide) rfl (a := oddSystem.attributes[1]) (List.getElem_mem _) rfl rfl

-- the table `scratch` of another session
example {d : Database} (hd : introspect (rows oddSystem ["pg_temp_3"] inOrder) = .ok d) :
    ¬ Shows oddSystem ["pg_temp_3"] d :=
  C75_temporary_false oddSystem_sound (gives_rows _ _ _) hd (s := "pg_temp_3") (by decide)
    (c := oddSystem.classes[17])
    ⟨List.getElem_mem _, rfl, { oid := 3003, nspname := "pg_temp_3", otherTemp := true }, by decide, rfl, rfl⟩ rfl
    ⟨{ oid := 3003, nspname := "pg_temp_3", otherTemp := true }, by decide, rfl, rfl⟩

example : ∃ d, introspect (rows oddSystem ["pg_temp_3"] inOrder) = .ok d := ⟨_, rfl⟩

-- the key of `pairs`
example : ∃ o, Lawful o ∧ ∀ cat d, Gives oddSystem ["public"] o cat → introspect cat = .ok d →
    ¬ Shows oddSystem ["public"] d :=
  C75_key_order_false oddSystem_sound (by decide) (odd_rel ⟨8, by decide⟩ rfl) (k := oddSystem.constraints[4])
    (List.getElem_mem _) rfl rfl (by decide) (by decide)

theorem bad_rel (i : Fin badSystem.classes.length) (e : badSystem.classes[i].relnamespace = 2200) :
    badSystem.Rel "public" badSystem.classes[i].relname badSystem.classes[i] :=
  ⟨List.getElem_mem _, rfl, { oid := 2200, nspname := "public" }, by decide, e.symm, rfl⟩

-- the table `secret`, the check `remote_positive`, the foreign key `tagged` and the functions `one`
example : ¬ ∃ d, introspect (rows badSystem ["public"] inOrder) = .ok d :=
  C75_unprivileged_false badSystem_sound (gives_rows _ _ _) (by decide) (bad_rel ⟨7, by decide⟩ rfl) rfl
    (by decide) rfl rfl (a := badSystem.attributes[7]) (List.getElem_mem _) rfl (by decide) rfl

example : ¬ ∃ d, introspect (rows badSystem ["public"] inOrder) = .ok d :=
  C75_foreign_table_false badSystem_sound (gives_rows _ _ _) (by decide) (bad_rel ⟨8, by decide⟩ rfl) rfl rfl
    (k := badSystem.constraints[4]) (List.getElem_mem _) rfl rfl

example : ¬ ∃ d, introspect (rows badSystem ["public"] inOrder) = .ok d :=
  C75_unique_index_false badSystem_sound (gives_rows _ _ _) (by decide) (bad_rel ⟨1, by decide⟩ rfl) rfl
    (k := badSystem.constraints[5]) (List.getElem_mem _) rfl rfl (by decide)

example : ¬ ∃ d, introspect (rows badSystem ["public"] inOrder) = .ok d :=
  C75_overloaded_false badSystem_sound (gives_rows _ _ _) (ns := { oid := 2200, nspname := "public" })
    (by decide) (by decide) (p := badSystem.procs[0]) (q := badSystem.procs[1]) (List.getElem_mem _)
    (List.getElem_mem _) (by decide) rfl rfl rfl

-- the column `shape`
example : ¬ ∃ d, introspect (rows badSystem ["public"] inOrder) = .ok d :=
  C75_modifier_false badSystem_sound (gives_rows _ _ _) (by decide) (bad_rel ⟨0, by decide⟩ rfl) rfl
    (by decide) (a := badSystem.attributes[9]) (List.getElem_mem _) rfl (by decide) rfl (by decide)
    (u := badSystem.types[6]) (List.getElem_mem _) rfl (by decide)

-- the sequence `users_id_seq`
example : ¬ ∃ d, introspect (rows badSystem ["public"] inOrder) = .ok d :=
  C75_two_owners_false badSystem_sound (gives_rows _ _ _) (by decide) (bad_rel ⟨2, by decide⟩ rfl)
    (x := badSystem.sequences[0]) (List.getElem_mem _) rfl (a := badSystem.attributes[0])
    (b := badSystem.attributes[1])
    ⟨List.getElem_mem _, { classid := .class_, objid := 102, refclassid := .class_, refobjid := 100, refobjsubid := 1 },
      by decide, rfl, rfl, rfl, rfl, rfl⟩
    (p := { classid := .other, objid := 102, refclassid := .class_, refobjid := 100, refobjsubid := 2 })
    (by decide) rfl (List.getElem_mem _) rfl rfl (by decide)

end Sys
end Podo
