import Verif.Proofs.Queries
/-
Lemmas about the catalogue queries for constraints, indexes and functions.
-/
namespace Podo
namespace Sys
open Introspect

variable {g : System} {S : List String}

/-! ### Names of columns -/

theorem keyNames_of_named (h : Sound g) {rel : Nat} {ks : List Int} {ss : List String}
    (hn : g.Named rel ks ss) : keyNames g rel ks = ss := by
  induction hn with
  | nil => rfl
  | @cons a n ns ss ha e1 e2 _ ih =>
    unfold keyNames at ih ⊢
    rw [List.flatMap_cons, ih, filter_key h.attr_num (x := a) ha (by simp [e1, e2])]
    rfl

theorem named_keyNames (h : Sound g) {rel : Nat} {ks : List Int}
    (hk : ∀ n ∈ ks, ∃ a ∈ g.attributes, a.attrelid = rel ∧ a.attnum = n) :
    g.Named rel ks (keyNames g rel ks) := by
  induction ks with
  | nil => exact .nil
  | cons n ns ih =>
    obtain ⟨a, ha, e1, e2⟩ := hk n (by simp)
    have := ih fun m hm => hk m (List.mem_cons_of_mem _ hm)
    unfold keyNames at this ⊢
    rw [List.flatMap_cons, filter_key h.attr_num (x := a) ha (by simp [e1, e2])]
    exact .cons ha e1 e2 this

theorem named_length {rel : Nat} {ks : List Int} {ss : List String} (hn : g.Named rel ks ss) :
    ss.length = ks.length := by
  induction hn with
  | nil => rfl
  | cons _ _ _ _ ih => simp [ih]

theorem named_ne_nil {rel : Nat} {ks : List Int} {ss : List String} (hn : g.Named rel ks ss)
    (hk : ks ≠ []) : ss ≠ [] := by
  cases hn with
  | nil => exact absurd rfl hk
  | cons => simp

theorem named_inj (h : Sound g) {rel : Nat} {ks : List Int} {ss ts : List String}
    (hs : g.Named rel ks ss) (ht : g.Named rel ks ts) : ss = ts := by
  rw [← keyNames_of_named h hs, keyNames_of_named h ht]

theorem perm_one {xs ys : List String} (h : xs.Perm ys) (hl : ys.length = 1) : xs = ys := by
  match ys, hl with
  | [y], _ => exact List.perm_singleton.1 h

theorem arrayAgg_order {order : List String → List String} (hp : ∀ xs, (order xs).Perm xs)
    {xs : List String} (hne : xs ≠ []) (h : xs.length = 1 ∨ ∀ xs, order xs = xs) :
    arrayAgg order xs = some xs := by
  cases xs with
  | nil => exact absurd rfl hne
  | cons x t =>
    rcases h with h | h
    · simp [arrayAgg, perm_one (hp (x :: t)) h]
    · simp [arrayAgg, h]

/-! ### Constraints -/

/-- The constraint `k` is on the table, of the name. -/
def ConAt (g : System) (k : Con) (p : (String × String) × String) : Prop :=
  k ∈ g.constraints ∧ k.conname = p.2 ∧ ∃ c, g.Rel p.1.1 p.1.2 c ∧ c.oid = k.conrelid

theorem conAt_inj (h : Sound g) {k k' : Con} {p : (String × String) × String} (hk : ConAt g k p)
    (hk' : ConAt g k' p) : k = k' := by
  obtain ⟨h1, h2, c, h3, h4⟩ := hk
  obtain ⟨h1', h2', c', h3', h4'⟩ := hk'
  have := rel_inj h h3 h3'
  subst this
  exact key_inj h.con_name h1 h1' (by simp [← h4, ← h4', h2, h2'])

theorem ns_of_con (h : Sound g) {k : Con} (hk : k ∈ g.constraints) {c : Class} (hc : c ∈ g.classes)
    (e : c.oid = k.conrelid) : c.relnamespace = k.connamespace := by
  obtain ⟨c', hc', e', en, _⟩ := h.con_class k hk
  rw [class_inj h hc hc' (e.trans e'.symm), en]

theorem mem_keyRows {o : Aggs} {ty : ConType} {r : KeyRow} :
    r ∈ keyRows g S o ty ↔ ∃ k ∈ g.constraints, ∃ n ∈ g.namespaces, n.oid = k.connamespace ∧
      ∃ c ∈ g.classes, k.conrelid = c.oid ∧ ∃ m ∈ g.namespaces, m.oid = c.relnamespace ∧
      (k.contype = ty ∧ (c.relkind = .table ∨ c.relkind = .partitioned) ∧ m.otherTemp = false ∧
        (c.owned = true ∨ c.writable = true) ∧ n.nspname ∈ S) ∧
      r = { schema := n.nspname, name := k.conname, tableName := c.relname,
            tableColumns := (arrayAgg (o.key k.oid) (keyNames g k.conrelid k.conkey)).getD [],
            deferrable := k.condeferrable, initiallyDeferred := k.condeferred } := by
  simp only [keyRows, List.mem_flatMap, List.mem_filter, decide_eq_true_eq, mem_ite]
  constructor
  · rintro ⟨k, hk, n, ⟨hn, en⟩, c, ⟨hc, ec⟩, m, ⟨hm, em⟩, ⟨h1, h2, h3, h4, h5⟩, rfl⟩
    exact ⟨k, hk, n, hn, en, c, hc, ec, m, hm, em, ⟨h1, h2, by simpa using h3, h4, h5⟩, rfl⟩
  · rintro ⟨k, hk, n, hn, en, c, hc, ec, m, hm, em, ⟨h1, h2, h3, h4, h5⟩, rfl⟩
    exact ⟨k, hk, n, ⟨hn, en⟩, c, ⟨hc, ec⟩, m, ⟨hm, em⟩, ⟨h1, h2, by simpa using h3, h4, h5⟩, rfl⟩

theorem keyRow_at (h : Sound g) {o : Aggs} {ty : ConType} {r : KeyRow} (hr : r ∈ keyRows g S o ty) :
    ∃ k, ConAt g k ((r.schema, r.tableName), r.name) ∧ k.contype = ty ∧ r.schema ∈ S ∧
      ∃ c, g.Rel r.schema r.tableName c ∧ (c.relkind = .table ∨ c.relkind = .partitioned) ∧
        (∃ m ∈ g.namespaces, m.nspname = r.schema ∧ m.otherTemp = false) := by
  obtain ⟨k, hk, n, hn, en, c, hc, ec, m, hm, em, ⟨h1, h2, h3, _, h5⟩, rfl⟩ := mem_keyRows.1 hr
  have : n = m := key_inj h.ns_oid hn hm (by rw [en, em, ns_of_con h hk hc ec.symm])
  subst this
  exact ⟨k, ⟨hk, rfl, c, ⟨hc, rfl, n, hn, em, rfl⟩, ec.symm⟩, h1, h5, c, ⟨hc, rfl, n, hn, em, rfl⟩, h2,
    n, hn, rfl, h3⟩

theorem nodup_keyRows (h : Sound g) {o : Aggs} {ty : ConType} :
    ((keyRows g S o ty).map fun r => ((r.schema, r.tableName), r.name)).Nodup := by
  unfold keyRows
  refine nodup_rows h.con_oid (fun k _ => ?_) ?_
  · refine one_flatMap (one_filter_key h.ns_oid (k := k.connamespace) (by simp)) fun n _ => ?_
    refine one_flatMap (one_filter_key h.class_oid (k := k.conrelid) (by simp +contextual)) fun c _ => ?_
    exact one_flatMap (one_filter_key h.ns_oid (k := c.relnamespace) (by simp)) fun m _ => one_ite _
  · intro k hk k' hk' x hx y hy e
    simp only [List.mem_flatMap, List.mem_filter, decide_eq_true_eq, mem_ite] at hx hy
    obtain ⟨n, ⟨hn, en⟩, c, ⟨hc, ec⟩, _, _, _, rfl⟩ := hx
    obtain ⟨n', ⟨hn', en'⟩, c', ⟨hc', ec'⟩, _, _, _, rfl⟩ := hy
    simp only [Prod.mk.injEq] at e
    have hcc := class_place h hc hc' hn hn' (en.trans (ns_of_con h hk hc ec.symm).symm)
      (en'.trans (ns_of_con h hk' hc' ec'.symm).symm) e.1.1 e.1.2
    rw [key_inj h.con_name hk hk' (by simp [ec, ec', hcc, e.2])]

theorem mem_checkRows {r : CheckRow} :
    r ∈ checkRows g S ↔ ∃ k ∈ g.constraints, ∃ n ∈ g.namespaces, n.oid = k.connamespace ∧
      ∃ c ∈ g.classes, c.oid = k.conrelid ∧
      (c.owned = true ∧ k.contype = .check ∧ k.conrelid ≠ 0 ∧ n.nspname ∈ S) ∧
      r = { schema := n.nspname, table := c.relname, name := k.conname,
            checkClause := afterCheck k.condef, isDeferrable := k.condeferrable,
            initiallyDeferred := k.condeferred } := by
  simp only [checkRows, List.mem_flatMap, List.mem_filter, decide_eq_true_eq, mem_ite]
  constructor
  · rintro ⟨k, hk, n, ⟨hn, en⟩, c, ⟨hc, ec⟩, h1, rfl⟩
    exact ⟨k, hk, n, hn, en, c, hc, ec, h1, rfl⟩
  · rintro ⟨k, hk, n, hn, en, c, hc, ec, h1, rfl⟩
    exact ⟨k, hk, n, ⟨hn, en⟩, c, ⟨hc, ec⟩, h1, rfl⟩

theorem checkRow_at (h : Sound g) {r : CheckRow} (hr : r ∈ checkRows g S) :
    ∃ k, ConAt g k ((r.schema, r.table), r.name) ∧ k.contype = .check ∧ r.schema ∈ S := by
  obtain ⟨k, hk, n, hn, en, c, hc, ec, ⟨_, h2, _, h4⟩, rfl⟩ := mem_checkRows.1 hr
  exact ⟨k, ⟨hk, rfl, c, ⟨hc, rfl, n, hn, by rw [en, ns_of_con h hk hc ec], rfl⟩, ec⟩, h2, h4⟩

theorem nodup_checkRows (h : Sound g) :
    ((checkRows g S).map fun r => ((r.schema, r.table), r.name)).Nodup := by
  unfold checkRows
  refine nodup_rows h.con_oid (fun k _ => ?_) ?_
  · refine one_flatMap (one_filter_key h.ns_oid (k := k.connamespace) (by simp)) fun n _ => ?_
    exact one_flatMap (one_filter_key h.class_oid (k := k.conrelid) (by simp)) fun c _ => one_ite _
  · intro k hk k' hk' x hx y hy e
    simp only [List.mem_flatMap, List.mem_filter, decide_eq_true_eq, mem_ite] at hx hy
    obtain ⟨n, ⟨hn, en⟩, c, ⟨hc, ec⟩, _, rfl⟩ := hx
    obtain ⟨n', ⟨hn', en'⟩, c', ⟨hc', ec'⟩, _, rfl⟩ := hy
    simp only [Prod.mk.injEq] at e
    have hcc := class_place h hc hc' hn hn' (en.trans (ns_of_con h hk hc ec).symm)
      (en'.trans (ns_of_con h hk' hc' ec').symm) e.1.1 e.1.2
    rw [key_inj h.con_name hk hk' (by simp [← ec, ← ec', hcc, e.2])]

/-! ### Foreign keys -/

/-- The row for a foreign key, with the key it refers to. -/
def fkRow (g : System) (o : Aggs) (k : Con) (n : Namespace) (c fc : Class) (pkc : Option Con)
    (npkc : Option Namespace) : ForeignKeyRow :=
  { constraintName := k.conname, constraintSchema := n.nspname, constraintTableName := c.relname,
    columns := (arrayAgg (o.key k.oid) (keyNames g k.conrelid k.conkey)).getD [],
    targetTableName := fc.relname, targetTableSchema := npkc.map (·.nspname),
    targetTableColumns := pkc.bind fun p => arrayAgg (o.target k.oid) (targetNames g fc p),
    deferrable := k.condeferrable, initiallyDeferred := k.condeferred,
    matchOption := matchText k.confmatchtype, updateRule := actionText k.confupdtype,
    deleteRule := actionText k.confdeltype }

theorem mem_foreignKeyRows {o : Aggs} {r : ForeignKeyRow} :
    r ∈ foreignKeyRows g S o ↔ ∃ k ∈ g.constraints, ∃ n ∈ g.namespaces, n.oid = k.connamespace ∧
      ∃ c ∈ g.classes, k.conrelid = c.oid ∧ ∃ fc ∈ g.classes, k.confrelid = fc.oid ∧
      ∃ pkc ∈ targetKeys g k, ∃ npkc ∈ leftJoin (g.namespaces.filter fun npkc =>
        pkc.map (·.connamespace) = some npkc.oid),
      (k.contype = .foreignKey ∧ (c.owned = true ∨ c.writable = true) ∧ n.nspname ∈ S) ∧
      r = fkRow g o k n c fc pkc npkc := by
  simp only [foreignKeyRows, List.mem_flatMap, List.mem_filter, decide_eq_true_eq, mem_ite, fkRow]
  constructor
  · rintro ⟨k, hk, n, ⟨hn, en⟩, c, ⟨hc, ec⟩, fc, ⟨hfc, efc⟩, p, hp, np, hnp, h1, rfl⟩
    exact ⟨k, hk, n, hn, en, c, hc, ec, fc, hfc, efc, p, hp, np, hnp, h1, rfl⟩
  · rintro ⟨k, hk, n, hn, en, c, hc, ec, fc, hfc, efc, p, hp, np, hnp, h1, rfl⟩
    exact ⟨k, hk, n, ⟨hn, en⟩, c, ⟨hc, ec⟩, fc, ⟨hfc, efc⟩, p, hp, np, hnp, h1, rfl⟩

theorem foreignKeyRow_at (h : Sound g) {o : Aggs} {r : ForeignKeyRow}
    (hr : r ∈ foreignKeyRows g S o) :
    ∃ k, ConAt g k ((r.constraintSchema, r.constraintTableName), r.constraintName) ∧
      k.contype = .foreignKey ∧ r.constraintSchema ∈ S := by
  obtain ⟨k, hk, n, hn, en, c, hc, ec, fc, _, _, p, _, np, _, ⟨h1, _, h3⟩, rfl⟩ := mem_foreignKeyRows.1 hr
  exact ⟨k, ⟨hk, rfl, c, ⟨hc, rfl, n, hn, by rw [en, ns_of_con h hk hc ec.symm], rfl⟩, ec.symm⟩, h1, h3⟩

/-- A foreign key is joined with the key whose index it uses. -/
theorem targetKeys_eq (h : Sound g) {k p : Con} (hk : k ∈ g.constraints) (hf : k.contype = .foreignKey)
    (hp : p ∈ g.constraints) (ht : p.contype = .primaryKey ∨ p.contype = .unique)
    (hi : p.conindid = k.conindid) : targetKeys g k = [some p] := by
  obtain ⟨d1, e1, e1'⟩ := h.fk_index k hk hf
  obtain ⟨d2, e2, e2'⟩ := h.key_index p hp ht
  have f1 : (g.depends.filter fun d1 => d1.objid = k.oid ∧ d1.classid = .constraint ∧
      d1.refclassid = .class_ ∧ d1.refobjsubid = 0) = [d1] := by
    rw [← e1]
    refine List.filter_congr fun d _ => ?_
    rw [decide_eq_decide]
    constructor
    · rintro ⟨a, b, c⟩; exact ⟨b, a, c⟩
    · rintro ⟨a, b, c⟩; exact ⟨b, a, c⟩
  have f2 : (g.depends.filter fun d2 => d2.refclassid = .constraint ∧ d2.classid = .class_ ∧
      some d2.objid = (some d1).map (·.refobjid) ∧ d2.objsubid = 0 ∧ d2.internal) = [d2] := by
    rw [← e2]
    refine List.filter_congr fun d _ => ?_
    rw [decide_eq_decide, Option.map_some, Option.some_inj, e1', ← hi]
    constructor
    · rintro ⟨a, b, c, d, e⟩; exact ⟨b, c, d, a, e⟩
    · rintro ⟨a, b, c, d, e⟩; exact ⟨d, a, b, c, e⟩
  have f3 : (g.constraints.filter fun pkc => some pkc.oid = (some d2).map (·.refobjid) ∧
      (pkc.contype = .primaryKey ∨ pkc.contype = .unique) ∧ pkc.conrelid = k.confrelid) = [p] := by
    refine filter_key h.con_oid hp fun q hq => ?_
    rw [decide_eq_true_eq, Option.map_some, Option.some_inj, e2']
    constructor
    · exact fun x => x.1
    · intro e
      have := key_inj h.con_oid hq hp e
      subst this
      exact ⟨rfl, ht, (h.fk_columns k hk hf q hp ht hi).1⟩
  unfold targetKeys
  rw [f1]
  simp only [leftJoin, List.map_cons, List.map_nil, List.flatMap_cons, List.flatMap_nil, List.append_nil]
  rw [f2]
  simp only [List.map_cons, List.map_nil, List.flatMap_cons, List.flatMap_nil, List.append_nil]
  rw [f3]
  rfl

theorem named_map {rel : Nat} {l : List Attribute}
    (h : ∀ a ∈ l, a ∈ g.attributes ∧ a.attrelid = rel) :
    g.Named rel (l.map (·.attnum)) (l.map (·.attname)) := by
  induction l with
  | nil => exact .nil
  | cons a t ih =>
    obtain ⟨h1, h2⟩ := h a (by simp)
    exact .cons h1 h2 rfl (ih fun b hb => h b (List.mem_cons_of_mem _ hb))

/-- The columns referred to, in the order of the foreign key. -/
theorem targetNames_named (h : Sound g) {o : Aggs} (ho : Lawful o) (hr : Readable g S o) {k p : Con}
    (hk : k ∈ g.constraints) (hf : k.contype = .foreignKey) {c : Class} (hc : c ∈ g.classes)
    (ec : c.oid = k.conrelid) (hin : g.In S c) (hp : p ∈ g.constraints)
    (ht : p.contype = .primaryKey ∨ p.contype = .unique) (hi : p.conindid = k.conindid) {fc : Class}
    (ef : fc.oid = k.confrelid) :
    ∃ ss, arrayAgg (o.target k.oid) (targetNames g fc p) = some ss ∧ g.Named fc.oid k.confkey ss := by
  obtain ⟨hrel, hperm⟩ := h.fk_columns k hk hf p hp ht hi
  have hne : p.conkey ≠ [] :=
    (h.con_key p hp (by rcases ht with e | e <;> rw [e] <;> simp) (by rcases ht with e | e <;> rw [e] <;> simp)).1
  have hne' : k.confkey ≠ [] := by
    intro e
    rw [e] at hperm
    exact hne hperm.symm.eq_nil
  have hl : (g.attributes.filter fun pa => fc.oid = pa.attrelid ∧ fc.oid = p.conrelid ∧
      pa.attnum ∈ p.conkey ∧ ¬ pa.attisdropped) =
      g.attributes.filter fun a => a.attrelid = k.confrelid ∧ a.attnum ∈ k.confkey := by
    refine List.filter_congr fun a ha => ?_
    rw [decide_eq_decide]
    constructor
    · rintro ⟨h1, _, h3, _⟩
      exact ⟨by rw [← h1, ef], hperm.mem_iff.2 h3⟩
    · rintro ⟨h1, h2⟩
      refine ⟨by rw [h1, ef], by rw [ef, hrel], hperm.mem_iff.1 h2, ?_⟩
      obtain ⟨b, hb, e1, e2, e3⟩ := h.fk_key k hk hf _ h2
      have := key_inj h.attr_num ha hb (by simp [h1, e1, e2])
      rw [this, e3]
      simp
  have hn : ∃ ss, targetNames g fc p = ss ∧ g.Named fc.oid k.confkey ss ∧
      (ss.length = 1 ∨ ∀ xs, o.target k.oid xs = xs) := by
    unfold targetNames
    rw [hl, ef]
    rcases (hr.fk k hk hf c hc ec hin).2 with h1 | ⟨h1, h2⟩
    · match hck : k.confkey, h1 with
      | [n], _ =>
        obtain ⟨a, ha, e1, e2, _⟩ := h.fk_key k hk hf n (by rw [hck]; simp)
        rw [filter_key h.attr_num ha (by simp [e1, e2])]
        exact ⟨[a.attname], rfl, .cons ha e1 e2 .nil, .inl rfl⟩
    · refine ⟨_, rfl, ?_, .inr h1⟩
      have := named_map (g := g) (rel := k.confrelid) (l := g.attributes.filter fun a =>
        a.attrelid = k.confrelid ∧ a.attnum ∈ k.confkey) (by
          intro a ha
          rw [List.mem_filter, decide_eq_true_eq] at ha
          exact ⟨ha.1, ha.2.1⟩)
      rw [h2] at this
      exact this
  obtain ⟨ss, e, hnm, ho'⟩ := hn
  exact ⟨ss, by rw [e, arrayAgg_order (ho.target _) (named_ne_nil hnm hne') ho'], hnm⟩

theorem flatMap_nil {α β : Type} {l : List α} {f : α → List β} (h : ∀ x ∈ l, f x = []) :
    l.flatMap f = [] := List.flatMap_eq_nil_iff.2 h

theorem in_of_con (h : Sound g) {k : Con} (hk : k ∈ g.constraints) {n : Namespace}
    (hn : n ∈ g.namespaces) (en : n.oid = k.connamespace) (hS : n.nspname ∈ S) {c : Class}
    (hc : c ∈ g.classes) (ec : c.oid = k.conrelid) : g.In S c :=
  ⟨n, hn, by rw [en, ns_of_con h hk hc ec], hS⟩

theorem nodup_foreignKeyRows (h : Sound g) {o : Aggs} (hr : Readable g S o) :
    ((foreignKeyRows g S o).map fun r =>
      ((r.constraintSchema, r.constraintTableName), r.constraintName)).Nodup := by
  unfold foreignKeyRows
  refine nodup_rows h.con_oid (fun k hk => ?_) ?_
  · refine one_flatMap (one_filter_key h.ns_oid (k := k.connamespace) (by simp)) fun n hn => ?_
    refine one_flatMap (one_filter_key h.class_oid (k := k.conrelid) (by simp +contextual)) fun c hc => ?_
    refine one_flatMap (one_filter_key h.class_oid (k := k.confrelid) (by simp +contextual)) fun fc _ => ?_
    rw [List.mem_filter, decide_eq_true_eq] at hn hc
    by_cases hcond : k.contype = .foreignKey ∧ (c.owned ∨ c.writable) ∧ n.nspname ∈ S
    · obtain ⟨p, hp, ht, hi⟩ := hr.fk_key k hk hcond.1 c hc.1 (.inl hc.2.symm)
        (in_of_con h hk hn.1 hn.2 hcond.2.2 hc.1 hc.2.symm)
      rw [targetKeys_eq h hk hcond.1 hp ht hi]
      refine one_flatMap (one_singleton _) fun p _ => ?_
      refine one_flatMap (one_leftJoin ?_) fun _ _ => one_ite _
      cases p with
      | none => rw [List.filter_eq_nil_iff.2 (by simp)]; exact one_nil
      | some p => exact one_filter_key h.ns_oid (k := p.connamespace) (by simp +contextual)
    · have : ∀ l : List ForeignKeyRow, l = [] → One l := fun l hl => by rw [hl]; exact one_nil
      exact this _ (flatMap_nil fun p _ => flatMap_nil fun np _ => if_neg hcond)
  · intro k hk k' hk' x hx y hy e
    simp only [List.mem_flatMap, List.mem_filter, decide_eq_true_eq, mem_ite] at hx hy
    obtain ⟨n, ⟨hn, en⟩, c, ⟨hc, ec⟩, _, _, _, _, _, _, _, rfl⟩ := hx
    obtain ⟨n', ⟨hn', en'⟩, c', ⟨hc', ec'⟩, _, _, _, _, _, _, _, rfl⟩ := hy
    simp only [Prod.mk.injEq] at e
    have hcc := class_place h hc hc' hn hn' (en.trans (ns_of_con h hk hc ec.symm).symm)
      (en'.trans (ns_of_con h hk' hc' ec'.symm).symm) e.1.1 e.1.2
    rw [key_inj h.con_name hk hk' (by simp [ec, ec', hcc, e.2])]

/-! ### Functions -/

theorem mem_functionRows {r : FunctionRow} :
    r ∈ functionRows g S ↔ ∃ p ∈ g.procs, ∃ n ∈ g.namespaces, p.pronamespace = n.oid ∧
      ∃ l ∈ g.langs, p.prolang = l.oid ∧ n.nspname ∈ S ∧
      r = { schema := n.nspname, name := p.proname, body := p.prosrc, language := l.lanname,
            returns := if p.proretset then "setof " ++ p.prorettype else p.prorettype,
            volatility := volatilityText p.provolatile } := by
  simp only [functionRows, List.mem_flatMap, List.mem_filter, decide_eq_true_eq, mem_ite]
  constructor
  · rintro ⟨p, hp, n, ⟨hn, en⟩, l, ⟨hl, el⟩, h1, rfl⟩
    exact ⟨p, hp, n, hn, en, l, hl, el, h1, rfl⟩
  · rintro ⟨p, hp, n, hn, en, l, hl, el, h1, rfl⟩
    exact ⟨p, hp, n, ⟨hn, en⟩, l, ⟨hl, el⟩, h1, rfl⟩

theorem flatMap_filter {α β : Type} {l : List α} {f : α → List β} {p : α → Bool}
    (h : ∀ x ∈ l, p x = false → f x = []) : l.flatMap f = (l.filter p).flatMap f := by
  induction l with
  | nil => rfl
  | cons x t ih =>
    rw [List.flatMap_cons, ih fun y hy => h y (List.mem_cons_of_mem _ hy), List.filter_cons]
    cases hx : p x
    · rw [h x (by simp) hx]
      rfl
    · rfl

theorem nodup_functionRows (h : Sound g) {o : Aggs} (hr : Readable g S o) :
    ((functionRows g S).map fun r => (r.schema, r.name)).Nodup := by
  unfold functionRows
  rw [flatMap_filter (p := fun p => g.namespaces.any fun ns =>
      ns.oid = p.pronamespace ∧ ns.nspname ∈ S)]
  rotate_left
  · intro p _ hany
    refine flatMap_nil fun n hn => flatMap_nil fun l _ => if_neg fun hS => ?_
    rw [List.mem_filter, decide_eq_true_eq] at hn
    rw [List.any_eq_false] at hany
    exact hany n hn.1 (by simp [hn.2, hS])
  refine nodup_rows (key := fun p => (p.pronamespace, p.proname)) ?_ (fun p _ => ?_) ?_
  · rw [List.Nodup, List.pairwise_map]
    exact hr.function_names
  · refine one_flatMap (one_filter_key h.ns_oid (k := p.pronamespace) (by simp +contextual)) fun n _ => ?_
    exact one_flatMap (one_filter_key h.lang_oid (k := p.prolang) (by simp +contextual)) fun _ _ => one_ite _
  · intro p _ q _ x hx y hy e
    simp only [List.mem_flatMap, List.mem_filter, decide_eq_true_eq, mem_ite] at hx hy
    obtain ⟨n, ⟨hn, en⟩, _, _, _, rfl⟩ := hx
    obtain ⟨m, ⟨hm, em⟩, _, _, _, rfl⟩ := hy
    simp only [Prod.mk.injEq] at e ⊢
    exact ⟨by rw [en, em, ns_inj h hn hm e.1], e.2⟩

/-! ### Indexes -/

theorem mem_indexRows {o : Aggs} {r : IndexRow} :
    r ∈ indexRows g S o ↔ ∃ x ∈ g.indexes, ∃ c ∈ g.classes, c.oid = x.indexrelid ∧
      ∃ n ∈ g.namespaces, c.relnamespace = n.oid ∧ ∃ t ∈ g.classes, t.oid = x.indrelid ∧
      ∃ am ∈ g.ams, am.oid = c.relam ∧ (∀ k ∈ g.constraints, k.conindid ≠ c.oid) ∧ n.nspname ∈ S ∧
      r = { schemaName := n.nspname, indexName := c.relname, tableName := t.relname,
            unique := x.indisunique, method := am.amname,
            keyColumns := arrayAgg (o.index x.indexrelid) (keyNames g x.indrelid x.indkey),
            expressions := exprsText x.indexprs } := by
  simp only [indexRows, List.mem_flatMap, List.mem_filter, decide_eq_true_eq, mem_ite]
  constructor
  · rintro ⟨x, hx, c, ⟨hc, ec⟩, n, ⟨hn, en⟩, t, ⟨ht, et⟩, am, ⟨ham, eam⟩, pc, hpc, ⟨rfl, hS⟩, rfl⟩
    refine ⟨x, hx, c, hc, ec, n, hn, en, t, ht, et, am, ham, eam, ?_, hS, rfl⟩
    rcases mem_leftJoin.1 hpc with ⟨he, _⟩ | ⟨k, _, e⟩
    · intro k hk e
      have : k ∈ g.constraints.filter fun pc => pc.conindid = c.oid := by
        rw [List.mem_filter]; exact ⟨hk, by simpa using e⟩
      rw [he] at this
      cases this
    · cases e
  · rintro ⟨x, hx, c, hc, ec, n, hn, en, t, ht, et, am, ham, eam, hk, hS, rfl⟩
    refine ⟨x, hx, c, ⟨hc, ec⟩, n, ⟨hn, en⟩, t, ⟨ht, et⟩, am, ⟨ham, eam⟩, none, ?_, ⟨rfl, hS⟩, rfl⟩
    refine mem_leftJoin.2 (.inl ⟨?_, rfl⟩)
    rw [List.filter_eq_nil_iff]
    intro k hk'
    simpa using hk k hk'

theorem nodup_indexRows (h : Sound g) {o : Aggs} :
    ((indexRows g S o).map fun r => (r.schemaName, r.indexName)).Nodup := by
  unfold indexRows
  refine nodup_rows h.index_oid (fun x _ => ?_) ?_
  · refine one_flatMap (one_filter_key h.class_oid (k := x.indexrelid) (by simp)) fun c _ => ?_
    refine one_flatMap (one_filter_key h.ns_oid (k := c.relnamespace) (by simp +contextual)) fun n _ => ?_
    refine one_flatMap (one_filter_key h.class_oid (k := x.indrelid) (by simp)) fun t _ => ?_
    refine one_flatMap (one_filter_key h.am_oid (k := c.relam) (by simp)) fun am _ => ?_
    by_cases hne : (g.constraints.filter fun pc => pc.conindid = c.oid) = []
    · rw [hne]
      exact one_flatMap (one_singleton _) fun _ _ => one_ite _
    · have : ∀ l : List IndexRow, l = [] → One l := fun l hl => by rw [hl]; exact one_nil
      refine this _ (flatMap_nil fun pc hpc => if_neg ?_)
      rintro ⟨rfl, _⟩
      rcases mem_leftJoin.1 hpc with ⟨he, _⟩ | ⟨k, _, e⟩
      · exact hne he
      · cases e
  · intro x _ y _ r hr q hq e
    simp only [List.mem_flatMap, List.mem_filter, decide_eq_true_eq, mem_ite] at hr hq
    obtain ⟨c, ⟨hc, ec⟩, n, ⟨hn, en⟩, _, _, _, _, _, _, _, rfl⟩ := hr
    obtain ⟨d, ⟨hd, ed⟩, m, ⟨hm, em⟩, _, _, _, _, _, _, _, rfl⟩ := hq
    simp only [Prod.mk.injEq] at e
    rw [← ec, ← ed, class_place h hc hd hn hm en.symm em.symm e.1 e.2]

end Sys
end Podo
