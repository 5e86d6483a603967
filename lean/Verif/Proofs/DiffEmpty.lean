import Verif.Proofs.DiffApply
/-
When a computed diff is empty, and when it reaches the target exactly.
-/
set_option linter.unusedSimpArgs false
namespace Podo
open Spec Diff Change

theorem columnUpdate_nil {s t : Column} (h1 : s.schemaName = t.schemaName)
    (h2 : s.tableName = t.tableName) (h3 : s.name = t.name) : columnUpdate s t = [] ↔ s = t := by
  obtain ⟨a, b, n, ty, nn, df⟩ := s
  obtain ⟨a', b', n', ty', nn', df'⟩ := t
  simp only at h1 h2 h3
  subst h1 h2 h3
  simp only [columnUpdate, List.append_eq_nil_iff, Column.mk.injEq, true_and]
  by_cases k1 : ty = ty' <;> by_cases k2 : df = df' <;> by_cases k3 : nn = nn' <;>
    simp [k1, k2, k3]

theorem constraintCreate_ne (c : Constraint) : constraintCreate c ≠ [] := by
  cases c <;> simp [constraintCreate, primaryKeyCreate, uniqueCreate, foreignKeyCreate, checkCreate]

theorem constraintDrop_ne (c : Constraint) : constraintDrop c ≠ [] := by
  cases c <;> simp [constraintDrop, primaryKeyDrop, uniqueDrop, foreignKeyDrop, checkDrop]

theorem constraintUpdate_nil {s t : Constraint} (h1 : s.schemaName = t.schemaName)
    (h2 : s.tableName = t.tableName) (h3 : s.name = t.name) :
    constraintUpdate s t = [] ↔ s = t := by
  cases s with
  | primaryKey s =>
    cases t with
    | primaryKey t =>
      obtain ⟨a, b, n, cols, df, ini⟩ := s
      obtain ⟨a', b', n', cols', df', ini'⟩ := t
      simp only [Constraint.name, Constraint.schemaName, Constraint.tableName] at h1 h2 h3
      subst h1 h2 h3
      simp only [constraintUpdate, primaryKeyUpdate, Constraint.primaryKey.injEq,
        PrimaryKey.mk.injEq, true_and]
      by_cases k1 : cols = cols' <;> by_cases k2 : df = df' <;> by_cases k3 : ini = ini' <;>
        simp [k1, k2, k3]
    | unique t | foreignKey t | check t =>
      simp [constraintUpdate, List.append_eq_nil_iff, constraintDrop_ne]
  | unique s =>
    cases t with
    | unique t =>
      obtain ⟨a, b, n, cols, df, ini⟩ := s
      obtain ⟨a', b', n', cols', df', ini'⟩ := t
      simp only [Constraint.name, Constraint.schemaName, Constraint.tableName] at h1 h2 h3
      subst h1 h2 h3
      simp only [constraintUpdate, uniqueUpdate, Constraint.unique.injEq,
        Unique.mk.injEq, true_and]
      by_cases k1 : cols = cols' <;> by_cases k2 : df = df' <;> by_cases k3 : ini = ini' <;>
        simp [k1, k2, k3]
    | primaryKey t | foreignKey t | check t =>
      simp [constraintUpdate, List.append_eq_nil_iff, constraintDrop_ne]
  | foreignKey s =>
    cases t with
    | foreignKey t =>
      obtain ⟨a, b, n, c1, c2, c3, c4, c5, c6, c7, df, ini⟩ := s
      obtain ⟨a', b', n', d1, d2, d3, d4, d5, d6, d7, df', ini'⟩ := t
      simp only [Constraint.name, Constraint.schemaName, Constraint.tableName] at h1 h2 h3
      subst h1 h2 h3
      simp only [constraintUpdate, foreignKeyUpdate, Constraint.foreignKey.injEq,
        ForeignKey.mk.injEq, true_and]
      by_cases k : (c1 ≠ d1 ∨ c2 ≠ d2 ∨ c3 ≠ d3 ∨ c4 ≠ d4 ∨ c5 ≠ d5 ∨ c6 ≠ d6 ∨ c7 ≠ d7)
      · rw [if_pos k]
        constructor
        · intro h; cases h
        · rintro ⟨rfl, rfl, rfl, rfl, rfl, rfl, rfl, _⟩; simp at k
      · rw [if_neg k]
        simp only [not_or, Decidable.not_not] at k
        obtain ⟨rfl, rfl, rfl, rfl, rfl, rfl, rfl⟩ := k
        by_cases k2 : df = df' <;> by_cases k3 : ini = ini' <;> simp [k2, k3]
    | primaryKey t | unique t | check t =>
      simp [constraintUpdate, List.append_eq_nil_iff, constraintDrop_ne]
  | check s =>
    cases t with
    | check t =>
      obtain ⟨a, b, n, cols, df, ini⟩ := s
      obtain ⟨a', b', n', cols', df', ini'⟩ := t
      simp only [Constraint.name, Constraint.schemaName, Constraint.tableName] at h1 h2 h3
      subst h1 h2 h3
      simp only [constraintUpdate, checkUpdate, Constraint.check.injEq,
        Check.mk.injEq, true_and]
      by_cases k1 : cols = cols' <;> by_cases k2 : df = df' <;> by_cases k3 : ini = ini' <;>
        simp [k1, k2, k3]
    | primaryKey t | foreignKey t | unique t =>
      simp [constraintUpdate, List.append_eq_nil_iff, constraintDrop_ne]

/-- Comparing two maps key by key, in the shape of the diff functions. -/
theorem map_compare {α β : Type} {s t : AMap α} (hs : s.NodupKeys) (ht : t.NodupKeys) (f : α → β) :
    ((∀ p ∈ t, s.get? p.1 ≠ none) ∧
      (∀ p ∈ s, ∃ x, t.get? p.1 = some x ∧ f p.2 = f x)) ↔
    ∀ k, (s.get? k).map f = (t.get? k).map f := by
  constructor
  · rintro ⟨h1, h2⟩ k
    cases e : s.get? k with
    | some v =>
      obtain ⟨x, hx, hf⟩ := h2 _ (AMap.mem_of_get? e)
      simp [hx, hf]
    | none =>
      cases e' : t.get? k with
      | none => rfl
      | some x => exact absurd e (h1 _ (AMap.mem_of_get? e'))
  · intro h
    constructor
    · intro p hp e
      have := h p.1
      rw [e, AMap.get?_of_mem ht hp] at this
      cases this
    · intro p hp
      have := h p.1
      rw [AMap.get?_of_mem hs hp] at this
      cases e : t.get? p.1 with
      | none => rw [e] at this; cases this
      | some x => rw [e] at this; exact ⟨x, rfl, by simpa using this⟩

theorem colsPart_nil {s t : Table} (hs : s.WF) (ht : t.WF) (h1 : s.schemaName = t.schemaName)
    (h2 : s.name = t.name) :
    colsPart s t = [] ↔ columnNamed s.columns = columnNamed t.columns := by
  simp only [colsPart, List.append_eq_nil_iff, List.flatMap_eq_nil_iff]
  constructor
  · rintro ⟨k1, k2⟩
    funext j
    cases hj : columnNamed t.columns j with
    | some ti =>
      have hti := columnNamed_mem hj
      have := k1 ti hti
      rw [findCol_eq_columnNamed] at this
      have hn : ti.name = j := columnNamed_name hj
      cases e : columnNamed s.columns ti.name with
      | none => rw [e] at this; cases this
      | some si =>
        rw [e] at this
        have a := hs.cols_home si (columnNamed_mem e)
        have b := ht.cols_home ti hti
        have := (columnUpdate_nil (a.1.trans (h1.trans b.1.symm)) (a.2.trans (h2.trans b.2.symm))
          (columnNamed_name e)).1 this
        rw [← hn, e, this]
    | none =>
      cases e : columnNamed s.columns j with
      | none => rfl
      | some si =>
        have := k2 si (columnNamed_mem e)
        rw [columnNamed_name e] at this
        have hh : ¬ t.hasColumn j = true := by
          simp [Table.hasColumn, findCol_eq_columnNamed, hj]
        rw [if_neg hh] at this
        cases this
  · intro h
    constructor
    · intro ti hti
      have e : columnNamed s.columns ti.name = some ti := by
        rw [h]; exact columnNamed_of_mem ht.cols_nodup hti
      rw [findCol_eq_columnNamed, e]
      exact (columnUpdate_nil rfl rfl rfl).2 rfl
    · intro si hsi
      have e : columnNamed t.columns si.name = some si := by
        rw [← h]; exact columnNamed_of_mem hs.cols_nodup hsi
      have hh : t.hasColumn si.name = true := by
        simp [Table.hasColumn, findCol_eq_columnNamed, e]
      rw [if_pos hh]

theorem consPart_nil {s t : Table} (hs : s.WF) (ht : t.WF) (h1 : s.schemaName = t.schemaName)
    (h2 : s.name = t.name) :
    consPart s t = [] ↔ ∀ c, s.constraints.get? c = t.constraints.get? c := by
  have hm := map_compare hs.cons_nodup ht.cons_nodup (id : Constraint → Constraint)
  simp only [Option.map_id_fun, id] at hm
  rw [← hm]
  simp only [consPart, flatMap_values, List.append_eq_nil_iff, List.flatMap_eq_nil_iff]
  constructor
  · rintro ⟨k1, k2⟩
    have hA : ∀ p ∈ t.constraints, s.constraints.get? p.1 = some p.2 := by
      intro p hp
      have := k1 p hp
      have hh := ht.cons_home p hp
      rw [hh.1] at this
      cases e : s.constraints.get? p.1 with
      | none => rw [e] at this; exact absurd this (constraintCreate_ne _)
      | some si =>
        rw [e] at this
        have a := hs.constraint e
        rw [(constraintUpdate_nil (a.2.1.trans (h1.trans hh.2.1.symm))
          (a.2.2.trans (h2.trans hh.2.2.symm)) (a.1.trans hh.1.symm)).1 this]
    refine ⟨fun p hp e => (by rw [hA p hp] at e; cases e), fun p hp => ?_⟩
    have := k2 p hp
    have hh := hs.cons_home p hp
    rw [hh.1] at this
    cases e : t.constraints.get? p.1 with
    | none =>
      have hf : ¬ t.hasConstraint p.1 = true := by
        rw [show t.hasConstraint p.1 = false from AMap.has_of_none e]; simp
      rw [if_neg hf] at this
      exact absurd this (constraintDrop_ne _)
    | some x =>
      refine ⟨x, rfl, ?_⟩
      have := hA _ (AMap.mem_of_get? e)
      rw [AMap.get?_of_mem hs.cons_nodup hp] at this
      exact Option.some.inj this
  · rintro ⟨k1, k2⟩
    constructor
    · intro p hp
      have hh := ht.cons_home p hp
      rw [hh.1]
      cases e : s.constraints.get? p.1 with
      | none => exact absurd e (k1 p hp)
      | some si =>
        obtain ⟨x, hx, hxe⟩ := k2 _ (AMap.mem_of_get? e)
        rw [AMap.get?_of_mem ht.cons_nodup hp] at hx
        cases hx
        simp only at hxe
        subst hxe
        exact (constraintUpdate_nil rfl rfl rfl).2 rfl
    · intro p hp
      have hh := hs.cons_home p hp
      obtain ⟨x, hx, _⟩ := k2 p hp
      rw [hh.1, if_pos (show t.hasConstraint p.1 = true from AMap.has_of_some hx)]

theorem tableUpdate_nil {s t : Table} (hs : s.WF) (ht : t.WF) (h1 : s.schemaName = t.schemaName)
    (h2 : s.name = t.name) : tableUpdate s t = [] ↔ s.content = t.content := by
  rw [tableUpdate_eq, List.append_eq_nil_iff, colsPart_nil hs ht h1 h2, consPart_nil hs ht h1 h2]
  simp only [Table.content, TableContent.mk.injEq, h1, h2, true_and]
  constructor
  · rintro ⟨a, b⟩; exact ⟨a, funext b⟩
  · rintro ⟨a, b⟩; exact ⟨a, fun c => congrFun b c⟩

theorem relationCreate_ne (r : Relation) : relationCreate r ≠ [] := by
  cases r <;> simp [relationCreate, tableCreate, viewCreate, sequenceCreate, indexCreate]

theorem relationDrop_ne (r : Relation) : relationDrop r ≠ [] := by
  cases r <;> simp [relationDrop, tableDrop, viewDrop, sequenceDrop, indexDrop]

theorem relationUpdate_nil {s t : Relation} (hs : s.WF) (ht : t.WF)
    (h1 : s.schemaName = t.schemaName) (h2 : s.name = t.name) :
    relationUpdate s t = [] ↔ s.content.keyOnly = t.content.keyOnly := by
  cases s with
  | table s =>
    cases t with
    | table t =>
      simp only [relationUpdate, Relation.content, RelContent.keyOnly, RelContent.table.injEq]
      exact tableUpdate_nil hs ht h1 h2
    | view t | sequence t | index t =>
      simp [relationUpdate, List.append_eq_nil_iff, relationDrop_ne, Relation.content,
        RelContent.keyOnly]
  | view s =>
    cases t with
    | view t =>
      obtain ⟨a, n, q⟩ := s
      obtain ⟨a', n', q'⟩ := t
      simp only [Relation.name, Relation.schemaName] at h1 h2
      subst h1 h2
      by_cases k : q = q' <;> simp [relationUpdate, viewUpdate, Relation.content,
        RelContent.keyOnly, k]
    | table t | sequence t | index t =>
      simp [relationUpdate, List.append_eq_nil_iff, relationDrop_ne, Relation.content,
        RelContent.keyOnly]
  | sequence s =>
    cases t with
    | sequence t =>
      obtain ⟨a, n, c1, c2, c3, c4, c5, c6, c7, c8, c9⟩ := s
      obtain ⟨a', n', d1, d2, d3, d4, d5, d6, d7, d8, d9⟩ := t
      simp only [Relation.name, Relation.schemaName] at h1 h2
      subst h1 h2
      simp only [relationUpdate, sequenceUpdate, Relation.content, RelContent.keyOnly,
        RelContent.sequence.injEq, Sequence.mk.injEq, true_and]
      by_cases k : c1 ≠ d1 ∨ c2 ≠ d2 ∨ c3 ≠ d3 ∨ c4 ≠ d4 ∨ c5 ≠ d5 ∨ c6 ≠ d6 ∨ c7 ≠ d7 ∨ c8 ≠ d8
        ∨ c9 ≠ d9
      · rw [if_pos k]
        constructor
        · intro h; cases h
        · rintro ⟨rfl, rfl, rfl, rfl, rfl, rfl, rfl, rfl, rfl⟩; simp at k
      · rw [if_neg k]
        simp only [not_or, Decidable.not_not] at k
        simp [k]
    | table t | view t | index t =>
      simp [relationUpdate, List.append_eq_nil_iff, relationDrop_ne, Relation.content,
        RelContent.keyOnly]
  | index s =>
    cases t with
    | index t =>
      obtain ⟨a, n, tb, u, m, ks⟩ := s
      obtain ⟨a', n', tb', u', m', ks'⟩ := t
      simp only [Relation.name, Relation.schemaName] at h1 h2
      subst h1 h2
      by_cases k : ks = ks' <;> simp [relationUpdate, indexUpdate, Relation.content,
        RelContent.keyOnly, k]
    | table t | view t | sequence t =>
      simp [relationUpdate, List.append_eq_nil_iff, relationDrop_ne, Relation.content,
        RelContent.keyOnly]

theorem functionUpdate_nil {s t : Function} (h1 : s.schemaName = t.schemaName)
    (h2 : s.name = t.name) : functionUpdate s t = [] ↔ s = t := by
  simp only [functionUpdate]
  split
  · next h =>
    constructor
    · intro h'; cases h'
    · rintro rfl; simp at h
  · next h => simp [function_ext_of h1 h2 h]

def SchemaContent.keyOnly (sc : SchemaContent) : SchemaContent :=
  { sc with relations := fun r => (sc.relations r).map RelContent.keyOnly }

theorem schemaUpdate_nil {s t : Schema} (hs : s.WF) (ht : t.WF) (hn : s.name = t.name) :
    schemaUpdate s t = [] ↔ s.content.keyOnly = t.content.keyOnly := by
  have m1 := map_compare hs.rels_nodup ht.rels_nodup (fun r => r.content.keyOnly)
  have m2 := map_compare hs.funs_nodup ht.funs_nodup (id : Function → Function)
  simp only [Option.map_id_fun, id] at m2
  have hR : s.content.keyOnly = t.content.keyOnly ↔
      (∀ k, (s.relations.get? k).map (fun r => r.content.keyOnly)
        = (t.relations.get? k).map (fun r => r.content.keyOnly)) ∧
      ∀ k, s.functions.get? k = t.functions.get? k := by
    simp only [SchemaContent.keyOnly, Schema.content, SchemaContent.mk.injEq, hn, true_and,
      Option.map_map]
    constructor
    · rintro ⟨a, b⟩; exact ⟨fun k => congrFun a k, fun k => congrFun b k⟩
    · rintro ⟨a, b⟩; exact ⟨funext a, funext b⟩
  rw [hR, ← m1, ← m2]
  simp only [schemaUpdate, flatMap_values, List.append_eq_nil_iff, List.flatMap_eq_nil_iff]
  constructor
  · rintro ⟨⟨⟨k1, k2⟩, k3⟩, k4⟩
    refine ⟨⟨fun p hp e => ?_, fun p hp => ?_⟩, ⟨fun p hp e => ?_, fun p hp => ?_⟩⟩
    · have := k1 p hp
      rw [(ht.rels_home p hp).1] at this
      have hf : ¬ s.hasRelation p.1 = true := by
        rw [show s.hasRelation p.1 = false from AMap.has_of_none e]; simp
      rw [if_neg hf] at this
      exact absurd this (relationCreate_ne _)
    · have := k2 p hp
      have hh := hs.rels_home p hp
      rw [hh.1] at this
      cases e : t.relations.get? p.1 with
      | none => rw [e] at this; exact absurd this (relationDrop_ne _)
      | some x =>
        rw [e] at this
        have hh' := ht.rels_home _ (AMap.mem_of_get? e)
        exact ⟨x, rfl, (relationUpdate_nil hh.2.2 hh'.2.2 (hh.2.1.trans (hn.trans hh'.2.1.symm))
          (hh.1.trans hh'.1.symm)).1 this⟩
    · have := k3 p hp
      rw [(ht.funs_home p hp).1] at this
      have hf : ¬ s.hasFunction p.1 = true := by
        rw [show s.hasFunction p.1 = false from AMap.has_of_none e]; simp
      rw [if_neg hf] at this
      cases this
    · have := k4 p hp
      have hh := hs.funs_home p hp
      rw [hh.1] at this
      cases e : t.functions.get? p.1 with
      | none => rw [e] at this; cases this
      | some x =>
        rw [e] at this
        have hh' := ht.funs_home _ (AMap.mem_of_get? e)
        exact ⟨x, rfl, (functionUpdate_nil (hh.2.trans (hn.trans hh'.2.symm))
          (hh.1.trans hh'.1.symm)).1 this⟩
  · rintro ⟨⟨k1, k2⟩, ⟨k3, k4⟩⟩
    refine ⟨⟨⟨fun p hp => ?_, fun p hp => ?_⟩, fun p hp => ?_⟩, fun p hp => ?_⟩
    · rw [(ht.rels_home p hp).1]
      cases e : s.relations.get? p.1 with
      | none => exact absurd e (k1 p hp)
      | some x => rw [if_pos (show s.hasRelation p.1 = true from AMap.has_of_some e)]
    · have hh := hs.rels_home p hp
      obtain ⟨x, hx, hk⟩ := k2 p hp
      have hh' := ht.rels_home _ (AMap.mem_of_get? hx)
      rw [hh.1, hx]
      exact (relationUpdate_nil hh.2.2 hh'.2.2 (hh.2.1.trans (hn.trans hh'.2.1.symm))
          (hh.1.trans hh'.1.symm)).2 hk
    · rw [(ht.funs_home p hp).1]
      cases e : s.functions.get? p.1 with
      | none => exact absurd e (k3 p hp)
      | some x => rw [if_pos (show s.hasFunction p.1 = true from AMap.has_of_some e)]
    · have hh := hs.funs_home p hp
      obtain ⟨x, hx, hk⟩ := k4 p hp
      rw [hh.1, hx, hk]
      exact (functionUpdate_nil rfl rfl).2 rfl

theorem compareDiff_nil {s t : Database} (hs : s.WF) (ht : t.WF) :
    compareDiff s t = [] ↔ s.content.keyOnly = t.content.keyOnly := by
  have m1 := map_compare hs.nodup ht.nodup (fun r => r.content.keyOnly)
  have hR : s.content.keyOnly = t.content.keyOnly ↔
      (∀ k, (s.schemas.get? k).map (fun r => r.content.keyOnly)
        = (t.schemas.get? k).map (fun r => r.content.keyOnly)) := by
    have e : ∀ d : Database, d.content.keyOnly
        = fun k => (d.schemas.get? k).map (fun r => r.content.keyOnly) := by
      intro d
      funext k
      simp only [Content.keyOnly, Database.content, Option.map_map]
      rfl
    rw [e, e]
    exact ⟨fun a k => congrFun a k, fun a => funext a⟩
  rw [hR, ← m1]
  simp only [compareDiff, flatMap_values, List.append_eq_nil_iff, List.flatMap_eq_nil_iff]
  constructor
  · rintro ⟨k1, k2⟩
    refine ⟨fun p hp e => ?_, fun p hp => ?_⟩
    · have := k1 p hp
      rw [(ht.home p hp).1] at this
      have hf : ¬ s.hasSchema p.1 = true := by
        rw [show s.hasSchema p.1 = false from AMap.has_of_none e]; simp
      rw [if_neg hf] at this
      cases this
    · have := k2 p hp
      have hh := hs.home p hp
      rw [hh.1] at this
      cases e : t.schemas.get? p.1 with
      | none => rw [e] at this; simp [schemaDrop] at this
      | some x =>
        rw [e] at this
        have hh' := ht.home _ (AMap.mem_of_get? e)
        exact ⟨x, rfl, (schemaUpdate_nil hh.2 hh'.2 (hh.1.trans hh'.1.symm)).1 this⟩
  · rintro ⟨k1, k2⟩
    refine ⟨fun p hp => ?_, fun p hp => ?_⟩
    · rw [(ht.home p hp).1]
      cases e : s.schemas.get? p.1 with
      | none => exact absurd e (k1 p hp)
      | some x => rw [if_pos (show s.hasSchema p.1 = true from AMap.has_of_some e)]
    · have hh := hs.home p hp
      obtain ⟨x, hx, hk⟩ := k2 p hp
      have hh' := ht.home _ (AMap.mem_of_get? hx)
      rw [hh.1, hx]
      exact (schemaUpdate_nil hh.2 hh'.2 (hh.1.trans hh'.1.symm)).2 hk

/-! ### Reaching the target -/

theorem content_ext_iff {A B : Content} : A = B ↔ ∀ n, A n = B n :=
  ⟨fun h n => congrFun h n, fun h => funext h⟩

theorem reachedRel_eq_iff (p : Option RelContent) (q : RelContent) :
    reachedRel p q = q ↔
      (∀ i j, p = some (.index i) → q = .index j → i.keyExpressions = j.keyExpressions → i = j) ∧
      (∀ x, q = .sequence x → (x.ownedByTable ≠ none ∨ x.ownedByColumn ≠ none) →
        p = some (.sequence x)) := by
  have hseq : ∀ x : Sequence, ({ x with ownedByTable := none, ownedByColumn := none } : Sequence) = x
      ↔ ¬ (x.ownedByTable ≠ none ∨ x.ownedByColumn ≠ none) := by
    intro x
    cases x
    simp only [Sequence.mk.injEq, true_and, not_or, Decidable.not_not]
    constructor
    · rintro ⟨a, b⟩; exact ⟨a.symm, b.symm⟩
    · rintro ⟨a, b⟩; exact ⟨a.symm, b.symm⟩
  have hs : ∀ (o : Option RelContent) (x : Sequence), o ≠ some (.sequence x) →
      (RelContent.sequence { x with ownedByTable := none, ownedByColumn := none } = .sequence x ↔
        ((x.ownedByTable ≠ none ∨ x.ownedByColumn ≠ none) → o = some (.sequence x))) := by
    intro o x ho
    rw [RelContent.sequence.injEq, hseq]
    exact ⟨fun h1 h2 => absurd h2 h1, fun h1 h2 => ho (h1 h2)⟩
  cases q with
  | table q => cases p with
    | none => simp [reachedRel]
    | some p => cases p <;> simp [reachedRel]
  | view q => cases p with
    | none => simp [reachedRel]
    | some p => cases p <;> simp [reachedRel]
  | index q =>
    cases p with
    | none => simp [reachedRel]
    | some p =>
      cases p with
      | index p =>
        by_cases k : p.keyExpressions = q.keyExpressions
        · simp only [reachedRel, if_pos k, RelContent.index.injEq, Option.some.injEq]
          constructor
          · rintro rfl
            exact ⟨fun i j a b _ => a.symm.trans b, fun x h => by cases h⟩
          · rintro ⟨h, _⟩; exact h p q rfl rfl k
        · simp only [reachedRel, if_neg k, true_iff, RelContent.index.injEq, Option.some.injEq]
          exact ⟨fun i j a b h => absurd (a ▸ b ▸ h) k, fun x h => by cases h⟩
      | table p | view p | sequence p => simp [reachedRel]
  | sequence q =>
    cases p with
    | none =>
      have := hs none q (by simp)
      simp only [reachedRel, this, RelContent.sequence.injEq]
      constructor
      · intro h; exact ⟨fun i j a => (by cases a), fun x e => by cases e; exact h⟩
      · rintro ⟨_, h⟩; exact h q rfl
    | some p =>
      cases p with
      | sequence p =>
        by_cases k : p = q
        · subst k
          simp only [reachedRel, if_true, true_iff]
          exact ⟨fun i j a => (by cases a), fun x e _ => by cases e; rfl⟩
        · have := hs (some (.sequence p)) q (by simpa using k)
          simp only [reachedRel, if_neg k, this]
          constructor
          · intro h; exact ⟨fun i j a => (by cases a), fun x e => by cases e; exact h⟩
          · rintro ⟨_, h⟩; exact h q rfl
      | table p =>
        have := hs (some (.table p)) q (by simp)
        simp only [reachedRel, this]
        constructor
        · intro h; exact ⟨fun i j a => (by cases a), fun x e => by cases e; exact h⟩
        · rintro ⟨_, h⟩; exact h q rfl
      | view p =>
        have := hs (some (.view p)) q (by simp)
        simp only [reachedRel, this]
        constructor
        · intro h; exact ⟨fun i j a => (by cases a), fun x e => by cases e; exact h⟩
        · rintro ⟨_, h⟩; exact h q rfl
      | index p =>
        have := hs (some (.index p)) q (by simp)
        simp only [reachedRel, this]
        constructor
        · intro h; exact ⟨fun i j _ b => (by cases b), fun x e => by cases e; exact h⟩
        · rintro ⟨_, h⟩; exact h q rfl

theorem reachedRel_keyOnly_iff (p : Option RelContent) (q : RelContent)
    (hn : ∀ i j, p = some (.index i) → q = .index j → i.schemaName = j.schemaName ∧ i.name = j.name) :
    (reachedRel p q).keyOnly = q.keyOnly ↔
      (∀ x, q = .sequence x → (x.ownedByTable ≠ none ∨ x.ownedByColumn ≠ none) →
        p = some (.sequence x)) := by
  by_cases hi : ∃ i j, p = some (.index i) ∧ q = .index j
  · obtain ⟨i, j, rfl, rfl⟩ := hi
    have := hn i j rfl rfl
    obtain ⟨a, n, t, u, m, k⟩ := i
    obtain ⟨a', n', t', u', m', k'⟩ := j
    simp only at this
    obtain ⟨rfl, rfl⟩ := this
    by_cases e : k = k' <;> simp [reachedRel, RelContent.keyOnly, e]
  · have h1 := reachedRel_eq_iff p q
    have h2 : (reachedRel p q).keyOnly = q.keyOnly ↔ reachedRel p q = q := by
      constructor
      · intro h
        cases q with
        | index q =>
          cases p with
          | none => rfl
          | some p => cases p with
            | index p => exact absurd ⟨p, q, rfl, rfl⟩ hi
            | table p | view p | sequence p => rfl
        | table q | view q =>
          cases p with
          | none => rfl
          | some p => cases p <;> rfl
        | sequence q =>
          have hk : ∀ (o : Option RelContent), (reachedRel o (.sequence q)).keyOnly
              = reachedRel o (.sequence q) := by
            intro o
            cases o with
            | none => rfl
            | some o =>
              cases o with
              | sequence o => simp only [reachedRel]; split <;> rfl
              | table o | view o | index o => rfl
          rw [hk] at h; exact h
      · intro h; rw [h]
    rw [h2, h1]
    constructor
    · exact fun h => h.2
    · exact fun h => ⟨fun i j a b => absurd ⟨i, j, a, b⟩ hi, h⟩

theorem reached_eq_iff (S T : Content) :
    reached S T = T ↔ SameKeyIndexesAgree S T ∧ OwnedSequencesUnchanged S T := by
  have hR : reached S T = T ↔ ∀ n sc r x, T n = some sc → sc.relations r = some x →
      reachedRel ((S n).bind fun sc => sc.relations r) x = x := by
    constructor
    · intro h n sc r x h1 h2
      have := congrFun h n
      simp only [reached, h1, Option.map_some, Option.some.injEq] at this
      have := congrArg (fun c => SchemaContent.relations c r) this
      simpa [reachedSchema, h2] using this
    · intro h
      funext n
      simp only [reached]
      cases h1 : T n with
      | none => rfl
      | some sc =>
        simp only [Option.map_some, reachedSchema, Option.some.injEq]
        have : (fun r => (sc.relations r).map (reachedRel ((S n).bind fun sc => sc.relations r)))
            = sc.relations := by
          funext r
          cases h2 : sc.relations r with
          | none => rfl
          | some x => simp only [Option.map_some, h n sc r x h1 h2]
        rw [this]
  rw [hR]
  have hb : ∀ n r y, ((S n).bind fun sc => sc.relations r) = some y ↔
      ∃ sc, S n = some sc ∧ sc.relations r = some y := by
    intro n r y
    cases S n <;> simp
  constructor
  · intro h
    constructor
    · rintro n r p q h1 ⟨sc, h2, h3⟩ hk
      exact ((reachedRel_eq_iff _ _).1 (h n sc r _ h2 h3)).1 p q ((hb n r _).2 h1) rfl hk
    · rintro n r q ⟨sc, h2, h3⟩ ho
      exact (hb n r _).1 (((reachedRel_eq_iff _ _).1 (h n sc r _ h2 h3)).2 q rfl ho)
  · rintro ⟨k1, k2⟩ n sc r x h2 h3
    refine (reachedRel_eq_iff _ _).2 ⟨fun i j a b e => ?_, fun y b ho => ?_⟩
    · subst b; exact k1 n r i j ((hb n r _).1 a) ⟨sc, h2, h3⟩ e
    · subst b; exact (hb n r _).2 (k2 n r y ⟨sc, h2, h3⟩ ho)

theorem content_rel_home {d : Database} (hd : d.WF) {n r : String} {x : RelContent}
    (h : ∃ sc, d.content n = some sc ∧ sc.relations r = some x) :
    ∃ rel : Relation, rel.content = x ∧ rel.name = r ∧ rel.schemaName = n := by
  obtain ⟨sc, h1, h2⟩ := h
  obtain ⟨ms, k1, rfl⟩ := content_schema h1
  obtain ⟨rel, k2, rfl⟩ := content_rel h2
  have a := hd.schema k1
  have b := a.2.relation k2
  exact ⟨rel, rfl, b.1, b.2.1.trans a.1⟩

theorem reached_keyOnly_iff {s t : Database} (hs : s.WF) (ht : t.WF) :
    (reached s.content t.content).keyOnly = t.content.keyOnly ↔
      OwnedSequencesUnchanged s.content t.content := by
  have hb : ∀ n r y, ((s.content n).bind fun sc => sc.relations r) = some y ↔
      ∃ sc, s.content n = some sc ∧ sc.relations r = some y := by
    intro n r y
    cases s.content n <;> simp
  have hR : (reached s.content t.content).keyOnly = t.content.keyOnly ↔
      ∀ n sc r x, t.content n = some sc → sc.relations r = some x →
      (reachedRel ((s.content n).bind fun sc => sc.relations r) x).keyOnly = x.keyOnly := by
    constructor
    · intro h n sc r x h1 h2
      have := congrFun h n
      simp only [Content.keyOnly, reached, h1, Option.map_some, Option.some.injEq] at this
      have := congrArg (fun c => SchemaContent.relations c r) this
      simpa [reachedSchema, h2] using this
    · intro h
      funext n
      simp only [Content.keyOnly, reached]
      cases h1 : t.content n with
      | none => rfl
      | some sc =>
        simp only [Option.map_some, reachedSchema, Option.some.injEq, SchemaContent.mk.injEq,
          true_and, and_true]
        funext r
        cases h2 : sc.relations r with
        | none => rfl
        | some x => simp only [Option.map_some, h n sc r x h1 h2]
  rw [hR]
  have hn : ∀ n sc r x, t.content n = some sc → sc.relations r = some x →
      ∀ i j, ((s.content n).bind fun sc => sc.relations r) = some (.index i) → x = .index j →
        i.schemaName = j.schemaName ∧ i.name = j.name := by
    intro n sc r x h1 h2 i j h3 h4
    subst h4
    obtain ⟨a, a1, a2, a3⟩ := content_rel_home hs ((hb n r _).1 h3)
    obtain ⟨b, b1, b2, b3⟩ := content_rel_home ht ⟨sc, h1, h2⟩
    cases a <;> simp only [Relation.content, reduceCtorEq, RelContent.index.injEq] at a1
    cases b <;> simp only [Relation.content, reduceCtorEq, RelContent.index.injEq] at b1
    subst a1 b1
    exact ⟨a3.trans b3.symm, a2.trans b2.symm⟩
  constructor
  · rintro h n r q ⟨sc, h2, h3⟩ ho
    exact (hb n r _).1 ((reachedRel_keyOnly_iff _ _ (hn n sc r _ h2 h3)).1 (h n sc r _ h2 h3) q rfl ho)
  · intro h n sc r x h2 h3
    refine (reachedRel_keyOnly_iff _ _ (hn n sc r _ h2 h3)).2 fun y b ho => ?_
    subst b; exact (hb n r _).2 (h n r y ⟨sc, h2, h3⟩ ho)

/-! ### Readiness that does not depend on the order -/

theorem tableAt_model {d : Database} {n t : String} {tb : TableContent}
    (h : d.content.tableAt n t = some tb) :
    ∃ sc x, d.schemas.get? n = some sc ∧ sc.relations.get? t = some (.table x) := by
  simp only [Content.tableAt] at h
  cases h1 : d.content n with
  | none => simp [h1] at h
  | some sc =>
    obtain ⟨ms, k1, rfl⟩ := content_schema h1
    rw [h1, Option.bind_some] at h
    cases h2 : ms.content.relations t with
    | none => simp [h2] at h
    | some r =>
      obtain ⟨rel, k2, rfl⟩ := content_rel h2
      cases rel with
      | table x => exact ⟨ms, x, k1, k2⟩
      | view x | index x | sequence x => simp [h2, Relation.content, RelContent.table?] at h

theorem indexReady_of_kept {s t : Database}
    (ht : t.WF) (h : IndexTablesKept s.content t.content) : IndexReady s t := by
  have key : ∀ n tsc i ix, t.schemas.get? n = some tsc → tsc.relations.get? i = some (.index ix) →
      (∃ sc x, s.schemas.get? n = some sc ∧ sc.relations.get? ix.tableName = some (.table x)) ∧
      ∃ x, tsc.relations.get? ix.tableName = some (.table x) := by
    intro n tsc i ix h1 h2
    obtain ⟨⟨a, ha⟩, ⟨b, hb⟩⟩ := h n i ix ⟨tsc.content, by simp [Database.content, h1],
      by simp [Schema.content, h2, Relation.content]⟩
    refine ⟨tableAt_model ha, ?_⟩
    obtain ⟨sc, x, e1, e2⟩ := tableAt_model hb
    rw [h1] at e1; cases e1
    exact ⟨x, e2⟩
  constructor
  · intro n tsc h1 h2 pre i ix post e
    have hi : tsc.relations.get? i = some (.index ix) :=
      AMap.get?_of_mem (ht.schema h1).2.rels_nodup (by rw [e]; simp)
    obtain ⟨⟨sc, x, e1, _⟩, _⟩ := key n tsc i ix h1 hi
    rw [h2] at e1; cases e1
  · intro n ssc tsc h1 h2 pre i ix post e _
    have hi : tsc.relations.get? i = some (.index ix) :=
      AMap.get?_of_mem (ht.schema h2).2.rels_nodup (by rw [e]; simp)
    obtain ⟨⟨sc, x, e1, e2⟩, _⟩ := key n tsc i ix h2 hi
    rw [h1] at e1; cases e1
    exact .inl ⟨x, e2⟩
  · intro n ssc tsc h1 h2 pre i r post ix e hi _
    obtain ⟨⟨sc, x, e1, e2⟩, y, e3⟩ := key n tsc i ix h2 hi
    rw [h1] at e1; cases e1
    refine ⟨?_, fun _ => ⟨y, e3⟩, fun _ => ⟨x, e2⟩⟩
    intro e4
    rw [e4, hi] at e3
    cases e3

end Podo
