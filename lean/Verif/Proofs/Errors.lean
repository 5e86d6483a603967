import Verif.Spec.Errors
import Verif.Proofs.Wf
import Verif.Proofs.Load
/-
Lemmas for C78: the error of a change is that of the first need that is not met.
-/
set_option linter.unusedSimpArgs false
namespace Podo
open Change

/-- The error of a result. -/
def errOf {α : Type} : SResult α → Option SnapshotError
  | .ok _ => none
  | .error e => some e

@[simp] theorem errOf_ok {α : Type} (x : α) : errOf (.ok x : SResult α) = none := rfl
@[simp] theorem errOf_error {α : Type} (e : SnapshotError) : errOf (.error e : SResult α) = some e := rfl

theorem errOf_eq_some {α : Type} {r : SResult α} {e : SnapshotError} : errOf r = some e ↔ r = .error e := by
  cases r <;> simp

/-- The first name that occurs before. -/
def firstDup : List String → List String → Option String
  | _, [] => none
  | seen, n :: ns => if n ∈ seen then some n else firstDup (seen ++ [n]) ns

/-- The error of a need that is not met. -/
def Need.error (C : Content) : Need → Option SnapshotError
  | .there p => if (C.objAt p).isSome then none else some (.objectNotFound p.names p.sort)
  | .kind p k => (C.objAt p).bind fun o =>
      if o.kind = k then none else some (.objectHasUnexpectedType p.names k o.kind)
  | .free p => if (C.objAt p).isSome then some (.objectAlreadyExists p.names p.sort) else none
  | .distinct s t cs => (firstDup [] cs).map fun c => .objectAlreadyExists [s, t, c] "column"

/-- The error of the first need that is not met. -/
def check (C : Content) : List Need → Option SnapshotError
  | [] => none
  | n :: ns => (n.error C).or (check C ns)

theorem check_append (C : Content) (xs ys : List Need) : check C (xs ++ ys) = (check C xs).or (check C ys) := by
  induction xs with
  | nil => rfl
  | cons n ns ih => simp only [List.cons_append, check, ih, Option.or_assoc]

theorem firstDup_some {seen ns : List String} {c : String} (hs : seen.Nodup) :
    firstDup seen ns = some c ↔
      ∃ before after, ns = before ++ c :: after ∧ (seen ++ before).Nodup ∧ c ∈ seen ++ before := by
  induction ns generalizing seen with
  | nil => simp [firstDup]
  | cons n ns ih =>
    rw [firstDup]
    split
    · rename_i hn
      constructor
      · intro h
        cases h
        exact ⟨[], ns, rfl, by simpa using hs, by simpa using hn⟩
      · rintro ⟨before, after, he, hd, hc⟩
        cases before with
        | nil => simp only [List.nil_append, List.cons.injEq] at he; rw [he.1]
        | cons b bs =>
          exfalso
          simp only [List.cons_append, List.cons.injEq] at he
          rw [List.nodup_append] at hd
          exact hd.2.2 n hn b (by simp) he.1
    · rename_i hn
      rw [ih (by
        rw [List.nodup_append]
        exact ⟨hs, by simp, by rintro a ha b hb rfl; simp at hb; exact hn (hb ▸ ha)⟩)]
      constructor
      · rintro ⟨before, after, he, hd, hc⟩
        exact ⟨n :: before, after, by rw [he]; rfl, by simpa using hd, by simpa using hc⟩
      · rintro ⟨before, after, he, hd, hc⟩
        cases before with
        | nil =>
          simp only [List.nil_append, List.cons.injEq] at he
          rw [← he.1] at hc
          exact absurd (by simpa using hc) hn
        | cons b bs =>
          simp only [List.cons_append, List.cons.injEq] at he
          obtain ⟨rfl, rfl⟩ := he
          exact ⟨bs, after, rfl, by simpa using hd, by simpa using hc⟩

theorem firstDup_none {ns : List String} : firstDup [] ns = none ↔ ns.Nodup := by
  suffices h : ∀ seen : List String, seen.Nodup → (firstDup seen ns = none ↔ (seen ++ ns).Nodup) by
    simpa using h [] (by simp)
  induction ns with
  | nil => simp [firstDup]
  | cons n ns ih =>
    intro seen hs
    rw [firstDup]
    split
    · rename_i hn
      simp only [reduceCtorEq, false_iff, List.nodup_append, not_and]
      exact fun _ _ h => h n hn n (by simp) rfl
    · rename_i hn
      rw [ih _ (by
        rw [List.nodup_append]
        exact ⟨hs, by simp, by rintro a ha b hb rfl; simp at hb; exact hn (hb ▸ ha)⟩)]
      simp

theorem Need.error_none {C : Content} {n : Need} : n.error C = none ↔ n.Met C := by
  cases n with
  | there p => simp only [Need.error, Need.Met]; cases C.objAt p <;> simp
  | kind p k =>
    simp only [Need.error, Need.Met]
    cases C.objAt p with
    | none => simp
    | some o => by_cases h : o.kind = k <;> simp [h]
  | free p => simp only [Need.error, Need.Met]; cases C.objAt p <;> simp
  | distinct s t cs => simp only [Need.error, Need.Met, Option.map_eq_none_iff]; exact firstDup_none

theorem Need.error_some {C : Content} {n : Need} {e : SnapshotError} :
    n.error C = some e ↔ ¬ n.Met C ∧ n.Reports C e := by
  constructor
  · intro h
    refine ⟨fun hm => (nomatch (Need.error_none.2 hm).symm.trans h), ?_⟩
    cases n with
    | there p =>
      simp only [Need.error] at h
      split at h <;> cases h
      exact .there p
    | kind p k =>
      simp only [Need.error, Option.bind_eq_some_iff] at h
      obtain ⟨o, ho, h⟩ := h
      split at h <;> cases h
      exact .kind p k ho
    | free p =>
      simp only [Need.error] at h
      split at h <;> cases h
      exact .free p
    | distinct s t cs =>
      simp only [Need.error, Option.map_eq_some_iff] at h
      obtain ⟨c, hc, rfl⟩ := h
      obtain ⟨before, after, rfl, hd, hm⟩ := (firstDup_some (by simp)).1 hc
      exact .distinct s t (by simpa using hd) (by simpa using hm)
  · rintro ⟨hm, hr⟩
    cases hr with
    | there p => simp only [Need.Met, ne_eq, Decidable.not_not] at hm; simp [Need.error, hm]
    | kind p k ho =>
      simp only [Need.Met, ho, Option.some.injEq, forall_eq'] at hm
      simp [Need.error, ho, hm]
    | free p =>
      simp only [Need.Met] at hm
      rw [Need.error, if_pos]
      exact Option.isSome_iff_ne_none.2 hm
    | distinct s t hd hc =>
      rw [Need.error, (firstDup_some (by simp)).2 ⟨_, _, rfl, by simpa using hd, by simpa using hc⟩]
      rfl

theorem check_some {C : Content} {ns : List Need} {e : SnapshotError} :
    check C ns = some e ↔ FirstUnmet C ns e := by
  induction ns with
  | nil => simp [check, FirstUnmet]
  | cons n ns ih =>
    rw [check]
    cases hn : n.error C with
    | none =>
      have hmet := Need.error_none.1 hn
      rw [Option.none_or, ih]
      constructor
      · rintro ⟨before, m, after, rfl, h1, h2⟩
        exact ⟨n :: before, m, after, rfl, by simpa using ⟨hmet, h1⟩, h2⟩
      · rintro ⟨before, m, after, he, h1, h2⟩
        cases before with
        | nil => simp only [List.nil_append, List.cons.injEq] at he; exact absurd (he.1 ▸ hmet) h2.1
        | cons b bs =>
          simp only [List.cons_append, List.cons.injEq] at he
          exact ⟨bs, m, after, he.2, fun x hx => h1 x (by simp [hx]), h2⟩
    | some e' =>
      have hu := Need.error_some.1 hn
      rw [Option.some_or, Option.some.injEq]
      constructor
      · rintro rfl
        exact ⟨[], n, ns, rfl, by simp, hu⟩
      · rintro ⟨before, m, after, he, h1, h2⟩
        cases before with
        | nil =>
          simp only [List.nil_append, List.cons.injEq] at he
          obtain ⟨rfl, rfl⟩ := he
          have := Need.error_some.2 h2
          rw [hn] at this
          exact Option.some.inj this
        | cons b bs =>
          simp only [List.cons_append, List.cons.injEq] at he
          exact absurd (h1 n (by simp [he.1])) hu.1

theorem check_none {C : Content} {ns : List Need} : check C ns = none ↔ ∀ n ∈ ns, n.Met C := by
  induction ns with
  | nil => simp [check]
  | cons n ns ih => simp [check, Need.error_none, ih]

/-! ### Objects -/

section
variable {d : Database} {s t r c f : String} {sc : Schema} {tb : Table}

theorem objAt_schema : d.content.objAt (.schema s) = (d.schemas.get? s).map fun sc => .schema sc.name := by
  simp only [Content.objAt, Database.content, Option.map_map]; rfl

theorem obj_relation (hs : d.schemas.get? s = some sc) :
    d.content.objAt (.relation s r) = (sc.relations.get? r).map fun x => x.content.obj := by
  simp only [Content.objAt, Database.content, hs, Option.map_some, Option.bind_some, Schema.content,
    Option.map_map]; rfl

theorem obj_function (hs : d.schemas.get? s = some sc) :
    d.content.objAt (.function s f) = (sc.functions.get? f).map .function := by
  simp only [Content.objAt, Database.content, hs, Option.map_some, Option.bind_some, Schema.content]

theorem tableAt_table (hs : d.schemas.get? s = some sc) (ht : sc.relations.get? t = some (.table tb)) :
    d.content.tableAt s t = some tb.content := by
  simp only [Content.tableAt, Database.content, hs, Option.map_some, Option.bind_some, Schema.content, ht,
    Relation.content, RelContent.table?]

theorem obj_column (hs : d.schemas.get? s = some sc) (ht : sc.relations.get? t = some (.table tb)) :
    d.content.objAt (.column s t c) = (Table.findCol tb.columns c).map .column := by
  simp only [Content.objAt, tableAt_table hs ht, Option.bind_some, Table.content, findCol_eq_columnNamed]

theorem obj_constraint (hs : d.schemas.get? s = some sc) (ht : sc.relations.get? t = some (.table tb)) :
    d.content.objAt (.constraint s t c) = (tb.constraints.get? c).map .constraint := by
  simp only [Content.objAt, tableAt_table hs ht, Option.bind_some, Table.content]

theorem kind_obj (x : Relation) : x.content.obj.kind = x.typeName := by cases x <;> rfl

theorem kind_constraint (x : Constraint) : (Obj.constraint x).kind = x.typeName := by cases x <;> rfl

/-! ### Places -/

theorem Database.WF.schema_home (hd : d.WF) (hs : d.schemas.get? s = some sc) : sc.name = s ∧ sc.WF := by
  have h := hd.home _ (AMap.mem_of_get? hs)
  exact h

theorem Schema.WF.rel_home (hw : sc.WF) {x : Relation} (hr : sc.relations.get? r = some x) :
    x.name = r ∧ x.schemaName = sc.name ∧ x.WF := hw.rels_home _ (AMap.mem_of_get? hr)

theorem Table.WF.con_home (hw : tb.WF) {x : Constraint} (hc : tb.constraints.get? c = some x) :
    x.name = c ∧ x.schemaName = tb.schemaName ∧ x.tableName = tb.name :=
  hw.cons_home _ (AMap.mem_of_get? hc)

theorem withSchema_err {g : Schema → SResult Schema} {ns : List Need}
    (h : ∀ sc, d.schemas.get? s = some sc → errOf (g sc) = check d.content ns) :
    errOf (d.withSchema s g) = check d.content (.there (.schema s) :: ns) := by
  rw [check, Need.error, objAt_schema, Database.withSchema, Database.getSchema]
  cases hs : d.schemas.get? s with
  | none => simp; rfl
  | some sc =>
    simp only [Option.map_some, Option.isSome_some, if_true, Option.none_or]
    rw [← h sc hs]
    cases g sc <;> rfl

theorem relation_err {α : Type} {as : Relation → SResult α} {k : String} {x : Relation}
    (hk : ∀ x : Relation, errOf (as x) = if x.typeName = k then none else some (x.unexpected k))
    (hd : d.WF) (hs : d.schemas.get? s = some sc) (hr : sc.relations.get? r = some x) :
    errOf (as x) = (Need.kind (.relation s r) k).error d.content := by
  obtain ⟨e1, hw⟩ := hd.schema_home hs
  obtain ⟨e2, e3, _⟩ := hw.rel_home hr
  rw [hk, Need.error, obj_relation hs, hr, Option.map_some, Option.bind_some, kind_obj, Path.names,
    Relation.unexpected, e2, e3, e1]

theorem asTable_err (x : Relation) :
    errOf x.asTable = if x.typeName = "table" then none else some (x.unexpected "table") := by
  cases x <;> rfl
theorem asView_err (x : Relation) :
    errOf x.asView = if x.typeName = "view" then none else some (x.unexpected "view") := by
  cases x <;> rfl
theorem asIndex_err (x : Relation) :
    errOf x.asIndex = if x.typeName = "index" then none else some (x.unexpected "index") := by
  cases x <;> rfl
theorem asSequence_err (x : Relation) :
    errOf x.asSequence = if x.typeName = "sequence" then none else some (x.unexpected "sequence") := by
  cases x <;> rfl
theorem asPrimaryKey_err (x : Constraint) :
    errOf x.asPrimaryKey = if x.typeName = "primary key" then none else some (x.unexpected "primary key") := by
  cases x <;> rfl
theorem asForeignKey_err (x : Constraint) :
    errOf x.asForeignKey = if x.typeName = "foreign key" then none else some (x.unexpected "foreign key") := by
  cases x <;> rfl
theorem asUnique_err (x : Constraint) :
    errOf x.asUnique = if x.typeName = "unique" then none else some (x.unexpected "unique") := by
  cases x <;> rfl
theorem asCheck_err (x : Constraint) :
    errOf x.asCheck = if x.typeName = "check" then none else some (x.unexpected "check") := by
  cases x <;> rfl

theorem there_relation (hd : d.WF) (hs : d.schemas.get? s = some sc) :
    (Need.there (.relation s r)).error d.content = errOf (sc.getRelation r) := by
  obtain ⟨e1, hw⟩ := hd.schema_home hs
  rw [Need.error, obj_relation hs, Schema.getRelation]
  cases sc.relations.get? r with
  | none => simp [SnapshotError.relationNotFound, Path.names, Path.sort, e1]
  | some x => rfl

theorem there_function (hd : d.WF) (hs : d.schemas.get? s = some sc) :
    (Need.there (.function s f)).error d.content = errOf (sc.getFunction f) := by
  obtain ⟨e1, hw⟩ := hd.schema_home hs
  rw [Need.error, obj_function hs, Schema.getFunction]
  cases sc.functions.get? f with
  | none => simp [SnapshotError.functionNotFound, Path.names, Path.sort, e1]
  | some x => rfl

theorem free_relation (hd : d.WF) (hs : d.schemas.get? s = some sc) {x : Relation} :
    (Need.free (.relation s x.name)).error d.content = errOf (sc.addRelation x) := by
  obtain ⟨e1, hw⟩ := hd.schema_home hs
  rw [Need.error, obj_relation hs, Schema.addRelation, AMap.has]
  cases sc.relations.get? x.name with
  | none => rfl
  | some y => simp [SnapshotError.relationAlreadyExists, Path.names, Path.sort, e1]

theorem free_function (hd : d.WF) (hs : d.schemas.get? s = some sc) {x : Function} :
    (Need.free (.function s x.name)).error d.content = errOf (sc.addFunction x) := by
  obtain ⟨e1, hw⟩ := hd.schema_home hs
  rw [Need.error, obj_function hs, Schema.addFunction, AMap.has]
  cases sc.functions.get? x.name with
  | none => rfl
  | some y => simp [SnapshotError.functionAlreadyExists, Path.names, Path.sort, e1]

/-- A table at its place. -/
structure TableIn (d : Database) (s t : String) (tb : Table) : Prop where
  at_ : ∃ sc, d.schemas.get? s = some sc ∧ sc.relations.get? t = some (.table tb)
  schema : tb.schemaName = s
  name : tb.name = t
  wf : tb.WF

theorem tableIn (hd : d.WF) (hs : d.schemas.get? s = some sc) (ht : sc.relations.get? t = some (.table tb)) :
    TableIn d s t tb := by
  obtain ⟨e1, hw⟩ := hd.schema_home hs
  obtain ⟨e2, e3, hw'⟩ := hw.rel_home ht
  exact ⟨⟨sc, hs, ht⟩, by rw [← e1]; exact e3, e2, hw'⟩

theorem withTable_err {g : Table → SResult Table} {ns : List Need} (hd : d.WF)
    (h : ∀ tb, TableIn d s t tb → errOf (g tb) = check d.content ns) :
    errOf (d.withTable s t g) = check d.content (Need.table s t ++ ns) := by
  rw [Database.withTable, Need.table]
  refine withSchema_err fun sc hs => ?_
  show _ = check d.content (.there (.relation s t) :: .kind (.relation s t) "table" :: ns)
  rw [check, check, there_relation hd hs, Schema.withTable]
  cases hr : sc.relations.get? t with
  | none => simp [Schema.getRelation, hr]
  | some x =>
    simp only [Schema.getRelation, hr, errOf_ok, Option.none_or]
    rw [← relation_err asTable_err hd hs hr]
    cases x with
    | table tb =>
      simp only [Relation.asTable, errOf_ok, Option.none_or]
      rw [← h tb (tableIn hd hs hr)]
      cases g tb <;> rfl
    | _ => rfl

theorem there_column (h : TableIn d s t tb) :
    (Need.there (.column s t c)).error d.content
      = if (Table.findCol tb.columns c).isSome then none else some (.columnNotFound tb.schemaName tb.name c) := by
  obtain ⟨sc, hs, ht⟩ := h.at_
  rw [Need.error, obj_column hs ht, Option.isSome_map, h.schema, h.name]; rfl

theorem free_column (h : TableIn d s t tb) {x : Column} :
    (Need.free (.column s t x.name)).error d.content = errOf (tb.addColumn x) := by
  obtain ⟨sc, hs, ht⟩ := h.at_
  rw [Need.error, obj_column hs ht, Option.isSome_map, Table.addColumn, Table.hasColumn, h.schema, h.name]
  split <;> rfl

theorem there_constraint (h : TableIn d s t tb) :
    (Need.there (.constraint s t c)).error d.content = errOf (tb.getConstraint c) := by
  obtain ⟨sc, hs, ht⟩ := h.at_
  rw [Need.error, obj_constraint hs ht, Option.isSome_map, Table.getConstraint, h.schema, h.name]
  cases tb.constraints.get? c <;> rfl

theorem free_constraint (h : TableIn d s t tb) {x : Constraint} :
    (Need.free (.constraint s t x.name)).error d.content = errOf (tb.addConstraint x) := by
  obtain ⟨sc, hs, ht⟩ := h.at_
  rw [Need.error, obj_constraint hs ht, Option.isSome_map, Table.addConstraint, AMap.has, h.schema, h.name]
  split <;> rfl

theorem kind_constraint_err {α : Type} {as : Constraint → SResult α} {k : String} {x : Constraint}
    (hk : ∀ x : Constraint, errOf (as x) = if x.typeName = k then none else some (x.unexpected k))
    (h : TableIn d s t tb) (hx : tb.constraints.get? c = some x) :
    errOf (as x) = (Need.kind (.constraint s t c) k).error d.content := by
  obtain ⟨sc, hs, ht⟩ := h.at_
  obtain ⟨e1, e2, e3⟩ := h.wf.con_home hx
  rw [hk, Need.error, obj_constraint hs ht, hx, Option.map_some, Option.bind_some, kind_constraint,
    Path.names, Constraint.unexpected, e1, e2, e3, h.schema, h.name]

theorem modifyColumn_err (h : TableIn d s t tb) {g : Column → Column} :
    errOf (tb.modifyColumn c g) = check d.content [.there (.column s t c)] := by
  rw [check, check, Option.or_none, there_column h, Table.modifyColumn]
  cases Table.findCol tb.columns c <;> rfl

theorem removeColumn_err (h : TableIn d s t tb) :
    errOf (tb.removeColumn c) = check d.content [.there (.column s t c)] := by
  rw [check, check, Option.or_none, there_column h, Table.removeColumn]
  cases Table.findCol tb.columns c <;> rfl

theorem alterConstraint_err {as : Constraint → SResult α} {conv : Constraint → SResult Constraint} {k : String}
    (hk : ∀ x : Constraint, errOf (as x) = if x.typeName = k then none else some (x.unexpected k))
    (hc : ∀ x, errOf (conv x) = errOf (as x)) (h : TableIn d s t tb) :
    errOf (tb.alterConstraint c conv)
      = check d.content [.there (.constraint s t c), .kind (.constraint s t c) k] := by
  rw [check, check, check, Option.or_none, there_constraint h, Table.alterConstraint]
  cases hx : tb.constraints.get? c with
  | none => simp [Table.getConstraint, hx]
  | some x =>
    simp only [Table.getConstraint, hx, errOf_ok, Option.none_or]
    rw [← kind_constraint_err hk h hx, ← hc x]
    cases conv x <;> rfl

theorem dropConstraint_err {as : Constraint → SResult α} {k : String}
    (hk : ∀ x : Constraint, errOf (as x) = if x.typeName = k then none else some (x.unexpected k))
    (h : TableIn d s t tb) :
    errOf (tb.dropConstraint c as)
      = check d.content [.there (.constraint s t c), .kind (.constraint s t c) k] := by
  rw [check, check, check, Option.or_none, there_constraint h, Table.dropConstraint]
  cases hx : tb.constraints.get? c with
  | none => simp [Table.getConstraint, hx]
  | some x =>
    simp only [Table.getConstraint, hx, errOf_ok, Option.none_or]
    rw [← kind_constraint_err hk h hx]
    cases as x with
    | error e => rfl
    | ok y => simp [Table.removeConstraint, hx]

theorem dropRelationAs_err {as : Relation → SResult α} {k : String}
    (hk : ∀ x : Relation, errOf (as x) = if x.typeName = k then none else some (x.unexpected k))
    (hd : d.WF) (hs : d.schemas.get? s = some sc) :
    errOf (sc.dropRelationAs r as)
      = check d.content [.there (.relation s r), .kind (.relation s r) k] := by
  rw [check, check, check, Option.or_none, there_relation hd hs, Schema.dropRelationAs]
  cases hx : sc.relations.get? r with
  | none => simp [Schema.getRelation, hx]
  | some x =>
    simp only [Schema.getRelation, hx, errOf_ok, Option.none_or]
    rw [← relation_err hk hd hs hx]
    cases as x with
    | error e => rfl
    | ok y => simp [Schema.removeRelation, hx]

theorem buildColumns_err {s t : String} {cols : List NewColumn} {tb : Table} (h1 : tb.schemaName = s)
    (h2 : tb.name = t) :
    errOf (Table.buildColumns s t tb cols)
      = (firstDup (tb.columns.map Column.name) (cols.map NewColumn.name)).map
          fun c => .objectAlreadyExists [s, t, c] "column" := by
  induction cols generalizing tb with
  | nil => rfl
  | cons x xs ih =>
    rw [Table.buildColumns, List.map_cons, firstDup]
    unfold Table.addColumn
    have e : tb.hasColumn x.name = true ↔ x.name ∈ tb.columns.map Column.name := by
      rw [Table.hasColumn, findCol_eq_columnNamed, Option.isSome_iff_ne_none, ne_eq, columnNamed_eq_none,
        Decidable.not_not]
    by_cases hx : x.name ∈ tb.columns.map Column.name
    · rw [if_pos hx, if_pos (e.2 hx), h1, h2]; rfl
    · rw [if_neg hx, if_neg (fun h => hx (e.1 h))]
      simp only
      rw [ih (tb := { tb with columns := tb.columns ++ [_] }) h1 h2]
      simp

theorem built_name {s t : String} {cols : List NewColumn} {tb tb' : Table}
    (h : Table.buildColumns s t tb cols = .ok tb') : tb'.name = tb.name := by
  induction cols generalizing tb with
  | nil => cases h; rfl
  | cons x xs ih =>
    rw [Table.buildColumns] at h
    split at h
    · cases h
    · rename_i tb1 h1
      rw [ih h]
      unfold Table.addColumn at h1
      split at h1 <;> cases h1
      rfl

theorem renameColumn_err {a b : String} (h : TableIn d s t tb) :
    errOf (tb.renameColumn a b) = check d.content
      (.there (.column s t a) :: if a = b then [] else [.free (.column s t b)]) := by
  obtain ⟨sc, hs, ht⟩ := h.at_
  rw [check, there_column h, Table.renameColumn, Table.removeColumn]
  cases ha : Table.findCol tb.columns a with
  | none => simp
  | some col =>
    have hn : a ∈ tb.columns.map Column.name := by
      rw [findCol_eq_columnNamed] at ha
      exact Decidable.not_not.1 fun h => by rw [columnNamed_eq_none.2 h] at ha; cases ha
    simp only [Option.isSome_some, if_true, Option.none_or]
    have key : ∀ x, Table.findCol (Table.eraseCol tb.columns a) x
        = if x = a then none else Table.findCol tb.columns x := by
      intro x
      rw [findCol_eq_columnNamed, findCol_eq_columnNamed]
      exact columnNamed_eraseCol h.wf.cols_nodup _ _
    unfold Table.addColumn Table.hasColumn
    simp only [key]
    by_cases hab : a = b
    · subst hab; simp [check]
    · rw [if_neg (Ne.symm hab), if_neg hab, check, check, Option.or_none, Need.error, obj_column hs ht,
        Option.isSome_map, h.schema, h.name]
      split <;> rfl

end

theorem there_schema_list {d : Database} {s : String} :
    check d.content [.there (.schema s)] = errOf (d.getSchema s) := by
  rw [check, check, Option.or_none, Need.error, objAt_schema, Database.getSchema]
  cases d.schemas.get? s <;> rfl

theorem single {C : Content} {n : Need} : check C [n] = n.error C := by rw [check, check, Option.or_none]

theorem apply_err {c : Change} {d : Database} (hd : d.WF) : errOf (c.apply d) = check d.content c.needs := by
  cases c with
  | createSchema s =>
    rw [Change.apply, Change.needs, single, Need.error, objAt_schema, Database.addSchema, AMap.has]
    show errOf (if (d.schemas.get? s).isSome then _ else _) = _
    cases d.schemas.get? s <;> rfl
  | dropSchema s =>
    rw [Change.apply, Change.needs, there_schema_list, Database.removeSchema, Database.getSchema]
    cases d.schemas.get? s <;> rfl
  | createTable s t cols =>
    rw [Change.apply, Change.needs]
    refine withSchema_err fun sc hs => ?_
    have hb : errOf (Table.buildColumns s t (Table.new s t) cols)
        = (Need.distinct s t (cols.map NewColumn.name)).error d.content :=
      buildColumns_err (tb := Table.new s t) (cols := cols) rfl rfl
    rw [check, single, ← hb]
    cases h : Table.buildColumns s t (Table.new s t) cols with
    | error e => rfl
    | ok tb =>
      have hn : tb.name = t := built_name h
      simp only [errOf_ok, Option.none_or]
      rw [← free_relation hd hs]
      show Need.error _ (.free (.relation s tb.name)) = _
      rw [hn]
  | dropTable s t =>
    rw [Change.apply, Change.needs]
    refine withSchema_err fun sc hs => ?_
    rw [single, there_relation hd hs, Schema.removeRelation, Schema.getRelation]
    cases sc.relations.get? t <;> rfl
  | addColumn s t n ty nn df =>
    rw [Change.apply, Change.needs]
    refine withTable_err hd fun tb h => ?_
    rw [single, ← free_column h]
  | setDataType s t n ty => exact withTable_err hd fun tb h => modifyColumn_err h
  | setDefault s t n ty => exact withTable_err hd fun tb h => modifyColumn_err h
  | setNotNull s t n ty => exact withTable_err hd fun tb h => modifyColumn_err h
  | dropColumn s t n =>
    refine withTable_err hd fun tb h => ?_
    rw [← removeColumn_err h]
    cases tb.removeColumn n <;> rfl
  | renameColumn s t a b =>
    rw [Change.needs, Need.column, List.append_assoc]
    exact withTable_err hd fun tb h => renameColumn_err h
  | addPrimaryKey s t n cols df ini =>
    refine withTable_err hd fun tb h => ?_
    rw [single, ← free_constraint h]; rfl
  | addUnique s t n cols df ini =>
    refine withTable_err hd fun tb h => ?_
    rw [single, ← free_constraint h]; rfl
  | addForeignKey s t n cols ts tt tcols mo ur dr df ini =>
    refine withTable_err hd fun tb h => ?_
    rw [single, ← free_constraint h]; rfl
  | addCheck s t n ex df ini =>
    refine withTable_err hd fun tb h => ?_
    rw [single, ← free_constraint h]; rfl
  | alterPrimaryKey s t n df ini =>
    exact withTable_err hd fun tb h => alterConstraint_err asPrimaryKey_err
      (fun x => by cases x.asPrimaryKey <;> rfl) h
  | alterUnique s t n df ini =>
    exact withTable_err hd fun tb h => alterConstraint_err asUnique_err
      (fun x => by cases x.asUnique <;> rfl) h
  | alterForeignKey s t n df ini =>
    exact withTable_err hd fun tb h => alterConstraint_err asForeignKey_err
      (fun x => by cases x.asForeignKey <;> rfl) h
  | alterCheck s t n df ini =>
    exact withTable_err hd fun tb h => alterConstraint_err asCheck_err
      (fun x => by cases x.asCheck <;> rfl) h
  | dropPrimaryKey s t n => exact withTable_err hd fun tb h => dropConstraint_err asPrimaryKey_err h
  | dropUnique s t n => exact withTable_err hd fun tb h => dropConstraint_err asUnique_err h
  | dropForeignKey s t n => exact withTable_err hd fun tb h => dropConstraint_err asForeignKey_err h
  | dropCheck s t n => exact withTable_err hd fun tb h => dropConstraint_err asCheck_err h
  | createFunction s f b l r v =>
    refine withSchema_err fun sc hs => ?_
    rw [single, ← free_function hd hs]
  | dropFunction s f =>
    refine withSchema_err fun sc hs => ?_
    rw [single, there_function hd hs, Schema.removeFunction, Schema.getFunction]
    cases sc.functions.get? f <;> rfl
  | createView s v q =>
    refine withSchema_err fun sc hs => ?_
    rw [single, ← free_relation hd hs]; rfl
  | dropView s v => exact withSchema_err fun sc hs => dropRelationAs_err asView_err hd hs
  | createIndex s t i u m ks =>
    rw [Change.apply, Change.needs, Need.table]
    refine withSchema_err fun sc hs => ?_
    show _ = check d.content
      [.there (.relation s t), .kind (.relation s t) "table", .free (.relation s i)]
    rw [check, check, there_relation hd hs, single]
    cases hr : sc.relations.get? t with
    | none => simp [Schema.getRelation, hr]
    | some x =>
      simp only [Schema.getRelation, hr, errOf_ok, Option.none_or]
      rw [← relation_err asTable_err hd hs hr]
      cases x.asTable with
      | error e => rfl
      | ok tb =>
        simp only [errOf_ok, Option.none_or]
        rw [← free_relation hd hs]; rfl
  | dropIndex s v => exact withSchema_err fun sc hs => dropRelationAs_err asIndex_err hd hs
  | createSequence s q ty inc mn mx st ca cy =>
    refine withSchema_err fun sc hs => ?_
    rw [single, ← free_relation hd hs]; rfl
  | dropSequence s q => exact withSchema_err fun sc hs => dropRelationAs_err asSequence_err hd hs

/-! ### Reverting -/

section
variable {d : Database} {s t r c f : String}

theorem lookSchema_err {k : Schema → SResult Change} {ns : List Need}
    (h : ∀ sc, d.schemas.get? s = some sc → errOf (k sc) = check d.content ns) :
    errOf (lookSchema d s k) = check d.content (.there (.schema s) :: ns) := by
  rw [check, ← single, there_schema_list, lookSchema, Database.getSchema]
  cases hs : d.schemas.get? s with
  | none => rfl
  | some sc => simp only [errOf_ok, Option.none_or]; exact h sc hs

theorem lookTable_err {k : Schema → Table → SResult Change} {ns : List Need} (hd : d.WF)
    (h : ∀ sc tb, TableIn d s t tb → errOf (k sc tb) = check d.content ns) :
    errOf (lookTable d s t k) = check d.content (Need.table s t ++ ns) := by
  rw [lookTable, Need.table]
  refine lookSchema_err fun sc hs => ?_
  show _ = check d.content (.there (.relation s t) :: .kind (.relation s t) "table" :: ns)
  rw [check, check, there_relation hd hs]
  cases hr : sc.relations.get? t with
  | none => simp [Schema.getRelation, hr]
  | some x =>
    simp only [Schema.getRelation, hr, errOf_ok, Option.none_or]
    rw [← relation_err asTable_err hd hs hr]
    cases x with
    | table tb =>
      simp only [Relation.asTable, errOf_ok, Option.none_or]
      exact h sc tb (tableIn hd hs hr)
    | _ => rfl

theorem lookTable_err_nil {k : Schema → Table → SResult Change} (hd : d.WF)
    (h : ∀ sc tb, errOf (k sc tb) = none) : errOf (lookTable d s t k) = check d.content (Need.table s t) := by
  rw [← List.append_nil (Need.table s t)]
  exact lookTable_err hd fun sc tb _ => h sc tb

theorem lookColumn_err {k : Schema → Table → Column → SResult Change} (hd : d.WF)
    (h : ∀ sc tb col, errOf (k sc tb col) = none) :
    errOf (lookColumn d s t c k) = check d.content (Need.column s t c) := by
  rw [lookColumn, Need.column]
  refine lookTable_err hd fun sc tb ht => ?_
  rw [single, there_column ht, Table.getColumn]
  cases Table.findCol tb.columns c with
  | none => rfl
  | some col => exact h sc tb col

theorem lookConstraint_err {α : Type} {as : Constraint → SResult α} {k : Schema → Table → α → SResult Change}
    {kd : String}
    (hk : ∀ x : Constraint, errOf (as x) = if x.typeName = kd then none else some (x.unexpected kd))
    (hd : d.WF) (h : ∀ sc tb x, errOf (k sc tb x) = none) :
    errOf (lookConstraint d s t c as k) = check d.content (Need.constraint s t c kd) := by
  rw [lookConstraint, Need.constraint]
  refine lookTable_err hd fun sc tb ht => ?_
  rw [check, single, there_constraint ht]
  cases hx : tb.constraints.get? c with
  | none => simp [Table.getConstraint, hx]
  | some x =>
    simp only [Table.getConstraint, hx, errOf_ok, Option.none_or]
    rw [← kind_constraint_err hk ht hx]
    cases as x with
    | error e => rfl
    | ok y => exact h sc tb y

theorem lookRelation_err {α : Type} {as : Relation → SResult α} {k : Schema → α → SResult Change} {kd : String}
    (hk : ∀ x : Relation, errOf (as x) = if x.typeName = kd then none else some (x.unexpected kd))
    (hd : d.WF) (h : ∀ sc x, errOf (k sc x) = none) :
    errOf (lookRelation d s r as k) = check d.content (Need.relation s r kd) := by
  rw [lookRelation, Need.relation]
  refine lookSchema_err fun sc hs => ?_
  rw [check, single, there_relation hd hs]
  cases hx : sc.relations.get? r with
  | none => simp [Schema.getRelation, hx]
  | some x =>
    simp only [Schema.getRelation, hx, errOf_ok, Option.none_or]
    rw [← relation_err hk hd hs hx]
    cases as x with
    | error e => rfl
    | ok y => exact h sc y

end

theorem revert_err {c : Change} {d : Database} (hd : d.WF) :
    errOf (c.revert d) = check d.content c.revertNeeds := by
  cases c with
  | createSchema s => rfl
  | dropSchema s => rfl
  | createTable s t cols => exact lookSchema_err fun _ _ => rfl
  | dropTable s t => exact lookTable_err_nil hd fun _ _ => rfl
  | addColumn s t n ty nn df => exact lookTable_err_nil hd fun _ _ => rfl
  | setDataType s t n ty => exact lookColumn_err hd fun _ _ _ => rfl
  | setDefault s t n ty => exact lookColumn_err hd fun _ _ _ => rfl
  | setNotNull s t n ty => exact lookColumn_err hd fun _ _ _ => rfl
  | dropColumn s t n => exact lookColumn_err hd fun _ _ _ => rfl
  | renameColumn s t a b => exact lookColumn_err hd fun _ _ _ => rfl
  | addPrimaryKey s t n cols df ini => exact lookTable_err_nil hd fun _ _ => rfl
  | addUnique s t n cols df ini => exact lookTable_err_nil hd fun _ _ => rfl
  | addForeignKey s t n cols ts tt tcols mo ur dr df ini => exact lookTable_err_nil hd fun _ _ => rfl
  | addCheck s t n ex df ini => exact lookTable_err_nil hd fun _ _ => rfl
  | alterPrimaryKey s t n df ini => exact lookConstraint_err asPrimaryKey_err hd fun _ _ _ => rfl
  | alterUnique s t n df ini => exact lookConstraint_err asUnique_err hd fun _ _ _ => rfl
  | alterForeignKey s t n df ini => exact lookConstraint_err asForeignKey_err hd fun _ _ _ => rfl
  | alterCheck s t n df ini => exact lookConstraint_err asCheck_err hd fun _ _ _ => rfl
  | dropPrimaryKey s t n => exact lookConstraint_err asPrimaryKey_err hd fun _ _ _ => rfl
  | dropUnique s t n => exact lookConstraint_err asUnique_err hd fun _ _ _ => rfl
  | dropForeignKey s t n => exact lookConstraint_err asForeignKey_err hd fun _ _ _ => rfl
  | dropCheck s t n => exact lookConstraint_err asCheck_err hd fun _ _ _ => rfl
  | createFunction s f b l r v => exact lookSchema_err fun _ _ => rfl
  | dropFunction s f =>
    refine lookSchema_err fun sc hs => ?_
    rw [single, there_function hd hs]
    cases sc.getFunction f <;> rfl
  | createView s v q => exact lookSchema_err fun _ _ => rfl
  | dropView s v => exact lookRelation_err asView_err hd fun _ _ => rfl
  | createIndex s t i u m ks => exact lookSchema_err fun _ _ => rfl
  | dropIndex s v => exact lookRelation_err asIndex_err hd fun _ _ => rfl
  | createSequence s q ty inc mn mx st ca cy => exact lookSchema_err fun _ _ => rfl
  | dropSequence s q => exact lookRelation_err asSequence_err hd fun _ _ => rfl

/-! ### Loading -/

open AMap

theorem addRelations_err : ∀ {rs : List Relation} {s : Schema} {e : SnapshotError}, s.WF →
    (∀ r ∈ rs, r.schemaName = s.name ∧ r.WF) → (rs.map Relation.name).Nodup →
    s.addRelations rs = .error e →
    ∃ r ∈ rs, r.name ∈ s.relations.keys ∧ e = .objectAlreadyExists [s.name, r.name] "relation"
  | [], s, e, _, _, _, h => by cases h
  | r :: rs, s, e, hs, hr, hn, h => by
    simp only [Schema.addRelations] at h
    simp only [List.map_cons, List.nodup_cons] at hn
    cases ha : s.addRelation r with
    | error e' =>
      rw [ha] at h
      cases h
      unfold Schema.addRelation at ha
      split at ha
      · rename_i hh
        cases ha
        exact ⟨r, by simp, has_iff.1 hh, rfl⟩
      · cases ha
    | ok s' =>
      rw [ha] at h
      have hr' := hr r (by simp)
      have hw := addRelation_wf hs hr'.1 hr'.2 ha
      unfold Schema.addRelation at ha
      split at ha
      · cases ha
      · rename_i hh
        cases ha
        obtain ⟨x, hx, hk, he⟩ := addRelations_err hw.1 (fun y hy => hr y (by simp [hy])) hn.2 h
        refine ⟨x, by simp [hx], ?_, he⟩
        rw [← get?_isSome_iff] at hk ⊢
        simp only at hk
        rw [get?_insertNew _ _ _ _ (has_eq_false_iff.1 (by simpa using hh))] at hk
        rw [if_neg] at hk
        · exact hk
        · intro e
          exact hn.1 (e ▸ List.mem_map_of_mem hx)

theorem addFunctions_err : ∀ {fs : List Function} {s : Schema} {e : SnapshotError}, s.WF →
    (∀ r ∈ fs, r.schemaName = s.name) → (fs.map Function.name).Nodup →
    s.addFunctions fs = .error e →
    ∃ r ∈ fs, r.name ∈ s.functions.keys ∧ e = .objectAlreadyExists [s.name, r.name] "function"
  | [], s, e, _, _, _, h => by cases h
  | r :: rs, s, e, hs, hr, hn, h => by
    simp only [Schema.addFunctions] at h
    simp only [List.map_cons, List.nodup_cons] at hn
    cases ha : s.addFunction r with
    | error e' =>
      rw [ha] at h
      cases h
      unfold Schema.addFunction at ha
      split at ha
      · rename_i hh
        cases ha
        exact ⟨r, by simp, has_iff.1 hh, rfl⟩
      · cases ha
    | ok s' =>
      rw [ha] at h
      have hw := addFunction_wf hs (hr r (by simp)) ha
      unfold Schema.addFunction at ha
      split at ha
      · cases ha
      · rename_i hh
        cases ha
        obtain ⟨x, hx, hk, he⟩ := addFunctions_err hw.1 (fun y hy => hr y (by simp [hy])) hn.2 h
        refine ⟨x, by simp [hx], ?_, he⟩
        rw [← get?_isSome_iff] at hk ⊢
        simp only at hk
        rw [get?_insertNew _ _ _ _ (has_eq_false_iff.1 (by simpa using hh))] at hk
        rw [if_neg] at hk
        · exact hk
        · intro e
          exact hn.1 (e ▸ List.mem_map_of_mem hx)

theorem mergeSchema_err {a b : Schema} {e : SnapshotError} (ha : a.WF) (hb : b.WF) (hn : a.name = b.name)
    (h : a.mergeSchema b = .error e) : ClashReported a b e := by
  obtain ⟨p1, p2, p3, p4⟩ := Schema.merge_prep hb hn
  unfold Schema.mergeSchema at h
  cases hr : a.addRelations b.relations.values with
  | error e' =>
    rw [hr] at h
    cases h
    obtain ⟨r, h1, h2, h3⟩ := addRelations_err ha p1 p2 hr
    obtain ⟨k, hk⟩ := mem_values.1 h1
    have := (hb.rels_home _ hk).1
    simp only at this
    exact ⟨hn, .inl ⟨r.name, h2, by rw [this]; exact List.mem_map_of_mem (f := Prod.fst) hk, h3⟩⟩
  | ok s1 =>
    rw [hr] at h
    obtain ⟨w1, n1, f1, _⟩ := Schema.addRelations_ok _ _ _ ha p1 hr
    obtain ⟨r, h1, h2, h3⟩ := addFunctions_err w1 (by rw [n1]; exact p3) p4 h
    obtain ⟨k, hk⟩ := mem_values.1 h1
    have := (hb.funs_home _ hk).1
    simp only at this
    rw [f1] at h2
    rw [n1] at h3
    exact ⟨hn, .inr ⟨r.name, h2, by rw [this]; exact List.mem_map_of_mem (f := Prod.fst) hk, h3⟩⟩

theorem SameDefs.reported_left {xs ys : List Schema} (h : SameDefs xs ys) {b : Schema} {e : SnapshotError} :
    (∃ a ∈ xs, ClashReported a b e) → ∃ a ∈ ys, ClashReported a b e := by
  rintro ⟨a, ha, hn, ⟨r, h1, h2, he⟩ | ⟨r, h1, h2, he⟩⟩
  · obtain ⟨x, hx⟩ := Option.isSome_iff_exists.1 (get?_isSome_iff.2 h1)
    obtain ⟨a', h3, h4, h5⟩ := (h.2.1 _ _ _).1 ⟨a, ha, hn, hx⟩
    exact ⟨a', h3, h4, .inl ⟨r, mem_keys_of_get? h5, h2, by rw [he, hn, h4]⟩⟩
  · obtain ⟨x, hx⟩ := Option.isSome_iff_exists.1 (get?_isSome_iff.2 h1)
    obtain ⟨a', h3, h4, h5⟩ := (h.2.2 _ _ _).1 ⟨a, ha, hn, hx⟩
    exact ⟨a', h3, h4, .inr ⟨r, mem_keys_of_get? h5, h2, by rw [he, hn, h4]⟩⟩

theorem ClashReported.symm {a b : Schema} {e : SnapshotError} (h : ClashReported a b e) :
    ClashReported b a e := by
  obtain ⟨hn, ⟨r, h1, h2, he⟩ | ⟨r, h1, h2, he⟩⟩ := h
  · exact ⟨hn.symm, .inl ⟨r, h2, h1, by rw [he, hn]⟩⟩
  · exact ⟨hn.symm, .inr ⟨r, h2, h1, by rw [he, hn]⟩⟩

theorem mergeOne_err {d : Database} {scs : List Schema} (h : Holds d scs) {sc : Schema} (hsc : sc.WF)
    {e : SnapshotError} (he : d.mergeOne sc.name sc = .error e) : ∃ a ∈ scs, ClashReported a sc e := by
  unfold Database.mergeOne at he
  cases hm : d.schemas.get? sc.name with
  | none =>
    rw [hm] at he
    simp only [Database.addSchema, has_of_none hm] at he
    cases he
  | some mine =>
    rw [hm] at he
    have hh := h.wf.home _ (mem_of_get? hm)
    simp only at he
    split at he
    · rename_i e' hmm
      cases he
      refine (h.wf.holds_self.sameDefs h).reported_left ⟨mine, mem_values.2 ⟨_, mem_of_get? hm⟩, ?_⟩
      exact mergeSchema_err hh.2 hsc hh.1 hmm
    · cases he

theorem addSchemas_err : ∀ {xs : List Schema} {d : Database} {scs : List Schema} {e : SnapshotError},
    Holds d scs → (∀ x ∈ xs, x.WF) → Load.addSchemas d xs = .error e →
    (∃ a ∈ scs, ∃ b ∈ xs, ClashReported a b e) ∨ ∃ a b, [a, b].Sublist xs ∧ ClashReported a b e
  | [], d, scs, e, _, _, h => by cases h
  | x :: xs, d, scs, e, h, hw, he => by
    simp only [Load.addSchemas] at he
    cases hm : d.mergeOne x.name x with
    | error e' =>
      rw [hm] at he
      cases he
      obtain ⟨a, ha, hc⟩ := mergeOne_err h (hw x (by simp)) hm
      exact .inl ⟨a, ha, x, by simp, hc⟩
    | ok d1 =>
      rw [hm] at he
      have h1 := mergeOne_holds h (hw x (by simp)) hm
      rcases addSchemas_err h1 (fun y hy => hw y (by simp [hy])) he with ⟨a, ha, b, hb, hc⟩ | ⟨a, b, hs, hc⟩
      · rcases List.mem_append.1 ha with ha | ha
        · exact .inl ⟨a, ha, b, by simp [hb], hc⟩
        · obtain rfl := List.mem_singleton.1 ha
          exact .inr ⟨a, b, (List.singleton_sublist.2 hb).cons_cons a, hc⟩
      · exact .inr ⟨a, b, hs.cons x, hc⟩

theorem fileInto_err {F : Type} {parse : F → Except LoadError (List Schema)} {d : Database}
    {scs : List Schema} (h : Holds d scs) {f : F} {e : SnapshotError}
    (hw : ∀ xs, parse f = .ok xs → ∀ x ∈ xs, x.WF) (hp : parse f ≠ .error (.snapshot e))
    (he : Load.fileInto parse d f = .error (.snapshot e)) :
    ∃ xs, parse f = .ok xs ∧ ((∃ a ∈ scs, ∃ b ∈ xs, ClashReported a b e) ∨
      ∃ a b, [a, b].Sublist xs ∧ ClashReported a b e) := by
  simp only [Load.fileInto] at he
  cases hpf : parse f with
  | error e' =>
    rw [hpf] at he hp
    cases he
    exact absurd rfl hp
  | ok xs =>
    rw [hpf] at he
    have hxs := hw xs hpf
    refine ⟨xs, rfl, ?_⟩
    simp only at he
    cases hl : Load.addSchemas Database.new xs with
    | error e' =>
      rw [hl] at he
      cases he
      rcases addSchemas_err holds_new hxs hl with ⟨a, ha, _⟩ | h
      · simp at ha
      · exact .inr h
    | ok fd =>
      rw [hl] at he
      have hfd : Holds fd xs := by simpa using (addSchemas_ok_iff xs Database.new [] holds_new hxs).2 fd hl
      have hm : d.merge fd = Load.addSchemas d fd.schemas.values :=
        mergeAll_eq_addSchemas _ _ fun p hp => (hfd.wf.home p hp).1
      have hvw : ∀ x ∈ fd.schemas.values, x.WF := by
        intro x hx
        obtain ⟨k, hk⟩ := mem_values.1 hx
        exact (hfd.wf.home _ hk).2
      simp only [hm] at he
      split at he
      · rename_i e' hb
        cases he
        rcases addSchemas_err h hvw hb with ⟨a, ha, b, hb, hc⟩ | ⟨a, b, hs, hc⟩
        · obtain ⟨b', h1, h2⟩ := (hfd.wf.holds_self.sameDefs hfd).reported_left ⟨b, hb, hc.symm⟩
          exact .inl ⟨a, ha, b', h1, h2.symm⟩
        · exfalso
          have hnd : (fd.schemas.values.map Schema.name).Nodup := by
            rw [map_name_values fun p hp => (hfd.wf.home p hp).1]; exact hfd.wf.nodup
          have := (hs.map Schema.name).nodup hnd
          simp [hc.1] at this
      · cases he

theorem filesInto_err {F : Type} {parse : F → Except LoadError (List Schema)} {e : SnapshotError} :
    ∀ {fs : List F} {d : Database} {scs : List Schema}, Holds d scs →
    (∀ f ∈ fs, ∀ xs, parse f = .ok xs → ∀ x ∈ xs, x.WF) → (∀ f, parse f ≠ .error (.snapshot e)) →
    Load.filesInto parse d fs = .error (.snapshot e) →
    (∃ a ∈ scs, ∃ f ∈ fs, ∃ xs, parse f = .ok xs ∧ ∃ b ∈ xs, ClashReported a b e) ∨
    (∃ f ∈ fs, ∃ xs, parse f = .ok xs ∧ ∃ a b, [a, b].Sublist xs ∧ ClashReported a b e) ∨
    (∃ f g xs ys, [f, g].Sublist fs ∧ parse f = .ok xs ∧ parse g = .ok ys ∧
      ∃ a ∈ xs, ∃ b ∈ ys, ClashReported a b e)
  | [], d, scs, _, _, _, h => by cases h
  | f :: fs, d, scs, h, hw, hp, he => by
    simp only [Load.filesInto] at he
    cases hf : Load.fileInto parse d f with
    | error e' =>
      rw [hf] at he
      cases he
      obtain ⟨xs, hx, ⟨a, ha, b, hb, hc⟩ | hc⟩ := fileInto_err h (hw f (by simp)) (hp f) hf
      · exact .inl ⟨a, ha, f, by simp, xs, hx, b, hb, hc⟩
      · exact .inr (.inl ⟨f, by simp, xs, hx, hc⟩)
    | ok d1 =>
      rw [hf] at he
      obtain ⟨xs, hxs, hh⟩ := (fileInto_ok_iff (parse := parse) (f := f) h (hw f (by simp))).2 d1 hf
      rcases filesInto_err hh (fun g hg => hw g (by simp [hg])) hp he with
        ⟨a, ha, g, hg, ys, hy, b, hb, hc⟩ | ⟨g, hg, r⟩ | ⟨g, g', ys, zs, hs, r⟩
      · rcases List.mem_append.1 ha with ha | ha
        · exact .inl ⟨a, ha, g, by simp [hg], ys, hy, b, hb, hc⟩
        · exact .inr (.inr ⟨f, g, xs, ys, (List.singleton_sublist.2 hg).cons_cons f, hxs, hy, a, ha, b, hb, hc⟩)
      · exact .inr (.inl ⟨g, by simp [hg], r⟩)
      · exact .inr (.inr ⟨g, g', ys, zs, hs.cons f, r⟩)

end Podo
