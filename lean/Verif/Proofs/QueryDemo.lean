import Verif.Spec.Queries
/-
Databases for the examples of C75.
-/
namespace Podo
namespace Sys
open Introspect

/-- A database (for examples): two tables, one with a foreign key to the other, a sequence, indexes on
columns and on an expression, a check and a function. -/
def demoSystem : System where
  namespaces := [{ oid := 11, nspname := "pg_catalog" }, { oid := 2200, nspname := "public" }]
  classes := [
    { oid := 100, relname := "users", relnamespace := 2200, relkind := .table },
    { oid := 101, relname := "posts", relnamespace := 2200, relkind := .table },
    { oid := 102, relname := "users_id_seq", relnamespace := 2200, relkind := .sequence },
    { oid := 103, relname := "users_pkey", relnamespace := 2200, relkind := .index, relam := 403 },
    { oid := 104, relname := "users_email_key", relnamespace := 2200, relkind := .index, relam := 403 },
    { oid := 105, relname := "by_author", relnamespace := 2200, relkind := .index, relam := 403 },
    { oid := 106, relname := "by_lower", relnamespace := 2200, relkind := .index, relam := 403 }]
  types := [
    { oid := 20, typname := "int8", typnamespace := 11, typlen := 8 },
    { oid := 27, typname := "tid", typnamespace := 11, typlen := 6 },
    { oid := 1043, typname := "varchar", typnamespace := 11 },
    { oid := 1015, typname := "_varchar", typnamespace := 11, typelem := 1043 },
    { oid := 701, typname := "float8", typnamespace := 11, typlen := 8 },
    { oid := 600, typname := "point", typnamespace := 11, typlen := 16, typelem := 701 }]
  attributes := [
    { attrelid := 100, attnum := 1, attname := "id", atttypid := 20, attnotnull := true },
    { attrelid := 100, attnum := 2, attname := "email", atttypid := 1043, atttypmod := 24 },
    { attrelid := 100, attnum := 3, attname := "tags", atttypid := 1015, atttypmod := 24 },
    { attrelid := 100, attnum := -1, attname := "ctid", atttypid := 27, attnotnull := true },
    { attrelid := 101, attnum := 1, attname := "id", atttypid := 20, attnotnull := true },
    { attrelid := 101, attnum := 2, attname := "author", atttypid := 20 },
    { attrelid := 101, attnum := 3, attname := "........pg.dropped.3........", atttypid := 0,
      attisdropped := true }]
  attrdefs := [{ adrelid := 100, adnum := 1, expr := "nextval('users_id_seq'::regclass)" }]
  constraints := [
    { oid := 200, conname := "users_pkey", connamespace := 2200, contype := .primaryKey, conrelid := 100,
      conindid := 103, conkey := [1] },
    { oid := 201, conname := "users_email_key", connamespace := 2200, contype := .unique, conrelid := 100,
      conindid := 104, conkey := [2], condeferrable := true },
    { oid := 202, conname := "author", connamespace := 2200, contype := .foreignKey, conrelid := 101,
      conindid := 103, confrelid := 100, conkey := [2], confkey := [1], confmatchtype := .full,
      confdeltype := .cascade },
    { oid := 203, conname := "positive", connamespace := 2200, contype := .check, conrelid := 100,
      condef := "CHECK ((id > 0))" }]
  indexes := [
    { indexrelid := 103, indrelid := 100, indisunique := true, indnkeyatts := 1, indkey := [1] },
    { indexrelid := 104, indrelid := 100, indisunique := true, indnkeyatts := 1, indkey := [2] },
    { indexrelid := 105, indrelid := 101, indisunique := false, indnkeyatts := 2, indkey := [2, 1] },
    { indexrelid := 106, indrelid := 100, indisunique := true, indnkeyatts := 1, indkey := [0],
      indexprs := ["lower((email)::text)"] }]
  ams := [{ oid := 403, amname := "btree" }]
  sequences := [{ seqrelid := 102, seqtypid := 20, seqstart := 1, seqincrement := 1,
                  seqmax := 9223372036854775807, seqmin := 1, seqcache := 1, seqcycle := false }]
  depends := [
    { classid := .class_, objid := 102, refclassid := .class_, refobjid := 100, refobjsubid := 1 },
    { classid := .class_, objid := 103, refclassid := .constraint, refobjid := 200, internal := true },
    { classid := .class_, objid := 104, refclassid := .constraint, refobjid := 201, internal := true },
    { classid := .constraint, objid := 202, refclassid := .class_, refobjid := 101, refobjsubid := 2 },
    { classid := .constraint, objid := 202, refclassid := .class_, refobjid := 100, refobjsubid := 1 },
    { classid := .constraint, objid := 202, refclassid := .class_, refobjid := 103 },
    { classid := .class_, objid := 105, refclassid := .class_, refobjid := 101, refobjsubid := 2 }]
  procs := [{ proname := "one", pronamespace := 2200, prosrc := "SELECT 1", prolang := 14,
              prorettype := "integer" }]
  langs := [{ oid := 14, lanname := "sql" }]
  typmodout := fun _ _ => "(20)"

/-- Rows aggregated in the order in which they come. -/
def inOrder : Aggs := ⟨fun _ xs => xs, fun _ xs => xs, fun _ xs => xs⟩

theorem inOrder_lawful : Lawful inOrder := ⟨fun _ _ => .refl _, fun _ _ => .refl _, fun _ _ => .refl _⟩

theorem demoSystem_sound : Sound demoSystem where
  ns_oid := by decide +kernel
  ns_name := by decide +kernel
  class_oid := by decide +kernel
  class_name := by decide +kernel
  class_ns := by decide +kernel
  type_oid := by decide +kernel
  type_zero := by decide +kernel
  type_ns := by decide +kernel
  type_elem := by decide +kernel
  attr_num := by decide +kernel
  attr_name := by decide +kernel
  attr_class := by decide +kernel
  attr_type := by decide +kernel
  attr_zero := by decide +kernel
  attrdef := by decide +kernel
  attrdef_text := by decide +kernel
  con_oid := by decide +kernel
  con_name := by decide +kernel
  con_class := by decide +kernel
  con_zero := by decide +kernel
  con_key := by decide +kernel
  con_check := by
    have : ∀ k ∈ demoSystem.constraints, k.contype = .check → ∃ e ∈ ["((id > 0))"], k.condef = "CHECK " ++ e := by
      decide +kernel
    intro k hk ht
    obtain ⟨e, _, h⟩ := this k hk ht
    exact ⟨e, h⟩
  fk_class := by decide +kernel
  fk_key := by decide +kernel
  fk_index := by
    have : ∀ k ∈ demoSystem.constraints, k.contype = .foreignKey →
        ∃ d ∈ demoSystem.depends, (demoSystem.depends.filter fun d => d.classid = .constraint ∧ d.objid = k.oid ∧
          d.refclassid = .class_ ∧ d.refobjsubid = 0) = [d] ∧ d.refobjid = k.conindid := by decide +kernel
    intro k hk ht
    obtain ⟨d, _, h⟩ := this k hk ht
    exact ⟨d, h⟩
  fk_table := by decide +kernel
  key_index := by
    have : ∀ k ∈ demoSystem.constraints, k.contype = .primaryKey ∨ k.contype = .unique →
        ∃ d ∈ demoSystem.depends, (demoSystem.depends.filter fun d => d.classid = .class_ ∧
          d.objid = k.conindid ∧ d.objsubid = 0 ∧ d.refclassid = .constraint ∧ d.internal = true) = [d] ∧
          d.refobjid = k.oid := by decide +kernel
    intro k hk ht
    obtain ⟨d, _, h⟩ := this k hk ht
    exact ⟨d, h⟩
  fk_columns := by decide +kernel
  index_oid := by decide +kernel
  index_class := by decide +kernel
  index_table := by decide +kernel
  index_key := by decide +kernel
  index_exprs := by decide +kernel
  am_oid := by decide +kernel
  seq_oid := by decide +kernel
  seq_class := by decide +kernel
  seq_type := by decide +kernel
  lang_oid := by decide +kernel
  proc_ns := by decide +kernel
  proc_lang := by decide +kernel

theorem demoSystem_readable : Readable demoSystem ["public"] inOrder where
  temp := by decide
  owned := by unfold System.In; decide
  kinds := by unfold System.In; decide
  checks := by unfold System.In; decide
  columns := by unfold System.In; decide
  keys := fun _ _ _ _ _ _ => .inr fun _ => rfl
  fk_key := by unfold System.In; decide
  fk := by
    have : ∀ k ∈ demoSystem.constraints, k.contype = .foreignKey →
        k.confmatchtype ≠ .simple ∧ k.confkey.length = 1 := by decide
    exact fun k hk ht _ _ _ _ => ⟨(this k hk ht).1, .inl (this k hk ht).2⟩
  indexes := by
    have : ∀ x ∈ demoSystem.indexes, x.indnkeyatts = x.indkey.length ∧ (x.indkey = [0] ∨ 0 ∉ x.indkey) := by
      decide
    intro x hx _ _ _ _ _
    obtain ⟨h1, h2⟩ := this x hx
    exact ⟨h1, h2.imp_right fun h => ⟨h, .inr fun _ => rfl⟩⟩
  owners := by unfold System.In; decide
  functions := by decide
  function_names := by decide

/-- What the queries give for a database, row by row in the order of the system tables. -/
def rows (g : System) (S : List String) (o : Aggs) : Catalog where
  schemas := schemaRows g S
  sequences := sequenceRows g S
  tables := tableRows g S
  columns := columnRows g S
  primaryKeys := keyRows g S o .primaryKey
  foreignKeys := foreignKeyRows g S o
  functions := functionRows g S
  uniques := keyRows g S o .unique
  checks := checkRows g S
  indexes := indexRows g S o
  views := viewRows g S

theorem gives_rows (g : System) (S : List String) (o : Aggs) : Gives g S o (rows g S o) :=
  ⟨.refl _, .refl _, .refl _, .refl _, .refl _, .refl _, .refl _, .refl _, .refl _, .refl _, .refl _⟩

/-- A database (for examples) that is read, and read wrong: the one above with a partitioned table; a table
`pairs` with a key of two columns; a table `links` with a `point`, a generated column, two foreign keys to
`pairs` that refer to its columns in different orders, and one with the usual match; an index on a column
and an expression, one that includes a column, and one that a foreign key from another schema uses; a view;
a function with two parameters; a sequence nothing owns, with the oid of something that depends on a column;
and a temporary table of another session. -/
def oddSystem : System :=
  { demoSystem with
    namespaces := demoSystem.namespaces ++ [{ oid := 3000, nspname := "other" },
      { oid := 3003, nspname := "pg_temp_3", otherTemp := true }]
    classes := demoSystem.classes ++ [
      { oid := 110, relname := "measures", relnamespace := 2200, relkind := .partitioned },
      { oid := 111, relname := "pairs", relnamespace := 2200, relkind := .table },
      { oid := 112, relname := "pairs_pkey", relnamespace := 2200, relkind := .index, relam := 403 },
      { oid := 113, relname := "links", relnamespace := 2200, relkind := .table },
      { oid := 114, relname := "mixed", relnamespace := 2200, relkind := .index, relam := 403 },
      { oid := 115, relname := "covering", relnamespace := 2200, relkind := .index, relam := 403 },
      { oid := 116, relname := "used", relnamespace := 2200, relkind := .index, relam := 403 },
      { oid := 117, relname := "far", relnamespace := 3000, relkind := .table },
      { oid := 118, relname := "v", relnamespace := 2200, relkind := .view, viewdef := "SELECT 1" },
      { oid := 119, relname := "free", relnamespace := 2200, relkind := .sequence },
      { oid := 140, relname := "scratch", relnamespace := 3003, relkind := .table }]
    attributes := demoSystem.attributes ++ [
      { attrelid := 110, attnum := 1, attname := "at", atttypid := 20 },
      { attrelid := 111, attnum := 1, attname := "a", atttypid := 20, attnotnull := true },
      { attrelid := 111, attnum := 2, attname := "b", atttypid := 20, attnotnull := true },
      { attrelid := 113, attnum := 1, attname := "a", atttypid := 20 },
      { attrelid := 113, attnum := 2, attname := "b", atttypid := 20 },
      { attrelid := 113, attnum := 3, attname := "p", atttypid := 600 },
      { attrelid := 113, attnum := 4, attname := "g", atttypid := 20, generated := true },
      { attrelid := 117, attnum := 1, attname := "r", atttypid := 20 }]
    constraints := demoSystem.constraints ++ [
      { oid := 210, conname := "pairs_pkey", connamespace := 2200, contype := .primaryKey, conrelid := 111,
        conindid := 112, conkey := [1, 2] },
      { oid := 211, conname := "forward", connamespace := 2200, contype := .foreignKey, conrelid := 113,
        conindid := 112, confrelid := 111, conkey := [1, 2], confkey := [1, 2], confmatchtype := .full },
      { oid := 212, conname := "backward", connamespace := 2200, contype := .foreignKey, conrelid := 113,
        conindid := 112, confrelid := 111, conkey := [1, 2], confkey := [2, 1], confmatchtype := .full },
      { oid := 213, conname := "usual", connamespace := 2200, contype := .foreignKey, conrelid := 113,
        conindid := 103, confrelid := 100, conkey := [1], confkey := [1] },
      { oid := 214, conname := "far_r", connamespace := 3000, contype := .foreignKey, conrelid := 117,
        conindid := 116, confrelid := 101, conkey := [1], confkey := [2] }]
    indexes := demoSystem.indexes ++ [
      { indexrelid := 112, indrelid := 111, indisunique := true, indnkeyatts := 2, indkey := [1, 2] },
      { indexrelid := 114, indrelid := 100, indisunique := false, indnkeyatts := 2, indkey := [1, 0],
        indexprs := ["lower((email)::text)"] },
      { indexrelid := 115, indrelid := 100, indisunique := false, indnkeyatts := 1, indkey := [1, 2] },
      { indexrelid := 116, indrelid := 101, indisunique := true, indnkeyatts := 1, indkey := [2] }]
    sequences := demoSystem.sequences ++ [
      { seqrelid := 119, seqtypid := 20, seqstart := 1, seqincrement := 1, seqmax := 9223372036854775807,
        seqmin := 1, seqcache := 1, seqcycle := false }]
    depends := demoSystem.depends ++ [
      { classid := .other, objid := 119, refclassid := .class_, refobjid := 100, refobjsubid := 2 },
      { classid := .class_, objid := 112, refclassid := .constraint, refobjid := 210, internal := true },
      { classid := .constraint, objid := 211, refclassid := .class_, refobjid := 112 },
      { classid := .constraint, objid := 212, refclassid := .class_, refobjid := 112 },
      { classid := .constraint, objid := 213, refclassid := .class_, refobjid := 103 },
      { classid := .constraint, objid := 214, refclassid := .class_, refobjid := 116 }]
    procs := demoSystem.procs ++ [
      { proname := "add", pronamespace := 2200, prosrc := "SELECT $1 + $2", prolang := 14,
        prorettype := "integer", pronargs := 2 }] }

/-- A database (for examples) that is not read at all: the first one with a table the user has no privilege
on; a check on a foreign table; a foreign key to a column with a unique index; a second function `one`; a
column `shape` of a type with modifiers; and something with the oid of `users_id_seq` that depends on a
column. -/
def badSystem : System :=
  { demoSystem with
    classes := demoSystem.classes ++ [
      { oid := 120, relname := "secret", relnamespace := 2200, relkind := .table, owned := false,
        readable := false, writable := false },
      { oid := 121, relname := "remote", relnamespace := 2200, relkind := .other },
      { oid := 122, relname := "by_tags", relnamespace := 2200, relkind := .index, relam := 403 }]
    types := demoSystem.types ++ [{ oid := 5000, typname := "geometry", typnamespace := 2200 }]
    attributes := demoSystem.attributes ++ [
      { attrelid := 120, attnum := 1, attname := "x", atttypid := 20 },
      { attrelid := 121, attnum := 1, attname := "id", atttypid := 20 },
      { attrelid := 100, attnum := 4, attname := "shape", atttypid := 5000, atttypmod := 4 }]
    constraints := demoSystem.constraints ++ [
      { oid := 220, conname := "remote_positive", connamespace := 2200, contype := .check, conrelid := 121,
        condef := "CHECK ((id > 0))" },
      { oid := 221, conname := "tagged", connamespace := 2200, contype := .foreignKey, conrelid := 101,
        conindid := 122, confrelid := 100, conkey := [2], confkey := [3], confmatchtype := .full }]
    indexes := demoSystem.indexes ++ [
      { indexrelid := 122, indrelid := 100, indisunique := true, indnkeyatts := 1, indkey := [3] }]
    depends := demoSystem.depends ++ [
      { classid := .constraint, objid := 221, refclassid := .class_, refobjid := 122 },
      { classid := .other, objid := 102, refclassid := .class_, refobjid := 100, refobjsubid := 2 }]
    procs := demoSystem.procs ++ [
      { proname := "one", pronamespace := 2200, prosrc := "SELECT $1", prolang := 14,
        prorettype := "integer", pronargs := 1 }] }

theorem oddSystem_sound : Sound oddSystem where
  ns_oid := by decide +kernel
  ns_name := by decide +kernel
  class_oid := by decide +kernel
  class_name := by decide +kernel
  class_ns := by decide +kernel
  type_oid := by decide +kernel
  type_zero := by decide +kernel
  type_ns := by decide +kernel
  type_elem := by decide +kernel
  attr_num := by decide +kernel
  attr_name := by decide +kernel
  attr_class := by decide +kernel
  attr_type := by decide +kernel
  attr_zero := by decide +kernel
  attrdef := by decide +kernel
  attrdef_text := by decide +kernel
  con_oid := by decide +kernel
  con_name := by decide +kernel
  con_class := by decide +kernel
  con_zero := by decide +kernel
  con_key := by decide +kernel
  con_check := by
    have : ∀ k ∈ oddSystem.constraints, k.contype = .check → ∃ e ∈ ["((id > 0))"], k.condef = "CHECK " ++ e := by
      decide +kernel
    intro k hk ht
    obtain ⟨e, _, h⟩ := this k hk ht
    exact ⟨e, h⟩
  fk_class := by decide +kernel
  fk_key := by decide +kernel
  fk_index := by
    have : ∀ k ∈ oddSystem.constraints, k.contype = .foreignKey →
        ∃ d ∈ oddSystem.depends, (oddSystem.depends.filter fun d => d.classid = .constraint ∧ d.objid = k.oid ∧
          d.refclassid = .class_ ∧ d.refobjsubid = 0) = [d] ∧ d.refobjid = k.conindid := by decide +kernel
    intro k hk ht
    obtain ⟨d, _, h⟩ := this k hk ht
    exact ⟨d, h⟩
  fk_table := by decide +kernel
  key_index := by
    have : ∀ k ∈ oddSystem.constraints, k.contype = .primaryKey ∨ k.contype = .unique →
        ∃ d ∈ oddSystem.depends, (oddSystem.depends.filter fun d => d.classid = .class_ ∧
          d.objid = k.conindid ∧ d.objsubid = 0 ∧ d.refclassid = .constraint ∧ d.internal = true) = [d] ∧
          d.refobjid = k.oid := by decide +kernel
    intro k hk ht
    obtain ⟨d, _, h⟩ := this k hk ht
    exact ⟨d, h⟩
  fk_columns := by decide +kernel
  index_oid := by decide +kernel
  index_class := by decide +kernel
  index_table := by decide +kernel
  index_key := by decide +kernel
  index_exprs := by decide +kernel
  am_oid := by decide +kernel
  seq_oid := by decide +kernel
  seq_class := by decide +kernel
  seq_type := by decide +kernel
  lang_oid := by decide +kernel
  proc_ns := by decide +kernel
  proc_lang := by decide +kernel

theorem badSystem_sound : Sound badSystem where
  ns_oid := by decide +kernel
  ns_name := by decide +kernel
  class_oid := by decide +kernel
  class_name := by decide +kernel
  class_ns := by decide +kernel
  type_oid := by decide +kernel
  type_zero := by decide +kernel
  type_ns := by decide +kernel
  type_elem := by decide +kernel
  attr_num := by decide +kernel
  attr_name := by decide +kernel
  attr_class := by decide +kernel
  attr_type := by decide +kernel
  attr_zero := by decide +kernel
  attrdef := by decide +kernel
  attrdef_text := by decide +kernel
  con_oid := by decide +kernel
  con_name := by decide +kernel
  con_class := by decide +kernel
  con_zero := by decide +kernel
  con_key := by decide +kernel
  con_check := by
    have : ∀ k ∈ badSystem.constraints, k.contype = .check → ∃ e ∈ ["((id > 0))"], k.condef = "CHECK " ++ e := by
      decide +kernel
    intro k hk ht
    obtain ⟨e, _, h⟩ := this k hk ht
    exact ⟨e, h⟩
  fk_class := by decide +kernel
  fk_key := by decide +kernel
  fk_index := by
    have : ∀ k ∈ badSystem.constraints, k.contype = .foreignKey →
        ∃ d ∈ badSystem.depends, (badSystem.depends.filter fun d => d.classid = .constraint ∧ d.objid = k.oid ∧
          d.refclassid = .class_ ∧ d.refobjsubid = 0) = [d] ∧ d.refobjid = k.conindid := by decide +kernel
    intro k hk ht
    obtain ⟨d, _, h⟩ := this k hk ht
    exact ⟨d, h⟩
  fk_table := by decide +kernel
  key_index := by
    have : ∀ k ∈ badSystem.constraints, k.contype = .primaryKey ∨ k.contype = .unique →
        ∃ d ∈ badSystem.depends, (badSystem.depends.filter fun d => d.classid = .class_ ∧
          d.objid = k.conindid ∧ d.objsubid = 0 ∧ d.refclassid = .constraint ∧ d.internal = true) = [d] ∧
          d.refobjid = k.oid := by decide +kernel
    intro k hk ht
    obtain ⟨d, _, h⟩ := this k hk ht
    exact ⟨d, h⟩
  fk_columns := by decide +kernel
  index_oid := by decide +kernel
  index_class := by decide +kernel
  index_table := by decide +kernel
  index_key := by decide +kernel
  index_exprs := by decide +kernel
  am_oid := by decide +kernel
  seq_oid := by decide +kernel
  seq_class := by decide +kernel
  seq_type := by decide +kernel
  lang_oid := by decide +kernel
  proc_ns := by decide +kernel
  proc_lang := by decide +kernel

end Sys
end Podo
