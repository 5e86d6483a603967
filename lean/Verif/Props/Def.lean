import Verif.Proofs.DdlFile
import Verif.Proofs.DdlAttrs
import Verif.Proofs.Loaded
import Verif.Proofs.NodeEq
import Verif.Proofs.DdlPanic
import Verif.Proofs.DiffEmpty
import Verif.Props.Load
/-
C38–C49: definition files.
-/
set_option linter.unusedSimpArgs false
namespace Podo
namespace Def
open Text

/-! ### C38 -/

/-- C38 (partial).  The expression written for a column reads back as the same type, nullability and
default exactly when the type has no `=` or `!`, nothing has blanks around it, the type is not empty
(unless there is a default and no `!`) and the default has no line break.  Missing for the full
property: the other columns, where it is false. -/
theorem C38_column_expression_partial (type : String) (notNull : Bool) (default : Option String) :
    parseColumnExpr (renderColumnExpr type notNull default).toList =
        .ok (type.toList, notNull, default.map String.toList) ↔
      ('=' ∉ type.toList ∧ '!' ∉ type.toList ∧ Trimmed type ∧
        (type ≠ "" ∨ (notNull = false ∧ default ≠ none)) ∧
        ∀ d, default = some d → Trimmed d ∧ '\n' ∉ d.toList) := by
  rw [parseColumnExpr_iff]
  exact ⟨fun ⟨a, b, c, d, e⟩ => ⟨a, b, c, d, e⟩, fun ⟨a, b, c, d, e⟩ => ⟨a, b, c, d, e⟩⟩

example : parseColumnExpr (renderColumnExpr "numeric(10, 2)" true (some "'a = b!'")).toList =
    .ok ("numeric(10, 2)".toList, true, some "'a = b!'".toList) := by decide +kernel

/-- The full C38 is false: a default with a line break cannot be read; a type with an equals sign is
read as something else. -/
theorem C38_column_expression_false :
    parseColumnExpr (renderColumnExpr "text" false (some "'a\nb'")).toList = .error .error ∧
    parseColumnExpr (renderColumnExpr "a=b" false none).toList =
      .ok ("a".toList, false, some "b".toList) := by decide +kernel

/-! ### C39 -/

/-- C39 (partial).  The reference written for a table, seen from a schema, reads back as the same
schema and table exactly when the table, and the schema if it is another one, have no dot in their
names.  Missing for the full property: names with a dot, where it is false. -/
theorem C39_table_reference_partial (from_ schema table : String) :
    parseTableRef from_ (renderTableRef from_ schema table) = .ok (schema, table) ↔
      '.' ∉ table.toList ∧ (schema ≠ from_ → '.' ∉ schema.toList) :=
  parseTableRef_iff

example : parseTableRef "public" (renderTableRef "public" "audit" "log") = .ok ("audit", "log") ∧
    parseTableRef "public" (renderTableRef "public" "public" "log") = .ok ("public", "log") := by decide +kernel

/-- The full C39 is false: the table `a.b` is read as the table `b` of the schema `a`. -/
theorem C39_table_reference_false :
    parseTableRef "public" (renderTableRef "public" "public" "a.b") = .ok ("a", "b") := by decide +kernel

/-! ### C40, C41 -/

/-- C40 (partial).  The key written for a node reads back as the same kind and name exactly when the
kind is one of the keywords, the name is not empty, has no blanks around it and, after `on`, does not
begin with "delete" or "update".  Missing for the full property: the other names, and the kinds
`increment` and `using`, which the writer uses and the reader does not know. -/
theorem C40_keys_partial (kind : String) (name : Option String) :
    parseKey (renderKey kind name) = .ok (kind, name) ↔
      kind ∈ keyWords ∧ ∀ n, name = some n → n ≠ "" ∧ Trimmed n ∧
        (kind = "on" → ¬ StartsWith "delete" n ∧ ¬ StartsWith "update" n) := by
  rw [parseKey_iff]
  exact ⟨fun ⟨a, b⟩ => ⟨a, b⟩, fun ⟨a, b⟩ => ⟨a, b⟩⟩

example : parseKey (renderKey "table" (some "Order Items")) = .ok ("table", some "Order Items") ∧
    parseKey (renderKey "on" (some "check")) = .ok ("on", some "check") := by decide +kernel

/-- The full C40 is false: an index on the table `updates`, and the attributes `increment` and
`using`. -/
theorem C40_keys_false :
    parseKey (renderKey "on" (some "updates")) = .ok ("on update", some "s") ∧
    parseKey (renderKey "increment" none) = .error .error ∧
    parseKey (renderKey "using" none) = .error .error ∧
    parseKey (renderKey "table" (some " t")) = .ok ("table", some "t") := by decide +kernel

/-- C41 (partial).  Reading a key panics exactly when it begins with "chec" (in any mix of cases)
followed by the Kelvin sign.  Missing for the full property: those keys, where it is false. -/
theorem C41_keys_panic_partial (key : String) :
    parseKey key = .error .panic ↔ KelvinCheck key :=
  parseKey_panic_iff

example : ¬ KelvinCheck "check" := by
  intro h
  have h := parseKey_panic_iff.2 h
  have : parseKey "check" = .ok ("check", none) := by decide +kernel
  rw [this] at h; cases h

/-- The full C41 is false. -/
theorem C41_keys_panic_false : parseKey "Chec\u212a" = .error .panic := by decide +kernel

/-! ### C42 -/

/-- C42 (partial).  A list of definition trees written to a mapping reads back as the same trees, at
every depth, exactly when each key and each value in them reads back and no two siblings have the
same kind and name.  Missing for the full property: the other trees, where it is false. -/
theorem C42_trees_partial (ns : List Node) :
    parseNodes (renderMapping ns) = .ok ns ↔ TreeOk ns :=
  parseTree_iff ns

/-- A schema with a table, a view and a sequence (for examples). -/
def demoNodes : List Node :=
  [.branch "schema" (some "public")
    [.branch "table" (some "t")
      [.leaf "column" (some "id") (some (.string "int8! = 1")),
       .branch "constraint" (some "pk")
        [.leaf "primary key" none (some (.list [.string "id", .string "b"])),
         .leaf "deferrable" none (some (.boolean true))]],
     .leaf "view" (some "v") none,
     .branch "sequence" (some "q") [.leaf "start" none (some (.number (.integer (-5))))]]]

example : parseNodes (renderMapping demoNodes) = .ok demoNodes := by decide +kernel

/-- The full C42 is false: of two siblings of the same kind and name only one is left. -/
theorem C42_trees_false :
    parseNodes (renderMapping [.leaf "column" (some "a") (some (.string "int4")),
        .leaf "column" (some "b") none, .leaf "column" (some "a") (some (.string "text"))]) =
      .ok [.leaf "column" (some "a") (some (.string "text")), .leaf "column" (some "b") none] := by
  decide +kernel

/-! ### C43 -/

/-- C43 (partial), columns. -/
theorem C43_column_partial (schema table : String) (c : Column) :
    parseColumn schema table (renderColumn c) = .ok c ↔
      c.schemaName = schema ∧ c.tableName = table ∧ ColumnOk c :=
  parseColumn_iff

/-- C43 (partial), constraints: in its own table, every primary key and check reads back; a unique
constraint when it has a column; a foreign key when it has a target column and the reference to its
target reads back. -/
theorem C43_constraint_partial (schema table : String) (c : Constraint) :
    parseConstraint schema table (renderConstraint schema c) = .ok c ↔
      c.schemaName = schema ∧ c.tableName = table ∧ ConstraintOk c :=
  parseConstraint_iff

/-- C43, views: in its own schema, a view reads back exactly when its query is not empty. -/
theorem C43_view_partial (schema : String) (v : View) :
    (∃ n, renderView schema v = .ok n ∧ parseView schema n = .ok v) ↔
      v.schemaName = schema ∧ v.query ≠ "" :=
  parseView_iff

/-- C43, indexes: in its own schema, every index reads back. -/
theorem C43_index (schema : String) (i : Index) :
    parseIndex schema (renderIndex i) = .ok i ↔ i.schemaName = schema :=
  parseIndex_iff

/-- C43, functions: in its own schema, every function reads back. -/
theorem C43_function (schema : String) (f : Function) :
    parseFunction schema (renderFunction f) = .ok f ↔ f.schemaName = schema :=
  parseFunction_iff

/-- C43 (partial), sequences: in its own schema, a sequence reads back exactly when it has one of the
three types and is owned by a column of a table or by nothing. -/
theorem C43_sequence_partial (schema : String) (s : Sequence) :
    (∃ n, renderSequence s = .ok n ∧ parseSequence schema n = .ok s) ↔
      s.schemaName = schema ∧ (s.dataType = "int2" ∨ s.dataType = "int4" ∨ s.dataType = "int8") ∧
        (s.ownedByTable = none ↔ s.ownedByColumn = none) := by
  rw [parseSequence_iff]
  exact ⟨fun ⟨a, b, c⟩ => ⟨a, b, c⟩, fun ⟨a, b, c⟩ => ⟨a, b, c⟩⟩

/-- A sequence that counts down from 100, owned by a column (for examples). -/
def demoSequence : Sequence :=
  ⟨"public", "q", "int4", -2, -1000, -1, -1, 5, true, some "t", some "id"⟩

example : SequenceOk demoSequence := by decide +kernel
example : ConstraintOk (.foreignKey ⟨"public", "p", "fk", ["a", "b"], "audit", "u", ["x", "y"],
    "FULL", "CASCADE", "NO ACTION", true, true⟩) := by decide +kernel
example : ColumnOk ⟨"public", "p", "a", "numeric(10, 2)", true, some "'a = b!'"⟩ := by decide +kernel

/-- The full C43 is false: a view without a query, a unique constraint without columns and a foreign
key without target columns are written but not read; a sequence of type `bigint` cannot even be
written. -/
theorem C43_objects_false :
    (∃ n, renderView "s" ⟨"s", "v", ""⟩ = .ok n ∧ parseView "s" n = .error .error) ∧
    parseConstraint "s" "t" (renderConstraint "s" (.unique ⟨"s", "t", "u", [], false, false⟩)) =
      .error .error ∧
    parseConstraint "s" "t" (renderConstraint "s" (.foreignKey ⟨"s", "t", "f", ["a"], "s", "u", [],
      "SIMPLE", "NO ACTION", "NO ACTION", false, false⟩)) = .error .error ∧
    renderSequence ⟨"s", "q", "bigint", 1, 1, 10, 1, 1, false, none, none⟩ = .error .panic :=
  ⟨exists_ok (by decide +kernel), by decide +kernel, by decide +kernel, by decide +kernel⟩

/-! ### C44 -/

/-- C44 (partial), tables: a well-formed table reads back, with its columns and constraints in the
same order, exactly when each of its columns and constraints does. -/
theorem C44_table_partial {t : Table} (ht : t.WF) :
    parseTable t.schemaName (renderTable t.schemaName t) = .ok t ↔
      (∀ c ∈ t.columns, ColumnOk c) ∧ ∀ p ∈ t.constraints, ConstraintOk p.2 :=
  parseTable_iff ht rfl

/-- C44 (partial), schemas: a well-formed schema reads back exactly when each of its relations
does. -/
theorem C44_schema_partial {s : Schema} (hs : s.WF) :
    (∃ n, renderSchema s = .ok n ∧ parseSchema n = .ok s) ↔ ∀ p ∈ s.relations, RelationOk p.2 :=
  parseSchema_iff hs

/-- The schema of the demonstration snapshot. -/
def demoSchema : Schema := (demo.schemas.get? "public").getD (Schema.new "")

theorem demoSchema_wf : demoSchema.WF :=
  (demo_wf.home ("public", demoSchema) (AMap.mem_of_get? (by rfl))).2

example : ∃ n, renderSchema demoSchema = .ok n ∧ parseSchema n = .ok demoSchema := exists_ok (by decide +kernel)
example : demoSchema.relations.length = 5 ∧ demoSchema.functions.length = 1 := ⟨rfl, rfl⟩

/-- The full C44 is false: a table with a unique constraint without columns, and a schema with a view
without a query, are written and not read. -/
theorem C44_table_false :
    ∃ t : Table, t.WF ∧ parseTable t.schemaName (renderTable t.schemaName t) = .error .error :=
  ⟨⟨"s", "t", [⟨"s", "t", "a", "int8", true, none⟩], [("u", .unique ⟨"s", "t", "u", [], false, false⟩)]⟩,
    ⟨by simp, by simp, by simp, by simp [Constraint.name, Constraint.schemaName, Constraint.tableName]⟩,
    by decide +kernel⟩

theorem C44_schema_false :
    ∃ s : Schema, s.WF ∧ ∃ n, renderSchema s = .ok n ∧ parseSchema n = .error .error :=
  ⟨⟨"s", [("v", .view ⟨"s", "v", ""⟩)], []⟩,
    ⟨by simp, by simp [Relation.name, Relation.schemaName, Relation.WF], by simp, by simp⟩,
    exists_ok (by decide +kernel)⟩

/-! ### C45 -/

/-- C45 (partial).  A well-formed snapshot written to a definition file loads back as the same
snapshot exactly when all its names and objects can be written (`SnapshotOk`).  Missing for the full
property: the other snapshots, for which it is false. -/
theorem C45_saved_snapshot_loads_partial {d : Database} (hd : d.WF) (hi : SnapshotInt64 d) :
    (∃ y, saveDoc d = .ok y ∧ loadDoc y = .ok d) ↔ SnapshotOk d :=
  saves_iff hd hi

/-- C45, the same if the snapshot that is loaded need only have the content of the one that was written. -/
theorem C45_saved_content_loads_iff {d : Database} (hd : d.WF) (hi : SnapshotInt64 d) :
    (∃ y d', saveDoc d = .ok y ∧ loadDoc y = .ok d' ∧ d'.content = d.content) ↔ SnapshotOk d := by
  constructor
  · rintro ⟨y, d', h1, h2, h3⟩
    exact loads_content hd hi h1 h2 h3
  · intro h
    obtain ⟨y, h1, h2⟩ := saved_loads hd hi h
    exact ⟨y, d, h1, h2, rfl⟩

/-- C45, which snapshots are written at all: exactly those whose sequences have one of three types and no
owner that is a table without a column. -/
theorem C45_written_iff {d : Database} (hd : d.WF) : (∃ y, saveDoc d = .ok y) ↔ SnapshotWritable d :=
  saveDoc_ok_iff hd

/-- A snapshot that is written but not read back: its sequence has an increment of 2. -/
example : ∃ d : Database, d.WF ∧ SnapshotInt64 d ∧ SnapshotWritable d ∧ ¬ SnapshotOk d := by
  refine ⟨⟨[("s", ⟨"s", [("q", .sequence ⟨"s", "q", "int8", 2, 1, 10, 1, 1, false, none, none⟩)], []⟩)]⟩,
    ⟨by simp [AMap.NodupKeys, AMap.keys], ?_⟩, ?_, ?_, ?_⟩
  · intro p hp
    rw [List.mem_singleton] at hp
    subst hp
    exact ⟨rfl, by simp [AMap.NodupKeys, AMap.keys], by simp [Relation.name, Relation.schemaName, Relation.WF],
      by simp [AMap.NodupKeys, AMap.keys], by simp⟩
  · decide +kernel
  · intro p hp q hq s hs
    simp only [List.mem_singleton] at hp
    subst hp
    simp only [List.mem_singleton] at hq
    subst hq
    cases hs
    exact ⟨.inr (.inr rfl), fun _ => rfl⟩
  · decide +kernel

/-- C45 (partial), the consequence: staging the file against a history with the same content finds
nothing to do. -/
theorem C45_nothing_to_stage_partial {d s : Database} (hd : d.WF) (hi : SnapshotInt64 d)
    (h : SnapshotOk d) (hs : s.WF) (he : s.content = d.content) :
    ∃ y, saveDoc d = .ok y ∧ ∃ d', loadDoc y = .ok d' ∧ Diff.compareDiff s d' = [] := by
  obtain ⟨y, h1, h2⟩ := saved_loads hd hi h
  exact ⟨y, h1, d, h2, (compareDiff_nil hs hd).2 (by rw [he])⟩

example : SnapshotInt64 demo ∧ SnapshotOk demo := by decide +kernel
example : ∃ y, saveDoc demo = .ok y ∧ loadDoc y = .ok demo := exists_ok (by decide +kernel)

/-- A file that is read alone is read like in a directory. -/
theorem alone_read {y : Yaml} {d : Database} (h : loadDoc y = .ok d) {s k : String} {r : Relation}
    (hr : d.relationAt s k = some r) :
    (∀ q, r = .sequence q → q.increment = 1) ∧ ∀ i, r = .index i → i.method = "btree" := by
  have hd := loadDoc_wf h
  obtain ⟨ss, h3, h4⟩ := loadDoc_iff.1 h
  have hc : Load.collect [DirTree.file "schema.yaml" y] = [y] := by
    have hy : Load.isYaml "schema.yaml" = true := by decide +kernel
    simp [Load.collect, Load.collectEntry, hy]
  have h5 : Load.snapshot parseDoc [DirTree.file "schema.yaml" y] = .ok d := by
    unfold Load.snapshot
    rw [hc]
    simp only [Load.filesInto, Load.fileInto, h3, h4, merge_new hd]
  constructor
  · rintro q rfl
    exact (snapshot_read h5 hr).2.1
  · rintro i rfl
    exact (snapshot_read h5 hr).2.2

/-- The full C45 is false: a snapshot with a sequence that does not count by ones is not what its file says.
(It is written, and makes the file unreadable: see the example.) -/
theorem C45_increment_false {d : Database} {s k : String} {q : Sequence}
    (hq : d.relationAt s k = some (.sequence q)) (hne : q.increment ≠ 1) :
    ¬ ∃ y, saveDoc d = .ok y ∧ loadDoc y = .ok d := by
  rintro ⟨y, _, h⟩
  exact hne ((alone_read h hq).1 q rfl)

/-- Nor is a snapshot with an index of another method than `btree`. -/
theorem C45_index_method_false {d : Database} {s k : String} {i : Index}
    (hi : d.relationAt s k = some (.index i)) (hne : i.method ≠ "btree") :
    ¬ ∃ y, saveDoc d = .ok y ∧ loadDoc y = .ok d := by
  rintro ⟨y, _, h⟩
  exact hne ((alone_read h hi).2 i rfl)

example :
    ∃ d : Database, d.WF ∧ SnapshotInt64 d ∧
      ∃ y, saveDoc d = .ok y ∧ loadDoc y = .error (.parse "") := by
  let q : Sequence := ⟨"s", "q", "int8", 2, 1, 9223372036854775807, 1, 1, false, none, none⟩
  refine ⟨⟨[("s", ⟨"s", [("q", .sequence q)], []⟩)]⟩, ⟨by simp, ?_⟩, ?_, exists_ok (by decide +kernel)⟩
  · intro p hp
    simp only [List.mem_singleton] at hp
    subst hp
    exact ⟨rfl, by simp, by simp [Relation.name, Relation.schemaName, Relation.WF, q], by simp, by simp⟩
  · intro p hp r hr s hs
    simp only [List.mem_singleton] at hp
    subst hp
    simp only [List.mem_singleton] at hr
    subst hr
    injection hs with hs
    subst hs
    exact ⟨⟨by decide, by decide⟩, ⟨by decide, by decide⟩, ⟨by decide, by decide⟩,
      ⟨by decide, by decide⟩, ⟨by decide, by decide⟩⟩

example :
    ∃ d : Database, d.WF ∧ SnapshotInt64 d ∧
      ∃ y, saveDoc d = .ok y ∧ loadDoc y = .error (.parse "") := by
  refine ⟨⟨[("s", ⟨"s", [("i", .index ⟨"s", "i", "t", false, "gin", ["a"]⟩)], []⟩)]⟩,
    ⟨by simp, ?_⟩, ?_, exists_ok (by decide +kernel)⟩
  · intro p hp
    simp only [List.mem_singleton] at hp
    subst hp
    exact ⟨rfl, by simp, by simp [Relation.name, Relation.schemaName, Relation.WF], by simp, by simp⟩
  · intro p hp r hr s hs
    simp only [List.mem_singleton] at hp
    subst hp
    simp only [List.mem_singleton] at hr
    subst hr
    cases hs

/-- An index on the table `updates` in the snapshot is written and makes reading the file panic. -/
theorem C45_index_table_false :
    ∃ (d : Database) (i : Index), d.WF ∧ SnapshotInt64 d ∧
      d.relationAt "s" "i" = some (.index i) ∧ i.tableName = "updates" ∧
      ∃ y, saveDoc d = .ok y ∧ loadDoc y = .error .panic := by
  refine ⟨⟨[("s", ⟨"s", [("i", .index ⟨"s", "i", "updates", false, "btree", ["a"]⟩)], []⟩)]⟩, _,
    ⟨by simp, ?_⟩, ?_, rfl, rfl, exists_ok (by decide +kernel)⟩
  · intro p hp
    simp only [List.mem_singleton] at hp
    subst hp
    exact ⟨rfl, by simp, by simp [Relation.name, Relation.schemaName, Relation.WF], by simp, by simp⟩
  · intro p hp r hr s hs
    simp only [List.mem_singleton] at hp
    subst hp
    simp only [List.mem_singleton] at hr
    subst hr
    cases hs

/-! ### C46 -/

/-- C46.  Every snapshot loaded from a definition file is well-formed: names are unique at every level
and every object is recorded inside its own parent. -/
theorem C46_loaded_file_wf {y : Yaml} {d : Database} (h : loadDoc y = .ok d) : d.WF :=
  loadDoc_wf h

/-- C46.  So is every snapshot loaded from a directory of definition files. -/
theorem C46_loaded_directory_wf {es : List (DirTree Yaml)} {d : Database}
    (h : Load.snapshot parseDoc es = .ok d) : d.WF :=
  snapshot_wf h

/-- C46, what C14 and C15 take for granted: each schema definition of a file is well-formed. -/
theorem C46_parsed_schemas_wf {y : Yaml} {ss : List Schema} (h : parseDoc y = .ok ss) :
    ∀ s ∈ ss, s.WF :=
  parseDoc_wf h

/-- Reading a file node by node, as the code does, and reading all nodes first, as the theorems about
loading have it, succeed on the same files with the same snapshot. -/
theorem C46_file_in_two_steps (y : Yaml) (d : Database) :
    loadDoc y = .ok d ↔ ∃ ss, parseDoc y = .ok ss ∧ Load.addSchemas Database.new ss = .ok d :=
  loadDoc_iff

/-- A definition file (for examples). -/
def demoDoc : Yaml :=
  .map [some "schema public", some "Schema audit"]
    [.map [some "table users", some "index u"]
      [.map [some "column id", some "constraint pk"]
        [.str "int8!", .map [some "primary key"] [.str "id"]],
       .map [some "on users"] [.seq [.str "id"]]],
     .map [some "sequence q"] [.null]]

example : ∃ d, loadDoc demoDoc = .ok d ∧ d.schemas.keys = ["public", "audit"] := exists_ok (by decide +kernel)

/-! ### C47 -/

/-- C47 (partial).  A schema definition that has, anywhere in it, an attribute its kind does not have
is not accepted — except inside the definition of an index.  Missing for the full property: indexes,
where it is false. -/
theorem C47_unknown_attributes_partial {n : Node} (h : HasUnknown ["index"] n) (s : Schema) :
    parseSchema n ≠ .ok s := fun hs => parseSchema_known hs h

example : HasUnknown ["index"] (.branch "schema" (some "s") [.branch "table" (some "t")
    [.branch "constraint" (some "c") [.leaf "check" none (some (.string "a > 0")),
      .leaf "match" none (some (.string "FULL"))]]]) :=
  .inside (by decide) (List.mem_singleton.2 rfl) (.inside (by decide) (List.mem_singleton.2 rfl)
    (.constraint (by decide) (List.mem_cons_of_mem _ (List.mem_singleton.2 rfl)) (by decide)))

/-- The full C47 is false: an index definition may hold anything besides what it is on. -/
theorem C47_unknown_attributes_false :
    ∃ n, HasUnknown [] n ∧ ∃ s, parseSchema n = .ok s ∧ s.relations.keys = ["i"] := by
  refine ⟨.branch "schema" (some "s") [.branch "index" (some "i")
    [.leaf "on" (some "t") (some (.string "a")), .leaf "method" none (some (.string "gin"))]],
    .inside (by decide) (List.mem_singleton.2 rfl)
      (.here (by decide) (by decide) (List.mem_cons_of_mem _ (List.mem_singleton.2 rfl)) (by decide)),
    exists_ok (by decide +kernel)⟩

/-! ### C48 -/

/-- C48 (partial).  Reading a definition file does not panic when no key is one of those of C41, no
sequence holds a mapping, and every top-level definition is an orderly schema: distinct names, every
constraint says first what it is, every index says what it is on, and no unknown sequence type.
Missing for the full property: the other files, where it is false. -/
theorem C48_no_panic_partial {y : Yaml} (hy : YamlOrderly y)
    (hn : ∀ ns, FileSays y ns → ∀ n ∈ ns, SchemaOrderly n) :
    loadDoc y ≠ .error .panic :=
  loadDoc_calm hy hn

/-- A file with an error in every definition, and no panic. -/
example : ∃ y, loadDoc y = .error (.parse "") ∧ YamlOrderly y ∧
    ∀ ns, FileSays y ns → ∀ n ∈ ns, SchemaOrderly n := by
  refine ⟨.map [some "schema s"] [.map [some "table t", some "view v"]
    [.map [some "column a"] [.str "!"], .map [some "cache"] [.str "1"]]], by decide +kernel, ?_, ?_⟩
  · have h : ∀ k : String, parseKey k ≠ .error .panic → ¬ KelvinCheck k := fun k hk hc =>
      hk (parseKey_panic_iff.2 hc)
    have hc : ∀ k ∈ ["schema s", "table t", "view v", "column a", "cache"], ¬ KelvinCheck k := by
      intro k hk
      refine h k ?_
      simp only [List.mem_cons, List.not_mem_nil, or_false] at hk
      rcases hk with rfl | rfl | rfl | rfl | rfl <;> decide +kernel
    simp only [YamlOrderly, YamlsOrderly, List.mem_cons, List.not_mem_nil, or_false, Option.some.injEq,
      and_true]
    refine ⟨?_, ?_, ?_, ?_⟩
    · rintro k rfl; exact hc _ (by simp)
    · rintro k (rfl | rfl) <;> exact hc _ (by simp)
    · rintro k rfl; exact hc _ (by simp)
    · rintro k rfl; exact hc _ (by simp)
  · intro ns he n hn
    obtain ⟨ks, vs, e, he⟩ := fileSays_iff.1 he
    injection e with e1 e2
    subst e1 e2
    have : parseMapping [some "schema s"] [.map [some "table t", some "view v"]
      [.map [some "column a"] [.str "!"], .map [some "cache"] [.str "1"]]] =
      .ok [.branch "schema" (some "s") [.branch "table" (some "t")
        [.leaf "column" (some "a") (some (.string "!"))],
        .branch "view" (some "v") [.leaf "cache" none (some (.string "1"))]]] := by decide +kernel
    rw [this] at he
    injection he with he
    subst he
    rw [List.mem_singleton] at hn
    subst hn
    refine ⟨rfl, ?_, by decide, ?_, ?_, ?_⟩
    · intro ns h; injection h with h; subst h; decide
    · intro m hm
      have : m = .branch "table" (some "t") [.leaf "column" (some "a") (some (.string "!"))] := by
        simpa [childrenOf, inner, Node.kind, List.filter] using hm
      subst this
      exact ⟨by decide, by decide, fun c hc => by simp [childrenOf, inner, Node.kind, List.filter] at hc⟩
    · intro m hm; simp [childrenOf, inner, Node.kind, List.filter] at hm
    · intro m hm; simp [childrenOf, inner, Node.kind, List.filter] at hm

/-- The full C48 is false, in each of these ways: a top-level key that is not a schema, a constraint
without attributes, a constraint that begins with another attribute, an index that is on nothing, two
columns of the same name, a relation defined twice, a sequence of type `bigint`, a mapping inside a
list. -/
theorem C48_panics_false :
    loadDoc (.map [some "table t"] [.null]) = .error .panic ∧
    (∀ y ∈ [Yaml.map [some "table t"] [.map [some "constraint c"] [.null]],
            .map [some "table t"] [.map [some "constraint c"]
              [.map [some "deferrable", some "check"] [.bool true, .str "a > 0"]]],
            .map [some "index i"] [.map [some "unique"] [.bool true]],
            .map [some "table t"] [.map [some "column a", some "Column a"] [.str "int8", .str "int8"]],
            .map [some "view v", some "view  v"] [.map [some "as"] [.str "x"], .map [some "as"] [.str "y"]],
            .map [some "sequence q"] [.map [some "as"] [.str "bigint"]],
            .map [some "index i"] [.map [some "on t"] [.seq [.map [some "a"] [.null]]]]],
      loadDoc (.map [some "schema s"] [y]) = .error .panic) := by
  decide +kernel

/-! ### C49 -/

/-- C49.  In an accepted sequence definition an omitted minimum is 1 when counting up and the smallest
value of the type when counting down; an omitted maximum is the largest value of the type when
counting up and -1 when counting down; an omitted start is the minimum when counting up and the maximum
when counting down. -/
theorem C49_sequence_defaults {schema : String} {n : Node} {s : Sequence}
    (h : parseSequence schema n = .ok s) :
    (childrenOf n "minvalue" = [] → if s.increment < 0
      then ∃ max, typeRange s.dataType = some (s.minValue, max) else s.minValue = 1) ∧
    (childrenOf n "maxvalue" = [] → if s.increment < 0 then s.maxValue = -1
      else ∃ min, typeRange s.dataType = some (min, s.maxValue)) ∧
    (childrenOf n "start" = [] → s.start = if s.increment < 0 then s.maxValue else s.minValue) :=
  (sequence_defaults h).2.2.2.2.2

/-- C49, the other attributes: an omitted type is `int8`, an omitted increment and cache are 1, an
omitted cycle is no, and an omitted owner is none. -/
theorem C49_other_defaults {schema : String} {n : Node} {s : Sequence}
    (h : parseSequence schema n = .ok s) :
    (childrenOf n "as" = [] → s.dataType = "int8") ∧
    (childrenOf n "increment" = [] → s.increment = 1) ∧
    (childrenOf n "cache" = [] → s.cache = 1) ∧
    (childrenOf n "cycle" = [] → s.cycle = false) ∧
    (childrenOf n "owned by" = [] → s.ownedByTable = none ∧ s.ownedByColumn = none) := by
  obtain ⟨a, b, c, d, e, _⟩ := sequence_defaults h
  exact ⟨a, b, c, d, e⟩

example : parseSequence "s" (.branch "sequence" (some "q")
    [.leaf "as" none (some (.string "int2")), .leaf "increment" none (some (.number (.integer (-1))))]) =
    .ok ⟨"s", "q", "int2", -1, -32768, -1, -1, 1, false, none, none⟩ := by decide +kernel

end Def
end Podo
