import Verif.Proofs.Sql
import Verif.Props.Demo
/-
C16-C18 and C56: the SQL text of changes, read as PostgreSQL reads it (`Verif.Spec.Sql`).
-/
namespace Podo
open Pg

/-! ### C16 -/

/-- C16 (partial).  Reading a rendered identifier by PostgreSQL's rule gives the given name exactly
for non-empty names without quotes.  Missing for the full property: names with a quote in them, for
which `C16_quote_false` shows that it fails.  (PostgreSQL itself has no empty names.) -/
theorem C16_name_reads_back_partial (n : String) :
    readName (Sql.qn n) = some n ↔ n ≠ "" ∧ '"' ∉ n.toList := readName_iff n

/-- C16 (partial), for schema-qualified references. -/
theorem C16_reference_reads_back_partial (s n : String) :
    readQualified (Sql.qa s n) = some (s, n) ↔
      (s ≠ "" ∧ '"' ∉ s.toList) ∧ (n ≠ "" ∧ '"' ∉ n.toList) := readQualified_iff s n

/-- C16 (partial).  References to different objects are different texts, for names without quotes. -/
theorem C16_references_differ_partial {s n s' n' : String} (h1 : '"' ∉ s.toList)
    (h2 : '"' ∉ n.toList) (h3 : '"' ∉ s'.toList) (h4 : '"' ∉ n'.toList)
    (h : Sql.qa s n = Sql.qa s' n') : s = s' ∧ n = n' := by
  have e : ∀ s n : String, (Sql.qa s n).toList =
      '"' :: (s.toList ++ '"' :: '.' :: '"' :: (n.toList ++ ['"'])) := by
    intro s n; simp [Sql.qa, Sql.qn]
  have hl := congrArg String.toList h
  rw [e, e] at hl
  simp only [List.cons.injEq, true_and] at hl
  have r1 := readQuotedRest_plain (rest := '.' :: '"' :: (n.toList ++ ['"'])) h1 (by simp)
  have r2 := readQuotedRest_plain (rest := '.' :: '"' :: (n'.toList ++ ['"'])) h3 (by simp)
  rw [hl, r2] at r1
  simp only [Option.some.injEq, Prod.mk.injEq, List.cons.injEq, true_and,
    List.append_cancel_right_eq] at r1
  exact ⟨String.toList_inj.1 r1.1.symm, String.toList_inj.1 r1.2.symm⟩

/-- The code violates C16: a name with a quote is not read back, and two different objects have the
same reference. -/
theorem C16_quote_false :
    ¬ (∀ n : String, n ≠ "" → readName (Sql.qn n) = some n) ∧
    ¬ (∀ s n s' n' : String, Sql.qa s n = Sql.qa s' n' → s = s' ∧ n = n') := by
  refine ⟨?_, ?_⟩
  · intro h
    have := ((readName_iff "a\"b").1 (h _ (by decide))).2
    exact this (by simp)
  · intro h
    exact absurd (h "a\".\"b" "c" "a" "b\".\"c" (by rfl)).1 (by decide)

/-- Whatever the name, writing it with doubled quotes would be right. -/
theorem C16_doubling_would_do {n : String} (h : n ≠ "") : readName (quoted n) = some n :=
  readName_quoted h

/-- C16 (partial), with PostgreSQL's limit on names: a rendered identifier denotes an object of the given name
exactly for non-empty names without quotes of at most 63 bytes. -/
theorem C16_object_iff_partial (n : String) :
    (readName (Sql.qn n)).map objectName = some n ↔
      (n ≠ "" ∧ '"' ∉ n.toList) ∧ bytes n.toList ≤ 63 := denotes_iff n

/-- The code violates C16 for every name of more than 63 bytes: podo takes it as it is, but it denotes an
object of another name; and all names that begin with the same 63 bytes denote the same object. -/
theorem C16_long_false :
    (∀ n : String, 63 < bytes n.toList → objectName n ≠ n) ∧
    (∀ n x y : String, bytes n.toList = 63 → objectName (n ++ x) = objectName (n ++ y)) ∧
    ∃ a b : String, a ≠ b ∧ ('"' ∉ a.toList ∧ '"' ∉ b.toList) ∧
      (readName (Sql.qn a)).map objectName = (readName (Sql.qn b)).map objectName ∧
      (readName (Sql.qn a)).isSome := by
  have same : ∀ n x y : String, bytes n.toList = 63 → objectName (n ++ x) = objectName (n ++ y) := by
    intro n x y hn
    rw [objectName, objectName, String.toList_append, String.toList_append, ← hn, fit_append, fit_append]
  refine ⟨fun n hn => ?_, same, ?_⟩
  · rw [Ne, objectName_iff]; omega
  · refine ⟨"orders_of_the_customers_who_have_not_been_invoiced_for_this_year" ++ "_a",
      "orders_of_the_customers_who_have_not_been_invoiced_for_this_year" ++ "_b", by decide, by decide +kernel, ?_, ?_⟩
    · decide +kernel
    · decide +kernel

example : bytes "orders_of_the_customers_who_have_not_been_invoiced_for_this_yea".toList = 63 ∧
    objectName "orders_of_the_customers_who_have_not_been_invoiced_for_this_year" =
      "orders_of_the_customers_who_have_not_been_invoiced_for_this_yea" ∧
    (readName (Sql.qn "user name; DROP")).map objectName = some "user name; DROP" := by decide +kernel

example : readName (Sql.qn "user name; DROP") = some "user name; DROP" :=
  (C16_name_reads_back_partial _).2 (by decide)
example : readQualified "\"public\".\"a.b\"" = some ("public", "a.b") := by decide
example : '"' ∉ ("public" : String).toList ∧ '"' ∉ ("a.b" : String).toList ∧
    Sql.qa "public" "a.b" = "\"public\".\"a.b\"" := by decide

/-! ### C56: the text says what the change does -/

/-- C56 (partial).  For changes whose quoted names have no quotes in them, foreign keys with one of
the match options of PostgreSQL and functions whose body does not start with a blank or `(`: the SQL
text is a statement doing what the change says if and only if
the created or dropped schema has a bare name, the created table has no not-null column, the added key or
index has a column and is not initially deferred without being deferrable, the altered foreign key has equal
flags, the added check is in parentheses and not deferrable, and the change neither adds a column nor a foreign
key nor creates a function nor alters a constraint that is not a foreign key.  Missing for the full property: the other
cases, where this theorem shows that it fails. -/
theorem C56_sql_says_change_partial (c : Change) (hp : ∀ n ∈ c.quotedNames, '"' ∉ n.toList)
    (hfk : ∀ s t n cols ts tt tcols m u d df i,
      c = .addForeignKey s t n cols ts tt tcols m u d df i → m ∈ ["SIMPLE", "FULL", "PARTIAL"])
    (hfn : ∀ s f b la r v, c = .createFunction s f b la r v →
      b.toList.head? ≠ some '(' ∧ b.toList.head? ≠ some ' ') :
    Says c.renderSql c ↔ c.TextRight := by
  have hq : ∀ n ∈ c.quotedNames, plain n := hp
  have hrest := says_rest c hq
  cases c with
  | createSchema s => exact says_createSchema s
  | dropSchema s => exact says_dropSchema s
  | createTable s t cols =>
    simp only [Change.quotedNames, List.mem_cons, List.mem_map, forall_eq_or_imp] at hq
    exact says_createTable s t cols hq.1 hq.2.1 fun c h => hq.2.2 _ ⟨c, h, rfl⟩
  | addColumn s t c ty nn df =>
    simp only [Change.quotedNames, List.mem_cons, List.not_mem_nil, or_false, forall_eq_or_imp,
      forall_eq] at hq
    exact iff_of_false (says_addColumn s t c ty nn df hq.1 hq.2.1 hq.2.2) id
  | addForeignKey s t n cols ts tt tcols m u d df i =>
    simp only [Change.quotedNames, List.mem_cons, List.mem_append, forall_eq_or_imp] at hq
    obtain ⟨h1, h2, h3, h4, h5, h6⟩ := hq
    exact iff_of_false (says_addForeignKey s t n cols ts tt tcols m u d df i h1 h2 h3 h4 h5
      (fun x h => h6 x (.inl h)) (fun x h => h6 x (.inr h))
      (hfk _ _ _ _ _ _ _ _ _ _ _ _ rfl)) id
  | createFunction s f b la r v =>
    simp only [Change.quotedNames, List.mem_cons, List.not_mem_nil, or_false, forall_eq_or_imp,
      forall_eq] at hq
    have := hfn _ _ _ _ _ _ rfl
    exact iff_of_false (says_createFunction s f b la r v hq.1 hq.2 this.1 this.2) id
  | addCheck s t n e d i =>
    simp only [Change.quotedNames, List.mem_cons, List.not_mem_nil, or_false, forall_eq_or_imp,
      forall_eq] at hq
    exact says_addCheck s t n e d i hq.1 hq.2.1 hq.2.2
  | alterForeignKey s t n d i =>
    simp only [Change.quotedNames, List.mem_cons, List.not_mem_nil, or_false, forall_eq_or_imp,
      forall_eq] at hq
    exact says_alterForeignKey s t n d i hq.1 hq.2.1 hq.2.2
  | alterCheck s t n d i => exact iff_of_false (not_says_alter _ s t n d i).2.2 id
  | alterPrimaryKey s t n d i => exact iff_of_false (not_says_alter _ s t n d i).1 id
  | alterUnique s t n d i => exact iff_of_false (not_says_alter _ s t n d i).2.1 id
  | addPrimaryKey s t n cols d i =>
    simp only [Change.quotedNames, List.mem_cons, forall_eq_or_imp] at hq
    exact says_addPrimaryKey s t n cols d i hq.1 hq.2.1 hq.2.2.1 hq.2.2.2
  | addUnique s t n cols d i =>
    simp only [Change.quotedNames, List.mem_cons, forall_eq_or_imp] at hq
    exact says_addUnique s t n cols d i hq.1 hq.2.1 hq.2.2.1 hq.2.2.2
  | createIndex s t i u m ks =>
    simp only [Change.quotedNames, List.mem_cons, List.not_mem_nil, or_false, forall_eq_or_imp,
      forall_eq] at hq
    exact says_createIndex s t i u m ks hq.1 hq.2.1 hq.2.2
  | _ => exact iff_of_true hrest trivial

/-- The hypotheses hold for every change of the demo snapshot, and some of them are rendered
right, some wrong. -/
example : (∀ c ∈ demoChanges, ∀ n ∈ c.quotedNames, '"' ∉ n.toList) ∧
    (Change.addUnique "public" "users" "users_name_key" ["name"] true true).TextRight ∧
    (Change.createIndex "public" "posts" "posts_author_idx" false "btree" ["author"]).TextRight ∧
    ¬ (Change.addColumn "public" "users" "a" "text" true none).TextRight :=
  ⟨by decide, ⟨by decide, fun _ => rfl⟩, by simp [Change.TextRight], id⟩

/-- The full C56 is false, whatever the names: adding a column; adding a foreign key; creating a table with
a not-null column; making a foreign key deferrable, but not initially deferred. -/
theorem C56_add_column_false (s t c ty : String) (nn : Bool) (df : Option String)
    (h : ∀ n ∈ [s, t, c], '"' ∉ n.toList) :
    ¬ Says (Change.addColumn s t c ty nn df).renderSql (.addColumn s t c ty nn df) := fun hs =>
  (C56_sql_says_change_partial (.addColumn s t c ty nn df) h (by intros; contradiction)
    (by intros; contradiction)).1 hs

theorem C56_create_table_false (s t : String) (cols : List NewColumn) (hn : ∃ c ∈ cols, c.notNull = true)
    (h : ∀ n ∈ s :: t :: cols.map (·.name), '"' ∉ n.toList) :
    ¬ Says (Change.createTable s t cols).renderSql (.createTable s t cols) := fun hs => by
  obtain ⟨c, hc, e⟩ := hn
  have := (C56_sql_says_change_partial (.createTable s t cols) h (by intros; contradiction)
    (by intros; contradiction)).1 hs c hc
  rw [e] at this
  cases this

theorem C56_deferrable_false (s t n : String) (h : ∀ x ∈ [s, t, n], '"' ∉ x.toList) :
    ¬ Says (Change.alterForeignKey s t n true false).renderSql (.alterForeignKey s t n true false) :=
  fun hs => by
    have := (C56_sql_says_change_partial (.alterForeignKey s t n true false) h (by intros; contradiction)
      (by intros; contradiction)).1 hs
    cases this

/-- The full C56 is false, whatever the names: PostgreSQL refuses to alter the timing of a primary key, a unique
constraint or a check, which is what the texts for these changes ask for. -/
theorem C56_alter_constraint_false (s t n : String) (d i : Bool) (hs : '"' ∉ s.toList) (ht : '"' ∉ t.toList)
    (hn : '"' ∉ n.toList) :
    (∃ k, (Change.alterPrimaryKey s t n d i).renderSql = (Stmt.alterConstraint s t n k).text ++ ";") ∧
    (∃ k, (Change.alterUnique s t n d i).renderSql = (Stmt.alterConstraint s t n k).text ++ ";") ∧
    (∃ k, (Change.alterCheck s t n d i).renderSql = (Stmt.alterConstraint s t n k).text) ∧
    ¬ Says (Change.alterPrimaryKey s t n d i).renderSql (.alterPrimaryKey s t n d i) ∧
    ¬ Says (Change.alterUnique s t n d i).renderSql (.alterUnique s t n d i) ∧
    ¬ Says (Change.alterCheck s t n d i).renderSql (.alterCheck s t n d i) := by
  refine ⟨⟨⟨some d, some i⟩, ?_⟩, ⟨⟨some d, some i⟩, ?_⟩, ⟨⟨some d, some d⟩, ?_⟩,
    (not_says_alter _ s t n d i).1, (not_says_alter _ s t n d i).2.1, (not_says_alter _ s t n d i).2.2⟩
  · rw [render_alterPrimaryKey, text_alterConstraint, ← flags_text, qualified_plain hs ht,
      quoted_plain hn]
    simp [← String.toList_inj]
  · rw [render_alterUnique, text_alterConstraint, ← flags_text, qualified_plain hs ht,
      quoted_plain hn]
    simp [← String.toList_inj]
  · simp only [render_alterCheck, text_alterConstraint, ← flagsOne_text, quoted_plain hn,
      qualified_plain hs ht, String.append_assoc]

/-- The full C56 is false, whatever the names: a deferrable check is rendered as such, which PostgreSQL refuses;
and a key that is initially deferred, but not deferrable, is rendered as such. -/
theorem C56_refused_flags_false (s t n e : String) (cols : List String)
    (h : ∀ x ∈ s :: t :: n :: cols, '"' ∉ x.toList) :
    (∀ i, ¬ Says (Change.addCheck s t n e true i).renderSql (.addCheck s t n e true i)) ∧
    ¬ Says (Change.addPrimaryKey s t n cols false true).renderSql (.addPrimaryKey s t n cols false true) ∧
    ¬ Says (Change.addUnique s t n cols false true).renderSql (.addUnique s t n cols false true) := by
  simp only [List.mem_cons, forall_eq_or_imp] at h
  obtain ⟨h1, h2, h3, h4⟩ := h
  refine ⟨fun i hs => ?_, fun hs => ?_, fun hs => ?_⟩
  · exact absurd ((says_addCheck s t n e true i h1 h2 h3).1 hs).2.1 (by decide)
  · exact absurd (((says_addPrimaryKey s t n cols false true h1 h2 h3 h4).1 hs).2 rfl) (by decide)
  · exact absurd (((says_addUnique s t n cols false true h1 h2 h3 h4).1 hs).2 rfl) (by decide)

example : ∀ n ∈ ["public", "users", "a"], '"' ∉ n.toList := by decide
example : ∃ c ∈ [(⟨"id", "int8", true, none⟩ : NewColumn)], c.notNull = true := ⟨_, List.mem_cons_self, rfl⟩

/-! ### C17 -/

/-- C17 (partial).  Altering nullability says what it should. Missing: adding columns and creating
tables, below. -/
theorem C17_set_not_null_partial (s t c : String) (nn : Bool) (hs : '"' ∉ s.toList)
    (ht : '"' ∉ t.toList) (hc : '"' ∉ c.toList) :
    (Change.setNotNull s t c nn).renderSql =
      (if nn then (Stmt.setNotNull s t c).text else (Stmt.dropNotNull s t c).text) ++ ";" := by
  rw [render_setNotNull, text_setNotNull, text_dropNotNull, qualified_plain hs ht, quoted_plain hc]
  cases nn <;> simp [← String.toList_inj]

/-- C17 (partial).  Creating a table says the right nullability exactly when no column is
not-null. -/
theorem C17_create_table_partial (s t : String) (cols : List NewColumn) (hs : '"' ∉ s.toList)
    (ht : '"' ∉ t.toList) (hc : ∀ c ∈ cols, '"' ∉ c.name.toList) :
    Says (Change.createTable s t cols).renderSql (.createTable s t cols) ↔
      ∀ c ∈ cols, c.notNull = false := says_createTable s t cols hs ht hc

/-- The code violates C17: what is rendered for a table is, column by column, the definition of the
column with `NULL` for a nullable column and nothing (which also means nullable) for a not-null one. -/
theorem C17_create_table_false (s t : String) (cols : List NewColumn) (hs : '"' ∉ s.toList)
    (ht : '"' ∉ t.toList) (hc : ∀ c ∈ cols, '"' ∉ c.name.toList) :
    ∃ defs : List ColumnDef, (Change.createTable s t cols).renderSql =
        (Stmt.createTable s t defs).text ++ ";" ∧
      defs.map (fun c => (c.name, c.dataType, c.default)) =
        cols.map (fun c => (c.name, c.dataType, c.default)) ∧
      ∀ d ∈ defs, d.notNull = false := by
  refine ⟨cols.map fun c => ⟨c.name, c.dataType, if c.notNull then none else some false, c.default⟩,
    ?_, ?_, ?_⟩
  · rw [render_createTable, text_createTable, qualified_plain hs ht, commaList_eq, List.map_map]
    have : cols.map (ColumnDef.text ∘ fun c => ⟨c.name, c.dataType,
        if c.notNull then none else some false, c.default⟩) = cols.map Sql.newColumn :=
      List.map_congr_left fun c h => (newColumn_text c (hc c h)).symm
    rw [this]
    simp [← String.toList_inj]
  · rw [List.map_map]; rfl
  · intro d hd
    obtain ⟨c, _, rfl⟩ := List.mem_map.1 hd
    cases hn : c.notNull <;> simp [ColumnDef.notNull, hn]

/-- The code violates C17: what is rendered for adding a column is always the statement that adds
it with the opposite nullability. -/
theorem C17_add_column_false (s t c ty : String) (nn : Bool) (df : Option String)
    (hs : '"' ∉ s.toList) (ht : '"' ∉ t.toList) (hc : '"' ∉ c.toList) :
    Says (Change.addColumn s t c ty nn df).renderSql (.addColumn s t c ty (!nn) df) ∧
    ¬ Says (Change.addColumn s t c ty nn df).renderSql (.addColumn s t c ty nn df) := by
  refine ⟨?_, says_addColumn s t c ty nn df hs ht hc⟩
  rw [addColumn_text s t c ty nn df hs ht hc]
  refine ⟨.addColumn s t ⟨c, ty, if nn then none else some true, df⟩, ⟨_, rfl, ?_⟩, .inr ?_⟩
  · cases nn <;> rfl
  · rw [text_addColumn]
    cases nn <;> cases df <;> simp [ColumnDef.text, colTail, ← String.toList_inj]

example : (Change.addColumn "public" "users" "email" "text" true none).renderSql =
    "ALTER TABLE \"public\".\"users\" ADD COLUMN \"email\" text;" := by decide
example : (Change.createTable "public" "t" [⟨"id", "int8", true, none⟩, ⟨"b", "text", false, some "''"⟩]
    ).renderSql = "CREATE TABLE \"public\".\"t\" (\"id\" int8, \"b\" text NULL DEFAULT '');" := by decide

/-! ### C18 -/

/-- C18 (partial).  Adding a primary key, a unique constraint or a (parenthesised) check, and altering
a primary key or unique constraint, states the flags as given.  Missing: foreign keys and altering
checks, below. -/
theorem C18_flags_stated_partial (s t n : String) (cols : List String) (e : String) (d i : Bool)
    (hs : '"' ∉ s.toList) (ht : '"' ∉ t.toList) (hn : '"' ∉ n.toList)
    (hc : ∀ c ∈ cols, '"' ∉ c.toList) :
    ∃ k : Timing, k.states d i ∧
      (Change.addPrimaryKey s t n cols d i).renderSql = (Stmt.addPrimaryKey s t n cols k).text ++ ";" ∧
      (Change.addUnique s t n cols d i).renderSql = (Stmt.addUnique s t n cols k).text ++ ";" ∧
      (Change.addCheck s t n ("(" ++ e ++ ")") d i).renderSql =
        (Stmt.addCheck s t n e k).text ++ ";" ∧
      (Change.alterPrimaryKey s t n d i).renderSql = (Stmt.alterConstraint s t n k).text ++ ";" ∧
      (Change.alterUnique s t n d i).renderSql = (Stmt.alterConstraint s t n k).text ++ ";" := by
  refine ⟨_, flags_states d i, ?_, ?_, ?_, ?_, ?_⟩
  · rw [render_addPrimaryKey, text_addPrimaryKey, ← flags_text, qualified_plain hs ht,
      quoted_plain hn, commaList_quoted hc]
    simp [← String.toList_inj]
  · rw [render_addUnique, text_addUnique, ← flags_text, qualified_plain hs ht,
      quoted_plain hn, commaList_quoted hc]
    simp [← String.toList_inj]
  · rw [render_addCheck, text_addCheck, ← flags_text, qualified_plain hs ht, quoted_plain hn]
    simp [← String.toList_inj]
  · rw [render_alterPrimaryKey, text_alterConstraint, ← flags_text, qualified_plain hs ht,
      quoted_plain hn]
    simp [← String.toList_inj]
  · rw [render_alterUnique, text_alterConstraint, ← flags_text, qualified_plain hs ht,
      quoted_plain hn]
    simp [← String.toList_inj]

/-- C18 (partial).  Altering a foreign key or a check states the flags as given exactly when both
flags are equal. -/
theorem C18_alter_flags_partial (s t n : String) (d i : Bool)
    (hs : '"' ∉ s.toList) (ht : '"' ∉ t.toList) (hn : '"' ∉ n.toList) :
    ((∃ k : Timing, k.states d i ∧
      (Change.alterForeignKey s t n d i).renderSql = (Stmt.alterConstraint s t n k).text) ↔ d = i) ∧
    ((∃ k : Timing, k.states d i ∧
      (Change.alterCheck s t n d i).renderSql = (Stmt.alterConstraint s t n k).text) ↔ d = i) := by
  refine ⟨⟨?_, ?_⟩, ⟨?_, ?_⟩⟩
  · rintro ⟨k, hk, e⟩
    exact alter_text hs ht hn hk (.inl e)
  · rintro rfl
    exact ⟨⟨some d, some d⟩, flags_states d d, by
      simp only [render_alterForeignKey, text_alterConstraint, ← flagsOne_text, quoted_plain hn,
        qualified_plain hs ht, String.append_assoc]⟩
  · rintro ⟨k, hk, e⟩
    exact alter_text hs ht hn hk (.inl e)
  · rintro rfl
    exact ⟨⟨some d, some d⟩, flags_states d d, by
      simp only [render_alterCheck, text_alterConstraint, ← flagsOne_text, quoted_plain hn,
        qualified_plain hs ht, String.append_assoc]⟩

/-- The code violates C18: altering a deferrable, initially immediate foreign key or check states
that it is initially deferred; adding a foreign key does not state the flags at all. -/
theorem C18_foreign_key_flags_false :
    (∀ s t n : String, '"' ∉ s.toList → '"' ∉ t.toList → '"' ∉ n.toList → ∃ k : Timing, k.states true true ∧
      (Change.alterForeignKey s t n true false).renderSql = (Stmt.alterConstraint s t n k).text ∧
      (Change.alterCheck s t n true false).renderSql = (Stmt.alterConstraint s t n k).text) ∧
    (∀ s t n cols ts tt tcols m u dl d i d' i',
      (Change.addForeignKey s t n cols ts tt tcols m u dl d i).renderSql =
      (Change.addForeignKey s t n cols ts tt tcols m u dl d' i').renderSql) := by
  refine ⟨fun s t n hs ht hn => ⟨⟨some true, some true⟩, flags_states true true, ?_, ?_⟩,
    fun _ _ _ _ _ _ _ _ _ _ _ _ _ _ => rfl⟩
  · simp only [render_alterForeignKey, text_alterConstraint, ← flagsOne_text, quoted_plain hn,
      qualified_plain hs ht, String.append_assoc]
  · simp only [render_alterCheck, text_alterConstraint, ← flagsOne_text, quoted_plain hn,
      qualified_plain hs ht, String.append_assoc]

example : (Change.alterForeignKey "public" "posts" "fk" true false).renderSql =
    "ALTER TABLE \"public\".\"posts\" ALTER CONSTRAINT \"fk\" DEFERRABLE INITIALLY DEFERRED" := by
  decide
set_option maxRecDepth 4000 in
example : (Change.addForeignKey "public" "posts" "fk" ["a"] "public" "users" ["id"] "SIMPLE"
    "NO ACTION" "CASCADE" true false).renderSql =
    "ALTER TABLE \"public\".\"posts\" ADD CONSTRAINT \"fk\" FOREIGN KEY (\"a\") REFERENCES \"public\".\"users\" (\"id\") SIMPLE NO ACTION CASCADE;" := by
  decide

end Podo
