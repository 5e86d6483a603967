import Verif.Proofs.DiffNeeded
/-
The order of columns after a computed diff has been applied.
-/
set_option linter.unusedSimpArgs false
namespace Podo
open Spec Diff Change

/-- The table inside a relation. -/
def relTable : Relation → Option Table
  | .table tb => some tb
  | _ => none

theorem tableNamed_eq (d : Database) (n r : String) : d.tableNamed n r =
    (d.schemas.get? n).bind fun sc => (sc.relations.get? r).bind relTable := by
  simp only [Database.tableNamed]
  cases d.schemas.get? n with
  | none => rfl
  | some sc => cases e : sc.relations.get? r with
    | none => simp [e]
    | some x => cases x <;> simp [e, relTable]

def namesAt (d : Database) (n r : String) : Option (List String) :=
  (d.tableNamed n r).map fun tb => tb.columns.map Column.name

/-- Effect of a change on the column names of table `n.r`. -/
def nameStep (n r : String) (x : Option (List String)) : Change → Option (List String)
  | .addColumn s t c _ _ _ => if n = s ∧ r = t then x.map (· ++ [c]) else x
  | .dropColumn s t c => if n = s ∧ r = t then x.map (·.erase c) else x
  | .createTable s t cols => if n = s ∧ r = t then some (cols.map NewColumn.name) else x
  | .dropTable s t | .dropView s t | .dropIndex s t | .dropSequence s t =>
    if n = s ∧ r = t then none else x
  | .dropSchema s => if n = s then none else x
  | _ => x

theorem withSchema_tables {d d' : Database} {s : String} {f : Schema → SResult Schema}
    (h : d.withSchema s f = .ok d') : ∃ sc sc', d.schemas.get? s = some sc ∧ f sc = .ok sc' ∧
      ∀ n r, d'.tableNamed n r = if n = s then (sc'.relations.get? r).bind relTable
        else d.tableNamed n r := by
  simp only [Database.withSchema, Database.getSchema] at h
  cases e : d.schemas.get? s with
  | none => rw [e] at h; cases h
  | some sc =>
    simp only [e] at h
    cases e2 : f sc with
    | error x => rw [e2] at h; cases h
    | ok sc' =>
      rw [e2] at h; cases h
      refine ⟨sc, sc', rfl, e2, fun n r => ?_⟩
      simp only [tableNamed_eq, Database.setSchema]
      rw [AMap.get?_set _ _ _ _ (by simp [e])]
      by_cases hn : n = s <;> simp [hn]

theorem dbWithTable_tables {d d' : Database} {s t : String} {f : Table → SResult Table}
    (h : d.withTable s t f = .ok d') : ∃ tb tb', d.tableNamed s t = some tb ∧ f tb = .ok tb' ∧
      ∀ n r, d'.tableNamed n r = if n = s ∧ r = t then some tb' else d.tableNamed n r := by
  obtain ⟨sc, sc', h1, h2, h3⟩ := withSchema_tables h
  simp only [Schema.withTable, Schema.getRelation] at h2
  cases e : sc.relations.get? t with
  | none => rw [e] at h2; cases h2
  | some rel =>
    simp only [e] at h2
    cases rel with
    | table tb =>
      simp only [Relation.asTable] at h2
      cases e2 : f tb with
      | error x => rw [e2] at h2; cases h2
      | ok tb' =>
        rw [e2] at h2; cases h2
        refine ⟨tb, tb', by simp [tableNamed_eq, h1, e, relTable], e2, fun n r => ?_⟩
        rw [h3]
        by_cases hn : n = s
        · subst hn
          simp only [if_true, true_and, Schema.setRelation]
          rw [AMap.get?_set _ _ _ _ (by simp [e])]
          by_cases hr : r = t
          · simp [hr, relTable]
          · simp [hr, tableNamed_eq, h1]
        · simp [hn]
    | view x | index x | sequence x => cases h2

theorem addRelation_tables {sc sc' : Schema} {rel : Relation} (h : sc.addRelation rel = .ok sc')
    (r : String) : sc.relations.get? rel.name = none ∧ (sc'.relations.get? r).bind relTable =
      if r = rel.name then relTable rel else (sc.relations.get? r).bind relTable := by
  simp only [Schema.addRelation] at h
  cases e : sc.relations.get? rel.name with
  | some x => rw [if_pos (AMap.has_of_some e)] at h; cases h
  | none =>
    rw [if_neg (by rw [AMap.has_of_none e]; simp)] at h
    cases h
    refine ⟨rfl, ?_⟩
    simp only []
    rw [AMap.get?_insertNew _ _ _ _ e]
    by_cases hr : r = rel.name <;> simp [hr]

theorem removeRelation_tables {sc sc' : Schema} {k : String} (h : sc.removeRelation k = .ok sc')
    (r : String) : (sc'.relations.get? r).bind relTable =
      if r = k then none else (sc.relations.get? r).bind relTable := by
  simp only [Schema.removeRelation] at h
  cases e : sc.relations.get? k with
  | none => rw [e] at h; cases h
  | some x =>
    rw [e] at h; cases h
    simp only []
    rw [AMap.get?_erase]
    by_cases hr : r = k <;> simp [hr]

theorem dropRelationAs_tables {α : Type} {sc sc' : Schema} {k : String}
    {as : Relation → SResult α} (h : sc.dropRelationAs k as = .ok sc')
    (r : String) : (sc'.relations.get? r).bind relTable =
      if r = k then none else (sc.relations.get? r).bind relTable := by
  simp only [Schema.dropRelationAs, Schema.getRelation] at h
  cases e : sc.relations.get? k with
  | none => rw [e] at h; cases h
  | some x =>
    simp only [e] at h
    cases e2 : as x with
    | error y => rw [e2] at h; cases h
    | ok y => rw [e2] at h; exact removeRelation_tables h r

theorem names_withTable {d d' : Database} {s t : String} {f : Table → SResult Table}
    (h : d.withTable s t f = .ok d') (g : List String → List String)
    (hf : ∀ tb tb', f tb = .ok tb' → tb'.columns.map Column.name = g (tb.columns.map Column.name))
    (n r : String) :
    namesAt d' n r = if n = s ∧ r = t then (namesAt d n r).map g else namesAt d n r := by
  obtain ⟨tb, tb', h1, h2, h3⟩ := dbWithTable_tables h
  simp only [namesAt, h3]
  by_cases hn : n = s ∧ r = t
  · rw [if_pos hn, if_pos hn, hn.1, hn.2, h1]
    simp [hf _ _ h2]
  · rw [if_neg hn, if_neg hn]

theorem names_withTable_id {d d' : Database} {s t : String} {f : Table → SResult Table}
    (h : d.withTable s t f = .ok d')
    (hf : ∀ tb tb', f tb = .ok tb' → tb'.columns.map Column.name = tb.columns.map Column.name)
    (n r : String) : namesAt d' n r = namesAt d n r := by
  rw [names_withTable h id hf]
  split <;> simp

theorem names_withSchema {d d' : Database} {s : String} {f : Schema → SResult Schema}
    (h : d.withSchema s f = .ok d') (n r : String) (g : Option (List String) → Option (List String))
    (hf : ∀ sc sc', f sc = .ok sc' → ((sc'.relations.get? r).bind relTable).map
        (fun tb => tb.columns.map Column.name)
      = g (((sc.relations.get? r).bind relTable).map (fun tb => tb.columns.map Column.name))) :
    namesAt d' n r = if n = s then g (namesAt d n r) else namesAt d n r := by
  obtain ⟨sc, sc', h1, h2, h3⟩ := withSchema_tables h
  simp only [namesAt, h3]
  by_cases hn : n = s
  · rw [if_pos hn, if_pos hn, hn, tableNamed_eq, h1]
    simpa using hf _ _ h2
  · rw [if_neg hn, if_neg hn]

theorem modifyColumn_names {tb tb' : Table} {c : String} {f : Column → Column}
    (h : tb.modifyColumn c f = .ok tb') (hf : ∀ x, (f x).name = x.name) :
    tb'.columns.map Column.name = tb.columns.map Column.name := by
  simp only [Table.modifyColumn] at h
  split at h
  · cases h; exact map_name_setCol _ _ _ hf
  · cases h

theorem addConstraint_cols {tb tb' : Table} {c : Constraint} (h : tb.addConstraint c = .ok tb') :
    tb'.columns = tb.columns := by
  simp only [Table.addConstraint] at h
  split at h
  · cases h
  · cases h; rfl

theorem alterConstraint_cols {tb tb' : Table} {n : String}
    {conv : Constraint → SResult Constraint} (h : tb.alterConstraint n conv = .ok tb') :
    tb'.columns = tb.columns := by
  simp only [Table.alterConstraint] at h
  split at h
  · cases h
  · split at h
    · cases h
    · cases h; rfl

theorem dropConstraint_cols {α : Type} {tb tb' : Table} {n : String}
    {as : Constraint → SResult α} (h : tb.dropConstraint n as = .ok tb') :
    tb'.columns = tb.columns := by
  simp only [Table.dropConstraint] at h
  split at h
  · cases h
  · split at h
    · cases h
    · simp only [Table.removeConstraint] at h
      split at h
      · cases h; rfl
      · cases h

theorem map_name_eraseCol (cols : List Column) (c : String) :
    (Table.eraseCol cols c).map Column.name = (cols.map Column.name).erase c := by
  induction cols with
  | nil => rfl
  | cons x xs ih =>
    simp only [Table.eraseCol, List.map_cons, List.erase_cons]
    by_cases h : x.name = c
    · simp [h]
    · simp [h, ih]

theorem buildColumns_names {s t : String} {cols : List NewColumn} {tb tb' : Table}
    (h : Table.buildColumns s t tb cols = .ok tb') :
    tb'.columns.map Column.name = tb.columns.map Column.name ++ cols.map NewColumn.name := by
  induction cols generalizing tb with
  | nil => cases h; simp
  | cons c cs ih =>
    simp only [Table.buildColumns] at h
    split at h
    · cases h
    · next t' e =>
      rw [ih h]
      simp only [Table.addColumn] at e
      split at e
      · cases e
      · cases e; simp

theorem buildColumns_name {s t : String} {cols : List NewColumn} {tb tb' : Table}
    (h : Table.buildColumns s t tb cols = .ok tb') : tb'.name = tb.name := by
  induction cols generalizing tb with
  | nil => cases h; rfl
  | cons c cs ih =>
    simp only [Table.buildColumns] at h
    split at h
    · cases h
    · next t' e =>
      rw [ih h]
      simp only [Table.addColumn] at e
      split at e
      · cases e
      · cases e; rfl

theorem apply_names {c : Change} {d d' : Database} (h : c.apply d = .ok d')
    (hr : ∀ s t a b, c ≠ .renameColumn s t a b) (n r : String) :
    namesAt d' n r = nameStep n r (namesAt d n r) c := by
  cases c with
  | renameColumn s t a b => exact absurd rfl (hr s t a b)
  | createSchema s =>
    simp only [Change.apply, Database.addSchema] at h
    split at h
    · cases h
    · next hh =>
      have e : d.schemas.get? s = none := AMap.has_eq_false_iff.1 (by simpa [Schema.new] using hh)
      cases h
      simp only [nameStep, namesAt, tableNamed_eq]
      rw [show (Schema.new s).name = s from rfl, AMap.get?_insertNew _ _ _ _ e]
      by_cases hn : n = s
      · subst hn; simp [e, Schema.new]
      · simp [hn, Schema.new]
  | dropSchema s =>
    simp only [Change.apply, Database.removeSchema] at h
    split at h
    · cases h
      simp only [nameStep, namesAt, tableNamed_eq]
      rw [AMap.get?_erase]
      by_cases hn : n = s
      · subst hn; simp
      · simp [hn]
    · cases h
  | createTable s t cols =>
    simp only [Change.apply] at h
    rw [names_withSchema h n r
      (fun x => if r = t then some (cols.map NewColumn.name) else x)]
    · simp only [nameStep]
      by_cases hn : n = s <;> by_cases ht : r = t <;> simp [hn, ht]
    · intro sc sc' hf
      split at hf
      · cases hf
      · next tb e =>
        have := (addRelation_tables hf r).2
        rw [this]
        have hb := buildColumns_names e
        have hnm : tb.name = t := buildColumns_name e
        simp only [Relation.name, relTable, hnm]
        by_cases ht : r = t
        · simp only [ht, if_true, Option.map_some]
          rw [hb]; simp [Table.new]
        · simp [ht]
  | dropTable s t =>
    rw [names_withSchema h n r (fun x => if r = t then none else x)]
    · simp only [nameStep]
      by_cases hn : n = s <;> by_cases ht : r = t <;> simp [hn, ht]
    · intro sc sc' hf
      rw [removeRelation_tables hf r]
      split <;> rfl
  | dropView s t | dropIndex s t | dropSequence s t =>
    rw [names_withSchema h n r (fun x => if r = t then none else x)]
    · simp only [nameStep]
      by_cases hn : n = s <;> by_cases ht : r = t <;> simp [hn, ht]
    · intro sc sc' hf
      rw [dropRelationAs_tables hf r]
      split <;> rfl
  | createView s t q =>
    rw [names_withSchema h n r id]
    · simp [nameStep]
    · intro sc sc' hf
      have := addRelation_tables hf r
      rw [this.2]
      split
      · next e => rw [e, this.1]; rfl
      · rfl
  | createSequence s q ty inc mn mx st ca cy =>
    rw [names_withSchema h n r id]
    · simp [nameStep]
    · intro sc sc' hf
      have := addRelation_tables hf r
      rw [this.2]
      split
      · next e => rw [e, this.1]; rfl
      · rfl
  | createIndex s t i u m ks =>
    simp only [Change.apply] at h
    rw [names_withSchema h n r id]
    · simp [nameStep]
    · intro sc sc' hf
      split at hf
      · cases hf
      · split at hf
        · cases hf
        · have := addRelation_tables hf r
          rw [this.2]
          split
          · next e => rw [e, this.1]; rfl
          · rfl
  | createFunction s f b l rt v =>
    rw [names_withSchema h n r id]
    · simp [nameStep]
    · intro sc sc' hf
      simp only [Schema.addFunction] at hf
      split at hf
      · cases hf
      · cases hf; rfl
  | dropFunction s f =>
    rw [names_withSchema h n r id]
    · simp [nameStep]
    · intro sc sc' hf
      simp only [Schema.removeFunction] at hf
      split at hf
      · cases hf; rfl
      · cases hf
  | addColumn s t c ty nn df =>
    rw [names_withTable h (· ++ [c])]
    · simp only [nameStep]
    · intro tb tb' hf
      simp only [Table.addColumn] at hf
      split at hf
      · cases hf
      · cases hf; simp
  | dropColumn s t c =>
    rw [names_withTable h (·.erase c)]
    · simp only [nameStep]
    · intro tb tb' hf
      simp only [Table.removeColumn] at hf
      cases e : Table.findCol tb.columns c with
      | none => rw [e] at hf; cases hf
      | some x => rw [e] at hf; cases hf; exact map_name_eraseCol _ _
  | setDataType s t c ty =>
    exact names_withTable_id h (fun tb tb' hf => modifyColumn_names hf fun _ => rfl) n r
  | setDefault s t c ty =>
    exact names_withTable_id h (fun tb tb' hf => modifyColumn_names hf fun _ => rfl) n r
  | setNotNull s t c ty =>
    exact names_withTable_id h (fun tb tb' hf => modifyColumn_names hf fun _ => rfl) n r
  | addPrimaryKey | addUnique | addForeignKey | addCheck =>
    exact names_withTable_id h (fun tb tb' hf => by rw [addConstraint_cols hf]) n r
  | alterPrimaryKey | alterUnique | alterForeignKey | alterCheck =>
    exact names_withTable_id h (fun tb tb' hf => by rw [alterConstraint_cols hf]) n r
  | dropPrimaryKey | dropUnique | dropForeignKey | dropCheck =>
    exact names_withTable_id h (fun tb tb' hf => by rw [dropConstraint_cols hf]) n r

def foldN (n r : String) (cs : List Change) (x : Option (List String)) : Option (List String) :=
  cs.foldl (nameStep n r) x

theorem foldN_append (n r : String) (xs ys : List Change) (x : Option (List String)) :
    foldN n r (xs ++ ys) x = foldN n r ys (foldN n r xs x) := by simp [foldN]

theorem foldN_cons (n r : String) (c : Change) (ys : List Change) (x : Option (List String)) :
    foldN n r (c :: ys) x = foldN n r ys (nameStep n r x c) := rfl

theorem applyAll_names {cs : List Change} {d d' : Database} (h : applyAll cs d = .ok d')
    (hr : ∀ c ∈ cs, ∀ s t a b, c ≠ .renameColumn s t a b) (n r : String) :
    namesAt d' n r = foldN n r cs (namesAt d n r) := by
  induction cs generalizing d with
  | nil => cases h; rfl
  | cons c cs ih =>
    simp only [applyAll] at h
    split at h
    · cases h
    · next d₁ e =>
      rw [ih h (fun c hc => hr c (List.mem_cons_of_mem _ hc)), apply_names e (hr c List.mem_cons_self)]
      rfl

/-- Changes that leave the column names of `n.r` alone. -/
def Inert (n r : String) (c : Change) : Prop := ∀ x, nameStep n r x c = x

theorem foldN_inert {n r : String} {cs : List Change} (h : ∀ c ∈ cs, Inert n r c)
    (x : Option (List String)) : foldN n r cs x = x := by
  induction cs generalizing x with
  | nil => rfl
  | cons c cs ih =>
    rw [foldN_cons, h c List.mem_cons_self]
    exact ih (fun c hc => h c (List.mem_cons_of_mem _ hc)) x

theorem foldN_key {α : Type} {m : AMap α} (hm : m.NodupKeys) {n r k : String}
    {B : String × α → List Change}
    (h : ∀ p ∈ m, p.1 ≠ k → ∀ c ∈ B p, Inert n r c) (x : Option (List String)) :
    foldN n r (m.flatMap B) x = match m.get? k with
      | some v => foldN n r (B (k, v)) x
      | none => x := by
  induction m generalizing x with
  | nil => rfl
  | cons p m ih =>
    rw [AMap.nodupKeys_cons] at hm
    rw [List.flatMap_cons, foldN_append]
    by_cases e : p.1 = k
    · have hr : foldN n r (m.flatMap B) (foldN n r (B p) x) = foldN n r (B p) x := by
        apply foldN_inert
        intro c hc
        obtain ⟨q, hq, hc⟩ := List.mem_flatMap.1 hc
        refine h q (List.mem_cons_of_mem _ hq) ?_ c hc
        intro e2
        apply hm.1
        rw [e, ← e2]
        exact List.mem_map.2 ⟨q, hq, rfl⟩
      rw [hr]
      obtain ⟨a, v⟩ := p
      simp only at e; subst e
      simp
    · rw [foldN_inert (h p List.mem_cons_self e),
        ih hm.2 fun q hq => h q (List.mem_cons_of_mem _ hq)]
      simp [e]

theorem inert_conTable {c : Change} {p : String × String} (h : conTable c = some p) (n r : String) :
    Inert n r c := by
  intro x; cases c <;> simp [conTable] at h <;> rfl

theorem inert_funSchema {c : Change} {s : String} (h : funSchema c = some s) (n r : String) :
    Inert n r c := by
  intro x; cases c <;> simp [funSchema] at h <;> rfl

theorem inert_relSchema {c : Change} {s : String} (h : relSchema c = some s) {n : String}
    (hn : n ≠ s) (r : String) : Inert n r c := by
  intro x
  cases c <;> simp [relSchema, colTable, conTable] at h <;> simp_all [nameStep]

theorem inert_colTable {c : Change} {s t : String} (h : colTable c = some (s, t)) {n r : String}
    (hn : r ≠ t) : Inert n r c := by
  intro x
  cases c <;> simp [colTable] at h <;> simp_all [nameStep]

theorem inert_relationCreate {t : Relation} (ht : t.WF) {n r : String} (hr : r ≠ t.name) {c : Change}
    (h : c ∈ relationCreate t) : Inert n r c := by
  cases t with
  | table t =>
    simp only [relationCreate, tableCreate, List.mem_cons] at h
    rcases h with rfl | h
    · intro x
      have : ¬ (n = t.schemaName ∧ r = t.name) := fun e => hr e.2
      simp only [newCreateTable, nameStep, if_neg this]
    · rw [flatMap_values] at h
      obtain ⟨p, hp, h⟩ := List.mem_flatMap.1 h
      exact inert_conTable (conTable_create h) n r
  | view t =>
    simp only [relationCreate, viewCreate, List.mem_singleton] at h; subst h; intro x; rfl
  | sequence t =>
    simp only [relationCreate, sequenceCreate, List.mem_singleton] at h; subst h; intro x; rfl
  | index t =>
    simp only [relationCreate, indexCreate, List.mem_singleton] at h; subst h; intro x; rfl

theorem inert_relationDrop {t : Relation} {n r : String} (hr : r ≠ t.name) {c : Change}
    (h : c ∈ relationDrop t) : Inert n r c := by
  have hn : ∀ s, ¬ (n = s ∧ r = t.name) := fun s e => hr e.2
  cases t with
  | table t =>
    simp only [relationDrop, tableDrop, List.mem_singleton] at h; subst h
    intro x; simp only [newDropTable, nameStep]; exact if_neg (hn _)
  | view t =>
    simp only [relationDrop, viewDrop, List.mem_singleton] at h; subst h
    intro x; simp only [newDropView, nameStep]; exact if_neg (hn _)
  | sequence t =>
    simp only [relationDrop, sequenceDrop, List.mem_singleton] at h; subst h
    intro x; simp only [newDropSequence, nameStep]; exact if_neg (hn _)
  | index t =>
    simp only [relationDrop, indexDrop, List.mem_singleton] at h; subst h
    intro x; simp only [newDropIndex, nameStep]; exact if_neg (hn _)

theorem inert_relationUpdate {s t : Relation} (hs : s.WF) (ht : t.WF)
    (h1 : s.schemaName = t.schemaName) (h2 : s.name = t.name) {n r : String} (hr : r ≠ t.name)
    {c : Change} (h : c ∈ relationUpdate s t) : Inert n r c := by
  rcases relationUpdate_cases s t with e | e | ⟨a, b, rfl, rfl, e⟩
  · rw [e] at h; cases h
  · rw [e] at h
    rcases List.mem_append.1 h with h | h
    · exact inert_relationDrop (by rw [h2]; exact hr) h
    · exact inert_relationCreate ht hr h
  · rw [e, tableUpdate_eq] at h
    rcases List.mem_append.1 h with h | h
    · exact inert_colTable (colTable_colsPart hs ht h1 h2 h) hr
    · exact inert_conTable (conTable_consPart hs ht h1 h2 h) n r

theorem foldN_tableCreate {t : Table} (x : Option (List String)) :
    foldN t.schemaName t.name (tableCreate t) x = some (t.columns.map Column.name) := by
  rw [tableCreate, foldN_cons, foldN_inert]
  · simp only [newCreateTable, nameStep, and_self, if_true, List.map_map]
    rfl
  · intro c hc
    rw [flatMap_values] at hc
    obtain ⟨p, hp, h⟩ := List.mem_flatMap.1 hc
    exact inert_conTable (conTable_create h) _ _

theorem foldN_adds {n r : String} (S : Table) (l : List Column)
    (hl : ∀ c ∈ l, c.schemaName = n ∧ c.tableName = r) (x : List String)
    {f : Column → List Change} (hf : ∀ ti, f ti = match Table.findCol S.columns ti.name with
      | some si => columnUpdate si ti
      | none => columnCreate ti) :
    foldN n r (l.flatMap f) (some x)
    = some (x ++ (l.filter fun c => (columnNamed S.columns c.name).isNone).map Column.name) := by
  induction l generalizing x with
  | nil => simp [foldN]
  | cons ti l ih =>
    rw [List.flatMap_cons, foldN_append, hf, findCol_eq_columnNamed]
    have hh := hl ti List.mem_cons_self
    have hl' : ∀ c ∈ l, c.schemaName = n ∧ c.tableName = r :=
      fun c hc => hl c (List.mem_cons_of_mem _ hc)
    cases e : columnNamed S.columns ti.name with
    | none =>
      have : foldN n r (columnCreate ti) (some x) = some (x ++ [ti.name]) := by
        simp [columnCreate, foldN, newAddColumn, nameStep, hh.1, hh.2]
      simp only [this]
      rw [ih hl']
      simp [e]
    | some si =>
      have : foldN n r (columnUpdate si ti) (some x) = some x := by
        apply foldN_inert
        intro c hc
        simp only [columnUpdate, List.mem_append] at hc
        rcases hc with (h | h) | h <;> (split at h) <;>
          simp only [List.mem_singleton, List.not_mem_nil] at h <;> subst h <;> intro x <;> rfl
      simp only [this]
      rw [ih hl']
      simp [e]

theorem foldN_drops {n r : String} (T : Table) (l : List Column)
    (hl : ∀ c ∈ l, c.schemaName = n ∧ c.tableName = r) (x : List String) :
    foldN n r (l.flatMap fun si => if T.hasColumn si.name then [] else columnDrop si) (some x)
    = some ((((l.map Column.name).filter fun c => (columnNamed T.columns c).isNone)).foldl
        List.erase x) := by
  induction l generalizing x with
  | nil => simp [foldN]
  | cons si l ih =>
    rw [List.flatMap_cons, foldN_append]
    have hh := hl si List.mem_cons_self
    have hl' : ∀ c ∈ l, c.schemaName = n ∧ c.tableName = r :=
      fun c hc => hl c (List.mem_cons_of_mem _ hc)
    simp only [Table.hasColumn, findCol_eq_columnNamed]
    cases e : columnNamed T.columns si.name with
    | none =>
      have : foldN n r (columnDrop si) (some x) = some (x.erase si.name) := by
        simp [columnDrop, foldN, newDropColumn, nameStep, hh.1, hh.2]
      simp only [Option.isSome_none, Bool.false_eq_true, if_false, this]
      have := ih hl' (x.erase si.name)
      simp only [Table.hasColumn, findCol_eq_columnNamed] at this
      rw [this]
      simp [e]
    | some ti =>
      have := ih hl' x
      simp only [Table.hasColumn, findCol_eq_columnNamed] at this
      simp only [Option.isSome_some, if_true, foldN, List.foldl_nil]
      rw [← foldN, this]
      simp [e]

theorem foldl_erase (x ks : List String) (hx : x.Nodup) :
    ks.foldl List.erase x = x.filter fun c => !ks.contains c := by
  induction ks generalizing x with
  | nil => exact (List.filter_eq_self.2 (by simp)).symm
  | cons k ks ih =>
    rw [List.foldl_cons, ih _ (hx.erase k), hx.erase_eq_filter, List.filter_filter]
    apply List.filter_congr
    intro c _
    simp only [List.contains_cons, Bool.not_or]
    rw [Bool.and_comm]
    rfl

/-- The names left by a table update: surviving ones in source order, then new ones in target
order. -/
def mergedNames (S T : List Column) : List String :=
  ((S.map Column.name).filter fun c => (columnNamed T c).isSome)
    ++ ((T.map Column.name).filter fun c => (columnNamed S c).isNone)

theorem filter_map_name (l : List Column) (p : String → Bool) :
    (l.filter fun c => p c.name).map Column.name = (l.map Column.name).filter p := by
  induction l with
  | nil => rfl
  | cons a l ih => simp only [List.filter_cons, List.map_cons]; split <;> simp [ih]

theorem foldN_tableUpdate {S T : Table} (hS : S.WF) (hT : T.WF)
    (h1 : S.schemaName = T.schemaName) (h2 : S.name = T.name) :
    foldN T.schemaName T.name (tableUpdate S T) (some (S.columns.map Column.name))
      = some (mergedNames S.columns T.columns) := by
  rw [tableUpdate_eq, foldN_append, colsPart, foldN_append,
    foldN_adds S T.columns hT.cols_home _ (by exact fun _ => rfl),
    foldN_drops T S.columns (by rw [← h1, ← h2]; exact hS.cols_home),
    foldN_inert (fun c hc => inert_conTable (conTable_consPart hS hT h1 h2 hc) _ _)]
  have hnew : ((T.columns.filter fun c => (columnNamed S.columns c.name).isNone).map Column.name)
      = (T.columns.map Column.name).filter fun c => (columnNamed S.columns c).isNone :=
    filter_map_name T.columns fun c => (columnNamed S.columns c).isNone
  rw [hnew, foldl_erase]
  · rw [List.filter_append, mergedNames]
    congr 2
    · apply List.filter_congr
      intro c hc
      cases e : columnNamed T.columns c with
      | none => simp [e]; simpa using hc
      | some v => simp [e]
    · rw [List.filter_eq_self]
      intro c hc
      have hcT := (List.mem_filter.1 hc).1
      have : (columnNamed T.columns c).isSome := by
        rw [Option.isSome_iff_ne_none]
        intro e
        rw [columnNamed_eq_none] at e
        exact e hcT
      obtain ⟨v, e⟩ := Option.isSome_iff_exists.1 this
      simp [e]
  · rw [List.nodup_append]
    refine ⟨hS.cols_nodup, hT.cols_nodup.sublist List.filter_sublist, ?_⟩
    rintro a ha b hb rfl
    have hb' := (List.mem_filter.1 hb).2
    rw [Option.isNone_iff_eq_none, columnNamed_eq_none] at hb'
    exact hb' ha

theorem diff_no_rename {s t : Database} (hs : s.WF) (ht : t.WF) :
    ∀ c ∈ compareDiff s t, ∀ a b x y, c ≠ .renameColumn a b x y := by
  rintro c hc a b x y rfl
  exact diff_needed hs ht hc

theorem foldN_schemaCreate {t : Schema} (ht : t.WF) {r : String} {tb : Table}
    (h : t.relations.get? r = some (.table tb)) (x : Option (List String)) :
    foldN t.name r (schemaCreate t) x = some (tb.columns.map Column.name) := by
  have hh := ht.rels_home _ (AMap.mem_of_get? h)
  simp only [Relation.name, Relation.schemaName] at hh
  rw [schemaCreate, foldN_cons, foldN_append, flatMap_values, flatMap_values,
    foldN_key ht.rels_nodup (k := r)]
  · simp only [h]
    rw [foldN_inert]
    · have := foldN_tableCreate (t := tb) (nameStep t.name r x (newCreateSchema t))
      rw [hh.1, hh.2.1] at this
      exact this
    · intro c hc
      obtain ⟨p, hp, hc⟩ := List.mem_flatMap.1 hc
      simp only [functionCreate, List.mem_singleton] at hc
      subst hc; intro x; rfl
  · intro p hp hne c hc
    have hp' := ht.rels_home p hp
    exact inert_relationCreate hp'.2.2 (by rw [hp'.1]; exact Ne.symm hne) hc

theorem relSchema_schemaCreate {t : Schema} (ht : t.WF) {n r : String} (hn : n ≠ t.name)
    {c : Change} (h : c ∈ schemaCreate t) : Inert n r c := by
  simp only [schemaCreate, flatMap_values, List.mem_cons, List.mem_append, List.mem_flatMap] at h
  rcases h with rfl | ⟨q, hq, h⟩ | ⟨q, hq, h⟩
  · intro x; rfl
  · have hr := ht.rels_home q hq
    exact inert_relSchema (relSchema_create hr.2.2 h) (by rw [hr.2.1]; exact hn) r
  · simp only [functionCreate, List.mem_singleton] at h
    subst h; intro x; rfl

theorem inert_schemaDrop {t : Schema} (ht : t.WF) {n r : String} (hn : n ≠ t.name)
    {c : Change} (h : c ∈ schemaDrop t) : Inert n r c := by
  simp only [schemaDrop, flatMap_values, List.mem_singleton, List.mem_append, List.mem_flatMap] at h
  rcases h with (⟨q, hq, h⟩ | ⟨q, hq, h⟩) | rfl
  · have hr := ht.rels_home q hq
    exact inert_relSchema (relSchema_drop h) (by rw [hr.2.1]; exact hn) r
  · simp only [functionDrop, List.mem_singleton] at h
    subst h; intro x; rfl
  · intro x; exact if_neg hn

theorem inert_funPart {s t : Schema} {n r : String} {c : Change}
    (h : c ∈ (t.functions.values.flatMap fun ti =>
        if s.hasFunction ti.name then [] else functionCreate ti) ++
      (s.functions.values.flatMap fun si =>
        match t.functions.get? si.name with
        | some ti => functionUpdate si ti
        | none => functionDrop si)) : Inert n r c := by
  simp only [List.mem_append, List.mem_flatMap] at h
  rcases h with ⟨q, hq, h⟩ | ⟨q, hq, h⟩
  · split at h
    · cases h
    · simp only [functionCreate, List.mem_singleton] at h
      subst h; intro x; rfl
  · split at h
    · simp only [functionUpdate] at h
      split at h
      · simp only [List.mem_cons, List.not_mem_nil, or_false] at h
        rcases h with rfl | rfl <;> intro x <;> rfl
      · cases h
    · simp only [functionDrop, List.mem_singleton] at h
      subst h; intro x; rfl

theorem schemaUpdate_split (s t : Schema) : schemaUpdate s t =
    (t.relations.flatMap fun p => if s.hasRelation p.2.name then [] else relationCreate p.2) ++
    (s.relations.flatMap fun p => match t.relations.get? p.2.name with
      | some ti => relationUpdate p.2 ti
      | none => relationDrop p.2) ++
    ((t.functions.values.flatMap fun ti =>
        if s.hasFunction ti.name then [] else functionCreate ti) ++
      (s.functions.values.flatMap fun si =>
        match t.functions.get? si.name with
        | some ti => functionUpdate si ti
        | none => functionDrop si)) := by
  simp only [schemaUpdate, flatMap_values, List.append_assoc]
  rfl

theorem inert_schemaUpdate {s t : Schema} (hs : s.WF) (ht : t.WF) (hst : s.name = t.name)
    {n r : String} (hn : n ≠ t.name) {c : Change} (h : c ∈ schemaUpdate s t) : Inert n r c := by
  rw [schemaUpdate_split] at h
  rcases List.mem_append.1 h with h | h
  · simp only [List.mem_append, List.mem_flatMap] at h
    rcases h with ⟨q, hq, h⟩ | ⟨q, hq, h⟩
    · have hr := ht.rels_home q hq
      split at h
      · cases h
      · exact inert_relSchema (relSchema_create hr.2.2 h) (by rw [hr.2.1]; exact hn) r
    · have hr := hs.rels_home q hq
      split at h
      · next ti e =>
        have hr' := ht.rels_home _ (AMap.mem_of_get? e)
        exact inert_relSchema (relSchema_update hr.2.2 hr'.2.2
          (hr.2.1.trans (hst.trans hr'.2.1.symm)) hr'.1.symm h)
          (by simp only [] at hr'; rw [hr'.2.1]; exact hn) r
      · exact inert_relSchema (relSchema_drop h) (by rw [hr.2.1, hst]; exact hn) r
  · exact inert_funPart h

/-- Column names of a relation that may be a table. -/
def relNames (o : Option Relation) : Option (List String) :=
  (o.bind relTable).map fun tb => tb.columns.map Column.name

def relCols (o : Option Relation) : List Column :=
  match o with
  | some (.table tb) => tb.columns
  | _ => []

theorem mergedNames_nil (T : List Column) : mergedNames [] T = T.map Column.name := by
  simp only [mergedNames, List.map_nil, List.filter_nil, List.nil_append, columnNamed_nil,
    Option.isNone_none]
  exact List.filter_eq_self.2 (by simp)

theorem foldN_schemaUpdate {s t : Schema} (hs : s.WF) (ht : t.WF) (hst : s.name = t.name)
    {r : String} {tb : Table} (h : t.relations.get? r = some (.table tb)) :
    foldN t.name r (schemaUpdate s t) (relNames (s.relations.get? r))
      = some (mergedNames (relCols (s.relations.get? r)) tb.columns) := by
  have hh := ht.rels_home _ (AMap.mem_of_get? h)
  simp only [Relation.name, Relation.schemaName] at hh
  rw [schemaUpdate_split, foldN_append,
    foldN_inert (cs := _ ++ List.flatMap _ s.functions.values) (fun c hc => inert_funPart hc),
    foldN_append, foldN_key ht.rels_nodup (k := r), foldN_key hs.rels_nodup (k := r)]
  · have hnm : (Relation.table tb).name = r := hh.1
    simp only [h, hnm]
    cases e : s.relations.get? r with
    | none =>
      rw [if_neg (by rw [show s.hasRelation r = false from AMap.has_of_none e]; simp)]
      have := foldN_tableCreate (t := tb) (relNames none)
      rw [hh.1, hh.2.1] at this
      simp only [relCols, mergedNames_nil]
      exact this
    | some sr =>
      have hr := hs.rels_home _ (AMap.mem_of_get? e)
      simp only [] at hr
      rw [if_pos (show s.hasRelation r = true from AMap.has_of_some e)]
      simp only [foldN, List.foldl_nil, hr.1, h]
      rw [← foldN]
      have hcreate : ∀ x, foldN t.name r (relationDrop sr ++ tableCreate tb) x
          = some (tb.columns.map Column.name) := by
        intro x
        rw [foldN_append]
        have := foldN_tableCreate (t := tb) (foldN t.name r (relationDrop sr) x)
        rw [hh.1, hh.2.1] at this
        exact this
      cases sr with
      | table S =>
        simp only [relationUpdate, relNames, relTable, relCols, Option.bind_some, Option.map_some]
        have := foldN_tableUpdate (S := S) (T := tb) hr.2.2 hh.2.2
          (hr.2.1.trans (hst.trans hh.2.1.symm)) (hr.1.trans hh.1.symm)
        rw [hh.1, hh.2.1] at this
        exact this
      | view S | index S | sequence S =>
        simp only [relCols, mergedNames_nil]
        exact hcreate _
  · intro p hp hne c hc
    have hr := hs.rels_home p hp
    split at hc
    · next ti e =>
      have hr' := ht.rels_home _ (AMap.mem_of_get? e)
      simp only [] at hr'
      exact inert_relationUpdate hr.2.2 hr'.2.2 (hr.2.1.trans (hst.trans hr'.2.1.symm))
        hr'.1.symm (by rw [hr'.1, hr.1]; exact Ne.symm hne) hc
    · exact inert_relationDrop (by rw [hr.1]; exact Ne.symm hne) hc
  · intro p hp hne c hc
    have hr := ht.rels_home p hp
    split at hc
    · cases hc
    · exact inert_relationCreate hr.2.2 (by rw [hr.1]; exact Ne.symm hne) hc

/-- Columns of a table in a snapshot, `[]` if there is none. -/
def colsOf (o : Option Table) : List Column := match o with
  | some tb => tb.columns
  | none => []

theorem foldN_diff {s t : Database} (hs : s.WF) (ht : t.WF) {n r : String} {tb : Table}
    (h : t.tableNamed n r = some tb) :
    foldN n r (compareDiff s t) (namesAt s n r)
      = some (mergedNames (colsOf (s.tableNamed n r)) tb.columns) := by
  rw [tableNamed_eq] at h
  cases et : t.schemas.get? n with
  | none => rw [et] at h; cases h
  | some tsc =>
    rw [et] at h
    simp only [Option.bind_some] at h
    have htsc := ht.home _ (AMap.mem_of_get? et)
    simp only [] at htsc
    have h' : tsc.relations.get? r = some (.table tb) := by
      cases e : tsc.relations.get? r with
      | none => rw [e] at h; cases h
      | some x =>
        rw [e] at h
        cases x with
        | table y => simp only [Option.bind_some, relTable, Option.some.injEq] at h; rw [h]
        | view y | index y | sequence y => cases h
    rw [compareDiff, flatMap_values, flatMap_values, foldN_append, foldN_key ht.nodup (k := n),
      foldN_key hs.nodup (k := n)]
    · simp only [et, htsc.1]
      cases es : s.schemas.get? n with
      | none =>
        rw [if_neg (by rw [show s.hasSchema n = false from AMap.has_of_none es]; simp)]
        have hx : s.tableNamed n r = none := by simp [tableNamed_eq, es]
        have := foldN_schemaCreate htsc.2 h' (namesAt s n r)
        rw [htsc.1] at this
        rw [hx]
        simp only [colsOf, mergedNames_nil]
        exact this
      | some ssc =>
        have hssc := hs.home _ (AMap.mem_of_get? es)
        simp only [] at hssc
        rw [if_pos (show s.hasSchema n = true from AMap.has_of_some es)]
        simp only [foldN, List.foldl_nil, hssc.1, et]
        rw [← foldN]
        have hx : s.tableNamed n r = (ssc.relations.get? r).bind relTable := by
          simp [tableNamed_eq, es]
        have := foldN_schemaUpdate hssc.2 htsc.2 (hssc.1.trans htsc.1.symm) h'
        rw [htsc.1] at this
        rw [namesAt, hx, ← relNames, this]
        cases ssc.relations.get? r with
        | none => rfl
        | some x => cases x <;> rfl
    · intro p hp hne c hc
      have hr := hs.home p hp
      split at hc
      · next ti e =>
        have hr' := ht.home _ (AMap.mem_of_get? e)
        simp only [] at hr'
        exact inert_schemaUpdate hr.2 hr'.2 hr'.1.symm
          (by rw [hr'.1, hr.1]; exact Ne.symm hne) hc
      · exact inert_schemaDrop hr.2 (by rw [hr.1]; exact Ne.symm hne) hc
    · intro p hp hne c hc
      have hr := ht.home p hp
      split at hc
      · cases hc
      · exact relSchema_schemaCreate hr.2 (by rw [hr.1]; exact Ne.symm hne) hc

theorem tableNamed_content {d : Database} {n r : String} :
    d.content.tableAt n r = (d.tableNamed n r).map Table.content := by
  simp only [Content.tableAt, Database.content, tableNamed_eq]
  cases d.schemas.get? n with
  | none => rfl
  | some sc =>
    simp only [Option.map_some, Option.bind_some, Schema.content]
    cases sc.relations.get? r with
    | none => rfl
    | some x => cases x <;> rfl

theorem tableNamed_wf {d : Database} (hd : d.WF) {n r : String} {tb : Table}
    (h : d.tableNamed n r = some tb) : tb.WF := by
  rw [tableNamed_eq] at h
  cases e : d.schemas.get? n with
  | none => rw [e] at h; cases h
  | some sc =>
    rw [e] at h; simp only [Option.bind_some] at h
    cases e2 : sc.relations.get? r with
    | none => rw [e2] at h; cases h
    | some x =>
      rw [e2] at h
      have := ((hd.home _ (AMap.mem_of_get? e)).2.rels_home _ (AMap.mem_of_get? e2)).2.2
      cases x with
      | table y => simp only [Option.bind_some, relTable, Option.some.injEq] at h; subst h; exact this
      | view y | index y | sequence y => cases h

theorem filterMap_id_of {α : Type} {l : List α} {f : α → Option α} (h : ∀ c ∈ l, f c = some c) :
    l.filterMap f = l := by
  induction l with
  | nil => rfl
  | cons a l ih =>
    rw [List.filterMap_cons, h a List.mem_cons_self]
    simp [ih fun c hc => h c (List.mem_cons_of_mem _ hc)]

theorem filterMap_names {cols T : List Column} (hc : (cols.map Column.name).Nodup)
    (h : columnNamed cols = columnNamed T) :
    cols = (cols.map Column.name).filterMap (columnNamed T) := by
  rw [← h, List.filterMap_map]
  refine (filterMap_id_of ?_).symm
  intro c hc'
  exact columnNamed_of_mem hc hc'

theorem reached_table {S T : Content} {n r : String} {tb : TableContent}
    (h : T.tableAt n r = some tb) : (reached S T).tableAt n r = some tb := by
  simp only [Content.tableAt] at h ⊢
  cases e : T n with
  | none => rw [e] at h; cases h
  | some tsc =>
    rw [e] at h
    simp only [Option.bind_some] at h
    cases e2 : tsc.relations r with
    | none => rw [e2] at h; cases h
    | some x =>
      rw [e2] at h
      cases x with
      | table y =>
        simp only [reached, e, Option.map_some, Option.bind_some]
        cases S n with
        | none => simpa [reachedSchema, reachedRel, e2] using h
        | some ssc =>
          simp only [reachedSchema, Option.bind_some, e2, Option.map_some]
          cases ssc.relations r with
          | none => exact h
          | some z => cases z <;> exact h
      | view y | index y | sequence y => cases h

/-- The columns of every table of the target, in order, after the diff has been applied. -/
theorem diff_columns {s t d : Database} (hs : s.WF) (ht : t.WF)
    (h : applyAll (compareDiff s t) s = .ok d) {n r : String} {tb : Table}
    (htb : t.tableNamed n r = some tb) :
    ∃ tb', d.tableNamed n r = some tb' ∧ tb'.columns =
      (colsOf (s.tableNamed n r)).filterMap (fun c => columnNamed tb.columns c.name)
      ++ tb.columns.filter (fun c => (columnNamed (colsOf (s.tableNamed n r)) c.name).isNone) := by
  have hr : IndexReady s t := (diff_apply_iff hs ht).1 ⟨d, h⟩
  obtain ⟨d', hd', hc⟩ := diff_apply hs ht hr
  rw [h] at hd'; cases hd'
  have hn := applyAll_names h (diff_no_rename hs ht) n r
  rw [foldN_diff hs ht htb] at hn
  have hT : t.content.tableAt n r = some tb.content := by rw [tableNamed_content, htb]; rfl
  have hD := reached_table (S := s.content) hT
  rw [← hc, tableNamed_content] at hD
  cases e : d.tableNamed n r with
  | none => rw [e] at hD; cases hD
  | some tb' =>
    rw [e] at hD
    simp only [Option.map_some, Option.some.injEq] at hD
    refine ⟨tb', rfl, ?_⟩
    have hcols : columnNamed tb'.columns = columnNamed tb.columns :=
      congrArg TableContent.columns hD
    have hw := tableNamed_wf (applyAll_wf hs h) e
    have htw := tableNamed_wf ht htb
    rw [namesAt, e] at hn
    simp only [Option.map_some, Option.some.injEq] at hn
    rw [filterMap_names hw.cols_nodup hcols, hn, mergedNames, List.filterMap_append]
    congr 1
    · generalize colsOf (s.tableNamed n r) = S
      induction S with
      | nil => rfl
      | cons a S ih =>
        simp only [List.map_cons, List.filter_cons, List.filterMap_cons]
        cases e : columnNamed tb.columns a.name with
        | none => simp [e, ih]
        | some v => simp [e, ih, List.filterMap_cons]
    · rw [← filter_map_name tb.columns fun c =>
        (columnNamed (colsOf (s.tableNamed n r)) c).isNone, List.filterMap_map]
      refine filterMap_id_of ?_
      intro c hc'
      exact columnNamed_of_mem htw.cols_nodup (List.mem_filter.1 hc').1

end Podo
