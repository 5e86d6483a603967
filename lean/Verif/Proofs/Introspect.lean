import Verif.Spec.Introspect
import Verif.Spec.Content
/-
Proofs for C53.  The database after any number of rows is `build` of the objects added so far.
-/
set_option linter.unusedSimpArgs false
namespace Podo
namespace Introspect
open Def (Fail)

/-- The objects added so far; the tables among `rels` are empty. -/
structure Parts where
  schemas : List String
  rels : List Relation
  funs : List Function
  cols : List Column
  cons : List Constraint

def colsOf (cols : List Column) (s t : String) : List Column :=
  cols.filter fun c => c.schemaName = s ∧ c.tableName = t

def consOf (cons : List Constraint) (s t : String) : AMap Constraint :=
  (cons.filter fun c => c.schemaName = s ∧ c.tableName = t).map fun c => (c.name, c)

def Parts.fill (P : Parts) : Relation → Relation
  | .table t => .table ⟨t.schemaName, t.name, colsOf P.cols t.schemaName t.name,
      consOf P.cons t.schemaName t.name⟩
  | r => r

def Parts.schema (P : Parts) (s : String) : Schema :=
  ⟨s, (P.rels.filter fun r => r.schemaName = s).map fun r => (r.name, P.fill r),
   (P.funs.filter fun f => f.schemaName = s).map fun f => (f.name, f)⟩

def Parts.build (P : Parts) : Database := ⟨P.schemas.map fun s => (s, P.schema s)⟩

theorem fill_name (P : Parts) (r : Relation) : (P.fill r).name = r.name := by
  cases r <;> rfl

theorem fill_schemaName (P : Parts) (r : Relation) : (P.fill r).schemaName = r.schemaName := by
  cases r <;> rfl

theorem get?_map_self {β : Type} (xs : List String) (F : String → β) (k : String) :
    AMap.get? (xs.map fun s => (s, F s)) k = if k ∈ xs then some (F k) else none := by
  induction xs with
  | nil => simp
  | cons x xs ih =>
    rw [List.map_cons, AMap.get?_cons, ih]
    by_cases h : x = k
    · subst h; simp
    · simp [h, Ne.symm h]

theorem set_map {α β : Type} (xs : List α) (name : α → String) (F G : α → β) (k : String) (v : β)
    (h1 : ∀ x ∈ xs, name x = k → G x = v) (h2 : ∀ x ∈ xs, name x ≠ k → G x = F x) :
    AMap.set (xs.map fun x => (name x, F x)) k v = xs.map fun x => (name x, G x) := by
  rw [AMap.set, List.map_map]
  refine List.map_congr_left fun x hx => ?_
  simp only [Function.comp]
  by_cases h : name x = k
  · rw [if_pos h, h1 x hx h, h]
  · rw [if_neg h, h2 x hx h]

theorem keys_map {α β : Type} (xs : List α) (name : α → String) (F : α → β) :
    AMap.keys (xs.map fun x => (name x, F x)) = xs.map name := by
  simp [AMap.keys, Function.comp_def]

theorem getSchema_build (P : Parts) (s : String) :
    P.build.getSchema s = if s ∈ P.schemas then .ok (P.schema s) else .error (.schemaNotFound s) := by
  unfold Database.getSchema Parts.build
  dsimp only
  rw [get?_map_self]
  by_cases h : s ∈ P.schemas
  · rw [if_pos h, if_pos h]
  · rw [if_neg h, if_neg h]

/-- A step inside one schema, from one `build` to another. -/
theorem withSchema_build {P Q : Parts} {s : String} {f : Schema → SResult Schema}
    (hs : Q.schemas = P.schemas) (ho : ∀ x, x ≠ s → Q.schema x = P.schema x) {ok : Prop}
    (hf : ∀ sc, f (P.schema s) = .ok sc ↔ ok ∧ sc = Q.schema s) (d : Database) :
    P.build.withSchema s f = .ok d ↔ (s ∈ P.schemas ∧ ok) ∧ d = Q.build := by
  unfold Database.withSchema
  rw [getSchema_build]
  by_cases h : s ∈ P.schemas
  · rw [if_pos h]
    dsimp only
    cases e : f (P.schema s) with
    | error x =>
      simp only [reduceCtorEq, false_iff]
      rintro ⟨⟨_, hok⟩, _⟩
      have := (hf (Q.schema s)).2 ⟨hok, rfl⟩
      rw [e] at this; cases this
    | ok sc =>
      obtain ⟨hok, rfl⟩ := (hf sc).1 e
      have : P.build.setSchema s (Q.schema s) = Q.build := by
        unfold Database.setSchema Parts.build
        rw [hs]
        congr 1
        exact set_map P.schemas id P.schema Q.schema s _ (fun x _ hx => by cases hx; rfl)
          (fun x _ hx => ho x hx)
      simp only [Except.ok.injEq]
      rw [this]
      exact ⟨fun h' => ⟨⟨h, hok⟩, h'.symm⟩, fun h' => h'.2.symm⟩
  · rw [if_neg h]
    simp [h]

theorem addSchema_build (P : Parts) (s : String) (hr : ∀ r ∈ P.rels, r.schemaName ≠ s)
    (hf : ∀ f ∈ P.funs, f.schemaName ≠ s) (d : Database) :
    P.build.addSchema (Schema.new s) = .ok d ↔
      s ∉ P.schemas ∧ d = { P with schemas := P.schemas ++ [s] }.build := by
  unfold Database.addSchema
  have hk : P.build.schemas.keys = P.schemas := by
    unfold Parts.build
    rw [show (fun s => (s, P.schema s)) = fun s => (id s, P.schema s) from rfl, keys_map]
    simp
  have hh : P.build.schemas.has s = true ↔ s ∈ P.schemas := by rw [AMap.has_iff, hk]
  show (if P.build.schemas.has s = true then _ else _) = _ ↔ _
  by_cases h : s ∈ P.schemas
  · rw [if_pos (hh.2 h)]; simp [h]
  · rw [if_neg (fun h' => h (hh.1 h'))]
    have : (⟨P.build.schemas.insertNew (Schema.new s).name (Schema.new s)⟩ : Database) =
        { P with schemas := P.schemas ++ [s] }.build := by
      unfold Parts.build AMap.insertNew
      simp only [List.map_append, List.map_cons, List.map_nil]
      congr 3
      unfold Parts.schema Schema.new
      dsimp only
      rw [List.filter_eq_nil_iff.2 (fun r hr' => by simpa using hr r hr'),
        List.filter_eq_nil_iff.2 (fun r hr' => by simpa using hf r hr')]
      rfl
    rw [this]
    simp only [Except.ok.injEq, h, not_false_eq_true, true_and]
    exact eq_comm

theorem filter_append_self {α : Type} (xs : List α) (p : α → Bool) (x : α) (h : p x = true) :
    (xs ++ [x]).filter p = xs.filter p ++ [x] := by simp [h]

theorem filter_append_other {α : Type} (xs : List α) (p : α → Bool) (x : α) (h : p x = false) :
    (xs ++ [x]).filter p = xs.filter p := by simp [h]

theorem addRelation_build (P : Parts) (r : Relation) (hr : P.fill r = r) (d : Database) :
    P.build.withSchema r.schemaName (fun sc => sc.addRelation r) = .ok d ↔
      (r.schemaName ∈ P.schemas ∧ (r.schemaName, r.name) ∉ P.rels.map fun r => (r.schemaName, r.name))
      ∧ d = { P with rels := P.rels ++ [r] }.build := by
  refine withSchema_build (P := P) (Q := { P with rels := P.rels ++ [r] }) rfl ?_ ?_ d
  · intro x hx
    unfold Parts.schema
    dsimp only
    rw [filter_append_other _ _ _ (by simpa using Ne.symm hx)]
    rfl
  · intro sc
    unfold Schema.addRelation
    have hk : (P.schema r.schemaName).relations.has r.name = true ↔
        (r.schemaName, r.name) ∈ P.rels.map fun r => (r.schemaName, r.name) := by
      rw [AMap.has_iff]
      unfold Parts.schema
      dsimp only
      rw [keys_map]
      simp only [List.mem_map, List.mem_filter, decide_eq_true_eq, Prod.mk.injEq]
      constructor
      · rintro ⟨a, ⟨h1, h2⟩, h3⟩; exact ⟨a, h1, h2, h3⟩
      · rintro ⟨a, h1, h2, h3⟩; exact ⟨a, ⟨h1, h2⟩, h3⟩
    have hq : { P.schema r.schemaName with
        relations := (P.schema r.schemaName).relations.insertNew r.name r } =
        Parts.schema { P with rels := P.rels ++ [r] } r.schemaName := by
      unfold Parts.schema AMap.insertNew
      dsimp only
      rw [filter_append_self _ _ _ (by simp)]
      simp only [List.map_append, List.map_cons, List.map_nil]
      have : Parts.fill { P with rels := P.rels ++ [r] } = P.fill := by
        funext x; cases x <;> rfl
      rw [this, hr]
    by_cases h : (P.schema r.schemaName).relations.has r.name = true
    · rw [if_pos h]
      have := hk.1 h
      simp only [reduceCtorEq, this, not_true_eq_false, false_and]
    · rw [if_neg h, hq]
      have : (r.schemaName, r.name) ∉ P.rels.map fun r => (r.schemaName, r.name) :=
        fun h' => h (hk.2 h')
      simp only [Except.ok.injEq, this, not_false_eq_true, true_and]
      exact eq_comm

theorem addFunction_build (P : Parts) (f : Function) (d : Database) :
    P.build.withSchema f.schemaName (fun sc => sc.addFunction f) = .ok d ↔
      (f.schemaName ∈ P.schemas ∧ (f.schemaName, f.name) ∉ P.funs.map fun r => (r.schemaName, r.name))
      ∧ d = { P with funs := P.funs ++ [f] }.build := by
  refine withSchema_build (P := P) (Q := { P with funs := P.funs ++ [f] }) rfl ?_ ?_ d
  · intro x hx
    unfold Parts.schema
    dsimp only
    rw [filter_append_other _ _ _ (by simpa using Ne.symm hx)]
    rfl
  · intro sc
    unfold Schema.addFunction
    have hk : (P.schema f.schemaName).functions.has f.name = true ↔
        (f.schemaName, f.name) ∈ P.funs.map fun r => (r.schemaName, r.name) := by
      rw [AMap.has_iff]
      unfold Parts.schema
      dsimp only
      rw [keys_map]
      simp only [List.mem_map, List.mem_filter, decide_eq_true_eq, Prod.mk.injEq]
      constructor
      · rintro ⟨a, ⟨h1, h2⟩, h3⟩; exact ⟨a, h1, h2, h3⟩
      · rintro ⟨a, h1, h2, h3⟩; exact ⟨a, ⟨h1, h2⟩, h3⟩
    have hq : { P.schema f.schemaName with
        functions := (P.schema f.schemaName).functions.insertNew f.name f } =
        Parts.schema { P with funs := P.funs ++ [f] } f.schemaName := by
      unfold Parts.schema AMap.insertNew
      dsimp only
      rw [filter_append_self _ _ _ (by simp)]
      simp only [List.map_append, List.map_cons, List.map_nil]
      rfl
    by_cases h : (P.schema f.schemaName).functions.has f.name = true
    · rw [if_pos h]
      have := hk.1 h
      simp only [reduceCtorEq, this, not_true_eq_false, false_and]
    · rw [if_neg h, hq]
      have : (f.schemaName, f.name) ∉ P.funs.map fun r => (r.schemaName, r.name) :=
        fun h' => h (hk.2 h')
      simp only [Except.ok.injEq, this, not_false_eq_true, true_and]
      exact eq_comm

/-- The relations of a `Parts` are in distinct places, and its tables are empty and new. -/
structure Parts.Good (P : Parts) : Prop where
  places : (P.rels.map fun r => (r.schemaName, r.name)).Nodup
  empty : ∀ t, .table t ∈ P.rels → t = Table.new t.schemaName t.name

theorem eq_of_place {rels : List Relation} (h : (rels.map fun r => (r.schemaName, r.name)).Nodup)
    {a b : Relation} (ha : a ∈ rels) (hb : b ∈ rels) (hs : a.schemaName = b.schemaName)
    (hn : a.name = b.name) : a = b := by
  induction rels with
  | nil => simp at ha
  | cons x xs ih =>
    rw [List.map_cons, List.nodup_cons] at h
    rcases List.mem_cons.1 ha with ha' | ha' <;> rcases List.mem_cons.1 hb with hb' | hb'
    · rw [ha', hb']
    · rw [ha'] at hs hn
      exact absurd (List.mem_map.2 ⟨b, hb', by rw [hs, hn]⟩) h.1
    · rw [hb'] at hs hn
      exact absurd (List.mem_map.2 ⟨a, ha', by rw [hs, hn]⟩) h.1
    · exact ih h.2 ha' hb'

theorem get?_relations (P : Parts) (hp : P.Good) (s n : String) (x : Relation) :
    (P.schema s).relations.get? n = some x ↔
      ∃ r ∈ P.rels, r.schemaName = s ∧ r.name = n ∧ x = P.fill r := by
  have hn : (P.schema s).relations.NodupKeys := by
    unfold AMap.NodupKeys Parts.schema
    dsimp only
    rw [keys_map]
    have h := hp.places
    generalize P.rels = rels at h
    induction rels with
    | nil => simp
    | cons r rels ih =>
      rw [List.map_cons, List.nodup_cons] at h
      rw [List.filter_cons]
      split
      · next e =>
        rw [List.map_cons, List.nodup_cons]
        refine ⟨?_, ih h.2⟩
        intro hm
        obtain ⟨b, hb, eb⟩ := List.mem_map.1 hm
        obtain ⟨h1, h2⟩ := List.mem_filter.1 hb
        simp only [decide_eq_true_eq] at h2 e
        exact h.1 (List.mem_map.2 ⟨b, h1, by rw [h2, e, eb]⟩)
      · exact ih h.2
  rw [AMap.get?_iff_mem hn]
  unfold Parts.schema
  dsimp only
  rw [List.mem_map]
  simp only [List.mem_filter, decide_eq_true_eq, Prod.mk.injEq]
  constructor
  · rintro ⟨r, ⟨h1, h2⟩, h3, h4⟩; exact ⟨r, h1, h2, h3, h4.symm⟩
  · rintro ⟨r, h1, h2, h3, h4⟩; exact ⟨r, ⟨h1, h2⟩, h3, h4.symm⟩

/-- A step inside one table, from one `build` to another. -/
theorem withTable_build {P Q : Parts} (hp : P.Good) {s t : String} {f : Table → SResult Table}
    (hs : Q.schemas = P.schemas) (hr : Q.rels = P.rels) (hfu : Q.funs = P.funs)
    (ho : ∀ tb : Table, ¬ (tb.schemaName = s ∧ tb.name = t) → Q.fill (.table tb) = P.fill (.table tb))
    {ok : Prop} {pt qt : Table} (hpt : P.fill (.table (Table.new s t)) = .table pt)
    (hqt : Q.fill (.table (Table.new s t)) = .table qt)
    (hf : ∀ tb, f pt = .ok tb ↔ ok ∧ tb = qt) (d : Database) :
    P.build.withTable s t f = .ok d ↔
      (s ∈ P.schemas ∧ .table (Table.new s t) ∈ P.rels ∧ ok) ∧ d = Q.build := by
  have hfill : ∀ r ∈ P.rels, ¬ (r.schemaName = s ∧ r.name = t) → Q.fill r = P.fill r := by
    intro r _ hne
    cases r with
    | table tb => exact ho tb hne
    | _ => rfl
  unfold Database.withTable
  refine withSchema_build hs ?_ ?_ d
  · intro x hx
    unfold Parts.schema
    rw [hr, hfu]
    congr 1
    refine List.map_congr_left fun r hr' => ?_
    obtain ⟨h1, h2⟩ := List.mem_filter.1 hr'
    simp only [decide_eq_true_eq] at h2
    rw [hfill r h1 fun h => hx (by rw [← h2, h.1])]
  · intro sc
    unfold Schema.withTable Schema.getRelation
    cases e : (P.schema s).relations.get? t with
    | none =>
      dsimp only
      simp only [reduceCtorEq, false_iff]
      rintro ⟨⟨h1, _⟩, _⟩
      have := (get?_relations P hp s t _).2 ⟨_, h1, rfl, rfl, rfl⟩
      rw [e] at this; cases this
    | some x =>
      dsimp only
      obtain ⟨r, hm, h1, h2, rfl⟩ := (get?_relations P hp s t x).1 e
      by_cases hT : .table (Table.new s t) ∈ P.rels
      · have hrt : r = .table (Table.new s t) := eq_of_place hp.places hm hT h1 h2
        rw [hrt, hpt]
        simp only [Relation.asTable]
        cases ef : f pt with
        | error y =>
          dsimp only
          simp only [reduceCtorEq, false_iff]
          rintro ⟨⟨_, hok⟩, _⟩
          have := (hf qt).2 ⟨hok, rfl⟩
          rw [ef] at this; cases this
        | ok tb =>
          obtain ⟨hok, rfl⟩ := (hf tb).1 ef
          dsimp only
          have hset : (P.schema s).setRelation t (.table tb) = Q.schema s := by
            unfold Schema.setRelation Parts.schema
            dsimp only
            rw [hr, hfu]
            congr 1
            refine set_map _ Relation.name P.fill Q.fill t _ ?_ ?_
            · intro a ha hn
              obtain ⟨ha1, ha2⟩ := List.mem_filter.1 ha
              simp only [decide_eq_true_eq] at ha2
              have : a = .table (Table.new s t) := eq_of_place hp.places ha1 hT ha2 hn
              rw [this, hqt]
            · intro a ha hn
              exact hfill a (List.mem_filter.1 ha).1 fun h => hn h.2
          rw [hset]
          simp only [Except.ok.injEq, hT, hok, true_and]
          exact eq_comm
      · have hno : ∀ tb, P.fill r ≠ .table tb := by
          intro tb htb
          cases r with
          | table t0 =>
            have e0 := hp.empty t0 hm
            have h1' : t0.schemaName = s := h1
            have h2' : t0.name = t := h2
            rw [h1', h2'] at e0
            exact hT (e0 ▸ hm)
          | _ => cases htb
        have has : ∃ x, (P.fill r).asTable = .error x := by
          generalize P.fill r = y at hno
          cases y with
          | table tb => exact absurd rfl (hno tb)
          | _ => exact ⟨_, rfl⟩
        obtain ⟨x, hx⟩ := has
        rw [hx]
        dsimp only
        simp [hT]

theorem findCol_isSome (cols : List Column) (n : String) :
    (Table.findCol cols n).isSome = true ↔ n ∈ cols.map Column.name := by
  induction cols with
  | nil => simp [Table.findCol]
  | cons c cs ih =>
    unfold Table.findCol
    by_cases h : c.name = n
    · simp [h]
    · rw [if_neg h, ih]
      simp [Ne.symm h]

theorem colsOf_other (cols : List Column) (c : Column) (s t : String)
    (h : ¬ (s = c.schemaName ∧ t = c.tableName)) : colsOf (cols ++ [c]) s t = colsOf cols s t :=
  filter_append_other _ _ _ (by
    simp only [decide_eq_false_iff_not]
    exact fun h' => h ⟨h'.1.symm, h'.2.symm⟩)

theorem colsOf_self (cols : List Column) (c : Column) :
    colsOf (cols ++ [c]) c.schemaName c.tableName = colsOf cols c.schemaName c.tableName ++ [c] :=
  filter_append_self _ _ _ (by simp)

theorem mem_colsOf_name (cols : List Column) (c : Column) :
    c.name ∈ (colsOf cols c.schemaName c.tableName).map Column.name ↔
      ((c.schemaName, c.tableName), c.name) ∈
        cols.map fun c => ((c.schemaName, c.tableName), c.name) := by
  unfold colsOf
  simp only [List.mem_map, List.mem_filter, decide_eq_true_eq, Prod.mk.injEq]
  constructor
  · rintro ⟨a, ⟨h1, h2⟩, h3⟩; exact ⟨a, h1, h2, h3⟩
  · rintro ⟨a, h1, h2, h3⟩; exact ⟨a, ⟨h1, h2⟩, h3⟩

theorem consOf_other (cons : List Constraint) (c : Constraint) (s t : String)
    (h : ¬ (s = c.schemaName ∧ t = c.tableName)) : consOf (cons ++ [c]) s t = consOf cons s t :=
  congrArg _ (filter_append_other _ _ _ (by
    simp only [decide_eq_false_iff_not]
    exact fun h' => h ⟨h'.1.symm, h'.2.symm⟩))

theorem consOf_self (cons : List Constraint) (c : Constraint) :
    consOf (cons ++ [c]) c.schemaName c.tableName =
      (consOf cons c.schemaName c.tableName).insertNew c.name c := by
  unfold consOf
  rw [filter_append_self _ _ _ (by simp)]
  simp [AMap.insertNew]

theorem mem_consOf_name (cons : List Constraint) (c : Constraint) :
    c.name ∈ (consOf cons c.schemaName c.tableName).keys ↔
      ((c.schemaName, c.tableName), c.name) ∈
        cons.map fun c => ((c.schemaName, c.tableName), c.name) := by
  have : (consOf cons c.schemaName c.tableName).keys = (cons.filter fun x =>
      x.schemaName = c.schemaName ∧ x.tableName = c.tableName).map Constraint.name :=
    keys_map _ Constraint.name id
  rw [this]
  simp only [List.mem_map, List.mem_filter, decide_eq_true_eq, Prod.mk.injEq]
  constructor
  · rintro ⟨a, ⟨h1, h2⟩, h3⟩; exact ⟨a, h1, h2, h3⟩
  · rintro ⟨a, h1, h2, h3⟩; exact ⟨a, ⟨h1, h2⟩, h3⟩

theorem addColumn_build (P : Parts) (hp : P.Good) (c : Column) (d : Database) :
    P.build.withTable c.schemaName c.tableName (fun t => t.addColumn c) = .ok d ↔
      (c.schemaName ∈ P.schemas ∧ .table (Table.new c.schemaName c.tableName) ∈ P.rels ∧
        ((c.schemaName, c.tableName), c.name) ∉ P.cols.map fun c => ((c.schemaName, c.tableName), c.name))
      ∧ d = { P with cols := P.cols ++ [c] }.build := by
  refine withTable_build (P := P) (Q := { P with cols := P.cols ++ [c] }) hp rfl rfl rfl ?_ rfl rfl ?_ d
  · intro tb hne
    unfold Parts.fill
    dsimp only
    rw [colsOf_other _ _ _ _ hne]
  · intro tb
    unfold Table.addColumn Table.hasColumn
    show (if (Table.findCol (colsOf P.cols c.schemaName c.tableName) c.name).isSome = true then _
      else Except.ok (⟨c.schemaName, c.tableName, colsOf P.cols c.schemaName c.tableName ++ [c],
        consOf P.cons c.schemaName c.tableName⟩ : Table)) = _ ↔
      _ ∧ tb = ⟨c.schemaName, c.tableName, colsOf (P.cols ++ [c]) c.schemaName c.tableName,
        consOf P.cons c.schemaName c.tableName⟩
    rw [colsOf_self, ← mem_colsOf_name, ← findCol_isSome]
    by_cases h : (Table.findCol (colsOf P.cols c.schemaName c.tableName) c.name).isSome = true
    · rw [if_pos h]
      simp only [reduceCtorEq, h, not_true_eq_false, false_and]
    · rw [if_neg h, and_iff_right h, Except.ok.injEq]
      exact eq_comm

theorem addConstraint_build (P : Parts) (hp : P.Good) (c : Constraint) (d : Database) :
    P.build.withTable c.schemaName c.tableName (fun t => t.addConstraint c) = .ok d ↔
      (c.schemaName ∈ P.schemas ∧ .table (Table.new c.schemaName c.tableName) ∈ P.rels ∧
        ((c.schemaName, c.tableName), c.name) ∉ P.cons.map fun c => ((c.schemaName, c.tableName), c.name))
      ∧ d = { P with cons := P.cons ++ [c] }.build := by
  refine withTable_build (P := P) (Q := { P with cons := P.cons ++ [c] }) hp rfl rfl rfl ?_ rfl rfl ?_ d
  · intro tb hne
    unfold Parts.fill
    dsimp only
    rw [consOf_other _ _ _ _ hne]
  · intro tb
    unfold Table.addConstraint
    show (if (consOf P.cons c.schemaName c.tableName).has c.name = true then _
      else Except.ok (⟨c.schemaName, c.tableName, colsOf P.cols c.schemaName c.tableName,
        (consOf P.cons c.schemaName c.tableName).insertNew c.name c⟩ : Table)) = _ ↔
      _ ∧ tb = ⟨c.schemaName, c.tableName, colsOf P.cols c.schemaName c.tableName,
        consOf (P.cons ++ [c]) c.schemaName c.tableName⟩
    rw [consOf_self, ← mem_consOf_name, ← AMap.has_iff]
    by_cases h : (consOf P.cons c.schemaName c.tableName).has c.name = true
    · rw [if_pos h]
      simp only [reduceCtorEq, h, not_true_eq_false, false_and]
    · rw [if_neg h, and_iff_right h, Except.ok.injEq]
      exact eq_comm

theorem loop_iff {α β κ : Type} {step : Database → α → SResult Database} {build : List β → Database}
    {obj : α → β} {place : β → κ} {Ok : α → Prop}
    (hstep : ∀ bs x d, step (build bs) x = .ok d ↔
      (Ok x ∧ place (obj x) ∉ bs.map place) ∧ d = build (bs ++ [obj x]))
    (xs : List α) (bs : List β) (hn : (bs.map place).Nodup) (d : Database) :
    loop step (build bs) xs = .ok d ↔ (∀ x ∈ xs, Ok x) ∧ ((bs ++ xs.map obj).map place).Nodup ∧
      d = build (bs ++ xs.map obj) := by
  induction xs generalizing bs with
  | nil =>
    unfold loop
    simp only [List.not_mem_nil, false_implies, implies_true, List.map_nil, List.append_nil, hn,
      true_and, Except.ok.injEq]
    exact eq_comm
  | cons x xs ih =>
    unfold loop
    cases e : step (build bs) x with
    | error y =>
      simp only [reduceCtorEq, false_iff]
      rintro ⟨h1, h2, _⟩
      have hx : place (obj x) ∉ bs.map place := by
        intro hm
        rw [List.map_append, List.nodup_append] at h2
        exact h2.2.2 _ hm (place (obj x)) (by simp) rfl
      have := (hstep bs x _).2 ⟨⟨h1 x (List.mem_cons_self ..), hx⟩, rfl⟩
      rw [e] at this; cases this
    | ok d' =>
      obtain ⟨⟨h1, h2⟩, rfl⟩ := (hstep bs x d').1 e
      dsimp only
      rw [ih (bs ++ [obj x]) (by
        rw [List.map_append, List.nodup_append]
        refine ⟨hn, by simp, ?_⟩
        intro a ha b hb e
        simp only [List.map_cons, List.map_nil, List.mem_singleton] at hb
        subst hb; subst e; exact h2 ha)]
      simp only [List.mem_cons, forall_eq_or_imp, h1, true_and, List.map_cons, List.append_assoc,
        List.cons_append, List.nil_append]

theorem map_some_inj {α : Type} {xs ys : List α} (h : xs.map some = ys.map some) : xs = ys := by
  induction xs generalizing ys with
  | nil => cases ys <;> simp at h ⊢
  | cons x xs ih =>
    cases ys with
    | nil => simp at h
    | cons y ys =>
      simp only [List.map_cons, List.cons.injEq, Option.some.injEq] at h
      rw [h.1, ih h.2]

theorem readRows_iff {α β : Type} {read : α → Option β} {xs : List α} {ys : List β} :
    readRows read xs = .ok ys ↔ xs.map read = ys.map some := by
  induction xs generalizing ys with
  | nil =>
    cases ys <;> simp [readRows]
  | cons x xs ih =>
    unfold readRows
    cases e : read x with
    | none => cases ys <;> simp [e]
    | some y =>
      dsimp only
      cases e' : readRows read xs with
      | error z =>
        simp only [reduceCtorEq, false_iff]
        intro h
        cases ys with
        | nil => simp at h
        | cons y' ys =>
          rw [List.map_cons, List.map_cons, List.cons.injEq] at h
          have := ih.2 h.2
          rw [e'] at this; cases this
      | ok zs =>
        have hz := ih.1 e'
        simp only [Except.ok.injEq, List.map_cons, e, hz]
        constructor
        · rintro rfl; simp
        · intro h
          have : (y :: zs).map some = ys.map some := by simpa using h
          exact (map_some_inj this)

theorem loadIndexes_iff {rows : List IndexRow} {d d' : Database} :
    loadIndexes d rows = .ok d' ↔ ∃ is : List Index, rows.map indexOf = is.map some ∧
      loop (fun d (i : Index) => d.withSchema i.schemaName fun sc => sc.addRelation (.index i)) d is =
        .ok d' := by
  induction rows generalizing d with
  | nil =>
    unfold loadIndexes
    constructor
    · intro h; exact ⟨[], rfl, h⟩
    · rintro ⟨is, h1, h2⟩
      cases is with
      | nil => exact h2
      | cons _ _ => simp at h1
  | cons r rows ih =>
    unfold loadIndexes
    cases e : indexOf r with
    | none =>
      simp only [reduceCtorEq, false_iff, not_exists, not_and]
      intro is h
      cases is <;> simp [e] at h
    | some i =>
      dsimp only
      constructor
      · intro h
        cases e' : d.withSchema i.schemaName fun sc => sc.addRelation (.index i) with
        | error x => rw [e'] at h; cases h
        | ok d1 =>
          rw [e'] at h
          obtain ⟨is, h1, h2⟩ := ih.1 h
          refine ⟨i :: is, by simp [e, h1], ?_⟩
          unfold loop
          rw [e']
          exact h2
      · rintro ⟨is, h1, h2⟩
        cases is with
        | nil => simp at h1
        | cons i' is =>
          simp only [List.map_cons, e, List.cons.injEq, Option.some.injEq] at h1
          obtain ⟨rfl, h1⟩ := h1
          unfold loop at h2
          split at h2
          · cases h2
          · next d1 e1 =>
            exact ih.2 ⟨is, h1, h2⟩

theorem andThen_iff {x : Except Fail Database} {f : Database → Except Fail Database} {d : Database} :
    andThen x f = .ok d ↔ ∃ d', x = .ok d' ∧ f d' = .ok d := by
  unfold andThen
  cases x with
  | error e => simp
  | ok d' => simp

def relPlace (r : Relation) : String × String := (r.schemaName, r.name)
def funPlace (f : Function) : String × String := (f.schemaName, f.name)
def colPlace (c : Column) : (String × String) × String := ((c.schemaName, c.tableName), c.name)
def conPlace (c : Constraint) : (String × String) × String := ((c.schemaName, c.tableName), c.name)

theorem loadSchemas_iff (xs : List String) (d : Database) :
    loadSchemas Database.new xs = .ok d ↔ xs.Nodup ∧ d = Parts.build ⟨xs, [], [], [], []⟩ := by
  unfold loadSchemas
  have := loop_iff (step := fun d s => d.addSchema (Schema.new s))
    (build := fun xs => Parts.build ⟨xs, [], [], [], []⟩) (obj := id) (place := id)
    (Ok := fun _ => True) (fun bs x d => by
      rw [addSchema_build _ _ (by simp) (by simp)]
      simp) xs [] (by simp) d
  have e : (Parts.build ⟨[], [], [], [], []⟩ : Database) = Database.new := rfl
  rw [← e]
  simpa using this

/-- Adding relations. -/
theorem loopRels_iff {α : Type} (P : Parts) (obj : α → Relation)
    {step : Database → α → SResult Database}
    (hs : ∀ d x, step d x = d.withSchema (obj x).schemaName fun sc => sc.addRelation (obj x))
    (hfill : ∀ x, P.fill (obj x) = obj x) (hn : (P.rels.map relPlace).Nodup) (xs : List α)
    (d : Database) :
    loop step P.build xs = .ok d ↔ (∀ x ∈ xs, (obj x).schemaName ∈ P.schemas) ∧
      ((P.rels ++ xs.map obj).map relPlace).Nodup ∧
      d = { P with rels := P.rels ++ xs.map obj }.build := by
  refine loop_iff (build := fun rels => Parts.build { P with rels := rels }) (obj := obj)
    (place := relPlace) (Ok := fun x => (obj x).schemaName ∈ P.schemas) ?_ xs P.rels hn d
  intro bs x d
  rw [hs]
  refine addRelation_build { P with rels := bs } (obj x) ?_ d
  have := hfill x
  generalize obj x = r at this
  cases r <;> exact this

theorem loopFuns_iff (P : Parts) (hn : (P.funs.map funPlace).Nodup) (fs : List Function)
    (d : Database) :
    loop (fun d (f : Function) => d.withSchema f.schemaName fun sc => sc.addFunction f) P.build fs =
      .ok d ↔ (∀ f ∈ fs, f.schemaName ∈ P.schemas) ∧ ((P.funs ++ fs).map funPlace).Nodup ∧
      d = { P with funs := P.funs ++ fs }.build := by
  have := loop_iff (step := fun d (f : Function) => d.withSchema f.schemaName fun sc => sc.addFunction f)
    (build := fun funs => Parts.build { P with funs := funs }) (obj := id)
    (place := funPlace) (Ok := fun x => x.schemaName ∈ P.schemas)
    (fun bs x d => addFunction_build { P with funs := bs } x d) fs P.funs hn d
  simpa using this

theorem loopCols_iff (P : Parts) (hp : P.Good) (hn : (P.cols.map colPlace).Nodup)
    (hs : ∀ r ∈ P.rels, r.schemaName ∈ P.schemas) (cs : List Column) (d : Database) :
    loop (fun d (c : Column) => d.withTable c.schemaName c.tableName fun t => t.addColumn c) P.build cs =
      .ok d ↔ (∀ c ∈ cs, .table (Table.new c.schemaName c.tableName) ∈ P.rels) ∧
      ((P.cols ++ cs).map colPlace).Nodup ∧ d = { P with cols := P.cols ++ cs }.build := by
  have := loop_iff
    (step := fun d (c : Column) => d.withTable c.schemaName c.tableName fun t => t.addColumn c)
    (build := fun cols => Parts.build { P with cols := cols }) (obj := id)
    (place := colPlace) (Ok := fun c => .table (Table.new c.schemaName c.tableName) ∈ P.rels)
    (fun bs x d => by
      rw [addColumn_build { P with cols := bs } ⟨hp.places, hp.empty⟩ x d]
      constructor
      · rintro ⟨⟨_, h2, h3⟩, h4⟩; exact ⟨⟨h2, h3⟩, h4⟩
      · rintro ⟨⟨h2, h3⟩, h4⟩; exact ⟨⟨hs _ h2, h2, h3⟩, h4⟩) cs P.cols hn d
  simpa using this

theorem loadConstraints_iff (P : Parts) (hp : P.Good) (hn : (P.cons.map conPlace).Nodup)
    (hs : ∀ r ∈ P.rels, r.schemaName ∈ P.schemas) (cs : List Constraint) (d : Database) :
    loadConstraints P.build cs =
      .ok d ↔ (∀ c ∈ cs, .table (Table.new c.schemaName c.tableName) ∈ P.rels) ∧
      ((P.cons ++ cs).map conPlace).Nodup ∧ d = { P with cons := P.cons ++ cs }.build := by
  have := loop_iff
    (step := fun d (c : Constraint) => d.withTable c.schemaName c.tableName fun t => t.addConstraint c)
    (build := fun cons => Parts.build { P with cons := cons }) (obj := id)
    (place := conPlace) (Ok := fun c => .table (Table.new c.schemaName c.tableName) ∈ P.rels)
    (fun bs x d => by
      rw [addConstraint_build { P with cons := bs } ⟨hp.places, hp.empty⟩ x d]
      constructor
      · rintro ⟨⟨_, h2, h3⟩, h4⟩; exact ⟨⟨h2, h3⟩, h4⟩
      · rintro ⟨⟨h2, h3⟩, h4⟩; exact ⟨⟨hs _ h2, h2, h3⟩, h4⟩) cs P.cons hn d
  simpa [loadConstraints] using this

/-- The relations a catalogue lists, with empty tables. -/
def Catalog.rels (c : Catalog) : List Relation :=
  c.sequences.map (fun r => .sequence (sequenceOf r)) ++
  c.tables.map fun r => .table (Table.new r.schema r.name)

/-- The constraints a catalogue lists, given its foreign keys. -/
def Catalog.cons (c : Catalog) (fks : List ForeignKey) : List Constraint :=
  c.primaryKeys.map (fun r => .primaryKey (primaryKeyOf r)) ++ fks.map .foreignKey ++
  c.uniques.map (fun r => .unique (uniqueOf r)) ++ c.checks.map fun r => .check (checkOf r)

/-- All that was added. -/
def Catalog.parts (c : Catalog) (cols : List Column) (fks : List ForeignKey) (ixs : List Index) :
    Parts :=
  ⟨c.schemas, c.rels ++ ixs.map .index, c.functions.map functionOf, cols, c.cons fks⟩

/-- The conditions the steps check. -/
structure Catalog.Ready (c : Catalog) (cols : List Column) (fks : List ForeignKey)
    (ixs : List Index) : Prop where
  readCols : c.columns.map columnOf = cols.map some
  readFks : c.foreignKeys.map foreignKeyOf = fks.map some
  readIxs : c.indexes.map indexOf = ixs.map some
  schemas : c.schemas.Nodup
  relSchema : ∀ r ∈ c.rels ++ ixs.map Relation.index, r.schemaName ∈ c.schemas
  rels : ((c.rels ++ ixs.map Relation.index).map relPlace).Nodup
  funSchema : ∀ f ∈ c.functions.map functionOf, f.schemaName ∈ c.schemas
  funs : ((c.functions.map functionOf).map funPlace).Nodup
  colTable : ∀ x ∈ cols, .table (Table.new x.schemaName x.tableName) ∈ c.rels
  cols : (cols.map colPlace).Nodup
  conTable : ∀ x ∈ c.cons fks, .table (Table.new x.schemaName x.tableName) ∈ c.rels
  cons : ((c.cons fks).map conPlace).Nodup

theorem rels_empty {c : Catalog} {t : Table} (h : .table t ∈ c.rels) :
    t = Table.new t.schemaName t.name := by
  unfold Catalog.rels at h
  simp only [List.mem_append, List.mem_map, reduceCtorEq, and_false, exists_false, false_or] at h
  obtain ⟨r, _, e⟩ := h
  injection e with e
  subst e; rfl

theorem nodup_of_prefix {α β : Type} {xs ys : List α} {f : α → β} (h : ((xs ++ ys).map f).Nodup) :
    (xs.map f).Nodup := by
  rw [List.map_append, List.nodup_append] at h; exact h.1

/-- When introspection succeeds, and with what. -/
theorem introspect_iff {c : Catalog} {d : Database} :
    introspect c = .ok d ↔ ∃ cols fks ixs, c.Ready cols fks ixs ∧ d = (c.parts cols fks ixs).build := by
  have hseq : ∀ d, loadSequences (Parts.build ⟨c.schemas, [], [], [], []⟩) c.sequences = .ok d ↔ _ :=
    fun d => loopRels_iff ⟨c.schemas, [], [], [], []⟩ Relation.sequence
      (fun _ _ => rfl) (fun _ => rfl) (by simp) (c.sequences.map sequenceOf) d
  have htab : ∀ rels d, (rels.map relPlace).Nodup →
      (loadTables (Parts.build ⟨c.schemas, rels, [], [], []⟩) c.tables = .ok d ↔ _) :=
    fun rels d hn => loopRels_iff ⟨c.schemas, rels, [], [], []⟩
      (fun r : TableRow => Relation.table (Table.new r.schema r.name))
      (fun _ _ => rfl) (fun _ => rfl) hn c.tables d
  have hixs : ∀ (P : Parts) (ixs : List Index) d, (P.rels.map relPlace).Nodup → (loop _ P.build ixs = .ok d ↔ _) :=
    fun (P : Parts) (ixs : List Index) d hn => loopRels_iff P Relation.index
      (step := fun d (i : Index) => d.withSchema i.schemaName fun sc => sc.addRelation (.index i))
      (fun _ _ => rfl) (fun _ => rfl) hn ixs d
  have hrels : c.rels = [] ++ (c.sequences.map sequenceOf).map Relation.sequence ++
      c.tables.map fun r => Relation.table (Table.new r.schema r.name) := by
    simp [Catalog.rels, Function.comp_def]
  have hgood : ∀ funs cols cons, (c.rels.map relPlace).Nodup →
      Parts.Good ⟨c.schemas, c.rels, funs, cols, cons⟩ :=
    fun _ _ _ h => ⟨h, fun t => rels_empty⟩
  unfold introspect
  simp only [andThen_iff]
  constructor
  · rintro ⟨d9, ⟨d8, ⟨d7, ⟨d6, ⟨d5, ⟨d4, ⟨d3, ⟨d2, ⟨d1, h1, h2⟩, h3⟩, h4⟩, h5⟩, h6⟩, h7⟩, h8⟩, h9⟩, h10⟩
    obtain ⟨hsch, rfl⟩ := (loadSchemas_iff _ _).1 h1
    obtain ⟨hq1, hq2, rfl⟩ := (hseq _).1 h2
    obtain ⟨ht1, ht2, rfl⟩ := (htab _ _ hq2).1 h3
    dsimp only at ht2 h4
    rw [← hrels] at ht2 h4
    have hsr : ∀ r ∈ c.rels, r.schemaName ∈ c.schemas := by
      rw [hrels]
      intro r hr
      simp only [List.nil_append, List.mem_append] at hr
      rcases hr with hr | hr
      · obtain ⟨x, hx, rfl⟩ := List.mem_map.1 hr
        exact hq1 x hx
      · obtain ⟨x, hx, rfl⟩ := List.mem_map.1 hr
        exact ht1 x hx
    unfold loadColumns at h4
    split at h4
    · cases h4
    next cols ecols =>
    obtain ⟨hc1, hc2, rfl⟩ := (loopCols_iff _ (hgood _ _ _ ht2) (by simp) hsr _ _).1 h4
    unfold loadPrimaryKeys at h5
    obtain ⟨hp1, hp2, rfl⟩ := (loadConstraints_iff _ (hgood _ _ _ ht2) (by simp) hsr _ _).1 h5
    unfold loadForeignKeys at h6
    split at h6
    · cases h6
    next fks efks =>
    obtain ⟨hf1, hf2, rfl⟩ := (loadConstraints_iff _ (hgood _ _ _ ht2) hp2 hsr _ _).1 h6
    unfold loadFunctions at h7
    obtain ⟨hu1, hu2, rfl⟩ := (loopFuns_iff _ (by simp) _ _).1 h7
    unfold loadUnique at h8
    obtain ⟨hn1, hn2, rfl⟩ := (loadConstraints_iff _ (hgood _ _ _ ht2) hf2 hsr _ _).1 h8
    unfold loadChecks at h9
    obtain ⟨hk1, hk2, rfl⟩ := (loadConstraints_iff _ (hgood _ _ _ ht2) hn2 hsr _ _).1 h9
    obtain ⟨ixs, eixs, h10⟩ := loadIndexes_iff.1 h10
    obtain ⟨hi1, hi2, rfl⟩ := (hixs _ _ _ ht2).1 h10
    dsimp only at *
    simp only [List.nil_append] at *
    refine ⟨cols, fks, ixs, ⟨readRows_iff.1 ecols, readRows_iff.1 efks, eixs, hsch, ?_, hi2, hu1, hu2,
      hc1, hc2, ?_, hk2⟩, rfl⟩
    · intro r hr
      rcases List.mem_append.1 hr with hr | hr
      · exact hsr r hr
      · obtain ⟨x, hx, rfl⟩ := List.mem_map.1 hr
        exact hi1 x hx
    · intro x hx
      simp only [Catalog.cons, List.mem_append] at hx
      rcases hx with ((hx | hx) | hx) | hx
      · exact hp1 x hx
      · exact hf1 x hx
      · exact hn1 x hx
      · exact hk1 x hx
  · rintro ⟨cols, fks, ixs, h, rfl⟩
    have hnr := nodup_of_prefix h.rels
    have hsr : ∀ r ∈ c.rels, r.schemaName ∈ c.schemas :=
      fun r hr => h.relSchema r (List.mem_append_left _ hr)
    have hct : ∀ x ∈ c.cons fks, .table (Table.new x.schemaName x.tableName) ∈ c.rels := h.conTable
    have hcn := h.cons
    unfold Catalog.cons at hct hcn
    have hcn3 := nodup_of_prefix hcn
    have hcn2 := nodup_of_prefix hcn3
    have hcn1 := nodup_of_prefix hcn2
    have hnr' := hnr
    rw [hrels] at hnr'
    have hq : ∀ x ∈ c.sequences.map sequenceOf, x.schemaName ∈ c.schemas := by
      intro x hx
      refine hsr (.sequence x) ?_
      rw [hrels]
      simp only [List.nil_append, List.mem_append]
      exact .inl (List.mem_map_of_mem hx)
    have ht : ∀ x ∈ c.tables, x.schema ∈ c.schemas := by
      intro x hx
      refine hsr (.table (Table.new x.schema x.name)) ?_
      rw [hrels]
      simp only [List.nil_append, List.mem_append]
      exact .inr (List.mem_map.2 ⟨x, hx, rfl⟩)
    have h1 := (loadSchemas_iff _ _).2 ⟨h.schemas, rfl⟩
    have h2 := (hseq _).2 ⟨hq, nodup_of_prefix hnr', rfl⟩
    have h3 := (htab _ _ (nodup_of_prefix hnr')).2 ⟨ht, hnr', rfl⟩
    dsimp only at h3
    rw [← hrels] at h3
    have h4 : loadColumns (Parts.build ⟨c.schemas, c.rels, [], [], []⟩) c.columns =
        .ok (Parts.build ⟨c.schemas, c.rels, [], cols, []⟩) := by
      unfold loadColumns
      rw [readRows_iff.2 h.readCols]
      exact (loopCols_iff _ (hgood [] [] [] hnr) (by simp) hsr _ _).2 ⟨h.colTable, h.cols, rfl⟩
    have h5 : loadPrimaryKeys _ c.primaryKeys = .ok _ :=
      (loadConstraints_iff _ (hgood [] cols [] hnr) (by simp) hsr _ _).2
        ⟨fun x hx => hct x (by simp only [List.mem_append]; exact .inl (.inl (.inl hx))), hcn1, rfl⟩
    have h6 : loadForeignKeys (Parts.build ⟨c.schemas, c.rels, [], cols,
          c.primaryKeys.map fun r => .primaryKey (primaryKeyOf r)⟩) c.foreignKeys =
        .ok (Parts.build ⟨c.schemas, c.rels, [], cols,
          c.primaryKeys.map (fun r => .primaryKey (primaryKeyOf r)) ++ fks.map .foreignKey⟩) := by
      unfold loadForeignKeys
      rw [readRows_iff.2 h.readFks]
      exact (loadConstraints_iff _ (hgood [] cols _ hnr) hcn1 hsr _ _).2
        ⟨fun x hx => hct x (by simp only [List.mem_append]; exact .inl (.inl (.inr hx))), hcn2, rfl⟩
    have h7 : loadFunctions _ c.functions = .ok _ :=
      (loopFuns_iff ⟨c.schemas, c.rels, [], cols, c.primaryKeys.map (fun r => .primaryKey (primaryKeyOf r)) ++
        fks.map .foreignKey⟩ (by simp) _ _).2 ⟨h.funSchema, h.funs, rfl⟩
    have h8 : loadUnique _ c.uniques = .ok _ :=
      (loadConstraints_iff _ (hgood (c.functions.map functionOf) cols _ hnr) hcn2 hsr _ _).2
        ⟨fun x hx => hct x (by simp only [List.mem_append]; exact .inl (.inr hx)), hcn3, rfl⟩
    have h9 : loadChecks _ c.checks = .ok _ :=
      (loadConstraints_iff _ (hgood (c.functions.map functionOf) cols _ hnr) hcn3 hsr _ _).2
        ⟨fun x hx => hct x (by simp only [List.mem_append]; exact .inr hx), hcn, rfl⟩
    have h10 : loadIndexes _ c.indexes = .ok _ :=
      loadIndexes_iff.2 ⟨ixs, h.readIxs, (hixs
        ⟨c.schemas, c.rels, c.functions.map functionOf, cols, c.cons fks⟩
        ixs _ hnr).2
        ⟨fun x hx => h.relSchema _ (List.mem_append_right _ (List.mem_map_of_mem hx)), h.rels, rfl⟩⟩
    exact ⟨_, ⟨_, ⟨_, ⟨_, ⟨_, ⟨_, ⟨_, ⟨_, ⟨_, h1, h2⟩, h3⟩, h4⟩, h5⟩, h6⟩, h7⟩, h8⟩, h9⟩, h10⟩

theorem sequenceOf_iff (r : SequenceRow) (q : Sequence) : q = sequenceOf r ↔ r.Describes q := by
  constructor
  · rintro rfl; constructor <;> rfl
  · rintro ⟨⟩; cases q; simp_all [sequenceOf]

theorem functionOf_iff (r : FunctionRow) (q : Function) : q = functionOf r ↔ r.Describes q := by
  constructor
  · rintro rfl; constructor <;> rfl
  · rintro ⟨⟩; cases q; simp_all [functionOf]

theorem primaryKeyOf_iff (r : KeyRow) (q : PrimaryKey) :
    q = primaryKeyOf r ↔ r.DescribesPrimaryKey q := by
  constructor
  · rintro rfl; constructor <;> rfl
  · rintro ⟨⟩; cases q; simp_all [primaryKeyOf]

theorem uniqueOf_iff (r : KeyRow) (q : Unique) : q = uniqueOf r ↔ r.DescribesUnique q := by
  constructor
  · rintro rfl; constructor <;> rfl
  · rintro ⟨⟩; cases q; simp_all [uniqueOf]

theorem checkOf_iff (r : CheckRow) (q : Check) : q = checkOf r ↔ r.Describes q := by
  constructor
  · rintro rfl; constructor <;> rfl
  · rintro ⟨⟩; cases q; simp_all [checkOf]

theorem columnOf_iff (r : ColumnRow) (c : Column) : columnOf r = some c ↔ r.Describes c := by
  unfold columnOf
  constructor
  · intro h
    split at h
    · cases h
    · next ty e =>
      injection h with h
      subst h
      refine ⟨rfl, rfl, rfl, e.symm, rfl, ?_, ?_⟩
      · dsimp only
        by_cases h : r.default = ""
        · rw [if_pos h, h]; rfl
        · rw [if_neg h]; rfl
      · dsimp only
        by_cases h : r.default = ""
        · rw [if_pos h]; simp
        · rw [if_neg h]; simpa using h
  · rintro ⟨h1, h2, h3, h4, h5, h6, h7⟩
    rw [← h4]
    dsimp only
    cases c with
    | mk a b n ty nn df =>
      dsimp only at *
      subst h1 h2 h3 h5
      congr 2
      rw [← h6]
      cases df with
      | none => rfl
      | some x =>
        have : x ≠ "" := fun e => h7 (by rw [e])
        exact if_neg this

theorem foreignKeyOf_iff (r : ForeignKeyRow) (k : ForeignKey) :
    foreignKeyOf r = some k ↔ r.Describes k := by
  unfold foreignKeyOf
  constructor
  · intro h
    split at h
    · next ts tcs e1 e2 =>
      injection h with h
      subst h
      exact ⟨rfl, rfl, rfl, rfl, e1.symm, rfl, e2.symm, rfl, rfl, rfl, rfl, rfl⟩
    · cases h
  · rintro ⟨h1, h2, h3, h4, h5, h6, h7, h8, h9, h10, h11, h12⟩
    rw [← h5, ← h7]
    dsimp only
    rw [← h1, ← h2, ← h3, ← h4, ← h6, ← h8, ← h9, ← h10, ← h11, ← h12]

theorem indexOf_iff (r : IndexRow) (i : Index) : indexOf r = some i ↔ r.Describes i := by
  unfold indexOf
  constructor
  · intro h
    cases e : r.expressions with
    | some x =>
      rw [e] at h
      dsimp only at h
      injection h with h
      subst h
      exact ⟨rfl, rfl, rfl, rfl, rfl, (fun y hy => by rw [e] at hy; injection hy with hy; rw [hy]),
        fun hy => by rw [e] at hy; cases hy⟩
    | none =>
      rw [e] at h
      dsimp only at h
      split at h
      · cases h
      · next ks ek =>
        injection h with h
        subst h
        exact ⟨rfl, rfl, rfl, rfl, rfl, (fun y hy => by rw [e] at hy; cases hy), fun _ => ek.symm⟩
  · rintro ⟨h1, h2, h3, h4, h5, h6, h7⟩
    cases e : r.expressions with
    | some x =>
      dsimp only
      rw [← h6 x e, ← h1, ← h2, ← h3, ← h4, ← h5]
    | none =>
      dsimp only
      rw [← h7 e]
      dsimp only
      rw [← h1, ← h2, ← h3, ← h4, ← h5]

theorem map_read {α β γ : Type} {read : α → Option β} {f : α → γ} {g : β → γ} {xs : List α}
    {ys : List β} (h : xs.map read = ys.map some) (hg : ∀ x y, read x = some y → g y = f x) :
    ys.map g = xs.map f := by
  induction xs generalizing ys with
  | nil => cases ys <;> simp at h ⊢
  | cons x xs ih =>
    cases ys with
    | nil => simp at h
    | cons y ys =>
      rw [List.map_cons, List.map_cons, List.cons.injEq] at h
      rw [List.map_cons, List.map_cons, hg x y h.1, ih h.2]

theorem mem_read {α β : Type} {read : α → Option β} {xs : List α} {ys : List β}
    (h : xs.map read = ys.map some) (y : β) : y ∈ ys ↔ ∃ x ∈ xs, read x = some y := by
  have : some y ∈ ys.map some ↔ y ∈ ys := by simp
  rw [← this, ← h, List.mem_map]

theorem exists_read {α β : Type} {read : α → Option β} {xs : List α}
    (h : ∀ x ∈ xs, ∃ y, read x = some y) : ∃ ys : List β, xs.map read = ys.map some := by
  induction xs with
  | nil => exact ⟨[], rfl⟩
  | cons x xs ih =>
    obtain ⟨y, hy⟩ := h x (List.mem_cons_self ..)
    obtain ⟨ys, hys⟩ := ih fun z hz => h z (List.mem_cons_of_mem _ hz)
    exact ⟨y :: ys, by simp [hy, hys]⟩

theorem table_mem_rels {c : Catalog} {s t : String} :
    .table (Table.new s t) ∈ c.rels ↔ ⟨s, t⟩ ∈ c.tables := by
  unfold Catalog.rels
  simp only [List.mem_append, List.mem_map, reduceCtorEq, and_false, exists_false, false_or,
    Relation.table.injEq, Table.new, Table.mk.injEq, and_true]
  constructor
  · rintro ⟨r, h, rfl, rfl⟩; exact h
  · intro h; exact ⟨_, h, rfl, rfl⟩

theorem rels_places {c : Catalog} {ixs : List Index} (h : c.indexes.map indexOf = ixs.map some) :
    (c.rels ++ ixs.map Relation.index).map relPlace = c.relationPlaces := by
  unfold Catalog.rels Catalog.relationPlaces
  simp only [List.map_append, List.map_map]
  congr 1
  refine map_read h ?_
  intro r i e
  have := (indexOf_iff r i).1 e
  show (i.schemaName, i.name) = _
  rw [this.schema, this.name]

theorem cons_places {c : Catalog} {fks : List ForeignKey}
    (h : c.foreignKeys.map foreignKeyOf = fks.map some) :
    (c.cons fks).map conPlace = c.constraintPlaces := by
  unfold Catalog.cons Catalog.constraintPlaces
  simp only [List.map_append, List.map_map]
  congr 3
  refine map_read h ?_
  intro r i e
  have := (foreignKeyOf_iff r i).1 e
  show ((i.schemaName, i.tableName), i.name) = _
  rw [this.schema, this.name, this.table]

theorem cols_places {c : Catalog} {cols : List Column} (h : c.columns.map columnOf = cols.map some) :
    cols.map colPlace = c.columnPlaces := by
  unfold Catalog.columnPlaces
  refine map_read h ?_
  intro r i e
  have := (columnOf_iff r i).1 e
  show ((i.schemaName, i.tableName), i.name) = _
  rw [this.schema, this.name, this.table]

theorem funs_places (c : Catalog) : (c.functions.map functionOf).map funPlace = c.functionPlaces := by
  unfold Catalog.functionPlaces
  rw [List.map_map]
  rfl

theorem forall_map {α β : Type} {xs : List α} {f : α → β} {p : β → Prop} :
    (∀ x ∈ xs, p (f x)) ↔ ∀ y ∈ xs.map f, p y := by
  simp

theorem ready_iff (c : Catalog) : (∃ cols fks ixs, c.Ready cols fks ixs) ↔ c.Consistent := by
  constructor
  · rintro ⟨cols, fks, ixs, h⟩
    refine ⟨h.schemas, ?_, ?_, ?_, ?_, ?_, ?_, ?_, ?_, ?_, ?_, ?_⟩
    · rw [← rels_places h.readIxs]; exact h.rels
    · rw [← funs_places]; exact h.funs
    · rw [← cols_places h.readCols]; exact h.cols
    · rw [← cons_places h.readFks]; exact h.cons
    · rw [← rels_places h.readIxs]; exact forall_map.1 h.relSchema
    · rw [← funs_places]; exact forall_map.1 h.funSchema
    · rw [← cols_places h.readCols]
      exact forall_map.1 fun x hx => table_mem_rels.1 (h.colTable x hx)
    · rw [← cons_places h.readFks]
      exact forall_map.1 fun x hx => table_mem_rels.1 (h.conTable x hx)
    · intro r hr e
      have : columnOf r ∈ cols.map some := h.readCols ▸ List.mem_map_of_mem hr
      obtain ⟨x, _, hx⟩ := List.mem_map.1 this
      have := ((columnOf_iff r x).1 hx.symm).dataType
      rw [e] at this; cases this
    · intro r hr
      have : foreignKeyOf r ∈ fks.map some := h.readFks ▸ List.mem_map_of_mem hr
      obtain ⟨x, _, hx⟩ := List.mem_map.1 this
      have := (foreignKeyOf_iff r x).1 hx.symm
      rw [← this.targetSchema, ← this.targetColumns]
      simp
    · intro r hr
      have : indexOf r ∈ ixs.map some := h.readIxs ▸ List.mem_map_of_mem hr
      obtain ⟨x, _, hx⟩ := List.mem_map.1 this
      have := (indexOf_iff r x).1 hx.symm
      cases e : r.expressions with
      | some _ => simp
      | none => rw [← this.columns e]; simp
  · intro h
    obtain ⟨cols, hc⟩ := exists_read (read := columnOf) (xs := c.columns) (fun r hr => by
      have := h.column_type r hr
      unfold columnOf
      cases e : r.dataType with
      | none => exact absurd e this
      | some ty => exact ⟨_, rfl⟩)
    obtain ⟨fks, hf⟩ := exists_read (read := foreignKeyOf) (xs := c.foreignKeys) (fun r hr => by
      obtain ⟨h1, h2⟩ := h.target r hr
      unfold foreignKeyOf
      cases e : r.targetTableSchema with
      | none => exact absurd e h1
      | some x =>
        cases e' : r.targetTableColumns with
        | none => exact absurd e' h2
        | some y => exact ⟨_, rfl⟩)
    obtain ⟨ixs, hi⟩ := exists_read (read := indexOf) (xs := c.indexes) (fun r hr => by
      have h1 := h.index_keys r hr
      unfold indexOf
      cases e : r.expressions with
      | some x => exact ⟨_, rfl⟩
      | none =>
        cases e' : r.keyColumns with
        | none => rw [e, e'] at h1; simp at h1
        | some y => exact ⟨_, rfl⟩)
    refine ⟨cols, fks, ixs, hc, hf, hi, h.schemas, ?_, ?_, ?_, ?_, ?_, ?_, ?_, ?_⟩
    · have := h.relation_schema
      rw [← rels_places hi] at this
      exact (forall_map (p := fun y : String × String => y.1 ∈ c.schemas)).2 this
    · rw [rels_places hi]; exact h.relations
    · have := h.function_schema
      rw [← funs_places] at this
      exact (forall_map (p := fun y : String × String => y.1 ∈ c.schemas)).2 this
    · rw [funs_places]; exact h.functions
    · have := h.column_table
      rw [← cols_places hc] at this
      exact fun x hx => table_mem_rels.2 (this _ (List.mem_map_of_mem hx))
    · rw [cols_places hc]; exact h.columns
    · have := h.constraint_table
      rw [← cons_places hf] at this
      exact fun x hx => table_mem_rels.2 (this _ (List.mem_map_of_mem hx))
    · rw [cons_places hf]; exact h.constraints

theorem succeeds_iff (c : Catalog) : (∃ d, introspect c = .ok d) ↔ c.Consistent := by
  rw [← ready_iff]
  constructor
  · rintro ⟨d, h⟩
    obtain ⟨cols, fks, ixs, h, _⟩ := introspect_iff.1 h
    exact ⟨cols, fks, ixs, h⟩
  · rintro ⟨cols, fks, ixs, h⟩
    exact ⟨_, introspect_iff.2 ⟨cols, fks, ixs, h, rfl⟩⟩

/-! What the snapshot holds. -/

theorem hasRelation_iff {P : Parts} (hp : P.Good) (hs : ∀ r ∈ P.rels, r.schemaName ∈ P.schemas)
    (s n : String) (x : Relation) :
    HasRelation P.build s n x ↔ ∃ r ∈ P.rels, r.schemaName = s ∧ r.name = n ∧ x = P.fill r := by
  unfold HasRelation Parts.build
  dsimp only
  rw [get?_map_self]
  constructor
  · rintro ⟨sc, h1, h2⟩
    split at h1
    · injection h1 with h1
      subst h1
      exact (get?_relations P hp s n x).1 h2
    · cases h1
  · rintro ⟨r, hr, h1, h2, h3⟩
    refine ⟨P.schema s, ?_, (get?_relations P hp s n x).2 ⟨r, hr, h1, h2, h3⟩⟩
    rw [if_pos (h1 ▸ hs r hr)]

theorem nodup_filter_names {α κ : Type} [DecidableEq κ] {xs : List α} {place : α → κ × String}
    (hn : (xs.map place).Nodup) (k : κ) :
    ((xs.filter fun y => (place y).1 = k).map fun y => (place y).2).Nodup := by
  induction xs with
  | nil => simp
  | cons r xs ih =>
    rw [List.map_cons, List.nodup_cons] at hn
    rw [List.filter_cons]
    split
    · next e =>
      rw [List.map_cons, List.nodup_cons]
      refine ⟨?_, ih hn.2⟩
      intro hm
      obtain ⟨b, hb, eb⟩ := List.mem_map.1 hm
      obtain ⟨h1, h2⟩ := List.mem_filter.1 hb
      simp only [decide_eq_true_eq] at h2 e
      exact hn.1 (List.mem_map.2 ⟨b, h1, Prod.ext (h2.trans e.symm) eb⟩)
    · exact ih hn.2

theorem get?_named {α κ : Type} [DecidableEq κ] {xs : List α} {place : α → κ × String}
    (hn : (xs.map place).Nodup) (k : κ) (n : String) (x : α) :
    AMap.get? ((xs.filter fun y => (place y).1 = k).map fun y => ((place y).2, y)) n = some x ↔
      x ∈ xs ∧ (place x).1 = k ∧ (place x).2 = n := by
  have hk : AMap.NodupKeys ((xs.filter fun y => (place y).1 = k).map fun y => ((place y).2, y)) := by
    unfold AMap.NodupKeys
    have := nodup_filter_names hn k
    rwa [← keys_map _ (fun y => (place y).2) id] at this
  rw [AMap.get?_iff_mem hk]
  simp only [List.mem_map, List.mem_filter, decide_eq_true_eq, Prod.mk.injEq]
  constructor
  · rintro ⟨y, ⟨h1, h2⟩, h3, rfl⟩; exact ⟨h1, h2, h3⟩
  · rintro ⟨h1, h2, h3⟩; exact ⟨x, ⟨h1, h2⟩, h3, rfl⟩

theorem get?_consOf {cons : List Constraint} (hn : (cons.map conPlace).Nodup) (s t n : String)
    (k : Constraint) : (consOf cons s t).get? n = some k ↔
      k ∈ cons ∧ k.schemaName = s ∧ k.tableName = t ∧ k.name = n := by
  have := get?_named (place := conPlace) hn (s, t) n k
  have e : consOf cons s t =
      (cons.filter fun y => (conPlace y).1 = (s, t)).map fun y => ((conPlace y).2, y) := by
    unfold consOf
    have : (fun c : Constraint => decide (c.schemaName = s ∧ c.tableName = t)) =
        fun y => decide ((conPlace y).1 = (s, t)) := by
      funext y
      simp [conPlace]
    rw [this]
    rfl
  rw [e, this]
  simp only [conPlace, Prod.mk.injEq, and_assoc]

theorem get?_funsOf {funs : List Function} (hn : (funs.map funPlace).Nodup) (s n : String)
    (k : Function) :
    AMap.get? ((funs.filter fun f => f.schemaName = s).map fun f => (f.name, f)) n = some k ↔
      k ∈ funs ∧ k.schemaName = s ∧ k.name = n :=
  get?_named (place := funPlace) hn s n k

theorem mem_cons {c : Catalog} {fks : List ForeignKey}
    (h : c.foreignKeys.map foreignKeyOf = fks.map some) (k : Constraint) :
    k ∈ c.cons fks ↔ Lists c k := by
  unfold Catalog.cons
  simp only [List.mem_append, List.mem_map]
  constructor
  · rintro (((⟨r, hr, rfl⟩ | ⟨x, hx, rfl⟩) | ⟨r, hr, rfl⟩) | ⟨r, hr, rfl⟩)
    · exact .primaryKey hr ((primaryKeyOf_iff r _).1 rfl)
    · obtain ⟨r, hr, e⟩ := (mem_read h x).1 hx
      exact .foreignKey hr ((foreignKeyOf_iff r x).1 e)
    · exact .unique hr ((uniqueOf_iff r _).1 rfl)
    · exact .check hr ((checkOf_iff r _).1 rfl)
  · intro hl
    cases hl with
    | primaryKey hr hd => exact .inl (.inl (.inl ⟨_, hr, by rw [(primaryKeyOf_iff _ _).2 hd]⟩))
    | foreignKey hr hd =>
      exact .inl (.inl (.inr ⟨_, (mem_read h _).2 ⟨_, hr, (foreignKeyOf_iff _ _).2 hd⟩, rfl⟩))
    | unique hr hd => exact .inl (.inr ⟨_, hr, by rw [(uniqueOf_iff _ _).2 hd]⟩)
    | check hr hd => exact .inr ⟨_, hr, by rw [(checkOf_iff _ _).2 hd]⟩

theorem describeColumns {rows : List ColumnRow} {cols : List Column}
    (h : rows.map columnOf = cols.map some) (s n : String) :
    DescribeColumns (rows.filter fun r => r.schema = s ∧ r.table = n) (colsOf cols s n) := by
  unfold colsOf
  induction rows generalizing cols with
  | nil =>
    cases cols with
    | nil => exact .nil
    | cons _ _ => simp at h
  | cons r rows ih =>
    cases cols with
    | nil => simp at h
    | cons x cols =>
      rw [List.map_cons, List.map_cons, List.cons.injEq] at h
      have hd := (columnOf_iff r x).1 h.1
      rw [List.filter_cons, List.filter_cons, hd.schema, hd.table]
      split
      · exact .cons hd (ih h.2)
      · exact ih h.2

theorem represents {c : Catalog} {d : Database} (hi : introspect c = .ok d) : Represents c d := by
  obtain ⟨cols, fks, ixs, h, rfl⟩ := introspect_iff.1 hi
  have hp : (c.parts cols fks ixs).Good := by
    refine ⟨h.rels, fun t ht => ?_⟩
    rcases List.mem_append.1 ht with ht | ht
    · exact rels_empty ht
    · simp at ht
  have hrel := fun s n x => hasRelation_iff hp h.relSchema s n x
  have hmem : ∀ r, r ∈ (c.parts cols fks ixs).rels ↔ r ∈ c.rels ∨ ∃ i ∈ ixs, Relation.index i = r := by
    intro r
    show r ∈ c.rels ++ ixs.map Relation.index ↔ _
    rw [List.mem_append, List.mem_map]
  have htab : ∀ s n t, HasRelation (c.parts cols fks ixs).build s n (.table t) ↔
      ⟨s, n⟩ ∈ c.tables ∧ t = ⟨s, n, colsOf cols s n, consOf (c.cons fks) s n⟩ := by
    intro s n t
    rw [hrel]
    constructor
    · rintro ⟨r, hr, h1, h2, h3⟩
      cases r with
      | table t0 =>
        rcases (hmem _).1 hr with hr | ⟨i, _, e⟩
        · have e0 := rels_empty hr
          have h1' : t0.schemaName = s := h1
          have h2' : t0.name = n := h2
          rw [h1', h2'] at e0
          subst e0
          refine ⟨table_mem_rels.1 hr, ?_⟩
          injection h3
        · cases e
      | _ => cases h3
    · rintro ⟨h1, rfl⟩
      exact ⟨.table (Table.new s n), (hmem _).2 (.inl (table_mem_rels.2 h1)), rfl, rfl, rfl⟩
  refine ⟨?_, ?_, ?_, ?_, ?_, ?_, ?_, ?_, ?_, ?_⟩
  · intro s
    show (∃ sc, AMap.get? (c.schemas.map fun s => (s, _)) s = some sc) ↔ _
    rw [get?_map_self]
    by_cases hs : s ∈ c.schemas
    · simp [hs]
    · simp [hs]
  · intro s sc hs
    have : AMap.get? (c.schemas.map fun s => (s, (c.parts cols fks ixs).schema s)) s = some sc := hs
    rw [get?_map_self] at this
    split at this
    · injection this with this; subst this; rfl
    · cases this
  · intro s n q
    rw [hrel]
    constructor
    · rintro ⟨r, hr, h1, h2, h3⟩
      cases r with
      | sequence q0 =>
        injection h3 with h3
        subst h3
        refine ⟨h1, h2, ?_⟩
        rcases (hmem _).1 hr with hr | ⟨i, _, e⟩
        · unfold Catalog.rels at hr
          simp only [List.mem_append, List.mem_map, reduceCtorEq, and_false, exists_false, or_false,
            Relation.sequence.injEq] at hr
          obtain ⟨r, hr, e⟩ := hr
          exact ⟨r, hr, (sequenceOf_iff r q).1 e.symm⟩
        · cases e
      | _ => cases h3
    · rintro ⟨h1, h2, r, hr, h3⟩
      refine ⟨.sequence q, (hmem _).2 (.inl ?_), h1, h2, rfl⟩
      unfold Catalog.rels
      rw [(sequenceOf_iff r q).2 h3]
      exact List.mem_append_left _ (List.mem_map.2 ⟨r, hr, rfl⟩)
  · intro s n i
    rw [hrel]
    constructor
    · rintro ⟨r, hr, h1, h2, h3⟩
      cases r with
      | index i0 =>
        injection h3 with h3
        subst h3
        refine ⟨h1, h2, ?_⟩
        rcases (hmem _).1 hr with hr | ⟨i', hi, e⟩
        · unfold Catalog.rels at hr
          simp at hr
        · injection e with e
          subst e
          obtain ⟨r, hr, e⟩ := (mem_read h.readIxs _).1 hi
          exact ⟨r, hr, (indexOf_iff r _).1 e⟩
      | _ => cases h3
    · rintro ⟨h1, h2, r, hr, h3⟩
      exact ⟨.index i, (hmem _).2 (.inr ⟨i, (mem_read h.readIxs _).2 ⟨r, hr, (indexOf_iff r i).2 h3⟩,
        rfl⟩), h1, h2, rfl⟩
  · intro s n v hv
    obtain ⟨r, hr, _, _, h3⟩ := (hrel _ _ _).1 hv
    cases r with
    | view v0 =>
      rcases (hmem _).1 hr with hr | ⟨i', hi, e⟩
      · unfold Catalog.rels at hr
        simp at hr
      · cases e
    | _ => cases h3
  · intro s n f
    unfold HasFunction
    constructor
    · rintro ⟨sc, h1, h2⟩
      have h1' : AMap.get? (c.schemas.map fun s => (s, (c.parts cols fks ixs).schema s)) s = some sc := h1
      rw [get?_map_self] at h1'
      split at h1'
      · injection h1' with h1'
        subst h1'
        obtain ⟨a, b, e⟩ := (get?_funsOf h.funs s n f).1 h2
        obtain ⟨r, hr, rfl⟩ := List.mem_map.1 a
        exact ⟨b, e, r, hr, (functionOf_iff r _).1 rfl⟩
      · cases h1'
    · rintro ⟨h1, h2, r, hr, h3⟩
      have hm : f ∈ c.functions.map functionOf :=
        List.mem_map.2 ⟨r, hr, ((functionOf_iff r f).2 h3).symm⟩
      refine ⟨(c.parts cols fks ixs).schema s, ?_, (get?_funsOf h.funs s n f).2 ⟨hm, h1, h2⟩⟩
      show AMap.get? (c.schemas.map fun s => (s, (c.parts cols fks ixs).schema s)) s = _
      rw [get?_map_self, if_pos (h1 ▸ h.funSchema f hm)]
  · intro s n
    simp only [htab]
    constructor
    · rintro ⟨t, h1, _⟩; exact h1
    · intro h1; exact ⟨_, h1, rfl⟩
  · intro s n t ht
    obtain ⟨_, rfl⟩ := (htab _ _ _).1 ht
    exact ⟨rfl, rfl⟩
  · intro s n t ht
    obtain ⟨_, rfl⟩ := (htab _ _ _).1 ht
    exact describeColumns h.readCols s n
  · intro s n t ht m k
    obtain ⟨_, rfl⟩ := (htab _ _ _).1 ht
    show (consOf (c.cons fks) s n).get? m = some k ↔ _
    rw [get?_consOf h.cons, mem_cons h.readFks]
    constructor
    · rintro ⟨h1, h2, h3, h4⟩; exact ⟨h2, h3, h4, h1⟩
    · rintro ⟨h2, h3, h4, h1⟩; exact ⟨h1, h2, h3, h4⟩

theorem describes_unique {r : ColumnRow} {a b : Column} (ha : r.Describes a) (hb : r.Describes b) :
    a = b := by
  have h1 := (columnOf_iff r a).2 ha
  have h2 := (columnOf_iff r b).2 hb
  rw [h1] at h2
  injection h2

theorem describeColumns_unique {rs : List ColumnRow} {as bs : List Column}
    (ha : DescribeColumns rs as) (hb : DescribeColumns rs bs) : as = bs := by
  induction ha generalizing bs with
  | nil => cases hb; rfl
  | cons h _ ih =>
    cases hb with
    | cons h' hb => rw [describes_unique h h', ih hb]

theorem option_ext {α : Type} {a b : Option α} (h : ∀ x, a = some x ↔ b = some x) : a = b := by
  cases a with
  | none =>
    cases b with
    | none => rfl
    | some y => exact absurd ((h y).2 rfl) (by simp)
  | some x => exact ((h x).1 rfl).symm

/-- The description leaves nothing about the content open. -/
theorem represents_unique {c : Catalog} {d d' : Database} (h : Represents c d)
    (h' : Represents c d') : d.content = d'.content := by
  have one : ∀ {d d' : Database} {s n : String} {x : Relation}, Represents c d → Represents c d' →
      HasRelation d s n x → ∃ y, HasRelation d' s n y ∧ x.content = y.content := by
    intro d d' s n x h h' hx
    cases x with
    | view v => exact absurd hx (h.views s n v)
    | sequence q => exact ⟨_, (h'.sequences s n q).2 ((h.sequences s n q).1 hx), rfl⟩
    | index q => exact ⟨_, (h'.indexes s n q).2 ((h.indexes s n q).1 hx), rfl⟩
    | table t =>
      obtain ⟨t', ht'⟩ := (h'.tables s n).2 ((h.tables s n).1 ⟨t, hx⟩)
      refine ⟨.table t', ht', ?_⟩
      obtain ⟨a1, a2⟩ := h.table_home s n t hx
      obtain ⟨b1, b2⟩ := h'.table_home s n t' ht'
      have e1 := describeColumns_unique (h.columns s n t hx) (h'.columns s n t' ht')
      have e2 : ∀ m, t.constraints.get? m = t'.constraints.get? m := fun m => option_ext fun k => by
        rw [h.constraints s n t hx, h'.constraints s n t' ht']
      show RelContent.table t.content = .table t'.content
      unfold Table.content
      rw [a1, a2, b1, b2, e1, funext e2]
  funext s
  unfold Database.content
  cases e : d.schemas.get? s with
  | none =>
    cases e' : d'.schemas.get? s with
    | none => rfl
    | some sc =>
      obtain ⟨x, hx⟩ := (h.schemas s).2 ((h'.schemas s).1 ⟨sc, e'⟩)
      rw [e] at hx; cases hx
  | some sc =>
    obtain ⟨sc', e'⟩ := (h'.schemas s).2 ((h.schemas s).1 ⟨sc, e⟩)
    rw [e']
    simp only [Option.map_some, Option.some.injEq]
    unfold Schema.content
    rw [h.schema_name s sc e, h'.schema_name s sc' e']
    congr 1
    · funext n
      cases er : sc.relations.get? n with
      | some x =>
        obtain ⟨y, ⟨sc2, hy1, hy2⟩, hy⟩ := one h h' ⟨sc, e, er⟩
        rw [e'] at hy1
        injection hy1 with hy1
        subst hy1
        rw [hy2]
        simp [hy]
      | none =>
        cases er' : sc'.relations.get? n with
        | none => rfl
        | some y =>
          obtain ⟨x, ⟨sc2, hy1, hy2⟩, hy⟩ := one h' h ⟨sc', e', er'⟩
          rw [e] at hy1
          injection hy1 with hy1
          subst hy1
          rw [er] at hy2; cases hy2
    · funext n
      refine option_ext fun f => ?_
      have h1 := h.functions s n f
      have h2 := h'.functions s n f
      unfold HasFunction at h1 h2
      rw [e] at h1
      rw [e'] at h2
      simp only [Option.some.injEq, exists_eq_left'] at h1 h2
      rw [h1, h2]

/-- The snapshot is well-formed. -/
theorem introspect_wf {c : Catalog} {d : Database} (hi : introspect c = .ok d) : d.WF := by
  obtain ⟨cols, fks, ixs, h, rfl⟩ := introspect_iff.1 hi
  have hk : ∀ {β : Type} (F : String → β), AMap.keys (c.schemas.map fun s => (s, F s)) = c.schemas := by
    intro β F
    have := keys_map c.schemas id F
    simpa using this
  refine ⟨?_, ?_⟩
  · unfold AMap.NodupKeys Parts.build
    exact (hk (c.parts cols fks ixs).schema).symm ▸ h.schemas
  · intro p hp
    obtain ⟨s, hs, rfl⟩ := List.mem_map.1 hp
    refine ⟨rfl, ?_, ?_, ?_, ?_⟩
    · have := nodup_filter_names (place := relPlace) h.rels s
      unfold AMap.NodupKeys Parts.schema
      dsimp only
      rw [keys_map]
      exact this
    · intro q hq
      obtain ⟨r, hr, rfl⟩ := List.mem_map.1 hq
      obtain ⟨hr1, hr2⟩ := List.mem_filter.1 hr
      simp only [decide_eq_true_eq] at hr2
      refine ⟨fill_name _ _, (fill_schemaName _ _).trans hr2, ?_⟩
      cases r with
      | table t =>
        refine ⟨?_, ?_, ?_, ?_⟩
        · have := nodup_filter_names (place := colPlace) h.cols (t.schemaName, t.name)
          have e : colsOf cols t.schemaName t.name =
              cols.filter fun y => (colPlace y).1 = (t.schemaName, t.name) := by
            unfold colsOf
            congr 1
            funext y
            simp [colPlace]
          show ((colsOf cols t.schemaName t.name).map Column.name).Nodup
          rw [e]
          exact this
        · intro x hx
          have := (List.mem_filter.1 hx).2
          simpa using this
        · have := nodup_filter_names (place := conPlace) h.cons (t.schemaName, t.name)
          show (AMap.keys (consOf (c.cons fks) t.schemaName t.name)).Nodup
          have e : AMap.keys (consOf (c.cons fks) t.schemaName t.name) =
              ((c.cons fks).filter fun y => (conPlace y).1 = (t.schemaName, t.name)).map
                fun y => (conPlace y).2 := by
            unfold consOf
            rw [show (fun c : Constraint => (c.name, c)) = fun c => (c.name, id c) from rfl, keys_map]
            have : (fun x : Constraint => decide (x.schemaName = t.schemaName ∧ x.tableName = t.name)) =
                fun y => decide ((conPlace y).1 = (t.schemaName, t.name)) := by
              funext y
              simp [conPlace]
            rw [this]
            rfl
          rw [e]
          exact this
        · intro x hx
          obtain ⟨k, hk, rfl⟩ := List.mem_map.1 hx
          have := (List.mem_filter.1 hk).2
          simp only [decide_eq_true_eq] at this
          exact ⟨rfl, this⟩
      | _ => trivial
    · have := nodup_filter_names (place := funPlace) h.funs s
      show (AMap.keys (((c.functions.map functionOf).filter fun f => f.schemaName = s).map
        fun f => (f.name, f))).Nodup
      rw [show (fun c : Function => (c.name, c)) = fun c => (c.name, id c) from rfl, keys_map]
      exact this
    · intro q hq
      obtain ⟨f, hf, rfl⟩ := List.mem_map.1 hq
      have := (List.mem_filter.1 hf).2
      simp only [decide_eq_true_eq] at this
      exact ⟨rfl, this⟩

end Introspect
end Podo
