import Verif.Proofs.Tree
/-
Reading back the definitions of single objects.
-/
set_option linter.unusedSimpArgs false
namespace Podo
namespace Def
open Text

theorem readAttrs_append {α : Type} (step : α → Node → Except Fail α) (a : α) (bad : Bool)
    (xs ys : List Node) :
    readAttrs step a bad (xs ++ ys) =
      match readAttrs step a bad xs with
      | .ok (a', b') => readAttrs step a' b' ys
      | .error e => .error e := by
  induction xs generalizing a bad with
  | nil => rfl
  | cons n ns ih =>
    rw [List.cons_append, readAttrs, readAttrs]
    split
    · exact ih _ _
    · exact ih _ _
    · rfl

theorem readNode_branch {α β : Type} {kind : String} {step : String → α → Node → Except Fail α}
    {init : α} {finish : String → α → Bool → Except Fail β} {name : String} {ns : List Node} {a : α}
    {bad : Bool} (h : readAttrs (step name) init false ns = .ok (a, bad)) :
    readNode kind step init finish (.branch kind (some name) ns) = finish name a bad := by
  unfold readNode assertKind
  rw [if_pos (show (Node.branch kind (some name) ns).kind = kind from rfl)]
  show (match readAttrs (step name) init false ns with
    | Except.error e => Except.error e
    | Except.ok (a, bad) => finish name a bad) = _
  rw [h]

theorem toStrs_map (ss : List String) : Value.toStrs (ss.map .string) = some ss := by
  induction ss with
  | nil => rfl
  | cons s ss ih => rw [List.map_cons, Value.toStrs, ih]; rfl

theorem toVarargs_ofVarargs (ss : List String) : (Value.ofVarargs ss).toVarargs = some ss := by
  match ss with
  | [] => rfl
  | [s] => rfl
  | s :: t :: r =>
    show Value.toStrs ((s :: t :: r).map .string) = _
    exact toStrs_map _

theorem varargs_node (k : String) (n : Option String) (ss : List String) :
    (Node.ofVarargs k n ss).varargs = some ss := toVarargs_ofVarargs ss

theorem parseColumn_iff {s t : String} {c : Column} :
    parseColumn s t (renderColumn c) = .ok c ↔
      c.schemaName = s ∧ c.tableName = t ∧ ColumnOk c := by
  have e : parseColumn s t (renderColumn c) =
      (match parseColumnExpr (renderColumnExpr c.dataType c.notNull c.default).toList with
      | .error e => .error e
      | .ok (ty, notNull, d) =>
        .ok ⟨s, t, c.name, String.ofList ty, notNull, d.map String.ofList⟩) := rfl
  rw [e]
  constructor
  · intro h
    split at h
    · cases h
    · next ty nn d hp =>
      have h' : (⟨s, t, c.name, String.ofList ty, nn, d.map String.ofList⟩ : Column) = c := by
        simpa using h
      have h1 : c.dataType = String.ofList ty := by rw [← h']
      have h2 : c.notNull = nn := by rw [← h']
      have h3 : c.default = d.map String.ofList := by rw [← h']
      have h4 : c.schemaName = s := by rw [← h']
      have h5 : c.tableName = t := by rw [← h']
      refine ⟨h4, h5, parseColumnExpr_iff.mp ?_⟩
      rw [hp, h1, h2, h3, String.toList_ofList]
      cases d <;> simp [String.toList_ofList]
  · rintro ⟨h1, h2, h3⟩
    rw [parseColumnExpr_ok h3]
    simp only []
    obtain ⟨s', t', n, ty, nn, d⟩ := c
    simp only at h1 h2
    subst h1; subst h2
    cases d <;> simp [String.ofList_toList]

/-! ### Constraints -/

theorem readFlags_check (a : CheckAttrs) (bad d i : Bool) :
    readAttrs checkStep a bad (renderFlags d i) =
      .ok ({ a with deferrable := if d then some true else a.deferrable,
                    initiallyDeferred := if i then some true else a.initiallyDeferred }, bad) := by
  cases d <;> cases i <;> rfl

theorem parseCheck_ok (s t : String) (c : Check) :
    parseCheck s t (renderCheck c) = .ok { c with schemaName := s, tableName := t } := by
  have e : readAttrs checkStep {} false
      (Node.ofStr "check" c.expression :: renderFlags c.deferrable c.initiallyDeferred) =
      .ok (⟨some c.expression, if c.deferrable then some true else none,
        if c.initiallyDeferred then some true else none⟩, false) := by
    rw [readAttrs]
    show (readAttrs checkStep ⟨some c.expression, none, none⟩ false
      (renderFlags c.deferrable c.initiallyDeferred)) = _
    rw [readFlags_check]
  unfold parseCheck renderCheck
  rw [readNode_branch e]
  obtain ⟨_, _, n, x, d, i⟩ := c
  cases d <;> cases i <;> rfl

theorem readFlags_pk (a : PrimaryKeyAttrs) (bad d i : Bool) :
    readAttrs primaryKeyStep a bad (renderFlags d i) =
      .ok ({ a with deferrable := if d then some true else a.deferrable,
                    initiallyDeferred := if i then some true else a.initiallyDeferred }, bad) := by
  cases d <;> cases i <;> rfl

theorem parsePrimaryKey_ok (s t : String) (k : PrimaryKey) :
    parsePrimaryKey s t (renderPrimaryKey k) = .ok { k with schemaName := s, tableName := t } := by
  have e : readAttrs primaryKeyStep {} false
      (Node.ofVarargs "primary key" none k.columns ::
        renderFlags k.deferrable k.initiallyDeferred) =
      .ok (⟨some k.columns, if k.deferrable then some true else none,
        if k.initiallyDeferred then some true else none⟩, false) := by
    rw [readAttrs]
    have h1 : primaryKeyStep {} (Node.ofVarargs "primary key" none k.columns)
        = .ok ⟨some k.columns, none, none⟩ := by
      unfold primaryKeyStep coerceVarargs
      rw [if_pos (by rfl), varargs_node]
      rfl
    rw [h1]
    simp only []
    rw [readFlags_pk]
  unfold parsePrimaryKey renderPrimaryKey
  rw [readNode_branch e]
  obtain ⟨_, _, n, x, d, i⟩ := k
  cases d <;> cases i <;> rfl

theorem readFlags_unique (a : UniqueAttrs) (bad d i : Bool) :
    readAttrs uniqueStep a bad (renderFlags d i) =
      .ok ({ a with deferrable := if d then some true else a.deferrable,
                    initiallyDeferred := if i then some true else a.initiallyDeferred }, bad) := by
  cases d <;> cases i <;> rfl

theorem parseUnique_eq (s t : String) (k : Unique) :
    parseUnique s t (renderUnique k) =
      if k.columns = [] then .error .error
      else .ok { k with schemaName := s, tableName := t } := by
  have e : readAttrs uniqueStep {} false
      (Node.ofVarargs "unique" none k.columns ::
        renderFlags k.deferrable k.initiallyDeferred) =
      .ok (⟨k.columns, if k.deferrable then some true else none,
        if k.initiallyDeferred then some true else none⟩, false) := by
    rw [readAttrs]
    have h1 : uniqueStep {} (Node.ofVarargs "unique" none k.columns)
        = .ok ⟨k.columns, none, none⟩ := by
      unfold uniqueStep coerceVarargs
      rw [if_pos (by rfl), varargs_node]
      rfl
    rw [h1]
    simp only []
    rw [readFlags_unique]
  unfold parseUnique renderUnique
  rw [readNode_branch e]
  obtain ⟨_, _, n, x, d, i⟩ := k
  cases x <;> cases d <;> cases i <;> rfl

theorem readFlags_fk (s : String) (a : ForeignKeyAttrs) (bad d i : Bool) :
    readAttrs (foreignKeyStep s) a bad (renderFlags d i) =
      .ok ({ a with deferrable := if d then some true else a.deferrable,
                    initiallyDeferred := if i then some true else a.initiallyDeferred }, bad) := by
  cases d <;> cases i <;> rfl

theorem readStr_match (s : String) (a : ForeignKeyAttrs) (bad : Bool) (v : String) :
    readAttrs (foreignKeyStep s) a bad (strUnless "match" "SIMPLE" v) =
      .ok ({ a with matchOption := if v = "SIMPLE" then a.matchOption else some v }, bad) := by
  unfold strUnless
  by_cases h : v = "SIMPLE"
  · simp [h, readAttrs]
  · rw [if_pos (by simpa using h), if_neg h]; rfl

theorem readStr_update (s : String) (a : ForeignKeyAttrs) (bad : Bool) (v : String) :
    readAttrs (foreignKeyStep s) a bad (strUnless "on update" "NO ACTION" v) =
      .ok ({ a with updateRule := if v = "NO ACTION" then a.updateRule else some v }, bad) := by
  unfold strUnless
  by_cases h : v = "NO ACTION"
  · simp [h, readAttrs]
  · rw [if_pos (by simpa using h), if_neg h]; rfl

theorem readStr_delete (s : String) (a : ForeignKeyAttrs) (bad : Bool) (v : String) :
    readAttrs (foreignKeyStep s) a bad (strUnless "on delete" "NO ACTION" v) =
      .ok ({ a with deleteRule := if v = "NO ACTION" then a.deleteRule else some v }, bad) := by
  unfold strUnless
  by_cases h : v = "NO ACTION"
  · simp [h, readAttrs]
  · rw [if_pos (by simpa using h), if_neg h]; rfl

theorem getD_unless {α : Type} [DecidableEq α] (v d : α) :
    (if v = d then none else some v : Option α).getD d = v := by
  by_cases h : v = d
  · simp [h]
  · simp [h]

theorem getD_flag (b : Bool) : (if b then some true else none : Option Bool).getD false = b := by
  cases b <;> rfl

theorem parseForeignKey_eq (s t : String) (k : ForeignKey) :
    parseForeignKey s t (renderForeignKey s k) =
      match parseTableRef s (renderTableRef s k.targetSchema k.targetTable) with
      | .error _ => .error .error
      | .ok r =>
        if k.targetColumns = [] then .error .error
        else .ok { k with schemaName := s, tableName := t, targetSchema := r.1, targetTable := r.2 } := by
  have hu : ∀ (a : ForeignKeyAttrs) (bad : Bool), readAttrs (foreignKeyStep s) a bad
      (renderFlags k.deferrable k.initiallyDeferred ++
      strUnless "match" "SIMPLE" k.matchOption ++
      strUnless "on update" "NO ACTION" k.updateRule ++
      strUnless "on delete" "NO ACTION" k.deleteRule) =
      .ok ({ a with
        deferrable := if k.deferrable then some true else a.deferrable,
        initiallyDeferred := if k.initiallyDeferred then some true else a.initiallyDeferred
        matchOption := if k.matchOption = "SIMPLE" then a.matchOption else some k.matchOption
        updateRule := if k.updateRule = "NO ACTION" then a.updateRule else some k.updateRule
        deleteRule := if k.deleteRule = "NO ACTION" then a.deleteRule else some k.deleteRule }, bad) := by
    intro a bad
    rw [readAttrs_append, readAttrs_append, readAttrs_append, readFlags_fk]
    simp only []
    rw [readStr_match]
    simp only []
    rw [readStr_update]
    simp only []
    rw [readStr_delete]
  have h1 : foreignKeyStep s {} (Node.ofVarargs "foreign key" none k.columns)
      = .ok { columns := some k.columns } := by
    unfold foreignKeyStep coerceVarargs
    rw [if_pos (by rfl), varargs_node]
    rfl
  have h2 : foreignKeyStep s { columns := some k.columns }
      (Node.ofVarargs "references" (some (renderTableRef s k.targetSchema k.targetTable))
        k.targetColumns) =
      (match parseTableRef s (renderTableRef s k.targetSchema k.targetTable) with
      | .ok r => .ok { columns := some k.columns, target := some r, targetColumns := k.targetColumns }
      | .error e => .error e) := by
    unfold foreignKeyStep coerceNameVarargs
    rw [if_neg (by simp [Node.ofVarargs, Node.kind]), if_pos (by rfl), varargs_node]
    rfl
  have hperr : ∀ {x y e}, parseTableRef x y = .error e → e = .error := by
    intro x y e h
    unfold parseTableRef at h
    split at h <;> cases h
    rfl
  unfold parseForeignKey renderForeignKey
  cases hr : parseTableRef s (renderTableRef s k.targetSchema k.targetTable) with
  | error e =>
    have := hperr hr
    subst this
    rw [hr] at h2
    have e := hu { columns := some k.columns } true
    rw [readNode_branch (by rw [readAttrs, h1]; simp only []; rw [readAttrs, h2]; simp only []; exact e)]
    rfl
  | ok r =>
    rw [hr] at h2
    have e := hu { columns := some k.columns, target := some r, targetColumns := k.targetColumns } false
    rw [readNode_branch (by rw [readAttrs, h1]; simp only []; rw [readAttrs, h2]; simp only []; exact e)]
    unfold finishForeignKey
    simp only [getD_flag, getD_unless]
    cases htc : k.targetColumns with
    | nil => simp
    | cons a b => simp

theorem parseConstraint_iff {s t : String} {c : Constraint} :
    parseConstraint s t (renderConstraint s c) = .ok c ↔
      c.schemaName = s ∧ c.tableName = t ∧ ConstraintOk c := by
  cases c with
  | primaryKey k =>
    have e : parseConstraint s t (renderConstraint s (.primaryKey k)) =
        match parsePrimaryKey s t (renderPrimaryKey k) with
        | .ok d => .ok (.primaryKey d)
        | .error e => .error e := rfl
    rw [e, parsePrimaryKey_ok]
    obtain ⟨a, b, c, d, e, f⟩ := k
    simp [ConstraintOk, Constraint.schemaName, Constraint.tableName, eq_comm]
  | check k =>
    have e : parseConstraint s t (renderConstraint s (.check k)) =
        match parseCheck s t (renderCheck k) with
        | .ok d => .ok (.check d)
        | .error e => .error e := rfl
    rw [e, parseCheck_ok]
    obtain ⟨a, b, c, d, e, f⟩ := k
    simp [ConstraintOk, Constraint.schemaName, Constraint.tableName, eq_comm]
  | unique k =>
    have e : parseConstraint s t (renderConstraint s (.unique k)) =
        match parseUnique s t (renderUnique k) with
        | .ok d => .ok (.unique d)
        | .error e => .error e := rfl
    rw [e, parseUnique_eq]
    obtain ⟨a, b, c, d, e, f⟩ := k
    cases d with
    | nil => simp [ConstraintOk]
    | cons x y => simp [ConstraintOk, Constraint.schemaName, Constraint.tableName, eq_comm]
  | foreignKey k =>
    have e : parseConstraint s t (renderConstraint s (.foreignKey k)) =
        match parseForeignKey s t (renderForeignKey s k) with
        | .ok d => .ok (.foreignKey d)
        | .error e => .error e := rfl
    rw [e, parseForeignKey_eq]
    constructor
    · intro h
      split at h
      · next d hd =>
        split at hd
        · cases hd
        · next r hr =>
          split at hd
          · cases hd
          · next hne =>
            have hk : d = k := by simpa using h
            subst hk
            have he : ({ d with
                schemaName := s, tableName := t, targetSchema := r.1, targetTable := r.2 } :
                ForeignKey) = d := by simpa using hd
            have h1 : d.schemaName = s := by rw [← he]
            have h2 : d.tableName = t := by rw [← he]
            have h3 : d.targetSchema = r.1 := by rw [← he]
            have h4 : d.targetTable = r.2 := by rw [← he]
            refine ⟨h1, h2, hne, ?_⟩
            rw [h1]
            apply parseTableRef_iff.mp
            rw [hr, h3, h4]
      · cases h
    · rintro ⟨h1, h2, h3, h4⟩
      simp only [Constraint.schemaName, Constraint.tableName] at h1 h2
      rw [h1] at h4
      rw [parseTableRef_iff.mpr h4]
      simp only [if_neg h3]
      obtain ⟨⟩ := k
      simp only at h1 h2
      subst h1; subst h2
      rfl

/-! ### Views, indexes, functions, sequences -/

theorem parseView_iff {s : String} {v : View} :
    (∃ n, renderView s v = .ok n ∧ parseView s n = .ok v) ↔ v.schemaName = s ∧ v.query ≠ "" := by
  unfold renderView
  constructor
  · rintro ⟨n, h, hp⟩
    split at h
    · next hs =>
      refine ⟨hs, ?_⟩
      intro hq
      cases h
      rw [hq] at hp
      cases hp
    · cases h
  · rintro ⟨h1, h2⟩
    rw [if_pos h1, if_pos (by simpa using h2)]
    refine ⟨_, rfl, ?_⟩
    show Except.ok (⟨s, v.name, v.query⟩ : View) = _
    rw [← h1]

theorem parseIndex_iff {s : String} {i : Index} :
    parseIndex s (renderIndex i) = .ok i ↔ i.schemaName = s := by
  have h1 : ∀ a bad, readAttrs indexStep a bad
      (if i.unique != false then [Node.ofBool "unique" i.unique] else []) =
      .ok ({ a with unique := if i.unique then some true else a.unique }, bad) := by
    intro a bad
    cases i.unique <;> rfl
  have h2 : ∀ a bad, readAttrs indexStep a bad (strUnless "using" "btree" i.method) =
      .ok ({ a with method := if i.method = "btree" then a.method else some i.method }, bad) := by
    intro a bad
    unfold strUnless
    by_cases h : i.method = "btree"
    · simp [h, readAttrs]
    · rw [if_pos (by simpa using h), if_neg h]; rfl
  have h3 : ∀ a bad, readAttrs indexStep a bad
      [Node.ofVarargs "on" (some i.tableName) i.keyExpressions] =
      .ok ({ a with on := some (i.tableName, i.keyExpressions) }, bad) := by
    intro a bad
    rw [readAttrs]
    have : indexStep a (Node.ofVarargs "on" (some i.tableName) i.keyExpressions) =
        .ok { a with on := some (i.tableName, i.keyExpressions) } := by
      unfold indexStep coerceNameVarargs
      rw [if_neg (by simp [Node.ofVarargs, Node.kind]), if_pos (by rfl), varargs_node]
      rfl
    rw [this]
    rfl
  have e : parseIndex s (renderIndex i) = .ok { i with schemaName := s } := by
    unfold parseIndex renderIndex
    rw [readNode_branch (by
      rw [readAttrs_append, readAttrs_append, h1]
      simp only []
      rw [h2]
      simp only []
      rw [h3])]
    unfold finishIndex
    simp only [getD_flag, getD_unless]
  rw [e]
  obtain ⟨⟩ := i
  simp [eq_comm]

theorem parseFunction_iff {s : String} {f : Function} :
    parseFunction s (renderFunction f) = .ok f ↔ f.schemaName = s := by
  have h1 : ∀ a bad v, readAttrs functionStep a bad (strUnless "language" "SQL" v) =
      .ok ({ a with language := if v = "SQL" then a.language else some v }, bad) := by
    intro a bad v
    unfold strUnless
    by_cases h : v = "SQL"
    · simp [h, readAttrs]
    · rw [if_pos (by simpa using h), if_neg h]; rfl
  have h2 : ∀ a bad v, readAttrs functionStep a bad (strUnless "returns" "void" v) =
      .ok ({ a with returns := if v = "void" then a.returns else some v }, bad) := by
    intro a bad v
    unfold strUnless
    by_cases h : v = "void"
    · simp [h, readAttrs]
    · rw [if_pos (by simpa using h), if_neg h]; rfl
  have h3 : ∀ a bad v, readAttrs functionStep a bad (strUnless "volatility" "VOLATILE" v) =
      .ok ({ a with volatility := if v = "VOLATILE" then a.volatility else some v }, bad) := by
    intro a bad v
    unfold strUnless
    by_cases h : v = "VOLATILE"
    · simp [h, readAttrs]
    · rw [if_pos (by simpa using h), if_neg h]; rfl
  have e : parseFunction s (renderFunction f) = .ok { f with schemaName := s } := by
    unfold parseFunction renderFunction
    rw [readNode_branch (a := FunctionAttrs.mk (some f.body)
      (if f.language = "SQL" then none else some f.language)
      (if f.returns = "void" then none else some f.returns)
      (if f.volatility = "VOLATILE" then none else some f.volatility)) (bad := false) (by
      show readAttrs functionStep { body := some f.body } false (_ ++ _ ++ _) = _
      rw [readAttrs_append, readAttrs_append, h1]
      simp only []
      rw [h2]
      simp only []
      rw [h3])]
    unfold finishFunction
    simp only [getD_flag, getD_unless]
  rw [e]
  obtain ⟨⟩ := f
  simp [eq_comm]

theorem seqMin_ok {inc : Int} {ty : String} (h : ty = "int2" ∨ ty = "int4" ∨ ty = "int8") :
    ∃ m, seqMin inc ty = .ok m := by
  unfold seqMin
  rcases h with rfl | rfl | rfl
  · split
    · exact ⟨_, rfl⟩
    · exact ⟨_, rfl⟩
  · split
    · exact ⟨_, rfl⟩
    · exact ⟨_, rfl⟩
  · split
    · exact ⟨_, rfl⟩
    · exact ⟨_, rfl⟩

theorem seqMax_ok {inc : Int} {ty : String} (h : ty = "int2" ∨ ty = "int4" ∨ ty = "int8") :
    ∃ m, seqMax inc ty = .ok m := by
  unfold seqMax
  rcases h with rfl | rfl | rfl
  · split
    · exact ⟨_, rfl⟩
    · exact ⟨_, rfl⟩
  · split
    · exact ⟨_, rfl⟩
    · exact ⟨_, rfl⟩
  · split
    · exact ⟨_, rfl⟩
    · exact ⟨_, rfl⟩

/-- One of the two defaults needs a known type. -/
theorem seq_type_ok {inc : Int} {ty : String} {m M : Int} (h1 : seqMin inc ty = .ok m)
    (h2 : seqMax inc ty = .ok M) : ty = "int2" ∨ ty = "int4" ∨ ty = "int8" := by
  unfold seqMin at h1
  unfold seqMax at h2
  by_cases hi : inc ≥ 0
  · rw [if_neg (by omega)] at h2
    split at h2
    · next h => exact .inl h
    · split at h2
      · next h => exact .inr (.inl h)
      · split at h2
        · next h => exact .inr (.inr h)
        · cases h2
  · rw [if_neg hi] at h1
    split at h1
    · next h => exact .inl h
    · split at h1
      · next h => exact .inr (.inl h)
      · split at h1
        · next h => exact .inr (.inr h)
        · cases h1

theorem readSeq_str (a : SequenceAttrs) (bad : Bool) (v : String) :
    readAttrs sequenceStep a bad (strUnless "as" "int8" v) =
      .ok ({ a with dataType := if v = "int8" then a.dataType else some v }, bad) := by
  unfold strUnless
  by_cases h : v = "int8"
  · simp [h, readAttrs]
  · rw [if_pos (by simpa using h), if_neg h]; rfl

theorem readSeq_inc (a : SequenceAttrs) (bad : Bool) (d v : Int) :
    readAttrs sequenceStep a bad (intUnless "increment" d v) =
      .ok ({ a with increment := if v = d then a.increment else some v }, bad) := by
  unfold intUnless
  by_cases h : v = d
  · simp [h, readAttrs]
  · rw [if_pos (by simpa using h), if_neg h]; rfl

theorem readSeq_min (a : SequenceAttrs) (bad : Bool) (d v : Int) :
    readAttrs sequenceStep a bad (intUnless "minvalue" d v) =
      .ok ({ a with minValue := if v = d then a.minValue else some v }, bad) := by
  unfold intUnless
  by_cases h : v = d
  · simp [h, readAttrs]
  · rw [if_pos (by simpa using h), if_neg h]; rfl

theorem readSeq_max (a : SequenceAttrs) (bad : Bool) (d v : Int) :
    readAttrs sequenceStep a bad (intUnless "maxvalue" d v) =
      .ok ({ a with maxValue := if v = d then a.maxValue else some v }, bad) := by
  unfold intUnless
  by_cases h : v = d
  · simp [h, readAttrs]
  · rw [if_pos (by simpa using h), if_neg h]; rfl

theorem readSeq_start (a : SequenceAttrs) (bad : Bool) (d v : Int) :
    readAttrs sequenceStep a bad (intUnless "start" d v) =
      .ok ({ a with start := if v = d then a.start else some v }, bad) := by
  unfold intUnless
  by_cases h : v = d
  · simp [h, readAttrs]
  · rw [if_pos (by simpa using h), if_neg h]; rfl

theorem readSeq_cache (a : SequenceAttrs) (bad : Bool) (d v : Int) :
    readAttrs sequenceStep a bad (intUnless "cache" d v) =
      .ok ({ a with cache := if v = d then a.cache else some v }, bad) := by
  unfold intUnless
  by_cases h : v = d
  · simp [h, readAttrs]
  · rw [if_pos (by simpa using h), if_neg h]; rfl

theorem readSeq_cycle (a : SequenceAttrs) (bad : Bool) (v : Bool) :
    readAttrs sequenceStep a bad (if v != false then [Node.ofBool "cycle" v] else []) =
      .ok ({ a with cycle := if v then some true else a.cycle }, bad) := by
  cases v <;> rfl

/-- The owner a definition gives. -/
def ownerOf (s : Sequence) : Option (String × String) :=
  match s.ownedByTable, s.ownedByColumn with
  | some t, some c => some (t, c)
  | _, _ => none

theorem readSeq_owner {a : SequenceAttrs} {bad : Bool} {s : Sequence} {ns : List Node}
    (h : renderOwner s = .ok ns) (ha : a.ownedBy = none) :
    readAttrs sequenceStep a bad ns = .ok ({ a with ownedBy := ownerOf s }, bad) := by
  unfold renderOwner at h
  unfold ownerOf
  obtain ⟨⟩ := a
  simp only at ha
  subst ha
  split at h
  · next h1 => cases h; rw [h1]; rfl
  · next h1 h2 => cases h; rw [h1, h2]; rfl
  · cases h

theorem orDefault_unless (v d : Int) {x : Except Fail Int} (hx : x = .ok d) :
    orDefault (if v = d then none else some v) x = .ok v := by
  by_cases h : v = d
  · simp [h, orDefault, hx]
  · simp [h, orDefault]

theorem parseSequence_eq {c : String} {s : Sequence} {n : Node} (h : renderSequence s = .ok n) :
    parseSequence c n = .ok { s with
      schemaName := c, ownedByTable := (ownerOf s).map Prod.fst,
      ownedByColumn := (ownerOf s).map Prod.snd } := by
  unfold renderSequence at h
  split at h
  · cases h
  · next min hmin =>
    split at h
    · cases h
    · next max hmax =>
      split at h
      · cases h
      · next owner ho =>
        cases h
        unfold parseSequence
        rw [readNode_branch (by
          rw [readAttrs_append, readAttrs_append, readAttrs_append, readAttrs_append,
            readAttrs_append, readAttrs_append, readAttrs_append, readSeq_str]
          simp only []
          rw [readSeq_inc]
          simp only []
          rw [readSeq_min]
          simp only []
          rw [readSeq_max]
          simp only []
          rw [readSeq_start]
          simp only []
          rw [readSeq_cache]
          simp only []
          rw [readSeq_cycle]
          simp only []
          rw [readSeq_owner ho rfl])]
        unfold finishSequence
        simp only [getD_flag, getD_unless]
        rw [orDefault_unless _ _ hmin]
        simp only []
        rw [orDefault_unless _ _ hmax]
        simp only [getD_unless]
        rfl

theorem parseSequence_iff {c : String} {s : Sequence} :
    (∃ n, renderSequence s = .ok n ∧ parseSequence c n = .ok s) ↔
      s.schemaName = c ∧ SequenceOk s := by
  constructor
  · rintro ⟨n, h, hp⟩
    rw [parseSequence_eq h] at hp
    have he : { s with
      schemaName := c, ownedByTable := (ownerOf s).map Prod.fst,
      ownedByColumn := (ownerOf s).map Prod.snd } = s := by simpa using hp
    have h1 : s.schemaName = c := by rw [← he]
    have h2 : s.ownedByTable = (ownerOf s).map Prod.fst := by rw (occs := .pos [1]) [← he]
    have h3 : s.ownedByColumn = (ownerOf s).map Prod.snd := by rw (occs := .pos [1]) [← he]
    refine ⟨h1, ?_, ?_⟩
    · unfold renderSequence at h
      split at h
      · cases h
      · next hmin =>
        split at h
        · cases h
        · next hmax => exact seq_type_ok hmin hmax
    · rw [h2, h3]
      cases ownerOf s <;> simp
  · rintro ⟨h1, h2, h3⟩
    obtain ⟨min, hmin⟩ := seqMin_ok (inc := s.increment) h2
    obtain ⟨max, hmax⟩ := seqMax_ok (inc := s.increment) h2
    have ho : ∃ ns, renderOwner s = .ok ns := by
      unfold renderOwner
      split
      · exact ⟨_, rfl⟩
      · exact ⟨_, rfl⟩
      · next t ht hc => rw [h3.mpr hc] at ht; cases ht
    obtain ⟨ns, ho⟩ := ho
    have hr : ∃ n, renderSequence s = .ok n := by
      unfold renderSequence
      rw [hmin]
      simp only []
      rw [hmax]
      simp only []
      rw [ho]
      exact ⟨_, rfl⟩
    obtain ⟨n, hn⟩ := hr
    refine ⟨n, hn, ?_⟩
    rw [parseSequence_eq hn]
    have e2 : (ownerOf s).map Prod.fst = s.ownedByTable := by
      unfold ownerOf
      split
      · next h _ => rw [h]; rfl
      · next h =>
        cases ht : s.ownedByTable with
        | none => rfl
        | some t =>
          cases hc : s.ownedByColumn with
          | none => rw [h3.mpr hc] at ht; cases ht
          | some c => exact absurd hc (h _ _ ht)
    have e3 : (ownerOf s).map Prod.snd = s.ownedByColumn := by
      unfold ownerOf
      split
      · next _ h => rw [h]; rfl
      · next h =>
        cases hc : s.ownedByColumn with
        | none => rfl
        | some c =>
          cases ht : s.ownedByTable with
          | none => rw [h3.mp ht] at hc; cases hc
          | some t => exact absurd hc (h _ _ ht)
    rw [e2, e3, ← h1]

end Def
end Podo
