import Verif.Proofs.NodeSpec
/-
Equality of nodes and the conditions on snapshots are decidable (for the examples).
-/
namespace Podo
namespace Def

deriving instance DecidableEq for Except

mutual
def eqValue : Value → Value → Bool
  | .boolean a, .boolean b => a == b
  | .string a, .string b => a == b
  | .number a, .number b => decide (a = b)
  | .list a, .list b => eqValues a b
  | _, _ => false
def eqValues : List Value → List Value → Bool
  | [], [] => true
  | a :: as, b :: bs => eqValue a b && eqValues as bs
  | _, _ => false
end

mutual
theorem eqValue_iff : ∀ a b : Value, eqValue a b = true ↔ a = b
  | .boolean a, b => by cases b <;> simp [eqValue]
  | .string a, b => by cases b <;> simp [eqValue]
  | .number a, b => by cases b <;> simp [eqValue]
  | .list a, b => by cases b <;> simp [eqValue, eqValues_iff a]
theorem eqValues_iff : ∀ a b : List Value, eqValues a b = true ↔ a = b
  | [], b => by cases b <;> simp [eqValues]
  | a :: as, b => by cases b <;> simp [eqValues, eqValue_iff a, eqValues_iff as]
end

instance : DecidableEq Value := fun a b => decidable_of_iff _ (eqValue_iff a b)

mutual
def eqNode : Node → Node → Bool
  | .leaf k n v, .leaf k' n' v' => decide (k = k' ∧ n = n' ∧ v = v')
  | .branch k n ns, .branch k' n' ns' => decide (k = k' ∧ n = n') && eqNodes ns ns'
  | _, _ => false
def eqNodes : List Node → List Node → Bool
  | [], [] => true
  | a :: as, b :: bs => eqNode a b && eqNodes as bs
  | _, _ => false
end

mutual
theorem eqNode_iff : ∀ a b : Node, eqNode a b = true ↔ a = b
  | .leaf .., b => by cases b <;> simp [eqNode]
  | .branch k n ns, b => by cases b <;> simp [eqNode, eqNodes_iff ns, and_assoc]
theorem eqNodes_iff : ∀ a b : List Node, eqNodes a b = true ↔ a = b
  | [], b => by cases b <;> simp [eqNodes]
  | a :: as, b => by cases b <;> simp [eqNodes, eqNode_iff a, eqNodes_iff as]
end

instance : DecidableEq Node := fun a b => decidable_of_iff _ (eqNode_iff a b)

/-- To find the result of a computation by computing it. -/
theorem exists_ok {ε α : Type} {e : Except ε α} {P : α → Prop} [DecidablePred P]
    (h : (e.toOption.any fun a => decide (P a)) = true) : ∃ a, e = .ok a ∧ P a := by
  cases e with
  | error e => cases h
  | ok a => exact ⟨a, rfl, of_decide_eq_true h⟩

instance {α : Type} (o : Option α) (P : α → Prop) [DecidablePred P] :
    Decidable (∀ a, o = some a → P a) :=
  match o with
  | none => .isTrue (fun _ h => nomatch h)
  | some a => if h : P a then .isTrue (fun _ e => by injection e with e; subst e; exact h)
    else .isFalse (fun f => h (f a rfl))

instance (s : String) : Decidable (Trimmed s) := by unfold Trimmed; infer_instance
instance (s : String) : Decidable (NameOk s) := by unfold NameOk; infer_instance
instance (i : Int) : Decidable (Int64 i) := by unfold Int64; infer_instance
instance (c s t : String) : Decidable (RefOk c s t) := by unfold RefOk; infer_instance

instance (t : String) (n : Bool) (d : Option String) : Decidable (ExprOk t n d) :=
  decidable_of_iff ('=' ∉ t.toList ∧ '!' ∉ t.toList ∧ Trimmed t ∧
    (t ≠ "" ∨ (n = false ∧ d ≠ none)) ∧ ∀ e, d = some e → Trimmed e ∧ '\n' ∉ e.toList)
    ⟨fun ⟨a, b, c, d, e⟩ => ⟨a, b, c, d, e⟩, fun ⟨a, b, c, d, e⟩ => ⟨a, b, c, d, e⟩⟩

instance (c : Column) : Decidable (ColumnOk c) := by unfold ColumnOk; infer_instance

instance (s : Sequence) : Decidable (SequenceOk s) :=
  decidable_of_iff ((s.dataType = "int2" ∨ s.dataType = "int4" ∨ s.dataType = "int8") ∧
    (s.ownedByTable = none ↔ s.ownedByColumn = none)) ⟨fun ⟨a, b⟩ => ⟨a, b⟩, fun ⟨a, b⟩ => ⟨a, b⟩⟩

instance (s : Sequence) : Decidable (SequenceInt64 s) :=
  decidable_of_iff (Int64 s.increment ∧ Int64 s.minValue ∧ Int64 s.maxValue ∧ Int64 s.start ∧
    Int64 s.cache) ⟨fun ⟨a, b, c, d, e⟩ => ⟨a, b, c, d, e⟩, fun ⟨a, b, c, d, e⟩ => ⟨a, b, c, d, e⟩⟩

instance : DecidablePred ConstraintOk
  | .primaryKey _ => .isTrue trivial
  | .unique u => inferInstanceAs (Decidable (u.columns ≠ []))
  | .foreignKey k => inferInstanceAs (Decidable (k.targetColumns ≠ [] ∧
      RefOk k.schemaName k.targetSchema k.targetTable))
  | .check _ => .isTrue trivial

instance : DecidablePred ConstraintNamesOk
  | .primaryKey k => inferInstanceAs (Decidable (NameOk k.name))
  | .unique k => inferInstanceAs (Decidable (NameOk k.name))
  | .foreignKey k => inferInstanceAs (Decidable (NameOk k.name ∧
      NameOk (if k.targetSchema = k.schemaName then k.targetTable
        else k.targetSchema ++ "." ++ k.targetTable)))
  | .check k => inferInstanceAs (Decidable (NameOk k.name))

instance : DecidablePred RelationOk
  | .table t => inferInstanceAs (Decidable ((∀ c ∈ t.columns, ColumnOk c) ∧
      ∀ p ∈ t.constraints, ConstraintOk p.2))
  | .view v => inferInstanceAs (Decidable (v.query ≠ ""))
  | .index _ => .isTrue trivial
  | .sequence s => inferInstanceAs (Decidable (SequenceOk s))

instance : DecidablePred RelationFileOk
  | .table t => inferInstanceAs (Decidable (NameOk t.name ∧ (∀ c ∈ t.columns, NameOk c.name) ∧
      ∀ p ∈ t.constraints, ConstraintNamesOk p.2))
  | .view v => inferInstanceAs (Decidable (NameOk v.name))
  | .index i => inferInstanceAs (Decidable (NameOk i.name ∧ NameOk i.tableName ∧ i.method = "btree" ∧
      ¬ StartsWith "delete" i.tableName ∧ ¬ StartsWith "update" i.tableName))
  | .sequence s => inferInstanceAs (Decidable (NameOk s.name ∧ s.increment = 1 ∧
      ∀ t, s.ownedByTable = some t → NameOk t))

instance (d : Database) : Decidable (SnapshotOk d) := by unfold SnapshotOk; infer_instance

instance (r : Relation) : Decidable (∀ s, r = .sequence s → SequenceInt64 s) :=
  match r with
  | .sequence s => decidable_of_iff (SequenceInt64 s)
      ⟨fun h _ e => by injection e with e; subst e; exact h, fun h => h s rfl⟩
  | .table _ | .view _ | .index _ => .isTrue (fun _ e => nomatch e)

instance (d : Database) : Decidable (SnapshotInt64 d) := by unfold SnapshotInt64; infer_instance

end Def
end Podo
