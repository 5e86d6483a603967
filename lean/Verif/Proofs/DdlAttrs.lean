import Verif.Proofs.DdlSchema
/-
Unknown attributes (C47) and defaults of sequences (C49).
-/
set_option linter.unusedSimpArgs false
namespace Podo
namespace Def
open Text

/-! ### Unknown attributes -/

/-- When no error was seen, every step went through. -/
theorem readAttrs_all {α : Type} {step : α → Node → Except Fail α} {ns : List Node} {a a' : α}
    {bad : Bool} (h : readAttrs step a bad ns = .ok (a', false)) :
    bad = false ∧ ∀ m ∈ ns, ∃ b b', step b m = .ok b' := by
  induction ns generalizing a bad with
  | nil =>
    rw [readAttrs] at h
    injection h with h
    injection h with h1 h2
    exact ⟨h2, fun m hm => (by cases hm)⟩
  | cons n ns ih =>
    rw [readAttrs] at h
    split at h
    · next b e =>
      obtain ⟨h1, h2⟩ := ih h
      refine ⟨h1, ?_⟩
      intro m hm
      rcases List.mem_cons.1 hm with rfl | hm
      · exact ⟨_, _, e⟩
      · exact h2 m hm
    · exact absurd (ih h).1 (by simp)
    · cases h

/-- A node that holds a value. -/
def IsValue (n : Node) : Prop := ∃ v, n.value = some v

theorem IsValue.known {skip : List String} {n : Node} (h : IsValue n) : ¬ HasUnknown skip n := by
  obtain ⟨v, hv⟩ := h
  cases n with
  | leaf k nm c => intro h; cases h
  | branch k nm ns => cases hv

theorem orErr_ok {α : Type} {o : Option α} {a : α} (h : orErr o = .ok a) : o = some a := by
  cases o with
  | none => cases h
  | some b => injection h with h; rw [h]

theorem bind_isValue {α : Type} {n : Node} {f : Value → Option α} {a : α}
    (h : n.value.bind f = some a) : IsValue n := by
  cases hv : n.value with
  | none => rw [hv] at h; cases h
  | some v => exact ⟨v, hv⟩

theorem coerceStr_value {n : Node} {s : String} (h : coerceStr n = .ok s) : IsValue n :=
  bind_isValue (orErr_ok h)
theorem coerceBool_value {n : Node} {s : Bool} (h : coerceBool n = .ok s) : IsValue n :=
  bind_isValue (orErr_ok h)
theorem coerceInt_value {n : Node} {s : Int} (h : coerceInt n = .ok s) : IsValue n :=
  bind_isValue (orErr_ok h)
theorem coerceVarargs_value {n : Node} {s : List String} (h : coerceVarargs n = .ok s) : IsValue n :=
  bind_isValue (orErr_ok h)
theorem coerceNameStr_value {n : Node} {s : String × String} (h : coerceNameStr n = .ok s) :
    IsValue n := by
  unfold coerceNameStr at h
  split at h
  · next h2 => exact bind_isValue h2
  · cases h
theorem coerceNameVarargs_value {n : Node} {s : String × List String}
    (h : coerceNameVarargs n = .ok s) : IsValue n := by
  unfold coerceNameVarargs at h
  split at h
  · next h2 => exact bind_isValue h2
  · cases h

theorem checkStep_known {a a' : CheckAttrs} {n : Node} (h : checkStep a n = .ok a') :
    n.kind ∈ constraintAttributesOf "check" ∧ IsValue n := by
  unfold checkStep at h
  split at h
  · next hk => rw [hk]; split at h
               · next e => exact ⟨by decide, coerceStr_value e⟩
               · cases h
  split at h
  · next hk => rw [hk]; split at h
               · next e => exact ⟨by decide, coerceBool_value e⟩
               · cases h
  split at h
  · next hk => rw [hk]; split at h
               · next e => exact ⟨by decide, coerceBool_value e⟩
               · cases h
  cases h

theorem primaryKeyStep_known {a a' : PrimaryKeyAttrs} {n : Node} (h : primaryKeyStep a n = .ok a') :
    n.kind ∈ constraintAttributesOf "primary key" ∧ IsValue n := by
  unfold primaryKeyStep at h
  split at h
  · next hk => rw [hk]; split at h
               · next e => exact ⟨by decide, coerceVarargs_value e⟩
               · cases h
  split at h
  · next hk => rw [hk]; split at h
               · next e => exact ⟨by decide, coerceBool_value e⟩
               · cases h
  split at h
  · next hk => rw [hk]; split at h
               · next e => exact ⟨by decide, coerceBool_value e⟩
               · cases h
  cases h

theorem uniqueStep_known {a a' : UniqueAttrs} {n : Node} (h : uniqueStep a n = .ok a') :
    n.kind ∈ constraintAttributesOf "unique" ∧ IsValue n := by
  unfold uniqueStep at h
  split at h
  · next hk => rw [hk]; split at h
               · next e => exact ⟨by decide, coerceVarargs_value e⟩
               · cases h
  split at h
  · next hk => rw [hk]; split at h
               · next e => exact ⟨by decide, coerceBool_value e⟩
               · cases h
  split at h
  · next hk => rw [hk]; split at h
               · next e => exact ⟨by decide, coerceBool_value e⟩
               · cases h
  cases h

theorem foreignKeyStep_known {s : String} {a a' : ForeignKeyAttrs} {n : Node}
    (h : foreignKeyStep s a n = .ok a') :
    n.kind ∈ constraintAttributesOf "foreign key" ∧ IsValue n := by
  unfold foreignKeyStep at h
  split at h
  · next hk => rw [hk]; split at h
               · next e => exact ⟨by decide, coerceVarargs_value e⟩
               · cases h
  split at h
  · next hk => rw [hk]; split at h
               · next e => exact ⟨by decide, coerceNameVarargs_value e⟩
               · cases h
  split at h
  · next hk => rw [hk]; split at h
               · next e => exact ⟨by decide, coerceBool_value e⟩
               · cases h
  split at h
  · next hk => rw [hk]; split at h
               · next e => exact ⟨by decide, coerceBool_value e⟩
               · cases h
  split at h
  · next hk => rw [hk]; split at h
               · next e => exact ⟨by decide, coerceStr_value e⟩
               · cases h
  split at h
  · next hk => rw [hk]; split at h
               · next e => exact ⟨by decide, coerceStr_value e⟩
               · cases h
  split at h
  · next hk => rw [hk]; split at h
               · next e => exact ⟨by decide, coerceStr_value e⟩
               · cases h
  cases h

theorem functionStep_known {a a' : FunctionAttrs} {n : Node} (h : functionStep a n = .ok a') :
    n.kind ∈ attributesOf "function" ∧ IsValue n := by
  unfold functionStep at h
  split at h
  · next hk => rw [hk]; split at h
               · next e => exact ⟨by decide, coerceStr_value e⟩
               · cases h
  split at h
  · next hk => rw [hk]; split at h
               · next e => exact ⟨by decide, coerceStr_value e⟩
               · cases h
  split at h
  · next hk => rw [hk]; split at h
               · next e => exact ⟨by decide, coerceStr_value e⟩
               · cases h
  split at h
  · next hk => rw [hk]; split at h
               · next e => exact ⟨by decide, coerceStr_value e⟩
               · cases h
  cases h

theorem viewStep_known {a a' : Option String} {n : Node} (h : viewStep a n = .ok a') :
    n.kind ∈ attributesOf "view" ∧ IsValue n := by
  unfold viewStep at h
  split at h
  · next hk => rw [hk]; split at h
               · next e => exact ⟨by decide, coerceStr_value e⟩
               · cases h
  cases h

theorem sequenceStep_known {a a' : SequenceAttrs} {n : Node} (h : sequenceStep a n = .ok a') :
    n.kind ∈ attributesOf "sequence" ∧ IsValue n := by
  unfold sequenceStep at h
  split at h
  · next hk => rw [hk]; split at h
               · next e => exact ⟨by decide, coerceStr_value e⟩
               · cases h
  split at h
  · next hk => rw [hk]; split at h
               · next e => exact ⟨by decide, coerceInt_value e⟩
               · cases h
  split at h
  · next hk => rw [hk]; split at h
               · next e => exact ⟨by decide, coerceInt_value e⟩
               · cases h
  split at h
  · next hk => rw [hk]; split at h
               · next e => exact ⟨by decide, coerceInt_value e⟩
               · cases h
  split at h
  · next hk => rw [hk]; split at h
               · next e => exact ⟨by decide, coerceInt_value e⟩
               · cases h
  split at h
  · next hk => rw [hk]; split at h
               · next e => exact ⟨by decide, coerceInt_value e⟩
               · cases h
  split at h
  · next hk => rw [hk]; split at h
               · next e => exact ⟨by decide, coerceBool_value e⟩
               · cases h
  split at h
  · next hk => rw [hk]; split at h
               · next e => exact ⟨by decide, coerceNameStr_value e⟩
               · cases h
  cases h

/-- A definition all of whose children are known attributes with values. -/
theorem known_of_children {skip : List String} {n : Node} {ns : List Node}
    (hn : n.nodes = some ns) (hc : n.kind ≠ "constraint")
    (h : ∀ m ∈ ns, m.kind ∈ attributesOf n.kind ∧ ¬ HasUnknown skip m) : ¬ HasUnknown skip n := by
  intro hu
  cases hu with
  | here _ _ hm hk =>
    injection hn with hn; subst hn
    exact hk (h _ hm).1
  | constraint _ hm hk => exact hc rfl
  | inside _ hm hk =>
    injection hn with hn; subst hn
    exact (h _ hm).2 hk

theorem known_constraint {skip : List String} {n : Node} {first : Node} {rest : List Node}
    (hn : n.nodes = some (first :: rest)) (hc : n.kind = "constraint")
    (h : ∀ m ∈ first :: rest, m.kind ∈ constraintAttributesOf first.kind ∧ IsValue m) :
    ¬ HasUnknown skip n := by
  intro hu
  cases hu with
  | here _ hne hm hk => exact hne hc
  | constraint _ hm hk =>
    injection hn with hn
    injection hn with h1 h2
    subst h1 h2
    exact hk (h _ hm).1
  | inside _ hm hk =>
    injection hn with hn; subst hn
    exact (h _ hm).2.known hk

theorem parseColumn_known {skip : List String} {s t : String} {n : Node} {c : Column}
    (h : parseColumn s t n = .ok c) : ¬ HasUnknown skip n := by
  unfold parseColumn assertKind at h
  split at h
  · split at h
    · cases h
    · split at h
      · cases h
      · next e => exact (coerceStr_value e).known
  · cases h

theorem parseConstraint_known {skip : List String} {s t : String} {n : Node} {c : Constraint}
    (h : parseConstraint s t n = .ok c) : ¬ HasUnknown skip n := by
  unfold parseConstraint at h
  split at h
  · cases h
  · cases h
  · next first rest hns =>
    have hns := orErr_ok hns
    split at h
    · next hk =>
      split at h
      · next d e =>
        obtain ⟨hkind, _, ns', a, bad, _, hn', hr, hf⟩ := readNode_ok_iff.1 e
        rw [hns] at hn'; injection hn' with hn'; subst hn'
        have hb : bad = false := by
          unfold finishPrimaryKey at hf
          split at hf
          · rfl
          · cases hf
        subst hb
        refine known_constraint hns hkind fun m hm => ?_
        obtain ⟨b, b', hs⟩ := (readAttrs_all hr).2 m hm
        rw [hk]; exact primaryKeyStep_known hs
      · cases h
    · split at h
      · next hk =>
        split at h
        · next d e =>
          obtain ⟨hkind, _, ns', a, bad, _, hn', hr, hf⟩ := readNode_ok_iff.1 e
          rw [hns] at hn'; injection hn' with hn'; subst hn'
          have hb : bad = false := by
            unfold finishUnique at hf
            split at hf
            · rfl
            · cases hf
          subst hb
          refine known_constraint hns hkind fun m hm => ?_
          obtain ⟨b, b', hs⟩ := (readAttrs_all hr).2 m hm
          rw [hk]; exact uniqueStep_known hs
        · cases h
      · split at h
        · next hk =>
          split at h
          · next d e =>
            obtain ⟨hkind, _, ns', a, bad, _, hn', hr, hf⟩ := readNode_ok_iff.1 e
            rw [hns] at hn'; injection hn' with hn'; subst hn'
            have hb : bad = false := by
              unfold finishForeignKey at hf
              split at hf
              · rfl
              · cases hf
            subst hb
            refine known_constraint hns hkind fun m hm => ?_
            obtain ⟨b, b', hs⟩ := (readAttrs_all hr).2 m hm
            rw [hk]; exact foreignKeyStep_known hs
          · cases h
        · split at h
          · next hk =>
            split at h
            · next d e =>
              obtain ⟨hkind, _, ns', a, bad, _, hn', hr, hf⟩ := readNode_ok_iff.1 e
              rw [hns] at hn'; injection hn' with hn'; subst hn'
              have hb : bad = false := by
                unfold finishCheck at hf
                split at hf
                · rfl
                · cases hf
              subst hb
              refine known_constraint hns hkind fun m hm => ?_
              obtain ⟨b, b', hs⟩ := (readAttrs_all hr).2 m hm
              rw [hk]; exact checkStep_known hs
            · cases h
          · cases h

theorem tableItem_known {skip : List String} {s t : String} {n : Node} {x : Column ⊕ Constraint}
    (h : tableItem s t n = .ok x) : n.kind ∈ attributesOf "table" ∧ ¬ HasUnknown skip n := by
  unfold tableItem at h
  split at h
  · next hk =>
    split at h
    · next e => exact ⟨by rw [hk]; decide, parseColumn_known e⟩
    · cases h
  · split at h
    · next hk =>
      split at h
      · next e => exact ⟨by rw [hk]; decide, parseConstraint_known e⟩
      · cases h
    · cases h

theorem parseTable_known {skip : List String} {s : String} {n : Node} {t : Table}
    (h : parseTable s n = .ok t) : ¬ HasUnknown skip n := by
  obtain ⟨hk, name, ns, xs, _, hn, hx, _⟩ := parseTable_ok_iff.1 h
  refine known_of_children hn (by rw [hk]; decide) fun m hm => ?_
  obtain ⟨x, _, e⟩ := map_ok_mem' hx hm
  rw [hk]; exact tableItem_known e

theorem parseView_known {skip : List String} {s : String} {n : Node} {t : View}
    (h : parseView s n = .ok t) : ¬ HasUnknown skip n := by
  obtain ⟨hk, name, ns, a, bad, _, hn, hr, hf⟩ := readNode_ok_iff.1 h
  have hb : bad = false := by
    unfold finishView at hf
    split at hf
    · rfl
    · cases hf
  subst hb
  refine known_of_children hn (by rw [hk]; decide) fun m hm => ?_
  obtain ⟨b, b', hs⟩ := (readAttrs_all hr).2 m hm
  rw [hk]; exact ⟨(viewStep_known hs).1, (viewStep_known hs).2.known⟩

theorem parseFunction_known {skip : List String} {s : String} {n : Node} {t : Function}
    (h : parseFunction s n = .ok t) : ¬ HasUnknown skip n := by
  obtain ⟨hk, name, ns, a, bad, _, hn, hr, hf⟩ := readNode_ok_iff.1 h
  have hb : bad = false := by
    unfold finishFunction at hf
    split at hf
    · rfl
    · cases hf
  subst hb
  refine known_of_children hn (by rw [hk]; decide) fun m hm => ?_
  obtain ⟨b, b', hs⟩ := (readAttrs_all hr).2 m hm
  rw [hk]; exact ⟨(functionStep_known hs).1, (functionStep_known hs).2.known⟩

theorem parseSequence_known {skip : List String} {s : String} {n : Node} {t : Sequence}
    (h : parseSequence s n = .ok t) : ¬ HasUnknown skip n := by
  obtain ⟨hk, name, ns, a, bad, _, hn, hr, hf⟩ := readNode_ok_iff.1 h
  have hb : bad = false := by
    unfold finishSequence at hf
    dsimp only at hf
    split at hf
    · cases hf
    · split at hf
      · cases hf
      · split at hf
        · cases hf
        · next h => simpa using h
  subst hb
  refine known_of_children hn (by rw [hk]; decide) fun m hm => ?_
  obtain ⟨b, b', hs⟩ := (readAttrs_all hr).2 m hm
  rw [hk]; exact ⟨(sequenceStep_known hs).1, (sequenceStep_known hs).2.known⟩

theorem skip_known {skip : List String} {n : Node} (h : n.kind ∈ skip) : ¬ HasUnknown skip n := by
  intro hu
  cases hu with
  | here hs => exact hs h
  | constraint hs => exact hs h
  | inside hs => exact hs h

theorem schemaItem_known {s : String} {n : Node} {x : Relation ⊕ Function}
    (h : schemaItem s n = .ok x) :
    n.kind ∈ attributesOf "schema" ∧ ¬ HasUnknown ["index"] n := by
  unfold schemaItem at h
  split at h
  · next hk =>
    obtain ⟨t, e, rfl⟩ := map_ok_iff'.1 h
    exact ⟨by rw [hk]; decide, parseTable_known e⟩
  split at h
  · next hk =>
    obtain ⟨t, e, rfl⟩ := map_ok_iff'.1 h
    exact ⟨by rw [hk]; decide, parseView_known e⟩
  split at h
  · next hk =>
    obtain ⟨t, e, rfl⟩ := map_ok_iff'.1 h
    exact ⟨by rw [hk]; decide, parseSequence_known e⟩
  split at h
  · next hk =>
    exact ⟨by rw [hk]; decide, skip_known (by rw [hk]; decide)⟩
  split at h
  · next hk =>
    obtain ⟨t, e, rfl⟩ := map_ok_iff'.1 h
    exact ⟨by rw [hk]; decide, parseFunction_known e⟩
  cases h

theorem parseSchema_known {n : Node} {s : Schema} (h : parseSchema n = .ok s) :
    ¬ HasUnknown ["index"] n := by
  obtain ⟨hk, name, ns, xs, _, hn, hx, _⟩ := parseSchema_ok_iff.1 h
  refine known_of_children hn (by rw [hk]; decide) fun m hm => ?_
  obtain ⟨x, _, e⟩ := map_ok_mem' hx hm
  rw [hk]; exact schemaItem_known e

/-! ### Defaults of sequences -/

/-- Attributes that no child gives keep their value. -/
theorem readAttrs_keep {α β : Type} {step : α → Node → Except Fail α} {get : α → β} {k : String}
    (hs : ∀ a a' n, step a n = .ok a' → n.kind ≠ k → get a' = get a)
    {ns : List Node} {a a' : α} {bad bad' : Bool} (h : readAttrs step a bad ns = .ok (a', bad'))
    (hn : ∀ m ∈ ns, m.kind ≠ k) : get a' = get a := by
  induction ns generalizing a bad with
  | nil => rw [readAttrs] at h; injection h with h; injection h with h1 h2; rw [h1]
  | cons n ns ih =>
    rw [readAttrs] at h
    have hn' : ∀ m ∈ ns, m.kind ≠ k := fun m hm => hn m (List.mem_cons_of_mem _ hm)
    split at h
    · next b e => rw [ih h hn', hs _ _ _ e (hn n (List.mem_cons_self ..))]
    · exact ih h hn'
    · cases h

theorem childrenOf_nil {n : Node} {ns : List Node} {k : String} (hn : n.nodes = some ns)
    (h : childrenOf n k = []) : ∀ m ∈ ns, m.kind ≠ k := by
  unfold childrenOf at h
  rw [inner_eq, hn] at h
  dsimp only at h
  intro m hm
  have := List.filter_eq_nil_iff.1 h m hm
  simpa using this

/-- What one step does to the attributes: only the one named by the kind may change. -/
theorem sequenceStep_keep {a a' : SequenceAttrs} {n : Node} (h : sequenceStep a n = .ok a') :
    (n.kind ≠ "as" → a'.dataType = a.dataType) ∧
    (n.kind ≠ "increment" → a'.increment = a.increment) ∧
    (n.kind ≠ "minvalue" → a'.minValue = a.minValue) ∧
    (n.kind ≠ "maxvalue" → a'.maxValue = a.maxValue) ∧
    (n.kind ≠ "start" → a'.start = a.start) ∧
    (n.kind ≠ "cache" → a'.cache = a.cache) ∧
    (n.kind ≠ "cycle" → a'.cycle = a.cycle) ∧
    (n.kind ≠ "owned by" → a'.ownedBy = a.ownedBy) := by
  unfold sequenceStep at h
  repeat' split at h
  all_goals first
    | (injection h with h; subst h; rename_i hk _ _ _; simp [hk])
    | cases h

theorem sequence_defaults {ctx : String} {n : Node} {s : Sequence}
    (h : parseSequence ctx n = .ok s) :
    (childrenOf n "as" = [] → s.dataType = "int8") ∧
    (childrenOf n "increment" = [] → s.increment = 1) ∧
    (childrenOf n "cache" = [] → s.cache = 1) ∧
    (childrenOf n "cycle" = [] → s.cycle = false) ∧
    (childrenOf n "owned by" = [] → s.ownedByTable = none ∧ s.ownedByColumn = none) ∧
    (childrenOf n "minvalue" = [] → if s.increment < 0
      then ∃ max, typeRange s.dataType = some (s.minValue, max) else s.minValue = 1) ∧
    (childrenOf n "maxvalue" = [] → if s.increment < 0 then s.maxValue = -1
      else ∃ min, typeRange s.dataType = some (min, s.maxValue)) ∧
    (childrenOf n "start" = [] → s.start = if s.increment < 0 then s.maxValue else s.minValue) := by
  obtain ⟨hk, name, ns, a, bad, _, hn, hr, hf⟩ := readNode_ok_iff.1 h
  have k1 : childrenOf n "as" = [] → a.dataType = none := fun hc =>
    readAttrs_keep (get := SequenceAttrs.dataType) (fun _ _ _ e => (sequenceStep_keep e).1) hr
      (childrenOf_nil hn hc)
  have k2 : childrenOf n "increment" = [] → a.increment = none := fun hc =>
    readAttrs_keep (get := SequenceAttrs.increment) (fun _ _ _ e => (sequenceStep_keep e).2.1) hr
      (childrenOf_nil hn hc)
  have k3 : childrenOf n "minvalue" = [] → a.minValue = none := fun hc =>
    readAttrs_keep (get := SequenceAttrs.minValue) (fun _ _ _ e => (sequenceStep_keep e).2.2.1) hr
      (childrenOf_nil hn hc)
  have k4 : childrenOf n "maxvalue" = [] → a.maxValue = none := fun hc =>
    readAttrs_keep (get := SequenceAttrs.maxValue) (fun _ _ _ e => (sequenceStep_keep e).2.2.2.1) hr
      (childrenOf_nil hn hc)
  have k5 : childrenOf n "start" = [] → a.start = none := fun hc =>
    readAttrs_keep (get := SequenceAttrs.start) (fun _ _ _ e => (sequenceStep_keep e).2.2.2.2.1) hr
      (childrenOf_nil hn hc)
  have k6 : childrenOf n "cache" = [] → a.cache = none := fun hc =>
    readAttrs_keep (get := SequenceAttrs.cache) (fun _ _ _ e => (sequenceStep_keep e).2.2.2.2.2.1) hr
      (childrenOf_nil hn hc)
  have k7 : childrenOf n "cycle" = [] → a.cycle = none := fun hc =>
    readAttrs_keep (get := SequenceAttrs.cycle) (fun _ _ _ e => (sequenceStep_keep e).2.2.2.2.2.2.1)
      hr (childrenOf_nil hn hc)
  have k8 : childrenOf n "owned by" = [] → a.ownedBy = none := fun hc =>
    readAttrs_keep (get := SequenceAttrs.ownedBy) (fun _ _ _ e => (sequenceStep_keep e).2.2.2.2.2.2.2)
      hr (childrenOf_nil hn hc)
  unfold finishSequence at hf
  dsimp only at hf
  split at hf
  · cases hf
  · next min hmin =>
    split at hf
    · cases hf
    · next max hmax =>
      split at hf
      · cases hf
      · injection hf with hf
        subst hf
        dsimp only
        refine ⟨fun hc => by rw [k1 hc]; rfl, fun hc => by rw [k2 hc]; rfl,
          fun hc => by rw [k6 hc]; rfl, fun hc => by rw [k7 hc]; rfl,
          fun hc => by rw [k8 hc]; exact ⟨rfl, rfl⟩, fun hc => ?_, fun hc => ?_, fun hc => ?_⟩
        · rw [k3 hc] at hmin
          unfold orDefault seqMin at hmin
          dsimp only at hmin
          by_cases hi : a.increment.getD 1 < 0
          · rw [if_pos hi]
            rw [if_neg (by omega)] at hmin
            unfold typeRange
            by_cases h2 : a.dataType.getD "int8" = "int2"
            · rw [if_pos h2] at hmin ⊢; injection hmin with hmin; subst hmin; exact ⟨_, rfl⟩
            rw [if_neg h2] at hmin ⊢
            by_cases h4 : a.dataType.getD "int8" = "int4"
            · rw [if_pos h4] at hmin ⊢; injection hmin with hmin; subst hmin; exact ⟨_, rfl⟩
            rw [if_neg h4] at hmin ⊢
            by_cases h8 : a.dataType.getD "int8" = "int8"
            · rw [if_pos h8] at hmin ⊢; injection hmin with hmin; subst hmin; exact ⟨_, rfl⟩
            rw [if_neg h8] at hmin
            cases hmin
          · rw [if_neg hi]
            rw [if_pos (by omega)] at hmin
            injection hmin with hmin
            exact hmin.symm
        · rw [k4 hc] at hmax
          unfold orDefault seqMax at hmax
          dsimp only at hmax
          by_cases hi : a.increment.getD 1 < 0
          · rw [if_pos hi] at hmax ⊢
            injection hmax with hmax
            exact hmax.symm
          · rw [if_neg hi] at hmax ⊢
            unfold typeRange
            by_cases h2 : a.dataType.getD "int8" = "int2"
            · rw [if_pos h2] at hmax ⊢; injection hmax with hmax; subst hmax; exact ⟨_, rfl⟩
            rw [if_neg h2] at hmax ⊢
            by_cases h4 : a.dataType.getD "int8" = "int4"
            · rw [if_pos h4] at hmax ⊢; injection hmax with hmax; subst hmax; exact ⟨_, rfl⟩
            rw [if_neg h4] at hmax ⊢
            by_cases h8 : a.dataType.getD "int8" = "int8"
            · rw [if_pos h8] at hmax ⊢; injection hmax with hmax; subst hmax; exact ⟨_, rfl⟩
            rw [if_neg h8] at hmax
            cases hmax
        · rw [k5 hc]
          show seqStart _ _ _ = _
          unfold seqStart
          by_cases hi : a.increment.getD 1 < 0
          · rw [if_pos hi, if_neg (by omega)]
          · rw [if_neg hi, if_pos (by omega)]

end Def
end Podo
