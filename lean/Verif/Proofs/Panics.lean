import Verif.Spec.Panics
import Verif.Proofs.Accepts
/-
Which definition files make the program panic (C48).
-/
set_option linter.unusedSimpArgs false
set_option linter.unusedVariables false
namespace Podo
namespace Def
open Text

theorem readAttrs_not_error {α : Type} {step : α → Node → Except Fail α} : ∀ (ns : List Node) (a : α) (b : Bool),
    readAttrs step a b ns ≠ .error .error
  | [], a, b => by intro h; cases h
  | n :: ns, a, b => by
    rw [readAttrs]
    split
    · exact readAttrs_not_error _ _ _
    · exact readAttrs_not_error _ _ _
    · intro h; cases h

theorem readAttrs_panic {α ι : Type} {step : α → Node → Except Fail α} {f : Node → Except Fail ι}
    {push : α → ι → α} (hs : ∀ a n, step a n = (f n).map (push a)) : ∀ (ns : List Node) (a : α) (b : Bool),
    readAttrs step a b ns = .error .panic ↔ ∃ m ∈ ns, f m = .error .panic
  | [], a, b => by simp [readAttrs]
  | n :: ns, a, b => by
    rw [readAttrs, hs]
    cases hf : f n with
    | ok x =>
      rw [Except.map]
      dsimp only
      rw [readAttrs_panic hs ns]
      simp [hf]
    | error e =>
      cases e with
      | error =>
        rw [Except.map]
        dsimp only
        rw [readAttrs_panic hs ns]
        simp [hf]
      | panic =>
        rw [Except.map]
        simp [hf]

theorem readNode_panic {α β : Type} {kind : String} {step : String → α → Node → Except Fail α} {init : α}
    {finish : String → α → Bool → Except Fail β} {n : Node} :
    readNode kind step init finish n = .error .panic ↔ n.kind ≠ kind ∨
      ∃ name ns, n.name = some name ∧ inner n = some ns ∧
        (readAttrs (step name) init false ns = .error .panic ∨
         ∃ a bad, readAttrs (step name) init false ns = .ok (a, bad) ∧ finish name a bad = .error .panic) := by
  rw [inner_eq]
  unfold readNode assertKind coerceName coerceNodes
  by_cases hk : n.kind = kind
  · rw [if_pos hk]
    cases hn : n.name with
    | none => simp [orErr, hk]
    | some name =>
      cases hns : n.nodes with
      | none => simp [orErr, hk]
      | some ns =>
        dsimp only [orErr]
        cases hr : readAttrs (step name) init false ns with
        | error e =>
          cases e with
          | error => exact absurd hr (readAttrs_not_error ns init false)
          | panic => simp [hk, hr]
        | ok x =>
          obtain ⟨a, bad⟩ := x
          dsimp only
          constructor
          · intro h; exact .inr ⟨name, ns, rfl, rfl, .inr ⟨a, bad, hr, h⟩⟩
          · rintro (h | ⟨_, _, h1, h2, h⟩)
            · exact absurd hk h
            · cases h1; cases h2
              rw [hr] at h
              rcases h with h | ⟨_, _, h1, h⟩
              · cases h
              · cases h1; exact h
  · rw [if_neg hk]; simp [hk]

/-! ### Objects -/

theorem parseColumn_panic {s t : String} {n : Node} (hk : n.kind = "column") :
    parseColumn s t n ≠ .error .panic := parseColumn_calm hk

theorem parseConstraint_panic {s t : String} {n : Node} (hk : n.kind = "constraint") :
    parseConstraint s t n = .error .panic ↔ ConstraintUnsorted n := by
  constructor
  · intro h
    by_cases ho : ConstraintOrderly n
    · exact absurd h (parseConstraint_calm hk ho)
    · unfold ConstraintOrderly at ho
      cases hi : inner n with
      | none => exact absurd (fun ms e => by rw [hi] at e; cases e) ho
      | some ms =>
        refine ⟨ms, hi, ?_⟩
        rintro first rest rfl hm
        apply ho
        intro ms' e
        rw [hi] at e
        injection e with e
        subst e
        refine ⟨first, rest, rfl, ?_⟩
        simpa using hm
  · rintro ⟨ms, hi, h⟩
    rw [inner_eq] at hi
    unfold parseConstraint coerceNodes
    rw [hi]
    cases ms with
    | nil => rfl
    | cons first rest =>
      have := h first rest rfl
      simp only [List.mem_cons, List.not_mem_nil, or_false, not_or] at this
      dsimp only [orErr]
      rw [if_neg this.1, if_neg this.2.1, if_neg this.2.2.1, if_neg this.2.2.2]

theorem tableItem_panic {s t : String} {m : Node} :
    tableItem s t m = .error .panic ↔ m.kind = "constraint" ∧ ConstraintUnsorted m := by
  unfold tableItem
  by_cases h1 : m.kind = "column"
  · rw [if_pos h1]
    have := parseColumn_panic (s := s) (t := t) h1
    constructor
    · intro h
      split at h
      · cases h
      · next e => cases h; exact absurd e this
    · rintro ⟨h, _⟩; rw [h1] at h; exact absurd h (by decide)
  rw [if_neg h1]
  by_cases h2 : m.kind = "constraint"
  · rw [if_pos h2, ← parseConstraint_panic (s := s) (t := t) h2]
    cases parseConstraint s t m with
    | ok c => simp
    | error e => cases e <;> simp [h2]
  · rw [if_neg h2]; simp [h2]

theorem finishTable_panic {s name : String} {a : List Column × List Constraint} {bad : Bool} :
    finishTable s name a bad = .error .panic ↔
      bad = false ∧ ¬ ((a.1.map Column.name).Nodup ∧ (a.2.map Constraint.name).Nodup) := by
  have hc : ∀ (cs : List Column) (t : Table), addColumns t cs ≠ .error .error := by
    intro cs
    induction cs with
    | nil => intro t h; cases h
    | cons c cs ih =>
      intro t
      rw [addColumns]
      split
      · intro h; cases h
      · exact ih _
  have hd : ∀ (cs : List Constraint) (t : Table), addConstraints t cs ≠ .error .error := by
    intro cs
    induction cs with
    | nil => intro t h; cases h
    | cons c cs ih =>
      intro t
      rw [addConstraints]
      split
      · intro h; cases h
      · exact ih _
  cases bad with
  | true => simp [finishTable]
  | false =>
    cases hf : finishTable s name a false with
    | ok t =>
      obtain ⟨_, h1, h2, _⟩ := finishTable_ok_iff.1 hf
      simp [h1, h2]
    | error e =>
      have he : e = .panic := by
        cases e with
        | panic => rfl
        | error =>
          exfalso
          unfold finishTable at hf
          rw [if_neg (by simp)] at hf
          split at hf
          · next h => rw [hf] at h; exact hc _ _ h
          · exact hd _ _ hf
      subst he
      refine ⟨fun _ => ⟨rfl, ?_⟩, fun _ => rfl⟩
      rintro ⟨h1, h2⟩
      rw [finishTable_ok_iff.2 ⟨rfl, h1, h2, rfl⟩] at hf
      cases hf

theorem parseTable_panic {s : String} {n : Node} (hk : n.kind = "table") :
    parseTable s n = .error .panic ↔ TablePanics s n := by
  unfold parseTable
  rw [readNode_panic]
  unfold TablePanics
  simp only [hk, ne_eq, not_true, false_or, true_and]
  cases hname : n.name with
  | none => simp
  | some name =>
    cases hi : inner n with
    | none => simp
    | some ms =>
      simp only [Option.some.injEq, exists_eq_left', exists_and_left, reduceCtorEq, not_false_eq_true, true_and]
      have hms : n.nodes = some ms := (inner_eq n).symm.trans hi
      rw [readAttrs_panic (tableStep_eq s name)]
      simp only [tableItem_panic]
      refine or_congr Iff.rfl ?_
      constructor
      · rintro ⟨a, bad, hr, hf⟩
        obtain ⟨rfl, hnd⟩ := finishTable_panic.1 hf
        obtain ⟨_, xs, hx, ha⟩ := (readAttrs_items (tableStep_eq s name) _ _ _ _).1 hr
        rw [foldl_pushTableItem] at ha
        simp only [List.nil_append] at ha
        subst ha
        obtain ⟨i1, i2⟩ := table_names hx
        refine ⟨fun m hm => ?_, ?_⟩
        · obtain ⟨x, _, e⟩ := map_ok_mem' hx hm
          exact tableItem_accepts.1 ⟨x, e⟩
        · rw [childrenOf_eq hms, childrenOf_eq hms, i1, i2, nodup_some_iff, nodup_some_iff]
          exact hnd
      · rintro ⟨hall, hnd⟩
        obtain ⟨xs, hx⟩ := map_ok_exists.2 fun m hm => tableItem_accepts.2 (hall m hm)
        refine ⟨_, false, (readAttrs_items (tableStep_eq s name) _ _ _ _).2 ⟨rfl, xs, hx, rfl⟩, ?_⟩
        obtain ⟨i1, i2⟩ := table_names hx
        rw [childrenOf_eq hms, childrenOf_eq hms, i1, i2, nodup_some_iff, nodup_some_iff] at hnd
        refine finishTable_panic.2 ⟨rfl, ?_⟩
        rw [foldl_pushTableItem]
        simpa using hnd

theorem parseIndex_panic {s : String} {n : Node} (hk : n.kind = "index") :
    parseIndex s n = .error .panic ↔ IndexPanics n := by
  unfold IndexPanics
  have hacc := parseIndex_accepts (s := s) (n := n)
  unfold IndexAccepted at hacc
  unfold parseIndex at hacc ⊢
  rw [readNode_panic]
  simp only [hk, ne_eq, not_true, false_or, true_and]
  cases hname : n.name with
  | none => simp
  | some name =>
    cases hi : inner n with
    | none => simp
    | some ms =>
      have hms : n.nodes = some ms := (inner_eq n).symm.trans hi
      obtain ⟨a, bad, hr⟩ := readAttrs_calm (a := {}) (bad := false) (ns := ms) fun a m _ => calm_indexStep a m
      have hok : ∀ x, readNode "index" (fun _ => indexStep) {} (finishIndex s) n = .ok x ↔
          finishIndex s name a bad = .ok x := by
        intro x
        rw [readNode_ok_iff]
        constructor
        · rintro ⟨_, _, _, _, _, h1, h2, h3, h⟩
          rw [hname] at h1; cases h1
          rw [hms] at h2; cases h2
          rw [hr] at h3; cases h3
          exact h
        · intro h; exact ⟨hk, name, ms, a, bad, hname, hms, hr, h⟩
      simp only [hok, hk, hname, hi] at hacc
      simp only [Option.some.injEq, exists_eq_left', exists_and_left, hr, reduceCtorEq, false_or, Except.ok.injEq,
        Prod.mk.injEq, not_false_eq_true, true_and] at hacc ⊢
      have : (∀ m ∈ ms, ¬ (IsTexts "on" m ∧ ¬ m.name = none)) ↔
          ¬ ∃ x, finishIndex s name a bad = .ok x := by
        rw [hacc]; simp
      rw [this]
      constructor
      · rintro ⟨a', bad', ⟨rfl, rfl⟩, h⟩ ⟨x, hx⟩; rw [h] at hx; cases hx
      · intro h
        refine ⟨a, bad, ⟨rfl, rfl⟩, ?_⟩
        unfold finishIndex at h ⊢
        split
        · rfl
        · next hon => exact absurd ⟨_, by rw [hon]⟩ h


theorem seqMin_panic {i : Int} {t : String} : seqMin i t ≠ .error .error := by
  unfold seqMin
  repeat' split
  all_goals simp
theorem seqMax_panic {i : Int} {t : String} : seqMax i t ≠ .error .error := by
  unfold seqMax
  repeat' split
  all_goals simp

theorem finishSequence_panic {s name : String} {a : SequenceAttrs} {bad : Bool} :
    finishSequence s name a bad = .error .panic ↔ typeRange (a.dataType.getD "int8") = none ∧
      if a.increment.getD 1 < 0 then a.minValue = none else a.maxValue = none := by
  have h1 := orDefault_accepts (x := a.minValue) (d := seqMin (a.increment.getD 1) (a.dataType.getD "int8"))
  have h2 := orDefault_accepts (x := a.maxValue) (d := seqMax (a.increment.getD 1) (a.dataType.getD "int8"))
  have e1 : orDefault a.minValue (seqMin (a.increment.getD 1) (a.dataType.getD "int8")) ≠ .error .error := by
    unfold orDefault; split
    · intro h; cases h
    · exact seqMin_panic
  have e2 : orDefault a.maxValue (seqMax (a.increment.getD 1) (a.dataType.getD "int8")) ≠ .error .error := by
    unfold orDefault; split
    · intro h; cases h
    · exact seqMax_panic
  rw [seqMin_accepts] at h1
  rw [seqMax_accepts] at h2
  unfold finishSequence
  dsimp only
  have key : (¬ ∃ v, orDefault a.minValue (seqMin (a.increment.getD 1) (a.dataType.getD "int8")) = .ok v) ∨
      (¬ ∃ v, orDefault a.maxValue (seqMax (a.increment.getD 1) (a.dataType.getD "int8")) = .ok v) ↔
      typeRange (a.dataType.getD "int8") = none ∧
        if a.increment.getD 1 < 0 then a.minValue = none else a.maxValue = none := by
    rw [h1, h2]
    by_cases hi : a.increment.getD 1 < 0
    · simp only [hi, if_true, not_true, or_false, or_true, not_or, ne_eq, Decidable.not_not]
      exact and_comm
    · simp only [hi, if_false, not_false_eq_true, or_false, or_true, not_or, ne_eq, Decidable.not_not,
        not_true, false_or]
      exact and_comm
  rw [← key]
  cases h : orDefault a.minValue (seqMin (a.increment.getD 1) (a.dataType.getD "int8")) with
  | error e => rw [h] at e1; cases e <;> simp at e1 ⊢
  | ok mn =>
    cases h : orDefault a.maxValue (seqMax (a.increment.getD 1) (a.dataType.getD "int8")) with
    | error e => rw [h] at e2; cases e <;> simp at e2 ⊢
    | ok mx => cases bad <;> simp

theorem parseSequence_panic {s : String} {n : Node} (hk : n.kind = "sequence") :
    parseSequence s n = .error .panic ↔ SequencePanics n := by
  unfold SequencePanics parseSequence
  rw [readNode_panic]
  simp only [hk, ne_eq, not_true, false_or, true_and]
  cases hname : n.name with
  | none => simp
  | some name =>
    cases hi : inner n with
    | none => simp
    | some ms =>
      have hn : n.nodes = some ms := (inner_eq n).symm.trans hi
      obtain ⟨a, bad, hr⟩ := readAttrs_calm (a := {}) (bad := false) (ns := ms) fun a m _ => calm_sequenceStep a m
      have k1 := stated_opt sequence_dataType hn hr rfl
      have k2 := stated_opt sequence_increment hn hr rfl
      have k3 := stated_opt sequence_min hn hr rfl
      have k4 := stated_opt sequence_max hn hr rfl
      rw [← textOf_eq] at k1
      rw [← integerOf_eq] at k2 k3 k4
      rw [← k1, ← k2, ← k3, ← k4]
      rw [← finishSequence_panic (s := s) (name := name) (bad := bad)]
      constructor
      · rintro ⟨_, _, h1, h2, h | ⟨_, _, h3, h⟩⟩
        · cases h1; cases h2; rw [hr] at h; cases h
        · cases h1; cases h2; rw [hr] at h3; cases h3
          exact ⟨by simp, by simp, h⟩
      · rintro ⟨_, _, h⟩
        exact ⟨name, ms, rfl, rfl, .inr ⟨a, bad, hr, h⟩⟩

theorem map_panic {α β : Type} {x : Except Fail α} {f : α → β} :
    x.map f = .error .panic ↔ x = .error .panic := by cases x <;> simp [Except.map]

theorem schemaItem_panic {s : String} {m : Node} : schemaItem s m = .error .panic ↔
    TablePanics s m ∨ IndexPanics m ∨ SequencePanics m := by
  unfold schemaItem
  have kt : TablePanics s m → m.kind = "table" := fun h => h.1
  have ki : IndexPanics m → m.kind = "index" := fun h => h.1
  have ks : SequencePanics m → m.kind = "sequence" := fun h => h.1
  by_cases h1 : m.kind = "table"
  · rw [if_pos h1, map_panic, parseTable_panic h1]
    rw [h1] at ki ks
    simp at ki ks
    simp [ki, ks]
  rw [if_neg h1]
  have nt : ¬ TablePanics s m := fun h => h1 (kt h)
  by_cases h2 : m.kind = "view"
  · rw [if_pos h2, map_panic]
    rw [h2] at ki ks
    simp at ki ks
    simp only [nt, ki, ks, or_self, iff_false]
    exact parseView_calm h2
  rw [if_neg h2]
  by_cases h3 : m.kind = "sequence"
  · rw [if_pos h3, map_panic, parseSequence_panic h3]
    rw [h3] at ki
    simp at ki
    simp [ki, nt]
  rw [if_neg h3]
  have ns : ¬ SequencePanics m := fun h => h3 (ks h)
  by_cases h4 : m.kind = "index"
  · rw [if_pos h4, map_panic, parseIndex_panic h4]
    simp [ns, nt]
  rw [if_neg h4]
  have ni : ¬ IndexPanics m := fun h => h4 (ki h)
  by_cases h5 : m.kind = "function"
  · rw [if_pos h5, map_panic]
    simp only [nt, ni, ns, or_self, iff_false]
    exact parseFunction_calm h5
  rw [if_neg h5]
  simp [nt, ni, ns]

theorem finishSchema_panic {name : String} {a : List Relation × List Function} {bad : Bool} :
    finishSchema name a bad = .error .panic ↔
      bad = false ∧ ¬ ((a.1.map Relation.name).Nodup ∧ (a.2.map Function.name).Nodup) := by
  cases bad with
  | true => simp [finishSchema]
  | false =>
    cases hf : finishSchema name a false with
    | ok t =>
      obtain ⟨_, h1, h2, _⟩ := finishSchema_ok_iff.1 hf
      simp [h1, h2]
    | error e =>
      have he : e = .panic := by
        unfold finishSchema at hf
        rw [if_neg (by simp)] at hf
        split at hf
        · cases hf; rfl
        · split at hf
          · cases hf; rfl
          · cases hf
      subst he
      refine ⟨fun _ => ⟨rfl, ?_⟩, fun _ => rfl⟩
      rintro ⟨h1, h2⟩
      rw [finishSchema_ok_iff.2 ⟨rfl, h1, h2, rfl⟩] at hf
      cases hf

theorem parseSchema_panic {n : Node} : parseSchema n = .error .panic ↔ SchemaPanics n := by
  unfold parseSchema SchemaPanics
  rw [readNode_panic]
  refine or_congr Iff.rfl ?_
  cases hname : n.name with
  | none => simp
  | some name =>
    cases hi : inner n with
    | none => simp
    | some ms =>
      simp only [Option.some.injEq, exists_eq_left', exists_and_left]
      have hms : n.nodes = some ms := (inner_eq n).symm.trans hi
      rw [readAttrs_panic (schemaStep_eq name)]
      simp only [schemaItem_panic]
      refine or_congr Iff.rfl ?_
      constructor
      · rintro ⟨a, bad, hr, hf⟩
        obtain ⟨rfl, hnd⟩ := finishSchema_panic.1 hf
        obtain ⟨_, xs, hx, ha⟩ := (readAttrs_items (schemaStep_eq name) _ _ _ _).1 hr
        rw [foldl_pushSchemaItem] at ha
        simp only [List.nil_append] at ha
        subst ha
        obtain ⟨i1, i2⟩ := schema_names hx
        refine ⟨fun m hm => ?_, ?_⟩
        · obtain ⟨x, _, e⟩ := map_ok_mem' hx hm
          exact schemaItem_accepts.1 ⟨x, e⟩
        · rw [childrenOf_eq hms, i1, i2, nodup_some_iff, nodup_some_iff]
          exact hnd
      · rintro ⟨hall, hnd⟩
        obtain ⟨xs, hx⟩ := map_ok_exists.2 fun m hm => schemaItem_accepts.2 (hall m hm)
        refine ⟨_, false, (readAttrs_items (schemaStep_eq name) _ _ _ _).2 ⟨rfl, xs, hx, rfl⟩, ?_⟩
        obtain ⟨i1, i2⟩ := schema_names hx
        rw [childrenOf_eq hms, i1, i2, nodup_some_iff, nodup_some_iff] at hnd
        refine finishSchema_panic.2 ⟨rfl, ?_⟩
        rw [foldl_pushSchemaItem]
        simpa using hnd

/-! ### Reading YAML -/

mutual
theorem parseValue_panics : ∀ {y : Yaml}, parseValue y = .error .panic → ElementPanics y
  | .map _ _, _ => .mapping
  | .str s, h => by rw [parseValue] at h; cases h
  | .bool s, h => by rw [parseValue] at h; cases h
  | .null, h => by rw [parseValue] at h; cases h
  | .tagged, h => by rw [parseValue] at h; cases h
  | .num n, h => by
    rw [parseValue] at h
    split at h
    · next e he => injection h with h; subst h; exact absurd he (parseNum_calm n)
    · cases h
  | .seq vs, h => by
    rw [parseValue] at h
    split at h
    · next e he =>
      injection h with h; subst h
      obtain ⟨before, y, after, rfl, h1, h2⟩ := parseValues_panics he
      exact .list h1 h2
    · cases h
theorem parseValues_panics : ∀ {ys : List Yaml}, parseValues ys = .error .panic →
    ∃ before y after, ys = before ++ y :: after ∧ (∀ x ∈ before, ∃ v, Says x v) ∧ ElementPanics y
  | [], h => by rw [parseValues] at h; cases h
  | y :: ys, h => by
    rw [parseValues] at h
    split at h
    · next e he =>
      injection h with h; subst h
      exact ⟨[], y, ys, rfl, by simp, parseValue_panics he⟩
    · next x hx =>
      split at h
      · next e he =>
        injection h with h; subst h
        obtain ⟨before, y', after, rfl, h1, h2⟩ := parseValues_panics he
        exact ⟨y :: before, y', after, rfl,
          fun z hz => by
            rcases List.mem_cons.1 hz with rfl | hz
            · exact ⟨x, parseValue_says hx⟩
            · exact h1 z hz, h2⟩
      · cases h
end

theorem parseValues_append {before : List Yaml} (h : ∀ x ∈ before, ∃ v, Says x v) {y : Yaml} {after : List Yaml}
    (hy : parseValue y = .error .panic) : parseValues (before ++ y :: after) = .error .panic := by
  induction before with
  | nil => rw [List.nil_append, parseValues, hy]
  | cons b before ih =>
    obtain ⟨v, hv⟩ := h b (by simp)
    rw [List.cons_append, parseValues, says_parseValue hv, ih fun x hx => h x (by simp [hx])]

theorem panics_parseValue {y : Yaml} (h : ElementPanics y) : parseValue y = .error .panic := by
  induction h with
  | mapping => rw [parseValue]
  | list h _ ih => rw [parseValue, parseValues_append h ih]

mutual
theorem parseEntry_panics : ∀ {kind : String} {name : Option String} {y : Yaml},
    parseEntry kind name y = .error .panic →
      (∃ ks vs, y = .map ks vs ∧ MappingPanics ks vs) ∨ ∃ ys, y = .seq ys ∧ ElementPanics y
  | kind, name, .map ks vs, h => by
    rw [parseEntry] at h
    split at h
    · next e he =>
      injection h with h; subst h
      exact .inl ⟨ks, vs, rfl, parseMapping_panics he⟩
    · cases h
  | kind, name, .null, h => by rw [parseEntry] at h; cases h
  | kind, name, .str s, h => by rw [parseEntry] at h; cases h
  | kind, name, .bool s, h => by rw [parseEntry] at h; cases h
  | kind, name, .tagged, h => by rw [parseEntry] at h; cases h
  | kind, name, .num m, h => by
    rw [parseEntry] at h
    split at h
    · next e he => injection h with h; subst h; exact absurd he (parseNum_calm m)
    · cases h
  | kind, name, .seq vs, h => by
    rw [parseEntry_other (by simp) (by simp)] at h
    split at h
    · next e he => injection h with h; subst h; exact .inr ⟨vs, rfl, parseValue_panics he⟩
    · cases h
theorem parseMapping_panics : ∀ {ks : List (Option String)} {vs : List Yaml},
    parseMapping ks vs = .error .panic → MappingPanics ks vs
  | [], _, h => by rw [parseMapping] at h; cases h
  | _ :: _, [], h => by rw [parseMapping] at h; cases h
  | none :: ks, v :: vs, h => by rw [parseMapping] at h; cases h
  | some key :: ks, v :: vs, h => by
    rw [parseMapping] at h
    split at h
    · next e he => injection h with h; subst h; exact .key (parseKey_panic_iff.1 he)
    · next kind name hk =>
      split at h
      · next e he =>
        injection h with h; subst h
        rcases parseEntry_panics he with ⟨ks', vs', rfl, hp⟩ | ⟨ys, rfl, hp⟩
        · exact .inside (parseKey_says.1 hk) hp
        · exact .list (parseKey_says.1 hk) hp
      · next n hn =>
        split at h
        · next e he =>
          injection h with h; subst h
          exact .later (parseKey_says.1 hk) (parseEntry_says hn) (parseMapping_panics he)
        · cases h
end

theorem panics_parseMapping {ks : List (Option String)} {vs : List Yaml} (h : MappingPanics ks vs) :
    parseMapping ks vs = .error .panic := by
  induction h with
  | key h => rw [parseMapping, parseKey_panic_iff.2 h]
  | list hk h =>
    rw [parseMapping, parseKey_says.2 hk]
    dsimp only
    rw [parseEntry_other (by simp) (by simp), panics_parseValue h]
  | inside hk _ ih =>
    rw [parseMapping, parseKey_says.2 hk]
    dsimp only
    rw [parseEntry, ih]
  | later hk hn _ ih =>
    rw [parseMapping, parseKey_says.2 hk]
    dsimp only
    rw [nodeSays_parse hn, ih]

/-! ### Files -/

theorem loadNodes_panic {ns : List Node} {d : Database} : loadNodes d ns = .error .panic ↔
    ∃ before n after d', ns = before ++ n :: after ∧ loadNodes d before = .ok d' ∧
      parseSchema n = .error .panic := by
  constructor
  · intro h
    induction ns generalizing d with
    | nil => cases h
    | cons n ns ih =>
      rw [loadNodes] at h
      split at h
      · next e he =>
        cases e with
        | error => cases h
        | panic => exact ⟨[], n, ns, d, rfl, rfl, he⟩
      · next s hs =>
        split at h
        · cases h
        · next d1 hd =>
          obtain ⟨before, n', after, d', rfl, h1, h2⟩ := ih h
          refine ⟨n :: before, n', after, d', rfl, ?_, h2⟩
          rw [loadNodes, hs]
          dsimp only
          rw [hd]
          exact h1
  · rintro ⟨before, n, after, d', rfl, h1, h2⟩
    induction before generalizing d with
    | nil => rw [List.nil_append, loadNodes, h2]; rfl
    | cons b before ih =>
      rw [loadNodes] at h1
      split at h1
      · cases h1
      · next s hs =>
        split at h1
        · cases h1
        · next d1 hd =>
          rw [List.cons_append, loadNodes, hs]
          dsimp only
          rw [hd]
          exact ih h1

theorem parseSchemas_wf {ns : List Node} {ss : List Schema} (h : parseSchemas ns = .ok ss) :
    ∀ s ∈ ss, s.WF := by
  intro s hs
  obtain ⟨m, _, e⟩ := map_ok_mem (parseSchemas_iff.1 h) hs
  exact parseSchema_wf e

theorem loadNodes_accepts {ns : List Node} : (∃ d, loadNodes Database.new ns = .ok d) ↔
    (∀ n ∈ ns, SchemaAccepted n) ∧ ns.Pairwise fun a b => ¬ PartsClash a b := by
  constructor
  · rintro ⟨d, h⟩
    obtain ⟨ss, h1, h2⟩ := loadNodes_iff.1 h
    have hp := parseSchemas_iff.1 h1
    refine ⟨fun n hn => ?_, ?_⟩
    · obtain ⟨s, _, e⟩ := map_ok_mem' hp hn
      exact parseSchema_accepts.1 ⟨s, e⟩
    · rw [← pairwise_clash hp]
      exact ((addSchemas_ok_iff ss Database.new [] holds_new (parseSchemas_wf h1)).1.1 ⟨d, h2⟩).2
  · rintro ⟨hn, hc⟩
    obtain ⟨ss, hs⟩ := map_ok_exists.2 fun n hn' => parseSchema_accepts.2 (hn n hn')
    obtain ⟨d, hd⟩ := (addSchemas_ok_iff ss Database.new [] holds_new (parseSchemas_wf (parseSchemas_iff.2 hs))).1.2
      ⟨by simp, (pairwise_clash hs).2 hc⟩
    exact ⟨d, loadNodes_iff.2 ⟨ss, parseSchemas_iff.2 hs, hd⟩⟩

theorem loadDoc_panic {y : Yaml} : loadDoc y = .error .panic ↔ FilePanics y := by
  unfold FilePanics
  constructor
  · intro h
    unfold loadDoc at h
    split at h
    · next ks vs =>
      split at h
      · next e he =>
        cases e with
        | error => cases h
        | panic => exact .inl ⟨ks, vs, rfl, parseMapping_panics he⟩
      · next ns hns =>
        obtain ⟨before, n, after, d', rfl, h1, h2⟩ := loadNodes_panic.1 h
        obtain ⟨a1, a2⟩ := loadNodes_accepts.1 ⟨d', h1⟩
        exact .inr ⟨before, n, after, fileSays_iff.2 ⟨ks, vs, rfl, hns⟩, a1, a2, parseSchema_panic.1 h2⟩
    · cases h
  · rintro (⟨ks, vs, rfl, h⟩ | ⟨before, n, after, hf, a1, a2, hp⟩)
    · unfold loadDoc
      dsimp only
      rw [panics_parseMapping h]
      rfl
    · obtain ⟨ks, vs, rfl, e⟩ := fileSays_iff.1 hf
      obtain ⟨d', hd⟩ := loadNodes_accepts.2 ⟨a1, a2⟩
      unfold loadDoc
      dsimp only
      rw [e]
      exact loadNodes_panic.2 ⟨before, n, after, d', rfl, hd, parseSchema_panic.2 hp⟩

/-! ### Directories -/

theorem loadFiles_iff {fs : List Yaml} {d d' : Database} :
    loadFiles d fs = .ok d' ↔ Load.filesInto parseDoc d fs = .ok d' := by
  induction fs generalizing d with
  | nil => exact Iff.rfl
  | cons f fs ih =>
    rw [loadFiles, Load.filesInto, Load.fileInto]
    constructor
    · intro h
      split at h
      · cases h
      · next fd hf =>
        obtain ⟨ss, h1, h2⟩ := loadDoc_iff.1 hf
        rw [h1]; dsimp only; rw [h2]; dsimp only
        split at h
        · cases h
        · next d1 hd => rw [hd]; exact ih.1 h
    · intro h
      split at h
      · cases h
      · next d1 hd =>
        split at hd
        · cases hd
        · next ss h1 =>
          split at hd
          · cases hd
          · next fd h2 =>
            rw [loadDoc_iff.2 ⟨ss, h1, h2⟩]
            dsimp only
            split at hd
            · cases hd
            · next d2 hd2 => cases hd; rw [hd2]; exact ih.2 h

theorem loadFiles_append {fs gs : List Yaml} {d d' : Database} (h : loadFiles d fs = .ok d') :
    loadFiles d (fs ++ gs) = loadFiles d' gs := by
  induction fs generalizing d with
  | nil => cases h; rfl
  | cons f fs ih =>
    rw [loadFiles] at h
    split at h
    · cases h
    · next fd hf =>
      split at h
      · cases h
      · next d1 hd =>
        rw [List.cons_append, loadFiles, hf]
        dsimp only
        rw [hd]
        exact ih h

theorem loadFiles_panic {fs : List Yaml} {d : Database} : loadFiles d fs = .error .panic ↔
    ∃ before f after d', fs = before ++ f :: after ∧ loadFiles d before = .ok d' ∧
      loadDoc f = .error .panic := by
  constructor
  · intro h
    induction fs generalizing d with
    | nil => cases h
    | cons n ns ih =>
      rw [loadFiles] at h
      split at h
      · next e he =>
        injection h with h; subst h
        exact ⟨[], n, ns, d, rfl, rfl, he⟩
      · next s hs =>
        split at h
        · cases h
        · next d1 hd =>
          obtain ⟨before, n', after, d', rfl, h1, h2⟩ := ih h
          refine ⟨n :: before, n', after, d', rfl, ?_, h2⟩
          rw [loadFiles, hs]
          dsimp only
          rw [hd]
          exact h1
  · rintro ⟨before, n, after, d', rfl, h1, h2⟩
    rw [loadFiles_append h1, loadFiles, h2]

theorem collect_files (fs : List (String × Yaml)) :
    Load.collect (fs.map fun p => DirTree.file p.1 p.2) =
      (fs.filter fun p => Load.isYaml p.1).map Prod.snd := by
  induction fs with
  | nil => rfl
  | cons p fs ih =>
    rw [List.map_cons, Load.collect, Load.collectEntry, ih, List.filter_cons]
    split <;> simp

theorem loadDir_panic {es : List (DirTree Yaml)} : loadDir es = .error .panic ↔
    ∃ before name f after, filesOf es = before ++ (name, f) :: after ∧
      (∃ d, loadDir (before.map fun p => DirTree.file p.1 p.2) = .ok d) ∧ YamlName name ∧ FilePanics f := by
  unfold loadDir
  rw [loadFiles_panic, Load.collect_eq]
  constructor
  · rintro ⟨before, f, after, d', e, h1, h2⟩
    rw [List.map_eq_append_iff] at e
    obtain ⟨l1, l2, e, rfl, e2⟩ := e
    rw [List.map_eq_cons_iff] at e2
    obtain ⟨p, l3, rfl, rfl, rfl⟩ := e2
    rw [List.filter_eq_append_iff] at e
    obtain ⟨m1, m2, e, rfl, e2⟩ := e
    rw [List.filter_eq_cons_iff] at e2
    obtain ⟨k1, k2, rfl, hk, hp, rfl⟩ := e2
    refine ⟨m1 ++ k1, p.1, p.2, k2, by rw [e]; simp, ⟨d', ?_⟩, Load.isYaml_iff.1 hp, loadDoc_panic.1 h2⟩
    rw [collect_files, List.filter_append]
    have : k1.filter (fun p => Load.isYaml p.1) = [] := List.filter_eq_nil_iff.2 hk
    rw [this, List.append_nil]
    exact h1
  · rintro ⟨before, name, f, after, e, ⟨d, hd⟩, hn, hp⟩
    rw [collect_files] at hd
    refine ⟨_, f, (after.filter fun p => Load.isYaml p.1).map Prod.snd, d, ?_, hd, loadDoc_panic.2 hp⟩
    rw [e, List.filter_append, List.filter_cons, if_pos (Load.isYaml_iff.2 hn)]
    simp

end Def
end Podo
