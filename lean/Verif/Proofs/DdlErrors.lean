import Verif.Spec.DefErrors
import Verif.Proofs.Panics
/-
The parser with its errors agrees with the parser without them, and its errors are those of
`Verif.Spec.DefErrors` (C80).
-/
set_option linter.unusedSimpArgs false
set_option linter.unusedVariables false
namespace Podo
namespace Def
open Text

/-! ### Without the errors -/

/-- Leaving out the error. -/
def FailE.erase : FailE → Fail
  | .error _ => .error
  | .panic => .panic

/-- Leaving out the errors of a result. -/
def erase {α : Type} : Except FailE α → Except Fail α
  | .ok a => .ok a
  | .error e => .error e.erase

theorem erase_orErrE {α : Type} (o : Option α) (e : DefError) : erase (orErrE o e) = orErr o := by
  cases o <;> rfl

theorem erase_map {α β : Type} (x : Except FailE α) (f : α → β) :
    erase (x.map f) = (erase x).map f := by cases x <;> rfl

theorem erase_name (n : Node) : erase (coerceNameE n) = coerceName n := erase_orErrE _ _
theorem erase_nodes (n : Node) : erase (coerceNodesE n) = coerceNodes n := erase_orErrE _ _
theorem erase_str (n : Node) : erase (coerceStrE n) = coerceStr n := erase_orErrE _ _
theorem erase_bool (n : Node) : erase (coerceBoolE n) = coerceBool n := erase_orErrE _ _
theorem erase_int (n : Node) : erase (coerceIntE n) = coerceInt n := erase_orErrE _ _
theorem erase_varargs (n : Node) : erase (coerceVarargsE n) = coerceVarargs n := erase_orErrE _ _
theorem erase_nameStr (n : Node) : erase (coerceNameStrE n) = coerceNameStr n := by
  unfold coerceNameStrE coerceNameStr
  cases n.name <;> cases n.str <;> rfl
theorem erase_nameVarargs (n : Node) : erase (coerceNameVarargsE n) = coerceNameVarargs n := by
  unfold coerceNameVarargsE coerceNameVarargs
  cases n.name <;> cases n.varargs <;> rfl

theorem map_eq_match {α β : Type} (x : Except Fail α) (f : α → β) :
    x.map f = (match x with | .ok v => .ok (f v) | .error e => .error e) := by cases x <;> rfl

theorem erase_unexpected {α : Type} (n : Node) : erase (unexpected n : Except FailE α) = .error .error := rfl

/-- Pushing an error, or not, makes the flag. -/
theorem erase_readAttrs {α : Type} {stepE : α → Node → Except FailE α} {step : α → Node → Except Fail α}
    (hs : ∀ a n, erase (stepE a n) = step a n) : ∀ (ns : List Node) (a : α) (es : List DefError),
    readAttrs step a (!es.isEmpty) ns =
      (erase (readAttrsE stepE a es ns)).map fun x => (x.1, !x.2.isEmpty)
  | [], a, es => rfl
  | n :: ns, a, es => by
    rw [readAttrs, readAttrsE, ← hs]
    cases h : stepE a n with
    | ok a' =>
      dsimp only [erase]
      exact erase_readAttrs hs ns a' es
    | error e =>
      cases e with
      | error e =>
        have := erase_readAttrs hs ns a (es ++ [e])
        rw [show (!(es ++ [e]).isEmpty) = true by cases es <;> rfl] at this
        exact this
      | panic => rfl

theorem erase_readNode {α β : Type} {kind : String} {stepE : String → α → Node → Except FailE α}
    {step : String → α → Node → Except Fail α} {init : α}
    {finishE : String → α → List DefError → Except FailE β} {finish : String → α → Bool → Except Fail β}
    {n : Node} (hs : ∀ name a m, erase (stepE name a m) = step name a m)
    (hf : ∀ name a es, erase (finishE name a es) = finish name a (!es.isEmpty)) :
    erase (readNodeE kind stepE init finishE n) = readNode kind step init finish n := by
  unfold readNodeE readNode assertKind
  by_cases hk : n.kind = kind
  · rw [if_pos hk, if_pos hk, ← erase_name, ← erase_nodes]
    cases coerceNameE n with
    | error e => rfl
    | ok name =>
      cases coerceNodesE n with
      | error e => rfl
      | ok ns =>
        have := erase_readAttrs (hs name) ns init []
        dsimp only [erase]
        rw [show (!([] : List DefError).isEmpty) = false from rfl] at this
        rw [this]
        cases readAttrsE (stepE name) init [] ns with
        | error e => rfl
        | ok x => exact hf name x.1 x.2
  · rw [if_neg hk, if_neg hk]; rfl

theorem erase_unlessErrors {β : Type} {n : Node} {es : List DefError} {k : Except FailE β} :
    erase (unlessErrors n es k) = if es.isEmpty then erase k else .error .error := by
  cases es <;> rfl

theorem needs_isEmpty {n : Node} {w : String} {b : Bool} {es : List DefError} :
    (needs n w b es).isEmpty = (!b && es.isEmpty) := by
  unfold needs
  cases b <;> simp

theorem erase_checkStep (a : CheckAttrs) (n : Node) : erase (checkStepE a n) = checkStep a n := by
  unfold checkStepE checkStep
  simp only [apply_ite erase, erase_map, erase_str, erase_bool, erase_unexpected]
  repeat' split
  all_goals simp_all only [Except.map]
theorem erase_primaryKeyStep (a : PrimaryKeyAttrs) (n : Node) :
    erase (primaryKeyStepE a n) = primaryKeyStep a n := by
  unfold primaryKeyStepE primaryKeyStep
  simp only [apply_ite erase, erase_map, erase_varargs, erase_bool, erase_unexpected]
  repeat' split
  all_goals simp_all only [Except.map]
theorem erase_uniqueStep (a : UniqueAttrs) (n : Node) : erase (uniqueStepE a n) = uniqueStep a n := by
  unfold uniqueStepE uniqueStep
  simp only [apply_ite erase, erase_map, erase_varargs, erase_bool, erase_unexpected]
  repeat' split
  all_goals simp_all only [Except.map]
theorem erase_tableRef (s i : String) : erase (parseTableRefE s i) = parseTableRef s i := by
  unfold parseTableRefE parseTableRef
  rcases splitDot i.toList with _ | ⟨x, _ | ⟨y, _ | ⟨z, zs⟩⟩⟩ <;> rfl
theorem erase_foreignKeyStep (s : String) (a : ForeignKeyAttrs) (n : Node) :
    erase (foreignKeyStepE s a n) = foreignKeyStep s a n := by
  unfold foreignKeyStepE foreignKeyStep
  have : erase ((coerceNameVarargsE n).bind fun x => (parseTableRefE s x.1).map fun r =>
      { a with target := some r, targetColumns := x.2 }) =
      (match coerceNameVarargs n with
       | .ok (name, v) =>
         match parseTableRef s name with
         | .ok r => .ok { a with target := some r, targetColumns := v }
         | .error e => .error e
       | .error e => .error e) := by
    rw [← erase_nameVarargs]
    cases coerceNameVarargsE n with
    | error e => rfl
    | ok x =>
      dsimp only [erase, Except.bind]
      rw [← erase_tableRef]
      cases parseTableRefE s x.1 <;> rfl
  by_cases h2 : n.kind = "references"
  · simp only [h2, String.reduceEq, if_true, if_false]
    exact this
  · clear this
    simp only [h2, if_false, apply_ite erase, erase_map, erase_varargs, erase_bool, erase_str,
      erase_unexpected]
    repeat' split
    all_goals simp_all only [Except.map]
theorem erase_viewStep (a : Option String) (n : Node) : erase (viewStepE a n) = viewStep a n := by
  unfold viewStepE viewStep
  simp only [apply_ite erase, erase_map, erase_str, erase_unexpected]
  repeat' split
  all_goals simp_all only [Except.map]
theorem erase_indexStep (a : IndexAttrs) (n : Node) : erase (indexStepE a n) = indexStep a n := by
  unfold indexStepE indexStep
  simp only [apply_ite erase, erase_map, erase_str, erase_bool, erase_nameVarargs, erase_unexpected]
  repeat' split
  all_goals simp_all only [Except.map]
theorem erase_functionStep (a : FunctionAttrs) (n : Node) : erase (functionStepE a n) = functionStep a n := by
  unfold functionStepE functionStep
  simp only [apply_ite erase, erase_map, erase_str, erase_unexpected]
  repeat' split
  all_goals simp_all only [Except.map]
theorem erase_sequenceStep (a : SequenceAttrs) (n : Node) : erase (sequenceStepE a n) = sequenceStep a n := by
  unfold sequenceStepE sequenceStep
  simp only [apply_ite erase, erase_map, erase_str, erase_bool, erase_int, erase_nameStr, erase_unexpected]
  repeat' split
  all_goals simp_all only [Except.map]

theorem erase_column (s t : String) (n : Node) : erase (parseColumnE s t n) = parseColumn s t n := by
  unfold parseColumnE parseColumn assertKind
  split
  · rw [← erase_name, ← erase_str]
    cases coerceNameE n with
    | error e => rfl
    | ok name =>
      cases coerceStrE n with
      | error e => rfl
      | ok x =>
        dsimp only [erase]
        unfold parseColumnExprE
        cases h : parseColumnExpr x.toList with
        | ok y => rfl
        | error e =>
          cases e with
          | error => rfl
          | panic => exact absurd h (calm_columnExpr _)
  · rfl

theorem erase_check (s t : String) (n : Node) : erase (parseCheckE s t n) = parseCheck s t n := by
  refine erase_readNode (fun _ => erase_checkStep) fun name a es => ?_
  unfold finishCheckE finishCheck
  rw [erase_unlessErrors, needs_isEmpty]
  cases a.expression <;> cases es <;> rfl
theorem erase_primaryKey (s t : String) (n : Node) : erase (parsePrimaryKeyE s t n) = parsePrimaryKey s t n := by
  refine erase_readNode (fun _ => erase_primaryKeyStep) fun name a es => ?_
  unfold finishPrimaryKeyE finishPrimaryKey
  rw [erase_unlessErrors, needs_isEmpty]
  cases a.columns <;> cases es <;> rfl
theorem erase_unique (s t : String) (n : Node) : erase (parseUniqueE s t n) = parseUnique s t n := by
  refine erase_readNode (fun _ => erase_uniqueStep) fun name a es => ?_
  unfold finishUniqueE finishUnique
  rw [erase_unlessErrors, needs_isEmpty]
  cases a.columns <;> cases es <;> rfl
theorem erase_foreignKey (s t : String) (n : Node) : erase (parseForeignKeyE s t n) = parseForeignKey s t n := by
  refine erase_readNode (fun _ => erase_foreignKeyStep s) fun name a es => ?_
  unfold finishForeignKeyE finishForeignKey
  rw [erase_unlessErrors, needs_isEmpty, needs_isEmpty]
  cases a.columns <;> cases a.target <;> cases a.targetColumns <;> cases es <;> rfl

theorem erase_constraint (s t : String) (n : Node) : erase (parseConstraintE s t n) = parseConstraint s t n := by
  unfold parseConstraintE parseConstraint
  rw [← erase_nodes]
  cases coerceNodesE n with
  | error e => rfl
  | ok ns =>
    cases ns with
    | nil => rfl
    | cons cn rest =>
      rw [show erase (Except.ok (cn :: rest)) = .ok (cn :: rest) from rfl]
      dsimp only
      simp only [apply_ite erase, erase_map, erase_primaryKey, erase_unique, erase_foreignKey, erase_check]
      repeat' split
      all_goals simp_all only [Except.map, erase, FailE.erase]

theorem erase_unwrapFail {α : Type} {x : Except Fail α} (h : x ≠ .error .error) : erase (unwrapFail x) = x := by
  cases x with
  | ok a => rfl
  | error e =>
    cases e with
    | error => exact (h rfl).elim
    | panic => rfl

theorem erase_bind {α β : Type} (x : Except FailE α) (f : α → Except FailE β) :
    erase (x.bind f) = (erase x).bind fun a => erase (f a) := by cases x <;> rfl

theorem addColumns_not_error : ∀ (cs : List Column) (t : Table), addColumns t cs ≠ .error .error
  | [], t => by intro h; cases h
  | c :: cs, t => by
    rw [addColumns]
    split
    · intro h; cases h
    · exact addColumns_not_error cs _
theorem addConstraints_not_error : ∀ (cs : List Constraint) (t : Table), addConstraints t cs ≠ .error .error
  | [], t => by intro h; cases h
  | c :: cs, t => by
    rw [addConstraints]
    split
    · intro h; cases h
    · exact addConstraints_not_error cs _

theorem erase_tableStep (s t : String) (a : List Column × List Constraint) (n : Node) :
    erase (tableStepE s t a n) = tableStep s t a n := by
  unfold tableStepE tableStep
  simp only [apply_ite erase, erase_map, erase_column, erase_constraint, erase_unexpected]
  repeat' split
  all_goals simp_all only [Except.map]
theorem erase_table (s : String) (n : Node) : erase (parseTableE s n) = parseTable s n := by
  refine erase_readNode (erase_tableStep s) fun name a es => ?_
  unfold finishTableE finishTable
  rw [erase_unlessErrors, erase_bind, erase_unwrapFail (addColumns_not_error _ _)]
  cases es with
  | cons e es => rfl
  | nil =>
    dsimp only [List.isEmpty, if_true]
    rw [if_pos rfl, if_neg (by simp)]
    cases addColumns (Table.new s name) a.1 with
    | error e => rfl
    | ok t => exact erase_unwrapFail (addConstraints_not_error _ _)

theorem erase_view (s : String) (n : Node) : erase (parseViewE s n) = parseView s n := by
  refine erase_readNode (fun _ => erase_viewStep) fun name a es => ?_
  unfold finishViewE finishView
  rw [erase_unlessErrors, needs_isEmpty]
  cases a <;> cases es <;> rfl
theorem erase_index (s : String) (n : Node) : erase (parseIndexE s n) = parseIndex s n := by
  refine erase_readNode (fun _ => erase_indexStep) fun name a es => ?_
  unfold finishIndexE finishIndex
  cases a.on <;> rfl
theorem erase_function (s : String) (n : Node) : erase (parseFunctionE s n) = parseFunction s n := by
  refine erase_readNode (fun _ => erase_functionStep) fun name a es => ?_
  unfold finishFunctionE finishFunction
  rw [erase_unlessErrors, needs_isEmpty]
  cases a.body <;> cases es <;> rfl

theorem orDefault_not_error {x : Option Int} {d : Except Fail Int} (h : d ≠ .error .error) :
    orDefault x d ≠ .error .error := by
  cases x with
  | none => exact h
  | some v => intro h; cases h

theorem erase_sequence (s : String) (n : Node) : erase (parseSequenceE s n) = parseSequence s n := by
  refine erase_readNode (fun _ => erase_sequenceStep) fun name a es => ?_
  unfold finishSequenceE finishSequence
  dsimp only
  rw [erase_bind, erase_unwrapFail (orDefault_not_error seqMin_panic)]
  cases orDefault a.minValue (seqMin (a.increment.getD 1) (a.dataType.getD "int8")) with
  | error e => rfl
  | ok mn =>
    show erase (Except.bind _ _) = _
    rw [erase_bind, erase_unwrapFail (orDefault_not_error seqMax_panic)]
    cases orDefault a.maxValue (seqMax (a.increment.getD 1) (a.dataType.getD "int8")) with
    | error e => rfl
    | ok mx =>
      dsimp only [Except.bind]
      rw [erase_unlessErrors]
      cases es <;> rfl

theorem erase_schemaStep (s : String) (a : List Relation × List Function) (n : Node) :
    erase (schemaStepE s a n) = schemaStep s a n := by
  unfold schemaStepE schemaStep
  simp only [apply_ite erase, erase_map, erase_table, erase_view, erase_sequence, erase_index,
    erase_function, erase_unexpected]
  repeat' split
  all_goals simp_all only [Except.map]

theorem finishSchema_not_error {name : String} {a : List Relation × List Function} :
    finishSchema name a false ≠ .error .error := by
  unfold finishSchema
  rw [if_neg (by simp)]
  split
  · intro h; cases h
  · split <;> (intro h; cases h)

theorem erase_schema (n : Node) : erase (parseSchemaE n) = parseSchema n := by
  refine erase_readNode erase_schemaStep fun name a es => ?_
  unfold finishSchemaE
  rw [erase_unlessErrors, erase_unwrapFail finishSchema_not_error]
  cases es with
  | nil => rfl
  | cons e es => unfold finishSchema; rfl

/-! ### What the errors tell -/

/-- An error, if there is one and no panic, is this one. -/
def Tells {α : Type} (x : Except FailE α) (r : Option DefError) : Prop :=
  match x with
  | .ok _ => r = none
  | .error (.error e) => r = some e
  | .error .panic => True

theorem tells_map {α β : Type} {x : Except FailE α} {f : α → β} {r : Option DefError} (h : Tells x r) :
    Tells (x.map f) r := by
  cases x with
  | ok a => exact h
  | error e => cases e <;> exact h

theorem display_eq (n : Node) : n.display = label n := by
  unfold Node.display label
  cases n.name with
  | none => simp
  | some a => simp [String.append_assoc]

theorem tells_orErrE {α : Type} {o : Option α} {e : DefError} :
    Tells (orErrE o e) (if o.isSome = true then none else some e) := by cases o <;> rfl

theorem tells_str (m : Node) : Tells (coerceStrE m)
    (if Wanted.text.isIn m = true then none else some (.invalidTypeAttribute (label m) "string")) := by
  unfold coerceStrE Wanted.isIn
  rw [← display_eq, textOf_eq]; exact tells_orErrE
theorem tells_bool (m : Node) : Tells (coerceBoolE m)
    (if Wanted.flag.isIn m = true then none else some (.invalidTypeAttribute (label m) "boolean")) := by
  unfold coerceBoolE Wanted.isIn
  rw [← display_eq, flagOf_eq]; exact tells_orErrE
theorem tells_int (m : Node) : Tells (coerceIntE m)
    (if Wanted.integer.isIn m = true then none else some (.invalidTypeAttribute (label m) "integer")) := by
  unfold coerceIntE Wanted.isIn
  rw [← display_eq, integerOf_eq]; exact tells_orErrE
theorem tells_varargs (m : Node) : Tells (coerceVarargsE m)
    (if Wanted.texts.isIn m = true then none else some (.invalidTypeAttribute (label m) "...string")) := by
  unfold coerceVarargsE Wanted.isIn
  rw [← display_eq, textsOf_eq]; exact tells_orErrE
theorem tells_nameStr (m : Node) : Tells (coerceNameStrE m)
    (if m.name = none then some (.nameRequired (label m))
     else if Wanted.text.isIn m = true then none else some (.invalidTypeAttribute (label m) "string")) := by
  have : Wanted.text.isIn m = m.str.isSome := by unfold Wanted.isIn; rw [textOf_eq]
  unfold coerceNameStrE
  rw [← display_eq, this]
  cases m.name with
  | none => rfl
  | some a =>
    rw [if_neg (by simp)]
    cases m.str <;> rfl
theorem tells_nameVarargs (m : Node) : Tells (coerceNameVarargsE m)
    (if m.name = none then some (.nameRequired (label m))
     else if Wanted.texts.isIn m = true then none
     else some (.invalidTypeAttribute (label m) "...string")) := by
  have : Wanted.texts.isIn m = m.varargs.isSome := by unfold Wanted.isIn; rw [textsOf_eq]
  unfold coerceNameVarargsE
  rw [← display_eq, this]
  cases m.name with
  | none => rfl
  | some a =>
    rw [if_neg (by simp)]
    cases m.varargs <;> rfl
theorem tells_ite {α : Type} {c : Prop} [Decidable c] {x y : Except FailE α} {r s : Option DefError}
    (h1 : c → Tells x r) (h2 : ¬ c → Tells y s) : Tells (if c then x else y) (if c then r else s) := by
  by_cases h : c
  · rw [if_pos h, if_pos h]; exact h1 h
  · rw [if_neg h, if_neg h]; exact h2 h
theorem tells_unexpected {α : Type} (m : Node) :
    Tells (unexpected m : Except FailE α) (some (.unexpectedNode (label m))) := by
  rw [← display_eq]; rfl

/-- The first attribute of the list, or the others. -/
theorem attrFault_cons (a : Attr) (as : List Attr) (m : Node) :
    attrFault (a :: as) m = if m.kind = a.word then
      (if a.named = true ∧ m.name = none then some (.nameRequired (label m))
       else if a.wanted.isIn m = true then none
       else some (.invalidTypeAttribute (label m) a.wanted.word)) else attrFault as m := by
  unfold attrFault
  rw [List.find?_cons]
  by_cases h : m.kind = a.word
  · simp [h]
  · simp [h, Ne.symm h]

theorem attrFault_nil (m : Node) : attrFault [] m = some (.unexpectedNode (label m)) := rfl

macro "tells" d:ident : tactic => `(tactic| (
  unfold $d
  simp only [attrFault_cons, attrFault_nil, constraintFlags, List.cons_append, List.nil_append,
    Bool.false_eq_true, false_and, true_and, if_false, Wanted.word]
  repeat' refine tells_ite (fun _ => ?_) fun _ => ?_
  all_goals first
    | exact tells_unexpected _
    | (refine tells_map ?_
       first
       | exact tells_str _
       | exact tells_bool _
       | exact tells_int _
       | exact tells_varargs _
       | exact tells_nameStr _
       | exact tells_nameVarargs _)))

theorem tells_checkStep (a : CheckAttrs) (m : Node) : Tells (checkStepE a m)
    (attrFault (⟨"check", .text, false⟩ :: constraintFlags) m) := by tells checkStepE
theorem tells_primaryKeyStep (a : PrimaryKeyAttrs) (m : Node) : Tells (primaryKeyStepE a m)
    (attrFault (⟨"primary key", .texts, false⟩ :: constraintFlags) m) := by tells primaryKeyStepE
theorem tells_uniqueStep (a : UniqueAttrs) (m : Node) : Tells (uniqueStepE a m)
    (attrFault (⟨"unique", .texts, false⟩ :: constraintFlags) m) := by tells uniqueStepE
theorem tells_viewStep (a : Option String) (m : Node) : Tells (viewStepE a m)
    (attrFault [⟨"as", .text, false⟩] m) := by tells viewStepE
theorem tells_functionStep (a : FunctionAttrs) (m : Node) : Tells (functionStepE a m)
    (attrFault [⟨"as", .text, false⟩, ⟨"language", .text, false⟩, ⟨"returns", .text, false⟩,
      ⟨"volatility", .text, false⟩] m) := by tells functionStepE
theorem tells_sequenceStep (a : SequenceAttrs) (m : Node) : Tells (sequenceStepE a m)
    (attrFault [⟨"as", .text, false⟩, ⟨"increment", .integer, false⟩, ⟨"minvalue", .integer, false⟩,
      ⟨"maxvalue", .integer, false⟩, ⟨"start", .integer, false⟩, ⟨"cache", .integer, false⟩,
      ⟨"cycle", .flag, false⟩, ⟨"owned by", .text, true⟩] m) := by tells sequenceStepE

theorem splitDot_length : ∀ cs : List Char, (splitDot cs).length = cs.count '.' + 1
  | [] => rfl
  | c :: cs => by
    have ih := splitDot_length cs
    rw [splitDot]
    by_cases h : c = '.'
    · subst h; rw [if_pos rfl]; simp [ih]
    · rw [if_neg h, List.count_cons_of_ne h, ← ih]
      cases hs : splitDot cs with
      | nil => rw [hs] at ih; simp at ih
      | cons p ps => simp

theorem tells_tableRef (s name : String) : Tells (parseTableRefE s name)
    (if isTableName name = true then none else some (.invalidTableReference name)) := by
  have hl := splitDot_length name.toList
  unfold parseTableRefE isTableName
  rcases h : splitDot name.toList with _ | ⟨x, _ | ⟨y, _ | ⟨z, zs⟩⟩⟩
  · rw [h] at hl; simp at hl
  · rw [h] at hl; simp only [List.length_cons, List.length_nil] at hl
    rw [if_pos (by simp; omega)]; rfl
  · rw [h] at hl; simp only [List.length_cons, List.length_nil] at hl
    rw [if_pos (by simp; omega)]; rfl
  · rw [h] at hl; simp only [List.length_cons] at hl
    rw [if_neg (by simp; omega)]; rfl

theorem tells_bind {α β : Type} {x : Except FailE α} {f : α → Except FailE β} {r s t : Option DefError}
    (hx : Tells x r) (he : ∀ e, r = some e → t = some e) (hf : ∀ a, x = .ok a → r = none → Tells (f a) t) :
    Tells (x.bind f) t := by
  cases x with
  | ok a => exact hf a rfl hx
  | error e =>
    cases e with
    | error e => exact he e hx
    | panic => trivial

theorem tells_foreignKeyStep (s : String) (a : ForeignKeyAttrs) (m : Node) :
    Tells (foreignKeyStepE s a m) (foreignKeyFault m) := by
  by_cases h : m.kind = "references"
  · have hs : foreignKeyStepE s a m = (coerceNameVarargsE m).bind fun x =>
        (parseTableRefE s x.1).map fun r => { a with target := some r, targetColumns := x.2 } := by
      unfold foreignKeyStepE
      rw [if_neg (by rw [h]; decide), if_pos h]
    have hf : attrFault ([⟨"foreign key", .texts, false⟩, ⟨"references", .texts, true⟩,
        ⟨"match", .text, false⟩, ⟨"on update", .text, false⟩, ⟨"on delete", .text, false⟩] ++
        constraintFlags) m = (if m.name = none then some (.nameRequired (label m))
          else if Wanted.texts.isIn m = true then none
          else some (.invalidTypeAttribute (label m) "...string")) := by
      simp only [List.cons_append, List.nil_append, attrFault_cons, true_and, Wanted.word]
      rw [if_neg (by rw [h]; decide), if_pos h]
    unfold foreignKeyFault
    rw [hs, hf]
    refine tells_bind (r := if m.name = none then some (.nameRequired (label m))
          else if Wanted.texts.isIn m = true then none
          else some (.invalidTypeAttribute (label m) "...string")) (s := none) (tells_nameVarargs m) ?_ ?_
    · intro e he
      rw [he]
    · intro x hx hr
      rw [hr]
      have hn : m.name = some x.1 := by
        unfold coerceNameVarargsE at hx
        split at hx
        · cases hx
        · next hn =>
          split at hx
          · cases hx
          · cases hx; exact hn
      rw [hn]
      refine tells_map ?_
      have := tells_tableRef s x.1
      dsimp only
      by_cases hi : isTableName x.1 = true
      · rw [if_pos hi] at this
        rw [if_neg (by simp [hi])]; exact this
      · rw [if_neg hi] at this
        rw [if_pos ⟨h, by simpa using hi⟩]; exact this
  · have hf : foreignKeyFault m = attrFault ([⟨"foreign key", .texts, false⟩, ⟨"references", .texts, true⟩,
        ⟨"match", .text, false⟩, ⟨"on update", .text, false⟩, ⟨"on delete", .text, false⟩] ++
        constraintFlags) m := by
      unfold foreignKeyFault
      generalize attrFault _ m = r
      cases r <;> cases m.name <;> simp [h]
    rw [hf]
    unfold foreignKeyStepE
    simp only [h, attrFault_cons, attrFault_nil, constraintFlags, List.cons_append, List.nil_append,
      Bool.false_eq_true, false_and, true_and, if_false, Wanted.word]
    by_cases h1 : m.kind = "foreign key"
    · simp only [h1, if_true]; exact tells_map (tells_varargs _)
    by_cases h2 : m.kind = "deferrable"
    · simp only [h2, String.reduceEq, if_false, if_true]; exact tells_map (tells_bool _)
    by_cases h3 : m.kind = "initially deferred"
    · simp only [h3, String.reduceEq, if_false, if_true]; exact tells_map (tells_bool _)
    simp only [h1, h2, h3, if_false]
    repeat' refine tells_ite (fun _ => ?_) fun _ => ?_
    all_goals first
      | exact tells_unexpected _
      | exact tells_map (tells_str _)

theorem tells_readAttrs {α : Type} {step : α → Node → Except FailE α} {fault : Node → Option DefError} :
    ∀ {ns : List Node} {a a' : α} {es es' : List DefError}, (∀ a, ∀ m ∈ ns, Tells (step a m) (fault m)) →
      readAttrsE step a es ns = .ok (a', es') → es' = es ++ ns.filterMap fault
  | [], a, a', es, es', hs, h => by
    rw [readAttrsE] at h; cases h; simp
  | n :: ns, a, a', es, es', hs, h => by
    rw [readAttrsE] at h
    have hn := hs a n (List.mem_cons_self ..)
    have hs' : ∀ a, ∀ m ∈ ns, Tells (step a m) (fault m) := fun a m hm => hs a m (List.mem_cons_of_mem _ hm)
    split at h
    · next e =>
      rw [e] at hn
      rw [tells_readAttrs hs' h, List.filterMap_cons_none hn]
    · next e he =>
      rw [he] at hn
      rw [tells_readAttrs hs' h, List.filterMap_cons_some hn]
      simp
    · cases h

theorem readAttrsE_panic {α : Type} {step : α → Node → Except FailE α} :
    ∀ {ns : List Node} {a : α} {es : List DefError} {e : DefError}, readAttrsE step a es ns ≠ .error (.error e)
  | [], a, es, e => by intro h; cases h
  | n :: ns, a, es, e => by
    rw [readAttrsE]
    split
    · exact readAttrsE_panic
    · exact readAttrsE_panic
    · intro h; cases h

/-- The errors of a list, under a label. -/
def gather (l : String) : List DefError → Option DefError
  | [] => none
  | e :: es => some (.hasErrors l (e :: es))

theorem report_eq {n : Node} {fault : Node → Option DefError} {lacking : List DefError} {name : String}
    {ms : List Node} (hn : n.name = some name) (hi : inner n = some ms) :
    report n fault lacking = gather (label n) (ms.filterMap fault ++ lacking) := by
  unfold report
  rw [hn, if_neg (by simp), hi]
  dsimp only
  cases ms.filterMap fault ++ lacking <;> rfl

theorem tells_unlessErrors {β : Type} {n : Node} {es : List DefError} {k : Except FailE β}
    (hk : es = [] → Tells k none) : Tells (unlessErrors n es k) (gather (label n) es) := by
  cases es with
  | nil => exact hk rfl
  | cons e es => rw [← display_eq]; rfl

theorem tells_unwrapE {α β : Type} {o : Option α} {f : α → β} : Tells ((unwrapE o).map f) none := by
  cases o
  · trivial
  · rfl

theorem needs_eq {n : Node} {w : String} {b : Bool} {es : List DefError} :
    needs n w b es = es ++ lack n w (!b) := by
  unfold needs lack
  rw [display_eq]
  cases b <;> simp

theorem tells_readNode {α β : Type} {kind : String} {step : String → α → Node → Except FailE α} {init : α}
    {finish : String → α → List DefError → Except FailE β} {n : Node} {fault : Node → Option DefError}
    {lacking : List DefError}
    (hs : ∀ name ms, n.name = some name → inner n = some ms → ∀ a, ∀ m ∈ ms, Tells (step name a m) (fault m))
    (hf : ∀ name ms a, n.name = some name → inner n = some ms →
      readAttrsE (step name) init [] ms = .ok (a, ms.filterMap fault) →
      Tells (finish name a (ms.filterMap fault)) (gather (label n) (ms.filterMap fault ++ lacking))) :
    Tells (readNodeE kind step init finish n) (report n fault lacking) := by
  unfold readNodeE
  by_cases hk : n.kind = kind
  rotate_left
  · rw [if_neg hk]; trivial
  rw [if_pos hk]
  cases hn : n.name with
  | none =>
    unfold coerceNameE report
    rw [hn, if_pos rfl, ← display_eq]; rfl
  | some name =>
    cases hi : inner n with
    | none =>
      have hi' := hi
      rw [inner_eq] at hi'
      unfold coerceNameE coerceNodesE report
      rw [hn, if_neg (by simp), hi, hi', ← display_eq]; rfl
    | some ms =>
      rw [report_eq hn hi]
      have hi' := hi
      rw [inner_eq] at hi'
      unfold coerceNameE coerceNodesE
      rw [hn, hi']
      dsimp only [orErrE]
      cases hr : readAttrsE (step name) init [] ms with
      | error e =>
        cases e with
        | error e => exact absurd hr readAttrsE_panic
        | panic => trivial
      | ok x =>
        obtain ⟨a, es⟩ := x
        have := tells_readAttrs (hs name ms hn hi) hr
        rw [List.nil_append] at this
        subst this
        exact hf name ms a hn hi hr

/-- What was read, without the errors. -/
theorem plain_readAttrs {α : Type} {stepE : α → Node → Except FailE α} {step : α → Node → Except Fail α}
    (hs : ∀ a n, erase (stepE a n) = step a n) {ns : List Node} {a a' : α} {es : List DefError}
    (h : readAttrsE stepE a [] ns = .ok (a', es)) :
    readAttrs step a false ns = .ok (a', !es.isEmpty) := by
  have := erase_readAttrs hs ns a []
  rw [h] at this
  exact this

theorem tells_check (s t : String) (n : Node) : Tells (parseCheckE s t n) (checkReport n) := by
  refine tells_readNode (fun _ _ _ _ a m _ => tells_checkStep a m) fun name ms a hn hi hr => ?_
  have := stated_opt check_expression ((inner_eq n).symm.trans hi) (plain_readAttrs erase_checkStep hr) rfl
  rw [← textOf_eq] at this
  unfold finishCheckE
  rw [needs_eq, this, Option.not_isNone]
  exact tells_unlessErrors fun _ => tells_unwrapE
theorem tells_primaryKey (s t : String) (n : Node) : Tells (parsePrimaryKeyE s t n) (primaryKeyReport n) := by
  refine tells_readNode (fun _ _ _ _ a m _ => tells_primaryKeyStep a m) fun name ms a hn hi hr => ?_
  have := stated_opt primaryKey_columns ((inner_eq n).symm.trans hi) (plain_readAttrs erase_primaryKeyStep hr) rfl
  rw [← textsOf_eq] at this
  unfold finishPrimaryKeyE
  rw [needs_eq, this, Option.not_isNone]
  exact tells_unlessErrors fun _ => tells_unwrapE
theorem tells_unique (s t : String) (n : Node) : Tells (parseUniqueE s t n) (uniqueReport n) := by
  refine tells_readNode (fun _ _ _ _ a m _ => tells_uniqueStep a m) fun name ms a hn hi hr => ?_
  have := stated_of_gives unique_columns ((inner_eq n).symm.trans hi) (plain_readAttrs erase_uniqueStep hr)
  rw [← textsOf_eq] at this
  unfold finishUniqueE
  have hb : (!a.columns.isEmpty) = decide ((stated n "unique" textsOf).getD [] ≠ []) := by
    rw [this]
    show (!((stated n "unique" textsOf).getD []).isEmpty) = _
    cases (stated n "unique" textsOf).getD [] <;> simp
  rw [needs_eq, hb]
  exact tells_unlessErrors fun _ => rfl
theorem tells_view (s : String) (n : Node) : Tells (parseViewE s n) (viewReport n) := by
  refine tells_readNode (fun _ _ _ _ a m _ => tells_viewStep a m) fun name ms a hn hi hr => ?_
  have := stated_opt view_query ((inner_eq n).symm.trans hi) (plain_readAttrs erase_viewStep hr) rfl
  rw [← textOf_eq, id] at this
  unfold finishViewE
  rw [needs_eq, this, Option.not_isNone]
  exact tells_unlessErrors fun _ => tells_unwrapE
theorem tells_function (s : String) (n : Node) : Tells (parseFunctionE s n) (functionReport n) := by
  refine tells_readNode (fun _ _ _ _ a m _ => tells_functionStep a m) fun name ms a hn hi hr => ?_
  have := stated_opt function_body ((inner_eq n).symm.trans hi) (plain_readAttrs erase_functionStep hr) rfl
  rw [← textOf_eq] at this
  unfold finishFunctionE
  rw [needs_eq, this, Option.not_isNone]
  exact tells_unlessErrors fun _ => tells_unwrapE
theorem tells_sequence (s : String) (n : Node) : Tells (parseSequenceE s n) (sequenceReport n) := by
  refine tells_readNode (fun _ _ _ _ a m _ => tells_sequenceStep a m) fun name ms a hn hi hr => ?_
  rw [List.append_nil]
  unfold finishSequenceE
  dsimp only
  cases orDefault a.minValue (seqMin (a.increment.getD 1) (a.dataType.getD "int8")) with
  | error e => trivial
  | ok mn =>
    show Tells (Except.bind _ _) _
    cases orDefault a.maxValue (seqMax (a.increment.getD 1) (a.dataType.getD "int8")) with
    | error e => trivial
    | ok mx => exact tells_unlessErrors fun _ => rfl

/-- The target columns, as they were read. -/
theorem target_columns (s : String) (m : Node) : (target s m).map Prod.snd = targetColumnsOf m := by
  unfold target targetColumnsOf named
  rw [textsOf_eq]
  cases hn : m.name with
  | none => rfl
  | some name =>
    cases hv : m.varargs with
    | none => simp
    | some v =>
      dsimp only
      have ht := tells_tableRef s name
      have he := erase_tableRef s name
      cases hp : parseTableRefE s name with
      | ok r =>
        rw [hp] at ht he
        rw [← he]
        by_cases hi : isTableName name = true
        · simp [hi, erase]
        · rw [if_neg hi] at ht; cases ht
      | error e =>
        cases e with
        | error e =>
          rw [hp] at ht he
          rw [← he]
          by_cases hi : isTableName name = true
          · rw [if_pos hi] at ht; cases ht
          · simp [hi, erase]
        | panic =>
          rw [hp] at he
          exact absurd he.symm (calm_tableRef s name)

theorem tells_foreignKey (s t : String) (n : Node) : Tells (parseForeignKeyE s t n) (foreignKeyReport n) := by
  refine tells_readNode (fun _ _ _ _ a m _ => tells_foreignKeyStep s a m) fun name ms a hn hi hr => ?_
  have hnodes := (inner_eq n).symm.trans hi
  have hp := plain_readAttrs (erase_foreignKeyStep s) hr
  have k1 := stated_opt (foreignKey_columns s) hnodes hp rfl
  have k2 := stated_of_gives (foreignKey_target s) hnodes hp
  rw [← textsOf_eq] at k1
  have h3 : stated n "references" (fun m => (target s m).map fun t => (some t.1, t.2)) =
      (stated n "references" (target s)).map fun t => (some t.1, t.2) := by
    unfold stated
    rw [← List.getLast?_map, List.map_filterMap]
  have h4 : stated n "references" targetColumnsOf = (stated n "references" (target s)).map Prod.snd := by
    unfold stated
    rw [← List.getLast?_map, List.map_filterMap]
    congr 1
    exact filterMap_eq fun m _ => (target_columns s m).symm
  rw [h3] at k2
  have hb : (!(a.target.isNone || a.targetColumns.isEmpty)) =
      decide ((stated n "references" targetColumnsOf).getD [] ≠ []) := by
    rw [h4]
    cases ht : stated n "references" (target s) with
    | none =>
      rw [ht] at k2
      injection k2 with e1 e2
      rw [e1]; rfl
    | some x =>
      rw [ht] at k2
      injection k2 with e1 e2
      rw [e1, e2]
      obtain ⟨x1, x2⟩ := x
      cases x2 <;> rfl
  unfold finishForeignKeyE
  rw [needs_eq, needs_eq, hb, k1, Option.not_isNone, List.append_assoc]
  refine tells_unlessErrors fun _ => ?_
  cases stated n "foreign key" textsOf with
  | none => trivial
  | some cs => cases a.target <;> first | trivial | rfl

theorem tells_constraint (s t : String) (n : Node) : Tells (parseConstraintE s t n) (constraintReport n) := by
  unfold parseConstraintE constraintReport coerceNodesE
  rw [inner_eq]
  cases n.nodes with
  | none => rw [← display_eq]; rfl
  | some ms =>
    cases ms with
    | nil => trivial
    | cons first rest =>
      dsimp only [orErrE]
      by_cases h1 : first.kind = "primary key"
      · simp only [h1, String.reduceEq, if_true, if_false]; exact tells_map (tells_primaryKey s t n)
      by_cases h2 : first.kind = "unique"
      · simp only [h2, String.reduceEq, if_true, if_false]; exact tells_map (tells_unique s t n)
      by_cases h3 : first.kind = "foreign key"
      · simp only [h3, String.reduceEq, if_true, if_false]; exact tells_map (tells_foreignKey s t n)
      by_cases h4 : first.kind = "check"
      · simp only [h4, String.reduceEq, if_true, if_false]; exact tells_map (tells_check s t n)
      rw [if_neg h1, if_neg h2, if_neg h3, if_neg h4]
      trivial

theorem tells_column (s t : String) (n : Node) : Tells (parseColumnE s t n) (columnReport n) := by
  unfold parseColumnE columnReport
  by_cases hk : n.kind = "column"
  rotate_left
  · rw [if_neg hk]; trivial
  rw [if_pos hk, ← display_eq, textOf_eq]
  unfold coerceNameE coerceStrE
  cases n.name with
  | none => rw [if_pos rfl]; rfl
  | some name =>
    rw [if_neg (by simp)]
    cases n.str with
    | none => rfl
    | some x =>
      dsimp only [orErrE]
      unfold parseColumnExprE
      have := parseColumnExpr_accepts (text := x)
      cases h : parseColumnExpr x.toList with
      | ok y =>
        rw [if_pos (this.1 ⟨y, h⟩)]; rfl
      | error e =>
        rw [if_neg (fun hx => by obtain ⟨y, hy⟩ := this.2 hx; rw [h] at hy; cases hy)]; rfl

theorem tells_table (s : String) (n : Node) : Tells (parseTableE s n) (tableReport n) := by
  refine tells_readNode (fun name _ _ _ a m _ => ?_) fun name ms a hn hi hr => ?_
  · unfold tableStepE
    refine tells_ite (fun _ => tells_map (tells_column _ _ _)) fun _ => ?_
    exact tells_ite (fun _ => tells_map (tells_constraint _ _ _)) fun _ => tells_unexpected _
  · rw [List.append_nil]
    refine tells_unlessErrors fun _ => ?_
    cases addColumns (Table.new s name) a.1 with
    | error e => trivial
    | ok t =>
      show Tells (unwrapFail (addConstraints t a.2)) none
      cases addConstraints t a.2 with
      | error e => trivial
      | ok t => rfl

theorem tells_index (s : String) (n : Node) : Tells (parseIndexE s n) (indexReport n) := by
  unfold parseIndexE readNodeE indexReport
  by_cases hk : n.kind = "index"
  rotate_left
  · rw [if_neg hk]; trivial
  rw [if_pos hk]
  unfold report coerceNameE coerceNodesE
  rw [← inner_eq, display_eq]
  cases n.name with
  | none => rw [if_pos rfl]; rfl
  | some name =>
    rw [if_neg (by simp)]
    cases inner n with
    | none => rfl
    | some ms =>
      dsimp only [orErrE]
      cases hr : readAttrsE (fun a => indexStepE a) {} [] ms with
      | error e =>
        cases e with
        | error e => exact absurd hr readAttrsE_panic
        | panic => trivial
      | ok x =>
        obtain ⟨a, es⟩ := x
        have : ms.filterMap (fun _ => (none : Option DefError)) = [] := by simp
        dsimp only
        rw [this]
        exact tells_unwrapE

theorem tells_schema (n : Node) : Tells (parseSchemaE n) (schemaReport n) := by
  refine tells_readNode (fun name _ _ _ a m _ => ?_) fun name ms a hn hi hr => ?_
  · unfold schemaStepE
    refine tells_ite (fun _ => tells_map (tells_table _ _)) fun _ => ?_
    refine tells_ite (fun _ => tells_map (tells_view _ _)) fun _ => ?_
    refine tells_ite (fun _ => tells_map (tells_sequence _ _)) fun _ => ?_
    refine tells_ite (fun _ => tells_map (tells_index _ _)) fun _ => ?_
    exact tells_ite (fun _ => tells_map (tells_function _ _)) fun _ => tells_unexpected _
  · rw [List.append_nil]
    refine tells_unlessErrors fun _ => ?_
    cases finishSchema name a false with
    | error e => trivial
    | ok t => rfl

/-! ### Reading YAML -/

/-- The kind of an error while reading YAML. -/
def LoadErrorE.fail : LoadErrorE → Fail
  | .panic => .panic
  | _ => .error

/-- A result of reading YAML, without the error. -/
def eraseY {α : Type} : Except LoadErrorE α → Except Fail α
  | .ok a => .ok a
  | .error e => .error e.fail

theorem eraseY_key (key : String) : eraseY (parseKeyE key) = parseKey key := by
  unfold parseKeyE
  cases parseKey key with
  | ok x => rfl
  | error e => cases e <;> rfl

theorem eraseY_num : ∀ n : Num, eraseY (parseNumE n) = parseNum n
  | .float b => rfl
  | .integer i => by
    rw [parseNumE, parseNum]
    split <;> rfl

mutual
theorem eraseY_value : ∀ y : Yaml, eraseY (parseValueE y) = parseValue y
  | .str s => by rw [parseValueE, parseValue]; rfl
  | .bool b => by rw [parseValueE, parseValue]; rfl
  | .map _ _ => by rw [parseValueE, parseValue]; rfl
  | .null => by rw [parseValueE, parseValue]; rfl
  | .tagged => by rw [parseValueE, parseValue]; rfl
  | .num n => by
    rw [parseValueE, parseValue, ← eraseY_num]
    cases parseNumE n <;> rfl
  | .seq vs => by
    rw [parseValueE, parseValue, ← eraseY_values]
    cases parseValuesE vs <;> rfl
theorem eraseY_values : ∀ ys : List Yaml, eraseY (parseValuesE ys) = parseValues ys
  | [] => by rw [parseValuesE, parseValues]; rfl
  | y :: ys => by
    rw [parseValuesE, parseValues, ← eraseY_value, ← eraseY_values]
    cases parseValueE y with
    | error e => rfl
    | ok x => cases parseValuesE ys <;> rfl
end

mutual
theorem eraseY_entry : ∀ (kind : String) (name : Option String) (y : Yaml),
    eraseY (parseEntryE kind name y) = parseEntry kind name y
  | kind, name, .map ks vs => by
    rw [parseEntryE, parseEntry, ← eraseY_mapping]
    cases parseMappingE ks vs <;> rfl
  | kind, name, .null => by rw [parseEntryE, parseEntry]; rfl
  | kind, name, .str s => by rw [parseEntryE, parseEntry]; rfl
  | kind, name, .bool s => by rw [parseEntryE, parseEntry]; rfl
  | kind, name, .tagged => by rw [parseEntryE, parseEntry]; rfl
  | kind, name, .num m => by
    rw [parseEntryE, parseEntry, ← eraseY_num]
    cases parseNumE m <;> rfl
  | kind, name, .seq vs => by
    rw [parseEntryE, parseEntry, ← eraseY_values]
    cases parseValuesE vs <;> rfl
theorem eraseY_mapping : ∀ (ks : List (Option String)) (vs : List Yaml),
    eraseY (parseMappingE ks vs) = parseMapping ks vs
  | [], _ => by rw [parseMappingE, parseMapping]; rfl
  | _ :: _, [] => by rw [parseMappingE, parseMapping]; rfl
  | none :: ks, v :: vs => by rw [parseMappingE, parseMapping]; rfl
  | some key :: ks, v :: vs => by
    rw [parseMappingE, parseMapping, ← eraseY_key]
    cases parseKeyE key with
    | error e => rfl
    | ok x =>
      obtain ⟨kind, name⟩ := x
      show eraseY (match parseEntryE kind name v with
        | .error e => .error e
        | .ok n =>
          match parseMappingE ks vs with
          | .error e => .error e
          | .ok ns => .ok (n :: ns)) = (match parseEntry kind name v with
        | .error e => .error e
        | .ok n =>
          match parseMapping ks vs with
          | .error e => .error e
          | .ok ns => .ok (n :: ns))
      rw [← eraseY_entry, ← eraseY_mapping]
      cases parseEntryE kind name v with
      | error e => rfl
      | ok n => cases parseMappingE ks vs <;> rfl
end

theorem eraseY_ok {α : Type} {x : Except LoadErrorE α} {y : Except Fail α} (h : eraseY x = y) {a : α} :
    x = .ok a ↔ y = .ok a := by
  subst h
  cases x <;> simp [eraseY]

/-- Reading YAML ends in a panic or in an error about the YAML. -/
def OfYaml {α : Type} (x : Except LoadErrorE α) : Prop :=
  ∀ e, x = .error e → e = .panic ∨ ∃ e', e = .yaml e'

theorem ofYaml_num (n : Num) : OfYaml (parseNumE n) := by
  intro e h
  cases n with
  | float b => cases h
  | integer i =>
    rw [parseNumE] at h
    split at h
    · cases h
    · cases h; exact .inr ⟨_, rfl⟩

mutual
theorem ofYaml_value : ∀ y : Yaml, OfYaml (parseValueE y)
  | .str s => by intro e h; rw [parseValueE] at h; cases h
  | .bool b => by intro e h; rw [parseValueE] at h; cases h
  | .map _ _ => by intro e h; rw [parseValueE] at h; cases h; exact .inl rfl
  | .null => by intro e h; rw [parseValueE] at h; cases h; exact .inr ⟨_, rfl⟩
  | .tagged => by intro e h; rw [parseValueE] at h; cases h; exact .inr ⟨_, rfl⟩
  | .num n => by
    intro e h
    rw [parseValueE] at h
    split at h
    · next he => cases h; exact ofYaml_num n _ he
    · cases h
  | .seq vs => by
    intro e h
    rw [parseValueE] at h
    split at h
    · next he => cases h; exact ofYaml_values vs _ he
    · cases h
theorem ofYaml_values : ∀ ys : List Yaml, OfYaml (parseValuesE ys)
  | [] => by intro e h; rw [parseValuesE] at h; cases h
  | y :: ys => by
    intro e h
    rw [parseValuesE] at h
    split at h
    · next he => cases h; exact ofYaml_value y _ he
    · split at h
      · next he => cases h; exact ofYaml_values ys _ he
      · cases h
end

mutual
theorem ofYaml_entry : ∀ (kind : String) (name : Option String) (y : Yaml), OfYaml (parseEntryE kind name y)
  | kind, name, .map ks vs => by
    intro e h
    rw [parseEntryE] at h
    split at h
    · next he => cases h; exact ofYaml_mapping ks vs _ he
    · cases h
  | kind, name, .null => by intro e h; rw [parseEntryE] at h; cases h
  | kind, name, .str s => by intro e h; rw [parseEntryE] at h; cases h
  | kind, name, .bool s => by intro e h; rw [parseEntryE] at h; cases h
  | kind, name, .tagged => by intro e h; rw [parseEntryE] at h; cases h; exact .inr ⟨_, rfl⟩
  | kind, name, .num m => by
    intro e h
    rw [parseEntryE] at h
    split at h
    · next he => cases h; exact ofYaml_num m _ he
    · cases h
  | kind, name, .seq vs => by
    intro e h
    rw [parseEntryE] at h
    split at h
    · next he => cases h; exact ofYaml_values vs _ he
    · cases h
theorem ofYaml_mapping : ∀ (ks : List (Option String)) (vs : List Yaml), OfYaml (parseMappingE ks vs)
  | [], _ => by intro e h; rw [parseMappingE] at h; cases h
  | _ :: _, [] => by intro e h; rw [parseMappingE] at h; cases h
  | none :: ks, v :: vs => by intro e h; rw [parseMappingE] at h; cases h; exact .inr ⟨_, rfl⟩
  | some key :: ks, v :: vs => by
    intro e h
    rw [parseMappingE] at h
    split at h
    · next he =>
      cases h
      unfold parseKeyE at he
      split at he <;> cases he
      · exact .inr ⟨_, rfl⟩
      · exact .inl rfl
    · next kind name _ =>
      split at h
      · next he => cases h; exact ofYaml_entry kind name v _ he
      · split at h
        · next he => cases h; exact ofYaml_mapping ks vs _ he
        · cases h
end

theorem parseNumE_error {n : Num} {e : YamlError} (h : parseNumE n = .error (.yaml e)) :
    ElementWrong (.num n) e := by
  cases n with
  | float b => cases h
  | integer i =>
    rw [parseNumE] at h
    split at h
    · cases h
    · next hi => cases h; exact .number hi

mutual
theorem parseValueE_wrong : ∀ {y : Yaml} {e : YamlError}, parseValueE y = .error (.yaml e) → ElementWrong y e
  | .map _ _, e, h => by rw [parseValueE] at h; cases h
  | .str s, e, h => by rw [parseValueE] at h; cases h
  | .bool s, e, h => by rw [parseValueE] at h; cases h
  | .null, e, h => by rw [parseValueE] at h; cases h; exact .null
  | .tagged, e, h => by rw [parseValueE] at h; cases h; exact .tagged
  | .num n, e, h => by
    rw [parseValueE] at h
    split at h
    · next he => cases h; exact parseNumE_error he
    · cases h
  | .seq vs, e, h => by
    rw [parseValueE] at h
    split at h
    · next he =>
      cases h
      obtain ⟨before, y, after, rfl, h1, h2⟩ := parseValuesE_wrong he
      exact .list h1 h2
    · cases h
theorem parseValuesE_wrong : ∀ {ys : List Yaml} {e : YamlError}, parseValuesE ys = .error (.yaml e) →
    ∃ before y after, ys = before ++ y :: after ∧ (∀ x ∈ before, ∃ v, Says x v) ∧ ElementWrong y e
  | [], e, h => by rw [parseValuesE] at h; cases h
  | y :: ys, e, h => by
    rw [parseValuesE] at h
    split at h
    · next he =>
      cases h
      exact ⟨[], y, ys, rfl, by simp, parseValueE_wrong he⟩
    · next x hx =>
      split at h
      · next he =>
        cases h
        obtain ⟨before, y', after, rfl, h1, h2⟩ := parseValuesE_wrong he
        exact ⟨y :: before, y', after, rfl,
          fun z hz => by
            rcases List.mem_cons.1 hz with rfl | hz
            · exact ⟨x, parseValue_says ((eraseY_ok (eraseY_value _)).1 hx)⟩
            · exact h1 z hz, h2⟩
      · cases h
end

theorem parseValuesE_append {before : List Yaml} (h : ∀ x ∈ before, ∃ v, Says x v) {y : Yaml}
    {after : List Yaml} {e : LoadErrorE} (hy : parseValueE y = .error e) :
    parseValuesE (before ++ y :: after) = .error e := by
  induction before with
  | nil => rw [List.nil_append, parseValuesE, hy]
  | cons b before ih =>
    obtain ⟨v, hv⟩ := h b (by simp)
    rw [List.cons_append, parseValuesE, (eraseY_ok (eraseY_value _)).2 (says_parseValue hv),
      ih fun x hx => h x (by simp [hx])]

theorem wrong_parseNumE {i : Int} (h : ¬ (least ≤ i ∧ i ≤ greatest)) :
    parseNumE (.integer i) = .error (.yaml (.invalidNumber i)) := by
  rw [parseNumE]
  exact if_neg h

theorem wrong_parseValueE {y : Yaml} {e : YamlError} (h : ElementWrong y e) :
    parseValueE y = .error (.yaml e) := by
  induction h with
  | null => rw [parseValueE]
  | tagged => rw [parseValueE]
  | number h => rw [parseValueE, wrong_parseNumE h]
  | list h _ ih => rw [parseValueE, parseValuesE_append h ih]

theorem parseEntryE_other {kind : String} {name : Option String} {y : Yaml}
    (h1 : ∀ ks vs, y ≠ .map ks vs) (h2 : y ≠ .null) :
    parseEntryE kind name y = (match parseValueE y with
      | .error e => .error e
      | .ok v => .ok (.leaf kind name (some v))) := by
  cases y with
  | null => exact absurd rfl h2
  | bool b => rw [parseEntryE, parseValueE]
  | num n => rw [parseEntryE, parseValueE]; cases parseNumE n <;> rfl
  | str s => rw [parseEntryE, parseValueE]
  | seq vs => rw [parseEntryE, parseValueE]; cases parseValuesE vs <;> rfl
  | map ks vs => exact absurd rfl (h1 ks vs)
  | tagged => rw [parseEntryE, parseValueE]

mutual
theorem parseEntryE_wrong : ∀ {kind : String} {name : Option String} {y : Yaml} {e : YamlError},
    parseEntryE kind name y = .error (.yaml e) →
      (∃ ks vs, y = .map ks vs ∧ MappingWrong ks vs e) ∨ (y ≠ .null ∧ ElementWrong y e)
  | kind, name, .map ks vs, e, h => by
    rw [parseEntryE] at h
    split at h
    · next he => cases h; exact .inl ⟨ks, vs, rfl, parseMappingE_wrong he⟩
    · cases h
  | kind, name, .null, e, h => by rw [parseEntryE] at h; cases h
  | kind, name, .str s, e, h => by rw [parseEntryE] at h; cases h
  | kind, name, .bool s, e, h => by rw [parseEntryE] at h; cases h
  | kind, name, .tagged, e, h => by
    rw [parseEntryE] at h; cases h; exact .inr ⟨by simp, .tagged⟩
  | kind, name, .num m, e, h => by
    rw [parseEntryE] at h
    split at h
    · next he => cases h; exact .inr ⟨by simp, parseNumE_error he⟩
    · cases h
  | kind, name, .seq vs, e, h => by
    rw [parseEntryE_other (by simp) (by simp)] at h
    split at h
    · next he => cases h; exact .inr ⟨by simp, parseValueE_wrong he⟩
    · cases h
theorem parseMappingE_wrong : ∀ {ks : List (Option String)} {vs : List Yaml} {e : YamlError},
    parseMappingE ks vs = .error (.yaml e) → MappingWrong ks vs e
  | [], _, e, h => by rw [parseMappingE] at h; cases h
  | _ :: _, [], e, h => by rw [parseMappingE] at h; cases h
  | none :: ks, v :: vs, e, h => by rw [parseMappingE] at h; cases h; exact .notText
  | some key :: ks, v :: vs, e, h => by
    rw [parseMappingE] at h
    split at h
    · next he =>
      cases h
      unfold parseKeyE at he
      split at he <;> cases he
      next hk =>
      refine .key (fun kind name hs => ?_) fun hc => ?_
      · rw [parseKey_says.2 hs] at hk; cases hk
      · rw [parseKey_panic_iff.2 hc] at hk; cases hk
    · next kind name hk =>
      have hk' := parseKey_says.1 ((eraseY_ok (eraseY_key _)).1 hk)
      split at h
      · next he =>
        cases h
        rcases parseEntryE_wrong he with ⟨ks', vs', rfl, hp⟩ | ⟨hn, hp⟩
        · exact .inside hk' hp
        · exact .value hk' hn hp
      · next n hn =>
        split at h
        · next he =>
          cases h
          exact .later hk' (parseEntry_says ((eraseY_ok (eraseY_entry _ _ _)).1 hn)) (parseMappingE_wrong he)
        · cases h
end

theorem says_parseKeyE {key kind : String} {name : Option String} (h : KeySays key kind name) :
    parseKeyE key = .ok (kind, name) := by
  unfold parseKeyE
  rw [parseKey_says.2 h]

theorem wrong_parseMappingE {ks : List (Option String)} {vs : List Yaml} {e : YamlError}
    (h : MappingWrong ks vs e) : parseMappingE ks vs = .error (.yaml e) := by
  induction h with
  | notText => rw [parseMappingE]
  | @key key v ks vs h1 h2 =>
    rw [parseMappingE]
    unfold parseKeyE
    cases hk : parseKey key with
    | ok x => exact absurd (parseKey_says.1 hk) (h1 x.1 x.2)
    | error f =>
      cases f with
      | error => rfl
      | panic => exact absurd (parseKey_panic_iff.1 hk) h2
  | value hk hn h =>
    rw [parseMappingE, says_parseKeyE hk]
    dsimp only
    rw [parseEntryE_other (fun ks vs e => by subst e; cases h) hn, wrong_parseValueE h]
  | inside hk _ ih =>
    rw [parseMappingE, says_parseKeyE hk]
    dsimp only
    rw [parseEntryE, ih]
  | later hk hn _ ih =>
    rw [parseMappingE, says_parseKeyE hk]
    dsimp only
    rw [(eraseY_ok (eraseY_entry _ _ _)).2 (nodeSays_parse hn), ih]

/-! ### Files -/

theorem erase_ok {α : Type} {x : Except FailE α} {y : Except Fail α} (h : erase x = y) {a : α} :
    x = .ok a ↔ y = .ok a := by
  subst h
  cases x <;> simp [erase]

theorem erase_panic {α : Type} {x : Except FailE α} {y : Except Fail α} (h : erase x = y) :
    x = .error .panic ↔ y = .error .panic := by
  subst h
  cases x with
  | ok a => simp [erase]
  | error e => cases e <;> simp [erase, FailE.erase]

theorem parseSchemaE_error {n : Node} {e : DefError} :
    parseSchemaE n = .error (.error e) ↔ ¬ SchemaPanics n ∧ schemaReport n = some e := by
  have ht := tells_schema n
  have hp := (erase_panic (erase_schema n)).trans parseSchema_panic
  cases h : parseSchemaE n with
  | ok s =>
    rw [h] at ht
    constructor
    · intro h; cases h
    · rintro ⟨_, h2⟩; rw [show schemaReport n = none from ht] at h2; cases h2
  | error f =>
    rw [h] at ht hp
    cases f with
    | panic =>
      constructor
      · intro h; cases h
      · rintro ⟨h1, _⟩; exact absurd (hp.1 rfl) h1
    | error e' =>
      have ht : schemaReport n = some e' := ht
      constructor
      · intro h
        cases h
        exact ⟨fun h => (nomatch hp.2 h), ht⟩
      · rintro ⟨_, h2⟩; rw [ht] at h2; cases h2; rfl

/-- A result of loading, without the error about the definitions. -/
def LoadErrorE.plain : LoadErrorE → LoadError
  | .notMapping => .parse ""
  | .yaml _ => .parse ""
  | .definition _ => .parse ""
  | .snapshot e => .snapshot e
  | .panic => .panic

/-- A result of loading, without the error about the definitions. -/
def eraseL {α : Type} : Except LoadErrorE α → Except LoadError α
  | .ok a => .ok a
  | .error e => .error e.plain

theorem eraseL_ok {α : Type} {x : Except LoadErrorE α} {y : Except LoadError α} (h : eraseL x = y) {a : α} :
    x = .ok a ↔ y = .ok a := by
  subst h
  cases x <;> simp [eraseL]

theorem eraseL_panic {α : Type} {x : Except LoadErrorE α} {y : Except LoadError α} (h : eraseL x = y) :
    x = .error .panic ↔ y = .error .panic := by
  subst h
  cases x with
  | ok a => simp [eraseL]
  | error e => cases e <;> simp [eraseL, LoadErrorE.plain]

theorem eraseL_snapshot {α : Type} {x : Except LoadErrorE α} {y : Except LoadError α} (h : eraseL x = y)
    {s : SnapshotError} : x = .error (.snapshot s) ↔ y = .error (.snapshot s) := by
  subst h
  cases x with
  | ok a => simp [eraseL]
  | error e => cases e <;> simp [eraseL, LoadErrorE.plain]

theorem loadFailE_plain (e : FailE) : (loadFailE e).plain = loadFail e.erase := by
  cases e <;> rfl

theorem eraseL_nodes : ∀ (ns : List Node) (d : Database), eraseL (loadNodesE d ns) = loadNodes d ns
  | [], d => rfl
  | n :: ns, d => by
    rw [loadNodesE, loadNodes, ← erase_schema]
    cases parseSchemaE n with
    | error e =>
      show Except.error (loadFailE e).plain = _
      rw [loadFailE_plain]; rfl
    | ok s =>
      dsimp only [erase]
      cases d.mergeOne s.name s with
      | error e => rfl
      | ok d' => exact eraseL_nodes ns d'

theorem eraseL_doc (y : Yaml) : eraseL (loadDocE y) = loadDoc y := by
  unfold loadDocE loadDoc
  cases y with
  | map ks vs =>
    dsimp only
    rw [← eraseY_mapping]
    have ho := ofYaml_mapping ks vs
    cases h : parseMappingE ks vs with
    | error e =>
      rcases ho e h with rfl | ⟨e', rfl⟩
      · rfl
      · rfl
    | ok ns => exact eraseL_nodes ns _
  | _ => rfl

theorem eraseL_files : ∀ (fs : List Yaml) (d : Database), eraseL (loadFilesE d fs) = loadFiles d fs
  | [], d => rfl
  | f :: fs, d => by
    rw [loadFilesE, loadFiles, ← eraseL_doc]
    cases loadDocE f with
    | error e => rfl
    | ok fd =>
      dsimp only [eraseL]
      cases d.merge fd with
      | error e => rfl
      | ok d' => exact eraseL_files fs d'

theorem eraseL_dir (es : List (DirTree Yaml)) : eraseL (loadDirE es) = loadDir es := eraseL_files _ _

theorem loadNodesE_definition {ns : List Node} {d : Database} {e : DefError} :
    loadNodesE d ns = .error (.definition e) ↔
      ∃ before n after d', ns = before ++ n :: after ∧ loadNodes d before = .ok d' ∧
        parseSchemaE n = .error (.error e) := by
  constructor
  · intro h
    induction ns generalizing d with
    | nil => cases h
    | cons n ns ih =>
      rw [loadNodesE] at h
      split at h
      · next f he =>
        cases f with
        | error e' => cases h; exact ⟨[], n, ns, d, rfl, rfl, he⟩
        | panic => cases h
      · next s hs =>
        split at h
        · cases h
        · next d1 hd =>
          obtain ⟨before, n', after, d', rfl, h1, h2⟩ := ih h
          refine ⟨n :: before, n', after, d', rfl, ?_, h2⟩
          rw [loadNodes, (erase_ok (erase_schema n)).1 hs]
          dsimp only
          rw [hd]
          exact h1
  · rintro ⟨before, n, after, d', rfl, h1, h2⟩
    induction before generalizing d with
    | nil => rw [List.nil_append, loadNodesE, h2]; rfl
    | cons b before ih =>
      rw [loadNodes] at h1
      split at h1
      · cases h1
      · next s hs =>
        split at h1
        · cases h1
        · next d1 hd =>
          rw [List.cons_append, loadNodesE, (erase_ok (erase_schema b)).2 hs]
          dsimp only
          rw [hd]
          exact ih h1

theorem loadNodesE_yaml {ns : List Node} {d : Database} {e : YamlError} :
    loadNodesE d ns ≠ .error (.yaml e) := by
  intro h
  induction ns generalizing d with
  | nil => cases h
  | cons n ns ih =>
    rw [loadNodesE] at h
    split at h
    · next f he => cases f <;> cases h
    · split at h
      · cases h
      · exact ih h

theorem loadDocE_definition {y : Yaml} {e : DefError} : loadDocE y = .error (.definition e) ↔
    ∃ before n after, FileSays y (before ++ n :: after) ∧ (∀ m ∈ before, SchemaAccepted m) ∧
      before.Pairwise (fun a b => ¬ PartsClash a b) ∧ ¬ SchemaPanics n ∧ schemaReport n = some e := by
  constructor
  · intro h
    unfold loadDocE at h
    split at h
    · next ks vs =>
      split at h
      · next f he =>
        cases h
        rcases ofYaml_mapping ks vs _ he with h | ⟨_, h⟩ <;> cases h
      · next ns hns =>
        obtain ⟨before, n, after, d', rfl, h1, h2⟩ := loadNodesE_definition.1 h
        obtain ⟨a1, a2⟩ := loadNodes_accepts.1 ⟨d', h1⟩
        exact ⟨before, n, after, fileSays_iff.2 ⟨ks, vs, rfl, (eraseY_ok (eraseY_mapping _ _)).1 hns⟩, a1, a2,
          parseSchemaE_error.1 h2⟩
    · cases h
  · rintro ⟨before, n, after, hf, a1, a2, hp⟩
    obtain ⟨ks, vs, rfl, e'⟩ := fileSays_iff.1 hf
    obtain ⟨d', hd⟩ := loadNodes_accepts.2 ⟨a1, a2⟩
    unfold loadDocE
    dsimp only
    rw [(eraseY_ok (eraseY_mapping _ _)).2 e']
    exact loadNodesE_definition.2 ⟨before, n, after, d', rfl, hd, parseSchemaE_error.2 hp⟩

theorem loadDocE_yaml {y : Yaml} {e : YamlError} : loadDocE y = .error (.yaml e) ↔
    ∃ ks vs, y = .map ks vs ∧ MappingWrong ks vs e := by
  constructor
  · intro h
    unfold loadDocE at h
    split at h
    · next ks vs =>
      split at h
      · next f he => cases h; exact ⟨ks, vs, rfl, parseMappingE_wrong he⟩
      · exact absurd h loadNodesE_yaml
    · cases h
  · rintro ⟨ks, vs, rfl, h⟩
    unfold loadDocE
    dsimp only
    rw [wrong_parseMappingE h]

theorem loadDocE_notMapping {y : Yaml} : loadDocE y = .error .notMapping ↔ ∀ ks vs, y ≠ .map ks vs := by
  constructor
  · rintro h ks vs rfl
    unfold loadDocE at h
    dsimp only at h
    split at h
    · next he =>
      cases h
      rcases ofYaml_mapping ks vs _ he with h | ⟨_, h⟩ <;> cases h
    · next ns _ =>
      have : ∀ (ns : List Node) (d : Database), loadNodesE d ns ≠ .error .notMapping := by
        intro ns
        induction ns with
        | nil => intro d h; cases h
        | cons n ns ih =>
          intro d h
          rw [loadNodesE] at h
          split at h
          · next f he => cases f <;> cases h
          · split at h
            · cases h
            · exact ih _ h
      exact this _ _ h
  · intro h
    unfold loadDocE
    split
    · next ks vs => exact absurd rfl (h ks vs)
    · rfl

theorem loadFilesE_of_file {fs : List Yaml} {d : Database} {e : LoadErrorE} (hs : ∀ s, e ≠ .snapshot s) :
    loadFilesE d fs = .error e ↔
    ∃ before f after d', fs = before ++ f :: after ∧ loadFiles d before = .ok d' ∧ loadDocE f = .error e := by
  constructor
  · intro h
    induction fs generalizing d with
    | nil => cases h
    | cons n ns ih =>
      rw [loadFilesE] at h
      split at h
      · next he =>
        cases h
        exact ⟨[], n, ns, d, rfl, rfl, he⟩
      · next s hs' =>
        split at h
        · next e' _ => cases h; exact absurd rfl (hs e')
        · next d1 hd =>
          obtain ⟨before, n', after, d', rfl, h1, h2⟩ := ih h
          refine ⟨n :: before, n', after, d', rfl, ?_, h2⟩
          rw [loadFiles, (eraseL_ok (eraseL_doc n)).1 hs']
          dsimp only
          rw [hd]
          exact h1
  · rintro ⟨before, n, after, d', rfl, h1, h2⟩
    induction before generalizing d with
    | nil => rw [List.nil_append, loadFilesE, h2]
    | cons b before ih =>
      rw [loadFiles] at h1
      split at h1
      · cases h1
      · next fd hf =>
        split at h1
        · cases h1
        · next d1 hd =>
          rw [List.cons_append, loadFilesE, (eraseL_ok (eraseL_doc b)).2 hf]
          dsimp only
          rw [hd]
          exact ih h1

theorem loadDirE_of_file {es : List (DirTree Yaml)} {e : LoadErrorE} (hs : ∀ s, e ≠ .snapshot s) :
    loadDirE es = .error e ↔ ∃ before name f after, filesOf es = before ++ (name, f) :: after ∧
      (∃ d, loadDirE (before.map fun p => DirTree.file p.1 p.2) = .ok d) ∧ YamlName name ∧
      loadDocE f = .error e := by
  unfold loadDirE
  rw [loadFilesE_of_file hs, Load.collect_eq]
  constructor
  · rintro ⟨before, f, after, d', e, h1, h2⟩
    rw [List.map_eq_append_iff] at e
    obtain ⟨l1, l2, e, rfl, e2⟩ := e
    rw [List.map_eq_cons_iff] at e2
    obtain ⟨p, l3, rfl, rfl, rfl⟩ := e2
    rw [List.filter_eq_append_iff] at e
    obtain ⟨m1, m2, e, rfl, e2⟩ := e
    rw [List.filter_eq_cons_iff] at e2
    obtain ⟨k1, k2, rfl, hk, hp, rfl⟩ := e2
    refine ⟨m1 ++ k1, p.1, p.2, k2, by rw [e]; simp, ⟨d', ?_⟩, Load.isYaml_iff.1 hp, h2⟩
    rw [collect_files, List.filter_append]
    have : k1.filter (fun p => Load.isYaml p.1) = [] := List.filter_eq_nil_iff.2 hk
    rw [this, List.append_nil]
    exact (eraseL_ok (eraseL_files _ _)).2 h1
  · rintro ⟨before, name, f, after, e, ⟨d, hd⟩, hn, hp⟩
    rw [collect_files] at hd
    refine ⟨_, f, (after.filter fun p => Load.isYaml p.1).map Prod.snd, d, ?_,
      (eraseL_ok (eraseL_files _ _)).1 hd, hp⟩
    rw [e, List.filter_append, List.filter_cons, if_pos (Load.isYaml_iff.2 hn)]
    simp

/-! ### The text -/

theorem standsIn_refl (s : String) : StandsIn s s := ⟨"", "", by simp⟩

theorem standsIn_trans {a b c : String} (h1 : StandsIn a b) (h2 : StandsIn b c) : StandsIn a c := by
  obtain ⟨x, y, rfl⟩ := h1
  obtain ⟨u, v, rfl⟩ := h2
  exact ⟨u ++ x, y ++ v, by simp only [String.append_assoc]⟩

theorem standsIn_errors {e : DefError} : ∀ {es : List DefError}, e ∈ es →
    StandsIn e.text (textsOfErrors es)
  | f :: es, h => by
    rw [textsOfErrors]
    rcases List.mem_cons.1 h with rfl | h
    · exact ⟨"\n  ", textsOfErrors es, by simp only [String.append_assoc]⟩
    · exact standsIn_trans (standsIn_errors h) ⟨"\n  " ++ f.text, "", String.append_empty.symm⟩

theorem standsIn_end {a b : String} : StandsIn b (a ++ b) := ⟨a, "", String.append_empty.symm⟩

theorem standsIn_mid {a b c : String} : StandsIn b (a ++ b ++ c) := ⟨a, c, rfl⟩

theorem text_hasErrors (n : String) (es : List DefError) :
    (DefError.hasErrors n es).text = "has errors: " ++ n ++ textsOfErrors es := by
  delta DefError.text textsOfErrors; with_unfolding_all rfl

theorem standsIn_text {f e : DefError} (h : Within f e) : StandsIn f.text e.text := by
  induction h with
  | self => exact standsIn_refl f.text
  | inside hm _ ih =>
    refine standsIn_trans ih (standsIn_trans (standsIn_errors hm) ?_)
    rw [text_hasErrors]
    exact standsIn_end

theorem culprit_text (e : DefError) : StandsIn e.culprit e.text := by
  cases e with
  | unexpectedNode n => exact ⟨"unexpected node: ", "", by rw [String.append_empty]; delta DefError.text; with_unfolding_all rfl⟩
  | nameRequired n => exact ⟨"name required: ", "", by rw [String.append_empty]; delta DefError.text; with_unfolding_all rfl⟩
  | childNodesRequired n =>
    exact ⟨"child nodes required: ", "", by rw [String.append_empty]; delta DefError.text; with_unfolding_all rfl⟩
  | attributeRequired n a =>
    exact ⟨"attribute required: ", " " ++ a, by rw [← String.append_assoc]; delta DefError.text; with_unfolding_all rfl⟩
  | invalidTypeAttribute n a =>
    exact ⟨"invalid type attribute: ", " expected " ++ a,
      by rw [← String.append_assoc]; delta DefError.text; with_unfolding_all rfl⟩
  | invalidTypeExpression n =>
    exact ⟨"invalid type expression: ", "", by rw [String.append_empty]; delta DefError.text; with_unfolding_all rfl⟩
  | invalidTableReference n =>
    exact ⟨"invalid table reference: ", "", by rw [String.append_empty]; delta DefError.text; with_unfolding_all rfl⟩
  | invalidColumnReference n =>
    exact ⟨"invalid column reference: ", "", by rw [String.append_empty]; delta DefError.text; with_unfolding_all rfl⟩
  | hasErrors n es => rw [text_hasErrors]; exact standsIn_mid

theorem detail_text {e : DefError} {d : String} (h : e.detail = some d) : StandsIn d e.text := by
  cases e <;> cases h
  · exact ⟨"attribute required: " ++ _ ++ " ", "", by
      rw [String.append_empty]; delta DefError.text; with_unfolding_all rfl⟩
  · exact ⟨"invalid type attribute: " ++ _ ++ " expected ", "", by
      rw [String.append_empty]; delta DefError.text; with_unfolding_all rfl⟩

/-- How the message of an error of that sort begins. -/
def opening : Nat → String
  | 0 => "unexpected node: "
  | 1 => "name required: "
  | 2 => "child nodes required: "
  | 3 => "attribute required: "
  | 4 => "invalid type attribute: "
  | 5 => "invalid type expression: "
  | 6 => "invalid table reference: "
  | 7 => "invalid column reference: "
  | _ => "has errors: "

theorem text_opening (e : DefError) : ∃ rest, e.text = opening e.sort ++ rest := by
  cases e with
  | unexpectedNode n => exact ⟨n, by delta DefError.text; with_unfolding_all rfl⟩
  | nameRequired n => exact ⟨n, by delta DefError.text; with_unfolding_all rfl⟩
  | childNodesRequired n => exact ⟨n, by delta DefError.text; with_unfolding_all rfl⟩
  | attributeRequired n a =>
    exact ⟨n ++ (" " ++ a), by rw [← String.append_assoc, ← String.append_assoc]; delta DefError.text; with_unfolding_all rfl⟩
  | invalidTypeAttribute n a =>
    exact ⟨n ++ (" expected " ++ a), by
      rw [← String.append_assoc, ← String.append_assoc]; delta DefError.text; with_unfolding_all rfl⟩
  | invalidTypeExpression n => exact ⟨n, by delta DefError.text; with_unfolding_all rfl⟩
  | invalidTableReference n => exact ⟨n, by delta DefError.text; with_unfolding_all rfl⟩
  | invalidColumnReference n => exact ⟨n, by delta DefError.text; with_unfolding_all rfl⟩
  | hasErrors n es => exact ⟨n ++ textsOfErrors es, by rw [text_hasErrors, String.append_assoc]; rfl⟩

theorem opening_apart : ∀ i < 9, ∀ j < 9, i ≠ j →
    (opening i).toList.isPrefixOf (opening j).toList = false := by decide +kernel

theorem sort_lt (e : DefError) : e.sort < 9 := by cases e <;> simp [DefError.sort]

theorem text_sort {f g : DefError} (h : f.text = g.text) : f.sort = g.sort := by
  obtain ⟨x, hx⟩ := text_opening f
  obtain ⟨y, hy⟩ := text_opening g
  rw [hx, hy] at h
  have h' := congrArg String.toList h
  rw [String.toList_append, String.toList_append] at h'
  by_cases e : f.sort = g.sort
  · exact e
  exfalso
  have p1 : (opening f.sort).toList <+: (opening g.sort).toList ++ y.toList := ⟨_, h'⟩
  have p2 : (opening g.sort).toList <+: (opening g.sort).toList ++ y.toList := List.prefix_append _ _
  rcases Nat.le_total (opening f.sort).toList.length (opening g.sort).toList.length with hl | hl
  · have := List.prefix_of_prefix_length_le p1 p2 hl
    rw [← List.isPrefixOf_iff_prefix, opening_apart _ (sort_lt f) _ (sort_lt g) e] at this
    cases this
  · have := List.prefix_of_prefix_length_le p2 p1 hl
    rw [← List.isPrefixOf_iff_prefix, opening_apart _ (sort_lt g) _ (sort_lt f) (Ne.symm e)] at this
    cases this

end Def
end Podo
