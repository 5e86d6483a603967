import Verif.Proofs.DdlAttrs
import Verif.Proofs.DdlWf
import Verif.Proofs.Reads
/-
Definitions that are not answered with a panic (C48).
-/
set_option linter.unusedSimpArgs false
namespace Podo
namespace Def
open Text

/-- Not a panic. -/
def Calm {α : Type} (x : Except Fail α) : Prop := x ≠ .error .panic

theorem calm_ok {α : Type} (a : α) : Calm (.ok a : Except Fail α) := by intro h; cases h
theorem calm_error {α : Type} : Calm (.error .error : Except Fail α) := by intro h; cases h

theorem calm_match {α β : Type} {x : Except Fail α} {f : α → Except Fail β} (hx : Calm x)
    (hf : ∀ a, x = .ok a → Calm (f a)) : Calm (x.bind f) := by
  cases x with
  | ok a => exact hf a rfl
  | error e =>
    cases e with
    | error => exact calm_error
    | panic => exact absurd rfl hx

theorem calm_orErr {α : Type} (o : Option α) : Calm (orErr o) := by
  cases o
  · exact calm_error
  · exact calm_ok _

theorem calm_map {α β : Type} {x : Except Fail α} {f : α → β} (hx : Calm x) : Calm (x.map f) := by
  cases x with
  | ok a => exact calm_ok _
  | error e =>
    cases e with
    | error => exact calm_error
    | panic => exact absurd rfl hx

theorem calm_nameStr (n : Node) : Calm (coerceNameStr n) := by
  unfold coerceNameStr; split
  · exact calm_ok _
  · exact calm_error

theorem calm_nameVarargs (n : Node) : Calm (coerceNameVarargs n) := by
  unfold coerceNameVarargs; split
  · exact calm_ok _
  · exact calm_error

theorem calm_tableRef (s i : String) : Calm (parseTableRef s i) := by
  unfold parseTableRef; split
  · exact calm_ok _
  · exact calm_ok _
  · exact calm_error

theorem calm_columnExpr (i : List Char) : Calm (parseColumnExpr i) := by
  unfold parseColumnExpr
  dsimp only
  repeat' split
  all_goals first
    | exact calm_ok _
    | exact calm_error

theorem readAttrs_calm {α : Type} {step : α → Node → Except Fail α} {ns : List Node} {a : α}
    {bad : Bool} (h : ∀ a, ∀ m ∈ ns, Calm (step a m)) :
    ∃ a' bad', readAttrs step a bad ns = .ok (a', bad') := by
  induction ns generalizing a bad with
  | nil => exact ⟨a, bad, rfl⟩
  | cons n ns ih =>
    have ih' := fun a bad => ih (a := a) (bad := bad)
      fun a m hm => h a m (List.mem_cons_of_mem _ hm)
    rw [readAttrs]
    have hn := h a n (List.mem_cons_self ..)
    split
    · exact ih' _ _
    · exact ih' _ _
    · next e => exact absurd e hn

theorem readNode_calm {α β : Type} {kind : String} {step : String → α → Node → Except Fail α}
    {init : α} {finish : String → α → Bool → Except Fail β} {n : Node} (hk : n.kind = kind)
    (hs : ∀ name ns, n.name = some name → n.nodes = some ns → ∀ a, ∀ m ∈ ns, Calm (step name a m))
    (hf : ∀ name ns a bad, n.name = some name → n.nodes = some ns →
      readAttrs (step name) init false ns = .ok (a, bad) → Calm (finish name a bad)) :
    Calm (readNode kind step init finish n) := by
  unfold readNode assertKind coerceName coerceNodes
  rw [if_pos hk]
  cases hn : n.name with
  | none => exact calm_error
  | some name =>
    dsimp only [orErr]
    cases hns : n.nodes with
    | none => exact calm_error
    | some ns =>
      dsimp only
      obtain ⟨a, bad, e⟩ := readAttrs_calm (a := init) (bad := false) (hs name ns hn hns)
      rw [e]
      exact hf name ns a bad hn hns e

theorem parseColumn_calm {s t : String} {n : Node} (hk : n.kind = "column") :
    Calm (parseColumn s t n) := by
  unfold parseColumn assertKind
  rw [if_pos hk]
  have h1 := calm_orErr n.name
  have h2 := calm_orErr n.str
  unfold coerceName coerceStr
  split
  · next e he => rw [he] at h1; intro h; injection h with h; exact h1 (by rw [h])
  · split
    · next e he => rw [he] at h2; intro h; injection h with h; exact h2 (by rw [h])
    · next v _ =>
      have h3 := calm_columnExpr v.toList
      split
      · next e he => rw [he] at h3; intro h; injection h with h; exact h3 (by rw [h])
      · exact calm_ok _

/-- Passing an error on. -/
theorem calm_pass {α β : Type} {x : Except Fail α} {e : Fail} (hx : Calm x) (h : x = .error e) :
    Calm (.error e : Except Fail β) := by
  intro h'
  injection h' with h'
  exact hx (by rw [h, h'])

theorem calm_checkStep (a : CheckAttrs) (n : Node) : Calm (checkStep a n) := by
  unfold checkStep
  repeat' split
  all_goals first
    | exact calm_ok _
    | exact calm_error
    | (next e => exact calm_pass (calm_orErr _) e)

theorem calm_primaryKeyStep (a : PrimaryKeyAttrs) (n : Node) : Calm (primaryKeyStep a n) := by
  unfold primaryKeyStep
  repeat' split
  all_goals first
    | exact calm_ok _
    | exact calm_error
    | (next e => exact calm_pass (calm_orErr _) e)

theorem calm_uniqueStep (a : UniqueAttrs) (n : Node) : Calm (uniqueStep a n) := by
  unfold uniqueStep
  repeat' split
  all_goals first
    | exact calm_ok _
    | exact calm_error
    | (next e => exact calm_pass (calm_orErr _) e)

theorem calm_foreignKeyStep (s : String) (a : ForeignKeyAttrs) (n : Node) :
    Calm (foreignKeyStep s a n) := by
  unfold foreignKeyStep
  repeat' split
  all_goals first
    | exact calm_ok _
    | exact calm_error
    | (next e => exact calm_pass (calm_orErr _) e)
    | (next e => exact calm_pass (calm_nameVarargs _) e)
    | (next e => exact calm_pass (calm_tableRef _ _) e)

theorem calm_viewStep (a : Option String) (n : Node) : Calm (viewStep a n) := by
  unfold viewStep
  repeat' split
  all_goals first
    | exact calm_ok _
    | exact calm_error
    | (next e => exact calm_pass (calm_orErr _) e)

theorem calm_functionStep (a : FunctionAttrs) (n : Node) : Calm (functionStep a n) := by
  unfold functionStep
  repeat' split
  all_goals first
    | exact calm_ok _
    | exact calm_error
    | (next e => exact calm_pass (calm_orErr _) e)

theorem calm_indexStep (a : IndexAttrs) (n : Node) : Calm (indexStep a n) := by
  unfold indexStep
  repeat' split
  all_goals first
    | exact calm_ok _
    | exact calm_error
    | (next e => exact calm_pass (calm_orErr _) e)
    | (next e => exact calm_pass (calm_nameVarargs _) e)

theorem calm_sequenceStep (a : SequenceAttrs) (n : Node) : Calm (sequenceStep a n) := by
  unfold sequenceStep
  repeat' split
  all_goals first
    | exact calm_ok _
    | exact calm_error
    | (next e => exact calm_pass (calm_orErr _) e)
    | (next e => exact calm_pass (calm_nameStr _) e)

theorem parseConstraint_calm {s t : String} {n : Node} (hk : n.kind = "constraint")
    (h : ConstraintOrderly n) : Calm (parseConstraint s t n) := by
  unfold parseConstraint
  have h1 := calm_orErr n.nodes
  unfold coerceNodes
  split
  · next e => exact calm_pass h1 e
  · next e =>
    obtain ⟨f, r, hfr, _⟩ := h [] ((inner_eq n).trans (orErr_ok e))
    cases hfr
  · next first rest e =>
    obtain ⟨f, r, hfr, hm⟩ := h _ ((inner_eq n).trans (orErr_ok e))
    injection hfr with h1 h2
    subst h1 h2
    by_cases k1 : first.kind = "primary key"
    · rw [if_pos k1]
      have : Calm (parsePrimaryKey s t n) := readNode_calm hk
        (fun _ _ _ _ a m _ => calm_primaryKeyStep a m)
        (fun _ _ a bad _ _ _ => by
          unfold finishPrimaryKey
          split
          · exact calm_ok _
          · exact calm_error)
      split
      · exact calm_ok _
      · next e' => exact calm_pass this e'
    rw [if_neg k1]
    by_cases k2 : first.kind = "unique"
    · rw [if_pos k2]
      have : Calm (parseUnique s t n) := readNode_calm hk
        (fun _ _ _ _ a m _ => calm_uniqueStep a m)
        (fun _ _ a bad _ _ _ => by
          unfold finishUnique
          split
          · exact calm_ok _
          · exact calm_error)
      split
      · exact calm_ok _
      · next e' => exact calm_pass this e'
    rw [if_neg k2]
    by_cases k3 : first.kind = "foreign key"
    · rw [if_pos k3]
      have : Calm (parseForeignKey s t n) := readNode_calm hk
        (fun _ _ _ _ a m _ => calm_foreignKeyStep s a m)
        (fun _ _ a bad _ _ _ => by
          unfold finishForeignKey
          split
          · exact calm_ok _
          · exact calm_error)
      split
      · exact calm_ok _
      · next e' => exact calm_pass this e'
    rw [if_neg k3]
    by_cases k4 : first.kind = "check"
    · rw [if_pos k4]
      have : Calm (parseCheck s t n) := readNode_calm hk
        (fun _ _ _ _ a m _ => calm_checkStep a m)
        (fun _ _ a bad _ _ _ => by
          unfold finishCheck
          split
          · exact calm_ok _
          · exact calm_error)
      split
      · exact calm_ok _
      · next e' => exact calm_pass this e'
    simp [k1, k2, k3, k4] at hm

/-! ### Names of what is read are the names of the nodes -/

theorem parseColumn_name {s t : String} {n : Node} {c : Column} (h : parseColumn s t n = .ok c) :
    n.name = some c.name := by
  unfold parseColumn assertKind at h
  split at h
  · split at h
    · cases h
    · next e =>
      split at h
      · cases h
      · split at h
        · cases h
        · injection h with h; subst h; exact orErr_ok e
  · cases h

theorem parseConstraint_name {s t : String} {n : Node} {c : Constraint}
    (h : parseConstraint s t n = .ok c) : n.name = some c.name := by
  unfold parseConstraint at h
  split at h
  · cases h
  · cases h
  split at h
  · split at h
    · next d e =>
      injection h with h; subst h
      obtain ⟨_, _, _, a, bad, hn, _, _, hf⟩ := readNode_ok_iff.1 e
      unfold finishPrimaryKey at hf
      split at hf
      · injection hf with hf; subst hf; exact hn
      · cases hf
    · cases h
  split at h
  · split at h
    · next d e =>
      injection h with h; subst h
      obtain ⟨_, _, _, a, bad, hn, _, _, hf⟩ := readNode_ok_iff.1 e
      unfold finishUnique at hf
      split at hf
      · injection hf with hf; subst hf; exact hn
      · cases hf
    · cases h
  split at h
  · split at h
    · next d e =>
      injection h with h; subst h
      obtain ⟨_, _, _, a, bad, hn, _, _, hf⟩ := readNode_ok_iff.1 e
      unfold finishForeignKey at hf
      split at hf
      · injection hf with hf; subst hf; exact hn
      · cases hf
    · cases h
  split at h
  · split at h
    · next d e =>
      injection h with h; subst h
      obtain ⟨_, _, _, a, bad, hn, _, _, hf⟩ := readNode_ok_iff.1 e
      unfold finishCheck at hf
      split at hf
      · injection hf with hf; subst hf; exact hn
      · cases hf
    · cases h
  cases h

theorem tableItem_name {s t : String} {n : Node} {x : Column ⊕ Constraint}
    (h : tableItem s t n = .ok x) : match x with
      | .inl c => n.kind = "column" ∧ n.name = some c.name
      | .inr c => n.kind = "constraint" ∧ n.name = some c.name := by
  unfold tableItem at h
  split at h
  · next hk =>
    split at h
    · next c e => injection h with h; subst h; exact ⟨hk, parseColumn_name e⟩
    · cases h
  · split at h
    · next hk =>
      split at h
      · next c e => injection h with h; subst h; exact ⟨hk, parseConstraint_name e⟩
      · cases h
    · cases h

theorem table_names {s t : String} {ns : List Node} {xs : List (Column ⊕ Constraint)}
    (h : ns.map (tableItem s t) = xs.map .ok) :
    (ns.filter fun m => m.kind = "column").map Node.name = (lefts xs).map (fun c => some c.name) ∧
    (ns.filter fun m => m.kind = "constraint").map Node.name =
      (rights xs).map (fun c => some c.name) := by
  induction ns generalizing xs with
  | nil => cases xs <;> simp [lefts, rights] at h ⊢
  | cons n ns ih =>
    cases xs with
    | nil => simp at h
    | cons x xs =>
      rw [List.map_cons, List.map_cons, List.cons.injEq] at h
      obtain ⟨i1, i2⟩ := ih h.2
      have := tableItem_name h.1
      cases x with
      | inl c =>
        obtain ⟨hk, hn⟩ := this
        have hne : ¬ n.kind = "constraint" := by rw [hk]; decide
        rw [List.filter_cons_of_pos (by simpa using hk), List.filter_cons_of_neg (by simpa using hne)]
        refine ⟨?_, ?_⟩
        · rw [List.map_cons, i1, hn]; rfl
        · rw [i2]; rfl
      | inr c =>
        obtain ⟨hk, hn⟩ := this
        have hne : ¬ n.kind = "column" := by rw [hk]; decide
        rw [List.filter_cons_of_pos (p := fun m : Node => decide (m.kind = "constraint"))
          (by simpa using hk), List.filter_cons_of_neg (by simpa using hne)]
        refine ⟨?_, ?_⟩
        · rw [i1]; rfl
        · rw [List.map_cons, i2, hn]; rfl

theorem nodup_some {α : Type} {xs : List α} {f : α → String}
    (h : (xs.map fun c => some (f c)).Nodup) : (xs.map f).Nodup := by
  refine nodup_of_map some ?_
  rw [List.map_map]; exact h

theorem mem_childrenOf {n m : Node} {ns : List Node} {k : String} (hn : n.nodes = some ns)
    (hm : m ∈ ns) (hk : m.kind = k) : m ∈ childrenOf n k := by
  unfold childrenOf
  rw [inner_eq, hn]
  exact List.mem_filter.2 ⟨hm, by simpa using hk⟩

theorem parseTable_calm {s : String} {n : Node} (hk : n.kind = "table") (h : TableOrderly n) :
    Calm (parseTable s n) := by
  refine readNode_calm hk ?_ ?_
  · intro name ns _ hns a m hm
    rw [tableStep_eq]
    refine calm_map ?_
    unfold tableItem
    split
    · next k =>
      have := parseColumn_calm (s := s) (t := name) k
      split
      · exact calm_ok _
      · next e => exact calm_pass this e
    · split
      · next k =>
        have := parseConstraint_calm (s := s) (t := name) k (h.each m (mem_childrenOf hns hm k))
        split
        · exact calm_ok _
        · next e => exact calm_pass this e
      · exact calm_error
  · intro name ns a bad _ hns hr
    cases bad with
    | true => exact calm_error
    | false =>
      obtain ⟨_, xs, hx, ha⟩ := (readAttrs_items (tableStep_eq s name) _ _ _ _).1 hr
      rw [foldl_pushTableItem] at ha
      simp only [List.nil_append] at ha
      subst ha
      obtain ⟨i1, i2⟩ := table_names hx
      have c1 := h.columns
      have c2 := h.constraints
      unfold childrenOf at c1 c2
      rw [inner_eq, hns] at c1 c2
      dsimp only at c1 c2
      rw [i1] at c1
      rw [i2] at c2
      rw [finishTable_ok_iff.2 ⟨rfl, nodup_some c1, nodup_some c2, rfl⟩]
      exact calm_ok _

theorem parseView_calm {s : String} {n : Node} (hk : n.kind = "view") : Calm (parseView s n) :=
  readNode_calm hk (fun _ _ _ _ a m _ => calm_viewStep a m) (fun _ _ a bad _ _ _ => by
    unfold finishView
    split
    · exact calm_ok _
    · exact calm_error)

theorem parseFunction_calm {s : String} {n : Node} (hk : n.kind = "function") :
    Calm (parseFunction s n) :=
  readNode_calm hk (fun _ _ _ _ a m _ => calm_functionStep a m) (fun _ _ a bad _ _ _ => by
    unfold finishFunction
    split
    · exact calm_ok _
    · exact calm_error)

theorem indexStep_on {a a' : IndexAttrs} {n : Node} (h : indexStep a n = .ok a') :
    a.on ≠ none → a'.on ≠ none := by
  unfold indexStep at h
  repeat' split at h
  all_goals first
    | (injection h with h; subst h; simp)
    | cases h

theorem readIndex_on {ns : List Node} {a a' : IndexAttrs} {bad bad' : Bool}
    (h : readAttrs indexStep a bad ns = .ok (a', bad'))
    (ho : a.on ≠ none ∨ ∃ m ∈ ns, m.kind = "on" ∧ m.name ≠ none ∧ m.varargs ≠ none) :
    a'.on ≠ none := by
  induction ns generalizing a bad with
  | nil =>
    rw [readAttrs] at h; injection h with h; injection h with h1 h2
    subst h1
    rcases ho with ho | ⟨m, hm, _⟩
    · exact ho
    · cases hm
  | cons n ns ih =>
    rw [readAttrs] at h
    split at h
    · next b e =>
      refine ih h ?_
      rcases ho with ho | ⟨m, hm, hk, h1, h2⟩
      · exact .inl (indexStep_on e ho)
      · rcases List.mem_cons.1 hm with rfl | hm
        · left
          unfold indexStep at e
          rw [if_neg (by rw [hk]; decide), if_pos hk] at e
          split at e
          · injection e with e; subst e; simp
          · cases e
        · exact .inr ⟨m, hm, hk, h1, h2⟩
    · next e =>
      refine ih h ?_
      rcases ho with ho | ⟨m, hm, hk, h1, h2⟩
      · exact .inl ho
      · rcases List.mem_cons.1 hm with rfl | hm
        · exfalso
          unfold indexStep at e
          rw [if_neg (by rw [hk]; decide), if_pos hk] at e
          unfold coerceNameVarargs at e
          cases hn : m.name with
          | none => exact h1 hn
          | some x =>
            cases hv : m.varargs with
            | none => exact h2 hv
            | some y => rw [hn, hv] at e; cases e
        · exact .inr ⟨m, hm, hk, h1, h2⟩
    · cases h

theorem parseIndex_calm {s : String} {n : Node} (hk : n.kind = "index") (h : IndexOrderly n) :
    Calm (parseIndex s n) := by
  refine readNode_calm hk (fun _ _ _ _ a m _ => calm_indexStep a m) ?_
  intro name ns a bad _ hns hr
  obtain ⟨m, hm, h1, h2⟩ := h
  unfold childrenOf at hm
  rw [inner_eq, hns] at hm
  rw [textsOf_eq] at h2
  obtain ⟨hm, hk⟩ := List.mem_filter.1 hm
  have := readIndex_on hr (.inr ⟨m, hm, by simpa using hk, h1, h2⟩)
  unfold finishIndex
  split
  · next e => exact absurd e this
  · exact calm_ok _

theorem sequence_type {ns : List Node} {a a' : SequenceAttrs} {bad bad' : Bool}
    (h : readAttrs sequenceStep a bad ns = .ok (a', bad'))
    (hm : ∀ m ∈ ns, m.kind = "as" → ∀ v, m.str = some v → v = "int2" ∨ v = "int4" ∨ v = "int8")
    (ha : ∀ v, a.dataType = some v → v = "int2" ∨ v = "int4" ∨ v = "int8") :
    ∀ v, a'.dataType = some v → v = "int2" ∨ v = "int4" ∨ v = "int8" := by
  induction ns generalizing a bad with
  | nil => rw [readAttrs] at h; injection h with h; injection h with h1 h2; subst h1; exact ha
  | cons n ns ih =>
    have hm' := fun m hm' => hm m (List.mem_cons_of_mem _ hm')
    rw [readAttrs] at h
    split at h
    · next b e =>
      refine ih h hm' ?_
      by_cases hk : n.kind = "as"
      · unfold sequenceStep at e
        rw [if_pos hk] at e
        split at e
        · next v hv =>
          injection e with e; subst e
          intro w hw
          injection hw with hw; subst hw
          exact hm n (List.mem_cons_self ..) hk v (orErr_ok hv)
        · cases e
      · rw [(sequenceStep_keep e).1 hk]; exact ha
    · exact ih h hm' ha
    · cases h

theorem parseSequence_calm {s : String} {n : Node} (hk : n.kind = "sequence")
    (h : SequenceOrderly n) : Calm (parseSequence s n) := by
  refine readNode_calm hk (fun _ _ _ _ a m _ => calm_sequenceStep a m) ?_
  intro name ns a bad _ hns hr
  have ht := sequence_type hr (fun m hm hk' v hv => h m (mem_childrenOf hns hm hk') v (by rw [textOf_eq]; exact hv))
    (fun v hv => by cases hv)
  have ht' : a.dataType.getD "int8" = "int2" ∨ a.dataType.getD "int8" = "int4" ∨
      a.dataType.getD "int8" = "int8" := by
    cases hd : a.dataType with
    | none => exact .inr (.inr rfl)
    | some v => exact ht v hd
  unfold finishSequence
  dsimp only
  have hmin : Calm (orDefault a.minValue (seqMin (a.increment.getD 1) (a.dataType.getD "int8"))) := by
    unfold orDefault seqMin
    split
    · exact calm_ok _
    · rcases ht' with e | e | e <;> rw [e] <;> split <;> exact calm_ok _
  have hmax : Calm (orDefault a.maxValue (seqMax (a.increment.getD 1) (a.dataType.getD "int8"))) := by
    unfold orDefault seqMax
    split
    · exact calm_ok _
    · rcases ht' with e | e | e <;> rw [e] <;> split <;> exact calm_ok _
  split
  · next e => exact calm_pass hmin e
  · split
    · next e => exact calm_pass hmax e
    · split
      · exact calm_error
      · exact calm_ok _

theorem parseRead_name {α β : Type} {kind : String} {step : String → α → Node → Except Fail α}
    {init : α} {finish : String → α → Bool → Except Fail β} {n : Node} {b : β} {nm : β → String}
    (h : readNode kind step init finish n = .ok b)
    (hf : ∀ name a bad b, finish name a bad = .ok b → nm b = name) : n.name = some (nm b) := by
  obtain ⟨_, name, _, a, bad, hn, _, _, he⟩ := readNode_ok_iff.1 h
  rw [hf _ _ _ _ he]; exact hn

theorem schemaItem_name {s : String} {n : Node} {x : Relation ⊕ Function}
    (h : schemaItem s n = .ok x) : match x with
      | .inl c => n.kind ≠ "function" ∧ n.name = some c.name
      | .inr c => n.kind = "function" ∧ n.name = some c.name := by
  unfold schemaItem at h
  split at h
  · next hk =>
    obtain ⟨t, e, rfl⟩ := map_ok_iff'.1 h
    obtain ⟨_, name, _, _, hn, _, _, _, _, rfl⟩ := parseTable_ok_iff.1 e
    exact ⟨by rw [hk]; decide, hn⟩
  split at h
  · next hk =>
    obtain ⟨t, e, rfl⟩ := map_ok_iff'.1 h
    refine ⟨by rw [hk]; decide, parseRead_name (nm := View.name) e ?_⟩
    intro name a bad b hf
    unfold finishView at hf
    split at hf
    · injection hf with hf; subst hf; rfl
    · cases hf
  split at h
  · next hk =>
    obtain ⟨t, e, rfl⟩ := map_ok_iff'.1 h
    refine ⟨by rw [hk]; decide, parseRead_name (nm := Sequence.name) e ?_⟩
    intro name a bad b hf
    unfold finishSequence at hf
    dsimp only at hf
    split at hf
    · cases hf
    · split at hf
      · cases hf
      · split at hf
        · cases hf
        · injection hf with hf; subst hf; rfl
  split at h
  · next hk =>
    obtain ⟨t, e, rfl⟩ := map_ok_iff'.1 h
    refine ⟨by rw [hk]; decide, parseRead_name (nm := Index.name) e ?_⟩
    intro name a bad b hf
    unfold finishIndex at hf
    split at hf
    · cases hf
    · injection hf with hf; subst hf; rfl
  split at h
  · next hk =>
    obtain ⟨t, e, rfl⟩ := map_ok_iff'.1 h
    refine ⟨hk, parseRead_name (nm := Function.name) e ?_⟩
    intro name a bad b hf
    unfold finishFunction at hf
    split at hf
    · injection hf with hf; subst hf; rfl
    · cases hf
  cases h

theorem schema_names {s : String} {ns : List Node} {xs : List (Relation ⊕ Function)}
    (h : ns.map (schemaItem s) = xs.map .ok) :
    (ns.filter fun m => m.kind ≠ "function").map Node.name =
      (lefts xs).map (fun c => some c.name) ∧
    (ns.filter fun m => m.kind = "function").map Node.name =
      (rights xs).map (fun c => some c.name) := by
  induction ns generalizing xs with
  | nil => cases xs <;> simp [lefts, rights] at h ⊢
  | cons n ns ih =>
    cases xs with
    | nil => simp at h
    | cons x xs =>
      rw [List.map_cons, List.map_cons, List.cons.injEq] at h
      obtain ⟨i1, i2⟩ := ih h.2
      have := schemaItem_name h.1
      cases x with
      | inl c =>
        obtain ⟨hk, hn⟩ := this
        rw [List.filter_cons_of_pos (p := fun m : Node => decide (m.kind ≠ "function"))
          (by simpa using hk), List.filter_cons_of_neg (by simpa using hk)]
        refine ⟨?_, ?_⟩
        · rw [List.map_cons, i1, hn]; rfl
        · rw [i2]; rfl
      | inr c =>
        obtain ⟨hk, hn⟩ := this
        rw [List.filter_cons_of_pos (p := fun m : Node => decide (m.kind = "function"))
          (by simpa using hk), List.filter_cons_of_neg (by simpa using hk)]
        refine ⟨?_, ?_⟩
        · rw [i1]; rfl
        · rw [List.map_cons, i2, hn]; rfl

theorem parseSchema_calm {n : Node} (h : SchemaOrderly n) : Calm (parseSchema n) := by
  refine readNode_calm h.kind ?_ ?_
  · intro name ns _ hns a m hm
    rw [schemaStep_eq]
    refine calm_map ?_
    unfold schemaItem
    split
    · next k => exact calm_map (parseTable_calm k (h.tables m (mem_childrenOf hns hm k)))
    split
    · next k => exact calm_map (parseView_calm k)
    split
    · next k => exact calm_map (parseSequence_calm k (h.sequences m (mem_childrenOf hns hm k)))
    split
    · next k => exact calm_map (parseIndex_calm k (h.indexes m (mem_childrenOf hns hm k)))
    split
    · next k => exact calm_map (parseFunction_calm k)
    exact calm_error
  · intro name ns a bad _ hns hr
    cases bad with
    | true => exact calm_error
    | false =>
      obtain ⟨_, xs, hx, ha⟩ := (readAttrs_items (schemaStep_eq name) _ _ _ _).1 hr
      rw [foldl_pushSchemaItem] at ha
      simp only [List.nil_append] at ha
      subst ha
      obtain ⟨i1, i2⟩ := schema_names hx
      have c1 := h.relations ns ((inner_eq n).trans hns)
      have c2 := h.functions
      unfold childrenOf at c2
      rw [inner_eq, hns] at c2
      dsimp only at c2
      rw [i1] at c1
      rw [i2] at c2
      rw [finishSchema_ok_iff.2 ⟨rfl, nodup_some c1, nodup_some c2, rfl⟩]
      exact calm_ok _

theorem loadNodes_calm {ns : List Node} (h : ∀ n ∈ ns, SchemaOrderly n) (d : Database) :
    loadNodes d ns ≠ .error .panic := by
  induction ns generalizing d with
  | nil => intro h; cases h
  | cons n ns ih =>
    rw [loadNodes]
    have hc := parseSchema_calm (h n (List.mem_cons_self ..))
    split
    · next e he =>
      intro h'
      injection h' with h'
      cases e with
      | error => cases h'
      | panic => exact hc he
    · split
      · intro h'; cases h'
      · exact ih (fun m hm => h m (List.mem_cons_of_mem _ hm)) _

/-! ### The YAML level -/

theorem parseNum_calm (n : Num) : Calm (parseNum n) := by
  cases n with
  | float b => exact calm_ok _
  | integer i =>
    show Calm (if _ then _ else _)
    split
    · exact calm_ok _
    · exact calm_error

mutual
theorem parseValue_calm : ∀ y : Yaml, NoMapInside y → Calm (parseValue y)
  | .null, _ => by rw [parseValue]; exact calm_error
  | .bool b, _ => by rw [parseValue]; exact calm_ok _
  | .num n, _ => by
    rw [parseValue]
    split
    · next e => exact calm_pass (parseNum_calm n) e
    · exact calm_ok _
  | .str s, _ => by rw [parseValue]; exact calm_ok _
  | .seq vs, h => by
    rw [NoMapInside] at h
    rw [parseValue]
    split
    · next e => exact calm_pass (parseValues_calm vs h) e
    · exact calm_ok _
  | .map _ _, h => by rw [NoMapInside] at h; exact h.elim
  | .tagged, _ => by rw [parseValue]; exact calm_error
theorem parseValues_calm : ∀ vs : List Yaml, NoMapInsides vs → Calm (parseValues vs)
  | [], _ => by rw [parseValues]; exact calm_ok _
  | v :: vs, h => by
    rw [NoMapInsides] at h
    rw [parseValues]
    split
    · next e => exact calm_pass (parseValue_calm v h.1) e
    · split
      · next e => exact calm_pass (parseValues_calm vs h.2) e
      · exact calm_ok _
end

theorem parseKey_calm {key : String} (h : ¬ KelvinCheck key) : Calm (parseKey key) := by
  intro h'
  exact h (parseKey_panic_iff.1 h')

mutual
theorem parseEntry_calm (kind : String) (name : Option String) :
    ∀ y : Yaml, YamlOrderly y → Calm (parseEntry kind name y)
  | .map ks vs, h => by
    rw [YamlOrderly] at h
    rw [parseEntry]
    split
    · next e => exact calm_pass (parseMapping_calm ks vs h.1 h.2) e
    · exact calm_ok _
  | .null, _ => by rw [parseEntry]; exact calm_ok _
  | .bool b, _ => by rw [parseEntry]; exact calm_ok _
  | .num n, _ => by
    rw [parseEntry]
    split
    · next e => exact calm_pass (parseNum_calm n) e
    · exact calm_ok _
  | .str s, _ => by rw [parseEntry]; exact calm_ok _
  | .seq vs, h => by
    rw [YamlOrderly] at h
    rw [parseEntry]
    split
    · next e => exact calm_pass (parseValues_calm vs h) e
    · exact calm_ok _
  | .tagged, _ => by rw [parseEntry]; exact calm_error
theorem parseMapping_calm : ∀ (ks : List (Option String)) (vs : List Yaml),
    (∀ key, some key ∈ ks → ¬ KelvinCheck key) → YamlsOrderly vs → Calm (parseMapping ks vs)
  | [], _, _, _ => by rw [parseMapping]; exact calm_ok _
  | _ :: _, [], _, _ => by rw [parseMapping]; exact calm_ok _
  | none :: ks, v :: vs, _, _ => by rw [parseMapping]; exact calm_error
  | some key :: ks, v :: vs, hk, h => by
    rw [YamlsOrderly] at h
    rw [parseMapping]
    split
    · next e => exact calm_pass (parseKey_calm (hk key (List.mem_cons_self ..))) e
    · split
      · next e => exact calm_pass (parseEntry_calm _ _ v h.1) e
      · split
        · next e =>
          exact calm_pass (parseMapping_calm ks vs
            (fun k hk' => hk k (List.mem_cons_of_mem _ hk')) h.2) e
        · exact calm_ok _
end

theorem loadDoc_calm {y : Yaml} (hy : YamlOrderly y)
    (hn : ∀ ns, FileSays y ns → ∀ n ∈ ns, SchemaOrderly n) :
    loadDoc y ≠ .error .panic := by
  unfold loadDoc
  split
  · next ks vs =>
    rw [YamlOrderly] at hy
    have hc := parseMapping_calm ks vs hy.1 hy.2
    split
    · next e he =>
      intro h'
      injection h' with h'
      cases e with
      | error => cases h'
      | panic => exact hc he
    · next ns he => exact loadNodes_calm (hn ns (fileSays_iff.2 ⟨ks, vs, rfl, he⟩)) _
  · intro h; cases h

end Def
end Podo
