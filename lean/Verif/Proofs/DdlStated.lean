import Verif.Proofs.DdlAttrs
/-
What an accepted definition states is what is recorded.
-/
set_option linter.unusedSimpArgs false
set_option linter.unusedVariables false
namespace Podo
namespace Def

/-- The children of one kind set one attribute. -/
structure Gives {α β : Type} (step : α → Node → Except Fail α) (get : α → β) (k : String)
    (val : Node → Option β) : Prop where
  on : ∀ a a' n, step a n = .ok a' → n.kind = k → val n = some (get a')
  off : ∀ a a' n, step a n = .ok a' → n.kind ≠ k → get a' = get a
  bad : ∀ a n, step a n = .error .error → n.kind = k → val n = none

theorem readAttrs_gives {α β : Type} {step : α → Node → Except Fail α} {get : α → β} {k : String}
    {val : Node → Option β} (hg : Gives step get k val) :
    ∀ {ns : List Node} {a a' : α} {bad bad' : Bool}, readAttrs step a bad ns = .ok (a', bad') →
      get a' = (((ns.filter fun m => m.kind = k).filterMap val).getLast?).getD (get a)
  | [], a, a', bad, bad', h => by
    rw [readAttrs] at h; injection h with h; injection h with h1 h2; subst h1; rfl
  | n :: ns, a, a', bad, bad', h => by
    rw [readAttrs] at h
    split at h
    · next b e =>
      rw [readAttrs_gives hg h]
      by_cases hk : n.kind = k
      · have hv := hg.on _ _ _ e hk
        rw [List.filter_cons_of_pos (by simpa using hk), List.filterMap_cons_some hv,
          List.getLast?_cons]
        rfl
      · rw [List.filter_cons_of_neg (by simpa using hk), hg.off _ _ _ e hk]
    · next e =>
      rw [readAttrs_gives hg h]
      by_cases hk : n.kind = k
      · have hv := hg.bad _ _ e hk
        rw [List.filter_cons_of_pos (by simpa using hk), List.filterMap_cons_none hv]
      · rw [List.filter_cons_of_neg (by simpa using hk)]
    · cases h

theorem stated_of_gives {α β : Type} {step : α → Node → Except Fail α} {get : α → β} {k : String}
    {val : Node → Option β} (hg : Gives step get k val) {n : Node} {ns : List Node} {a a' : α}
    {bad bad' : Bool} (hn : n.nodes = some ns) (h : readAttrs step a bad ns = .ok (a', bad')) :
    get a' = (stated n k val).getD (get a) := by
  unfold stated childrenOf
  rw [inner_eq, hn]
  exact readAttrs_gives hg h

theorem stated_map_some {β : Type} {n : Node} {k : String} {val : Node → Option β} :
    (stated n k fun m => (val m).map some).getD none = stated n k val := by
  unfold stated
  generalize childrenOf n k = ns
  have : ns.filterMap (fun m => (val m).map some) = (ns.filterMap val).map some := by
    rw [List.map_filterMap]
  rw [this, List.getLast?_map]
  cases (ns.filterMap val).getLast? <;> rfl

/-- The form for attributes that start unset. -/
theorem stated_opt {α β : Type} {step : α → Node → Except Fail α} {get : α → Option β} {k : String}
    {val : Node → Option β} (hg : Gives step get k fun m => (val m).map some) {n : Node}
    {ns : List Node} {a a' : α} {bad bad' : Bool} (hn : n.nodes = some ns)
    (h : readAttrs step a bad ns = .ok (a', bad')) (h0 : get a = none) :
    get a' = stated n k val := by
  rw [stated_of_gives hg hn h, h0, stated_map_some]

theorem orErr_err {α : Type} {o : Option α} {e : Fail} (h : orErr o = .error e) : o = none := by
  cases o with
  | none => rfl
  | some a => cases h

macro "gives" s:ident : tactic => `(tactic| (
  constructor
  · intro a a' n h hk
    unfold $s at h
    simp only [hk, reduceCtorEq, if_true, if_false, String.reduceEq] at h
    split at h
    · next hv => injection h with h; subst h; exact congrArg (Option.map some) (orErr_ok hv)
    · cases h
  · intro a a' n h hk
    unfold $s at h
    repeat' split at h
    all_goals first
      | (injection h with h; subst h; first | rfl | contradiction)
      | cases h
  · intro a n h hk
    unfold $s at h
    simp only [hk, reduceCtorEq, if_true, if_false, String.reduceEq] at h
    split at h
    · cases h
    · next hv => injection h with h; subst h; exact congrArg (Option.map some) (orErr_err hv)))

theorem check_expression : Gives checkStep CheckAttrs.expression "check" fun m => m.str.map some := by
  gives checkStep
theorem check_deferrable : Gives checkStep CheckAttrs.deferrable "deferrable" fun m => m.bool.map some := by
  gives checkStep
theorem check_initially : Gives checkStep CheckAttrs.initiallyDeferred "initially deferred"
    fun m => m.bool.map some := by gives checkStep

theorem primaryKey_columns : Gives primaryKeyStep PrimaryKeyAttrs.columns "primary key"
    fun m => m.varargs.map some := by gives primaryKeyStep
theorem primaryKey_deferrable : Gives primaryKeyStep PrimaryKeyAttrs.deferrable "deferrable"
    fun m => m.bool.map some := by gives primaryKeyStep
theorem primaryKey_initially : Gives primaryKeyStep PrimaryKeyAttrs.initiallyDeferred
    "initially deferred" fun m => m.bool.map some := by gives primaryKeyStep

theorem unique_deferrable : Gives uniqueStep UniqueAttrs.deferrable "deferrable"
    fun m => m.bool.map some := by gives uniqueStep
theorem unique_initially : Gives uniqueStep UniqueAttrs.initiallyDeferred
    "initially deferred" fun m => m.bool.map some := by gives uniqueStep

theorem unique_columns : Gives uniqueStep UniqueAttrs.columns "unique" Node.varargs := by
  constructor
  · intro a a' n h hk
    unfold uniqueStep at h
    simp only [hk, reduceCtorEq, if_true, if_false, String.reduceEq] at h
    split at h
    · next hv => injection h with h; subst h; exact orErr_ok hv
    · cases h
  · intro a a' n h hk
    unfold uniqueStep at h
    repeat' split at h
    all_goals first
      | (injection h with h; subst h; first | rfl | contradiction)
      | cases h
  · intro a n h hk
    unfold uniqueStep at h
    simp only [hk, reduceCtorEq, if_true, if_false, String.reduceEq] at h
    split at h
    · cases h
    · next hv => injection h with h; subst h; exact orErr_err hv

theorem function_body : Gives functionStep FunctionAttrs.body "as" fun m => m.str.map some := by
  gives functionStep
theorem function_language : Gives functionStep FunctionAttrs.language "language"
    fun m => m.str.map some := by gives functionStep
theorem function_returns : Gives functionStep FunctionAttrs.returns "returns"
    fun m => m.str.map some := by gives functionStep
theorem function_volatility : Gives functionStep FunctionAttrs.volatility "volatility"
    fun m => m.str.map some := by gives functionStep

theorem index_unique : Gives indexStep IndexAttrs.unique "unique" fun m => m.bool.map some := by
  gives indexStep
theorem index_method : Gives indexStep IndexAttrs.method "using" fun m => m.str.map some := by
  gives indexStep

theorem coerceNameVarargs_eq (n : Node) : coerceNameVarargs n = orErr (named Node.varargs n) := by
  unfold coerceNameVarargs named
  cases n.name <;> cases n.varargs <;> rfl

theorem coerceNameStr_eq (n : Node) : coerceNameStr n = orErr (named Node.str n) := by
  unfold coerceNameStr named
  cases n.name <;> cases n.str <;> rfl

theorem index_on : Gives indexStep IndexAttrs.on "on" fun m => (named Node.varargs m).map some := by
  constructor
  · intro a a' n h hk
    unfold indexStep at h
    rw [coerceNameVarargs_eq] at h
    simp only [hk, reduceCtorEq, if_true, if_false, String.reduceEq] at h
    split at h
    · next hv => injection h with h; subst h; exact congrArg (Option.map some) (orErr_ok hv)
    · cases h
  · intro a a' n h hk
    unfold indexStep at h
    repeat' split at h
    all_goals first
      | (injection h with h; subst h; first | rfl | contradiction)
      | cases h
  · intro a n h hk
    unfold indexStep at h
    rw [coerceNameVarargs_eq] at h
    simp only [hk, reduceCtorEq, if_true, if_false, String.reduceEq] at h
    split at h
    · cases h
    · next hv => injection h with h; subst h; exact congrArg (Option.map some) (orErr_err hv)

theorem sequence_dataType : Gives sequenceStep SequenceAttrs.dataType "as" fun m => m.str.map some := by
  gives sequenceStep
theorem sequence_increment : Gives sequenceStep SequenceAttrs.increment "increment"
    fun m => m.int.map some := by gives sequenceStep
theorem sequence_min : Gives sequenceStep SequenceAttrs.minValue "minvalue"
    fun m => m.int.map some := by gives sequenceStep
theorem sequence_max : Gives sequenceStep SequenceAttrs.maxValue "maxvalue"
    fun m => m.int.map some := by gives sequenceStep
theorem sequence_start : Gives sequenceStep SequenceAttrs.start "start"
    fun m => m.int.map some := by gives sequenceStep
theorem sequence_cache : Gives sequenceStep SequenceAttrs.cache "cache"
    fun m => m.int.map some := by gives sequenceStep
theorem sequence_cycle : Gives sequenceStep SequenceAttrs.cycle "cycle"
    fun m => m.bool.map some := by gives sequenceStep
theorem sequence_owner : Gives sequenceStep SequenceAttrs.ownedBy "owned by"
    fun m => (named Node.str m).map some := by
  constructor
  · intro a a' n h hk
    unfold sequenceStep at h
    rw [coerceNameStr_eq] at h
    simp only [hk, reduceCtorEq, if_true, if_false, String.reduceEq] at h
    split at h
    · next hv => injection h with h; subst h; exact congrArg (Option.map some) (orErr_ok hv)
    · cases h
  · intro a a' n h hk
    unfold sequenceStep at h
    repeat' split at h
    all_goals first
      | (injection h with h; subst h; first | rfl | contradiction)
      | cases h
  · intro a n h hk
    unfold sequenceStep at h
    rw [coerceNameStr_eq] at h
    simp only [hk, reduceCtorEq, if_true, if_false, String.reduceEq] at h
    split at h
    · cases h
    · next hv => injection h with h; subst h; exact congrArg (Option.map some) (orErr_err hv)

/-- The target of a foreign key, as one step reads it. -/
def target (schema : String) (n : Node) : Option ((String × String) × List String) :=
  match named Node.varargs n with
  | some (name, cols) =>
    match parseTableRef schema name with
    | .ok t => some (t, cols)
    | .error _ => none
  | none => none

macro "fkgives" : tactic => `(tactic| (
  constructor
  · intro a a' n h hk
    unfold foreignKeyStep at h
    simp only [hk, reduceCtorEq, if_true, if_false, String.reduceEq] at h
    split at h
    · next hv => injection h with h; subst h; exact congrArg (Option.map some) (orErr_ok hv)
    · cases h
  · intro a a' n h hk
    unfold foreignKeyStep at h
    repeat' split at h
    all_goals first
      | (injection h with h; subst h; first | rfl | contradiction)
      | cases h
  · intro a n h hk
    unfold foreignKeyStep at h
    simp only [hk, reduceCtorEq, if_true, if_false, String.reduceEq] at h
    split at h
    · cases h
    · next hv => injection h with h; subst h; exact congrArg (Option.map some) (orErr_err hv)))

theorem foreignKey_columns (s : String) : Gives (foreignKeyStep s) ForeignKeyAttrs.columns
    "foreign key" fun m => m.varargs.map some := by fkgives
theorem foreignKey_deferrable (s : String) : Gives (foreignKeyStep s) ForeignKeyAttrs.deferrable
    "deferrable" fun m => m.bool.map some := by fkgives
theorem foreignKey_initially (s : String) : Gives (foreignKeyStep s) ForeignKeyAttrs.initiallyDeferred
    "initially deferred" fun m => m.bool.map some := by fkgives
theorem foreignKey_match (s : String) : Gives (foreignKeyStep s) ForeignKeyAttrs.matchOption
    "match" fun m => m.str.map some := by fkgives
theorem foreignKey_update (s : String) : Gives (foreignKeyStep s) ForeignKeyAttrs.updateRule
    "on update" fun m => m.str.map some := by fkgives
theorem foreignKey_delete (s : String) : Gives (foreignKeyStep s) ForeignKeyAttrs.deleteRule
    "on delete" fun m => m.str.map some := by fkgives

theorem foreignKey_target (s : String) : Gives (foreignKeyStep s) (fun a => (a.target, a.targetColumns))
    "references" fun m => (target s m).map fun t => (some t.1, t.2) := by
  constructor
  · intro a a' n h hk
    unfold foreignKeyStep at h
    rw [coerceNameVarargs_eq] at h
    simp only [hk, reduceCtorEq, if_true, if_false, String.reduceEq] at h
    split at h
    · next name v hv =>
      split at h
      · next r hr =>
        injection h with h; subst h
        unfold target; rw [orErr_ok hv]; simp only [hr]; rfl
      · cases h
    · cases h
  · intro a a' n h hk
    unfold foreignKeyStep at h
    repeat' split at h
    all_goals first
      | (injection h with h; subst h; first | rfl | contradiction)
      | cases h
  · intro a n h hk
    unfold foreignKeyStep at h
    rw [coerceNameVarargs_eq] at h
    simp only [hk, reduceCtorEq, if_true, if_false, String.reduceEq] at h
    split at h
    · next name v hv =>
      split at h
      · cases h
      · next e hr => unfold target; rw [orErr_ok hv]; simp only [hr]; rfl
    · next e hv => unfold target; rw [orErr_err hv]; rfl

theorem splitDot_join : ∀ cs : List Char, ∀ ps, Text.splitDot cs = ps →
    (∀ p ∈ ps, '.' ∉ p) ∧ ∃ p rest, ps = p :: rest ∧ cs = p ++ rest.flatMap fun q => '.' :: q
  | [], ps, h => by
    subst h; exact ⟨by simp [Text.splitDot], [], [], rfl, rfl⟩
  | c :: cs, ps, h => by
    obtain ⟨h1, p, rest, h2, h3⟩ := splitDot_join cs _ rfl
    unfold Text.splitDot at h
    by_cases hc : c = '.'
    · rw [if_pos hc] at h
      subst h
      refine ⟨?_, [], _, rfl, ?_⟩
      · intro q hq
        rcases List.mem_cons.1 hq with rfl | hq
        · simp
        · exact h1 q hq
      · rw [h2, hc]; simp [← h3]
    · rw [if_neg hc, h2] at h
      dsimp only at h
      subst h
      refine ⟨?_, c :: p, rest, rfl, by rw [h3]; rfl⟩
      intro q hq
      rcases List.mem_cons.1 hq with rfl | hq
      · have := h1 p (by rw [h2]; simp)
        simp only [List.mem_cons, not_or]
        exact ⟨fun e => hc e.symm, this⟩
      · exact h1 q (by rw [h2]; exact List.mem_cons_of_mem _ hq)

theorem parseTableRef_refers {ctx name s t : String} (h : parseTableRef ctx name = .ok (s, t)) :
    RefersTo ctx name s t := by
  unfold parseTableRef at h
  obtain ⟨h1, p, rest, h2, h3⟩ := splitDot_join name.toList _ rfl
  rw [h2] at h h1
  split at h
  · next q hq =>
    injection hq with e1 e2
    subst e1 e2
    injection h with h
    injection h with h4 h5
    subst h4 h5
    simp only [List.flatMap_nil, List.append_nil] at h3
    have e : String.ofList p = name := by rw [← h3]; simp
    refine ⟨?_, .inl ⟨e.symm, rfl⟩⟩
    simpa using h1 p (by simp)
  · next q r hq =>
    injection hq with e1 e2
    subst e1 e2
    injection h with h
    injection h with h4 h5
    subst h4 h5
    simp only [List.flatMap_cons, List.flatMap_nil, List.append_nil] at h3
    refine ⟨by simpa using h1 r (by simp), .inr ⟨?_, by simpa using h1 p (by simp)⟩⟩
    rw [← String.toList_inj]
    simp [h3]
  · cases h

/-- In a definition read without error, the last reference is the one recorded. -/
theorem last_target {s : String} {l : List Node} (h : ∀ m ∈ l, target s m ≠ none)
    {ts tt : String} {cols : List String}
    (e : (l.filterMap fun m => (target s m).map fun t => (some t.1, t.2)).getLast? =
      some (some (ts, tt), cols)) :
    ∃ name, (l.filterMap (named Node.varargs)).getLast? = some (name, cols) ∧ RefersTo s name ts tt := by
  rcases List.eq_nil_or_concat l with rfl | ⟨l', m, rfl⟩
  · simp at e
  · rw [List.concat_eq_append] at *
    have hm := h m (by simp)
    cases ht : target s m with
    | none => exact absurd ht hm
    | some t =>
      obtain ⟨⟨a, b⟩, c⟩ := t
      have hf : ((fun m => (target s m).map fun t => (some t.1, t.2)) m) = some (some (a, b), c) := by
        simp [ht]
      rw [List.filterMap_append] at e
      have e2 : List.filterMap (fun m => (target s m).map fun t => (some t.1, t.2)) [m] =
          [(some (a, b), c)] := by simp [ht]
      rw [e2] at e
      simp only [List.getLast?_append, List.getLast?_singleton, Option.some_or,
        Option.some.injEq, Prod.mk.injEq] at e
      obtain ⟨⟨rfl, rfl⟩, rfl⟩ := e
      unfold target at ht
      split at ht
      · next name cols hn =>
        split at ht
        · next t hr =>
          injection ht with ht
          injection ht with h1 h2
          subst h1 h2
          refine ⟨name, ?_, parseTableRef_refers hr⟩
          rw [List.filterMap_append, List.filterMap_cons_some hn]
          simp
        · cases ht
      · cases ht

/-! ### Each kind -/

theorem parseFunction_stated {ctx : String} {n : Node} {f : Function}
    (h : parseFunction ctx n = .ok f) :
    n.name = some f.name ∧ f.schemaName = ctx ∧ stated n "as" Node.str = some f.body ∧
      f.language = (stated n "language" Node.str).getD "SQL" ∧
      f.returns = (stated n "returns" Node.str).getD "void" ∧
      f.volatility = (stated n "volatility" Node.str).getD "VOLATILE" := by
  obtain ⟨hk, name, ns, a, bad, hname, hn, hr, hf⟩ := readNode_ok_iff.1 h
  have k1 := stated_opt function_body hn hr rfl
  have k2 := stated_opt function_language hn hr rfl
  have k3 := stated_opt function_returns hn hr rfl
  have k4 := stated_opt function_volatility hn hr rfl
  unfold finishFunction at hf
  split at hf
  · next b hb =>
    injection hf with hf; subst hf
    exact ⟨hname, rfl, by rw [← k1, hb], by rw [← k2], by rw [← k3], by rw [← k4]⟩
  · cases hf

theorem parseView_stated {ctx : String} {n : Node} {v : View} (h : parseView ctx n = .ok v) :
    n.name = some v.name ∧ v.schemaName = ctx ∧ stated n "as" Node.str = some v.query := by
  obtain ⟨hk, name, ns, a, bad, hname, hn, hr, hf⟩ := readNode_ok_iff.1 h
  have hg : Gives viewStep id "as" fun m => m.str.map some := by
    constructor
    · intro a a' n h hk
      unfold viewStep at h
      simp only [hk, if_true] at h
      split at h
      · next hv => injection h with h; subst h; exact congrArg (Option.map some) (orErr_ok hv)
      · cases h
    · intro a a' n h hk
      unfold viewStep at h
      rw [if_neg hk] at h
      cases h
    · intro a n h hk
      unfold viewStep at h
      simp only [hk, if_true] at h
      split at h
      · cases h
      · next hv => injection h with h; subst h; exact congrArg (Option.map some) (orErr_err hv)
  have k1 := stated_opt hg hn hr rfl
  unfold finishView at hf
  split at hf
  · next b =>
    injection hf with hf; subst hf
    exact ⟨hname, rfl, k1.symm⟩
  · cases hf

theorem parseIndex_stated {ctx : String} {n : Node} {i : Index} (h : parseIndex ctx n = .ok i) :
    n.name = some i.name ∧ i.schemaName = ctx ∧
      stated n "on" (named Node.varargs) = some (i.tableName, i.keyExpressions) ∧
      i.unique = (stated n "unique" Node.bool).getD false ∧
      i.method = (stated n "using" Node.str).getD "btree" := by
  obtain ⟨hk, name, ns, a, bad, hname, hn, hr, hf⟩ := readNode_ok_iff.1 h
  have k1 := stated_opt index_on hn hr rfl
  have k2 := stated_opt index_unique hn hr rfl
  have k3 := stated_opt index_method hn hr rfl
  unfold finishIndex at hf
  split at hf
  · cases hf
  · next t ks ho =>
    injection hf with hf; subst hf
    exact ⟨hname, rfl, by rw [← k1, ho], by rw [← k2], by rw [← k3]⟩

theorem parseSequence_stated {ctx : String} {n : Node} {s : Sequence}
    (h : parseSequence ctx n = .ok s) :
    n.name = some s.name ∧ s.schemaName = ctx ∧
      s.dataType = (stated n "as" Node.str).getD "int8" ∧
      s.increment = (stated n "increment" Node.int).getD 1 ∧
      (∀ v, stated n "minvalue" Node.int = some v → s.minValue = v) ∧
      (∀ v, stated n "maxvalue" Node.int = some v → s.maxValue = v) ∧
      (∀ v, stated n "start" Node.int = some v → s.start = v) ∧
      s.cache = (stated n "cache" Node.int).getD 1 ∧
      s.cycle = (stated n "cycle" Node.bool).getD false ∧
      s.ownedByTable = (stated n "owned by" (named Node.str)).map Prod.fst ∧
      s.ownedByColumn = (stated n "owned by" (named Node.str)).map Prod.snd := by
  obtain ⟨hk, name, ns, a, bad, hname, hn, hr, hf⟩ := readNode_ok_iff.1 h
  have k1 := stated_opt sequence_dataType hn hr rfl
  have k2 := stated_opt sequence_increment hn hr rfl
  have k3 := stated_opt sequence_min hn hr rfl
  have k4 := stated_opt sequence_max hn hr rfl
  have k5 := stated_opt sequence_start hn hr rfl
  have k6 := stated_opt sequence_cache hn hr rfl
  have k7 := stated_opt sequence_cycle hn hr rfl
  have k8 := stated_opt sequence_owner hn hr rfl
  unfold finishSequence at hf
  dsimp only at hf
  split at hf
  · cases hf
  · next min hmin =>
    split at hf
    · cases hf
    · next max hmax =>
      split at hf
      · cases hf
      · injection hf with hf
        subst hf
        dsimp only
        refine ⟨hname, rfl, by rw [← k1], by rw [← k2], fun v hv => ?_, fun v hv => ?_,
          fun v hv => by rw [k5, hv]; rfl, by rw [← k6], by rw [← k7], by rw [← k8], by rw [← k8]⟩
        · rw [k3, hv] at hmin; injection hmin with hmin; exact hmin.symm
        · rw [k4, hv] at hmax; injection hmax with hmax; exact hmax.symm

/-- What a constraint definition states. -/
theorem parseConstraint_stated {s t : String} {n : Node} {c : Constraint}
    (h : parseConstraint s t n = .ok c) :
    n.name = some c.name ∧ c.schemaName = s ∧ c.tableName = t ∧
    ∃ first rest, n.nodes = some (first :: rest) ∧
    match c with
    | .primaryKey k => first.kind = "primary key" ∧ stated n "primary key" Node.varargs = some k.columns ∧
        k.deferrable = (stated n "deferrable" Node.bool).getD false ∧
        k.initiallyDeferred = (stated n "initially deferred" Node.bool).getD false
    | .unique k => first.kind = "unique" ∧ stated n "unique" Node.varargs = some k.columns ∧
        k.deferrable = (stated n "deferrable" Node.bool).getD false ∧
        k.initiallyDeferred = (stated n "initially deferred" Node.bool).getD false
    | .check k => first.kind = "check" ∧ stated n "check" Node.str = some k.expression ∧
        k.deferrable = (stated n "deferrable" Node.bool).getD false ∧
        k.initiallyDeferred = (stated n "initially deferred" Node.bool).getD false
    | .foreignKey k => first.kind = "foreign key" ∧
        stated n "foreign key" Node.varargs = some k.columns ∧
        (∃ name, stated n "references" (named Node.varargs) = some (name, k.targetColumns) ∧
          RefersTo s name k.targetSchema k.targetTable) ∧
        k.matchOption = (stated n "match" Node.str).getD "SIMPLE" ∧
        k.updateRule = (stated n "on update" Node.str).getD "NO ACTION" ∧
        k.deleteRule = (stated n "on delete" Node.str).getD "NO ACTION" ∧
        k.deferrable = (stated n "deferrable" Node.bool).getD false ∧
        k.initiallyDeferred = (stated n "initially deferred" Node.bool).getD false := by
  unfold parseConstraint at h
  split at h
  · cases h
  · cases h
  · next first rest hns =>
    have hns := orErr_ok hns
    split at h
    · next hk =>
      split at h
      · next k e =>
        injection h with h; subst h
        obtain ⟨_, name, ns', a, bad, hname, hn, hr, hf⟩ := readNode_ok_iff.1 e
        have k1 := stated_opt primaryKey_columns hn hr rfl
        have k2 := stated_opt primaryKey_deferrable hn hr rfl
        have k3 := stated_opt primaryKey_initially hn hr rfl
        unfold finishPrimaryKey at hf
        split at hf
        · next cs hc =>
          injection hf with hf; subst hf
          exact ⟨hname, rfl, rfl, first, rest, hns, hk, by rw [← k1, hc], by rw [← k2], by rw [← k3]⟩
        · cases hf
      · cases h
    split at h
    · next hk =>
      split at h
      · next k e =>
        injection h with h; subst h
        obtain ⟨_, name, ns', a, bad, hname, hn, hr, hf⟩ := readNode_ok_iff.1 e
        have k1 := stated_of_gives unique_columns hn hr
        have k2 := stated_opt unique_deferrable hn hr rfl
        have k3 := stated_opt unique_initially hn hr rfl
        unfold finishUnique at hf
        split at hf
        · next c cs hc =>
          injection hf with hf; subst hf
          refine ⟨hname, rfl, rfl, first, rest, hns, hk, ?_, by rw [← k2], by rw [← k3]⟩
          rw [hc] at k1
          cases hs : stated n "unique" Node.varargs with
          | none => rw [hs] at k1; cases k1
          | some v => rw [hs] at k1; exact congrArg some k1.symm
        · cases hf
      · cases h
    split at h
    · next hk =>
      split at h
      · next k e =>
        injection h with h; subst h
        obtain ⟨_, name, ns', a, bad, hname, hn, hr, hf⟩ := readNode_ok_iff.1 e
        have k1 := stated_opt (foreignKey_columns s) hn hr rfl
        have k2 := stated_opt (foreignKey_deferrable s) hn hr rfl
        have k3 := stated_opt (foreignKey_initially s) hn hr rfl
        have k4 := stated_opt (foreignKey_match s) hn hr rfl
        have k5 := stated_opt (foreignKey_update s) hn hr rfl
        have k6 := stated_opt (foreignKey_delete s) hn hr rfl
        have k7 := stated_of_gives (foreignKey_target s) hn hr
        unfold finishForeignKey at hf
        split at hf
        · next hc ht htc =>
          injection hf with hf; subst hf
          refine ⟨hname, rfl, rfl, first, rest, hns, hk, by rw [← k1, hc], ?_, by rw [← k4], by rw [← k5],
            by rw [← k6], by rw [← k2], by rw [← k3]⟩
          have hall : ∀ m ∈ childrenOf n "references", target s m ≠ none := by
            intro m hm
            unfold childrenOf at hm
            rw [inner_eq, hn] at hm
            dsimp only at hm
            obtain ⟨hm, hmk⟩ := List.mem_filter.1 hm
            obtain ⟨b, b', hb⟩ := (readAttrs_all hr).2 m hm
            have := (foreignKey_target s).on _ _ _ hb (by simpa using hmk)
            intro hnone
            rw [hnone] at this
            cases this
          refine last_target hall ?_
          cases hs : stated n "references" (fun m => (target s m).map fun t => (some t.1, t.2)) with
          | none => rw [hs, ht, htc] at k7; cases k7
          | some v =>
            rw [hs, ht, htc] at k7
            simp only [Option.getD_some] at k7
            unfold stated at hs
            rw [hs, ← k7]
        · cases hf
      · cases h
    split at h
    · next hk =>
      split at h
      · next k e =>
        injection h with h; subst h
        obtain ⟨_, name, ns', a, bad, hname, hn, hr, hf⟩ := readNode_ok_iff.1 e
        have k1 := stated_opt check_expression hn hr rfl
        have k2 := stated_opt check_deferrable hn hr rfl
        have k3 := stated_opt check_initially hn hr rfl
        unfold finishCheck at hf
        split at hf
        · next cs hc =>
          injection hf with hf; subst hf
          exact ⟨hname, rfl, rfl, first, rest, hns, hk, by rw [← k1, hc], by rw [← k2], by rw [← k3]⟩
        · cases hf
      · cases h
    · cases h

end Def
end Podo
