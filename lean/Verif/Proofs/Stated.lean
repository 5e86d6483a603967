import Verif.Spec.Stated
import Verif.Proofs.DdlStated
import Verif.Proofs.Reads
import Verif.Proofs.DdlWf
/-
What the parts of an accepted file state.
-/
set_option linter.unusedSimpArgs false
set_option linter.unusedVariables false
namespace Podo
namespace Def

open Text

theorem mem_of_trim {cs : List Char} {c : Char} (h : c ∈ trim cs) : c ∈ cs := by
  unfold trim at h
  rw [List.mem_reverse] at h
  have h := (List.dropWhile_sublist _).subset h
  rw [List.mem_reverse] at h
  exact (List.dropWhile_sublist _).subset h

theorem parseColumnExpr_stated {input : String} {ty : List Char} {nn : Bool} {d : Option (List Char)}
    (h : parseColumnExpr input.toList = .ok (ty, nn, d)) :
    ColumnText input (String.ofList ty) nn (d.map String.ofList) := by
  unfold parseColumnExpr at h
  dsimp only at h
  generalize hp : (fun c : Char => c != '=' && c != '!') = p at h
  have hsplit := List.takeWhile_append_dropWhile (p := p) (l := input.toList)
  generalize hty : input.toList.takeWhile p = t at h hsplit
  generalize hrest : input.toList.dropWhile p = rest at h hsplit
  have hall : ∀ c ∈ t, c ≠ '=' ∧ c ≠ '!' := by
    intro c hc
    rw [← hty] at hc
    have := takeWhile_all c hc
    rw [← hp] at this
    simpa using this
  split at h
  · cases h
  next hne =>
  generalize hr' : (if rest.head? = some '!' then rest.tail else rest) = rest' at h
  have hcut : rest = (if decide (rest.head? = some '!') = true then ['!'] else []) ++ rest' := by
    rw [← hr']
    cases rest with
    | nil => rfl
    | cons c cs =>
      by_cases hc : c = '!'
      · simp [hc]
      · simp [hc]
  have hcut' : input.toList = t ++ (if decide (rest.head? = some '!') = true then ['!'] else []) ++
      rest' := by rw [← hsplit, List.append_assoc, ← hcut]
  split at h
  · injection h with h
    injection h with h1 h2
    injection h2 with h2 h3
    subst h1 h2 h3
    refine ⟨t, [], hcut', hall, hne, ?_, rfl⟩
    rw [String.toList_ofList]
    exact around_trim t
  · have hbl := List.takeWhile_append_dropWhile (p := isWs) (l := rest')
    split at h
    · next body hbody =>
      rw [hbody] at hbl
      have key : ∀ x, Around body x → body ≠ [] → '\n' ∉ x →
          ColumnText input (String.ofList (trim t)) (decide (rest.head? = some '!'))
            ((some x).map String.ofList) := by
        intro x hx hb hl
        refine ⟨t, rest', hcut', hall, hne, ?_, rest'.takeWhile isWs, body, hbl.symm,
          fun c hc => (isWs_iff c).1 (takeWhile_all c hc), hb, ?_, ?_⟩
        · rw [String.toList_ofList]; exact around_trim t
        · rw [String.toList_ofList]; exact hx
        · rw [String.toList_ofList]; exact hl
      split at h
      · next hws =>
        split at h
        · cases h
        · next c hc =>
          split at h
          · cases h
          · injection h with h
            injection h with h1 h2
            injection h2 with h2 h3
            subst h1 h2 h3
            refine key [] ?_ (by rintro rfl; cases hc) (by simp)
            have := around_trim body
            unfold trim at this
            rw [hws] at this
            exact this
      · next hne' =>
        split at h
        · cases h
        · next hl =>
          injection h with h
          injection h with h1 h2
          injection h2 with h2 h3
          subst h1 h2 h3
          refine key _ ?_ (by rintro rfl; exact hne' rfl) fun hm => hl (mem_of_trim hm)
          have := around_trim body
          unfold trim at this ⊢
          rw [dropWhile_eq_self (cs := body.dropWhile isWs) (fun c hc => dropWhile_head hc)]
          exact this
    · cases h

theorem parseColumn_stated {s t : String} {n : Node} {c : Column} (h : parseColumn s t n = .ok c) :
    ColumnStated s t n c := by
  unfold parseColumn assertKind at h
  split at h
  · next hk =>
    split at h
    · cases h
    · next name hname =>
      split at h
      · cases h
      · next text htext =>
        split at h
        · cases h
        · next e =>
          injection h with h; subst h
          exact ⟨hk, orErr_ok hname, rfl, rfl, text, by rw [textOf_eq]; exact orErr_ok htext, parseColumnExpr_stated e⟩
  · cases h

theorem kind_of_readNode {α β : Type} {kind : String} {step : String → α → Node → Except Fail α}
    {init : α} {finish : String → α → Bool → Except Fail β} {n : Node} {b : β}
    (h : readNode kind step init finish n = .ok b) : n.kind = kind := (readNode_ok_iff.1 h).1

theorem parseConstraint_kind {s t : String} {n : Node} {c : Constraint}
    (h : parseConstraint s t n = .ok c) : n.kind = "constraint" := by
  unfold parseConstraint at h
  split at h
  · cases h
  · cases h
  · split at h
    · split at h
      · next e => exact kind_of_readNode e
      · cases h
    split at h
    · split at h
      · next e => exact kind_of_readNode e
      · cases h
    split at h
    · split at h
      · next e => exact kind_of_readNode e
      · cases h
    split at h
    · split at h
      · next e => exact kind_of_readNode e
      · cases h
    · cases h

/-- A unique constraint has columns, and so has the target of a foreign key. -/
theorem parseConstraint_columns {s t : String} {n : Node} {c : Constraint}
    (h : parseConstraint s t n = .ok c) :
    (∀ k, c = .unique k → k.columns ≠ []) ∧ ∀ k, c = .foreignKey k → k.targetColumns ≠ [] := by
  have hu : ∀ k, parseUnique s t n = .ok k → k.columns ≠ [] := by
    intro k hk
    obtain ⟨_, name, ns, a, bad, _, _, _, hf⟩ := readNode_ok_iff.1 hk
    unfold finishUnique at hf
    split at hf
    · injection hf with hf; subst hf; simp
    · cases hf
  have hf : ∀ k, parseForeignKey s t n = .ok k → k.targetColumns ≠ [] := by
    intro k hk
    obtain ⟨_, name, ns, a, bad, _, _, _, hf⟩ := readNode_ok_iff.1 hk
    unfold finishForeignKey at hf
    split at hf
    · injection hf with hf; subst hf; simp
    · cases hf
  unfold parseConstraint at h
  split at h
  · cases h
  · cases h
  · split at h
    · split at h
      · cases h; simp
      · cases h
    split at h
    · split at h
      · next e => cases h; exact ⟨fun k hk => by cases hk; exact hu _ e, by simp⟩
      · cases h
    split at h
    · split at h
      · next e => cases h; exact ⟨by simp, fun k hk => by cases hk; exact hf _ e⟩
      · cases h
    split at h
    · split at h
      · cases h; simp
      · cases h
    · cases h

theorem parseConstraint_states {s t : String} {n : Node} {c : Constraint}
    (h : parseConstraint s t n = .ok c) : ConstraintStated s t n c := by
  obtain ⟨h1, h2, h3, first, rest, h4, h5⟩ := parseConstraint_stated h
  obtain ⟨h6, h7⟩ := parseConstraint_columns h
  refine ⟨parseConstraint_kind h, h1, h2, h3, first, rest, (inner_eq n).trans h4, ?_⟩
  simp only [FlagsStated, textOf_eq, flagOf_eq, integerOf_eq, textsOf_eq]
  cases c with
  | primaryKey k => exact ⟨h5.1, h5.2.1, h5.2.2.1, h5.2.2.2⟩
  | unique k => exact ⟨h5.1, h5.2.1, h6 k rfl, h5.2.2.1, h5.2.2.2⟩
  | check k => exact ⟨h5.1, h5.2.1, h5.2.2.1, h5.2.2.2⟩
  | foreignKey k =>
    exact ⟨h5.1, h5.2.1, h5.2.2.1, h7 k rfl, h5.2.2.2.1, h5.2.2.2.2.1, h5.2.2.2.2.2.1, h5.2.2.2.2.2.2.1,
      h5.2.2.2.2.2.2.2⟩

theorem parseFunction_states {s : String} {n : Node} {f : Function} (h : parseFunction s n = .ok f) :
    FunctionStated s n f := by
  obtain ⟨h1, h2, h3, h4, h5, h6⟩ := parseFunction_stated h
  rw [← textOf_eq] at h3 h4 h5 h6
  exact ⟨kind_of_readNode h, h1, h2, h3, h4, h5, h6⟩

theorem parseView_states {s : String} {n : Node} {f : View} (h : parseView s n = .ok f) :
    ViewStated s n f := by
  obtain ⟨h1, h2, h3⟩ := parseView_stated h
  rw [← textOf_eq] at h3
  exact ⟨kind_of_readNode h, h1, h2, h3⟩

theorem parseIndex_states {s : String} {n : Node} {f : Index} (h : parseIndex s n = .ok f) :
    IndexStated s n f := by
  obtain ⟨h1, h2, h3, h4, h5⟩ := parseIndex_stated h
  rw [← textsOf_eq] at h3
  rw [← flagOf_eq] at h4
  rw [← textOf_eq] at h5
  exact ⟨kind_of_readNode h, h1, h2, h3, h4, h5⟩

theorem seqMin_spec {i : Int} {t : String} {v : Int} (h : seqMin i t = .ok v) :
    if i < 0 then ∃ max, typeRange t = some (v, max) else v = 1 := by
  unfold seqMin at h
  by_cases hi : i < 0
  · rw [if_pos hi]
    rw [if_neg (by omega)] at h
    unfold typeRange
    by_cases h2 : t = "int2"
    · rw [if_pos h2] at h ⊢; injection h with h; subst h; exact ⟨_, rfl⟩
    rw [if_neg h2] at h ⊢
    by_cases h4 : t = "int4"
    · rw [if_pos h4] at h ⊢; injection h with h; subst h; exact ⟨_, rfl⟩
    rw [if_neg h4] at h ⊢
    by_cases h8 : t = "int8"
    · rw [if_pos h8] at h ⊢; injection h with h; subst h; exact ⟨_, rfl⟩
    rw [if_neg h8] at h
    cases h
  · rw [if_neg hi]
    rw [if_pos (by omega)] at h
    injection h with h
    exact h.symm

theorem seqMax_spec {i : Int} {t : String} {v : Int} (h : seqMax i t = .ok v) :
    if i < 0 then v = -1 else ∃ min, typeRange t = some (min, v) := by
  unfold seqMax at h
  by_cases hi : i < 0
  · rw [if_pos hi] at h ⊢
    injection h with h
    exact h.symm
  · rw [if_neg hi] at h ⊢
    unfold typeRange
    by_cases h2 : t = "int2"
    · rw [if_pos h2] at h ⊢; injection h with h; subst h; exact ⟨_, rfl⟩
    rw [if_neg h2] at h ⊢
    by_cases h4 : t = "int4"
    · rw [if_pos h4] at h ⊢; injection h with h; subst h; exact ⟨_, rfl⟩
    rw [if_neg h4] at h ⊢
    by_cases h8 : t = "int8"
    · rw [if_pos h8] at h ⊢; injection h with h; subst h; exact ⟨_, rfl⟩
    rw [if_neg h8] at h
    cases h

theorem seqStart_spec (i min max : Int) : seqStart i min max = if i < 0 then max else min := by
  unfold seqStart
  by_cases hi : i < 0
  · rw [if_pos hi, if_neg (by omega)]
  · rw [if_neg hi, if_pos (by omega)]

theorem parseSequence_states {ctx : String} {n : Node} {s : Sequence}
    (h : parseSequence ctx n = .ok s) : SequenceStated ctx n s := by
  have hk := kind_of_readNode h
  obtain ⟨hk, name, ns, a, bad, hname, hn, hr, hf⟩ := readNode_ok_iff.1 h
  have k1 := stated_opt sequence_dataType hn hr rfl
  have k2 := stated_opt sequence_increment hn hr rfl
  have k3 := stated_opt sequence_min hn hr rfl
  have k4 := stated_opt sequence_max hn hr rfl
  have k5 := stated_opt sequence_start hn hr rfl
  have k6 := stated_opt sequence_cache hn hr rfl
  have k7 := stated_opt sequence_cycle hn hr rfl
  have k8 := stated_opt sequence_owner hn hr rfl
  rw [← textOf_eq] at k1 k8
  rw [← integerOf_eq] at k2 k3 k4 k5 k6
  rw [← flagOf_eq] at k7
  unfold finishSequence at hf
  dsimp only at hf
  split at hf
  · cases hf
  · next min hmin =>
    split at hf
    · cases hf
    · next max hmax =>
      split at hf
      · cases hf
      · injection hf with hf
        subst hf
        refine ⟨hk, hname, rfl, by rw [← k1], by rw [← k2], ?_, ?_, ?_, by rw [← k6], by rw [← k7], ?_⟩
        · dsimp only
          rw [← k3]
          split
          · next v hv => rw [hv] at hmin; injection hmin with hmin; exact hmin.symm
          · next hv => rw [hv] at hmin; exact seqMin_spec hmin
        · dsimp only
          rw [← k4]
          split
          · next v hv => rw [hv] at hmax; injection hmax with hmax; exact hmax.symm
          · next hv => rw [hv] at hmax; exact seqMax_spec hmax
        · dsimp only
          rw [← k5]
          cases a.start with
          | some v => rfl
          | none => exact seqStart_spec _ _ _
        · dsimp only
          rw [← k8]
          cases a.ownedBy with
          | none => exact .inl ⟨rfl, rfl, rfl⟩
          | some p => exact .inr ⟨p.1, p.2, rfl, rfl, rfl⟩

theorem childrenOf_eq {n : Node} {ns : List Node} (hn : n.nodes = some ns) (k : String) :
    childrenOf n k = ns.filter fun m => m.kind = k := by
  unfold childrenOf; rw [inner_eq, hn]

theorem tableItem_inl {s t : String} {n : Node} {c : Column} :
    tableItem s t n = .ok (.inl c) ↔ n.kind = "column" ∧ parseColumn s t n = .ok c := by
  unfold tableItem
  by_cases hk : n.kind = "column"
  · rw [if_pos hk]
    cases parseColumn s t n with
    | ok x => simp [hk]
    | error e => simp
  · rw [if_neg hk]
    constructor
    · intro h
      split at h
      · split at h
        · injection h with h; cases h
        · cases h
      · cases h
    · rintro ⟨h, _⟩; exact absurd h hk

theorem tableItem_inr {s t : String} {n : Node} {c : Constraint} :
    tableItem s t n = .ok (.inr c) ↔ n.kind = "constraint" ∧ parseConstraint s t n = .ok c := by
  unfold tableItem
  by_cases hk : n.kind = "column"
  · rw [if_pos hk]
    constructor
    · intro h
      split at h
      · injection h with h; cases h
      · cases h
    · rintro ⟨h, _⟩; rw [h] at hk; exact absurd hk (by decide)
  · rw [if_neg hk]
    by_cases hk2 : n.kind = "constraint"
    · rw [if_pos hk2]
      cases parseConstraint s t n with
      | ok x => simp [hk2]
      | error e => simp
    · rw [if_neg hk2]
      constructor
      · intro h; cases h
      · rintro ⟨h, _⟩; exact absurd h hk2

/-- The columns of a table, in order. -/
theorem columns_of_items {s t : String} : ∀ {ns : List Node} {xs : List (Column ⊕ Constraint)},
    ns.map (tableItem s t) = xs.map .ok →
    (ns.filter fun m => m.kind = "column").map (parseColumn s t) = (lefts xs).map .ok
  | [], xs, h => by
    have : xs = [] := by simpa using h.symm
    subst this; rfl
  | n :: ns, [], h => by simp at h
  | n :: ns, x :: xs, h => by
    simp only [List.map_cons, List.cons.injEq] at h
    have ih := columns_of_items h.2
    cases x with
    | inl c =>
      obtain ⟨hk, hp⟩ := tableItem_inl.1 h.1
      rw [List.filter_cons_of_pos (by simpa using hk), List.map_cons, ih, hp]
      rfl
    | inr c =>
      obtain ⟨hk, hp⟩ := tableItem_inr.1 h.1
      rw [List.filter_cons_of_neg (by rw [hk]; decide), ih]
      rfl

theorem get?_of_map {α : Type} {xs : List α} {name : α → String} {k : String} {c : α}
    (h : AMap.get? (xs.map fun c => (name c, c)) k = some c) : c ∈ xs ∧ name c = k := by
  have := AMap.mem_of_get? h
  obtain ⟨x, hx, e⟩ := List.mem_map.1 this
  injection e with e1 e2
  subst e2
  exact ⟨hx, e1⟩

theorem get?_map_of_mem {α : Type} {xs : List α} {name : α → String} (hn : (xs.map name).Nodup) {c : α}
    (h : c ∈ xs) : AMap.get? (xs.map fun c => (name c, c)) (name c) = some c := by
  refine AMap.get?_of_mem ?_ (List.mem_map.2 ⟨c, h, rfl⟩)
  show (AMap.keys _).Nodup
  rw [keys_of_map]; exact hn

theorem parseTable_states {s : String} {n : Node} {t : Table} (h : parseTable s n = .ok t) :
    TableStated s n t := by
  obtain ⟨hk, name, ns, xs, hname, hn, hx, h1, h2, rfl⟩ := parseTable_ok_iff.1 h
  have hc := columns_of_items hx
  rw [← childrenOf_eq hn] at hc
  refine ⟨hk, hname, rfl, ⟨ns, (inner_eq n).trans hn⟩, ?_, ?_, ?_, ?_, ?_⟩
  · intro ms hms m hm
    rw [inner_eq, hn] at hms; injection hms with hms; subst hms
    obtain ⟨x, _, e⟩ := map_ok_mem' hx hm
    cases x with
    | inl c => exact .inl (tableItem_inl.1 e).1
    | inr c => exact .inr (tableItem_inr.1 e).1
  · simpa using congrArg List.length hc
  · intro i m c hm hc'
    have := congrArg (fun l => l[i]?) hc
    simp only [List.getElem?_map, hm] at this
    dsimp only at hc'
    rw [hc'] at this
    injection this with this
    exact parseColumn_stated this
  · intro m hm
    rw [childrenOf_eq hn] at hm
    obtain ⟨hm, hmk⟩ := List.mem_filter.1 hm
    obtain ⟨x, hxm, e⟩ := map_ok_mem' hx hm
    cases x with
    | inl c =>
      have := (tableItem_inl.1 e).1
      simp only [decide_eq_true_eq] at hmk
      rw [hmk] at this; exact absurd this (by decide)
    | inr c =>
      exact ⟨c, get?_map_of_mem h2 (mem_rights.2 hxm), parseConstraint_states (tableItem_inr.1 e).2⟩
  · intro k c hc'
    obtain ⟨hm, rfl⟩ := get?_of_map hc'
    refine ⟨rfl, ?_⟩
    obtain ⟨m, hm, e⟩ := map_ok_mem hx (mem_rights.1 hm)
    obtain ⟨ek, e⟩ := tableItem_inr.1 e
    refine ⟨m, ?_, parseConstraint_states e⟩
    rw [childrenOf_eq hn]
    exact List.mem_filter.2 ⟨hm, by simpa using ek⟩

theorem schemaItem_states {s : String} {n : Node} {x : Relation ⊕ Function}
    (h : schemaItem s n = .ok x) : match x with
      | .inl r => RelationStated s n r
      | .inr f => FunctionStated s n f := by
  unfold schemaItem at h
  split at h
  · obtain ⟨t, e, rfl⟩ := map_ok_iff'.1 h
    exact parseTable_states e
  · split at h
    · obtain ⟨t, e, rfl⟩ := map_ok_iff'.1 h
      exact parseView_states e
    · split at h
      · obtain ⟨t, e, rfl⟩ := map_ok_iff'.1 h
        exact parseSequence_states e
      · split at h
        · obtain ⟨t, e, rfl⟩ := map_ok_iff'.1 h
          exact parseIndex_states e
        · split at h
          · obtain ⟨t, e, rfl⟩ := map_ok_iff'.1 h
            exact parseFunction_states e
          · cases h

/-- What the schemas parsed from the nodes of a file, put together, hold. -/
theorem holds_states {ns : List Node} {ss : List Schema} {d : Database}
    (hp : ns.map parseSchema = ss.map .ok) (hd : Holds d ss) : FileStates ns d := by
  have hmk : ∀ s, s ∈ d.schemas.keys ↔ ∃ sc, d.schemas.get? s = some sc := fun s => by
    rw [← AMap.has_iff, AMap.has, Option.isSome_iff_exists]
  refine ⟨?_, ?_, ?_, ?_, ?_⟩
  · intro n hn
    obtain ⟨s, _, e⟩ := map_ok_mem' hp hn
    exact (parseSchema_ok_iff.1 e).1
  · intro s
    rw [hmk, hd.schema]
    constructor
    · rintro ⟨sc, hsc, rfl⟩
      obtain ⟨n, hn, e⟩ := map_ok_mem hp hsc
      obtain ⟨_, name, ms, xs, hname, _, _, _, _, rfl⟩ := parseSchema_ok_iff.1 e
      exact ⟨n, hn, hname⟩
    · rintro ⟨n, hn, hname⟩
      obtain ⟨sc, hsc, e⟩ := map_ok_mem' hp hn
      obtain ⟨_, name, ms, xs, hname', _, _, _, _, rfl⟩ := parseSchema_ok_iff.1 e
      rw [hname] at hname'; injection hname' with hname'
      exact ⟨_, hsc, hname'.symm⟩
  · intro s k r hr0
    obtain ⟨sc, hsc, rfl, hr⟩ := (hd.rel _ _ _).1 hr0
    obtain ⟨n, hn, e⟩ := map_ok_mem hp hsc
    obtain ⟨hk, name, ms, xs, hname, hms, hx, _, _, rfl⟩ := parseSchema_ok_iff.1 e
    obtain ⟨hm, rfl⟩ := get?_of_map (name := Relation.name) hr
    obtain ⟨m, hm, e⟩ := map_ok_mem hx (mem_lefts.1 hm)
    exact ⟨rfl, m, ⟨n, hn, hk, hname, ms, (inner_eq n).trans hms, hm⟩, schemaItem_states e⟩
  · intro s k r hr0
    obtain ⟨sc, hsc, rfl, hr⟩ := (hd.fn _ _ _).1 hr0
    obtain ⟨n, hn, e⟩ := map_ok_mem hp hsc
    obtain ⟨hk, name, ms, xs, hname, hms, hx, _, _, rfl⟩ := parseSchema_ok_iff.1 e
    obtain ⟨hm, rfl⟩ := get?_of_map (name := Function.name) hr
    obtain ⟨m, hm, e⟩ := map_ok_mem hx (mem_rights.1 hm)
    exact ⟨rfl, m, ⟨n, hn, hk, hname, ms, (inner_eq n).trans hms, hm⟩, schemaItem_states e⟩
  · rintro s m ⟨n, hn, hk, hname, ms, hms, hm⟩
    obtain ⟨sc, hsc, e⟩ := map_ok_mem' hp hn
    obtain ⟨_, name, ms', xs, hname', hms', hx, h1, h2, rfl⟩ := parseSchema_ok_iff.1 e
    rw [hname] at hname'; injection hname' with hname'; subst hname'
    rw [inner_eq] at hms
    rw [hms] at hms'; injection hms' with hms'; subst hms'
    obtain ⟨x, hxm, e⟩ := map_ok_mem' hx hm
    cases x with
    | inl r =>
      exact .inl ⟨r, (hd.rel _ _ _).2 ⟨_, hsc, rfl, get?_map_of_mem h1 (mem_lefts.2 hxm)⟩,
        schemaItem_states e⟩
    | inr f =>
      exact .inr ⟨f, (hd.fn _ _ _).2 ⟨_, hsc, rfl, get?_map_of_mem h2 (mem_rights.2 hxm)⟩,
        schemaItem_states e⟩

theorem parseDoc_nodes {y : Yaml} {ss : List Schema} (h : parseDoc y = .ok ss) :
    (fileNodes y).map parseSchema = ss.map .ok := by
  unfold parseDoc at h
  unfold fileNodes
  split at h
  · next ks vs =>
    split at h
    · cases h
    · next ns e =>
      split at h
      · cases h
      · next ss' e' =>
        injection h with h; subst h
        dsimp only
        rw [e]
        exact parseSchemas_iff.1 e'
  · cases h

theorem parseDoc_says {y : Yaml} {ss : List Schema} (h : parseDoc y = .ok ss) : FileSays y (fileNodes y) := by
  unfold parseDoc at h
  unfold fileNodes
  split at h
  · next ks vs =>
    split at h
    · cases h
    · next ns e =>
      dsimp only
      rw [e]
      exact fileSays_iff.2 ⟨ks, vs, rfl, e⟩
  · cases h

theorem loadDoc_says {y : Yaml} {d : Database} (h : loadDoc y = .ok d) : FileSays y (fileNodes y) := by
  obtain ⟨ss, h1, _⟩ := loadDoc_iff.1 h
  exact parseDoc_says h1

theorem loadDoc_states {y : Yaml} {d : Database} (h : loadDoc y = .ok d) :
    FileStates (fileNodes y) d := by
  obtain ⟨ss, h1, h2⟩ := loadDoc_iff.1 h
  have hd := (addSchemas_ok_iff ss Database.new [] holds_new (parseDoc_wf h1)).2 d h2
  exact holds_states (parseDoc_nodes h1) hd

theorem allDefs_nodes : ∀ {fs : List Yaml}, (∀ f ∈ fs, ∃ xs, parseDoc f = .ok xs) →
    (fs.flatMap fileNodes).map parseSchema = (allDefs parseDoc fs).map .ok
  | [], _ => rfl
  | f :: fs, h => by
    obtain ⟨xs, hx⟩ := h f (by simp)
    have ih := allDefs_nodes fun g hg => h g (List.mem_cons_of_mem _ hg)
    unfold allDefs at ih ⊢
    rw [List.flatMap_cons, List.flatMap_cons, List.map_append, List.map_append, ih, hx,
      parseDoc_nodes hx]

theorem snapshot_states {es : List (DirTree Yaml)} {d : Database}
    (h : Load.snapshot parseDoc es = .ok d) :
    FileStates ((Load.collect es).flatMap fileNodes) d := by
  obtain ⟨h1, h2⟩ := filesInto_ok_iff (parse := parseDoc) (Load.collect es) Database.new [] holds_new
    (fun f _ scs hp => parseDoc_wf hp)
  exact holds_states (allDefs_nodes (h1.1 ⟨d, h⟩).1) (h2 d h)

theorem snapshot_says {es : List (DirTree Yaml)} {d : Database}
    (h : Load.snapshot parseDoc es = .ok d) : ∀ f ∈ Load.collect es, FileSays f (fileNodes f) := by
  intro f hf
  have h1 := (filesInto_ok_iff (parse := parseDoc) (Load.collect es) Database.new [] holds_new
    (fun f _ scs hp => parseDoc_wf hp)).1
  obtain ⟨xs, hx⟩ := (h1.1 ⟨d, h⟩).1 f hf
  exact parseDoc_says hx

end Def
end Podo
