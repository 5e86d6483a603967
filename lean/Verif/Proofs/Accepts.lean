import Verif.Spec.Accepts
import Verif.Proofs.Stated
import Verif.Proofs.DdlPanic
/-
Which definitions are accepted (C74).
-/
set_option linter.unusedSimpArgs false
set_option linter.unusedVariables false
namespace Podo
namespace Def
open Text

/-! ### Column texts -/

theorem dropWhile_append_stop {p : Char → Bool} {a b : List Char} (ha : ∀ c ∈ a, p c = true)
    (hb : ∀ c, b.head? = some c → p c = false) : (a ++ b).dropWhile p = b := by
  rw [List.dropWhile_append, dropWhile_all ha, List.isEmpty_nil, if_pos rfl]
  exact dropWhile_eq_self hb

theorem takeWhile_append_stop {p : Char → Bool} {a b : List Char} (ha : ∀ c ∈ a, p c = true)
    (hb : ∀ c, b.head? = some c → p c = false) : (a ++ b).takeWhile p = a := by
  induction a with
  | nil =>
    cases b with
    | nil => rfl
    | cons c cs => rw [List.nil_append, List.takeWhile_cons, if_neg]; rw [hb c rfl]; simp
  | cons x xs ih =>
    rw [List.cons_append, List.takeWhile_cons, if_pos (ha x (by simp)),
      ih fun c hc => ha c (List.mem_cons_of_mem _ hc)]

theorem parseColumnExpr_accepts {text : String} :
    (∃ x, parseColumnExpr text.toList = .ok x) ↔ ColumnTextAccepted text := by
  constructor
  · rintro ⟨x, h⟩
    unfold parseColumnExpr at h
    dsimp only at h
    generalize hp : (fun c : Char => c != '=' && c != '!') = p at h
    have hsplit := List.takeWhile_append_dropWhile (p := p) (l := text.toList)
    generalize hty : text.toList.takeWhile p = t at h hsplit
    generalize hrest : text.toList.dropWhile p = rest at h hsplit
    have hall : ∀ c ∈ t, c ≠ '=' ∧ c ≠ '!' := by
      intro c hc
      rw [← hty] at hc
      have := takeWhile_all c hc
      rw [← hp] at this
      simpa using this
    split at h
    · cases h
    next hne =>
    generalize hr' : (if rest.head? = some '!' then rest.tail else rest) = rest' at h
    have hcut : ∃ bang, rest = bang ++ rest' ∧ (bang = [] ∨ bang = ['!']) := by
      rw [← hr']
      cases rest with
      | nil => exact ⟨[], rfl, .inl rfl⟩
      | cons c cs =>
        by_cases hc : c = '!'
        · exact ⟨['!'], by simp [hc], .inr rfl⟩
        · exact ⟨[], by simp [hc], .inl rfl⟩
    obtain ⟨bang, hcut, hbang⟩ := hcut
    refine ⟨t, bang, rest', by rw [← hsplit, hcut, List.append_assoc], hne, hall, hbang, ?_⟩
    split at h
    · exact .inl rfl
    · have hbl := List.takeWhile_append_dropWhile (p := isWs) (l := rest')
      right
      split at h
      · next body hbody =>
        rw [hbody] at hbl
        have hb := List.takeWhile_append_dropWhile (p := isWs) (l := body)
        split at h
        · next hws =>
          split at h
          · cases h
          · next c hc =>
            split at h
            · cases h
            · next hcn =>
              refine ⟨rest'.takeWhile isWs, body.dropLast, [c], ?_, ?_, ?_, by simp, by simpa using Ne.symm hcn⟩
              · have : body.dropLast ++ [c] = body := by
                  obtain ⟨ys, rfl⟩ := List.getLast?_eq_some_iff.1 hc
                  simp
                rw [this]; exact hbl.symm
              · exact fun c hc => (isWs_iff c).1 (takeWhile_all c hc)
              · intro d hd
                exact (isWs_iff d).1 (dropWhile_nil hws d (List.dropLast_subset _ hd))
        · next hne' =>
          split at h
          · cases h
          · next hn =>
            refine ⟨rest'.takeWhile isWs, body.takeWhile isWs, body.dropWhile isWs, ?_, ?_, ?_, hne', hn⟩
            · rw [hb]; exact hbl.symm
            · exact fun c hc => (isWs_iff c).1 (takeWhile_all c hc)
            · exact fun c hc => (isWs_iff c).1 (takeWhile_all c hc)
      · cases h
  · rintro ⟨ty, bang, rest, e, hne, hty, hbang, hrest⟩
    -- the longest run without `=` and `!`, which may take some of the blanks
    have key : ∀ ty : List Char, ty ≠ [] → (∀ c ∈ ty, c ≠ '=' ∧ c ≠ '!') → ∀ rest : List Char,
        text.toList = ty ++ bang ++ rest →
        (rest = [] ∨ ∃ blanks blanks' line, rest = blanks ++ '=' :: (blanks' ++ line) ∧
          (∀ c ∈ blanks, Blank c) ∧ (∀ c ∈ blanks', Blank c) ∧ line ≠ [] ∧ '\n' ∉ line) →
        (∀ c, (bang ++ rest).head? = some c → c = '=' ∨ c = '!') →
        (bang = [] → ∀ c, rest.head? = some c → c ≠ '!') →
        ∃ x, parseColumnExpr text.toList = .ok x := by
      intro ty hne hty rest e hrest hhead hbr
      unfold parseColumnExpr
      dsimp only
      have h1 : ∀ c ∈ ty, (c != '=' && c != '!') = true := by
        intro c hc; simpa using hty c hc
      have h2 : ∀ c, (bang ++ rest).head? = some c → (c != '=' && c != '!') = false := by
        intro c hc; rcases hhead c hc with rfl | rfl <;> decide
      rw [e, List.append_assoc, takeWhile_append_stop h1 h2, dropWhile_append_stop h1 h2, if_neg hne]
      have h3 : (if (bang ++ rest).head? = some '!' then (bang ++ rest).tail else bang ++ rest) = rest := by
        rcases hbang with rfl | rfl
        · rw [List.nil_append]
          rw [if_neg]
          intro hh
          exact hbr rfl _ hh rfl
        · simp
      rw [h3]
      rcases hrest with rfl | ⟨bl, bl', line, rfl, hbl, hbl', hl, hn⟩
      · exact ⟨_, rfl⟩
      · have h4 : (bl ++ '=' :: (bl' ++ line)).dropWhile isWs = '=' :: (bl' ++ line) := by
          refine dropWhile_append_stop (fun c hc => (isWs_iff c).2 (hbl c hc)) ?_
          intro c hc
          cases hc
          decide
        rw [h4]
        have h5 : bl ++ '=' :: (bl' ++ line) ≠ [] := by simp
        split
        · next hh => exact (h5 hh).elim
        · next hne2 =>
          split
          · next body hbody =>
            injection hbody with _ hbody
            subst hbody
            split
            · next hws =>
              have hlast : (bl' ++ line).getLast? = line.getLast? := by
                rw [List.getLast?_append]
                cases hg : line.getLast? with
                | none => exact (hl (List.getLast?_eq_none_iff.1 hg)).elim
                | some c => rfl
              rw [hlast]
              cases hg : line.getLast? with
              | none => exact (hl (List.getLast?_eq_none_iff.1 hg)).elim
              | some c =>
                dsimp only
                rw [if_neg]
                · exact ⟨_, rfl⟩
                · rintro rfl; exact hn (List.mem_of_getLast? hg)
            · next hws =>
              rw [if_neg]
              · exact ⟨_, rfl⟩
              · rw [dropWhile_blank hbl']
                exact fun hh => hn ((List.dropWhile_suffix isWs).subset hh)
          · next hh => exact (hh _ rfl).elim
    rcases hbang with rfl | rfl
    · rcases hrest with rfl | ⟨bl, bl', line, rfl, hbl, hbl', hl, hn⟩
      · exact key ty hne hty [] e (.inl rfl) (by simp) (by simp)
      · refine key (ty ++ bl) (by simp [hne]) ?_ ('=' :: (bl' ++ line)) (by rw [e]; simp)
          (.inr ⟨[], bl', line, rfl, by simp, hbl', hl, hn⟩) ?_ ?_
        · intro c hc
          rcases List.mem_append.1 hc with hc | hc
          · exact hty c hc
          · have := hbl c hc
            constructor <;> (rintro rfl; revert this; decide)
        · intro c hc; cases hc; exact .inl rfl
        · intro _ c hc; cases hc; decide
    · exact key ty hne hty rest e hrest (by intro c hc; cases hc; exact .inr rfl) (by simp)

theorem parseColumn_accepts {s t : String} {n : Node} :
    (∃ c, parseColumn s t n = .ok c) ↔ ColumnAccepted n := by
  unfold ColumnAccepted
  simp only [← parseColumnExpr_accepts]
  unfold parseColumn assertKind coerceName coerceStr orErr
  rw [textOf_eq]
  by_cases hk : n.kind = "column"
  · rw [if_pos hk]
    cases hn : n.name with
    | none => simp
    | some name =>
      cases hs : n.str with
      | none => simp
      | some text =>
        cases hx : parseColumnExpr text.toList with
        | error e => simp [hx]
        | ok x =>
          obtain ⟨a, nn, d⟩ := x
          dsimp only
          exact ⟨fun _ => ⟨hk, by simp, text, rfl, _, hx⟩, fun _ => ⟨_, by rw [hx]⟩⟩
  · rw [if_neg hk]; simp [hk]

/-! ### Reading attributes -/

theorem readAttrs_accepts {α : Type} {step : α → Node → Except Fail α} {P : Node → Prop}
    (hs : ∀ a m, (∃ a', step a m = .ok a') ↔ P m) (hp : ∀ a m, step a m ≠ .error .panic) :
    ∀ (ns : List Node) (a : α) (b : Bool), ∃ a' b', readAttrs step a b ns = .ok (a', b') ∧
      (b' = false ↔ b = false ∧ ∀ m ∈ ns, P m)
  | [], a, b => ⟨a, b, rfl, by simp⟩
  | n :: ns, a, b => by
    rw [readAttrs]
    cases hn : step a n with
    | ok a1 =>
      obtain ⟨a', b', h1, h2⟩ := readAttrs_accepts hs hp ns a1 b
      refine ⟨a', b', h1, ?_⟩
      have := (hs a n).1 ⟨_, hn⟩
      simp [h2, this]
    | error e =>
      cases e with
      | panic => exact (hp _ _ hn).elim
      | error =>
        obtain ⟨a', b', h1, h2⟩ := readAttrs_accepts hs hp ns a true
        refine ⟨a', b', h1, ?_⟩
        have : ¬ P n := by
          rw [← hs a n, hn]; rintro ⟨_, h⟩; cases h
        simp [h2, this]

/-- A definition is accepted exactly when it is of the kind, has a name and something to read, and what
is read can be put together. -/
theorem readNode_accepts {α β : Type} {kind : String} {step : α → Node → Except Fail α} {P : Node → Prop}
    (hs : ∀ a m, (∃ a', step a m = .ok a') ↔ P m) (hp : ∀ a m, step a m ≠ .error .panic)
    {init : α} {finish : String → α → Bool → Except Fail β} {n : Node} :
    (∃ b, readNode kind (fun _ => step) init finish n = .ok b) ↔
      n.kind = kind ∧ n.name ≠ none ∧ ∃ ms, inner n = some ms ∧
        ∃ name a bad, n.name = some name ∧ readAttrs step init false ms = .ok (a, bad) ∧
          (bad = false ↔ ∀ m ∈ ms, P m) ∧ ∃ b, finish name a bad = .ok b := by
  rw [inner_eq]
  constructor
  · rintro ⟨b, h⟩
    obtain ⟨hk, name, ns, a, bad, hn, hi, hr, hf⟩ := readNode_ok_iff.1 h
    refine ⟨hk, by rw [hn]; simp, ns, hi, name, a, bad, hn, hr, ?_, b, hf⟩
    obtain ⟨a', b', h1, h2⟩ := readAttrs_accepts hs hp ns init false
    rw [h1] at hr; injection hr with hr; injection hr with hr1 hr2; subst hr1 hr2
    simpa using h2
  · rintro ⟨hk, _, ms, hi, name, a, bad, hn, hr, _, b, hf⟩
    exact ⟨b, readNode_ok_iff.2 ⟨hk, name, ms, a, bad, hn, hi, hr, hf⟩⟩

/-! ### The attributes -/

theorem coerceStr_accepts {m : Node} : (∃ v, coerceStr m = .ok v) ↔ textOf m ≠ none := by
  rw [textOf_eq]; unfold coerceStr orErr; cases m.str <;> simp
theorem coerceBool_accepts {m : Node} : (∃ v, coerceBool m = .ok v) ↔ flagOf m ≠ none := by
  rw [flagOf_eq]; unfold coerceBool orErr; cases m.bool <;> simp
theorem coerceInt_accepts {m : Node} : (∃ v, coerceInt m = .ok v) ↔ integerOf m ≠ none := by
  rw [integerOf_eq]; unfold coerceInt orErr; cases m.int <;> simp
theorem coerceVarargs_accepts {m : Node} : (∃ v, coerceVarargs m = .ok v) ↔ textsOf m ≠ none := by
  rw [textsOf_eq]; unfold coerceVarargs orErr; cases m.varargs <;> simp

macro "accepts" s:ident : tactic => `(tactic| (
  unfold $s
  simp only [IsConstraintFlag, IsText, IsTexts, IsFlag, IsInteger, ← coerceStr_accepts, ← coerceBool_accepts,
    ← coerceInt_accepts, ← coerceVarargs_accepts]
  repeat' split
  all_goals simp [*]))

theorem checkStep_accepts (a : CheckAttrs) (m : Node) :
    (∃ a', checkStep a m = .ok a') ↔ IsText "check" m ∨ IsConstraintFlag m := by
  accepts checkStep

theorem primaryKeyStep_accepts (a : PrimaryKeyAttrs) (m : Node) :
    (∃ a', primaryKeyStep a m = .ok a') ↔ IsTexts "primary key" m ∨ IsConstraintFlag m := by
  accepts primaryKeyStep

theorem uniqueStep_accepts (a : UniqueAttrs) (m : Node) :
    (∃ a', uniqueStep a m = .ok a') ↔ IsTexts "unique" m ∨ IsConstraintFlag m := by
  accepts uniqueStep

theorem viewStep_accepts (a : Option String) (m : Node) :
    (∃ a', viewStep a m = .ok a') ↔ IsText "as" m := by
  accepts viewStep

theorem functionStep_accepts (a : FunctionAttrs) (m : Node) :
    (∃ a', functionStep a m = .ok a') ↔ IsText "as" m ∨ IsText "language" m ∨ IsText "returns" m ∨
      IsText "volatility" m := by
  accepts functionStep

theorem coerceNameStr_accepts {m : Node} :
    (∃ v, coerceNameStr m = .ok v) ↔ (∃ v, coerceStr m = .ok v) ∧ m.name ≠ none := by
  unfold coerceNameStr coerceStr
  cases m.name <;> cases m.str <;> simp [orErr]

theorem coerceNameVarargs_accepts {m : Node} :
    (∃ v, coerceNameVarargs m = .ok v) ↔ (∃ v, coerceVarargs m = .ok v) ∧ m.name ≠ none := by
  unfold coerceNameVarargs coerceVarargs
  cases m.name <;> cases m.varargs <;> simp [orErr]

theorem sequenceStep_accepts (a : SequenceAttrs) (m : Node) :
    (∃ a', sequenceStep a m = .ok a') ↔ IsText "as" m ∨ IsInteger "increment" m ∨
      IsInteger "minvalue" m ∨ IsInteger "maxvalue" m ∨ IsInteger "start" m ∨ IsInteger "cache" m ∨
      IsFlag "cycle" m ∨ (IsText "owned by" m ∧ m.name ≠ none) := by
  have hown : (IsText "owned by" m ∧ m.name ≠ none) ↔
      m.kind = "owned by" ∧ ∃ v, coerceNameStr m = .ok v := by
    rw [coerceNameStr_accepts, coerceStr_accepts]; unfold IsText; exact and_assoc
  rw [hown]
  accepts sequenceStep

theorem indexStep_accepts (a : IndexAttrs) (m : Node) :
    (∃ a', indexStep a m = .ok a') ↔ IsFlag "unique" m ∨ (IsTexts "on" m ∧ m.name ≠ none) ∨
      IsText "using" m := by
  have hown : (IsTexts "on" m ∧ m.name ≠ none) ↔
      m.kind = "on" ∧ ∃ v, coerceNameVarargs m = .ok v := by
    rw [coerceNameVarargs_accepts, coerceVarargs_accepts]; unfold IsTexts; exact and_assoc
  rw [hown]
  accepts indexStep

theorem parseTableRef_accepts {ctx name : String} :
    (∃ r, parseTableRef ctx name = .ok r) ↔ ∃ s t, RefersTo ctx name s t := by
  constructor
  · rintro ⟨⟨s, t⟩, h⟩; exact ⟨s, t, parseTableRef_refers h⟩
  · rintro ⟨s, t, ht, h⟩
    unfold parseTableRef
    rcases h with ⟨rfl, rfl⟩ | ⟨rfl, hs⟩
    · rw [splitDot_none ht]; exact ⟨_, rfl⟩
    · have e : (s ++ "." ++ t).toList = s.toList ++ '.' :: t.toList := by simp
      rw [e, splitDot_append hs, splitDot_none ht]; exact ⟨_, rfl⟩

theorem isReference_iff {schema : String} {m : Node} : IsReference schema m ↔
    m.kind = "references" ∧ ∃ name v r, coerceNameVarargs m = .ok (name, v) ∧
      parseTableRef schema name = .ok r := by
  unfold IsReference
  refine and_congr_right fun _ => ?_
  rw [textsOf_eq]
  unfold coerceNameVarargs
  cases hn : m.name with
  | none => simp
  | some name =>
    cases hv : m.varargs with
    | none => simp
    | some v =>
      have := parseTableRef_accepts (ctx := schema) (name := name)
      simp only [ne_eq, reduceCtorEq, not_false_eq_true, Option.some.injEq, true_and, Except.ok.injEq,
        Prod.mk.injEq]
      constructor
      · rintro ⟨_, s, t, rfl, h⟩
        obtain ⟨r, hr⟩ := this.2 ⟨s, t, h⟩
        exact ⟨_, _, r, ⟨rfl, rfl⟩, hr⟩
      · rintro ⟨_, _, r, ⟨rfl, rfl⟩, hr⟩
        obtain ⟨s, t, h⟩ := this.1 ⟨r, hr⟩
        exact ⟨name, s, t, rfl, h⟩

theorem foreignKeyStep_accepts (s : String) (a : ForeignKeyAttrs) (m : Node) :
    (∃ a', foreignKeyStep s a m = .ok a') ↔ IsTexts "foreign key" m ∨ IsReference s m ∨
      IsConstraintFlag m ∨ IsText "match" m ∨ IsText "on update" m ∨ IsText "on delete" m := by
  rw [isReference_iff]
  accepts foreignKeyStep
  exact ⟨_, _, rfl⟩

/-! ### Objects -/

theorem stated_ne_none {β : Type} {n : Node} {k : String} {val : Node → Option β} :
    stated n k val ≠ none ↔ ∃ m ∈ childrenOf n k, val m ≠ none := by
  unfold stated
  generalize childrenOf n k = l
  rw [ne_eq, List.getLast?_eq_none_iff, List.filterMap_eq_nil_iff]
  constructor
  · intro h
    by_cases hh : ∃ m ∈ l, val m ≠ none
    · exact hh
    · exfalso; apply h; intro m hm
      cases hv : val m with
      | none => rfl
      | some v => exact (hh ⟨m, hm, by rw [hv]; simp⟩).elim
  · rintro ⟨m, hm, hv⟩ h; exact hv (h m hm)

theorem mem_children {n m : Node} {ns : List Node} {k : String} (hn : inner n = some ns) :
    m ∈ childrenOf n k ↔ m ∈ ns ∧ m.kind = k := by
  rw [inner_eq] at hn
  rw [childrenOf_eq hn, List.mem_filter]; simp

theorem view_query : Gives viewStep id "as" fun m => m.str.map some := by
  constructor
  · intro a a' n h hk
    unfold viewStep at h
    simp only [hk, if_true] at h
    split at h
    · next hv => injection h with h; subst h; exact congrArg (Option.map some) (orErr_ok hv)
    · cases h
  · intro a a' n h hk
    unfold viewStep at h
    rw [if_neg hk] at h
    cases h
  · intro a n h hk
    unfold viewStep at h
    simp only [hk, if_true] at h
    split at h
    · cases h
    · next hv => injection h with h; subst h; exact congrArg (Option.map some) (orErr_err hv)

/-- The form in which the finishing function is tested on what was read. -/
theorem readNode_accepts' {α β : Type} {kind : String} {step : α → Node → Except Fail α} {P : Node → Prop}
    (hs : ∀ a m, (∃ a', step a m = .ok a') ↔ P m) (hp : ∀ a m, step a m ≠ .error .panic)
    {init : α} {finish : String → α → Bool → Except Fail β} {n : Node} {Q : List Node → Prop}
    (hf : ∀ name ms a bad, inner n = some ms → readAttrs step init false ms = .ok (a, bad) →
      (bad = false ↔ ∀ m ∈ ms, P m) → ((∃ b, finish name a bad = .ok b) ↔ Q ms)) :
    (∃ b, readNode kind (fun _ => step) init finish n = .ok b) ↔
      n.kind = kind ∧ n.name ≠ none ∧ ∃ ms, inner n = some ms ∧ Q ms := by
  rw [readNode_accepts hs hp]
  refine and_congr_right fun hk => and_congr_right fun hn => ?_
  constructor
  · rintro ⟨ms, hi, name, a, bad, _, hr, hb, h⟩
    exact ⟨ms, hi, (hf name ms a bad hi hr hb).1 h⟩
  · rintro ⟨ms, hi, h⟩
    obtain ⟨a, bad, h1, h2⟩ := readAttrs_accepts hs hp ms init false
    simp only [true_and] at h2
    cases hname : n.name with
    | none => exact (hn hname).elim
    | some name => exact ⟨ms, hi, name, a, bad, rfl, h1, h2, (hf name ms a bad hi h1 h2).2 h⟩

theorem parseView_accepts {s : String} {n : Node} : (∃ v, parseView s n = .ok v) ↔ ViewAccepted n := by
  unfold parseView ViewAccepted
  refine readNode_accepts' (Q := fun ms => ms ≠ [] ∧ ∀ m ∈ ms, IsText "as" m) viewStep_accepts calm_viewStep ?_
  intro name ms a bad hi hr hb
  have ha := stated_opt view_query ((inner_eq n).symm.trans hi) hr rfl
  rw [← textOf_eq, id] at ha
  unfold finishView
  rw [← hb]
  cases bad with
  | true => cases a <;> simp
  | false =>
    have hall := hb.1 rfl
    cases ms with
    | nil =>
      rw [readAttrs] at hr; injection hr with hr; injection hr with hr _; subst hr
      simp
    | cons m ms =>
      have : a ≠ none := by
        rw [ha, stated_ne_none]
        have := hall m (by simp)
        exact ⟨m, (mem_children hi).2 ⟨by simp, this.1⟩, this.2⟩
      cases a with
      | none => exact (this rfl).elim
      | some q => simp

theorem parseFunction_accepts {s : String} {n : Node} :
    (∃ v, parseFunction s n = .ok v) ↔ FunctionAccepted n := by
  unfold parseFunction FunctionAccepted
  refine readNode_accepts' (Q := fun ms => (∀ m ∈ ms, IsText "as" m ∨ IsText "language" m ∨
    IsText "returns" m ∨ IsText "volatility" m) ∧ ∃ m ∈ ms, m.kind = "as") functionStep_accepts
    calm_functionStep ?_
  intro name ms a bad hi hr hb
  have ha := stated_opt function_body ((inner_eq n).symm.trans hi) hr rfl
  rw [← textOf_eq] at ha
  unfold finishFunction
  rw [← hb]
  cases bad with
  | true => cases a.body <;> simp
  | false =>
    have hall := hb.1 rfl
    have : a.body ≠ none ↔ ∃ m ∈ ms, m.kind = "as" := by
      rw [ha, stated_ne_none]
      constructor
      · rintro ⟨m, hm, _⟩
        obtain ⟨h1, h2⟩ := (mem_children hi).1 hm
        exact ⟨m, h1, h2⟩
      · rintro ⟨m, hm, hk⟩
        refine ⟨m, (mem_children hi).2 ⟨hm, hk⟩, ?_⟩
        rcases hall m hm with h | h | h | h
        · exact h.2
        all_goals (have := h.1; rw [hk] at this; exact absurd this (by decide))
    rw [← this]
    cases a.body <;> simp

theorem parseIndex_accepts {s : String} {n : Node} :
    (∃ v, parseIndex s n = .ok v) ↔ IndexAccepted n := by
  unfold parseIndex IndexAccepted
  refine readNode_accepts' (Q := fun ms => ∃ m ∈ ms, IsTexts "on" m ∧ m.name ≠ none) indexStep_accepts
    calm_indexStep ?_
  intro name ms a bad hi hr hb
  have ha := stated_opt index_on ((inner_eq n).symm.trans hi) hr rfl
  unfold finishIndex
  have : a.on ≠ none ↔ ∃ m ∈ ms, IsTexts "on" m ∧ m.name ≠ none := by
    rw [ha, stated_ne_none]
    refine exists_congr fun m => ?_
    rw [mem_children hi, and_assoc]
    refine and_congr_right fun _ => ?_
    unfold IsTexts
    rw [and_assoc]
    refine and_congr_right fun _ => ?_
    rw [textsOf_eq]
    unfold named
    cases m.name <;> cases m.varargs <;> simp
  rw [← this]
  cases a.on <;> simp

theorem typeRange_none {t : String} : typeRange t ≠ none ↔ t = "int2" ∨ t = "int4" ∨ t = "int8" := by
  unfold typeRange
  by_cases h2 : t = "int2"
  · simp [h2]
  by_cases h4 : t = "int4"
  · simp [h4]
  by_cases h8 : t = "int8"
  · simp [h8]
  simp [h2, h4, h8]

theorem seqMin_accepts {i : Int} {t : String} :
    (∃ v, seqMin i t = .ok v) ↔ typeRange t ≠ none ∨ ¬ i < 0 := by
  rw [typeRange_none]
  unfold seqMin
  by_cases hi : i < 0
  · rw [if_neg (by omega)]
    repeat' split
    all_goals simp [*]
  · rw [if_pos (by omega)]; simp [hi]

theorem seqMax_accepts {i : Int} {t : String} :
    (∃ v, seqMax i t = .ok v) ↔ typeRange t ≠ none ∨ i < 0 := by
  rw [typeRange_none]
  unfold seqMax
  by_cases hi : i < 0
  · rw [if_pos hi]; simp [hi]
  · rw [if_neg hi]
    repeat' split
    all_goals simp [*]

theorem orDefault_accepts {α : Type} {x : Option α} {d : Except Fail α} :
    (∃ v, orDefault x d = .ok v) ↔ x ≠ none ∨ ∃ v, d = .ok v := by
  unfold orDefault; cases x <;> simp

theorem parseSequence_accepts {s : String} {n : Node} :
    (∃ v, parseSequence s n = .ok v) ↔ SequenceAccepted n := by
  unfold parseSequence SequenceAccepted
  refine readNode_accepts' (Q := fun ms => (∀ m ∈ ms, IsText "as" m ∨ IsInteger "increment" m ∨
      IsInteger "minvalue" m ∨ IsInteger "maxvalue" m ∨ IsInteger "start" m ∨ IsInteger "cache" m ∨
      IsFlag "cycle" m ∨ (IsText "owned by" m ∧ m.name ≠ none)) ∧
    (typeRange ((stated n "as" textOf).getD "int8") ≠ none ∨
      if (stated n "increment" integerOf).getD 1 < 0 then stated n "minvalue" integerOf ≠ none
      else stated n "maxvalue" integerOf ≠ none)) sequenceStep_accepts calm_sequenceStep ?_
  intro name ms a bad hi hr hb
  have hn := (inner_eq n).symm.trans hi
  have k1 := stated_opt sequence_dataType hn hr rfl
  have k2 := stated_opt sequence_increment hn hr rfl
  have k3 := stated_opt sequence_min hn hr rfl
  have k4 := stated_opt sequence_max hn hr rfl
  rw [← textOf_eq] at k1
  rw [← integerOf_eq] at k2 k3 k4
  rw [← hb, ← k1, ← k2, ← k3, ← k4]
  unfold finishSequence
  dsimp only
  have h1 := orDefault_accepts (x := a.minValue) (d := seqMin (a.increment.getD 1) (a.dataType.getD "int8"))
  have h2 := orDefault_accepts (x := a.maxValue) (d := seqMax (a.increment.getD 1) (a.dataType.getD "int8"))
  rw [seqMin_accepts] at h1
  rw [seqMax_accepts] at h2
  generalize (typeRange (a.dataType.getD "int8") ≠ none) = T at *
  have key : (∃ v, orDefault a.minValue (seqMin (a.increment.getD 1) (a.dataType.getD "int8")) = .ok v) ∧
      (∃ v, orDefault a.maxValue (seqMax (a.increment.getD 1) (a.dataType.getD "int8")) = .ok v) ↔
      T ∨ if a.increment.getD 1 < 0 then a.minValue ≠ none else a.maxValue ≠ none := by
    rw [h1, h2]
    by_cases hi : a.increment.getD 1 < 0
    · simp only [hi, if_true, not_true, or_false, or_true, and_true]; exact or_comm
    · simp only [hi, if_false, not_false_eq_true, or_false, or_true, true_and]; exact or_comm
  rw [← key]
  cases orDefault a.minValue (seqMin (a.increment.getD 1) (a.dataType.getD "int8")) with
  | error e => simp
  | ok mn =>
    cases orDefault a.maxValue (seqMax (a.increment.getD 1) (a.dataType.getD "int8")) with
    | error e => simp
    | ok mx => cases bad <;> simp

/-! ### Constraints -/

theorem parsePrimaryKey_accepts {s t : String} {n first : Node} {rest : List Node}
    (hi : inner n = some (first :: rest)) (hk : first.kind = "primary key") :
    (∃ v, parsePrimaryKey s t n = .ok v) ↔ n.kind = "constraint" ∧ n.name ≠ none ∧
      ∀ m ∈ first :: rest, IsTexts "primary key" m ∨ IsConstraintFlag m := by
  unfold parsePrimaryKey
  rw [readNode_accepts' (Q := fun ms => ∀ m ∈ ms, IsTexts "primary key" m ∨ IsConstraintFlag m)
    primaryKeyStep_accepts calm_primaryKeyStep]
  · rw [hi]; simp
  intro name ms a bad hi' hr hb
  rw [hi] at hi'; injection hi' with hi'; subst hi'
  have ha := stated_opt primaryKey_columns ((inner_eq n).symm.trans hi) hr rfl
  rw [← textsOf_eq] at ha
  unfold finishPrimaryKey
  rw [← hb]
  cases bad with
  | true => cases a.columns <;> simp
  | false =>
    have : a.columns ≠ none := by
      rw [ha, stated_ne_none]
      refine ⟨first, (mem_children hi).2 ⟨by simp, hk⟩, ?_⟩
      rcases hb.1 rfl first (by simp) with h | h | h
      · exact h.2
      all_goals (have := h.1; rw [hk] at this; exact absurd this (by decide))
    cases hc : a.columns with
    | none => exact (this hc).elim
    | some c => simp

theorem parseCheck_accepts {s t : String} {n first : Node} {rest : List Node}
    (hi : inner n = some (first :: rest)) (hk : first.kind = "check") :
    (∃ v, parseCheck s t n = .ok v) ↔ n.kind = "constraint" ∧ n.name ≠ none ∧
      ∀ m ∈ first :: rest, IsText "check" m ∨ IsConstraintFlag m := by
  unfold parseCheck
  rw [readNode_accepts' (Q := fun ms => ∀ m ∈ ms, IsText "check" m ∨ IsConstraintFlag m)
    checkStep_accepts calm_checkStep]
  · rw [hi]; simp
  intro name ms a bad hi' hr hb
  rw [hi] at hi'; injection hi' with hi'; subst hi'
  have ha := stated_opt check_expression ((inner_eq n).symm.trans hi) hr rfl
  rw [← textOf_eq] at ha
  unfold finishCheck
  rw [← hb]
  cases bad with
  | true => cases a.expression <;> simp
  | false =>
    have : a.expression ≠ none := by
      rw [ha, stated_ne_none]
      refine ⟨first, (mem_children hi).2 ⟨by simp, hk⟩, ?_⟩
      rcases hb.1 rfl first (by simp) with h | h | h
      · exact h.2
      all_goals (have := h.1; rw [hk] at this; exact absurd this (by decide))
    cases hc : a.expression with
    | none => exact (this hc).elim
    | some c => simp

theorem parseUnique_accepts {s t : String} {n first : Node} {rest : List Node}
    (hi : inner n = some (first :: rest)) (hk : first.kind = "unique") :
    (∃ v, parseUnique s t n = .ok v) ↔ n.kind = "constraint" ∧ n.name ≠ none ∧
      (∀ m ∈ first :: rest, IsTexts "unique" m ∨ IsConstraintFlag m) ∧
      stated n "unique" textsOf ≠ some [] := by
  unfold parseUnique
  rw [readNode_accepts' (Q := fun ms => (∀ m ∈ ms, IsTexts "unique" m ∨ IsConstraintFlag m) ∧
      stated n "unique" textsOf ≠ some [])
    uniqueStep_accepts calm_uniqueStep]
  · rw [hi]; simp
  intro name ms a bad hi' hr hb
  rw [hi] at hi'; injection hi' with hi'; subst hi'
  have ha := stated_of_gives unique_columns ((inner_eq n).symm.trans hi) hr
  rw [← textsOf_eq] at ha
  unfold finishUnique
  rw [← hb]
  cases bad with
  | true => cases a.columns <;> simp
  | false =>
    have : stated n "unique" textsOf ≠ none := by
      rw [stated_ne_none]
      refine ⟨first, (mem_children hi).2 ⟨by simp, hk⟩, ?_⟩
      rcases hb.1 rfl first (by simp) with h | h | h
      · exact h.2
      all_goals (have := h.1; rw [hk] at this; exact absurd this (by decide))
    cases hc : stated n "unique" textsOf with
    | none => exact (this hc).elim
    | some c =>
      rw [hc] at ha
      simp only [Option.getD_some] at ha
      rw [ha]
      cases c <;> simp

theorem filterMap_eq {α β : Type} {f g : α → Option β} : ∀ {l : List α}, (∀ a ∈ l, f a = g a) →
    l.filterMap f = l.filterMap g
  | [], _ => rfl
  | a :: l, h => by
    rw [List.filterMap_cons, List.filterMap_cons, h a (by simp),
      filterMap_eq fun b hb => h b (List.mem_cons_of_mem _ hb)]

theorem exists_cons {α : Type} {a : α} {l : List α} {P : α → List α → Prop} :
    (∃ b m, some (a :: l) = some (b :: m) ∧ P b m) ↔ P a l := by
  constructor
  · rintro ⟨b, m, h, hp⟩
    injection h with h; injection h with h1 h2; subst h1 h2; exact hp
  · exact fun h => ⟨a, l, rfl, h⟩

theorem target_accepts {s : String} {m : Node} (h : IsReference s m) :
    ∃ t, target s m = some t ∧ textsOf m = some t.2 := by
  obtain ⟨_, name, v, r, h1, h2⟩ := isReference_iff.1 h
  rw [coerceNameVarargs_eq] at h1
  have h1 := orErr_ok h1
  unfold target
  rw [h1]
  simp only [h2]
  refine ⟨_, rfl, ?_⟩
  rw [textsOf_eq]
  unfold named at h1
  split at h1
  · next hv => injection h1 with h1; injection h1 with _ h1; rw [hv, h1]
  · cases h1

theorem parseForeignKey_accepts {s t : String} {n first : Node} {rest : List Node}
    (hi : inner n = some (first :: rest)) (hk : first.kind = "foreign key") :
    (∃ v, parseForeignKey s t n = .ok v) ↔ n.kind = "constraint" ∧ n.name ≠ none ∧
      (∀ m ∈ first :: rest, IsTexts "foreign key" m ∨ IsReference s m ∨ IsConstraintFlag m ∨
          IsText "match" m ∨ IsText "on update" m ∨ IsText "on delete" m) ∧
      ∃ cols, stated n "references" textsOf = some cols ∧ cols ≠ [] := by
  unfold parseForeignKey
  rw [readNode_accepts' (Q := fun ms => (∀ m ∈ ms, IsTexts "foreign key" m ∨ IsReference s m ∨
        IsConstraintFlag m ∨ IsText "match" m ∨ IsText "on update" m ∨ IsText "on delete" m) ∧
      ∃ cols, stated n "references" textsOf = some cols ∧ cols ≠ [])
    (foreignKeyStep_accepts s) (calm_foreignKeyStep s)]
  · rw [hi]; simp
  intro name ms a bad hi' hr hb
  rw [hi] at hi'; injection hi' with hi'; subst hi'
  have hn := (inner_eq n).symm.trans hi
  have k1 := stated_opt (foreignKey_columns s) hn hr rfl
  have k2 := stated_of_gives (foreignKey_target s) hn hr
  rw [← textsOf_eq] at k1
  unfold finishForeignKey
  rw [← hb]
  cases bad with
  | true => simp
  | false =>
    have hall := hb.1 rfl
    have h1 : a.columns ≠ none := by
      rw [k1, stated_ne_none]
      refine ⟨first, (mem_children hi).2 ⟨by simp, hk⟩, ?_⟩
      rcases hb.1 rfl first (by simp) with h | h | h | h | h | h
      · exact h.2
      · have := h.1; rw [hk] at this; exact absurd this (by decide)
      · rcases h with h | h <;> (have := h.1; rw [hk] at this; exact absurd this (by decide))
      all_goals (have := h.1; rw [hk] at this; exact absurd this (by decide))
    have h2 : ∀ m ∈ childrenOf n "references", ∃ t, target s m = some t ∧ textsOf m = some t.2 := by
      intro m hm
      obtain ⟨hm, hmk⟩ := (mem_children hi).1 hm
      rcases hall m hm with h | h | h | h | h | h
      · have := h.1; rw [hmk] at this; exact absurd this (by decide)
      · exact target_accepts h
      · rcases h with h | h <;> (have := h.1; rw [hmk] at this; exact absurd this (by decide))
      all_goals (have := h.1; rw [hmk] at this; exact absurd this (by decide))
    have h3 : stated n "references" (fun m => (target s m).map fun t => (some t.1, t.2)) =
        (stated n "references" (target s)).map fun t => (some t.1, t.2) := by
      unfold stated
      rw [← List.getLast?_map, List.map_filterMap]
    have h4 : stated n "references" textsOf = (stated n "references" (target s)).map Prod.snd := by
      unfold stated
      rw [← List.getLast?_map, List.map_filterMap]
      congr 1
      refine filterMap_eq fun m hm => ?_
      obtain ⟨t, e1, e2⟩ := h2 m hm
      rw [e1, e2]; rfl
    rw [h3] at k2
    rw [h4]
    cases hc : a.columns with
    | none => exact (h1 hc).elim
    | some c =>
      cases ht : stated n "references" (target s) with
      | none =>
        rw [ht] at k2
        injection k2 with e1 e2
        rw [e1, e2]
        simp
      | some x =>
        rw [ht] at k2
        injection k2 with e1 e2
        rw [e1, e2]
        obtain ⟨⟨x1, x2⟩, x3⟩ := x
        cases x3 <;> simp

theorem parseConstraint_accepts {s t : String} {n : Node} (hkind : n.kind = "constraint") :
    (∃ c, parseConstraint s t n = .ok c) ↔ ConstraintAccepted s n := by
  unfold parseConstraint ConstraintAccepted coerceNodes
  rw [← inner_eq]
  cases hi : inner n with
  | none => simp [orErr]
  | some ms =>
    cases ms with
    | nil => simp [orErr]
    | cons first rest =>
      simp only [orErr]
      by_cases h1 : first.kind = "primary key"
      · rw [if_pos h1]
        have := parsePrimaryKey_accepts (s := s) (t := t) hi h1
        exact Iff.trans (b := ∃ v, parsePrimaryKey s t n = .ok v) (by cases parsePrimaryKey s t n <;> simp)
          (this.trans (by rw [exists_cons]; simp [hkind, h1]))
      rw [if_neg h1]
      by_cases h2 : first.kind = "unique"
      · rw [if_pos h2]
        have := parseUnique_accepts (s := s) (t := t) hi h2
        exact Iff.trans (b := ∃ v, parseUnique s t n = .ok v) (by cases parseUnique s t n <;> simp)
          (this.trans (by rw [exists_cons]; simp [hkind, h2]))
      rw [if_neg h2]
      by_cases h3 : first.kind = "foreign key"
      · rw [if_pos h3]
        have := parseForeignKey_accepts (s := s) (t := t) hi h3
        exact Iff.trans (b := ∃ v, parseForeignKey s t n = .ok v) (by cases parseForeignKey s t n <;> simp)
          (this.trans (by rw [exists_cons]; simp [hkind, h3]))
      rw [if_neg h3]
      by_cases h4 : first.kind = "check"
      · rw [if_pos h4]
        have := parseCheck_accepts (s := s) (t := t) hi h4
        exact Iff.trans (b := ∃ v, parseCheck s t n = .ok v) (by cases parseCheck s t n <;> simp)
          (this.trans (by rw [exists_cons]; simp [hkind, h4]))
      rw [if_neg h4]
      rw [exists_cons]
      simp [h1, h2, h3, h4]

/-! ### Tables and schemas -/

theorem map_ok_exists {α β : Type} {f : α → Except Fail β} : ∀ {xs : List α},
    (∃ ys : List β, xs.map f = ys.map .ok) ↔ ∀ x ∈ xs, ∃ y, f x = .ok y
  | [] => by simp
  | x :: xs => by
    rw [List.forall_mem_cons, ← map_ok_exists (xs := xs)]
    constructor
    · rintro ⟨ys, h⟩
      cases ys with
      | nil => simp at h
      | cons y ys =>
        simp only [List.map_cons, List.cons.injEq] at h
        exact ⟨⟨y, h.1⟩, ys, h.2⟩
    · rintro ⟨⟨y, h1⟩, ys, h2⟩
      exact ⟨y :: ys, by simp [h1, h2]⟩

theorem nodup_some_iff {α : Type} {xs : List α} {f : α → String} :
    (xs.map fun c => some (f c)).Nodup ↔ (xs.map f).Nodup := by
  refine ⟨nodup_some, fun h => ?_⟩
  have : (xs.map fun c => some (f c)) = (xs.map f).map some := by rw [List.map_map]; rfl
  rw [this]
  unfold List.Nodup
  rw [List.pairwise_map]
  exact h.imp fun h e => h (by injection e)

theorem tableItem_accepts {s t : String} {m : Node} :
    (∃ x, tableItem s t m = .ok x) ↔ ColumnAccepted m ∨ ConstraintAccepted s m := by
  constructor
  · rintro ⟨x, h⟩
    cases x with
    | inl c => exact .inl (parseColumn_accepts.1 ⟨c, (tableItem_inl.1 h).2⟩)
    | inr c =>
      obtain ⟨hk, h⟩ := tableItem_inr.1 h
      exact .inr ((parseConstraint_accepts hk).1 ⟨c, h⟩)
  · rintro (h | h)
    · obtain ⟨c, hc⟩ := parseColumn_accepts (s := s) (t := t).2 h
      exact ⟨_, tableItem_inl.2 ⟨h.1, hc⟩⟩
    · obtain ⟨c, hc⟩ := (parseConstraint_accepts (t := t) h.1).2 h
      exact ⟨_, tableItem_inr.2 ⟨h.1, hc⟩⟩

theorem parseTable_accepts {s : String} {n : Node} :
    (∃ t, parseTable s n = .ok t) ↔ TableAccepted s n := by
  unfold TableAccepted
  constructor
  · rintro ⟨t, h⟩
    obtain ⟨hk, name, ns, xs, hname, hn, hx, h1, h2, rfl⟩ := parseTable_ok_iff.1 h
    obtain ⟨n1, n2⟩ := table_names hx
    refine ⟨hk, by rw [hname]; simp, ns, (inner_eq n).trans hn, ?_, ?_, ?_⟩
    · intro m hm
      obtain ⟨x, _, e⟩ := map_ok_mem' hx hm
      exact tableItem_accepts.1 ⟨x, e⟩
    · rw [childrenOf_eq hn, n1]; exact nodup_some_iff.2 h1
    · rw [childrenOf_eq hn, n2]; exact nodup_some_iff.2 h2
  · rintro ⟨hk, hname, ns, hi, hm, h1, h2⟩
    have hn := (inner_eq n).symm.trans hi
    cases hname' : n.name with
    | none => exact (hname hname').elim
    | some name =>
      obtain ⟨xs, hx⟩ := map_ok_exists.2 fun m hm' => tableItem_accepts (t := name).2 (hm m hm')
      obtain ⟨n1, n2⟩ := table_names hx
      rw [childrenOf_eq hn, n1] at h1
      rw [childrenOf_eq hn, n2] at h2
      exact ⟨_, parseTable_ok_iff.2 ⟨hk, name, ns, xs, hname', hn, hx, nodup_some_iff.1 h1,
        nodup_some_iff.1 h2, rfl⟩⟩

theorem map_accepts {α β : Type} {x : Except Fail α} {f : α → β} :
    (∃ b, x.map f = .ok b) ↔ ∃ a, x = .ok a := by
  cases x <;> simp [Except.map]

theorem schemaItem_accepts {s : String} {m : Node} : (∃ x, schemaItem s m = .ok x) ↔
    TableAccepted s m ∨ ViewAccepted m ∨ SequenceAccepted m ∨ IndexAccepted m ∨ FunctionAccepted m := by
  have k1 : TableAccepted s m → m.kind = "table" := fun h => h.1
  have k2 : ViewAccepted m → m.kind = "view" := fun h => h.1
  have k3 : SequenceAccepted m → m.kind = "sequence" := fun h => h.1
  have k4 : IndexAccepted m → m.kind = "index" := fun h => h.1
  have k5 : FunctionAccepted m → m.kind = "function" := fun h => h.1
  rw [← parseTable_accepts] at *
  rw [← parseView_accepts (s := s)] at *
  rw [← parseSequence_accepts (s := s)] at *
  rw [← parseIndex_accepts (s := s)] at *
  rw [← parseFunction_accepts (s := s)] at *
  unfold schemaItem
  by_cases h1 : m.kind = "table"
  · rw [if_pos h1, map_accepts]
    rw [h1] at k2 k3 k4 k5
    simp only [String.reduceEq, imp_false] at k2 k3 k4 k5
    simp only [k2, k3, k4, k5, or_false]
  rw [if_neg h1]
  simp only [h1, imp_false] at k1
  by_cases h2 : m.kind = "view"
  · rw [if_pos h2, map_accepts]
    rw [h2] at k3 k4 k5
    simp only [String.reduceEq, imp_false] at k3 k4 k5
    simp only [k1, k3, k4, k5, or_false, false_or]
  rw [if_neg h2]
  simp only [h2, imp_false] at k2
  by_cases h3 : m.kind = "sequence"
  · rw [if_pos h3, map_accepts]
    rw [h3] at k4 k5
    simp only [String.reduceEq, imp_false] at k4 k5
    simp only [k1, k2, k4, k5, or_false, false_or]
  rw [if_neg h3]
  simp only [h3, imp_false] at k3
  by_cases h4 : m.kind = "index"
  · rw [if_pos h4, map_accepts]
    rw [h4] at k5
    simp only [String.reduceEq, imp_false] at k5
    simp only [k1, k2, k3, k5, or_false, false_or]
  rw [if_neg h4]
  simp only [h4, imp_false] at k4
  by_cases h5 : m.kind = "function"
  · rw [if_pos h5, map_accepts]
    simp only [k1, k2, k3, k4, or_false, false_or]
  rw [if_neg h5]
  simp only [h5, imp_false] at k5
  simp only [k1, k2, k3, k4, k5, or_false, false_or]
  simp

theorem parseSchema_accepts {n : Node} : (∃ t, parseSchema n = .ok t) ↔ SchemaAccepted n := by
  unfold SchemaAccepted
  constructor
  · rintro ⟨t, h⟩
    obtain ⟨hk, name, ns, xs, hname, hn, hx, h1, h2, rfl⟩ := parseSchema_ok_iff.1 h
    obtain ⟨n1, n2⟩ := schema_names hx
    refine ⟨hk, name, hname, ns, (inner_eq n).trans hn, ?_, ?_, ?_⟩
    · intro m hm
      obtain ⟨x, _, e⟩ := map_ok_mem' hx hm
      exact schemaItem_accepts.1 ⟨x, e⟩
    · rw [n1]; exact nodup_some_iff.2 h1
    · rw [childrenOf_eq hn, n2]; exact nodup_some_iff.2 h2
  · rintro ⟨hk, name, hname, ns, hi, hm, h1, h2⟩
    have hn := (inner_eq n).symm.trans hi
    obtain ⟨xs, hx⟩ := map_ok_exists.2 fun m hm' => schemaItem_accepts.2 (hm m hm')
    obtain ⟨n1, n2⟩ := schema_names hx
    rw [n1] at h1
    rw [childrenOf_eq hn, n2] at h2
    exact ⟨_, parseSchema_ok_iff.2 ⟨hk, name, ns, xs, hname, hn, hx, nodup_some_iff.1 h1,
      nodup_some_iff.1 h2, rfl⟩⟩

/-! ### Files -/

theorem clash_iff {a b : Node} {s t : Schema} (ha : parseSchema a = .ok s) (hb : parseSchema b = .ok t) :
    DefinitionsClash s t ↔ PartsClash a b := by
  obtain ⟨_, name, ns, xs, hname, hn, hx, h1, h2, rfl⟩ := parseSchema_ok_iff.1 ha
  obtain ⟨_, name', ns', xs', hname', hn', hx', h1', h2', rfl⟩ := parseSchema_ok_iff.1 hb
  unfold DefinitionsClash PartsClash
  rw [hname, hname', inner_eq, inner_eq, hn, hn']
  dsimp only
  rw [Option.some.injEq]
  refine and_congr_right fun _ => ?_
  rw [keys_of_map, keys_of_map, keys_of_map, keys_of_map]
  constructor
  · rintro (⟨r, hr, hr'⟩ | ⟨r, hr, hr'⟩)
    · obtain ⟨x, hxm, rfl⟩ := List.mem_map.1 hr
      obtain ⟨y, hym, e⟩ := List.mem_map.1 hr'
      obtain ⟨m, hm, em⟩ := map_ok_mem hx (mem_lefts.1 hxm)
      obtain ⟨m', hm', em'⟩ := map_ok_mem hx' (mem_lefts.1 hym)
      have e1 := schemaItem_name em
      have e2 := schemaItem_name em'
      dsimp only at e1 e2
      exact ⟨ns, ns', m, m', rfl, rfl, hm, hm', by rw [e1.2, e2.2, e], by simp [e1.1, e2.1]⟩
    · obtain ⟨x, hxm, rfl⟩ := List.mem_map.1 hr
      obtain ⟨y, hym, e⟩ := List.mem_map.1 hr'
      obtain ⟨m, hm, em⟩ := map_ok_mem hx (mem_rights.1 hxm)
      obtain ⟨m', hm', em'⟩ := map_ok_mem hx' (mem_rights.1 hym)
      have e1 := schemaItem_name em
      have e2 := schemaItem_name em'
      dsimp only at e1 e2
      exact ⟨ns, ns', m, m', rfl, rfl, hm, hm', by rw [e1.2, e2.2, e], by simp [e1.1, e2.1]⟩
  · rintro ⟨as, bs, x, y, e1, e2, hxa, hyb, en, ek⟩
    injection e1 with e1; injection e2 with e2; subst e1 e2
    obtain ⟨u, hu, eu⟩ := map_ok_mem' hx hxa
    obtain ⟨v, hv, ev⟩ := map_ok_mem' hx' hyb
    have e1 := schemaItem_name eu
    have e2 := schemaItem_name ev
    cases u with
    | inl r =>
      cases v with
      | inl r' =>
        dsimp only at e1 e2
        rw [e1.2, e2.2] at en; injection en with en
        exact .inl ⟨r.name, List.mem_map.2 ⟨r, mem_lefts.2 hu, rfl⟩, List.mem_map.2 ⟨r', mem_lefts.2 hv, en.symm⟩⟩
      | inr f => exact (e1.1 (ek.2 e2.1)).elim
    | inr f =>
      cases v with
      | inl r' => exact (e2.1 (ek.1 e1.1)).elim
      | inr g =>
        dsimp only at e1 e2
        rw [e1.2, e2.2] at en; injection en with en
        exact .inr ⟨f.name, List.mem_map.2 ⟨f, mem_rights.2 hu, rfl⟩, List.mem_map.2 ⟨g, mem_rights.2 hv, en.symm⟩⟩

theorem pairwise_clash {ns : List Node} {ss : List Schema} (h : ns.map parseSchema = ss.map .ok) :
    ss.Pairwise (fun a b => ¬ DefinitionsClash a b) ↔ ns.Pairwise (fun a b => ¬ PartsClash a b) := by
  induction ns generalizing ss with
  | nil =>
    have : ss = [] := by simpa using h.symm
    subst this; simp
  | cons n ns ih =>
    cases ss with
    | nil => simp at h
    | cons s ss =>
      simp only [List.map_cons, List.cons.injEq] at h
      rw [List.pairwise_cons, List.pairwise_cons, ih h.2]
      refine and_congr_left fun _ => ?_
      constructor
      · intro hh m hm
        obtain ⟨t, ht, e⟩ := map_ok_mem' h.2 hm
        rw [← clash_iff h.1 e]; exact hh t ht
      · intro hh t ht
        obtain ⟨m, hm, e⟩ := map_ok_mem h.2 ht
        rw [clash_iff h.1 e]; exact hh m hm

theorem parseDoc_accepts {y : Yaml} : (∃ ss, parseDoc y = .ok ss) ↔
    ∃ ns, FileSays y ns ∧ ∀ n ∈ ns, SchemaAccepted n := by
  constructor
  · rintro ⟨ss, h⟩
    refine ⟨fileNodes y, parseDoc_says h, fun n hn => ?_⟩
    obtain ⟨s, _, e⟩ := map_ok_mem' (parseDoc_nodes h) hn
    exact parseSchema_accepts.1 ⟨s, e⟩
  · rintro ⟨ns, h, hn⟩
    obtain ⟨ks, vs, rfl, e⟩ := fileSays_iff.1 h
    obtain ⟨ss, hs⟩ := map_ok_exists.2 fun n hn' => parseSchema_accepts.2 (hn n hn')
    refine ⟨ss, ?_⟩
    unfold parseDoc
    simp only [e, parseSchemas_iff.2 hs]

theorem loadDoc_accepts {y : Yaml} : (∃ d, loadDoc y = .ok d) ↔
    ∃ ns, FileSays y ns ∧ (∀ n ∈ ns, SchemaAccepted n) ∧ ns.Pairwise fun a b => ¬ PartsClash a b := by
  constructor
  · rintro ⟨d, h⟩
    obtain ⟨ss, h1, h2⟩ := loadDoc_iff.1 h
    have hp := parseDoc_nodes h1
    refine ⟨fileNodes y, parseDoc_says h1, fun n hn => ?_, ?_⟩
    · obtain ⟨s, _, e⟩ := map_ok_mem' hp hn
      exact parseSchema_accepts.1 ⟨s, e⟩
    · rw [← pairwise_clash hp]
      exact ((addSchemas_ok_iff ss Database.new [] holds_new (parseDoc_wf h1)).1.1 ⟨d, h2⟩).2
  · rintro ⟨ns, h, hn, hc⟩
    obtain ⟨ss, hs⟩ := parseDoc_accepts.2 ⟨ns, h, hn⟩
    have hp := parseDoc_nodes hs
    rw [← fileSays_nodes h] at hc
    obtain ⟨d, hd⟩ := (addSchemas_ok_iff ss Database.new [] holds_new (parseDoc_wf hs)).1.2
      ⟨by simp, (pairwise_clash hp).2 hc⟩
    exact ⟨d, loadDoc_iff.2 ⟨ss, hs, hd⟩⟩

end Def
end Podo
