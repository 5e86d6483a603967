import Verif.Proofs.NodeSpec
/-
Lemmas about the text operations; reading back column expressions, table references and keys.
-/
set_option linter.unusedSimpArgs false
namespace Podo
namespace Text

theorem dropWhile_head {p : Char → Bool} {cs : List Char} {c : Char}
    (h : (cs.dropWhile p).head? = some c) : p c = false := by
  induction cs with
  | nil => simp at h
  | cons a t ih =>
    rw [List.dropWhile_cons] at h
    by_cases ha : p a = true
    · rw [if_pos ha] at h; exact ih h
    · rw [if_neg ha] at h
      simp at h
      subst h; simpa using ha

theorem dropWhile_eq_self {p : Char → Bool} {cs : List Char}
    (h : ∀ c, cs.head? = some c → p c = false) : cs.dropWhile p = cs := by
  cases cs with
  | nil => rfl
  | cons a t =>
    rw [List.dropWhile_cons, if_neg]
    rw [h a rfl]; simp

theorem trim_mem {cs : List Char} {c : Char} (h : c ∈ trim cs) : c ∈ cs := by
  unfold trim at h
  rw [List.mem_reverse] at h
  have h1 := (List.dropWhile_suffix isWs).subset h
  rw [List.mem_reverse] at h1
  exact (List.dropWhile_suffix isWs).subset h1

theorem trim_last {cs : List Char} {c : Char} (h : (trim cs).getLast? = some c) :
    isWs c = false := by
  unfold trim at h
  rw [List.getLast?_reverse] at h
  exact dropWhile_head h

theorem trim_head {cs : List Char} {c : Char} (h : (trim cs).head? = some c) :
    isWs c = false := by
  have hp : trim cs <+: cs.dropWhile isWs := by
    unfold trim
    rw [← List.reverse_suffix, List.reverse_reverse]
    exact List.dropWhile_suffix isWs
  obtain ⟨t, ht⟩ := hp
  cases htr : trim cs with
  | nil => rw [htr] at h; simp at h
  | cons a r =>
    rw [htr] at h ht
    apply dropWhile_head (p := isWs) (cs := cs) (c := c)
    rw [← ht]
    simpa using h

theorem trim_self {cs : List Char} (hh : ∀ c, cs.head? = some c → isWs c = false)
    (hl : ∀ c, cs.getLast? = some c → isWs c = false) : trim cs = cs := by
  unfold trim
  rw [dropWhile_eq_self hh, dropWhile_eq_self, List.reverse_reverse]
  intro c hc
  rw [List.head?_reverse] at hc
  exact hl c hc

theorem trim_snoc_ws {cs : List Char} {w : Char} (hw : isWs w = true) :
    trim (cs ++ [w]) = trim cs := by
  unfold trim
  rw [List.dropWhile_append]
  by_cases he : (cs.dropWhile isWs).isEmpty = true
  · rw [if_pos he]
    have he' : cs.dropWhile isWs = [] := by simpa using he
    rw [he']
    simp [List.dropWhile_cons, hw]
  · rw [if_neg he]
    simp [List.dropWhile_cons, hw]

theorem trim_cons_ws {cs : List Char} {w : Char} (hw : isWs w = true) :
    trim (w :: cs) = trim cs := by
  unfold trim
  rw [List.dropWhile_cons, if_pos hw]

theorem dropWhile_nil {p : Char → Bool} {cs : List Char} (h : cs.dropWhile p = []) :
    ∀ c ∈ cs, p c = true := by
  induction cs with
  | nil => intro c hc; cases hc
  | cons a t ih =>
    rw [List.dropWhile_cons] at h
    by_cases ha : p a = true
    · rw [if_pos ha] at h
      intro c hc
      rcases List.mem_cons.mp hc with rfl | hc
      · exact ha
      · exact ih h c hc
    · rw [if_neg ha] at h; cases h

theorem trim_eq_nil {cs : List Char} (h : trim cs = []) : ∀ c ∈ cs, isWs c = true := by
  unfold trim at h
  rw [List.reverse_eq_nil_iff] at h
  have h1 : ∀ c ∈ (cs.dropWhile isWs).reverse, isWs c = true := dropWhile_nil h
  have h2 : cs.dropWhile isWs = [] := by
    cases hd : cs.dropWhile isWs with
    | nil => rfl
    | cons a t =>
      have ha : isWs a = false := dropWhile_head (cs := cs) (by rw [hd]; rfl)
      have : isWs a = true := h1 a (by rw [hd]; simp)
      rw [ha] at this; cases this
  exact dropWhile_nil h2

end Text

namespace Def
open Text

theorem Trimmed.trim {s : String} (h : Trimmed s) : trim s.toList = s.toList :=
  trim_self (trimmed_ws.1 h).1 (trimmed_ws.1 h).2

theorem trimmed_trim (cs : List Char) : Trimmed (String.ofList (trim cs)) := by
  rw [trimmed_ws]
  constructor
  · intro c hc
    rw [String.toList_ofList] at hc
    exact trim_head hc
  · intro c hc
    rw [String.toList_ofList] at hc
    exact trim_last hc

theorem trimmed_iff {s : String} : Trimmed s ↔ Text.trim s.toList = s.toList := by
  constructor
  · exact Trimmed.trim
  · intro h
    have := trimmed_trim s.toList
    rwa [h, String.ofList_toList] at this

theorem trimmed_empty : Trimmed "" := by
  constructor <;> (intro c h; simp at h)

/-! ### Column expressions -/

/-- What the default part of an expression gives, after the equals sign. -/
theorem parseColumnExpr_props {i : List Char} {t : List Char} {nn : Bool} {d : Option (List Char)}
    (h : parseColumnExpr i = .ok (t, nn, d)) :
    ('=' ∉ t ∧ '!' ∉ t) ∧ Trimmed (String.ofList t) ∧
      ∀ x, d = some x → Trimmed (String.ofList x) ∧ '\n' ∉ x := by
  have key : ∀ ty : List Char, (∀ c ∈ ty, (c != '=' && c != '!') = true) →
      ('=' ∉ Text.trim ty ∧ '!' ∉ Text.trim ty) := by
    intro ty hty
    constructor
    · intro hm
      have := hty _ (trim_mem hm)
      simp at this
    · intro hm
      have := hty _ (trim_mem hm)
      simp at this
  have hmem : ∀ c ∈ i.takeWhile (fun c : Char => c != '=' && c != '!'),
      (c != '=' && c != '!') = true := by
    intro c hc
    exact List.all_eq_true.mp (List.all_takeWhile (l := i)) c hc
  have hk := key _ hmem
  unfold parseColumnExpr at h
  simp only at h
  split at h
  · cases h
  · split at h
    · cases h
      exact ⟨hk, trimmed_trim _, fun x hx => by cases hx⟩
    · split at h
      · split at h
        · split at h
          · cases h
          · split at h
            · cases h
            · cases h
              refine ⟨hk, trimmed_trim _, fun x hx => ?_⟩
              cases hx
              exact ⟨trimmed_empty, by simp⟩
        · split at h
          · cases h
          · next hb =>
            cases h
            refine ⟨hk, trimmed_trim _, fun x hx => ?_⟩
            cases hx
            exact ⟨trimmed_trim _, fun hm => hb (trim_mem hm)⟩
      · cases h

/-- Reading what follows the type and the exclamation mark. -/
theorem parseColumnExpr_run {ty rest : List Char} (hty : ∀ c ∈ ty, (c != '=' && c != '!') = true)
    (hr : ∀ c, rest.head? = some c → (c != '=' && c != '!') = false) :
    (ty ++ rest).takeWhile (fun c : Char => c != '=' && c != '!') = ty ∧
    (ty ++ rest).dropWhile (fun c : Char => c != '=' && c != '!') = rest := by
  constructor
  · rw [List.takeWhile_append_of_pos hty]
    cases rest with
    | nil => simp
    | cons a t =>
      rw [List.takeWhile_cons, if_neg (by rw [hr a rfl]; simp)]
      simp
  · rw [List.dropWhile_append_of_pos hty]
    exact dropWhile_eq_self hr

theorem ws_space : isWs ' ' = true := by decide

theorem parse_default {d : String} (hd : Trimmed d) (hn : '\n' ∉ d.toList)
    {t : List Char} {nn : Bool} :
    (match (' ' :: d.toList).dropWhile isWs with
      | [] =>
        match (' ' :: d.toList).getLast? with
        | none => (.error .error : Except Fail (List Char × Bool × Option (List Char)))
        | some c => if c = '\n' then .error .error else .ok (t, nn, some [])
      | b => if '\n' ∈ b then .error .error else .ok (t, nn, some (Text.trim b)))
      = .ok (t, nn, some d.toList) := by
  rw [List.dropWhile_cons, if_pos ws_space, dropWhile_eq_self (trimmed_ws.1 hd).1]
  cases hl : d.toList with
  | nil => simp
  | cons a r =>
    rw [hl] at hn
    simp only [if_neg hn]
    rw [← hl, hd.trim]

theorem parseColumnExpr_ok {ty : String} {nn : Bool} {d : Option String} (h : ExprOk ty nn d) :
    parseColumnExpr (renderColumnExpr ty nn d).toList
      = .ok (ty.toList, nn, d.map String.toList) := by
  obtain ⟨h1, h2, h3, h4, h5⟩ := h
  have hty : ∀ c ∈ ty.toList, (c != '=' && c != '!') = true := by
    intro c hc
    have a : c ≠ '=' := fun e => h1 (e ▸ hc)
    have b : c ≠ '!' := fun e => h2 (e ▸ hc)
    simp [a, b]
  have htne : ty ≠ "" → ty.toList ≠ [] := by
    intro hn e
    apply hn
    rw [← String.ofList_toList (s := ty), e]
  cases nn with
  | true =>
    have hne : ty.toList ≠ [] := htne (by
      rcases h4 with h | h
      · exact h
      · exact absurd h.1 (by simp))
    cases d with
    | none =>
      have e : (renderColumnExpr ty true none).toList = ty.toList ++ ['!'] := by
        simp [renderColumnExpr]
      rw [e]
      unfold parseColumnExpr
      simp only []
      obtain ⟨r1, r2⟩ := parseColumnExpr_run (rest := ['!']) hty (by intro c hc; simp at hc; subst hc; rfl)
      rw [r1, r2]
      simp [hne, h3.trim]
    | some d =>
      have e : (renderColumnExpr ty true (some d)).toList
          = ty.toList ++ '!' :: ' ' :: '=' :: ' ' :: d.toList := by
        simp [renderColumnExpr]
      rw [e]
      unfold parseColumnExpr
      simp only []
      obtain ⟨r1, r2⟩ := parseColumnExpr_run (rest := '!' :: ' ' :: '=' :: ' ' :: d.toList) hty
        (by intro c hc; simp at hc; subst hc; rfl)
      rw [r1, r2, if_neg hne, h3.trim]
      have hd := h5 d rfl
      have hx : (' ' :: '=' :: ' ' :: d.toList).dropWhile isWs = '=' :: ' ' :: d.toList := by
        rw [List.dropWhile_cons, if_pos ws_space, List.dropWhile_cons, if_neg (by decide)]
      simp only [List.head?_cons, List.tail_cons, if_true, hx, decide_true]
      exact parse_default hd.1 hd.2
  | false =>
    cases d with
    | none =>
      have hne : ty.toList ≠ [] := htne (by
        rcases h4 with h | h
        · exact h
        · exact absurd rfl h.2)
      have e : (renderColumnExpr ty false none).toList = ty.toList ++ [] := by
        simp [renderColumnExpr]
      rw [e]
      unfold parseColumnExpr
      simp only []
      obtain ⟨r1, r2⟩ := parseColumnExpr_run (rest := []) hty (by intro c hc; simp at hc)
      rw [r1, r2]
      simp [hne, h3.trim]
    | some d =>
      have e : (renderColumnExpr ty false (some d)).toList
          = (ty.toList ++ [' ']) ++ '=' :: ' ' :: d.toList := by
        simp [renderColumnExpr]
      rw [e]
      unfold parseColumnExpr
      simp only []
      obtain ⟨r1, r2⟩ := parseColumnExpr_run (ty := ty.toList ++ [' ']) (rest := '=' :: ' ' :: d.toList)
        (by
          intro c hc
          rcases List.mem_append.mp hc with h | h
          · exact hty c h
          · simp at h; subst h; rfl)
        (by intro c hc; simp at hc; subst hc; rfl)
      rw [r1, r2, if_neg (by simp), trim_snoc_ws ws_space, h3.trim]
      have hd := h5 d rfl
      have hx : ('=' :: ' ' :: d.toList).dropWhile isWs = '=' :: ' ' :: d.toList := by
        rw [List.dropWhile_cons, if_neg (by decide)]
      have hh : decide (('=' :: ' ' :: d.toList).head? = some '!') = false := by simp
      simp only [hh, if_false, Bool.false_eq_true, hx]
      exact parse_default hd.1 hd.2

theorem parseColumnExpr_iff {ty : String} {nn : Bool} {d : Option String} :
    parseColumnExpr (renderColumnExpr ty nn d).toList = .ok (ty.toList, nn, d.map String.toList)
      ↔ ExprOk ty nn d := by
  constructor
  · intro h
    obtain ⟨⟨a, b⟩, c, e⟩ := parseColumnExpr_props h
    rw [String.ofList_toList] at c
    refine ⟨a, b, c, ?_, ?_⟩
    · by_cases hty : ty = ""
      · right
        subst hty
        cases nn with
        | true =>
          exfalso
          have : parseColumnExpr (renderColumnExpr "" true d).toList = .error .error := by
            cases d with
            | none => rfl
            | some d =>
              have e : (renderColumnExpr "" true (some d)).toList
                  = '!' :: ' ' :: '=' :: ' ' :: d.toList := by simp [renderColumnExpr]
              rw [e]
              unfold parseColumnExpr
              simp
          rw [this] at h; cases h
        | false =>
          refine ⟨rfl, ?_⟩
          intro hd
          subst hd
          have : parseColumnExpr (renderColumnExpr "" false none).toList = .error .error := rfl
          rw [this] at h; cases h
      · exact .inl hty
    · intro x hx
      subst hx
      have := e x.toList rfl
      rwa [String.ofList_toList] at this
  · exact parseColumnExpr_ok

/-! ### Table references -/

theorem splitDot_ne (cs : List Char) : splitDot cs ≠ [] := by
  cases cs with
  | nil => simp [splitDot]
  | cons c cs =>
    unfold splitDot
    split
    · simp
    · split <;> simp

theorem splitDot_none {cs : List Char} (h : '.' ∉ cs) : splitDot cs = [cs] := by
  induction cs with
  | nil => rfl
  | cons c cs ih =>
    simp only [List.mem_cons, not_or] at h
    unfold splitDot
    rw [if_neg (fun e => h.1 e.symm), ih h.2]

theorem splitDot_append {a : List Char} (h : '.' ∉ a) (b : List Char) :
    splitDot (a ++ '.' :: b) = a :: splitDot b := by
  induction a with
  | nil => simp [splitDot]
  | cons c cs ih =>
    simp only [List.mem_cons, not_or] at h
    rw [List.cons_append, splitDot, if_neg (fun e => h.1 e.symm), ih h.2]

/-- No part has a dot. -/
theorem splitDot_mem {cs p : List Char} (h : p ∈ splitDot cs) : '.' ∉ p := by
  induction cs generalizing p with
  | nil =>
    simp [splitDot] at h
    subst h; simp
  | cons c cs ih =>
    unfold splitDot at h
    split at h
    · rcases List.mem_cons.mp h with h | h
      · subst h; simp
      · exact ih h
    · next hc =>
      split at h
      · next he => exact absurd he (splitDot_ne cs)
      · next q qs he =>
        rcases List.mem_cons.mp h with h | h
        · subst h
          simp only [List.mem_cons, not_or]
          exact ⟨fun e => hc e.symm, ih (by rw [he]; simp)⟩
        · exact ih (by rw [he]; exact List.mem_cons_of_mem _ h)

theorem parseTableRef_dots {ctx i s t : String} (h : parseTableRef ctx i = .ok (s, t)) :
    '.' ∉ t.toList ∧ (s ≠ ctx → '.' ∉ s.toList) := by
  unfold parseTableRef at h
  split at h
  · next p hp =>
    cases h
    refine ⟨?_, fun h => absurd rfl h⟩
    rw [String.toList_ofList]
    exact splitDot_mem (by rw [hp]; simp)
  · next p q hp =>
    cases h
    rw [String.toList_ofList, String.toList_ofList]
    exact ⟨splitDot_mem (by rw [hp]; simp), fun _ => splitDot_mem (by rw [hp]; simp)⟩
  · cases h

theorem parseTableRef_iff {ctx s t : String} :
    parseTableRef ctx (renderTableRef ctx s t) = .ok (s, t) ↔ RefOk ctx s t := by
  constructor
  · exact parseTableRef_dots
  · intro ⟨h1, h2⟩
    unfold renderTableRef parseTableRef
    by_cases hs : s = ctx
    · rw [if_pos hs, splitDot_none h1]
      simp [hs, String.ofList_toList]
    · rw [if_neg hs]
      have : (s ++ "." ++ t).toList = s.toList ++ '.' :: t.toList := by simp
      rw [this, splitDot_append (h2 hs), splitDot_none h1]
      simp [String.ofList_toList]

end Def
end Podo
