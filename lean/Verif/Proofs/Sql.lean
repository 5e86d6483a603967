import Verif.Proofs.SqlEqns
set_option linter.unusedSimpArgs false
/-
Lemmas for C16-C18 and C56.
-/
namespace Podo
open Pg

theorem flatMap_escape {cs : List Char} (h : '"' ∉ cs) :
    (cs.flatMap fun c => if c = '"' then ['"', '"'] else [c]) = cs := by
  induction cs with
  | nil => rfl
  | cons c cs ih =>
    simp only [List.mem_cons, not_or] at h
    simp [ih h.2, Ne.symm h.1]

theorem quoted_plain {n : String} (h : plain n) : quoted n = Sql.qn n := by
  simp only [quoted, Sql.qn, plain] at *
  rw [flatMap_escape h, String.ofList_toList]

theorem qualified_plain {s n : String} (hs : plain s) (hn : plain n) :
    qualified s n = Sql.qa s n := by
  simp [qualified, Sql.qa, quoted_plain hs, quoted_plain hn]

theorem commaList_eq (xs : List String) : commaList xs = Sql.l xs := by
  simp only [Sql.l]
  induction xs with
  | nil => rfl
  | cons x xs ih =>
    cases xs with
    | nil => rfl
    | cons y ys => simp only [commaList, Sql.join, ih]

theorem commaList_quoted {xs : List String} (h : ∀ x ∈ xs, plain x) :
    commaList (xs.map quoted) = Sql.ql xs := by
  rw [commaList_eq, Sql.l, Sql.ql]
  congr 1
  exact List.map_congr_left fun x hx => quoted_plain (h x hx)

/-! ### Reading identifiers -/

theorem readQuotedRest_plain {cs rest : List Char} (h : '"' ∉ cs)
    (hr : rest.head? ≠ some '"') : readQuotedRest (cs ++ '"' :: rest) = some (cs, rest) := by
  induction cs with
  | nil =>
    cases rest with
    | nil => rfl
    | cons r rs =>
      simp only [List.head?_cons, ne_eq, Option.some.injEq] at hr
      simp only [List.nil_append]
      rw [readQuotedRest.eq_3]
      intro cs' e
      simp only [List.cons.injEq] at e
      exact hr e.1
  | cons c cs ih =>
    simp only [List.mem_cons, not_or] at h
    rw [List.cons_append, readQuotedRest.eq_4]
    · rw [ih h.2]; rfl
    · intro _ e; exact absurd e.symm h.1
    · intro e; exact absurd e.symm h.1

/-- Reading never invents: what is read, written back with doubled quotes, is the text. -/
theorem readQuotedRest_sound : ∀ (cs n rest : List Char), readQuotedRest cs = some (n, rest) →
    cs = (n.flatMap fun c => if c = '"' then ['"', '"'] else [c]) ++ '"' :: rest := by
  intro cs
  induction cs using readQuotedRest.induct with
  | case1 => intro n rest h; simp [readQuotedRest] at h
  | case2 cs ih =>
    intro n rest h
    simp only [readQuotedRest, Option.map_eq_some_iff] at h
    obtain ⟨⟨m, r⟩, h1, h2⟩ := h
    simp only [Prod.mk.injEq] at h2
    obtain ⟨rfl, rfl⟩ := h2
    rw [ih _ _ h1]
    simp
  | case3 cs hne =>
    intro n rest h
    rw [readQuotedRest.eq_3 _ (by intro x hx; exact hne x hx)] at h
    cases h
    rfl
  | case4 c cs h1 h2 ih =>
    intro n rest h
    rw [readQuotedRest.eq_4 _ _ h1 h2] at h
    simp only [Option.map_eq_some_iff] at h
    obtain ⟨⟨m, r⟩, h3, h4⟩ := h
    simp only [Prod.mk.injEq] at h4
    obtain ⟨rfl, rfl⟩ := h4
    rw [ih _ _ h3]
    have : c ≠ '"' := h2
    simp [this]

theorem escape_length (cs : List Char) :
    cs.length ≤ (cs.flatMap fun c => if c = '"' then ['"', '"'] else [c]).length := by
  induction cs with
  | nil => simp
  | cons c cs ih =>
    simp only [List.flatMap_cons, List.length_append, List.length_cons]
    split <;> simp only [List.length_cons, List.length_nil] <;> omega

theorem plain_of_escape_length {cs : List Char}
    (h : (cs.flatMap fun c => if c = '"' then ['"', '"'] else [c]).length ≤ cs.length) :
    '"' ∉ cs := by
  induction cs with
  | nil => simp
  | cons c cs ih =>
    have hl := escape_length cs
    simp only [List.flatMap_cons, List.length_append, List.length_cons] at h
    by_cases hc : c = '"'
    · simp only [hc, if_true, List.length_cons, List.length_nil] at h; omega
    · simp only [hc, if_false, List.length_singleton] at h
      simp only [List.mem_cons, not_or]
      exact ⟨fun e => hc e.symm, ih (by omega)⟩

theorem qn_toList (n : String) : (Sql.qn n).toList = '"' :: (n.toList ++ ['"']) := by
  simp [Sql.qn]

theorem readQuoted_some {cs rest : List Char} {n : String} (h : readQuoted cs = some (n, rest)) :
    n ≠ "" ∧ cs = '"' :: (n.toList.flatMap fun c => if c = '"' then ['"', '"'] else [c])
      ++ '"' :: rest := by
  simp only [readQuoted] at h
  split at h
  · rename_i cs'
    split at h
    · rename_i c m r hr
      simp only [Option.some.injEq, Prod.mk.injEq] at h
      obtain ⟨rfl, rfl⟩ := h
      refine ⟨?_, ?_⟩
      · intro e
        have := congrArg String.toList e
        simp at this
      · rw [readQuotedRest_sound _ _ _ hr]; simp
    · cases h
  · cases h

theorem readQuoted_plain {n : String} {rest : List Char} (hn : n ≠ "") (hp : plain n)
    (hr : rest.head? ≠ some '"') : readQuoted ('"' :: (n.toList ++ '"' :: rest)) = some (n, rest) := by
  have := readQuotedRest_plain hp hr
  simp only [readQuoted]
  rw [this]
  cases hc : n.toList with
  | nil =>
    exfalso; apply hn
    exact String.toList_inj.1 hc
  | cons c cs => simp only [← hc, String.ofList_toList]

theorem readName_iff (n : String) : readName (Sql.qn n) = some n ↔ n ≠ "" ∧ plain n := by
  simp only [readName, qn_toList]
  constructor
  · intro h
    split at h
    · rename_i m hm
      simp only [Option.some.injEq] at h
      subst h
      obtain ⟨h1, h2⟩ := readQuoted_some hm
      refine ⟨h1, ?_⟩
      apply plain_of_escape_length
      have := congrArg List.length h2
      simp only [List.length_cons, List.length_append, List.length_nil] at this
      omega
    · cases h
  · rintro ⟨h1, h2⟩
    rw [readQuoted_plain h1 h2 (by simp)]

theorem readQualified_iff (s t : String) : readQualified (Sql.qa s t) = some (s, t) ↔
    (s ≠ "" ∧ plain s) ∧ (t ≠ "" ∧ plain t) := by
  have e : (Sql.qa s t).toList = '"' :: (s.toList ++ '"' :: '.' :: '"' :: (t.toList ++ ['"'])) := by
    simp [Sql.qa, Sql.qn]
  simp only [readQualified, e]
  constructor
  · intro h
    split at h
    · rename_i s' rest hs
      split at h
      · rename_i t' ht
        simp only [Option.some.injEq, Prod.mk.injEq] at h
        obtain ⟨rfl, rfl⟩ := h
        obtain ⟨h1, h2⟩ := readQuoted_some hs
        obtain ⟨h3, h4⟩ := readQuoted_some ht
        rw [h4] at h2
        have := congrArg List.length h2
        simp only [List.length_cons, List.length_append, List.length_nil] at this
        have l1 := escape_length s'.toList
        have l2 := escape_length t'.toList
        exact ⟨⟨h1, plain_of_escape_length (by omega)⟩, h3, plain_of_escape_length (by omega)⟩
      · cases h
    · cases h
  · rintro ⟨⟨h1, h2⟩, h3, h4⟩
    rw [readQuoted_plain h1 h2 (by simp)]
    simp only
    rw [readQuoted_plain h3 h4 (by simp)]

/-- Reading the specification's own quoting gives the name back. -/
theorem readQuotedRest_escape (cs rest : List Char) (hr : rest.head? ≠ some '"') :
    readQuotedRest ((cs.flatMap fun c => if c = '"' then ['"', '"'] else [c]) ++ '"' :: rest)
      = some (cs, rest) := by
  induction cs with
  | nil => exact readQuotedRest_plain (by simp) hr
  | cons c cs ih =>
    by_cases hc : c = '"'
    · subst hc
      simp only [List.flatMap_cons, if_true, List.cons_append, List.nil_append]
      rw [readQuotedRest, ih]; rfl
    · simp only [List.flatMap_cons, hc, if_false, List.cons_append, List.nil_append]
      rw [readQuotedRest.eq_4 _ _ (fun _ e => absurd e hc) (fun e => hc e), ih]; rfl

theorem readName_quoted {n : String} (hn : n ≠ "") : readName (quoted n) = some n := by
  have e : (quoted n).toList = '"' :: ((n.toList.flatMap fun c => if c = '"' then ['"', '"'] else [c])
      ++ ['"']) := by simp [quoted]
  simp only [readName, e, readQuoted]
  rw [readQuotedRest_escape _ _ (by simp)]
  cases hc : n.toList with
  | nil =>
    exfalso; apply hn
    exact String.toList_inj.1 hc
  | cons c cs => simp only [← hc, String.ofList_toList]

/-! ### Long names -/

theorem fit_length (room : Nat) (cs : List Char) : (fit room cs).length ≤ cs.length := by
  induction cs generalizing room with
  | nil => simp [fit]
  | cons c cs ih =>
    rw [fit]
    split
    · simpa using ih _
    · simp

theorem fit_eq_of_length {room : Nat} {cs : List Char} (h : cs.length ≤ (fit room cs).length) :
    fit room cs = cs := by
  induction cs generalizing room with
  | nil => rfl
  | cons c cs ih =>
    rw [fit] at h ⊢
    split
    · next hc =>
      rw [if_pos hc] at h
      rw [ih (by simpa using h)]
    · next hc => rw [if_neg hc] at h; simp at h

theorem fit_eq_iff (room : Nat) (cs : List Char) : fit room cs = cs ↔ bytes cs ≤ room := by
  induction cs generalizing room with
  | nil => simp [fit, bytes]
  | cons c cs ih =>
    rw [fit]
    have hb : bytes (c :: cs) = c.utf8Size + bytes cs := by simp [bytes]
    split
    · next hc =>
      rw [List.cons.injEq, ih, hb]
      simp only [true_and]
      omega
    · next hc =>
      rw [hb]
      exact iff_of_false (by simp) (by omega)

theorem fit_append {cs : List Char} (xs : List Char) : fit (bytes cs) (cs ++ xs) = cs := by
  induction cs with
  | nil =>
    cases xs with
    | nil => rfl
    | cons x xs =>
      have := x.utf8Size_pos
      rw [List.nil_append, fit, if_neg (by simp [bytes]; omega)]
  | cons c cs ih =>
    have hb : bytes (c :: cs) = c.utf8Size + bytes cs := by simp [bytes]
    rw [List.cons_append, fit, if_pos (by omega), hb, Nat.add_sub_cancel_left, ih]

theorem readName_length {n m : String} (h : readName (Sql.qn n) = some m) : m.toList.length ≤ n.toList.length := by
  simp only [readName, qn_toList] at h
  split at h
  · rename_i m' hm
    cases h
    obtain ⟨_, h2⟩ := readQuoted_some hm
    have := congrArg List.length h2
    have l := escape_length m.toList
    simp only [List.length_cons, List.length_append, List.length_nil] at this
    omega
  · cases h

theorem objectName_iff (n : String) : objectName n = n ↔ bytes n.toList ≤ 63 := by
  rw [← fit_eq_iff, objectName, ← String.toList_inj, String.toList_ofList]

theorem denotes_iff (n : String) : (readName (Sql.qn n)).map objectName = some n ↔
    (n ≠ "" ∧ plain n) ∧ bytes n.toList ≤ 63 := by
  constructor
  · intro h
    rw [Option.map_eq_some_iff] at h
    obtain ⟨m, hm, ho⟩ := h
    have hl := readName_length hm
    have he : fit 63 m.toList = n.toList := by
      rw [← ho, objectName, String.toList_ofList]
    have hf : fit 63 m.toList = m.toList := fit_eq_of_length (by rw [he]; exact hl)
    have hnm : m = n := String.toList_inj.1 (hf.symm.trans he)
    subst hnm
    exact ⟨(readName_iff _).1 hm, (fit_eq_iff _ _).1 hf⟩
  · rintro ⟨h1, h2⟩
    rw [(readName_iff n).2 h1, Option.map_some, (objectName_iff n).2 h2]

/-! ### Texts of statements -/

theorem newColumn_text (c : NewColumn) (hp : plain c.name) :
    Sql.newColumn c = (ColumnDef.mk c.name c.dataType (if c.notNull then none else some false)
      c.default).text := by
  obtain ⟨n, ty, nn, df⟩ := c
  simp only at hp
  cases nn <;> cases df <;>
    simp [Sql.newColumn, ColumnDef.text, quoted_plain hp, Sql.join, ← String.toList_inj]

/-- The text of a column after its name and type. -/
def colTail (null : Option Bool) (df : Option String) : String :=
  (match null with
   | none => ""
   | some true => " NOT NULL"
   | some false => " NULL") ++
  (match df with
   | none => ""
   | some e => " DEFAULT " ++ e)

/-- What follows a column in a column list. -/
def colRest (tail : String) : List ColumnDef → String
  | [] => tail
  | c :: cs => ", " ++ (commaList ((c :: cs).map ColumnDef.text) ++ tail)

theorem commaList_cons_cols (c : ColumnDef) (cs : List ColumnDef) (tail : String) :
    commaList ((c :: cs).map ColumnDef.text) ++ tail =
      quoted c.name ++ " " ++ c.dataType ++ (colTail c.null c.default ++ colRest tail cs) := by
  have h : c.text = quoted c.name ++ " " ++ c.dataType ++ colTail c.null c.default := by
    simp only [ColumnDef.text, colTail, String.append_assoc]; rfl
  cases cs <;> simp [commaList, colRest, h, String.append_assoc]

theorem colRest_head (tail : String) (ht : tail.toList.head? = some ')') (cs : List ColumnDef) :
    (colRest tail cs).toList.head? ≠ some ' ' := by
  cases cs with
  | nil => simp [colRest, ht]
  | cons c cs => simp [colRest]

theorem colTail_inj {n m : Option Bool} {df : Option String} {a b : String}
    (ha : a.toList.head? ≠ some ' ') (hb : b.toList.head? ≠ some ' ')
    (h : colTail n df ++ a = colTail m df ++ b) : n = m ∧ a = b := by
  have h' := congrArg String.toList h
  have ha' : ∀ w, a.toList ≠ ' ' :: w := by intro w e; simp [e] at ha
  have hb' : ∀ w, ' ' :: w ≠ b.toList := by intro w e; simp [← e] at hb
  rcases n with _ | _ | _ <;> rcases m with _ | _ | _ <;> cases df <;>
    simp [colTail] at h h' ⊢ <;>
    first | assumption | exact absurd h' (ha' _) | exact absurd h' (hb' _)

/-- Two column lists with the same names, types and defaults and the same text have the same
nullability clauses. -/
theorem cols_text_inj : ∀ (xs ys : List ColumnDef) (a b : String),
    a.toList.head? = some ')' → b.toList.head? = some ')' →
    xs.map (fun c => (c.name, c.dataType, c.default)) =
      ys.map (fun c => (c.name, c.dataType, c.default)) →
    commaList (xs.map ColumnDef.text) ++ a = commaList (ys.map ColumnDef.text) ++ b →
    xs.map ColumnDef.null = ys.map ColumnDef.null
  | [], [], _, _, _, _, _, _ => rfl
  | [], _ :: _, _, _, _, _, h, _ => by simp at h
  | _ :: _, [], _, _, _, _, h, _ => by simp at h
  | x :: xs, y :: ys, a, b, ha, hb, h, ht => by
    simp only [List.map_cons, List.cons.injEq, Prod.mk.injEq] at h
    obtain ⟨⟨hn, hty, hd⟩, hrest⟩ := h
    rw [commaList_cons_cols, commaList_cons_cols, hn, hty, hd] at ht
    simp only [String.append_right_inj] at ht
    have hnull := colTail_inj (colRest_head a ha xs) (colRest_head b hb ys) ht
    simp only [List.map_cons, hnull.1, List.cons.injEq, true_and]
    have hlen : xs.length = ys.length := by
      have := congrArg List.length hrest; simpa using this
    cases xs with
    | nil =>
      cases ys with
      | nil => rfl
      | cons => simp at hlen
    | cons x' xs =>
      cases ys with
      | nil => simp at hlen
      | cons y' ys =>
        have h2 := hnull.2
        simp only [colRest, String.append_right_inj] at h2
        exact cols_text_inj _ _ _ _ ha hb hrest h2

theorem flags_text (d i : Bool) : " " ++ Sql.flags d i = (Timing.mk (some d) (some i)).text := by
  cases d <;> cases i <;> rfl

theorem flags_states (d i : Bool) : (Timing.mk (some d) (some i)).states d i := by
  simp [Timing.states]

theorem flags_legal {d i : Bool} : (Timing.mk (some d) (some i)).legal ↔ (i = true → d = true) := by
  cases d <;> cases i <;> simp [Timing.legal]

theorem states_legal {k : Timing} {d i : Bool} (hs : k.states d i) (hl : k.legal) : i = true → d = true := by
  obtain ⟨kd, ki⟩ := k
  obtain ⟨h1, h2⟩ := hs
  rcases kd with _ | _ | _ <;> rcases ki with _ | _ | _ <;> simp_all [Timing.legal]

theorem flagsOne_text (d : Bool) : " " ++ Sql.flagsOne d = (Timing.mk (some d) (some d)).text := by
  cases d <;> rfl

theorem flagsOne_eq {k : Timing} {d d' i : Bool} (hs : k.states d i) {e : String}
    (he : e = "" ∨ e = ";") (h : " " ++ Sql.flagsOne d' = k.text ++ e) : d = i := by
  obtain ⟨kd, ki⟩ := k
  obtain ⟨h1, h2⟩ := hs
  have h' := congrArg String.toList h
  rcases he with rfl | rfl <;>
    rcases kd with _ | _ | _ <;> rcases ki with _ | _ | _ <;> cases d' <;>
    simp_all [Sql.flagsOne, Timing.text]

theorem says_of {sql : String} {c : Change} {st : Stmt} (h : Does st c)
    (he : sql = st.text ∨ sql = st.text ++ ";") : Says sql c := ⟨st, h, he⟩

theorem quoted_ne_self (n : String) : quoted n ≠ n := by
  intro h
  have := congrArg (List.length ∘ String.toList) h
  have hl := escape_length n.toList
  simp only [quoted, Function.comp, String.toList_append, List.length_append,
    String.toList_ofList] at this
  have h1 : ("\"" : String).toList.length = 1 := rfl
  omega

theorem quoted_semi_ne_self (n : String) : quoted n ++ ";" ≠ n ++ ";" := by
  rw [ne_eq, String.append_left_inj]; exact quoted_ne_self n

theorem bare_no_semi {n : String} (h : bare n = true) : ';' ∉ n.toList := by
  simp only [bare, Bool.and_eq_true] at h
  have h1 := h.1
  intro hm
  cases hl : n.toList with
  | nil => simp [hl] at hm
  | cons c cs =>
    rw [hl] at h1 hm
    simp only [Bool.and_eq_true] at h1
    simp only [List.mem_cons] at hm
    rcases hm with hm | hm
    · subst hm
      revert h1; simp [lower]
    · have := List.all_eq_true.1 h1.2 ';' hm
      revert this; decide

/-- Which names the texts of `CREATE SCHEMA` and `DROP SCHEMA` denote. -/
theorem schema_name {s : String} {n : Name} (hd : n.denotes = s)
    (ht : s ++ ";" = n.text ∨ s ++ ";" = n.text ++ ";") : bare s = true := by
  cases n with
  | quotedName m =>
    simp only [Name.denotes, Name.text] at hd ht
    subst hd
    rcases ht with ht | ht
    · have := congrArg (fun x => x.toList.reverse.head?) ht
      simp [quoted] at this
    · exact absurd ht.symm (quoted_semi_ne_self m)
  | bareName m ok =>
    simp only [Name.denotes, Name.text] at hd ht
    subst hd; exact ok

theorem says_createTable (s t : String) (cols : List NewColumn)
    (hs : plain s) (ht : plain t) (hcols : ∀ c ∈ cols, plain c.name) :
    Says (Change.createTable s t cols).renderSql (.createTable s t cols) ↔
      ∀ c ∈ cols, c.notNull = false := by
  have hmap : cols.map Sql.newColumn = (cols.map fun c => ColumnDef.mk c.name c.dataType
      (if c.notNull then none else some false) c.default).map ColumnDef.text := by
    rw [List.map_map]
    exact List.map_congr_left fun c h => newColumn_text c (hcols c h)
  have hsql : (Change.createTable s t cols).renderSql = "CREATE TABLE " ++ (qualified s t ++ (" (" ++
      (commaList ((cols.map fun c => ColumnDef.mk c.name c.dataType
        (if c.notNull then none else some false) c.default).map ColumnDef.text) ++ ");"))) := by
    simp only [render_createTable]
    rw [hmap, ← commaList_eq, ← qualified_plain hs ht]
    simp only [String.append_assoc]
  rw [hsql]
  constructor
  · rintro ⟨st, ⟨cs, rfl, rfl⟩, htx⟩
    have key : ∃ b : String, b.toList.head? = some ')' ∧
        commaList (((cs.map fun c => NewColumn.mk c.name c.dataType c.notNull c.default).map
          fun c => ColumnDef.mk c.name c.dataType (if c.notNull then none else some false)
            c.default).map ColumnDef.text) ++ ");" = commaList (cs.map ColumnDef.text) ++ b := by
      rcases htx with htx | htx
      · refine ⟨")", by decide, ?_⟩
        simp only [text_createTable, String.append_assoc, String.append_right_inj] at htx
        exact htx
      · refine ⟨");", by decide, ?_⟩
        simp only [text_createTable, String.append_assoc, String.append_right_inj] at htx
        exact htx
    obtain ⟨b, hb, key⟩ := key
    have := cols_text_inj _ _ _ _ (by decide) hb (by simp [List.map_map, Function.comp_def]) key
    simp only [List.map_map, Function.comp_def] at this
    intro c hc
    obtain ⟨d, hd, rfl⟩ := List.mem_map.1 hc
    have := (List.map_inj_left.1 this) d hd
    simp only
    cases hn : d.notNull with
    | false => rfl
    | true =>
      exfalso
      simp only [hn, if_true] at this
      simp [ColumnDef.notNull, ← this] at hn
  · intro h
    refine says_of (st := .createTable s t (cols.map fun c => ColumnDef.mk c.name c.dataType
      (if c.notNull then none else some false) c.default)) ⟨_, rfl, ?_⟩
      (.inr (by simp only [text_createTable, String.append_assoc, String.append_right_inj]; rfl))
    rw [List.map_map]
    conv => lhs; rw [← List.map_id cols]
    refine List.map_congr_left fun c hc => ?_
    have := h c hc
    obtain ⟨n, ty, nn, df⟩ := c
    simp only at this; subst this
    rfl

theorem addColumn_text (s t c ty : String) (nn : Bool) (df : Option String)
    (hs : plain s) (ht : plain t) (hc : plain c) :
    (Change.addColumn s t c ty nn df).renderSql = "ALTER TABLE " ++ (qualified s t ++
      (" ADD COLUMN " ++ (quoted c ++ (" " ++ (ty ++
        (colTail (if nn then none else some true) df ++ ";")))))) := by
  rw [qualified_plain hs ht, quoted_plain hc]
  cases nn <;> cases df <;> simp [render_addColumn, colTail, Sql.join, ← String.toList_inj]

theorem says_addColumn (s t c ty : String) (nn : Bool) (df : Option String)
    (hs : plain s) (ht : plain t) (hc : plain c) :
    ¬ Says (Change.addColumn s t c ty nn df).renderSql (.addColumn s t c ty nn df) := by
  rw [addColumn_text s t c ty nn df hs ht hc]
  rintro ⟨st, ⟨null, rfl, rfl⟩, htx⟩
  have e : (Stmt.addColumn s t ⟨c, ty, null, df⟩).text = "ALTER TABLE " ++ (qualified s t ++
      (" ADD COLUMN " ++ (quoted c ++ (" " ++ (ty ++ (colTail null df ++ "")))))) := by
    simp only [text_addColumn, ColumnDef.text, colTail, String.append_assoc, String.append_empty]; rfl
  rw [e] at htx
  simp only [String.append_assoc, String.append_right_inj] at htx
  have : (if (ColumnDef.mk c ty null df).notNull = true then none else some true) = null := by
    rcases htx with htx | htx
    · exact (colTail_inj (by decide) (by decide) htx).1
    · exact (colTail_inj (by decide) (by decide) htx).1
  rcases null with _ | _ | _ <;> simp [ColumnDef.notNull] at this

/-- What follows the column list of a foreign key. -/
def fkTail (m u d : Option String) (k : Timing) : String :=
  (match m with
    | none => ""
    | some m => " MATCH " ++ m) ++
  (match u with
    | none => ""
    | some u => " ON UPDATE " ++ u) ++
  (match d with
    | none => ""
    | some d => " ON DELETE " ++ d) ++ k.text

theorem fkTail_second (m u d : Option String) (k : Timing) (e : String) (he : e = "" ∨ e = ";")
    (c : Char) (w : List Char) (h : (fkTail m u d k ++ e).toList = ' ' :: c :: w) :
    c ∈ ['M', 'O', 'D', 'N', 'I'] := by
  obtain ⟨kd, ki⟩ := k
  rcases m with _ | m
  · rcases u with _ | u
    · rcases d with _ | d
      · rcases he with rfl | rfl <;> rcases kd with _ | _ | _ <;> rcases ki with _ | _ | _ <;>
          simp [fkTail, Timing.text] at h <;> simp [← h.1]
      · simp [fkTail] at h; simp [← h.1]
    · simp [fkTail] at h; simp [← h.1]
  · simp [fkTail] at h; simp [← h.1]

theorem says_addForeignKey (s t n : String) (cols : List String) (ts tt : String)
    (tcols : List String) (m u d : String) (df i : Bool)
    (hs : plain s) (ht : plain t) (hn : plain n) (hts : plain ts) (htt : plain tt)
    (hcols : ∀ x ∈ cols, plain x) (htcols : ∀ x ∈ tcols, plain x)
    (hm : m ∈ ["SIMPLE", "FULL", "PARTIAL"]) :
    ¬ Says (Change.addForeignKey s t n cols ts tt tcols m u d df i).renderSql
      (.addForeignKey s t n cols ts tt tcols m u d df i) := by
  rintro ⟨st, ⟨m', u', d', k, -, -, -, -, -, rfl⟩, htx⟩
  have h : ∃ e, (e = "" ∨ e = ";") ∧
      " " ++ m ++ " " ++ u ++ " " ++ d ++ ";" = fkTail m' u' d' k ++ e := by
    have e1 : (Change.addForeignKey s t n cols ts tt tcols m u d df i).renderSql =
        "ALTER TABLE " ++ (qualified s t ++ (" ADD CONSTRAINT " ++ (quoted n ++ (" FOREIGN KEY (" ++
        (commaList (cols.map quoted) ++ (") REFERENCES " ++ (qualified ts tt ++ (" (" ++
        (commaList (tcols.map quoted) ++ (")" ++
          (" " ++ m ++ " " ++ u ++ " " ++ d ++ ";"))))))))))) := by
      rw [qualified_plain hs ht, quoted_plain hn, qualified_plain hts htt, commaList_quoted hcols,
        commaList_quoted htcols]
      simp [render_addForeignKey, ← String.toList_inj]
    have e2 : (Stmt.addForeignKey s t n cols ts tt tcols m' u' d' k).text =
        "ALTER TABLE " ++ (qualified s t ++ (" ADD CONSTRAINT " ++ (quoted n ++ (" FOREIGN KEY (" ++
        (commaList (cols.map quoted) ++ (") REFERENCES " ++ (qualified ts tt ++ (" (" ++
        (commaList (tcols.map quoted) ++ (")" ++ fkTail m' u' d' k)))))))))) := by
      simp only [text_addForeignKey, fkTail, String.append_assoc]; rfl
    rw [e1, e2] at htx
    simp only [String.append_assoc, String.append_right_inj] at htx
    rcases htx with htx | htx
    · exact ⟨"", .inl rfl, by simpa [String.append_assoc] using htx⟩
    · exact ⟨";", .inr rfl, by simpa [String.append_assoc] using htx⟩
  obtain ⟨e, he, h⟩ := h
  have hl := congrArg String.toList h
  simp only [List.mem_cons, List.not_mem_nil, or_false] at hm
  rcases hm with rfl | rfl | rfl
  · have := fkTail_second m' u' d' k e he 'S' _ (hl.symm.trans (by simp; rfl)); simp at this
  · have := fkTail_second m' u' d' k e he 'F' _ (hl.symm.trans (by simp; rfl)); simp at this
  · have := fkTail_second m' u' d' k e he 'P' _ (hl.symm.trans (by simp; rfl)); simp at this

theorem says_createFunction (s f b la r v : String) (hs : plain s) (hf : plain f)
    (hb1 : b.toList.head? ≠ some '(') (hb2 : b.toList.head? ≠ some ' ') :
    ¬ Says (Change.createFunction s f b la r v).renderSql (.createFunction s f b la r v) := by
  rintro ⟨st, ⟨sp, args, src, rfl⟩, htx⟩
  have key : ∃ w w', ' ' :: (b.toList ++ ' ' :: 'R' :: w) = List.replicate sp ' ' ++ '(' :: w' := by
    simp only [render_createFunction, text_createFunction, ← qualified_plain hs hf, String.append_assoc,
      String.append_right_inj] at htx
    have hl := htx.imp (congrArg String.toList) (congrArg String.toList)
    simp only [String.toList_append, String.toList_ofList] at hl
    rcases hl with hl | hl
    · exact ⟨_, _, by simpa using hl⟩
    · exact ⟨_, _, by simpa using hl⟩
  obtain ⟨w, w', key⟩ := key
  rcases sp with _ | sp
  · simp at key
  · simp only [List.replicate_succ, List.cons_append, List.cons.injEq, true_and] at key
    cases hbl : b.toList with
    | nil =>
      rw [hbl] at key
      rcases sp with _ | _ | sp <;> simp [List.replicate_succ] at key
    | cons c cs =>
      rw [hbl] at key hb1 hb2
      rcases sp with _ | sp
      · simp at key; simp [key.1] at hb1
      · simp [List.replicate_succ] at key; simp [key.1] at hb2

theorem says_addCheck (s t n e : String) (d i : Bool)
    (hs : plain s) (ht : plain t) (hn : plain n) :
    Says (Change.addCheck s t n e d i).renderSql (.addCheck s t n e d i) ↔
      (∃ x, e = "(" ++ x ++ ")") ∧ d = false ∧ i = false := by
  constructor
  · rintro ⟨st, ⟨x, k, -, h, rfl, -⟩, -⟩
    exact ⟨⟨x, rfl⟩, h⟩
  · rintro ⟨⟨x, rfl⟩, rfl, rfl⟩
    refine says_of ⟨x, _, flags_states false false, ⟨rfl, rfl⟩, rfl, rfl⟩ (.inr ?_)
    simp only [render_addCheck, text_addCheck, ← flags_text, quoted_plain hn, qualified_plain hs ht]
    simp [← String.toList_inj]

theorem alter_text {s t n : String} {d i : Bool} {k : Timing} (hs : plain s) (ht : plain t)
    (hn : plain n) (hk : k.states d i)
    (htx : "ALTER TABLE " ++ Sql.qa s t ++ " ALTER CONSTRAINT " ++ Sql.qn n ++ " " ++ Sql.flagsOne d
        = (Stmt.alterConstraint s t n k).text ∨
      "ALTER TABLE " ++ Sql.qa s t ++ " ALTER CONSTRAINT " ++ Sql.qn n ++ " " ++ Sql.flagsOne d
        = (Stmt.alterConstraint s t n k).text ++ ";") : d = i := by
  simp only [text_alterConstraint, quoted_plain hn, qualified_plain hs ht,
    String.append_assoc, String.append_right_inj] at htx
  rcases htx with htx | htx
  · exact flagsOne_eq hk (.inl rfl) (by simpa using htx)
  · exact flagsOne_eq hk (.inr rfl) htx

theorem says_alterForeignKey (s t n : String) (d i : Bool)
    (hs : plain s) (ht : plain t) (hn : plain n) :
    Says (Change.alterForeignKey s t n d i).renderSql (.alterForeignKey s t n d i) ↔ d = i := by
  constructor
  · rintro ⟨st, ⟨k, hk, -, rfl⟩, htx⟩
    exact alter_text hs ht hn hk htx
  · rintro rfl
    refine says_of ⟨_, flags_states d d, flags_legal.2 id, rfl⟩ (.inl ?_)
    simp only [render_alterForeignKey, text_alterConstraint, ← flagsOne_text, quoted_plain hn,
      qualified_plain hs ht, String.append_assoc]

/-- Adding a key: the text is that of the statement. -/
theorem says_addPrimaryKey (s t n : String) (cols : List String) (d i : Bool)
    (hs : plain s) (ht : plain t) (hn : plain n) (hc : ∀ c ∈ cols, plain c) :
    Says (Change.addPrimaryKey s t n cols d i).renderSql (.addPrimaryKey s t n cols d i) ↔
      cols ≠ [] ∧ (i = true → d = true) := by
  constructor
  · rintro ⟨st, ⟨k, hk, hl, h, rfl⟩, htx⟩
    exact ⟨h, states_legal hk hl⟩
  · rintro ⟨h', h⟩
    refine says_of ⟨_, flags_states d i, flags_legal.2 h, h', rfl⟩ (.inr ?_)
    rw [render_addPrimaryKey, text_addPrimaryKey, ← flags_text, qualified_plain hs ht,
      quoted_plain hn, commaList_quoted hc]
    simp [← String.toList_inj]

theorem says_addUnique (s t n : String) (cols : List String) (d i : Bool)
    (hs : plain s) (ht : plain t) (hn : plain n) (hc : ∀ c ∈ cols, plain c) :
    Says (Change.addUnique s t n cols d i).renderSql (.addUnique s t n cols d i) ↔
      cols ≠ [] ∧ (i = true → d = true) := by
  constructor
  · rintro ⟨st, ⟨k, hk, hl, h, rfl⟩, htx⟩
    exact ⟨h, states_legal hk hl⟩
  · rintro ⟨h', h⟩
    refine says_of ⟨_, flags_states d i, flags_legal.2 h, h', rfl⟩ (.inr ?_)
    rw [render_addUnique, text_addUnique, ← flags_text, qualified_plain hs ht,
      quoted_plain hn, commaList_quoted hc]
    simp [← String.toList_inj]

theorem says_createSchema (s : String) :
    Says (Change.createSchema s).renderSql (.createSchema s) ↔ bare s = true := by
  simp only [render_createSchema]
  constructor
  · rintro ⟨st, ⟨n, hd, rfl⟩, ht⟩
    refine schema_name hd ?_
    simp only [text_createSchema, String.append_assoc, String.append_right_inj] at ht
    exact ht
  · intro h
    exact says_of ⟨.bareName s h, rfl, rfl⟩ (.inr (by simp only [text_createSchema, Name.text]))

theorem says_dropSchema (s : String) :
    Says (Change.dropSchema s).renderSql (.dropSchema s) ↔ bare s = true := by
  simp only [render_dropSchema]
  constructor
  · rintro ⟨st, ⟨n, hd, rfl⟩, ht⟩
    refine schema_name hd ?_
    simp only [text_dropSchema, String.append_assoc, String.append_right_inj] at ht
    exact ht
  · intro h
    exact says_of ⟨.bareName s h, rfl, rfl⟩ (.inr (by simp only [text_dropSchema, Name.text]))

theorem says_createIndex (s t i : String) (u : Bool) (m : String) (ks : List String)
    (hs : plain s) (ht : plain t) (hi : plain i) :
    Says (Change.createIndex s t i u m ks).renderSql (.createIndex s t i u m ks) ↔ ks ≠ [] := by
  constructor
  · rintro ⟨st, ⟨h, rfl⟩, -⟩
    exact h
  · intro h
    refine says_of (st := .createIndex u i s t m ks) ⟨h, rfl⟩ (.inr ?_)
    rw [render_createIndex, text_createIndex, qualified_plain hs ht, quoted_plain hi, commaList_eq]
    cases u <;> simp [← String.toList_inj]

/-- No statement alters the timing of a constraint that is not a foreign key. -/
theorem not_says_alter (q s t n : String) (d i : Bool) :
    ¬ Says q (.alterPrimaryKey s t n d i) ∧ ¬ Says q (.alterUnique s t n d i) ∧
      ¬ Says q (.alterCheck s t n d i) :=
  ⟨fun ⟨_, h, _⟩ => h, fun ⟨_, h, _⟩ => h, fun ⟨_, h, _⟩ => h⟩

/-- The remaining kinds: the text is always right (names without quotes). -/
theorem says_rest (c : Change) (hp : ∀ n ∈ c.quotedNames, plain n) :
    match c with
    | .createSchema _ | .dropSchema _ | .createTable .. | .addColumn .. | .addForeignKey ..
    | .alterForeignKey .. | .alterCheck .. | .addCheck .. | .createFunction ..
    | .addPrimaryKey .. | .alterPrimaryKey .. | .addUnique .. | .alterUnique .. | .createIndex .. => True
    | c => Says c.renderSql c := by
  cases c with
  | createSchema | dropSchema | createTable | addColumn | addForeignKey | alterForeignKey
  | alterCheck | addCheck | createFunction | addPrimaryKey | alterPrimaryKey | addUnique | alterUnique
  | createIndex => trivial
  | dropTable s t =>
    have h := fun n hn => hp n hn
    refine says_of (st := .dropTable s t) rfl (.inr ?_)
    rw [render_dropTable, text_dropTable, qualified_plain (hp s (by simp [Change.quotedNames])) (hp t (by simp [Change.quotedNames]))]
  | setDataType s t c ty =>
    refine says_of (st := .setDataType s t c ty) rfl (.inr ?_)
    rw [render_setDataType, text_setDataType, qualified_plain (hp s (by simp [Change.quotedNames])) (hp t (by simp [Change.quotedNames])), quoted_plain (hp c (by simp [Change.quotedNames]))]
  | setDefault s t c df =>
    cases df with
    | none =>
      refine says_of (st := .dropDefault s t c) rfl (.inr ?_)
      rw [render_setDefault_none, text_dropDefault, qualified_plain (hp s (by simp [Change.quotedNames])) (hp t (by simp [Change.quotedNames])), quoted_plain (hp c (by simp [Change.quotedNames]))]
      simp [← String.toList_inj]
    | some e =>
      refine says_of (st := .setDefault s t c e) rfl (.inr ?_)
      rw [render_setDefault, text_setDefault, qualified_plain (hp s (by simp [Change.quotedNames])) (hp t (by simp [Change.quotedNames])), quoted_plain (hp c (by simp [Change.quotedNames]))]
  | setNotNull s t c nn =>
    cases nn with
    | true =>
      refine says_of (st := .setNotNull s t c) rfl (.inr ?_)
      rw [render_setNotNull, text_setNotNull, qualified_plain (hp s (by simp [Change.quotedNames])) (hp t (by simp [Change.quotedNames])), quoted_plain (hp c (by simp [Change.quotedNames]))]
      simp [← String.toList_inj]
    | false =>
      refine says_of (st := .dropNotNull s t c) rfl (.inr ?_)
      rw [render_setNotNull, text_dropNotNull, qualified_plain (hp s (by simp [Change.quotedNames])) (hp t (by simp [Change.quotedNames])), quoted_plain (hp c (by simp [Change.quotedNames]))]
      simp [← String.toList_inj]
  | dropColumn s t c =>
    refine says_of (st := .dropColumn s t c) rfl (.inr ?_)
    rw [render_dropColumn, text_dropColumn, qualified_plain (hp s (by simp [Change.quotedNames])) (hp t (by simp [Change.quotedNames])), quoted_plain (hp c (by simp [Change.quotedNames]))]
  | renameColumn s t a b =>
    refine says_of (st := .renameColumn s t a b) rfl (.inr ?_)
    rw [render_renameColumn, text_renameColumn, qualified_plain (hp s (by simp [Change.quotedNames])) (hp t (by simp [Change.quotedNames])), quoted_plain (hp a (by simp [Change.quotedNames])), quoted_plain (hp b (by simp [Change.quotedNames]))]
  | dropPrimaryKey s t n =>
    refine says_of (st := .dropConstraint s t n) rfl (.inr ?_)
    rw [render_dropPrimaryKey, text_dropConstraint, qualified_plain (hp s (by simp [Change.quotedNames])) (hp t (by simp [Change.quotedNames])), quoted_plain (hp n (by simp [Change.quotedNames]))]
  | dropUnique s t n =>
    refine says_of (st := .dropConstraint s t n) rfl (.inr ?_)
    rw [render_dropUnique, text_dropConstraint, qualified_plain (hp s (by simp [Change.quotedNames])) (hp t (by simp [Change.quotedNames])), quoted_plain (hp n (by simp [Change.quotedNames]))]
  | dropForeignKey s t n =>
    refine says_of (st := .dropConstraint s t n) rfl (.inl ?_)
    rw [render_dropForeignKey, text_dropConstraint, qualified_plain (hp s (by simp [Change.quotedNames])) (hp t (by simp [Change.quotedNames])), quoted_plain (hp n (by simp [Change.quotedNames]))]
  | dropCheck s t n =>
    refine says_of (st := .dropConstraint s t n) rfl (.inr ?_)
    rw [render_dropCheck, text_dropConstraint, qualified_plain (hp s (by simp [Change.quotedNames])) (hp t (by simp [Change.quotedNames])), quoted_plain (hp n (by simp [Change.quotedNames]))]
  | dropFunction s f =>
    refine says_of (st := .dropFunction s f) rfl (.inr ?_)
    rw [render_dropFunction, text_dropFunction, qualified_plain (hp s (by simp [Change.quotedNames])) (hp f (by simp [Change.quotedNames]))]
  | createView s v q =>
    refine says_of (st := .createView s v q) rfl (.inl ?_)
    rw [render_createView, text_createView, qualified_plain (hp s (by simp [Change.quotedNames])) (hp v (by simp [Change.quotedNames]))]
  | dropView s v =>
    refine says_of (st := .dropView s v) rfl (.inl ?_)
    rw [render_dropView, text_dropView, qualified_plain (hp s (by simp [Change.quotedNames])) (hp v (by simp [Change.quotedNames]))]
  | dropIndex s i =>
    refine says_of (st := .dropIndex s i) rfl (.inr ?_)
    rw [render_dropIndex, text_dropIndex, qualified_plain (hp s (by simp [Change.quotedNames])) (hp i (by simp [Change.quotedNames]))]
  | createSequence s n ty inc mn mx st ca cy =>
    refine says_of (st := .createSequence s n ty inc mn mx st ca cy) rfl (.inr ?_)
    rw [render_createSequence, text_createSequence, qualified_plain (hp s (by simp [Change.quotedNames])) (hp n (by simp [Change.quotedNames]))]
    cases cy <;> simp [← String.toList_inj]
  | dropSequence s n =>
    refine says_of (st := .dropSequence s n) rfl (.inr ?_)
    rw [render_dropSequence, text_dropSequence, qualified_plain (hp s (by simp [Change.quotedNames])) (hp n (by simp [Change.quotedNames]))]

end Podo
