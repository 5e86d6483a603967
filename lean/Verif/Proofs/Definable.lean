import Verif.Spec.Definable
import Verif.Proofs.Loaded
import Verif.Proofs.Accepts
/-
Which snapshots definition files can define (C70).
-/
set_option linter.unusedSimpArgs false
set_option linter.unusedVariables false
namespace Podo
namespace Def
open Text

/-! ### Writing nodes with two blanks after the word of a key -/

def wKey (kind : String) : Option String → String
  | none => kind
  | some n => kind ++ "  " ++ n

mutual
def wNode : Node → Yaml
  | .leaf _ _ none => .null
  | .leaf _ _ (some v) => renderValue v
  | .branch _ _ ns => .map (wKeys ns) (wNodes ns)
def wNodes : List Node → List Yaml
  | [] => []
  | n :: ns => wNode n :: wNodes ns
def wKeys : List Node → List (Option String)
  | [] => []
  | n :: ns => some (wKey n.kind n.name) :: wKeys ns
end

def Keyed (kind : String) (name : Option String) : Prop := kind ∈ keyWords ∧ ∀ n, name = some n → NameOk n

mutual
def Fine : Node → Prop
  | .leaf k n none => Keyed k n
  | .leaf k n (some v) => Keyed k n ∧ ValueOk v
  | .branch k n ns => Keyed k n ∧ Fines ns ∧ (ns.map fun m => (m.kind, m.name)).Nodup
def Fines : List Node → Prop
  | [] => True
  | n :: ns => Fine n ∧ Fines ns
end

theorem fines_iff {ns : List Node} : Fines ns ↔ ∀ n ∈ ns, Fine n := by
  induction ns with
  | nil => simp [Fines]
  | cons n ns ih => simp [Fines, ih]

theorem Fine.keyed {n : Node} (h : Fine n) : Keyed n.kind n.name := by
  cases n with
  | leaf k n v =>
    cases v with
    | none => rw [Fine] at h; exact h
    | some v => rw [Fine] at h; exact h.1
  | branch k n ns => rw [Fine] at h; exact h.1

theorem sameLetters_refl : ∀ cs : List Char, SameLetters cs cs
  | [] => trivial
  | c :: cs => ⟨.inl rfl, sameLetters_refl cs⟩

theorem sameLetters_take : ∀ {a b : List Char} (n : Nat), SameLetters a b → SameLetters (a.take n) (b.take n)
  | [], [], n, _ => by simp; trivial
  | [], _ :: _, _, h => h.elim
  | _ :: _, [], _, h => h.elim
  | _ :: _, _ :: _, 0, h => trivial
  | _ :: _, _ :: _, n + 1, h => ⟨h.1, sameLetters_take n h.2⟩

theorem sameLetters_eq : ∀ {a b : List Char}, SameLetters a b →
    (∀ c ∈ a, ¬ ('A'.toNat ≤ c.toNat ∧ c.toNat ≤ 'Z'.toNat)) → a = b
  | [], [], _, _ => rfl
  | [], _ :: _, h, _ => h.elim
  | _ :: _, [], h, _ => h.elim
  | c :: _, _ :: _, h, hl => by
    rw [sameLetters_eq h.2 fun c hc => hl c (by simp [hc])]
    rcases h.1 with e | ⟨h1, h2, _⟩
    · rw [e]
    · exact absurd ⟨h1, h2⟩ (hl c (by simp))

theorem keyWords_lower : ∀ k ∈ keyWords, ∀ c ∈ k.toList ++ [' ', ' '],
    ¬ ('A'.toNat ≤ c.toNat ∧ c.toNat ≤ 'Z'.toNat) := by decide +kernel

theorem keyWords_blanks : ∀ k ∈ keyWords, ∀ w ∈ keyWords, k.length < w.length →
    (k.toList ++ [' ', ' ']).take w.length ≠ w.toList.take (k.length + 2) := by decide +kernel

theorem wKey_says {kind : String} {name : Option String} (h : Keyed kind name) :
    KeySays (wKey kind name) kind name := by
  cases name with
  | none =>
    refine .word kind.toList [] (by simp [wKey]) h.1 (sameLetters_refl _) ?_ (by simp [NameIs])
    rintro w hw ⟨front, rest, e, hs⟩
    have h1 := congrArg List.length e
    have h2 := sameLetters_length hs
    simp only [wKey, List.length_append, String.length_toList] at h1 h2
    omega
  | some n =>
    refine .word kind.toList (' ' :: ' ' :: n.toList) (by simp [wKey, String.toList_append])
      h.1 (sameLetters_refl _) ?_ ?_
    · rintro w hw ⟨front, rest, e, hs⟩
      refine Nat.le_of_not_lt fun hlt => keyWords_blanks kind h.1 w hw hlt ?_
      have hlen := sameLetters_length hs
      have ht : front.take (kind.length + 2) = (kind.toList ++ [' ', ' ']).take w.length := by
        have h1 : front = (kind.toList ++ [' ', ' '] ++ n.toList).take w.length := by
          have : (wKey kind (some n)).toList = kind.toList ++ [' ', ' '] ++ n.toList := by
            simp [wKey, String.toList_append]
          rw [← this, e, ← String.length_toList, ← hlen, List.take_left]
        rw [h1, List.take_take, Nat.min_comm, ← List.take_take]
        congr 1
        rw [List.take_append_of_le_length (by simp [String.length_toList]),
          List.take_of_length_le (by simp [String.length_toList])]
      have := sameLetters_take (kind.length + 2) hs
      rw [ht] at this
      exact sameLetters_eq this fun c hc => keyWords_lower kind h.1 c (List.mem_of_mem_take hc)
    · obtain ⟨h1, h2, h3⟩ := h.2 n rfl
      refine ⟨h1, [' ', ' '], [], by simp, ?_, by simp, h2, h3⟩
      intro c hc
      have : c = ' ' := by simpa using hc
      subst this
      exact .inr (.inl rfl)

theorem wKeys_eq (ns : List Node) : wKeys ns = ns.map fun n => some (wKey n.kind n.name) := by
  induction ns with
  | nil => rfl
  | cons n ns ih => rw [wKeys, ih]; rfl

theorem wNodes_length (ns : List Node) : (wNodes ns).length = ns.length := by
  induction ns with
  | nil => rfl
  | cons n ns ih => rw [wNodes, List.length_cons, ih]; rfl

mutual
theorem fine_reads : ∀ {n : Node}, Fine n → parseEntry n.kind n.name (wNode n) = .ok n
  | .leaf k n none, _ => by rw [wNode, parseEntry]; rfl
  | .leaf k n (some v), h => by
    rw [Fine] at h
    rw [wNode]
    exact (parseEntry_value k n v).2 h.2
  | .branch k n ns, h => by
    rw [Fine] at h
    rw [wNode, parseEntry, fines_reads h.2.1]
    rfl
theorem fines_reads : ∀ {ns : List Node}, Fines ns → parseMapping (wKeys ns) (wNodes ns) = .ok ns
  | [], _ => by rw [wKeys, parseMapping]
  | n :: ns, h => by
    rw [Fines] at h
    rw [wKeys, wNodes, parseMapping, parseKey_says.2 (wKey_says h.1.keyed)]
    dsimp only
    rw [fine_reads h.1, fines_reads h.2]
end

theorem wKeys_nodup {ns : List Node} (h : Fines ns) (hn : (ns.map fun m => (m.kind, m.name)).Nodup) :
    (wKeys ns).Nodup := by
  rw [wKeys_eq]
  induction ns with
  | nil => exact .nil
  | cons n ns ih =>
    rw [Fines] at h
    rw [List.map_cons, List.nodup_cons] at hn ⊢
    refine ⟨fun hm => hn.1 ?_, ih h.2 hn.2⟩
    obtain ⟨m, hm, e⟩ := List.mem_map.1 hm
    injection e with e
    have e1 := parseKey_says.2 (wKey_says (fines_iff.1 h.2 m hm).keyed)
    rw [e, parseKey_says.2 (wKey_says h.1.keyed)] at e1
    injection e1 with e1
    injection e1 with e1 e2
    exact List.mem_map.2 ⟨m, hm, by rw [e1, e2]⟩

mutual
theorem renderValue_proper : ∀ v : Value, Proper (renderValue v)
  | .boolean b => by simp [renderValue, Proper]
  | .string b => by simp [renderValue, Proper]
  | .number b => by simp [renderValue, Proper]
  | .list vs => by rw [renderValue, Proper]; exact renderValues_proper vs
theorem renderValues_proper : ∀ vs : List Value, Propers (renderValues vs)
  | [] => by simp [renderValues, Propers]
  | v :: vs => by rw [renderValues, Propers]; exact ⟨renderValue_proper v, renderValues_proper vs⟩
end

mutual
theorem fine_proper : ∀ {n : Node}, Fine n → Proper (wNode n)
  | .leaf k n none, _ => by simp [wNode, Proper]
  | .leaf k n (some v), _ => by rw [wNode]; exact renderValue_proper v
  | .branch k n ns, h => by
    rw [Fine] at h
    rw [wNode, Proper]
    exact ⟨wKeys_nodup h.2.1 h.2.2, by rw [wKeys_eq, wNodes_length, List.length_map], fines_proper h.2.1⟩
theorem fines_proper : ∀ {ns : List Node}, Fines ns → Propers (wNodes ns)
  | [], _ => by simp [wNodes, Propers]
  | n :: ns, h => by
    rw [Fines] at h
    rw [wNodes, Propers]
    exact ⟨fine_proper h.1, fines_proper h.2⟩
end

/-! ### A node for each object -/

theorem nameOk_keyed {k n : String} (hk : k ∈ keyWords) (h : NameOk n) : Keyed k (some n) :=
  ⟨hk, fun m hm => by cases hm; exact h⟩

theorem keyed_none {k : String} (hk : k ∈ keyWords) : Keyed k none := ⟨hk, fun m hm => by cases hm⟩

def wColumnText (c : Column) : String :=
  (if c.dataType = "" then " " else c.dataType) ++ (if c.notNull then "!" else "") ++
    (match c.default with
     | none => ""
     | some d => "= " ++ d)

theorem wColumnText_reads {c : Column} (h : ColumnDefinable c) : parseColumnExpr (wColumnText c).toList =
    .ok (c.dataType.toList, c.notNull, c.default.map String.toList) := by
  obtain ⟨_, ⟨h1, h2, h3⟩, h4⟩ := h
  generalize hty : (if c.dataType = "" then " " else c.dataType) = ty
  have hall : ∀ x ∈ ty.toList, (x != '=' && x != '!') = true := by
    intro x hx
    subst hty
    split at hx
    · have : x = ' ' := by simpa using hx
      subst this; decide
    · have a : x ≠ '=' := fun e => h1 (e ▸ hx)
      have b : x ≠ '!' := fun e => h2 (e ▸ hx)
      simp [a, b]
  have hne : ty.toList ≠ [] := by
    subst hty
    split
    · simp
    · simpa using ‹_›
  have htrim : trim ty.toList = c.dataType.toList := by
    subst hty
    split
    · next e => rw [e]; decide +kernel
    · exact trim_self (trimmed_ws.1 h3).1 (trimmed_ws.1 h3).2
  unfold wColumnText
  rw [hty]
  cases hd : c.default with
  | none =>
    have e : (ty ++ (if c.notNull then "!" else "") ++ "").toList =
        ty.toList ++ (if c.notNull then ['!'] else []) := by
      cases c.notNull <;> simp [String.toList_append]
    dsimp only
    rw [e]
    obtain ⟨r1, r2⟩ := parseColumnExpr_run (rest := if c.notNull then ['!'] else []) hall (by
      intro x hx; cases hb : c.notNull <;> rw [hb] at hx <;> simp at hx; subst hx; decide)
    unfold parseColumnExpr
    dsimp only
    rw [r1, r2, if_neg hne]
    cases c.notNull <;> simp [htrim]
  | some d =>
    have e : (ty ++ (if c.notNull then "!" else "") ++ ("= " ++ d)).toList =
        ty.toList ++ ((if c.notNull then ['!'] else []) ++ '=' :: ' ' :: d.toList) := by
      cases c.notNull <;> simp [String.toList_append]
    obtain ⟨t1, t2⟩ := h4 d hd
    have t1 := trimmed_ws.1 t1
    dsimp only
    rw [e]
    obtain ⟨r1, r2⟩ := parseColumnExpr_run (rest := (if c.notNull then ['!'] else []) ++ '=' :: ' ' :: d.toList)
      hall (by
      intro x hx; cases hb : c.notNull <;> rw [hb] at hx <;> simp at hx <;> subst hx <;> decide)
    have hdr : (' ' :: d.toList).dropWhile isWs = d.toList := by
      rw [List.dropWhile_cons, if_pos (by decide), dropWhile_eq_self t1.1]
    have heq : ('=' :: ' ' :: d.toList).dropWhile isWs = '=' :: ' ' :: d.toList := by
      rw [List.dropWhile_cons, if_neg (by decide)]
    have hlast : d.toList = [] → (' ' :: d.toList).getLast? = some ' ' := by intro h; rw [h]; rfl
    unfold parseColumnExpr
    dsimp only
    rw [r1, r2, if_neg hne]
    cases c.notNull <;> simp [heq, hdr]
    all_goals
      cases h0 : d.toList with
      | nil => simp [htrim]
      | cons x xs =>
        rw [h0] at t1 t2
        dsimp only
        rw [if_neg t2, htrim, trim_self t1.1 t1.2]

theorem k_leaf (k n v) : (Node.leaf k n v).kind = k := rfl
theorem k_branch (k n v) : (Node.branch k n v).kind = k := rfl
theorem n_leaf (k n v) : (Node.leaf k n v).name = n := rfl
theorem n_branch (k n v) : (Node.branch k n v).name = n := rfl
theorem k_varargs (k n v) : (Node.ofVarargs k n v).kind = k := rfl
theorem n_varargs (k n v) : (Node.ofVarargs k n v).name = n := rfl

theorem v_str (k n s) : (Node.leaf k n (some (.string s))).str = some s := rfl
theorem v_bool (k n s) : (Node.leaf k n (some (.boolean s))).bool = some s := rfl
theorem v_int (k n s) : (Node.leaf k n (some (.number (.integer s)))).int = some s := rfl
theorem v_nodes (k n s) : (Node.branch k n s).nodes = some s := rfl

theorem column_node {s t : String} {c : Column} (h : ColumnDefinable c) (hs : c.schemaName = s)
    (ht : c.tableName = t) : ∃ n, Fine n ∧ n.kind = "column" ∧ parseColumn s t n = .ok c := by
  refine ⟨.leaf "column" (some c.name) (some (.string (wColumnText c))), ?_, rfl, ?_⟩
  · rw [Fine]; exact ⟨nameOk_keyed (by decide) h.name, by simp [ValueOk]⟩
  · unfold parseColumn assertKind
    rw [if_pos (show (Node.leaf "column" (some c.name) (some (.string (wColumnText c)))).kind = "column" from rfl)]
    have := wColumnText_reads h
    subst hs ht
    cases c with
    | mk a b n ty nn d =>
      dsimp only at this ⊢
      simp only [coerceName, n_leaf, orErr, coerceStr, v_str, this]
      cases d <;> simp [String.ofList_toList]

theorem fine_str {k : String} (hk : k ∈ keyWords) (v : String) : Fine (.ofStr k v) := by
  unfold Node.ofStr; rw [Fine]; exact ⟨keyed_none hk, by simp [ValueOk]⟩
theorem fine_bool {k : String} (hk : k ∈ keyWords) (v : Bool) : Fine (.ofBool k v) := by
  unfold Node.ofBool; rw [Fine]; exact ⟨keyed_none hk, by simp [ValueOk]⟩
theorem fine_int {k : String} (hk : k ∈ keyWords) {v : Int} (h : Int64 v) : Fine (.ofInt k v) := by
  unfold Node.ofInt; rw [Fine, ValueOk]; exact ⟨keyed_none hk, h⟩
theorem fine_varargs {k : String} {n : Option String} (hk : Keyed k n) (v : List String) :
    Fine (.ofVarargs k n v) := by
  unfold Node.ofVarargs; rw [Fine]; exact ⟨hk, valueOk_varargs v⟩

theorem fine_branch {k : String} {n : Option String} {ns : List Node} (hk : Keyed k n)
    (h : ∀ m ∈ ns, Fine m) (hn : (ns.map fun m => (m.kind, m.name)).Nodup) : Fine (.branch k n ns) := by
  rw [Fine]; exact ⟨hk, fines_iff.2 h, hn⟩

theorem constraint_node {s t : String} {c : Constraint} (h : ConstraintDefinable c)
    (hs : c.schemaName = s) (ht : c.tableName = t) :
    ∃ n, Fine n ∧ n.kind = "constraint" ∧ parseConstraint s t n = .ok c := by
  obtain ⟨hn, hc⟩ := h
  cases c with
  | primaryKey k =>
    cases k with
    | mk a b name cols d i =>
    cases hs; cases ht
    refine ⟨.branch "constraint" (some name) [.ofVarargs "primary key" none cols, .ofBool "deferrable" d,
      .ofBool "initially deferred" i], fine_branch (nameOk_keyed (by decide) hn) ?_ ?_, rfl, ?_⟩
    · simp only [List.forall_mem_cons, List.not_mem_nil, false_implies, implies_true, and_true]
      exact ⟨fine_varargs (keyed_none (by decide)) _, fine_bool (by decide) _, fine_bool (by decide) _⟩
    · simp [Node.ofBool, k_varargs, n_varargs, k_leaf, n_leaf]
    · have e := varargs_node "primary key" none cols
      simp [parseConstraint, coerceNodes, v_nodes, Constraint.schemaName, Constraint.tableName, Relation.schemaName, orErr, parsePrimaryKey, readNode, assertKind,
        coerceName, n_leaf, n_branch, n_varargs, k_leaf, k_branch, k_varargs, readAttrs, primaryKeyStep, coerceVarargs, e, coerceBool,
        v_bool, Node.ofBool, finishPrimaryKey]
  | unique k =>
    cases k with
    | mk a b name cols d i =>
    cases hs; cases ht
    refine ⟨.branch "constraint" (some name) [.ofVarargs "unique" none cols, .ofBool "deferrable" d,
      .ofBool "initially deferred" i], fine_branch (nameOk_keyed (by decide) hn) ?_ ?_, rfl, ?_⟩
    · simp only [List.forall_mem_cons, List.not_mem_nil, false_implies, implies_true, and_true]
      exact ⟨fine_varargs (keyed_none (by decide)) _, fine_bool (by decide) _, fine_bool (by decide) _⟩
    · simp [Node.ofBool, k_varargs, n_varargs, k_leaf, n_leaf]
    · have e := varargs_node "unique" none cols
      cases cols with
      | nil => exact absurd rfl hc
      | cons x xs =>
      simp [parseConstraint, coerceNodes, v_nodes, Constraint.schemaName, Constraint.tableName, Relation.schemaName, orErr, parseUnique, readNode, assertKind,
        coerceName, n_leaf, n_branch, n_varargs, k_leaf, k_branch, k_varargs, readAttrs, uniqueStep, coerceVarargs, e, coerceBool,
        v_bool, Node.ofBool, finishUnique]
  | check k =>
    cases k with
    | mk a b name cols d i =>
    cases hs; cases ht
    refine ⟨.branch "constraint" (some name) [.ofStr "check" cols, .ofBool "deferrable" d,
      .ofBool "initially deferred" i], fine_branch (nameOk_keyed (by decide) hn) ?_ ?_, rfl, ?_⟩
    · simp only [List.forall_mem_cons, List.not_mem_nil, false_implies, implies_true, and_true]
      exact ⟨fine_str (by decide) _, fine_bool (by decide) _, fine_bool (by decide) _⟩
    · simp [Node.ofStr, Node.ofBool, k_leaf, n_leaf]
    · simp [parseConstraint, coerceNodes, v_nodes, Constraint.schemaName, Constraint.tableName, Relation.schemaName, orErr, parseCheck, readNode, assertKind,
        coerceName, n_leaf, n_branch, n_varargs, k_leaf, k_branch, k_varargs, readAttrs, checkStep, coerceStr, coerceBool, v_str,
        v_bool, Node.ofBool, Node.ofStr, finishCheck]
  | foreignKey k =>
    obtain ⟨hne, ref, hr, hrt⟩ := hc
    cases hs; cases ht
    have href : parseTableRef k.schemaName ref = .ok (k.targetSchema, k.targetTable) := by
      obtain ⟨h1, h2⟩ := hrt
      unfold parseTableRef
      rcases h2 with ⟨rfl, e⟩ | ⟨rfl, h3⟩
      · rw [splitDot_none h1]; simp [e]
      · have e : (k.targetSchema ++ "." ++ k.targetTable).toList =
          k.targetSchema.toList ++ '.' :: k.targetTable.toList := by simp
        rw [e, splitDot_append h3, splitDot_none h1]; simp
    refine ⟨.branch "constraint" (some k.name) [.ofVarargs "foreign key" none k.columns,
      .ofVarargs "references" (some ref) k.targetColumns, .ofBool "deferrable" k.deferrable,
      .ofBool "initially deferred" k.initiallyDeferred, .ofStr "match" k.matchOption,
      .ofStr "on update" k.updateRule, .ofStr "on delete" k.deleteRule],
      fine_branch (nameOk_keyed (by decide) hn) ?_ ?_, rfl, ?_⟩
    · simp only [List.forall_mem_cons, List.not_mem_nil, false_implies, implies_true, and_true]
      exact ⟨fine_varargs (keyed_none (by decide)) _, fine_varargs (nameOk_keyed (by decide) hr) _,
        fine_bool (by decide) _, fine_bool (by decide) _, fine_str (by decide) _, fine_str (by decide) _,
        fine_str (by decide) _⟩
    · simp [Node.ofBool, Node.ofStr, k_varargs, n_varargs, k_leaf, n_leaf]
    · have e1 := varargs_node "foreign key" none k.columns
      have e2 := varargs_node "references" (some ref) k.targetColumns
      cases k with
      | mk a b name cols ts tt tc mo ur dr d i =>
      cases tc with
      | nil => exact absurd rfl hne
      | cons x xs =>
      dsimp only at e1 e2 href
      simp [parseConstraint, coerceNodes, v_nodes, Constraint.schemaName, Constraint.tableName, Relation.schemaName, orErr, parseForeignKey, readNode, assertKind,
        coerceName, n_leaf, n_branch, n_varargs, k_leaf, k_branch, k_varargs, readAttrs, foreignKeyStep, coerceVarargs, coerceNameVarargs,
        e1, e2, coerceBool, coerceStr, v_str, Node.ofStr, href,
        v_bool, Node.ofBool, finishForeignKey]

/-! ### Putting them together -/

theorem choose_nodes {α : Type} {f : Node → Except Fail α} {as : List α}
    (h : ∀ a ∈ as, ∃ n, Fine n ∧ f n = .ok a) : ∃ ns : List Node, (∀ n ∈ ns, Fine n) ∧ ns.map f = as.map Except.ok := by
  induction as with
  | nil => exact ⟨[], by simp, rfl⟩
  | cons a as ih =>
    obtain ⟨n, h1, h2⟩ := h a (by simp)
    obtain ⟨ns, h3, h4⟩ := ih fun a ha => h a (by simp [ha])
    exact ⟨n :: ns, by simpa [h1] using h3, by rw [List.map_cons, List.map_cons, h2, h4]⟩

theorem items_nodup {α β : Type} {kind : String} {f : Node → Except Fail (α ⊕ β)} {na : α → String}
    {nb : β → String} (hf : ∀ n x, f n = .ok x →
      (decide (n.kind = kind), n.name) = x.elim (fun a => (false, some (na a))) fun b => (true, some (nb b)))
    {as : List α} {bs : List β} {ns : List Node} (h : ns.map f = (as.map Sum.inl ++ bs.map Sum.inr).map .ok)
    (ha : (as.map na).Nodup) (hb : (bs.map nb).Nodup) :
    (ns.map fun m => (m.kind, m.name)).Nodup := by
  have gen : ∀ (xs : List (α ⊕ β)) (ns : List Node), ns.map f = xs.map .ok →
      (ns.map fun m => (decide (m.kind = kind), m.name)) =
        xs.map fun x => x.elim (fun a => (false, some (na a))) fun b => (true, some (nb b)) := by
    intro xs
    induction xs with
    | nil => intro ns h; cases ns with
      | nil => rfl
      | cons _ _ => cases h
    | cons x xs ih =>
      intro ns h
      cases ns with
      | nil => cases h
      | cons n ns =>
        rw [List.map_cons, List.map_cons, List.cons.injEq] at h
        rw [List.map_cons, List.map_cons, ih ns h.2, hf n x h.1]
  refine nodup_of_map (fun p : String × Option String => (decide (p.1 = kind), p.2)) ?_
  rw [List.map_map]
  show (ns.map fun m => (decide (m.kind = kind), m.name)).Nodup
  rw [gen _ _ h, List.map_append, List.map_map, List.map_map, List.nodup_append]
  refine ⟨?_, ?_, ?_⟩
  · refine nodup_of_map (fun p : Bool × Option String => p.2.getD "") ?_
    rw [List.map_map]; exact ha
  · refine nodup_of_map (fun p : Bool × Option String => p.2.getD "") ?_
    rw [List.map_map]; exact hb
  · intro a ha b hb e
    obtain ⟨_, _, rfl⟩ := List.mem_map.1 ha
    obtain ⟨_, _, rfl⟩ := List.mem_map.1 hb
    cases e

theorem table_node {s : String} {t : Table} (h : RelationDefinable (.table t)) (hw : t.WF)
    (hs : t.schemaName = s) : ∃ n, Fine n ∧ n.kind = "table" ∧ parseTable s n = .ok t := by
  obtain ⟨hn, hc, hk⟩ := h
  have hname : t.constraints.values.map Constraint.name = t.constraints.keys :=
    values_map_name fun p hp => (hw.cons_home p hp).1
  obtain ⟨ns, h1, h2⟩ := choose_nodes (f := tableItem s t.name)
    (as := t.columns.map Sum.inl ++ t.constraints.values.map Sum.inr) (by
      intro a ha
      rcases List.mem_append.1 ha with ha | ha
      · obtain ⟨c, hcm, rfl⟩ := List.mem_map.1 ha
        obtain ⟨n, f1, f2, f3⟩ := column_node (s := s) (t := t.name) (hc c hcm)
          (hs ▸ (hw.cols_home c hcm).1) (hw.cols_home c hcm).2
        refine ⟨n, f1, ?_⟩
        unfold tableItem
        rw [if_pos f2, f3]
      · obtain ⟨c, hcm, rfl⟩ := List.mem_map.1 ha
        obtain ⟨p, hp, rfl⟩ := List.mem_map.1 hcm
        obtain ⟨n, f1, f2, f3⟩ := constraint_node (s := s) (t := t.name) (hk p hp)
          (hs ▸ (hw.cons_home p hp).2.1) (hw.cons_home p hp).2.2
        refine ⟨n, f1, ?_⟩
        unfold tableItem
        rw [f2, if_neg (by decide), if_pos rfl, f3])
  refine ⟨.branch "table" (some t.name) ns, fine_branch (nameOk_keyed (by decide) hn) h1 ?_, rfl, ?_⟩
  · refine items_nodup (kind := "constraint") (na := Column.name) (nb := Constraint.name) ?_ h2
      hw.cols_nodup (by rw [hname]; exact hw.cons_nodup)
    intro n x hx
    have := tableItem_name hx
    cases x with
    | inl c => obtain ⟨e1, e2⟩ := this; rw [e1, e2]; rfl
    | inr c => obtain ⟨e1, e2⟩ := this; rw [e1, e2]; rfl
  · refine parseTable_ok_iff.2 ⟨rfl, t.name, ns, _, rfl, rfl, h2, ?_, ?_, ?_⟩
    · rw [lefts_inl_inr]; exact hw.cols_nodup
    · rw [rights_inl_inr, hname]; exact hw.cons_nodup
    · rw [lefts_inl_inr, rights_inl_inr]
      have : (t.constraints.values.map fun c => (c.name, c)) = t.constraints := by
        unfold AMap.values
        rw [List.map_map]
        conv => rhs; rw [← List.map_id t.constraints]
        exact List.map_congr_left fun p hp => Prod.ext (hw.cons_home p hp).1 rfl
      rw [this, ← hs]

theorem relation_node {s : String} {r : Relation} (h : RelationDefinable r) (hw : r.WF)
    (hs : r.schemaName = s) : ∃ n, Fine n ∧ schemaItem s n = .ok (.inl r) := by
  cases r with
  | table t =>
    obtain ⟨n, h1, h2, h3⟩ := table_node h hw hs
    refine ⟨n, h1, ?_⟩
    unfold schemaItem
    rw [if_pos h2, h3]; rfl
  | view v =>
    cases v with
    | mk sc name q =>
    cases hs
    refine ⟨.branch "view" (some name) [.ofStr "as" q], fine_branch (nameOk_keyed (by decide) h.1) ?_ ?_, ?_⟩
    · simp only [List.forall_mem_cons, List.not_mem_nil, false_implies, implies_true, and_true]
      exact fine_str (by decide) _
    · simp
    · simp [schemaItem, k_leaf, k_branch, k_varargs, parseView, readNode, assertKind, coerceName, n_leaf, n_branch, n_varargs, orErr,
        coerceNodes, v_nodes, Constraint.schemaName, Constraint.tableName, Relation.schemaName, readAttrs, viewStep, Node.ofStr, coerceStr, v_str, finishView,
        Except.map]
  | index i =>
    obtain ⟨hn, hon, hm⟩ := h
    cases i with
    | mk sc name tbl u m ks =>
    cases hs
    dsimp only at hm
    subst hm
    refine ⟨.branch "index" (some name) [.ofBool "unique" u, .ofVarargs "on" (some tbl) ks],
      fine_branch (nameOk_keyed (by decide) hn) ?_ ?_, ?_⟩
    · simp only [List.forall_mem_cons, List.not_mem_nil, false_implies, implies_true, and_true]
      exact ⟨fine_bool (by decide) _, fine_varargs (nameOk_keyed (by decide) hon) _⟩
    · simp [Node.ofBool, k_varargs, n_varargs, k_leaf, n_leaf]
    · have e := varargs_node "on" (some tbl) ks
      simp [schemaItem, k_leaf, k_branch, k_varargs, parseIndex, readNode, assertKind, coerceName, n_leaf, n_branch, n_varargs, orErr,
        coerceNodes, v_nodes, Constraint.schemaName, Constraint.tableName, Relation.schemaName, readAttrs, indexStep, Node.ofBool, coerceBool, v_bool, coerceNameVarargs,
        e, finishIndex,
        Except.map]
  | sequence q =>
    obtain ⟨hn, hi, h1, h2, h3, h4, ho, hot⟩ := h
    cases q with
    | mk sc name ty inc mn mx st ca cy ot oc =>
    cases hs
    dsimp only at hi h1 h2 h3 h4 ho hot
    subst hi
    have hin : 1 = 1 := rfl
    cases ot with
    | none =>
      have : oc = none := ho.1 rfl
      subst this
      refine ⟨.branch "sequence" (some name) [.ofStr "as" ty, .ofInt "minvalue" mn, .ofInt "maxvalue" mx,
        .ofInt "start" st, .ofInt "cache" ca, .ofBool "cycle" cy],
        fine_branch (nameOk_keyed (by decide) hn) ?_ ?_, ?_⟩
      · simp only [List.forall_mem_cons, List.not_mem_nil, false_implies, implies_true, and_true]
        exact ⟨fine_str (by decide) _, fine_int (by decide) h1, fine_int (by decide) h2,
          fine_int (by decide) h3, fine_int (by decide) h4, fine_bool (by decide) _⟩
      · simp [Node.ofInt, Node.ofBool, Node.ofStr, k_leaf, n_leaf]
      · simp [schemaItem, k_leaf, k_branch, k_varargs, parseSequence, readNode, assertKind, coerceName, n_leaf, n_branch, n_varargs, orErr,
          coerceNodes, v_nodes, Constraint.schemaName, Constraint.tableName, Relation.schemaName, readAttrs, sequenceStep, Node.ofStr, Node.ofInt, Node.ofBool, coerceBool,
          coerceInt, coerceStr, v_str, v_int, v_bool, finishSequence, orDefault, Except.map]
    | some t =>
      cases oc with
      | none => exact absurd (ho.2 rfl) (by simp)
      | some c =>
      refine ⟨.branch "sequence" (some name) [.ofStr "as" ty, .ofInt "minvalue" mn, .ofInt "maxvalue" mx,
        .ofInt "start" st, .ofInt "cache" ca, .ofBool "cycle" cy,
        .leaf "owned by" (some t) (some (.string c))],
        fine_branch (nameOk_keyed (by decide) hn) ?_ ?_, ?_⟩
      · simp only [List.forall_mem_cons, List.not_mem_nil, false_implies, implies_true, and_true]
        refine ⟨fine_str (by decide) _, fine_int (by decide) h1, fine_int (by decide) h2,
          fine_int (by decide) h3, fine_int (by decide) h4, fine_bool (by decide) _, ?_⟩
        rw [Fine]; exact ⟨nameOk_keyed (by decide) (hot t rfl), by simp [ValueOk]⟩
      · simp [Node.ofInt, Node.ofBool, Node.ofStr, k_leaf, n_leaf]
      · simp [schemaItem, k_leaf, k_branch, k_varargs, parseSequence, readNode, assertKind, coerceName, n_leaf, n_branch, n_varargs, orErr,
          coerceNodes, v_nodes, Constraint.schemaName, Constraint.tableName, Relation.schemaName, readAttrs, sequenceStep, Node.ofStr, Node.ofInt, Node.ofBool, coerceBool,
          coerceInt, coerceStr, coerceNameStr, v_str, v_int, v_bool, finishSequence, orDefault,
          Except.map]

theorem function_node {s : String} {f : Function} (h : NameOk f.name) (hs : f.schemaName = s) :
    ∃ n, Fine n ∧ schemaItem s n = .ok (.inr f) := by
  cases f with
  | mk sc name body lang ret vol =>
  cases hs
  refine ⟨.branch "function" (some name) [.ofStr "as" body, .ofStr "language" lang, .ofStr "returns" ret,
    .ofStr "volatility" vol], fine_branch (nameOk_keyed (by decide) h) ?_ ?_, ?_⟩
  · simp only [List.forall_mem_cons, List.not_mem_nil, false_implies, implies_true, and_true]
    exact ⟨fine_str (by decide) _, fine_str (by decide) _, fine_str (by decide) _, fine_str (by decide) _⟩
  · simp [Node.ofStr, k_leaf, n_leaf]
  · simp [schemaItem, k_leaf, k_branch, parseFunction, readNode, assertKind, coerceName, n_branch, orErr,
      coerceNodes, v_nodes, Constraint.schemaName, Constraint.tableName, Relation.schemaName, readAttrs, functionStep, Node.ofStr, coerceStr, v_str, finishFunction,
      Except.map]

theorem schema_node {s : Schema} (hw : s.WF) (hn : NameOk s.name)
    (hr : ∀ q ∈ s.relations, RelationDefinable q.2) (hf : ∀ q ∈ s.functions, NameOk q.2.name) :
    ∃ n, Fine n ∧ n.kind = "schema" ∧ parseSchema n = .ok s := by
  have hrn : s.relations.values.map Relation.name = s.relations.keys :=
    values_map_name fun p hp => (hw.rels_home p hp).1
  have hfn : s.functions.values.map Function.name = s.functions.keys :=
    values_map_name fun p hp => (hw.funs_home p hp).1
  obtain ⟨ns, h1, h2⟩ := choose_nodes (f := schemaItem s.name)
    (as := s.relations.values.map Sum.inl ++ s.functions.values.map Sum.inr) (by
      intro a ha
      rcases List.mem_append.1 ha with ha | ha
      · obtain ⟨c, hcm, rfl⟩ := List.mem_map.1 ha
        obtain ⟨p, hp, rfl⟩ := List.mem_map.1 hcm
        exact relation_node (hr p hp) (hw.rels_home p hp).2.2 (hw.rels_home p hp).2.1
      · obtain ⟨c, hcm, rfl⟩ := List.mem_map.1 ha
        obtain ⟨p, hp, rfl⟩ := List.mem_map.1 hcm
        exact function_node (hf p hp) (hw.funs_home p hp).2)
  refine ⟨.branch "schema" (some s.name) ns, fine_branch (nameOk_keyed (by decide) hn) h1 ?_, rfl, ?_⟩
  · refine items_nodup (kind := "function") (na := Relation.name) (nb := Function.name) ?_ h2
      (by rw [hrn]; exact hw.rels_nodup) (by rw [hfn]; exact hw.funs_nodup)
    intro n x hx
    have := schemaItem_name hx
    cases x with
    | inl c => obtain ⟨e1, e2⟩ := this; rw [e2, decide_eq_false e1]; rfl
    | inr c => obtain ⟨e1, e2⟩ := this; rw [e1, e2]; rfl
  · refine parseSchema_ok_iff.2 ⟨rfl, s.name, ns, _, rfl, rfl, h2, ?_, ?_, ?_⟩
    · rw [lefts_inl_inr, hrn]; exact hw.rels_nodup
    · rw [rights_inl_inr, hfn]; exact hw.funs_nodup
    · rw [lefts_inl_inr, rights_inl_inr]
      have e1 : (s.relations.values.map fun c => (c.name, c)) = s.relations := by
        unfold AMap.values
        rw [List.map_map]
        conv => rhs; rw [← List.map_id s.relations]
        exact List.map_congr_left fun p hp => Prod.ext (hw.rels_home p hp).1 rfl
      have e2 : (s.functions.values.map fun c => (c.name, c)) = s.functions := by
        unfold AMap.values
        rw [List.map_map]
        conv => rhs; rw [← List.map_id s.functions]
        exact List.map_congr_left fun p hp => Prod.ext (hw.funs_home p hp).1 rfl
      rw [e1, e2]

/-- Every such snapshot is what one file defines. -/
theorem definable_file {d : Database} (hd : d.WF) (h : Definable d) :
    ∃ y, Proper y ∧ loadDoc y = .ok d := by
  have hnames : d.schemas.values.map Schema.name = d.schemas.keys :=
    values_map_name fun p hp => (hd.home p hp).1
  obtain ⟨ns, h1, h2⟩ := choose_nodes (f := parseSchema) (as := d.schemas.values) (by
    intro s hs
    obtain ⟨p, hp, rfl⟩ := List.mem_map.1 hs
    obtain ⟨a, b, c⟩ := h p hp
    obtain ⟨n, f1, _, f2⟩ := schema_node (hd.home p hp).2 a b c
    exact ⟨n, f1, f2⟩)
  have hload := loadNodes_new h2 Database.new (by
    show (d.schemas.values.map Schema.name).Nodup
    rw [hnames]; exact hd.nodup)
  have hkeys : (ns.map fun m => (m.kind, m.name)).Nodup := by
    refine nodup_of_map (fun p => p.2.getD "") ?_
    rw [List.map_map]
    have : ns.map ((fun p : String × Option String => p.2.getD "") ∘ fun m => (m.kind, m.name)) =
        d.schemas.values.map Schema.name := by
      have := congrArg (List.map fun o : Option String => o.getD "") (parse_names h2)
      rw [List.map_map, List.map_map] at this
      exact this
    rw [this, hnames]; exact hd.nodup
  refine ⟨.map (wKeys ns) (wNodes ns), ?_, ?_⟩
  · rw [Proper]
    exact ⟨wKeys_nodup (fines_iff.2 h1) hkeys, by rw [wKeys_eq, wNodes_length, List.length_map],
      fines_proper (fines_iff.2 h1)⟩
  · unfold loadDoc
    dsimp only
    rw [fines_reads (fines_iff.2 h1)]
    dsimp only
    rw [hload]
    have e1 : (d.schemas.values.map fun c => (c.name, c)) = d.schemas := by
      unfold AMap.values
      rw [List.map_map]
      conv => rhs; rw [← List.map_id d.schemas]
      exact List.map_congr_left fun p hp => Prod.ext (hd.home p hp).1 rfl
    rw [e1]; rfl

/-! ### The converse -/

theorem parseEntry_int {kind : String} {name : Option String} {y : Yaml} {m : Node} {i : Int}
    (h : parseEntry kind name y = .ok m) (hi : integerOf m = some i) : Int64 i := by
  cases y with
  | map ks vs =>
    rw [parseEntry] at h
    split at h
    · cases h
    · cases h; cases hi
  | null => rw [parseEntry] at h; cases h; cases hi
  | bool b => rw [parseEntry] at h; cases h; cases hi
  | str b => rw [parseEntry] at h; cases h; cases hi
  | tagged => rw [parseEntry] at h; cases h
  | seq b =>
    rw [parseEntry] at h
    split at h <;> cases h
    cases hi
  | num b =>
    cases b with
    | float x =>
      rw [parseEntry] at h
      split at h
      · cases h
      · next v hv =>
        cases h
        rw [parseNum] at hv
        cases hv
        cases hi
    | integer x =>
      rw [parseEntry] at h
      split at h
      · cases h
      · next v hv =>
        cases h
        rw [parseNum] at hv
        split at hv
        · next hr => cases hv; cases hi; exact hr
        · cases hv

theorem ReadNode.int {m : Node} (h : ReadNode m) {i : Int} (hi : integerOf m = some i) : Int64 i := by
  obtain ⟨ks, vs, ns, h, hm⟩ := h
  obtain ⟨key, y, _, _, h2⟩ := parseMapping_mem h hm
  exact parseEntry_int h2 hi

theorem stated_int {n : Node} (hn : ReadNode n) {k : String} {i : Int}
    (h : stated n k integerOf = some i) : Int64 i := by
  obtain ⟨c, hc, e⟩ := stated_mem h
  exact (hn.childOf hc).1.int e

theorem stated_int_getD {n : Node} (hn : ReadNode n) {k : String} {i : Int} (hi : Int64 i) :
    Int64 ((stated n k integerOf).getD i) := by
  cases h : stated n k integerOf with
  | none => exact hi
  | some v => exact stated_int hn h

theorem around_trimmed {o : List Char} {s : String} (h : Around o s.toList) : Trimmed s := by
  obtain ⟨_, _, _, _, _, h1, h2⟩ := h
  exact ⟨h1, h2⟩

theorem around_mem {o i : List Char} (h : Around o i) {c : Char} (hc : c ∈ i) : c ∈ o := by
  obtain ⟨a, b, e, _⟩ := h
  rw [e]; simp [hc]

theorem columnText_definable {c : Column} {text : String} (hn : NameOk c.name)
    (h : ColumnText text c.dataType c.notNull c.default) : ColumnDefinable c := by
  obtain ⟨ty, rest, _, h1, _, h2, h3⟩ := h
  refine ⟨hn, ⟨fun hc => (h1 _ (around_mem h2 hc)).1 rfl, fun hc => (h1 _ (around_mem h2 hc)).2 rfl,
    around_trimmed h2⟩, ?_⟩
  intro d hd
  rw [hd] at h3
  obtain ⟨_, _, _, _, _, h4, h5⟩ := h3
  exact ⟨around_trimmed h4, h5⟩

theorem relation_definable {s : String} {m : Node} {r : Relation} (hm : ReadNode m)
    (h : RelationStated s m r) (hw : r.WF) : RelationDefinable r := by
  have hr := relation_read hm h hw
  refine ⟨hr.nameOk, ?_⟩
  cases r with
  | table t =>
    have h : TableStated s m t := h
    have hw : t.WF := hw
    refine ⟨?_, ?_⟩
    · intro c hc
      obtain ⟨i, hi, e⟩ := List.mem_iff_getElem.1 hc
      have hi' : i < (childrenOf m "column").length := by rw [h.count]; exact hi
      have := h.columns i _ c (List.getElem?_eq_getElem hi') (by rw [List.getElem?_eq_getElem hi, e])
      obtain ⟨text, _, ht⟩ := this.text
      exact columnText_definable (hr.2.1 c hc) ht
    · intro p hp
      have hg := AMap.get?_of_mem hw.cons_nodup hp
      obtain ⟨_, c, hc, hs⟩ := h.only _ _ hg
      refine ⟨hr.2.2 p hp, ?_⟩
      clear hp hg
      generalize p.2 = x at hs
      obtain ⟨_, _, hsc, _, first, rest, _, hb⟩ := hs
      cases x with
      | primaryKey k => trivial
      | check k => trivial
      | unique k => exact hb.2.2.1
      | foreignKey k =>
        obtain ⟨_, _, ⟨name, h1, h2⟩, h3, _⟩ := hb
        obtain ⟨c', hc', e⟩ := stated_mem h1
        have hsc : k.schemaName = s := hsc
        exact ⟨h3, name, ((hm.childOf hc).1.childOf hc').1.name (named_name e), by rw [hsc]; exact h2⟩
  | view v => trivial
  | index i => exact hr.2
  | sequence q =>
    have h : SequenceStated s m q := h
    have hmin : Int64 q.minValue := by
      have := h.min
      split at this
      · next v hv => rw [this]; exact stated_int hm hv
      · rw [if_neg (by rw [hr.2.1]; decide)] at this
        rw [this]; unfold Int64 least greatest; decide
    have hmax : Int64 q.maxValue := by
      have := h.max
      split at this
      · next v hv => rw [this]; exact stated_int hm hv
      · rw [if_neg (by rw [hr.2.1]; decide)] at this
        obtain ⟨mn, hr⟩ := this
        unfold typeRange at hr
        split at hr
        · injection hr with hr; injection hr with _ hr; rw [← hr]; unfold Int64 least greatest; decide
        · split at hr
          · injection hr with hr; injection hr with _ hr; rw [← hr]; unfold Int64 least greatest; decide
          · split at hr
            · injection hr with hr; injection hr with _ hr; rw [← hr]; unfold Int64 least greatest; decide
            · cases hr
    refine ⟨hr.2.1, hmin, hmax, ?_, ?_, ?_, hr.2.2⟩
    · rw [h.start]
      refine stated_int_getD hm ?_
      split
      · exact hmax
      · exact hmin
    · rw [h.cache]
      exact stated_int_getD hm (by unfold Int64 least greatest; decide)
    · rcases h.owner with ⟨h1, h2, _⟩ | ⟨t, c, h1, h2, _⟩
      · rw [h1, h2]
      · rw [h1, h2]; simp

theorem snapshot_definable {es : List (DirTree Yaml)} {d : Database}
    (h : Load.snapshot parseDoc es = .ok d) : Definable d := by
  obtain ⟨hd, ha⟩ := snapshot_all h
  have hst := snapshot_states h
  intro p hp
  refine ⟨(ha p hp).1, ?_, (ha p hp).2.2⟩
  intro q hq
  obtain ⟨_, m, hm, hs⟩ := hst.relation _ _ _ (relationAt_mem hd hp hq)
  refine relation_definable (inSchema_read ?_ hm) hs ((hd.home p hp).2.rels_home q hq).2.2
  intro n hn
  obtain ⟨f, _, hf⟩ := List.mem_flatMap.1 hn
  exact fileNodes_read n hf

/-- The integers of what is read from definition files are of 64 bits. -/
theorem snapshot_int64 {es : List (DirTree Yaml)} {d : Database}
    (h : Load.snapshot parseDoc es = .ok d) : SnapshotInt64 d := by
  intro p hp q hq s hs
  have := ((snapshot_definable h) p hp).2.1 q hq
  rw [hs] at this
  obtain ⟨_, h1, h2, h3, h4, h5, _⟩ := this
  exact ⟨by rw [h1]; unfold Int64 least greatest; decide, h2, h3, h4, h5⟩

theorem one_file {d : Database} (hd : d.WF) {y : Yaml} (h2 : loadDoc y = .ok d) :
    Load.snapshot parseDoc [.file "schema.yaml" y] = .ok d := by
  obtain ⟨ss, h3, h4⟩ := loadDoc_iff.1 h2
  have hc : Load.collect [DirTree.file "schema.yaml" y] = [y] := by
    have hy : Load.isYaml "schema.yaml" = true := by decide +kernel
    simp [Load.collect, Load.collectEntry, hy]
  unfold Load.snapshot
  rw [hc]
  simp only [Load.filesInto, Load.fileInto, h3, h4, merge_new hd]

/-- What is saved and read back is definable. -/
theorem saved_definable {d : Database} (hd : d.WF) (hi : SnapshotInt64 d) (h : SnapshotOk d) :
    Definable d := by
  obtain ⟨y, _, h2⟩ := (saves_iff hd hi).2 h
  exact snapshot_definable (one_file hd h2)

end Def
end Podo
