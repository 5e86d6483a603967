import Verif.Proofs.Ddl
import Verif.Proofs.Load
/-
Reading back tables and schemas; what an accepted table or schema looks like.
-/
set_option linter.unusedSimpArgs false
namespace Podo
namespace Def
open Text

/-! ### Loops that collect items -/

/-- A parser that goes through is one on a node of the right kind, with a name and children. -/
theorem readNode_ok_iff {α β : Type} {kind : String} {step : String → α → Node → Except Fail α}
    {init : α} {finish : String → α → Bool → Except Fail β} {n : Node} {b : β} :
    readNode kind step init finish n = .ok b ↔ n.kind = kind ∧ ∃ name ns a bad,
      n.name = some name ∧ n.nodes = some ns ∧
      readAttrs (step name) init false ns = .ok (a, bad) ∧ finish name a bad = .ok b := by
  unfold readNode assertKind coerceName coerceNodes orErr
  constructor
  · intro h
    split at h
    · next hk =>
      refine ⟨hk, ?_⟩
      cases hn : n.name with
      | none => rw [hn] at h; cases h
      | some name =>
        cases hs : n.nodes with
        | none => rw [hn, hs] at h; cases h
        | some ns =>
          rw [hn, hs] at h
          dsimp only at h
          split at h
          · cases h
          · next a bad e => exact ⟨name, ns, a, bad, rfl, rfl, e, h⟩
    · cases h
  · rintro ⟨hk, name, ns, a, bad, hn, hs, hr, hf⟩
    rw [if_pos hk, hn, hs]
    dsimp only
    rw [hr]
    exact hf

/-- A loop that reads an item from every child and appends it. -/
theorem readAttrs_items {α ι : Type} {step : α → Node → Except Fail α} {f : Node → Except Fail ι}
    {push : α → ι → α}
    (hs : ∀ a n, step a n = (f n).map (push a))
    (ns : List Node) (a a' : α) (bad : Bool) :
    readAttrs step a bad ns = .ok (a', false) ↔
      bad = false ∧ ∃ xs : List ι, ns.map f = xs.map .ok ∧ a' = xs.foldl push a := by
  induction ns generalizing a bad with
  | nil =>
    simp only [readAttrs, List.map_nil, Except.ok.injEq, Prod.mk.injEq]
    constructor
    · rintro ⟨rfl, rfl⟩; exact ⟨rfl, [], rfl, rfl⟩
    · rintro ⟨rfl, xs, hx, rfl⟩
      cases xs with
      | nil => exact ⟨rfl, rfl⟩
      | cons _ _ => simp at hx
  | cons n ns ih =>
    rw [readAttrs, hs]
    cases hf : f n with
    | ok x =>
      show readAttrs step (push a x) bad ns = _ ↔ _
      rw [ih]
      refine and_congr_right fun _ => ?_
      constructor
      · rintro ⟨xs, hx, rfl⟩
        exact ⟨x :: xs, by rw [List.map_cons, List.map_cons, hf, hx], rfl⟩
      · rintro ⟨xs, hx, rfl⟩
        cases xs with
        | nil => simp at hx
        | cons y ys =>
          simp only [List.map_cons, List.cons.injEq, hf, Except.ok.injEq] at hx
          obtain ⟨rfl, hx⟩ := hx
          exact ⟨ys, hx, rfl⟩
    | error e =>
      have hno : ¬ (bad = false ∧ ∃ xs : List ι, (n :: ns).map f = xs.map .ok ∧
          a' = xs.foldl push a) := by
        rintro ⟨_, xs, hx, _⟩
        cases xs with
        | nil => simp at hx
        | cons y ys =>
          simp only [List.map_cons, List.cons.injEq, hf] at hx
          exact absurd hx.1 (by simp)
      refine ⟨fun h => absurd ?_ hno, fun h => absurd h hno⟩
      exfalso
      cases e with
      | error =>
        have := (ih a true).1 h
        exact absurd this.1 (by simp)
      | panic => cases h

/-- The lists whose items all read well. -/
theorem map_ok_iff {α β : Type} {f : α → Except Fail β} {xs : List α} {ys : List β} :
    xs.map f = ys.map .ok ↔ xs.length = ys.length ∧ ∀ p ∈ xs.zip ys, f p.1 = .ok p.2 := by
  induction xs generalizing ys with
  | nil => cases ys <;> simp
  | cons x xs ih =>
    cases ys with
    | nil => simp
    | cons y ys =>
      simp only [List.map_cons, List.cons.injEq, ih, List.length_cons, Nat.add_right_cancel_iff,
        List.zip_cons_cons, List.mem_cons, forall_eq_or_imp]
      constructor
      · rintro ⟨h1, h2, h3⟩; exact ⟨h2, h1, h3⟩
      · rintro ⟨h2, h1, h3⟩; exact ⟨h1, h2, h3⟩

theorem map_ok_mem {α β : Type} {f : α → Except Fail β} {xs : List α} {ys : List β}
    (h : xs.map f = ys.map .ok) {y : β} (hy : y ∈ ys) : ∃ x ∈ xs, f x = .ok y := by
  have : Except.ok y ∈ xs.map f := h ▸ List.mem_map_of_mem hy
  obtain ⟨x, hx, e⟩ := List.mem_map.1 this
  exact ⟨x, hx, e⟩

theorem map_ok_mem' {α β : Type} {f : α → Except Fail β} {xs : List α} {ys : List β}
    (h : xs.map f = ys.map .ok) {x : α} (hx : x ∈ xs) : ∃ y ∈ ys, f x = .ok y := by
  have : f x ∈ ys.map .ok := h ▸ List.mem_map_of_mem hx
  obtain ⟨y, hy, e⟩ := List.mem_map.1 this
  exact ⟨y, hy, e.symm⟩

/-! ### Tables -/

/-- What a child of a table is read as. -/
def tableItem (schema name : String) (n : Node) : Except Fail (Column ⊕ Constraint) :=
  if n.kind = "column" then
    match parseColumn schema name n with
    | .ok c => .ok (.inl c)
    | .error e => .error e
  else if n.kind = "constraint" then
    match parseConstraint schema name n with
    | .ok c => .ok (.inr c)
    | .error e => .error e
  else .error .error

def pushTableItem (a : List Column × List Constraint) :
    Column ⊕ Constraint → List Column × List Constraint
  | .inl c => (a.1 ++ [c], a.2)
  | .inr c => (a.1, a.2 ++ [c])

def lefts {α β : Type} (xs : List (α ⊕ β)) : List α := xs.filterMap Sum.getLeft?
def rights {α β : Type} (xs : List (α ⊕ β)) : List β := xs.filterMap Sum.getRight?

theorem mem_lefts {α β : Type} {xs : List (α ⊕ β)} {a : α} : a ∈ lefts xs ↔ .inl a ∈ xs := by
  unfold lefts
  rw [List.mem_filterMap]
  constructor
  · rintro ⟨x, hx, e⟩
    cases x with
    | inl b => simp only [Sum.getLeft?_inl, Option.some.injEq] at e; rw [← e]; exact hx
    | inr b => simp at e
  · intro h; exact ⟨_, h, rfl⟩

theorem mem_rights {α β : Type} {xs : List (α ⊕ β)} {a : β} : a ∈ rights xs ↔ .inr a ∈ xs := by
  unfold rights
  rw [List.mem_filterMap]
  constructor
  · rintro ⟨x, hx, e⟩
    cases x with
    | inr b => simp only [Sum.getRight?_inr, Option.some.injEq] at e; rw [← e]; exact hx
    | inl b => simp at e
  · intro h; exact ⟨_, h, rfl⟩

theorem lefts_inl_inr {α β : Type} (as : List α) (bs : List β) :
    lefts (as.map Sum.inl ++ bs.map Sum.inr) = as := by
  unfold lefts
  rw [List.filterMap_append, List.filterMap_map, List.filterMap_map]
  have h1 : as.filterMap (Sum.getLeft? ∘ (Sum.inl : α → α ⊕ β)) = as := by
    induction as with
    | nil => rfl
    | cons a as ih => rw [List.filterMap_cons]; simp only [Function.comp]; simpa using ih
  have h2 : bs.filterMap (Sum.getLeft? ∘ (Sum.inr : β → α ⊕ β)) = [] := by
    rw [List.filterMap_eq_nil_iff]; intro b _; rfl
  rw [h1, h2, List.append_nil]

theorem rights_inl_inr {α β : Type} (as : List α) (bs : List β) :
    rights (as.map Sum.inl ++ bs.map Sum.inr) = bs := by
  unfold rights
  rw [List.filterMap_append, List.filterMap_map, List.filterMap_map]
  have h1 : bs.filterMap (Sum.getRight? ∘ (Sum.inr : β → α ⊕ β)) = bs := by
    induction bs with
    | nil => rfl
    | cons a as ih => rw [List.filterMap_cons]; simp only [Function.comp]; simpa using ih
  have h2 : as.filterMap (Sum.getRight? ∘ (Sum.inl : α → α ⊕ β)) = [] := by
    rw [List.filterMap_eq_nil_iff]; intro b _; rfl
  rw [h1, h2, List.nil_append]

theorem tableStep_eq (s name : String) (a : List Column × List Constraint) (n : Node) :
    tableStep s name a n = (tableItem s name n).map (pushTableItem a) := by
  unfold tableStep tableItem
  split
  · cases parseColumn s name n <;> rfl
  · split
    · cases parseConstraint s name n <;> rfl
    · rfl

theorem foldl_pushTableItem (xs : List (Column ⊕ Constraint)) (a : List Column × List Constraint) :
    xs.foldl pushTableItem a = (a.1 ++ lefts xs, a.2 ++ rights xs) := by
  induction xs generalizing a with
  | nil => simp [lefts, rights]
  | cons x xs ih =>
    rw [List.foldl_cons, ih]
    cases x <;> simp [pushTableItem, lefts, rights, List.filterMap_cons]

theorem addColumns_ok_iff (cs : List Column) (t t' : Table) :
    addColumns t cs = .ok t' ↔ (cs.map Column.name).Nodup ∧
      (∀ c ∈ cs, c.name ∉ t.columns.map Column.name) ∧
      t' = { t with columns := t.columns ++ cs } := by
  induction cs generalizing t with
  | nil =>
    simp only [addColumns, Except.ok.injEq, List.map_nil, List.nodup_nil, List.not_mem_nil,
      false_implies, implies_true, true_and, List.append_nil]
    exact eq_comm
  | cons c cs ih =>
    rw [addColumns, Table.addColumn]
    have hhas : t.hasColumn c.name = true ↔ c.name ∈ t.columns.map Column.name := by
      unfold Table.hasColumn
      generalize t.columns = l
      induction l with
      | nil => simp [Table.findCol]
      | cons x l ih =>
        rw [Table.findCol, List.map_cons, List.mem_cons]
        by_cases e : x.name = c.name
        · rw [if_pos e]; simp [e]
        · rw [if_neg e, ih]
          constructor
          · exact .inr
          · rintro (h | h)
            · exact absurd h.symm e
            · exact h
    by_cases h : t.hasColumn c.name = true
    · rw [if_pos h]
      constructor
      · intro e; cases e
      · rintro ⟨_, h2, _⟩
        exact absurd (hhas.1 h) (h2 c (List.mem_cons_self ..))
    · rw [if_neg h]
      dsimp only
      rw [ih]
      simp only [List.map_cons, List.nodup_cons, List.mem_cons, forall_eq_or_imp, List.map_append,
        List.mem_append, List.map_nil, List.not_mem_nil, or_false, not_or, List.append_assoc,
        List.cons_append, List.nil_append]
      rw [hhas] at h
      constructor
      · rintro ⟨h1, h2, h3⟩
        refine ⟨⟨?_, h1⟩, ⟨h, fun x hx => (h2 x hx).1⟩, h3⟩
        intro hm
        obtain ⟨x, hx, e⟩ := List.mem_map.1 hm
        exact (h2 x hx).2 e
      · rintro ⟨⟨h0, h1⟩, ⟨_, h2⟩, h3⟩
        exact ⟨h1, fun x hx => ⟨h2 x hx, fun e => h0 (e ▸ List.mem_map_of_mem hx)⟩, h3⟩

theorem addConstraints_ok_iff (cs : List Constraint) (t t' : Table) :
    addConstraints t cs = .ok t' ↔ (cs.map Constraint.name).Nodup ∧
      (∀ c ∈ cs, c.name ∉ t.constraints.keys) ∧
      t' = { t with constraints := t.constraints ++ cs.map fun c => (c.name, c) } := by
  induction cs generalizing t with
  | nil =>
    simp only [addConstraints, Except.ok.injEq, List.map_nil, List.nodup_nil, List.not_mem_nil,
      false_implies, implies_true, true_and, List.append_nil]
    exact eq_comm
  | cons c cs ih =>
    rw [addConstraints, Table.addConstraint]
    by_cases h : t.constraints.has c.name = true
    · rw [if_pos h]
      constructor
      · intro e; cases e
      · rintro ⟨_, h2, _⟩
        exact absurd (AMap.has_iff.1 h) (h2 c (List.mem_cons_self ..))
    · rw [if_neg h]
      dsimp only
      rw [ih]
      simp only [List.map_cons, List.nodup_cons, List.mem_cons, forall_eq_or_imp, AMap.keys_insertNew,
        List.mem_append, List.not_mem_nil, or_false, not_or, List.append_assoc,
        List.cons_append, List.nil_append]
      simp only [AMap.insertNew, List.append_assoc, List.cons_append, List.nil_append]
      rw [AMap.has_iff] at h
      constructor
      · rintro ⟨h1, h2, h3⟩
        refine ⟨⟨?_, h1⟩, ⟨h, fun x hx => (h2 x hx).1⟩, h3⟩
        intro hm
        obtain ⟨x, hx, e⟩ := List.mem_map.1 hm
        exact (h2 x hx).2 e
      · rintro ⟨⟨h0, h1⟩, ⟨_, h2⟩, h3⟩
        exact ⟨h1, fun x hx => ⟨h2 x hx, fun e => h0 (e ▸ List.mem_map_of_mem hx)⟩, h3⟩

theorem finishTable_ok_iff {s name : String} {a : List Column × List Constraint} {bad : Bool}
    {t : Table} : finishTable s name a bad = .ok t ↔
      bad = false ∧ (a.1.map Column.name).Nodup ∧ (a.2.map Constraint.name).Nodup ∧
      t = ⟨s, name, a.1, a.2.map fun c => (c.name, c)⟩ := by
  unfold finishTable
  cases bad with
  | true => simp
  | false =>
    rw [if_neg (by simp)]
    simp only [true_and]
    cases h : addColumns (Table.new s name) a.1 with
    | error e =>
      constructor
      · intro h'; cases h'
      · rintro ⟨h1, _, _⟩
        have := (addColumns_ok_iff a.1 (Table.new s name) _).2
          ⟨h1, fun c _ => by simp [Table.new], rfl⟩
        rw [h] at this; cases this
    | ok t0 =>
      dsimp only
      obtain ⟨h1, _, rfl⟩ := (addColumns_ok_iff _ _ _).1 h
      rw [addConstraints_ok_iff]
      constructor
      · rintro ⟨h2, _, rfl⟩; exact ⟨h1, h2, rfl⟩
      · rintro ⟨_, h2, rfl⟩
        exact ⟨h2, fun c _ => by simp [Table.new], rfl⟩

/-- What an accepted table definition looks like. -/
theorem parseTable_ok_iff {s : String} {n : Node} {t : Table} :
    parseTable s n = .ok t ↔ n.kind = "table" ∧ ∃ name ns xs, n.name = some name ∧
      n.nodes = some ns ∧ ns.map (tableItem s name) = xs.map .ok ∧
      ((lefts xs).map Column.name).Nodup ∧ ((rights xs).map Constraint.name).Nodup ∧
      t = ⟨s, name, lefts xs, (rights xs).map fun c => (c.name, c)⟩ := by
  unfold parseTable
  rw [readNode_ok_iff]
  refine and_congr_right fun _ => ?_
  constructor
  · rintro ⟨name, ns, a, bad, hn, hs, hr, hf⟩
    obtain ⟨rfl, h1, h2, rfl⟩ := finishTable_ok_iff.1 hf
    obtain ⟨_, xs, hx, rfl⟩ := (readAttrs_items (tableStep_eq s name) _ _ _ _).1 hr
    rw [foldl_pushTableItem] at h1 h2 ⊢
    simp only [List.nil_append] at h1 h2 ⊢
    exact ⟨name, ns, xs, hn, hs, hx, h1, h2, rfl⟩
  · rintro ⟨name, ns, xs, hn, hs, hx, h1, h2, rfl⟩
    refine ⟨name, ns, (lefts xs, rights xs), false, hn, hs, ?_, finishTable_ok_iff.2 ⟨rfl, h1, h2, rfl⟩⟩
    refine (readAttrs_items (tableStep_eq s name) _ _ _ _).2 ⟨rfl, xs, hx, ?_⟩
    rw [foldl_pushTableItem]; simp

theorem tableItem_column (s name : String) (c : Column) : tableItem s name (renderColumn c) =
    match parseColumn s name (renderColumn c) with
    | .ok c => .ok (.inl c)
    | .error e => .error e := rfl

theorem kind_renderConstraint (s : String) (c : Constraint) :
    (renderConstraint s c).kind = "constraint" := by cases c <;> rfl

theorem tableItem_constraint (s name : String) (c : Constraint) :
    tableItem s name (renderConstraint s c) =
    match parseConstraint s name (renderConstraint s c) with
    | .ok c => .ok (.inr c)
    | .error e => .error e := by
  unfold tableItem
  rw [if_neg (by rw [kind_renderConstraint]; decide), if_pos (kind_renderConstraint s c)]

theorem values_named {α : Type} {m : AMap α} {name : α → String} (h : ∀ p ∈ m, name p.2 = p.1) :
    m.values.map (fun c => (name c, c)) = m := by
  unfold AMap.values
  rw [List.map_map]
  conv => rhs; rw [← List.map_id m]
  refine List.map_congr_left fun p hp => ?_
  simp only [Function.comp, h p hp, id]

/-- C44 for tables. -/
theorem parseTable_iff {t : Table} (ht : t.WF) {s : String} (hs : t.schemaName = s) :
    parseTable s (renderTable s t) = .ok t ↔
      (∀ c ∈ t.columns, ColumnOk c) ∧ ∀ p ∈ t.constraints, ConstraintOk p.2 := by
  rw [parseTable_ok_iff]
  have hmap : ∀ xs : List (Column ⊕ Constraint),
      (t.columns.map renderColumn ++ t.constraints.values.map (renderConstraint s)).map
        (tableItem s t.name) = xs.map .ok → lefts xs = t.columns → rights xs = t.constraints.values →
        (t.columns.map renderColumn ++ t.constraints.values.map (renderConstraint s)).map
        (tableItem s t.name) =
        (t.columns.map Sum.inl ++ t.constraints.values.map Sum.inr).map .ok := by
    intro xs hx hl hr
    have hlen := congrArg List.length hx
    simp only [List.length_map, List.length_append] at hlen
    -- the first part gives columns only, the second constraints only
    rw [List.map_append, List.map_map, List.map_map] at hx
    obtain ⟨as, bs, rfl, ha, hb⟩ := List.map_eq_append_iff.1 hx.symm
    have has : ∀ x ∈ as, ∃ c, x = .inl c := by
      intro x hx'
      obtain ⟨c, _, e⟩ := map_ok_mem ha.symm hx'
      simp only [Function.comp, tableItem_column] at e
      split at e
      · injection e with e; exact ⟨_, e.symm⟩
      · cases e
    have hbs : ∀ x ∈ bs, ∃ c, x = .inr c := by
      intro x hx'
      obtain ⟨c, _, e⟩ := map_ok_mem hb.symm hx'
      simp only [Function.comp, tableItem_constraint] at e
      split at e
      · injection e with e; exact ⟨_, e.symm⟩
      · cases e
    have hae : ∃ ys : List Column, as = ys.map Sum.inl := by
      clear ha hx hl hr hlen
      induction as with
      | nil => exact ⟨[], rfl⟩
      | cons a as ih =>
        obtain ⟨c, rfl⟩ := has a (List.mem_cons_self ..)
        obtain ⟨ys, rfl⟩ := ih fun x hx => has x (List.mem_cons_of_mem _ hx)
        exact ⟨c :: ys, rfl⟩
    have hbe : ∃ ys : List Constraint, bs = ys.map Sum.inr := by
      clear hb hx hl hr hlen
      induction bs with
      | nil => exact ⟨[], rfl⟩
      | cons a as ih =>
        obtain ⟨c, rfl⟩ := hbs a (List.mem_cons_self ..)
        obtain ⟨ys, rfl⟩ := ih fun x hx => hbs x (List.mem_cons_of_mem _ hx)
        exact ⟨c :: ys, rfl⟩
    obtain ⟨cs, rfl⟩ := hae
    obtain ⟨ks, rfl⟩ := hbe
    rw [lefts_inl_inr] at hl
    rw [rights_inl_inr] at hr
    subst hl
    rw [List.map_append, List.map_map, List.map_map, ← hr]
    rw [← hr] at hx
    exact hx
  have hgood : ((t.columns.map renderColumn ++ t.constraints.values.map (renderConstraint s)).map
        (tableItem s t.name) =
        (t.columns.map Sum.inl ++ t.constraints.values.map Sum.inr).map .ok) ↔
      (∀ c ∈ t.columns, ColumnOk c) ∧ ∀ p ∈ t.constraints, ConstraintOk p.2 := by
    rw [List.map_append, List.map_append, List.map_map, List.map_map, List.map_map, List.map_map]
    constructor
    · intro h
      obtain ⟨h1, h2⟩ := List.append_inj h (by simp)
      rw [List.map_inj_left] at h1 h2
      refine ⟨fun c hc => ?_, fun p hp => ?_⟩
      · have := h1 c hc
        simp only [Function.comp, tableItem_column] at this
        split at this
        · next c' e =>
          injection this with this
          injection this with this
          subst this
          exact (parseColumn_iff.1 e).2.2
        · cases this
      · have := h2 p.2 (List.mem_map_of_mem hp)
        simp only [Function.comp, tableItem_constraint] at this
        split at this
        · next c' e =>
          injection this with this
          injection this with this
          subst this
          exact (parseConstraint_iff.1 e).2.2
        · cases this
    · rintro ⟨h1, h2⟩
      congr 1
      · refine List.map_congr_left fun c hc => ?_
        obtain ⟨e1, e2⟩ := ht.cols_home c hc
        simp only [Function.comp, tableItem_column]
        rw [parseColumn_iff.2 ⟨e1.trans hs, e2, h1 c hc⟩]
      · refine List.map_congr_left fun c hc => ?_
        obtain ⟨p, hp, rfl⟩ := List.mem_map.1 hc
        obtain ⟨_, e1, e2⟩ := ht.cons_home p hp
        simp only [Function.comp, tableItem_constraint]
        rw [parseConstraint_iff.2 ⟨e1.trans hs, e2, h2 p hp⟩]
  rw [← hgood]
  constructor
  · rintro ⟨_, name, ns, xs, hn, hns, hx, _, _, he⟩
    simp only [renderTable, Node.name, Node.nodes, Option.some.injEq] at hn hns
    subst hn hns
    have hl : lefts xs = t.columns := (congrArg Table.columns he).symm
    have hr : rights xs = t.constraints.values := by
      have h := congrArg Table.constraints he
      simp only at h
      rw [h]
      unfold AMap.values
      rw [List.map_map]
      conv => lhs; rw [← List.map_id (rights xs)]
      rfl
    exact hmap xs hx hl hr
  · intro hx
    refine ⟨rfl, t.name, _, _, rfl, rfl, hx, ?_, ?_, ?_⟩
    · rw [lefts_inl_inr]; exact ht.cols_nodup
    · rw [rights_inl_inr]
      have : t.constraints.values.map Constraint.name = t.constraints.keys := by
        unfold AMap.values AMap.keys
        rw [List.map_map]
        exact List.map_congr_left fun p hp => (ht.cons_home p hp).1
      rw [this]; exact ht.cons_nodup
    · rw [lefts_inl_inr, rights_inl_inr, values_named fun p hp => (ht.cons_home p hp).1, ← hs]

end Def
end Podo
