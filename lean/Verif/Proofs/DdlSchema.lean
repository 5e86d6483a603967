import Verif.Proofs.DdlTable
/-
Reading back schemas; what an accepted schema looks like.
-/
set_option linter.unusedSimpArgs false
namespace Podo
namespace Def
open Text

/-- What a child of a schema is read as. -/
def schemaItem (name : String) (n : Node) : Except Fail (Relation ⊕ Function) :=
  if n.kind = "table" then (parseTable name n).map fun t => .inl (.table t)
  else if n.kind = "view" then (parseView name n).map fun t => .inl (.view t)
  else if n.kind = "sequence" then (parseSequence name n).map fun t => .inl (.sequence t)
  else if n.kind = "index" then (parseIndex name n).map fun t => .inl (.index t)
  else if n.kind = "function" then (parseFunction name n).map fun t => .inr t
  else .error .error

def pushSchemaItem (a : List Relation × List Function) :
    Relation ⊕ Function → List Relation × List Function
  | .inl c => (a.1 ++ [c], a.2)
  | .inr c => (a.1, a.2 ++ [c])

theorem schemaStep_eq (name : String) (a : List Relation × List Function) (n : Node) :
    schemaStep name a n = (schemaItem name n).map (pushSchemaItem a) := by
  unfold schemaStep schemaItem
  split
  · cases parseTable name n <;> rfl
  · split
    · cases parseView name n <;> rfl
    · split
      · cases parseSequence name n <;> rfl
      · split
        · cases parseIndex name n <;> rfl
        · split
          · cases parseFunction name n <;> rfl
          · rfl

theorem foldl_pushSchemaItem (xs : List (Relation ⊕ Function)) (a : List Relation × List Function) :
    xs.foldl pushSchemaItem a = (a.1 ++ lefts xs, a.2 ++ rights xs) := by
  induction xs generalizing a with
  | nil => simp [lefts, rights]
  | cons x xs ih =>
    rw [List.foldl_cons, ih]
    cases x <;> simp [pushSchemaItem, lefts, rights, List.filterMap_cons]

theorem addRelations_iff (cs : List Relation) (t t' : Schema) :
    t.addRelations cs = .ok t' ↔ (cs.map Relation.name).Nodup ∧
      (∀ c ∈ cs, c.name ∉ t.relations.keys) ∧
      t' = { t with relations := t.relations ++ cs.map fun c => (c.name, c) } := by
  induction cs generalizing t with
  | nil =>
    simp only [Schema.addRelations, Except.ok.injEq, List.map_nil, List.nodup_nil, List.not_mem_nil,
      false_implies, implies_true, true_and, List.append_nil]
    exact eq_comm
  | cons c cs ih =>
    rw [Schema.addRelations, Schema.addRelation]
    by_cases h : t.relations.has c.name = true
    · rw [if_pos h]
      constructor
      · intro e; cases e
      · rintro ⟨_, h2, _⟩
        exact absurd (AMap.has_iff.1 h) (h2 c (List.mem_cons_self ..))
    · rw [if_neg h]
      dsimp only
      rw [ih]
      simp only [List.map_cons, List.nodup_cons, List.mem_cons, forall_eq_or_imp, AMap.keys_insertNew,
        List.mem_append, List.not_mem_nil, or_false, not_or, List.append_assoc,
        List.cons_append, List.nil_append]
      simp only [AMap.insertNew, List.append_assoc, List.cons_append, List.nil_append]
      rw [AMap.has_iff] at h
      constructor
      · rintro ⟨h1, h2, h3⟩
        refine ⟨⟨?_, h1⟩, ⟨h, fun x hx => (h2 x hx).1⟩, h3⟩
        intro hm
        obtain ⟨x, hx, e⟩ := List.mem_map.1 hm
        exact (h2 x hx).2 e
      · rintro ⟨⟨h0, h1⟩, ⟨_, h2⟩, h3⟩
        exact ⟨h1, fun x hx => ⟨h2 x hx, fun e => h0 (e ▸ List.mem_map_of_mem hx)⟩, h3⟩

theorem addFunctions_iff (cs : List Function) (t t' : Schema) :
    t.addFunctions cs = .ok t' ↔ (cs.map Function.name).Nodup ∧
      (∀ c ∈ cs, c.name ∉ t.functions.keys) ∧
      t' = { t with functions := t.functions ++ cs.map fun c => (c.name, c) } := by
  induction cs generalizing t with
  | nil =>
    simp only [Schema.addFunctions, Except.ok.injEq, List.map_nil, List.nodup_nil, List.not_mem_nil,
      false_implies, implies_true, true_and, List.append_nil]
    exact eq_comm
  | cons c cs ih =>
    rw [Schema.addFunctions, Schema.addFunction]
    by_cases h : t.functions.has c.name = true
    · rw [if_pos h]
      constructor
      · intro e; cases e
      · rintro ⟨_, h2, _⟩
        exact absurd (AMap.has_iff.1 h) (h2 c (List.mem_cons_self ..))
    · rw [if_neg h]
      dsimp only
      rw [ih]
      simp only [List.map_cons, List.nodup_cons, List.mem_cons, forall_eq_or_imp, AMap.keys_insertNew,
        List.mem_append, List.not_mem_nil, or_false, not_or, List.append_assoc,
        List.cons_append, List.nil_append]
      simp only [AMap.insertNew, List.append_assoc, List.cons_append, List.nil_append]
      rw [AMap.has_iff] at h
      constructor
      · rintro ⟨h1, h2, h3⟩
        refine ⟨⟨?_, h1⟩, ⟨h, fun x hx => (h2 x hx).1⟩, h3⟩
        intro hm
        obtain ⟨x, hx, e⟩ := List.mem_map.1 hm
        exact (h2 x hx).2 e
      · rintro ⟨⟨h0, h1⟩, ⟨_, h2⟩, h3⟩
        exact ⟨h1, fun x hx => ⟨h2 x hx, fun e => h0 (e ▸ List.mem_map_of_mem hx)⟩, h3⟩

theorem finishSchema_ok_iff {name : String} {a : List Relation × List Function} {bad : Bool}
    {t : Schema} : finishSchema name a bad = .ok t ↔
      bad = false ∧ (a.1.map Relation.name).Nodup ∧ (a.2.map Function.name).Nodup ∧
      t = ⟨name, a.1.map fun c => (c.name, c), a.2.map fun c => (c.name, c)⟩ := by
  unfold finishSchema
  cases bad with
  | true => simp
  | false =>
    rw [if_neg (by simp)]
    simp only [true_and]
    cases h : (Schema.new name).addRelations a.1 with
    | error e =>
      constructor
      · intro h'; cases h'
      · rintro ⟨h1, _, _⟩
        have := (addRelations_iff a.1 (Schema.new name) _).2
          ⟨h1, fun c _ => by simp [Schema.new], rfl⟩
        rw [h] at this; cases this
    | ok t0 =>
      dsimp only
      obtain ⟨h1, _, rfl⟩ := (addRelations_iff _ _ _).1 h
      split
      · next e he =>
        constructor
        · intro h'; cases h'
        · rintro ⟨_, h2, _⟩
          have := (addFunctions_iff a.2 { Schema.new name with
            relations := (Schema.new name).relations ++ a.1.map fun c => (c.name, c) } _).2
            ⟨h2, fun c _ => by simp [Schema.new], rfl⟩
          rw [he] at this; cases this
      · next s' he =>
        obtain ⟨h2, _, rfl⟩ := (addFunctions_iff _ _ _).1 he
        constructor
        · intro h'
          injection h' with h'
          subst h'
          exact ⟨h1, h2, rfl⟩
        · rintro ⟨_, _, rfl⟩
          rfl

/-- What an accepted schema definition looks like. -/
theorem parseSchema_ok_iff {n : Node} {t : Schema} :
    parseSchema n = .ok t ↔ n.kind = "schema" ∧ ∃ name ns xs, n.name = some name ∧
      n.nodes = some ns ∧ ns.map (schemaItem name) = xs.map .ok ∧
      ((lefts xs).map Relation.name).Nodup ∧ ((rights xs).map Function.name).Nodup ∧
      t = ⟨name, (lefts xs).map fun c => (c.name, c), (rights xs).map fun c => (c.name, c)⟩ := by
  unfold parseSchema
  rw [readNode_ok_iff]
  refine and_congr_right fun _ => ?_
  constructor
  · rintro ⟨name, ns, a, bad, hn, hs, hr, hf⟩
    obtain ⟨rfl, h1, h2, rfl⟩ := finishSchema_ok_iff.1 hf
    obtain ⟨_, xs, hx, rfl⟩ := (readAttrs_items (schemaStep_eq name) _ _ _ _).1 hr
    rw [foldl_pushSchemaItem] at h1 h2 ⊢
    simp only [List.nil_append] at h1 h2 ⊢
    exact ⟨name, ns, xs, hn, hs, hx, h1, h2, rfl⟩
  · rintro ⟨name, ns, xs, hn, hs, hx, h1, h2, rfl⟩
    refine ⟨name, ns, (lefts xs, rights xs), false, hn, hs, ?_, finishSchema_ok_iff.2 ⟨rfl, h1, h2, rfl⟩⟩
    refine (readAttrs_items (schemaStep_eq name) _ _ _ _).2 ⟨rfl, xs, hx, ?_⟩
    rw [foldl_pushSchemaItem]; simp

theorem ok_bind {α β : Type} (x : α) (f : α → Except Fail β) :
    Except.bind (.ok x) f = f x := rfl

theorem renderRelations_iff {s : String} {rs : List Relation} {ns : List Node} :
    renderRelations s rs = .ok ns ↔ rs.map (renderRelation s) = ns.map .ok := by
  induction rs generalizing ns with
  | nil => cases ns <;> simp [renderRelations]
  | cons r rs ih =>
    rw [renderRelations, List.map_cons]
    cases h : renderRelation s r with
    | error e =>
      constructor
      · intro h'; cases h'
      · intro h'; cases ns <;> simp at h'
    | ok n =>
      dsimp only
      cases h2 : renderRelations s rs with
      | error e =>
        constructor
        · intro h'; cases h'
        · intro h'
          cases ns with
          | nil => simp at h'
          | cons m ms =>
            rw [List.map_cons, List.cons.injEq] at h'
            rw [ih.2 h'.2] at h2; cases h2
      | ok ms =>
        have hm := ih.1 h2
        constructor
        · intro h'
          injection h' with h'
          subst h'
          rw [List.map_cons, hm]
        · intro h'
          cases ns with
          | nil => simp at h'
          | cons m ms' =>
            rw [List.map_cons, List.cons.injEq] at h'
            rw [ih.2 h'.2] at h2
            injection h2 with h2
            injection h'.1 with h1
            rw [h1, h2]

theorem renderSchemas_iff {rs : List Schema} {ns : List Node} :
    renderSchemas rs = .ok ns ↔ rs.map renderSchema = ns.map .ok := by
  induction rs generalizing ns with
  | nil => cases ns <;> simp [renderSchemas]
  | cons r rs ih =>
    rw [renderSchemas, List.map_cons]
    cases h : renderSchema r with
    | error e =>
      constructor
      · intro h'; cases h'
      · intro h'; cases ns <;> simp at h'
    | ok n =>
      dsimp only
      cases h2 : renderSchemas rs with
      | error e =>
        constructor
        · intro h'; cases h'
        · intro h'
          cases ns with
          | nil => simp at h'
          | cons m ms =>
            rw [List.map_cons, List.cons.injEq] at h'
            rw [ih.2 h'.2] at h2; cases h2
      | ok ms =>
        have hm := ih.1 h2
        constructor
        · intro h'
          injection h' with h'
          subst h'
          rw [List.map_cons, hm]
        · intro h'
          cases ns with
          | nil => simp at h'
          | cons m ms' =>
            rw [List.map_cons, List.cons.injEq] at h'
            rw [ih.2 h'.2] at h2
            injection h2 with h2
            injection h'.1 with h1
            rw [h1, h2]

theorem parseSchemas_iff {ns : List Node} {ss : List Schema} :
    parseSchemas ns = .ok ss ↔ ns.map parseSchema = ss.map .ok := by
  induction ns generalizing ss with
  | nil => cases ss <;> simp [parseSchemas]
  | cons r rs ih =>
    rw [parseSchemas, List.map_cons]
    cases h : parseSchema r with
    | error e =>
      constructor
      · intro h'; cases h'
      · intro h'; cases ss <;> simp at h'
    | ok n =>
      dsimp only
      cases h2 : parseSchemas rs with
      | error e =>
        constructor
        · intro h'; cases h'
        · intro h'
          cases ss with
          | nil => simp at h'
          | cons m ms =>
            rw [List.map_cons, List.cons.injEq] at h'
            rw [ih.2 h'.2] at h2; cases h2
      | ok ms =>
        have hm := ih.1 h2
        constructor
        · intro h'
          injection h' with h'
          subst h'
          rw [List.map_cons, hm]
        · intro h'
          cases ss with
          | nil => simp at h'
          | cons m ms' =>
            rw [List.map_cons, List.cons.injEq] at h'
            rw [ih.2 h'.2] at h2
            injection h2 with h2
            injection h'.1 with h1
            rw [h1, h2]

theorem map_bind {α β γ : Type} {R : α → Except Fail β} {g : β → Except Fail γ} {xs : List α}
    {ns : List β} (h : xs.map R = ns.map .ok) : ns.map g = xs.map fun x => (R x).bind g := by
  have : (ns.map Except.ok).map (fun e : Except Fail β => e.bind g) = ns.map g := by
    rw [List.map_map]; rfl
  rw [← this, ← h, List.map_map]; rfl

theorem exists_map_ok {α β : Type} {R : α → Except Fail β} {xs : List α}
    (h : ∀ x ∈ xs, ∃ n, R x = .ok n) : ∃ ns : List β, xs.map R = ns.map .ok := by
  induction xs with
  | nil => exact ⟨[], rfl⟩
  | cons x xs ih =>
    obtain ⟨n, hn⟩ := h x (List.mem_cons_self ..)
    obtain ⟨ns, hns⟩ := ih fun y hy => h y (List.mem_cons_of_mem _ hy)
    exact ⟨n :: ns, by rw [List.map_cons, List.map_cons, hn, hns]⟩

theorem all_inl {α β : Type} {as : List (α ⊕ β)} (has : ∀ x ∈ as, ∃ c, x = .inl c) :
    ∃ ys : List α, as = ys.map Sum.inl := by
  induction as with
  | nil => exact ⟨[], rfl⟩
  | cons a as ih =>
    obtain ⟨c, rfl⟩ := has a (List.mem_cons_self ..)
    obtain ⟨ys, rfl⟩ := ih fun x hx => has x (List.mem_cons_of_mem _ hx)
    exact ⟨c :: ys, rfl⟩

theorem all_inr {α β : Type} {as : List (α ⊕ β)} (has : ∀ x ∈ as, ∃ c, x = .inr c) :
    ∃ ys : List β, as = ys.map Sum.inr := by
  induction as with
  | nil => exact ⟨[], rfl⟩
  | cons a as ih =>
    obtain ⟨c, rfl⟩ := has a (List.mem_cons_self ..)
    obtain ⟨ys, rfl⟩ := ih fun x hx => has x (List.mem_cons_of_mem _ hx)
    exact ⟨c :: ys, rfl⟩

/-- Two runs of items, the first giving lefts only, the second rights only. -/
theorem items_split {α β ι κ : Type} {f : α → Except Fail (ι ⊕ κ)} {g : β → Except Fail (ι ⊕ κ)}
    (hf : ∀ a x, f a = .ok x → ∃ c, x = .inl c) (hg : ∀ a x, g a = .ok x → ∃ c, x = .inr c)
    {as : List α} {bs : List β} {xs : List (ι ⊕ κ)} (h : as.map f ++ bs.map g = xs.map .ok) :
    as.map f = (lefts xs).map (fun c => .ok (.inl c)) ∧
      bs.map g = (rights xs).map (fun c => .ok (.inr c)) := by
  obtain ⟨x1, x2, rfl, h1, h2⟩ := List.map_eq_append_iff.1 h.symm
  have k1 : ∀ x ∈ x1, ∃ c, x = .inl c := by
    intro x hx
    obtain ⟨a, _, e⟩ := map_ok_mem h1.symm hx
    exact hf a x e
  have k2 : ∀ x ∈ x2, ∃ c, x = .inr c := by
    intro x hx
    obtain ⟨a, _, e⟩ := map_ok_mem h2.symm hx
    exact hg a x e
  obtain ⟨cs, rfl⟩ := all_inl k1
  obtain ⟨ks, rfl⟩ := all_inr k2
  rw [lefts_inl_inr, rights_inl_inr, ← h1, ← h2, List.map_map, List.map_map]
  exact ⟨rfl, rfl⟩

theorem kind_renderView {s : String} {v : View} {n : Node} (h : renderView s v = .ok n) :
    n.kind = "view" := by
  unfold renderView at h
  split at h
  · injection h with h; subst h; rfl
  · cases h

theorem kind_renderSequence {s : Sequence} {n : Node} (h : renderSequence s = .ok n) :
    n.kind = "sequence" := by
  unfold renderSequence at h
  split at h
  · cases h
  · split at h
    · cases h
    · split at h
      · cases h
      · injection h with h; subst h; rfl

/-- Writing and reading one relation. -/
def relationBack (s : String) (r : Relation) : Except Fail (Relation ⊕ Function) :=
  (renderRelation s r).bind (schemaItem s)

theorem map_ok_iff' {α β : Type} {x : Except Fail α} {f : α → β} {b : β} :
    x.map f = .ok b ↔ ∃ a, x = .ok a ∧ f a = b := by
  cases x with
  | error e => simp [Except.map]
  | ok a => simp [Except.map]

theorem relationBack_inl (s : String) (r : Relation) (x : Relation ⊕ Function)
    (h : relationBack s r = .ok x) : ∃ c, x = .inl c := by
  unfold relationBack at h
  cases r with
  | table t =>
    have : (schemaItem s (renderTable s t)) = .ok x := h
    unfold schemaItem at this
    rw [if_pos (show (renderTable s t).kind = "table" from rfl)] at this
    obtain ⟨a, _, e⟩ := map_ok_iff'.1 this
    exact ⟨_, e.symm⟩
  | view v =>
    cases hv : renderView s v with
    | error e => simp [renderRelation, hv, Except.bind] at h
    | ok n =>
      simp only [renderRelation, hv, ok_bind] at h
      unfold schemaItem at h
      have hk := kind_renderView hv
      rw [if_neg (by rw [hk]; decide), if_pos hk] at h
      obtain ⟨a, _, e⟩ := map_ok_iff'.1 h
      exact ⟨_, e.symm⟩
  | index i =>
    have : (schemaItem s (renderIndex i)) = .ok x := h
    unfold schemaItem at this
    have hk : (renderIndex i).kind = "index" := rfl
    rw [if_neg (by rw [hk]; decide), if_neg (by rw [hk]; decide), if_neg (by rw [hk]; decide),
      if_pos hk] at this
    obtain ⟨a, _, e⟩ := map_ok_iff'.1 this
    exact ⟨_, e.symm⟩
  | sequence q =>
    cases hv : renderSequence q with
    | error e => simp [renderRelation, hv, Except.bind] at h
    | ok n =>
      simp only [renderRelation, hv, ok_bind] at h
      unfold schemaItem at h
      have hk := kind_renderSequence hv
      rw [if_neg (by rw [hk]; decide), if_neg (by rw [hk]; decide), if_pos hk] at h
      obtain ⟨a, _, e⟩ := map_ok_iff'.1 h
      exact ⟨_, e.symm⟩

theorem relationBack_iff {s : String} {r : Relation} (hw : r.WF) (hs : r.schemaName = s) :
    relationBack s r = .ok (.inl r) ↔ RelationOk r := by
  unfold relationBack
  cases r with
  | table t =>
    show schemaItem s (renderTable s t) = _ ↔ _
    unfold schemaItem
    rw [if_pos (show (renderTable s t).kind = "table" from rfl), map_ok_iff']
    rw [show RelationOk (.table t) ↔ _ from (parseTable_iff hw hs).symm]
    constructor
    · rintro ⟨a, h, e⟩
      injection e with e; injection e with e; subst e; exact h
    · intro h; exact ⟨t, h, rfl⟩
  | view v =>
    rw [show RelationOk (.view v) ↔ _ from
      (Iff.trans (parseView_iff (s := s) (v := v)) ⟨fun h => h.2, fun h => ⟨hs, h⟩⟩).symm]
    cases hv : renderView s v with
    | error e => simp [renderRelation, hv, Except.bind]
    | ok n =>
      simp only [renderRelation, hv, ok_bind]
      unfold schemaItem
      have hk := kind_renderView hv
      rw [if_neg (by rw [hk]; decide), if_pos hk, map_ok_iff']
      constructor
      · rintro ⟨a, h, e⟩
        injection e with e; injection e with e; subst e; exact ⟨n, rfl, h⟩
      · rintro ⟨m, e, h⟩
        injection e with e; subst e
        exact ⟨v, h, rfl⟩
  | index i =>
    show schemaItem s (renderIndex i) = _ ↔ _
    unfold schemaItem
    have hk : (renderIndex i).kind = "index" := rfl
    rw [if_neg (by rw [hk]; decide), if_neg (by rw [hk]; decide), if_neg (by rw [hk]; decide),
      if_pos hk, map_ok_iff']
    constructor
    · intro _; trivial
    · intro _; exact ⟨i, parseIndex_iff.2 hs, rfl⟩
  | sequence q =>
    rw [show RelationOk (.sequence q) ↔ _ from
      (Iff.trans (parseSequence_iff (c := s) (s := q)) ⟨fun h => h.2, fun h => ⟨hs, h⟩⟩).symm]
    cases hv : renderSequence q with
    | error e => simp [renderRelation, hv, Except.bind]
    | ok n =>
      simp only [renderRelation, hv, ok_bind]
      unfold schemaItem
      have hk := kind_renderSequence hv
      rw [if_neg (by rw [hk]; decide), if_neg (by rw [hk]; decide), if_pos hk, map_ok_iff']
      constructor
      · rintro ⟨a, h, e⟩
        injection e with e; injection e with e; subst e; exact ⟨n, rfl, h⟩
      · rintro ⟨m, e, h⟩
        injection e with e; subst e
        exact ⟨q, h, rfl⟩

theorem functionBack (s : String) (f : Function) : schemaItem s (renderFunction f) =
    (parseFunction s (renderFunction f)).map .inr := by
  unfold schemaItem
  have hk : (renderFunction f).kind = "function" := rfl
  rw [if_neg (by rw [hk]; decide), if_neg (by rw [hk]; decide), if_neg (by rw [hk]; decide),
    if_neg (by rw [hk]; decide), if_pos hk]

theorem values_map_name {α : Type} {m : AMap α} {name : α → String} (h : ∀ p ∈ m, name p.2 = p.1) :
    m.values.map name = m.keys := by
  unfold AMap.values AMap.keys
  rw [List.map_map]
  exact List.map_congr_left fun p hp => h p hp

theorem values_of_map {α : Type} {xs : List α} {name : α → String} :
    AMap.values (xs.map fun c => (name c, c)) = xs := by
  unfold AMap.values
  rw [List.map_map]
  conv => rhs; rw [← List.map_id xs]
  rfl

/-- C44 for schemas. -/
theorem parseSchema_iff {s : Schema} (hs : s.WF) :
    (∃ n, renderSchema s = .ok n ∧ parseSchema n = .ok s) ↔
      ∀ p ∈ s.relations, RelationOk p.2 := by
  have hback : ∀ r ∈ s.relations.values, (relationBack s.name r = .ok (.inl r) ↔ RelationOk r) := by
    intro r hr
    obtain ⟨p, hp, rfl⟩ := List.mem_map.1 hr
    obtain ⟨_, h2, h3⟩ := hs.rels_home p hp
    exact relationBack_iff h3 h2
  have hfun : ∀ f ∈ s.functions.values, schemaItem s.name (renderFunction f) = .ok (.inr f) := by
    intro f hf
    obtain ⟨p, hp, rfl⟩ := List.mem_map.1 hf
    rw [functionBack, parseFunction_iff.2 (hs.funs_home p hp).2]; rfl
  constructor
  · rintro ⟨n, hr, hp⟩ p hp'
    unfold renderSchema at hr
    split at hr
    · cases hr
    · next ns hns =>
      injection hr with hr
      subst hr
      obtain ⟨_, name, ms, xs, hn, hm, hx, _, _, he⟩ := parseSchema_ok_iff.1 hp
      simp only [Node.name, Node.nodes, Option.some.injEq] at hn hm
      subst hn hm
      rw [List.map_append, map_bind (g := schemaItem s.name) (renderRelations_iff.1 hns),
        List.map_map] at hx
      have hx' : s.relations.values.map (relationBack s.name) ++
          s.functions.values.map (schemaItem s.name ∘ renderFunction) = xs.map .ok := hx
      obtain ⟨h1, _⟩ := items_split (relationBack_inl s.name)
        (fun f x h => by
          simp only [Function.comp, functionBack] at h
          obtain ⟨a, _, e⟩ := map_ok_iff'.1 h
          exact ⟨a, e.symm⟩) hx'
      have hl : s.relations.values = lefts xs := by
        rw [he]; exact values_of_map
      rw [← hl, List.map_inj_left] at h1
      have hmem : p.2 ∈ s.relations.values := List.mem_map_of_mem hp'
      exact (hback _ hmem).1 (h1 _ hmem)
  · intro hok
    have hb : ∀ r ∈ s.relations.values, relationBack s.name r = .ok (.inl r) := by
      intro r hr
      refine (hback r hr).2 ?_
      obtain ⟨p, hp, rfl⟩ := List.mem_map.1 hr
      exact hok p hp
    obtain ⟨ns, hns⟩ := exists_map_ok (R := renderRelation s.name) (xs := s.relations.values)
      (fun r hr => by
        have := hb r hr
        unfold relationBack at this
        cases h : renderRelation s.name r with
        | error e => rw [h] at this; cases this
        | ok n => exact ⟨n, rfl⟩)
    refine ⟨.branch "schema" (some s.name) (ns ++ s.functions.values.map renderFunction), ?_, ?_⟩
    · unfold renderSchema
      rw [renderRelations_iff.2 hns]
    · refine parseSchema_ok_iff.2 ⟨rfl, s.name, _,
        s.relations.values.map .inl ++ s.functions.values.map .inr, rfl, rfl, ?_, ?_, ?_, ?_⟩
      · rw [List.map_append, map_bind (g := schemaItem s.name) hns, List.map_map, List.map_append,
          List.map_map, List.map_map]
        congr 1
        · exact List.map_congr_left fun r hr => hb r hr
        · exact List.map_congr_left fun f hf => hfun f hf
      · rw [lefts_inl_inr, values_map_name fun p hp => (hs.rels_home p hp).1]
        exact hs.rels_nodup
      · rw [rights_inl_inr, values_map_name fun p hp => (hs.funs_home p hp).1]
        exact hs.funs_nodup
      · rw [lefts_inl_inr, rights_inl_inr, values_named fun p hp => (hs.rels_home p hp).1,
          values_named fun p hp => (hs.funs_home p hp).1]

end Def
end Podo
