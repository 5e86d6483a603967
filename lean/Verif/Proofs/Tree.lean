import Verif.Proofs.Key
/-
Writing trees of definition nodes to mappings and reading them back.
-/
set_option linter.unusedSimpArgs false
namespace Podo
namespace Def
open Text

theorem insertEntry_new {m : AMap Yaml} {k : String} {v : Yaml} (h : m.has k = false) :
    insertEntry m k v = m ++ [(k, v)] := by
  unfold insertEntry
  rw [h]; rfl

theorem insertEntry_length (m : AMap Yaml) (k : String) (v : Yaml) :
    (insertEntry m k v).length = m.length + (if m.has k then 0 else 1) := by
  unfold insertEntry
  by_cases h : m.has k = true
  · rw [if_pos h, if_pos h]
    simp [AMap.set]
  · rw [if_neg h, if_neg h]
    simp [AMap.insertNew]

theorem foldl_insert_length (es : List (String × Yaml)) (m : AMap Yaml) :
    (es.foldl (fun m e => insertEntry m e.1 e.2) m).length ≤ m.length + es.length := by
  induction es generalizing m with
  | nil => simp
  | cons e es ih =>
    have h1 := ih (insertEntry m e.1 e.2)
    rw [insertEntry_length] at h1
    simp only [List.foldl_cons, List.length_cons]
    split at h1 <;> omega

theorem foldl_insert_full {es : List (String × Yaml)} {m : AMap Yaml}
    (h : (es.foldl (fun m e => insertEntry m e.1 e.2) m).length = m.length + es.length) :
    (∀ e ∈ es, m.has e.1 = false) ∧ (es.map Prod.fst).Nodup ∧
      es.foldl (fun m e => insertEntry m e.1 e.2) m = m ++ es := by
  induction es generalizing m with
  | nil => simp
  | cons e es ih =>
    simp only [List.foldl_cons, List.length_cons] at h
    have hle := foldl_insert_length es (insertEntry m e.1 e.2)
    have hl := insertEntry_length m e.1 e.2
    have hnew : m.has e.1 = false := by
      by_cases hh : m.has e.1 = true
      · rw [if_pos hh] at hl; omega
      · simpa using hh
    rw [if_neg (by simp [hnew])] at hl
    obtain ⟨h1, h2, h3⟩ := ih (m := insertEntry m e.1 e.2) (by omega)
    rw [insertEntry_new hnew] at h1 h3
    refine ⟨?_, ?_, ?_⟩
    · intro x hx
      rcases List.mem_cons.mp hx with rfl | hx
      · exact hnew
      · have := h1 x hx
        rw [AMap.has_eq_false_iff, AMap.get?_append, Option.or_eq_none_iff] at this
        exact AMap.has_eq_false_iff.mpr this.1
    · rw [List.map_cons, List.nodup_cons]
      refine ⟨?_, h2⟩
      intro hmem
      obtain ⟨x, hx, e1⟩ := List.mem_map.mp hmem
      have := h1 x hx
      rw [e1, AMap.has_eq_false_iff, AMap.get?_append, Option.or_eq_none_iff] at this
      simp at this
    · rw [List.foldl_cons, insertEntry_new hnew, h3]
      simp

theorem insertEntries_nodup {es : List (String × Yaml)} (h : (es.map Prod.fst).Nodup) :
    insertEntries es = es := by
  have gen : ∀ (es : List (String × Yaml)) (m : AMap Yaml), (es.map Prod.fst).Nodup →
      (∀ e ∈ es, m.has e.1 = false) →
      es.foldl (fun m e => insertEntry m e.1 e.2) m = m ++ es := by
    intro es
    induction es with
    | nil => intro m _ _; simp
    | cons e es ih =>
      intro m hn hd
      rw [List.foldl_cons, insertEntry_new (hd e (by simp))]
      rw [List.map_cons, List.nodup_cons] at hn
      rw [ih _ hn.2]
      · simp
      · intro x hx
        have h1 := hd x (List.mem_cons_of_mem _ hx)
        have h2 : x.1 ≠ e.1 := fun e' => hn.1 (List.mem_map.mpr ⟨x, hx, e'⟩)
        simp_all [AMap.has, AMap.get?_append]
        exact fun e' => h2 e'.symm
  have := gen es [] h (fun e _ => rfl)
  simpa [insertEntries] using this

theorem nodup_of_map {α β : Type} (f : α → β) {l : List α} (h : (l.map f).Nodup) : l.Nodup := by
  induction l with
  | nil => simp
  | cons a t ih =>
    rw [List.map_cons, List.nodup_cons] at h
    rw [List.nodup_cons]
    exact ⟨fun hm => h.1 (List.mem_map.mpr ⟨a, hm, rfl⟩), ih h.2⟩

theorem parseMapping_length {ks : List (Option String)} {vs : List Yaml} {ns : List Node}
    (hl : ks.length = vs.length) (h : parseMapping ks vs = .ok ns) : ns.length = ks.length := by
  induction ks generalizing vs ns with
  | nil =>
    cases vs with
    | nil => simp [parseMapping] at h; subst h; rfl
    | cons v vs => simp at hl
  | cons k ks ih =>
    cases vs with
    | nil => simp at hl
    | cons v vs =>
      cases k with
      | none => rw [parseMapping] at h; cases h
      | some k =>
        rw [parseMapping] at h
        split at h
        · cases h
        · split at h
          · cases h
          · split at h
            · cases h
            · next hm =>
              cases h
              simp [ih (by simpa using hl) hm]

theorem parseNodes_length {m : AMap Yaml} {ns : List Node} (h : parseNodes m = .ok ns) :
    ns.length = m.length := by
  have := parseMapping_length (by simp) h
  simpa using this

theorem renderNode_fst (n : Node) : (renderNode n).1 = renderKey n.kind n.name := by
  cases n with
  | leaf k n v => cases v <;> rfl
  | branch k n ns => rfl

theorem renderNodes_eq (ns : List Node) : renderNodes ns = ns.map renderNode := by
  induction ns with
  | nil => rfl
  | cons n ns ih => rw [renderNodes, ih]; rfl

theorem nodesOk_iff {ns : List Node} : NodesOk ns ↔ ∀ n ∈ ns, NodeOk n := by
  induction ns with
  | nil => simp [NodesOk]
  | cons n ns ih => simp [NodesOk, ih]

theorem NodeOk.key {n : Node} (h : NodeOk n) : KeyOk n.kind n.name := by
  cases n with
  | leaf k n v =>
    cases v with
    | none => rw [NodeOk] at h; exact h
    | some v => rw [NodeOk] at h; exact h.1
  | branch k n ns => rw [NodeOk] at h; exact h.1

theorem keys_nodup {ns : List Node} (h : TreeOk ns) : ((renderNodes ns).map Prod.fst).Nodup := by
  obtain ⟨h1, h2⟩ := h
  rw [renderNodes_eq]
  induction ns with
  | nil => simp
  | cons n ns ih =>
    rw [NodesOk] at h1
    rw [List.map_cons, List.nodup_cons] at h2
    rw [List.map_cons, List.map_cons, List.nodup_cons]
    refine ⟨?_, ih h1.2 h2.2⟩
    intro hm
    rw [List.map_map] at hm
    obtain ⟨m, hm, e⟩ := List.mem_map.mp hm
    simp only [Function.comp, renderNode_fst] at e
    obtain ⟨e1, e2⟩ := renderKey_inj ((nodesOk_iff.mp h1.2) m hm).key h1.1.key e
    exact h2.1 (List.mem_map.mpr ⟨m, hm, by rw [e1, e2]⟩)

theorem parseNum_iff {n : Num} : parseNum n = .ok n ↔ ValueOk (.number n) := by
  cases n with
  | integer i =>
    rw [ValueOk, least_eq, greatest_eq]
    show (if i64Min ≤ i ∧ i ≤ i64Max then Except.ok (Num.integer i)
      else Except.error Fail.error) = _ ↔ _
    split
    · next h => exact ⟨fun _ => h, fun _ => rfl⟩
    · next h => exact ⟨fun e => (by cases e), fun e => absurd e h⟩
  | float b => simp [parseNum, ValueOk]

mutual
theorem parseValue_iff : ∀ v : Value, parseValue (renderValue v) = .ok v ↔ ValueOk v
  | .boolean b => by simp [renderValue, parseValue, ValueOk]
  | .string s => by simp [renderValue, parseValue, ValueOk]
  | .number n => by
    rw [renderValue, parseValue, ← parseNum_iff]
    split
    · next e he => rw [he]; simp
    · next m he => rw [he]; simp
  | .list vs => by
    rw [renderValue, parseValue, ValueOk, ← parseValues_iff vs]
    split
    · next e he => rw [he]; simp
    · next l he => rw [he]; simp
theorem parseValues_iff : ∀ vs : List Value, parseValues (renderValues vs) = .ok vs ↔ ValuesOk vs
  | [] => by simp [renderValues, parseValues, ValuesOk]
  | v :: vs => by
    rw [renderValues, parseValues, ValuesOk, ← parseValue_iff v, ← parseValues_iff vs]
    split
    · next e he => rw [he]; simp
    · next x he =>
      rw [he]
      split
      · next e he' => rw [he']; simp
      · next xs he' => rw [he']; simp
end

/-- Reading the entry of a value. -/
theorem parseEntry_value (k : String) (n : Option String) (v : Value) :
    parseEntry k n (renderValue v) = .ok (.leaf k n (some v)) ↔ ValueOk v := by
  cases v with
  | boolean b => simp [renderValue, parseEntry, ValueOk]
  | string s => simp [renderValue, parseEntry, ValueOk]
  | number x =>
    rw [renderValue, parseEntry, ← parseNum_iff]
    split
    · next e he => rw [he]; simp
    · next m he => rw [he]; simp
  | list vs =>
    rw [renderValue, parseEntry, ValueOk, ← parseValues_iff vs]
    split
    · next e he => rw [he]; simp
    · next l he => rw [he]; simp

/-- Reading one more entry. -/
theorem parseNodes_cons (k : String) (y : Yaml) (m : AMap Yaml) (n : Node) (ns : List Node) :
    parseNodes ((k, y) :: m) = .ok (n :: ns) ↔
      parseKey k = .ok (n.kind, n.name) ∧ parseEntry n.kind n.name y = .ok n ∧
        parseNodes m = .ok ns := by
  have hkn : ∀ kind name y n, parseEntry kind name y = .ok n → n.kind = kind ∧ n.name = name := by
    intro kind name y n h
    cases y <;> rw [parseEntry] at h <;> (try split at h) <;> cases h <;> exact ⟨rfl, rfl⟩
  unfold parseNodes
  rw [List.map_cons, List.map_cons, parseMapping]
  constructor
  · intro h
    simp only [] at h
    split at h
    · cases h
    · next kind name hk =>
      split at h
      · cases h
      · next n' hn =>
        split at h
        · cases h
        · next ns' hns =>
          cases h
          obtain ⟨e1, e2⟩ := hkn _ _ _ _ hn
          rw [e1, e2]
          exact ⟨hk, hn, hns⟩
  · rintro ⟨h1, h2, h3⟩
    simp only []
    rw [h1]
    simp only [h2, h3]

mutual
theorem parseNode_iff : ∀ n : Node,
    (parseKey (renderNode n).1 = .ok (n.kind, n.name) ∧
      parseEntry n.kind n.name (renderNode n).2 = .ok n) ↔ NodeOk n
  | .leaf k n none => by
    rw [renderNode, NodeOk]
    show parseKey (renderKey k n) = .ok (k, n) ∧ parseEntry k n .null = _ ↔ _
    rw [parseKey_iff, parseEntry]
    simp
  | .leaf k n (some v) => by
    rw [renderNode, NodeOk]
    show parseKey (renderKey k n) = .ok (k, n) ∧ parseEntry k n (renderValue v) = _ ↔ _
    rw [parseKey_iff, parseEntry_value]
  | .branch k n ns => by
    rw [renderNode, NodeOk]
    show parseKey (renderKey k n) = .ok (k, n) ∧
      parseEntry k n (mapOf (insertEntries (renderNodes ns))) = _ ↔ _
    rw [parseKey_iff]
    have hmap : parseEntry k n (mapOf (insertEntries (renderNodes ns))) = .ok (.branch k n ns) ↔
        parseNodes (insertEntries (renderNodes ns)) = .ok ns := by
      unfold mapOf
      rw [parseEntry]
      unfold parseNodes
      split
      · next e he => rw [he]; simp
      · next l he => rw [he]; simp
    rw [hmap, parseTree_iff ns]
    rfl
theorem parseTree_iff : ∀ ns : List Node,
    parseNodes (insertEntries (renderNodes ns)) = .ok ns ↔ TreeOk ns
  | ns => by
    constructor
    · intro h
      have hlen := parseNodes_length h
      have hl2 : (renderNodes ns).length = ns.length := by rw [renderNodes_eq]; simp
      have hf := foldl_insert_full (es := renderNodes ns) (m := [])
        (by
          have : (insertEntries (renderNodes ns)).length = (renderNodes ns).length := by
            rw [← hlen, hl2]
          simpa [insertEntries] using this)
      rw [insertEntries_nodup hf.2.1] at h
      refine ⟨(parseEach_iff ns).mp h, ?_⟩
      have hn := hf.2.1
      rw [renderNodes_eq, List.map_map] at hn
      refine nodup_of_map (fun p : String × Option String => renderKey p.1 p.2) ?_
      rw [List.map_map]
      have : (Prod.fst ∘ renderNode) =
          ((fun p : String × Option String => renderKey p.1 p.2) ∘ fun m : Node => (m.kind, m.name)) := by
        funext m; exact renderNode_fst m
      rwa [this] at hn
    · intro h
      rw [insertEntries_nodup (keys_nodup h)]
      exact (parseEach_iff ns).mpr h.1
theorem parseEach_iff : ∀ ns : List Node, parseNodes (renderNodes ns) = .ok ns ↔ NodesOk ns
  | [] => by simp [renderNodes, parseNodes, parseMapping, NodesOk]
  | n :: ns => by
    rw [renderNodes, NodesOk, ← parseNode_iff n, ← parseEach_iff ns]
    have : (renderNode n :: renderNodes ns) = ((renderNode n).1, (renderNode n).2) :: renderNodes ns := rfl
    rw [this, parseNodes_cons]
    exact ⟨fun ⟨a, b, c⟩ => ⟨⟨a, b⟩, c⟩, fun ⟨⟨a, b⟩, c⟩ => ⟨a, b, c⟩⟩
end

end Def
end Podo
