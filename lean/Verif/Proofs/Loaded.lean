import Verif.Proofs.Stated
import Verif.Proofs.DdlFile
import Verif.Proofs.DdlPanic
import Verif.Proofs.Refine
/-
What every snapshot read from definition files is like.
-/
set_option linter.unusedSimpArgs false
namespace Podo
namespace Def
open Text

/-- A node somewhere in a definition file. -/
def ReadNode (m : Node) : Prop := ∃ ks vs ns, parseMapping ks vs = .ok ns ∧ m ∈ ns

theorem parseEntry_key {kind : String} {name : Option String} {y : Yaml} {n : Node}
    (h : parseEntry kind name y = .ok n) : n.kind = kind ∧ n.name = name := by
  cases y <;> rw [parseEntry] at h <;> (try split at h) <;> cases h <;> exact ⟨rfl, rfl⟩

/-- The nodes of a mapping come from its entries. -/
theorem parseMapping_mem {ks : List (Option String)} {vs : List Yaml} {ns : List Node}
    (h : parseMapping ks vs = .ok ns) {m : Node} (hm : m ∈ ns) :
    ∃ key y, (some key, y) ∈ ks.zip vs ∧ parseKey key = .ok (m.kind, m.name) ∧
      parseEntry m.kind m.name y = .ok m := by
  induction ks generalizing vs ns with
  | nil => rw [parseMapping] at h; cases h; cases hm
  | cons k ks ih =>
    cases vs with
    | nil => rw [parseMapping] at h; cases h; cases hm
    | cons v vs =>
      cases k with
      | none => rw [parseMapping] at h; cases h
      | some key =>
        rw [parseMapping] at h
        split at h
        · cases h
        · next kind name hk =>
          split at h
          · cases h
          · next n hn =>
            split at h
            · cases h
            · next ns' hns =>
              cases h
              rcases List.mem_cons.1 hm with rfl | hm
              · obtain ⟨e1, e2⟩ := parseEntry_key hn
                exact ⟨key, v, by simp, by rw [e1, e2]; exact hk, by rw [e1, e2]; exact hn⟩
              · obtain ⟨key', y, h1, h2⟩ := ih hns hm
                exact ⟨key', y, by simp [h1], h2⟩

theorem ReadNode.key {m : Node} (h : ReadNode m) : ∃ key, parseKey key = .ok (m.kind, m.name) := by
  obtain ⟨ks, vs, ns, h, hm⟩ := h
  obtain ⟨key, y, _, h1, _⟩ := parseMapping_mem h hm
  exact ⟨key, h1⟩

theorem ReadNode.kind {m : Node} (h : ReadNode m) : m.kind ∈ keywords := by
  obtain ⟨key, h⟩ := h.key
  exact parseKey_kind h

theorem ReadNode.name {m : Node} (h : ReadNode m) {n : String} (hn : m.name = some n) : NameOk n := by
  obtain ⟨key, h⟩ := h.key
  exact (parseKey_props h).2 n hn

theorem nodes_read {kind : String} {name : Option String} {y : Yaml} {m c : Node} {ms : List Node}
    (h : parseEntry kind name y = .ok m) (hms : m.nodes = some ms) (hc : c ∈ ms) :
    ∃ ks vs, y = .map ks vs ∧ parseMapping ks vs = .ok ms := by
  cases y with
  | map ks vs =>
    rw [parseEntry] at h
    split at h
    · cases h
    · next ns hns =>
      cases h
      cases hms
      exact ⟨ks, vs, rfl, hns⟩
  | null => rw [parseEntry] at h; cases h; cases hms <;> cases hc
  | bool b => rw [parseEntry] at h; cases h; cases hms
  | str b => rw [parseEntry] at h; cases h; cases hms
  | tagged => rw [parseEntry] at h; cases h
  | num b =>
    rw [parseEntry] at h
    split at h <;> cases h
    cases hms
  | seq b =>
    rw [parseEntry] at h
    split at h <;> cases h
    cases hms

theorem ReadNode.child {m : Node} (h : ReadNode m) {ms : List Node} (hms : m.nodes = some ms) {c : Node}
    (hc : c ∈ ms) : ReadNode c := by
  obtain ⟨ks, vs, ns, h, hm⟩ := h
  obtain ⟨key, y, _, _, h2⟩ := parseMapping_mem h hm
  obtain ⟨ks', vs', _, h3⟩ := nodes_read h2 hms hc
  exact ⟨_, _, _, h3, hc⟩

theorem ReadNode.childOf {m c : Node} (h : ReadNode m) {k : String} (hc : c ∈ childrenOf m k) :
    ReadNode c ∧ c.kind = k := by
  unfold childrenOf at hc
  split at hc
  · next ns hns =>
    rw [List.mem_filter] at hc
    exact ⟨h.child ((inner_eq _).symm.trans hns) hc.1, by simpa using hc.2⟩
  · cases hc

theorem stated_mem {β : Type} {n : Node} {k : String} {f : Node → Option β} {v : β}
    (h : stated n k f = some v) : ∃ c ∈ childrenOf n k, f c = some v := by
  unfold stated at h
  have := List.mem_of_getLast? h
  obtain ⟨c, hc, e⟩ := List.mem_filterMap.1 this
  exact ⟨c, hc, e⟩

/-- There is no attribute that is not a keyword. -/
theorem stated_none {β : Type} {n : Node} (hn : ReadNode n) {k : String} (hk : k ∉ keywords)
    (f : Node → Option β) : stated n k f = none := by
  cases h : stated n k f with
  | none => rfl
  | some v =>
    obtain ⟨c, hc, _⟩ := stated_mem h
    obtain ⟨h1, h2⟩ := hn.childOf hc
    exact absurd (h2 ▸ h1.kind) hk

theorem named_name {β : Type} {f : Node → Option β} {n : Node} {a : String} {b : β}
    (h : named f n = some (a, b)) : n.name = some a := by
  unfold named at h
  split at h
  · next h1 _ => cases h; exact h1
  · cases h

theorem fileNodes_read {y : Yaml} : ∀ n ∈ fileNodes y, ReadNode n := by
  intro n hn
  unfold fileNodes at hn
  split at hn
  · split at hn
    · next h => exact ⟨_, _, _, h, hn⟩
    · cases hn
  · cases hn

theorem inSchema_read {ns : List Node} (h : ∀ n ∈ ns, ReadNode n) {s : String} {m : Node}
    (hm : InSchema ns s m) : ReadNode m := by
  obtain ⟨n, hn, _, _, ms, h1, h2⟩ := hm
  exact (h n hn).child ((inner_eq _).symm.trans h1) h2

/-- What every relation read from definition files is like. -/
def RelationRead : Relation → Prop
  | .table t => NameOk t.name ∧ (∀ c ∈ t.columns, NameOk c.name) ∧
      ∀ p ∈ t.constraints, NameOk p.2.name
  | .view v => NameOk v.name
  | .index i => NameOk i.name ∧ NameOk i.tableName ∧ i.method = "btree"
  | .sequence s => NameOk s.name ∧ s.increment = 1 ∧ ∀ t, s.ownedByTable = some t → NameOk t

theorem relation_read {s : String} {m : Node} {r : Relation} (hm : ReadNode m)
    (h : RelationStated s m r) (hw : r.WF) : RelationRead r := by
  cases r with
  | table t =>
    have h : TableStated s m t := h
    have hw : t.WF := hw
    refine ⟨hm.name h.name, ?_, ?_⟩
    · intro c hc
      obtain ⟨i, hi, e⟩ := List.mem_iff_getElem.1 hc
      have hi' : i < (childrenOf m "column").length := by rw [h.count]; exact hi
      have := h.columns i _ c (List.getElem?_eq_getElem hi') (by rw [List.getElem?_eq_getElem hi, e])
      exact (hm.childOf (List.getElem_mem hi')).1.name this.name
    · intro p hp
      have hg := AMap.get?_of_mem hw.cons_nodup hp
      obtain ⟨_, c, hc, hs⟩ := h.only _ _ hg
      exact (hm.childOf hc).1.name hs.name
  | view v => exact hm.name (ViewStated.name h)
  | index i =>
    have h : IndexStated s m i := h
    refine ⟨hm.name h.name, ?_, ?_⟩
    · obtain ⟨c, hc, e⟩ := stated_mem h.on
      exact (hm.childOf hc).1.name (named_name e)
    · rw [h.method, stated_none hm (by decide)]; rfl
  | sequence q =>
    have h : SequenceStated s m q := h
    refine ⟨hm.name h.name, ?_, ?_⟩
    · rw [h.increment, stated_none hm (by decide)]; rfl
    · intro t ht
      rcases h.owner with ⟨h1, _⟩ | ⟨t', c, h1, _, h3⟩
      · rw [h1] at ht; cases ht
      · rw [h1] at ht; cases ht
        obtain ⟨c, hc, e⟩ := stated_mem h3
        exact (hm.childOf hc).1.name (named_name e)

/-! ### Reading what was written -/

theorem insertEntry_mem {m : AMap Yaml} {k : String} {v : Yaml} {e : String × Yaml}
    (h : e ∈ insertEntry m k v) : e ∈ m ∨ e = (k, v) := by
  unfold insertEntry at h
  split at h
  · unfold AMap.set at h
    obtain ⟨p, hp, e1⟩ := List.mem_map.1 h
    split at e1
    · next hk => right; rw [← e1, ← show p.1 = k by simpa using hk]
    · left; exact e1 ▸ hp
  · rcases List.mem_append.1 h with h | h
    · exact .inl h
    · exact .inr (List.mem_singleton.1 h)

theorem insertEntries_mem {es : List (String × Yaml)} {e : String × Yaml} (h : e ∈ insertEntries es) :
    e ∈ es := by
  have gen : ∀ (es : List (String × Yaml)) (m : AMap Yaml),
      e ∈ es.foldl (fun m e => insertEntry m e.1 e.2) m → e ∈ m ∨ e ∈ es := by
    intro es
    induction es with
    | nil => intro m h; exact .inl h
    | cons x xs ih =>
      intro m h
      rw [List.foldl_cons] at h
      rcases ih _ h with h | h
      · rcases insertEntry_mem h with h | h
        · exact .inl h
        · exact .inr (h ▸ List.mem_cons_self)
      · exact .inr (List.mem_cons_of_mem _ h)
  rcases gen es [] h with h | h
  · cases h
  · exact h

/-- One node was read where another was written. -/
def ReadFrom (m n : Node) : Prop :=
  parseKey (renderKey n.kind n.name) = .ok (m.kind, m.name) ∧
    parseEntry m.kind m.name (renderNode n).2 = .ok m

theorem parseNodes_from {ns ms : List Node} (h : parseNodes (renderMapping ns) = .ok ms) {m : Node}
    (hm : m ∈ ms) : ∃ n ∈ ns, ReadFrom m n := by
  obtain ⟨key, y, h1, h2, h3⟩ := parseMapping_mem h hm
  rw [List.zip_map'] at h1
  obtain ⟨e, he, e1⟩ := List.mem_map.1 h1
  cases e1
  have := insertEntries_mem he
  rw [renderNodes_eq] at this
  obtain ⟨n, hn, rfl⟩ := List.mem_map.1 this
  exact ⟨n, hn, by rw [← renderNode_fst]; exact h2, h3⟩

theorem renderValue_map {v : Value} {ks : List (Option String)} {vs : List Yaml} :
    renderValue v ≠ .map ks vs := by
  cases v <;> rw [renderValue] <;> intro h <;> cases h

theorem ReadFrom.child {m n c : Node} {ms : List Node} (h : ReadFrom m n) (hms : m.nodes = some ms)
    (hc : c ∈ ms) : ∃ ns, n = .branch n.kind n.name ns ∧ ∃ x ∈ ns, ReadFrom c x := by
  obtain ⟨ks, vs, e, h3⟩ := nodes_read h.2 hms hc
  cases n with
  | leaf k a v =>
    cases v with
    | none => rw [renderNode] at e; cases e
    | some v => rw [renderNode] at e; exact absurd e renderValue_map
  | branch k a ns =>
    rw [renderNode] at e
    unfold mapOf at e
    injection e with e1 e2
    subst e1 e2
    obtain ⟨x, hx, hf⟩ := parseNodes_from (ns := ns) h3 hc
    exact ⟨ns, rfl, x, hx, hf⟩

theorem ReadFrom.childOf {m n c : Node} {k : String} (h : ReadFrom m n) (hc : c ∈ childrenOf m k) :
    c.kind = k ∧ ∃ ns, n = .branch n.kind n.name ns ∧ ∃ x ∈ ns, ReadFrom c x := by
  unfold childrenOf at hc
  split at hc
  · next ns hns =>
    rw [List.mem_filter] at hc
    exact ⟨by simpa using hc.2, h.child ((inner_eq _).symm.trans hns) hc.1⟩
  · cases hc

/-- A node whose key reads back keeps it. -/
theorem ReadFrom.same {m n : Node} (h : ReadFrom m n) (hk : KeyOk n.kind n.name) :
    m.kind = n.kind ∧ m.name = n.name := by
  have := h.1
  rw [parseKey_ok hk] at this
  injection this with e
  injection e with e1 e2
  exact ⟨e1.symm, e2.symm⟩

theorem trim_mem {cs : List Char} {c : Char} (h : c ∈ trim cs) : c ∈ cs := by
  obtain ⟨a, b, e, _⟩ := around_trim cs
  rw [e]; simp [h]

/-- The characters of a name that is read after a keyword were written. -/
theorem read_name_mem {k : String} {a n : String} (h : parseKey (renderKey k (some a)) = .ok (k, some n))
    {c : Char} (hc : c ∈ n.toList) (hs : c ≠ ' ') : c ∈ a.toList := by
  unfold parseKey at h
  split at h
  · cases h
  · next k' hk' =>
    split at h
    · cases h
    · next rest hr =>
      split at h
      · cases h
      · next hx =>
        cases h
        rw [String.toList_ofList] at hc
        have e : (renderKey k (some a)).toList = k.toList ++ (' ' :: a.toList) := by
          simp [renderKey, String.toList_append]
        rw [e, byteDrop_append] at hr
        cases hr
        rcases List.mem_cons.1 (trim_mem hc) with h | h
        · exact absurd h hs
        · exact h

theorem branch_inj {n : Node} {k : String} {a : Option String} {ns ms : List Node}
    (h : n = .branch n.kind n.name ns) (e : n = .branch k a ms) : ns = ms := by
  rw [e] at h; injection h with _ _ h; exact h.symm

theorem relationAt_mem {d : Database} (hd : d.WF) {p : String × Schema} (hp : p ∈ d.schemas)
    {q : String × Relation} (hq : q ∈ p.2.relations) : d.relationAt p.1 q.1 = some q.2 := by
  unfold Database.relationAt
  rw [AMap.get?_of_mem hd.nodup hp]
  exact AMap.get?_of_mem (hd.home p hp).2.rels_nodup hq

theorem functionAt_mem {d : Database} (hd : d.WF) {p : String × Schema} (hp : p ∈ d.schemas)
    {q : String × Function} (hq : q ∈ p.2.functions) : d.functionAt p.1 q.1 = some q.2 := by
  unfold Database.functionAt
  rw [AMap.get?_of_mem hd.nodup hp]
  exact AMap.get?_of_mem (hd.home p hp).2.funs_nodup hq

/-! ### Snapshots with the same content -/

theorem content_index {r : Relation} {i : Index} (h : r.content = (Relation.index i).content) :
    r = .index i := by
  cases r <;> cases h
  rfl

theorem content_table {r : Relation} {t : Table} (h : r.content = (Relation.table t).content) :
    ∃ t', r = .table t' ∧ t'.content = t.content := by
  cases r with
  | table t' => exact ⟨t', rfl, RelContent.table.inj h⟩
  | view v => cases h
  | index v => cases h
  | sequence v => cases h

theorem content_constraints {t t' : Table} (h : t'.content = t.content) (k : String) :
    t'.constraints.get? k = t.constraints.get? k :=
  congrFun (congrArg TableContent.constraints h) k

theorem content_columns {t t' : Table} (h : t'.content = t.content) :
    columnNamed t'.columns = columnNamed t.columns :=
  congrArg TableContent.columns h

theorem content_name {r r' : Relation} (h : r'.content = r.content) : r'.name = r.name := by
  cases r with
  | table t =>
    obtain ⟨t', rfl, ht⟩ := content_table h
    exact congrArg TableContent.name ht
  | view v => cases r' <;> cases h; rfl
  | index v => cases r' <;> cases h; rfl
  | sequence v => cases r' <;> cases h; rfl

theorem content_relationAt {d d' : Database} (h : d'.content = d.content) {s k : String}
    {r : Relation} (hr : d.relationAt s k = some r) :
    ∃ r', d'.relationAt s k = some r' ∧ r'.content = r.content := by
  have := congrFun h s
  unfold Database.content at this
  unfold Database.relationAt at hr ⊢
  cases h1 : d.schemas.get? s with
  | none => rw [h1] at hr; cases hr
  | some sc =>
    rw [h1] at hr this
    cases h2 : d'.schemas.get? s with
    | none => rw [h2] at this; cases this
    | some sc' =>
      rw [h2] at this
      have e : sc'.content = sc.content := by injection this
      have e := congrFun (congrArg SchemaContent.relations e) k
      have e : (sc'.relations.get? k).map Relation.content = (sc.relations.get? k).map Relation.content := e
      have hr : sc.relations.get? k = some r := hr
      rw [hr] at e
      cases h3 : sc'.relations.get? k with
      | none => rw [h3] at e; cases e
      | some r' =>
        rw [h3] at e
        exact ⟨r', h3, by injection e⟩

theorem content_functionAt {d d' : Database} (h : d'.content = d.content) {s k : String}
    {f : Function} (hr : d.functionAt s k = some f) : d'.functionAt s k = some f := by
  have := congrFun h s
  unfold Database.content at this
  unfold Database.functionAt at hr ⊢
  cases h1 : d.schemas.get? s with
  | none => rw [h1] at hr; cases hr
  | some sc =>
    rw [h1] at hr this
    cases h2 : d'.schemas.get? s with
    | none => rw [h2] at this; cases this
    | some sc' =>
      rw [h2] at this
      have e : sc'.content = sc.content := by injection this
      exact (congrFun (congrArg SchemaContent.functions e) k).trans hr

theorem content_relation_read {r r' : Relation} (h : r'.content = r.content) (hw : r.WF)
    (hr : RelationRead r') : RelationRead r := by
  cases r with
  | table t =>
    obtain ⟨t', rfl, ht⟩ := content_table h
    have hn : t'.name = t.name := congrArg TableContent.name ht
    have hw : t.WF := hw
    obtain ⟨h1, h2, h3⟩ := hr
    refine ⟨hn ▸ h1, fun c hc => ?_, fun p hp => ?_⟩
    · refine h2 c (columnNamed_mem (n := c.name) ?_)
      rw [content_columns ht]
      exact columnNamed_of_mem hw.cols_nodup hc
    · refine h3 p (AMap.mem_of_get? ?_)
      rw [content_constraints ht]
      exact AMap.get?_of_mem hw.cons_nodup hp
  | view v => cases r' <;> cases h; exact hr
  | index v => cases r' <;> cases h; exact hr
  | sequence v => cases r' <;> cases h; exact hr

theorem content_read {d d' : Database} (h : d'.content = d.content) (hd : d.WF) (hd' : d'.WF)
    (hr : ∀ p ∈ d'.schemas, NameOk p.2.name ∧
      (∀ q ∈ p.2.relations, RelationRead q.2) ∧ ∀ q ∈ p.2.functions, NameOk q.2.name) :
    ∀ p ∈ d.schemas, NameOk p.2.name ∧
      (∀ q ∈ p.2.relations, RelationRead q.2) ∧ ∀ q ∈ p.2.functions, NameOk q.2.name := by
  intro p hp
  have := congrFun h p.1
  unfold Database.content at this
  rw [AMap.get?_of_mem hd.nodup hp] at this
  cases h2 : d'.schemas.get? p.1 with
  | none => rw [h2] at this; cases this
  | some sc' =>
    rw [h2] at this
    have e : sc'.content = p.2.content := by injection this
    have hm := AMap.mem_of_get? h2
    obtain ⟨h3, h4, h5⟩ := hr _ hm
    have hn : sc'.name = p.2.name := congrArg SchemaContent.name e
    refine ⟨hn ▸ h3, fun q hq => ?_, fun q hq => ?_⟩
    · obtain ⟨r', a1, a2⟩ := content_relationAt h (relationAt_mem hd hp hq)
      unfold Database.relationAt at a1
      rw [h2] at a1
      exact content_relation_read a2 ((hd.home p hp).2.rels_home q hq).2.2
        (h4 _ (AMap.mem_of_get? a1))
    · have a1 := content_functionAt h (functionAt_mem hd hp hq)
      unfold Database.functionAt at a1
      rw [h2] at a1
      exact h5 _ (AMap.mem_of_get? a1)

theorem content_relation_ok {r r' : Relation} (h : r'.content = r.content) (hw : r.WF)
    (hr : RelationOk r' ∧ RelationFileOk r') : RelationOk r ∧ RelationFileOk r := by
  cases r with
  | table t =>
    obtain ⟨t', rfl, ht⟩ := content_table h
    have hn : t'.name = t.name := congrArg TableContent.name ht
    have hw : t.WF := hw
    obtain ⟨⟨h1, h2⟩, h3, h4, h5⟩ := hr
    have hcol : ∀ c ∈ t.columns, c ∈ t'.columns := fun c hc => by
      refine columnNamed_mem (n := c.name) ?_
      rw [content_columns ht]
      exact columnNamed_of_mem hw.cols_nodup hc
    have hcon : ∀ p ∈ t.constraints, p ∈ t'.constraints := fun p hp => by
      refine AMap.mem_of_get? ?_
      rw [content_constraints ht]
      exact AMap.get?_of_mem hw.cons_nodup hp
    exact ⟨⟨fun c hc => h1 c (hcol c hc), fun p hp => h2 p (hcon p hp)⟩, hn ▸ h3,
      fun c hc => h4 c (hcol c hc), fun p hp => h5 p (hcon p hp)⟩
  | view v => cases r' <;> cases h; exact hr
  | index v => cases r' <;> cases h; exact hr
  | sequence v => cases r' <;> cases h; exact hr

theorem content_schema {d d' : Database} (h : d'.content = d.content) {k : String} {sc : Schema}
    (hs : d.schemas.get? k = some sc) : ∃ sc', d'.schemas.get? k = some sc' ∧ sc'.name = sc.name := by
  have := congrFun h k
  unfold Database.content at this
  rw [hs] at this
  cases h2 : d'.schemas.get? k with
  | none => rw [h2] at this; cases this
  | some sc' =>
    rw [h2] at this
    have e : sc'.content = sc.content := by injection this
    exact ⟨sc', rfl, congrArg SchemaContent.name e⟩

theorem mem_relationAt {d : Database} {s k : String} {r : Relation} (h : d.relationAt s k = some r) :
    ∃ p ∈ d.schemas, p.1 = s ∧ (k, r) ∈ p.2.relations := by
  unfold Database.relationAt at h
  split at h
  · next sc hsc => exact ⟨_, AMap.mem_of_get? hsc, rfl, AMap.mem_of_get? h⟩
  · cases h

theorem mem_functionAt {d : Database} {s k : String} {r : Function} (h : d.functionAt s k = some r) :
    ∃ p ∈ d.schemas, p.1 = s ∧ (k, r) ∈ p.2.functions := by
  unfold Database.functionAt at h
  split at h
  · next sc hsc => exact ⟨_, AMap.mem_of_get? hsc, rfl, AMap.mem_of_get? h⟩
  · cases h

/-- Whether a snapshot can be written and read back is a matter of its content. -/
theorem snapshotOk_content {d d' : Database} (h : d'.content = d.content) (hd : d.WF)
    (hok : SnapshotOk d') : SnapshotOk d := by
  intro p hp
  refine ⟨?_, fun q hq => ?_, fun q hq => ?_⟩
  · obtain ⟨sc, h1, h2⟩ := content_schema h (AMap.get?_of_mem hd.nodup hp)
    rw [← h2]
    exact (hok _ (AMap.mem_of_get? h1)).1
  · obtain ⟨r', a1, a2⟩ := content_relationAt h (relationAt_mem hd hp hq)
    obtain ⟨p', hp', _, hm⟩ := mem_relationAt a1
    exact content_relation_ok a2 ((hd.home p hp).2.rels_home q hq).2.2 ((hok p' hp').2.1 _ hm)
  · obtain ⟨p', hp', _, hm⟩ := mem_functionAt (content_functionAt h (functionAt_mem hd hp hq))
    exact (hok p' hp').2.2 _ hm

theorem snapshotInt64_content {d d' : Database} (h : d'.content = d.content) (hd : d.WF)
    (hok : SnapshotInt64 d') : SnapshotInt64 d := by
  intro p hp q hq s hs
  obtain ⟨r', a1, a2⟩ := content_relationAt h (relationAt_mem hd hp hq)
  obtain ⟨p', hp', _, hm⟩ := mem_relationAt a1
  refine hok p' hp' _ hm s ?_
  rw [hs] at a2
  cases r' <;> cases a2
  rfl

/-- Two maps with the same keys in the same order and the same values are the same. -/
theorem eq_of_keys {α : Type} : ∀ {a b : AMap α}, a.NodupKeys → a.keys = b.keys →
    (∀ k, a.get? k = b.get? k) → a = b
  | [], [], _, _, _ => rfl
  | [], _ :: _, _, h, _ => by cases h
  | _ :: _, [], _, h, _ => by cases h
  | (k, v) :: a, (k', v') :: b, hn, h, hg => by
    have hb : AMap.NodupKeys ((k', v') :: b) := by unfold AMap.NodupKeys at hn ⊢; rw [← h]; exact hn
    have e1 : k = k' := (List.cons.inj h).1
    subst e1
    have g := hg k
    rw [AMap.get?_of_mem hn List.mem_cons_self, AMap.get?_of_mem hb List.mem_cons_self] at g
    injection g with g
    subst g
    have hn' := List.nodup_cons.1 hn
    have hb' := List.nodup_cons.1 hb
    rw [eq_of_keys (a := a) (b := b) hn'.2 (List.cons.inj h).2 ?_]
    intro x
    by_cases hx : x = k
    · subst hx
      rw [AMap.get?_eq_none_iff.2 hn'.1, AMap.get?_eq_none_iff.2 hb'.1]
    · have := hg x
      simpa [AMap.get?, Ne.symm hx] using this

theorem eq_of_names : ∀ {a b : List Column}, (a.map Column.name).Nodup →
    a.map Column.name = b.map Column.name → columnNamed a = columnNamed b → a = b := by
  intro a b hn h hg
  have hb : (b.map Column.name).Nodup := h ▸ hn
  have fa : ∀ l : List Column, (∀ c ∈ l, columnNamed b c.name = some c) →
      (l.map Column.name).map (columnNamed b) = l.map some := by
    intro l hl
    rw [List.map_map]
    exact List.map_congr_left hl
  have h1 := fa a fun c hc => by rw [← hg]; exact columnNamed_of_mem hn hc
  have h2 := fa b fun c hc => columnNamed_of_mem hb hc
  rw [h, h2] at h1
  exact (List.map_inj_right fun _ _ e => Option.some.inj e).1 h1.symm

/-- A table that is written and read as one with the same content is read as the same. -/
theorem table_back {s : String} {t t' : Table} (ht : t.WF)
    (h : parseTable s (renderTable s t) = .ok t') (hc : t'.content = t.content) : t' = t := by
  have hw := (parseTable_wf h).1
  obtain ⟨_, name, ns, xs, hn, hs, hx, _, _, rfl⟩ := parseTable_ok_iff.1 h
  have hns : t.columns.map renderColumn ++ t.constraints.values.map (renderConstraint s) = ns :=
    Option.some.inj hs
  subst hns
  obtain ⟨n1, n2⟩ := table_names hx
  have f1 : ∀ l : List Column, ((l.map renderColumn).filter fun m => m.kind = "column") =
      l.map renderColumn := by
    intro l
    rw [List.filter_eq_self]
    intro m hm
    obtain ⟨c, _, rfl⟩ := List.mem_map.1 hm
    rfl
  have f2 : ∀ l : List Constraint, ((l.map (renderConstraint s)).filter fun m => m.kind = "column") =
      [] := by
    intro l
    rw [List.filter_eq_nil_iff]
    intro m hm
    obtain ⟨c, _, rfl⟩ := List.mem_map.1 hm
    rw [kind_renderConstraint]; decide
  have f3 : ∀ l : List Column, ((l.map renderColumn).filter fun m => m.kind = "constraint") = [] := by
    intro l
    rw [List.filter_eq_nil_iff]
    intro m hm
    obtain ⟨c, _, rfl⟩ := List.mem_map.1 hm
    show ¬ decide ("column" = "constraint") = true
    decide
  have f4 : ∀ l : List Constraint,
      ((l.map (renderConstraint s)).filter fun m => m.kind = "constraint") =
      l.map (renderConstraint s) := by
    intro l
    rw [List.filter_eq_self]
    intro m hm
    obtain ⟨c, _, rfl⟩ := List.mem_map.1 hm
    rw [kind_renderConstraint]; decide
  rw [List.filter_append, f1, f2, List.append_nil, List.map_map] at n1
  rw [List.filter_append, f3, f4, List.nil_append, List.map_map] at n2
  have strip : ∀ {α : Type} (l : List α) (g : α → String),
      (l.map fun c => some (g c)).map (fun o => o.getD "") = l.map g := by
    intro α l g; rw [List.map_map]; rfl
  have e1 : (lefts xs).map Column.name = t.columns.map Column.name := by
    have := congrArg (List.map fun o : Option String => o.getD "") n1
    rw [strip, List.map_map] at this
    exact this.symm
  have e2 : (rights xs).map Constraint.name = t.constraints.keys := by
    have := congrArg (List.map fun o : Option String => o.getD "") n2
    rw [strip, List.map_map] at this
    rw [← this, show t.constraints.keys = t.constraints.map Prod.fst from rfl, AMap.values,
      List.map_map]
    refine List.map_congr_left fun p hp => ?_
    show (renderConstraint s p.2).name.getD "" = p.1
    rw [name_renderConstraint, ← (ht.cons_home p hp).1]
    rfl
  have c1 : lefts xs = t.columns := eq_of_names hw.cols_nodup e1 (content_columns hc)
  have c2 := eq_of_keys hw.cons_nodup
    (show AMap.keys ((rights xs).map fun c => (c.name, c)) = _ by rw [keys_of_map]; exact e2)
    (content_constraints hc)
  have c3 := congrArg TableContent.schemaName hc
  have c4 := congrArg TableContent.name hc
  cases t
  simp only [Table.content] at c1 c2 c3 c4 ⊢
  rw [c1, c2, c3, c4]

/-- A schema that is written and read as one with the same content can be read back. -/
theorem schema_back {sc s' : Schema} (hw : sc.WF) {n : Node} (hr : renderSchema sc = .ok n)
    (hp : parseSchema n = .ok s') (hc : s'.content = sc.content) :
    ∀ q ∈ sc.relations, RelationOk q.2 := by
  intro q hq
  unfold renderSchema at hr
  split at hr
  · cases hr
  next ns hns =>
  injection hr with hr
  subst hr
  obtain ⟨_, name, ms, xs, hn, hm, hx, hnd, _, he⟩ := parseSchema_ok_iff.1 hp
  simp only [Node.name, Node.nodes, Option.some.injEq] at hn hm
  subst hn hm
  obtain ⟨x, hxm, e1⟩ := map_ok_mem' (renderRelations_iff.1 hns) (List.mem_map.2 ⟨q, hq, rfl⟩)
  obtain ⟨y, hy, e2⟩ := map_ok_mem' hx (List.mem_append_left _ hxm)
  have hback : relationBack sc.name q.2 = .ok y := by
    unfold relationBack
    rw [e1]; exact e2
  obtain ⟨r', rfl⟩ := relationBack_inl _ _ _ hback
  have hname : r'.name = q.1 := by
    have := (schemaItem_name e2).2
    rw [(name_renderRelation e1).1, (hw.rels_home q hq).1] at this
    injection this with this
    exact this.symm
  have hget : s'.relations.get? q.1 = some r' := by
    rw [he]
    refine AMap.get?_of_mem ?_ (List.mem_map.2 ⟨r', mem_lefts.2 hy, by rw [hname]⟩)
    unfold AMap.NodupKeys
    rw [keys_of_map]; exact hnd
  have hrc : r'.content = q.2.content := by
    have := congrFun (congrArg SchemaContent.relations hc) q.1
    have this : (s'.relations.get? q.1).map Relation.content =
      (sc.relations.get? q.1).map Relation.content := this
    rw [hget, AMap.get?_of_mem hw.rels_nodup hq] at this
    injection this
  refine (relationBack_iff (hw.rels_home q hq).2.2 (hw.rels_home q hq).2.1).1 ?_
  rw [hback]
  congr 2
  obtain ⟨k, r⟩ := q
  cases r with
  | table t =>
    obtain ⟨t', rfl, ht⟩ := content_table hrc
    have hk : (renderTable sc.name t).kind = "table" := rfl
    have : schemaItem sc.name (renderTable sc.name t) = .ok (.inl (.table t')) := hback
    unfold schemaItem at this
    rw [if_pos hk] at this
    obtain ⟨a, ha, e⟩ := map_ok_iff'.1 this
    injection e with e; injection e with e; subst e
    rw [table_back (hw.rels_home _ hq).2.2 ha ht]
  | view v => cases r' <;> cases hrc; rfl
  | index v => cases r' <;> cases hrc; rfl
  | sequence v => cases r' <;> cases hrc; rfl

/-- The name of the target of a foreign key, when the file that was written states it. -/
theorem reference_file {s : String} {k : ForeignKey} {m : Node}
    (hf : ReadFrom m (renderConstraint s (.foreignKey k))) (hks : k.schemaName = s)
    {name : String} {cols : List String}
    (h : stated m "references" (named Node.varargs) = some (name, cols))
    (hr : RefersTo s name k.targetSchema k.targetTable) :
    NameOk (if k.targetSchema = k.schemaName then k.targetTable
        else k.targetSchema ++ "." ++ k.targetTable) := by
  obtain ⟨c, hc, e⟩ := stated_mem h
  obtain ⟨hck, ns, hb, x, hx, hfx⟩ := hf.childOf hc
  have hcn := named_name e
  have hns := branch_inj hb rfl
  subst hns
  have key : x = Node.ofVarargs "references"
      (some (renderTableRef s k.targetSchema k.targetTable)) k.targetColumns := by
    have other : NodeOk x → x.kind ≠ "references" → False := fun h1 h2 =>
      h2 ((hfx.same h1.key).1.symm.trans hck)
    rcases List.mem_cons.1 hx with rfl | hx
    · exact (other (nodeOk_varargs (plainKey (by decide))) (show "foreign key" ≠ "references" by decide)).elim
    rcases List.mem_cons.1 hx with rfl | hx
    · rfl
    refine (other ?_ ?_).elim
    · rcases List.mem_append.1 hx with hx | hx
      · rcases List.mem_append.1 hx with hx | hx
        · rcases List.mem_append.1 hx with hx | hx
          · exact ok_flags _ _ _ hx
          · exact ok_str (by decide) _ hx
        · exact ok_str (by decide) _ hx
      · exact ok_str (by decide) _ hx
    · have : x.kind ∈ ["deferrable", "initially deferred", "match", "on update", "on delete"] := by
        refine List.Sublist.mem (List.mem_map_of_mem hx) ?_
        rw [List.map_append, List.map_append, List.map_append]
        exact (((kinds_flags _ _).append (kinds_str ..)).append (kinds_str ..)).append (kinds_str ..)
      intro h
      rw [h] at this
      exact absurd this (by decide)
  subst key
  have hp : parseKey (renderKey "references" (some (renderTableRef s k.targetSchema k.targetTable))) =
      .ok ("references", some name) := by
    have := hfx.1
    rw [hck, hcn] at this
    exact this
  have hname : NameOk name := (parseKey_props hp).2 name rfl
  obtain ⟨hdot, hcase⟩ := hr
  subst hks
  rcases hcase with ⟨h1, h2⟩ | ⟨h1, h2⟩
  · rw [if_pos h2, ← h1]; exact hname
  · by_cases hsame : k.targetSchema = k.schemaName
    · exfalso
      have : '.' ∈ name.toList := by rw [h1]; simp [String.toList_append]
      have := read_name_mem hp this (by decide)
      unfold renderTableRef at this
      rw [if_pos hsame] at this
      exact hdot this
    · rw [if_neg hsame, ← h1]; exact hname

theorem relation_file {s : String} {r r' : Relation} {m n : Node} (hn : renderRelation s r = .ok n)
    (hf : ReadFrom m n) (hst : RelationStated s m r') (hrr : r'.content = r.content) (hw : r.WF)
    (hs : r.schemaName = s) (hr : RelationRead r) : RelationFileOk r := by
  cases r with
  | view v => exact hr
  | sequence q => exact hr
  | index i =>
    have := content_index hrr
    subst this
    obtain ⟨h1, h2, h3⟩ := hr
    have hst : IndexStated s m i := hst
    have : renderIndex i = n := by injection hn
    subst this
    obtain ⟨c, hc, e⟩ := stated_mem hst.on
    obtain ⟨hck, ns, hb, x, hx, hfx⟩ := hf.childOf hc
    have hcn := named_name e
    have hns := branch_inj hb rfl
    subst hns
    have key : KeyOk "on" (some i.tableName) := by
      have hp := hfx.1
      rw [hck, hcn] at hp
      rcases List.mem_append.1 hx with hx | hx
      · rcases List.mem_append.1 hx with hx | hx
        · have hk := (ok_if (by decide) _ hx).key
          have hu : x.kind = "unique" := by
            split at hx
            · rw [List.mem_singleton] at hx; subst hx; rfl
            · cases hx
          have := (hfx.same hk).1
          rw [hck, hu] at this
          exact absurd this (by decide)
        · rw [h3] at hx; simp [strUnless] at hx
      · rw [List.mem_singleton] at hx; subst hx
        exact parseKey_iff.1 hp
    obtain ⟨_, _, h6⟩ := key.name _ rfl
    exact ⟨h1, h2, h3, (h6 rfl).1, (h6 rfl).2⟩
  | table t =>
    obtain ⟨h1, h2, h3⟩ := hr
    obtain ⟨t', rfl, htt⟩ := content_table hrr
    have hst : TableStated s m t' := hst
    have hw : t.WF := hw
    have hs : t.schemaName = s := hs
    have hcons : ∀ k, t'.constraints.get? k = t.constraints.get? k := content_constraints htt
    have : renderTable s t = n := by injection hn
    subst this
    refine ⟨h1, h2, ?_⟩
    intro p hp
    have hnm := h3 p hp
    cases hc : p.2 with
    | primaryKey k => rw [hc] at hnm; exact hnm
    | unique k => rw [hc] at hnm; exact hnm
    | check k => rw [hc] at hnm; exact hnm
    | foreignKey k =>
      have hg := AMap.get?_of_mem hw.cons_nodup hp
      obtain ⟨e0, c, hcm, hcs⟩ := hst.only _ _ ((hcons _).trans hg)
      obtain ⟨hck, ns, hb, x, hx, hfx⟩ := hf.childOf hcm
      have hns := branch_inj hb rfl
      subst hns
      have key : x = renderConstraint s p.2 := by
        rcases List.mem_append.1 hx with hx | hx
        · obtain ⟨col, hcol, rfl⟩ := List.mem_map.1 hx
          have := (hfx.same (ok_column (h2 col hcol)).key).1
          rw [hck] at this
          exact absurd this (show "constraint" ≠ "column" by decide)
        · obtain ⟨c', hc', rfl⟩ := List.mem_map.1 hx
          obtain ⟨q, hq, rfl⟩ := List.mem_map.1 hc'
          have hkey : KeyOk (renderConstraint s q.2).kind (renderConstraint s q.2).name := by
            rw [kind_renderConstraint, name_renderConstraint]
            exact NameOk.key (h3 q hq) (by decide) (by decide)
          have := (hfx.same hkey).2
          rw [hcs.name, name_renderConstraint] at this
          injection this with this
          have e1 : p.1 = q.1 := by
            rw [← (hw.cons_home p hp).1, ← (hw.cons_home q hq).1]; exact this
          have hgq := AMap.get?_of_mem hw.cons_nodup hq
          rw [← e1, hg] at hgq
          injection hgq with hgq
          rw [hgq]
      subst key
      rw [hc] at hcs hfx hnm
      obtain ⟨first, rest, _, _, _, ⟨name, h4, h5⟩, _⟩ := hcs.body
      refine ⟨hnm, reference_file hfx ?_ (textsOf_eq ▸ h4) h5⟩
      have := (hw.cons_home p hp).2.1
      rw [hc] at this
      exact this.trans hs

/-- What every snapshot stated by definition files is like. -/
theorem states_read {ns : List Node} {d : Database} (h : FileStates ns d) (hd : d.WF)
    (hn : ∀ n ∈ ns, ReadNode n) : ∀ p ∈ d.schemas, NameOk p.2.name ∧
      (∀ q ∈ p.2.relations, RelationRead q.2) ∧ ∀ q ∈ p.2.functions, NameOk q.2.name := by
  intro p hp
  refine ⟨?_, ?_, ?_⟩
  · obtain ⟨n, hm, e⟩ := (h.schemas p.1).1 (List.mem_map.2 ⟨p, hp, rfl⟩)
    rw [(hd.home p hp).1]
    exact (hn n hm).name e
  · intro q hq
    obtain ⟨_, m, hm, hs⟩ := h.relation _ _ _ (relationAt_mem hd hp hq)
    exact relation_read (inSchema_read hn hm) hs ((hd.home p hp).2.rels_home q hq).2.2
  · intro q hq
    obtain ⟨_, m, hm, hs⟩ := h.function _ _ _ (functionAt_mem hd hp hq)
    exact (inSchema_read hn hm).name hs.name

theorem parseSchema_name {n : Node} {s : Schema} (h : parseSchema n = .ok s) :
    n.name = some s.name := by
  obtain ⟨_, name, ns, xs, h1, _, _, h2⟩ := parseSchema_ok_iff.1 h
  rw [h1]
  simp_all

theorem kind_renderSchema {n : Node} {s : Schema} (h : renderSchema s = .ok n) : n.kind = "schema" := by
  unfold renderSchema at h
  split at h
  · cases h
  · injection h with h; subst h; rfl

theorem kind_renderRelation {s : String} {r : Relation} {n : Node} (h : renderRelation s r = .ok n) :
    n.kind = "table" ∨ n.kind = "view" ∨ n.kind = "index" ∨ n.kind = "sequence" := by
  cases r with
  | table t =>
    have : renderTable s t = n := by injection h
    exact .inl (this ▸ rfl)
  | view v => exact .inr (.inl (kind_renderView h))
  | index i =>
    have : renderIndex i = n := by injection h
    exact .inr (.inr (.inl (this ▸ rfl)))
  | sequence q => exact .inr (.inr (.inr (kind_renderSequence h)))

theorem parse_names {ns : List Node} {ss : List Schema} (h : ns.map parseSchema = ss.map .ok) :
    ns.map Node.name = ss.map fun s => some s.name := by
  induction ns generalizing ss with
  | nil => cases ss <;> simp at h ⊢
  | cons n ns ih =>
    cases ss with
    | nil => simp at h
    | cons s ss =>
      rw [List.map_cons, List.map_cons, List.cons.injEq] at h
      rw [List.map_cons, List.map_cons, ih h.2, parseSchema_name h.1]

theorem render_names {ns : List Node} {ss : List Schema} (h : ss.map renderSchema = ns.map .ok) :
    ns.map Node.name = ss.map fun s => some s.name := by
  induction ns generalizing ss with
  | nil => cases ss <;> simp at h ⊢
  | cons n ns ih =>
    cases ss with
    | nil => simp at h
    | cons s ss =>
      rw [List.map_cons, List.map_cons, List.cons.injEq] at h
      rw [List.map_cons, List.map_cons, ih h.2, name_renderSchema h.1]

/-- C45, the converse. -/
theorem loads_content {d d' : Database} (hd : d.WF) (hi : SnapshotInt64 d) {y : Yaml}
    (h1 : saveDoc d = .ok y) (h2 : loadDoc y = .ok d') (hdd : d'.content = d.content) :
    SnapshotOk d := by
  unfold saveDoc at h1
  split at h1
  · cases h1
  next ns hns =>
  have hns := renderSchemas_iff.1 hns
  injection h1 with h1
  subst h1
  have hst := loadDoc_states h2
  obtain ⟨ms, hms⟩ : ∃ ms, parseNodes (renderMapping ns) = .ok ms := by
    unfold loadDoc mapOf at h2
    dsimp only at h2
    split at h2
    · cases h2
    · next ms hms => exact ⟨ms, hms⟩
  have hfile : fileNodes (mapOf (renderMapping ns)) = ms := by
    unfold fileNodes mapOf
    dsimp only
    have : parseMapping ((renderMapping ns).map fun e => some e.1)
        ((renderMapping ns).map fun e => e.2) = .ok ms := hms
    rw [this]
  have hread := content_read hdd hd (loadDoc_wf h2) (states_read hst (loadDoc_wf h2) fileNodes_read)
  rw [hfile] at hst
  -- the relations, with the names of the file
  have hrel : ∀ p ∈ d.schemas, ∀ q ∈ p.2.relations, RelationFileOk q.2 := by
    intro p hp q hq
    obtain ⟨a1, a2, a3⟩ := hd.home p hp
    obtain ⟨b1, b2, b3⟩ := (hd.home p hp).2.rels_home q hq
    obtain ⟨q'', hq'', hqc⟩ := content_relationAt hdd (relationAt_mem hd hp hq)
    obtain ⟨hqn, m, ⟨m0, hm0, k0, n0, cs, hcs, hm⟩, hs⟩ := hst.relation _ _ _ hq''
    obtain ⟨x0, hx0, hf0⟩ := parseNodes_from hms hm0
    obtain ⟨s', hs', e0⟩ := map_ok_mem hns hx0
    obtain ⟨p', hp', rfl⟩ := List.mem_map.1 hs'
    have hk0 : KeyOk x0.kind x0.name := by
      rw [name_renderSchema e0, show x0.kind = "schema" from kind_renderSchema e0]
      exact NameOk.key (hread p' hp').1 (by decide) (by decide)
    have hp0 : p' = p := by
      have := (hf0.same hk0).2
      rw [n0, name_renderSchema e0, (hd.home p' hp').1] at this
      injection this with this
      have g1 := AMap.get?_of_mem hd.nodup hp'
      have g2 := AMap.get?_of_mem hd.nodup hp
      rw [← this, g2] at g1
      injection g1 with g1
      exact Prod.ext this.symm g1.symm
    subst hp0
    obtain ⟨xs, hb, x, hx, hfx⟩ := hf0.child ((inner_eq _).symm.trans hcs) hm
    unfold renderSchema at e0
    split at e0
    · cases e0
    next rs hrs =>
    injection e0 with e0
    have := branch_inj hb e0.symm
    subst this
    have hrs := renderRelations_iff.1 hrs
    have hmname : m.name = some q.2.name ∧ m.kind ≠ "function" := by
      rw [b1, ← hqn]
      cases hq2 : q'' with
      | table t => rw [hq2] at hs; exact ⟨TableStated.name hs, by rw [TableStated.kind hs]; decide⟩
      | view t => rw [hq2] at hs; exact ⟨ViewStated.name hs, by rw [ViewStated.kind hs]; decide⟩
      | index t => rw [hq2] at hs; exact ⟨IndexStated.name hs, by rw [IndexStated.kind hs]; decide⟩
      | sequence t =>
        rw [hq2] at hs; exact ⟨SequenceStated.name hs, by rw [SequenceStated.kind hs]; decide⟩
    rcases List.mem_append.1 hx with hx | hx
    · obtain ⟨r, hr, er⟩ := map_ok_mem hrs hx
      obtain ⟨q', hq', rfl⟩ := List.mem_map.1 hr
      have hkx : KeyOk x.kind x.name := by
        have hname : NameOk q'.2.name := by
          have := (hread _ hp).2.1 q' hq'
          cases hq2 : q'.2 <;> rw [hq2] at this
          · exact this.1
          · exact this
          · exact this.1
          · exact this.1
        rw [(name_renderRelation er).1]
        refine NameOk.key hname ?_ ?_
        · rcases kind_renderRelation er with e | e | e | e <;> rw [e] <;> decide
        · rcases kind_renderRelation er with e | e | e | e <;> rw [e] <;> decide
      have hqq : q' = q := by
        have := (hfx.same hkx).2
        rw [hmname.1, (name_renderRelation er).1] at this
        injection this with this
        rw [b1, ((hd.home _ hp).2.rels_home q' hq').1] at this
        have g1 := AMap.get?_of_mem (hd.home _ hp).2.rels_nodup hq'
        have g2 := AMap.get?_of_mem (hd.home _ hp).2.rels_nodup hq
        rw [← this, g2] at g1
        injection g1 with g1
        exact Prod.ext this.symm g1.symm
      subst hqq
      rw [← a1] at hs
      exact relation_file er hfx hs hqc b3 b2 ((hread _ hp).2.1 _ hq)
    · obtain ⟨f, hf, rfl⟩ := List.mem_map.1 hx
      obtain ⟨q', hq', rfl⟩ := List.mem_map.1 hf
      have := (hfx.same (ok_function ((hread _ hp).2.2 q' hq')).key).1
      exact absurd this hmname.2
  have hnames : ns.map Node.name = d.schemas.values.map fun s => some s.name := render_names hns
  have hkeys : (d.schemas.values.map Schema.name).Nodup := by
    rw [values_map_name fun p hp => (hd.home p hp).1]
    exact hd.nodup
  have htree : TreeOk ns := by
    refine ⟨nodesOk_iff.2 ?_, ?_⟩
    · intro n hn
      obtain ⟨s, hs, e⟩ := map_ok_mem hns hn
      obtain ⟨p, hp, rfl⟩ := List.mem_map.1 hs
      exact ok_schema e (hd.home p hp).2 (hread p hp).1 (hrel p hp) (hread p hp).2.2 (hi p hp)
    · refine nodup_of_map Prod.snd ?_
      rw [List.map_map]
      show (ns.map Node.name).Nodup
      rw [hnames]
      refine nodup_of_map (fun o : Option String => o.getD "") ?_
      rw [List.map_map]
      exact hkeys
  have hmn : ms = ns := by
    have h3 : parseNodes (renderMapping ns) = .ok ns := (parseTree_iff ns).2 htree
    rw [hms] at h3
    injection h3
  subst hmn
  obtain ⟨ss, hss, _⟩ := loadDoc_iff.1 h2
  have hps := parseDoc_nodes hss
  rw [hfile] at hps
  have hsn : ss.map Schema.name = d.schemas.values.map Schema.name := by
    have e := (parse_names hps).symm.trans hnames
    have := congrArg (List.map fun o : Option String => o.getD "") e
    rw [List.map_map, List.map_map] at this
    exact this
  have hload : loadNodes Database.new ms = .ok d' := by
    unfold loadDoc mapOf at h2
    dsimp only at h2
    have : parseMapping ((renderMapping ms).map fun e => some e.1)
        ((renderMapping ms).map fun e => e.2) = .ok ms := hms
    rw [this] at h2
    exact h2
  rw [loadNodes_new hps Database.new (by show (ss.map Schema.name).Nodup; rw [hsn]; exact hkeys)] at hload
  injection hload with hload
  intro p hp
  refine ⟨(hread p hp).1, ?_, (hread p hp).2.2⟩
  intro q hq
  refine ⟨?_, hrel p hp q hq⟩
  obtain ⟨n, hn, e1⟩ := map_ok_mem' hns (List.mem_map.2 ⟨p, hp, rfl⟩)
  obtain ⟨s', hs', e2⟩ := map_ok_mem' hps hn
  have hname : s'.name = p.1 := by
    have := parseSchema_name e2
    rw [name_renderSchema e1, (hd.home p hp).1] at this
    injection this with this
    exact this.symm
  have hat : d'.schemas.get? p.1 = some s' := by
    refine AMap.get?_of_mem (loadDoc_wf h2).nodup ?_
    rw [← hload]
    show _ ∈ [] ++ ss.map fun s => (s.name, s)
    rw [List.nil_append]
    exact List.mem_map.2 ⟨s', hs', by rw [hname]⟩
  have hsc : s'.content = p.2.content := by
    have := congrFun hdd p.1
    unfold Database.content at this
    rw [hat, AMap.get?_of_mem hd.nodup hp] at this
    injection this
  exact schema_back (hd.home p hp).2 e1 e2 hsc q hq

theorem loads_saved {d : Database} (hd : d.WF) (hi : SnapshotInt64 d)
    (h : ∃ y, saveDoc d = .ok y ∧ loadDoc y = .ok d) : SnapshotOk d := by
  obtain ⟨y, h1, h2⟩ := h
  exact loads_content hd hi h1 h2 rfl

theorem saves_iff {d : Database} (hd : d.WF) (hi : SnapshotInt64 d) :
    (∃ y, saveDoc d = .ok y ∧ loadDoc y = .ok d) ↔ SnapshotOk d :=
  ⟨loads_saved hd hi, saved_loads hd hi⟩

theorem renderSequence_ok_iff {q : Sequence} : (∃ n, renderSequence q = .ok n) ↔ SequenceWritable q := by
  have hmin : ∀ i t, ¬ (t = "int2" ∨ t = "int4" ∨ t = "int8") →
      (∃ m, seqMin i t = .ok m) → (∃ m, seqMax i t = .ok m) → False := by
    rintro i t ht ⟨a, ha⟩ ⟨b, hb⟩
    unfold seqMin at ha
    unfold seqMax at hb
    simp only [not_or] at ht
    simp only [ht.1, ht.2.1, ht.2.2, if_false] at ha hb
    split at ha
    · rw [if_neg (by omega)] at hb; cases hb
    · cases ha
  constructor
  · rintro ⟨n, h⟩
    unfold renderSequence at h
    split at h
    · cases h
    next a ha =>
    split at h
    · cases h
    next b hb =>
    split at h
    · cases h
    next o ho =>
    refine ⟨?_, fun hc => ?_⟩
    · by_cases ht : q.dataType = "int2" ∨ q.dataType = "int4" ∨ q.dataType = "int8"
      · exact ht
      · exact (hmin _ _ ht ⟨a, ha⟩ ⟨b, hb⟩).elim
    · unfold renderOwner at ho
      rw [hc] at ho
      cases ht : q.ownedByTable with
      | none => rfl
      | some t => rw [ht] at ho; cases ho
  · rintro ⟨h1, h2⟩
    obtain ⟨a, ha⟩ := seqMin_ok (inc := q.increment) h1
    obtain ⟨b, hb⟩ := seqMax_ok (inc := q.increment) h1
    obtain ⟨o, ho⟩ : ∃ o, renderOwner q = .ok o := by
      unfold renderOwner
      cases ht : q.ownedByTable with
      | none => exact ⟨_, rfl⟩
      | some t =>
        cases hc : q.ownedByColumn with
        | none => rw [h2 hc] at ht; cases ht
        | some c => exact ⟨_, rfl⟩
    unfold renderSequence
    rw [ha, hb, ho]
    exact ⟨_, rfl⟩

theorem saveDoc_ok_iff {d : Database} (hd : d.WF) : (∃ y, saveDoc d = .ok y) ↔ SnapshotWritable d := by
  constructor
  · rintro ⟨y, h⟩ p hp q hq s hs
    unfold saveDoc at h
    split at h
    · cases h
    next ns hns =>
    obtain ⟨n, _, e⟩ := map_ok_mem' (renderSchemas_iff.1 hns) (List.mem_map.2 ⟨p, hp, rfl⟩)
    unfold renderSchema at e
    split at e
    · cases e
    next rs hrs =>
    obtain ⟨m, _, e⟩ := map_ok_mem' (renderRelations_iff.1 hrs) (List.mem_map.2 ⟨q, hq, rfl⟩)
    rw [hs] at e
    exact renderSequence_ok_iff.1 ⟨m, e⟩
  · intro h
    obtain ⟨ns, hns⟩ := exists_map_ok (R := renderSchema) (xs := d.schemas.values) (fun s hs => by
      obtain ⟨p, hp, rfl⟩ := List.mem_map.1 hs
      obtain ⟨rs, hrs⟩ := exists_map_ok (R := renderRelation p.2.name) (xs := p.2.relations.values)
        (fun r hr => by
          obtain ⟨q, hq, rfl⟩ := List.mem_map.1 hr
          cases hq2 : q.2 with
          | table t => exact ⟨_, rfl⟩
          | index t => exact ⟨_, rfl⟩
          | view v =>
            have := ((hd.home p hp).2.rels_home q hq).2.1
            rw [hq2] at this
            show ∃ n, renderView p.2.name v = .ok n
            unfold renderView
            rw [if_pos (show v.schemaName = p.2.name from this)]
            exact ⟨_, rfl⟩
          | sequence s => exact renderSequence_ok_iff.2 (h p hp q hq s hq2))
      show ∃ n, renderSchema p.2 = .ok n
      unfold renderSchema
      rw [renderRelations_iff.2 hrs]
      exact ⟨_, rfl⟩)
    unfold saveDoc
    rw [renderSchemas_iff.2 hns]
    exact ⟨_, rfl⟩

/-! ### Directories -/

theorem mergeAll_new (rest : AMap Schema) (d : Database) (hn : ∀ p ∈ rest, p.2.name = p.1)
    (hd : (d.schemas.keys ++ rest.keys).Nodup) : d.mergeAll rest = .ok ⟨d.schemas ++ rest⟩ := by
  induction rest generalizing d with
  | nil => simp [Database.mergeAll]
  | cons p rest ih =>
    obtain ⟨k, sc⟩ := p
    have hk : sc.name = k := hn (k, sc) List.mem_cons_self
    subst hk
    have hnot : sc.name ∉ d.schemas.keys := by
      intro hm
      rw [List.nodup_append] at hd
      exact hd.2.2 _ hm sc.name (by simp [AMap.keys]) rfl
    have hg : d.schemas.get? sc.name = none := AMap.get?_eq_none_iff.2 hnot
    have hm : d.mergeOne sc.name sc = .ok ⟨d.schemas ++ [(sc.name, sc)]⟩ := by
      unfold Database.mergeOne
      rw [hg]
      dsimp only
      unfold Database.addSchema
      rw [if_neg (by rw [AMap.has_of_none hg]; simp)]
      rfl
    rw [Database.mergeAll, hm]
    dsimp only
    rw [ih _ fun p hp => hn p (List.mem_cons_of_mem _ hp)]
    · simp
    · simpa [AMap.keys] using hd

theorem merge_new {d : Database} (hd : d.WF) : Database.new.merge d = .ok d := by
  unfold Database.merge
  rw [mergeAll_new _ _ fun p hp => (hd.home p hp).1]
  · rfl
  · exact hd.nodup

theorem snapshot_all {es : List (DirTree Yaml)} {d : Database} (h : Load.snapshot parseDoc es = .ok d) :
    d.WF ∧ ∀ p ∈ d.schemas, NameOk p.2.name ∧
      (∀ q ∈ p.2.relations, RelationRead q.2) ∧ ∀ q ∈ p.2.functions, NameOk q.2.name := by
  have hd := snapshot_wf h
  refine ⟨hd, states_read (snapshot_states h) hd ?_⟩
  intro n hn
  obtain ⟨f, _, hf⟩ := List.mem_flatMap.1 hn
  exact fileNodes_read n hf

theorem relationAt_some {d : Database} {s k : String} {r : Relation} (h : d.relationAt s k = some r) :
    ∃ p ∈ d.schemas, ∃ q ∈ p.2.relations, p.1 = s ∧ q.1 = k ∧ q.2 = r := by
  unfold Database.relationAt at h
  split at h
  · next sc hs => exact ⟨(s, sc), AMap.mem_of_get? hs, (k, r), AMap.mem_of_get? h, rfl, rfl, rfl⟩
  · cases h

theorem functionAt_some {d : Database} {s k : String} {r : Function} (h : d.functionAt s k = some r) :
    ∃ p ∈ d.schemas, ∃ q ∈ p.2.functions, p.1 = s ∧ q.1 = k ∧ q.2 = r := by
  unfold Database.functionAt at h
  split at h
  · next sc hs => exact ⟨(s, sc), AMap.mem_of_get? hs, (k, r), AMap.mem_of_get? h, rfl, rfl, rfl⟩
  · cases h

theorem snapshot_read {es : List (DirTree Yaml)} {d : Database} (h : Load.snapshot parseDoc es = .ok d)
    {s k : String} {r : Relation} (hr : d.relationAt s k = some r) : RelationRead r := by
  obtain ⟨p, hp, q, hq, _, _, rfl⟩ := relationAt_some hr
  exact ((snapshot_all h).2 p hp).2.1 q hq

theorem RelationRead.nameOk {r : Relation} (h : RelationRead r) : NameOk r.name := by
  cases r with
  | table t => exact h.1
  | view v => exact h
  | index i => exact h.1
  | sequence q => exact h.1

theorem snapshot_names {es : List (DirTree Yaml)} {d : Database}
    (h : Load.snapshot parseDoc es = .ok d) :
    (∀ s ∈ d.schemas.keys, NameOk s) ∧
    (∀ s k r, d.relationAt s k = some r → NameOk k) ∧
    (∀ s k f, d.functionAt s k = some f → NameOk k) ∧
    (∀ s k t, d.relationAt s k = some (.table t) → (∀ c ∈ t.columns, NameOk c.name) ∧
      ∀ p ∈ t.constraints, NameOk p.1) := by
  obtain ⟨hd, ha⟩ := snapshot_all h
  refine ⟨?_, ?_, ?_, ?_⟩
  · intro s hs
    obtain ⟨p, hp, rfl⟩ := List.mem_map.1 hs
    rw [← (hd.home p hp).1]
    exact (ha p hp).1
  · intro s k r hr
    obtain ⟨p, hp, q, hq, _, rfl, rfl⟩ := relationAt_some hr
    rw [← ((hd.home p hp).2.rels_home q hq).1]
    exact ((ha p hp).2.1 q hq).nameOk
  · intro s k r hr
    obtain ⟨p, hp, q, hq, _, rfl, rfl⟩ := functionAt_some hr
    rw [← ((hd.home p hp).2.funs_home q hq).1]
    exact (ha p hp).2.2 q hq
  · intro s k t ht
    obtain ⟨p, hp, q, hq, _, rfl, e⟩ := relationAt_some ht
    have h1 := (ha p hp).2.1 q hq
    have h2 := ((hd.home p hp).2.rels_home q hq).2.2
    rw [e] at h1 h2
    obtain ⟨_, h3, h4⟩ := h1
    have h2 : t.WF := h2
    exact ⟨h3, fun c hc => (h2.cons_home c hc).1 ▸ h4 c hc⟩

end Def
end Podo
