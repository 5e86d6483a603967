import Verif.Proofs.DdlSchema
/-
Reading back whole definition files.
-/
set_option linter.unusedSimpArgs false
namespace Podo
namespace Def
open Text

theorem NameOk.key {k n : String} (h : NameOk n) (hk : k ∈ keywords) (hon : k ≠ "on") :
    KeyOk k (some n) :=
  ⟨keyWords_iff.2 hk, fun m hm => by
    injection hm with hm; subst hm
    exact ⟨h.1, h.2, fun e => absurd e hon⟩⟩

theorem plainKey {k : String} (hk : k ∈ keywords) : KeyOk k none :=
  ⟨keyWords_iff.2 hk, fun m hm => by cases hm⟩

theorem nodeOk_str {k s : String} (hk : k ∈ keywords) : NodeOk (.ofStr k s) := by
  unfold Node.ofStr; rw [NodeOk]; exact ⟨plainKey hk, by rw [ValueOk] <;> simp⟩

theorem nodeOk_bool {k : String} {b : Bool} (hk : k ∈ keywords) : NodeOk (.ofBool k b) := by
  unfold Node.ofBool; rw [NodeOk]; exact ⟨plainKey hk, by rw [ValueOk] <;> simp⟩

theorem nodeOk_int {k : String} {i : Int} (hk : k ∈ keywords) (hi : Int64 i) :
    NodeOk (.ofInt k i) := by
  unfold Node.ofInt; rw [NodeOk]; exact ⟨plainKey hk, by rw [ValueOk]; exact hi⟩

theorem valuesOk_strings (ss : List String) : ValuesOk (ss.map .string) := by
  induction ss with
  | nil => simp [ValuesOk]
  | cons s ss ih => rw [List.map_cons, ValuesOk]; exact ⟨by rw [ValueOk] <;> simp, ih⟩

theorem valueOk_varargs (ss : List String) : ValueOk (.ofVarargs ss) := by
  match ss with
  | [] => unfold Value.ofVarargs; rw [ValueOk]; exact valuesOk_strings []
  | [s] => unfold Value.ofVarargs; rw [ValueOk] <;> simp
  | s :: t :: r => unfold Value.ofVarargs; rw [ValueOk]; exact valuesOk_strings _

theorem nodeOk_varargs {k : String} {n : Option String} {ss : List String} (hk : KeyOk k n) :
    NodeOk (.ofVarargs k n ss) := by
  unfold Node.ofVarargs; rw [NodeOk]; exact ⟨hk, valueOk_varargs ss⟩

/-- Children of pairwise different kinds. -/
theorem nodup_kinds {ns : List Node} {ks : List String} (h : (ns.map Node.kind).Sublist ks)
    (hk : ks.Nodup) : (ns.map fun m => (m.kind, m.name)).Nodup := by
  refine nodup_of_map Prod.fst ?_
  rw [List.map_map]
  exact h.nodup hk

theorem kinds_str (k d v : String) : ((strUnless k d v).map Node.kind).Sublist [k] := by
  unfold strUnless; split
  · exact List.Sublist.refl _
  · exact List.nil_sublist _

theorem kinds_int (k : String) (d v : Int) : ((intUnless k d v).map Node.kind).Sublist [k] := by
  unfold intUnless; split
  · exact List.Sublist.refl _
  · exact List.nil_sublist _

theorem kinds_if (k : String) (b c : Bool) :
    ((if c then [Node.ofBool k b] else []).map Node.kind).Sublist [k] := by
  cases c
  · exact List.nil_sublist _
  · exact List.Sublist.refl _

theorem kinds_flags (a b : Bool) :
    ((renderFlags a b).map Node.kind).Sublist ["deferrable", "initially deferred"] := by
  unfold renderFlags
  rw [List.map_append]
  exact (kinds_if "deferrable" a _).append (kinds_if "initially deferred" b _)

theorem ok_str {k d v : String} (hk : k ∈ keywords) : ∀ n ∈ strUnless k d v, NodeOk n := by
  unfold strUnless; split
  · intro n hn; rw [List.mem_singleton] at hn; subst hn; exact nodeOk_str hk
  · intro n hn; cases hn

theorem ok_int {k : String} {d v : Int} (hk : k ∈ keywords) (hi : Int64 v) :
    ∀ n ∈ intUnless k d v, NodeOk n := by
  unfold intUnless; split
  · intro n hn; rw [List.mem_singleton] at hn; subst hn; exact nodeOk_int hk hi
  · intro n hn; cases hn

theorem ok_if {k : String} {b c : Bool} (hk : k ∈ keywords) :
    ∀ n ∈ (if c then [Node.ofBool k b] else []), NodeOk n := by
  cases c
  · intro n hn; cases hn
  · intro n hn; rw [if_pos rfl, List.mem_singleton] at hn; subst hn; exact nodeOk_bool hk

theorem ok_flags (a b : Bool) : ∀ n ∈ renderFlags a b, NodeOk n := by
  unfold renderFlags
  intro n hn
  rcases List.mem_append.1 hn with h | h
  · exact ok_if (by decide) n h
  · exact ok_if (by decide) n h

theorem nodeOk_branch {k : String} {n : Option String} {ns : List Node} (hk : KeyOk k n)
    (h1 : ∀ m ∈ ns, NodeOk m) (h2 : (ns.map fun m => (m.kind, m.name)).Nodup) :
    NodeOk (.branch k n ns) := by
  rw [NodeOk]; exact ⟨hk, nodesOk_iff.2 h1, h2⟩

theorem ok_column {c : Column} (h : NameOk c.name) : NodeOk (renderColumn c) := by
  unfold renderColumn; rw [NodeOk]; exact ⟨h.key (by decide) (by decide), by rw [ValueOk] <;> simp⟩

theorem ok_constraint {s : String} {c : Constraint} (h : ConstraintNamesOk c)
    (hs : c.schemaName = s) : NodeOk (renderConstraint s c) := by
  cases c with
  | primaryKey k =>
    refine nodeOk_branch (h.key (by decide) (by decide)) ?_ ?_
    · intro n hn
      rcases List.mem_cons.1 hn with rfl | hn
      · exact nodeOk_varargs (plainKey (by decide))
      · exact ok_flags _ _ n hn
    · exact nodup_kinds (ks := ["primary key", "deferrable", "initially deferred"])
        ((kinds_flags _ _).cons_cons _) (by decide)
  | unique k =>
    refine nodeOk_branch (h.key (by decide) (by decide)) ?_ ?_
    · intro n hn
      rcases List.mem_cons.1 hn with rfl | hn
      · exact nodeOk_varargs (plainKey (by decide))
      · exact ok_flags _ _ n hn
    · exact nodup_kinds (ks := ["unique", "deferrable", "initially deferred"])
        ((kinds_flags _ _).cons_cons _) (by decide)
  | check k =>
    refine nodeOk_branch (h.key (by decide) (by decide)) ?_ ?_
    · intro n hn
      rcases List.mem_cons.1 hn with rfl | hn
      · exact nodeOk_str (by decide)
      · exact ok_flags _ _ n hn
    · exact nodup_kinds (ks := ["check", "deferrable", "initially deferred"])
        ((kinds_flags _ _).cons_cons _) (by decide)
  | foreignKey k =>
    have hs' : k.schemaName = s := hs
    subst hs'
    refine nodeOk_branch (h.1.key (by decide) (by decide)) ?_ ?_
    · intro n hn
      rcases List.mem_cons.1 hn with rfl | hn
      · exact nodeOk_varargs (plainKey (by decide))
      rcases List.mem_cons.1 hn with rfl | hn
      · exact nodeOk_varargs (NameOk.key h.2 (by decide) (by decide))
      rcases List.mem_append.1 hn with hn | hn
      · rcases List.mem_append.1 hn with hn | hn
        · rcases List.mem_append.1 hn with hn | hn
          · exact ok_flags _ _ n hn
          · exact ok_str (by decide) n hn
        · exact ok_str (by decide) n hn
      · exact ok_str (by decide) n hn
    · refine nodup_kinds (ks := ["foreign key", "references", "deferrable", "initially deferred",
        "match", "on update", "on delete"]) ?_ (by decide)
      refine List.Sublist.cons_cons _ (List.Sublist.cons_cons _ ?_)
      rw [List.map_append, List.map_append, List.map_append]
      exact (((kinds_flags _ _).append (kinds_str ..)).append (kinds_str ..)).append (kinds_str ..)

theorem nodup_append_kinds {as bs : List Node} {k : String}
    (ha : (as.map fun m => (m.kind, m.name)).Nodup) (hb : (bs.map fun m => (m.kind, m.name)).Nodup)
    (hk : ∀ a ∈ as, a.kind = k) (hk' : ∀ b ∈ bs, b.kind ≠ k) :
    ((as ++ bs).map fun m => (m.kind, m.name)).Nodup := by
  rw [List.map_append, List.nodup_append]
  refine ⟨ha, hb, ?_⟩
  intro x hx y hy e
  obtain ⟨a, ha', rfl⟩ := List.mem_map.1 hx
  obtain ⟨b, hb', rfl⟩ := List.mem_map.1 hy
  injection e with e1 _
  exact hk' b hb' (e1 ▸ hk a ha')

theorem nodup_by_name {α : Type} {as : List α} {f : α → Node} {g : α → String}
    (h : (as.map g).Nodup) (hg : ∀ a ∈ as, (f a).name = some (g a)) :
    ((as.map f).map fun m => (m.kind, m.name)).Nodup := by
  refine nodup_of_map Prod.snd ?_
  rw [List.map_map, List.map_map]
  refine nodup_of_map (fun o : Option String => o.getD "") ?_
  rw [List.map_map]
  have : as.map ((fun o : Option String => o.getD "") ∘ Prod.snd ∘
      (fun m : Node => (m.kind, m.name)) ∘ f) = as.map g := by
    refine List.map_congr_left fun a ha => ?_
    simp only [Function.comp, hg a ha, Option.getD_some]
  have e : (Prod.snd ∘ (fun m : Node => (m.kind, m.name))) ∘ f =
    Prod.snd ∘ (fun m : Node => (m.kind, m.name)) ∘ f := rfl
  rw [e, this]
  exact h

theorem name_renderConstraint (s : String) (c : Constraint) :
    (renderConstraint s c).name = some c.name := by cases c <;> rfl

theorem ok_table {s : String} {t : Table} (ht : t.WF) (hs : t.schemaName = s)
    (h : RelationFileOk (.table t)) : NodeOk (renderTable s t) := by
  obtain ⟨h1, h2, h3⟩ := h
  refine nodeOk_branch (h1.key (by decide) (by decide)) ?_ ?_
  · intro n hn
    rcases List.mem_append.1 hn with hn | hn
    · obtain ⟨c, hc, rfl⟩ := List.mem_map.1 hn
      exact ok_column (h2 c hc)
    · obtain ⟨c, hc, rfl⟩ := List.mem_map.1 hn
      obtain ⟨p, hp, rfl⟩ := List.mem_map.1 hc
      exact ok_constraint (h3 p hp) ((ht.cons_home p hp).2.1.trans hs)
  · refine nodup_append_kinds (k := "column") ?_ ?_ ?_ ?_
    · exact nodup_by_name ht.cols_nodup fun c _ => rfl
    · refine nodup_by_name (g := Constraint.name) ?_ fun c _ => name_renderConstraint s c
      rw [values_map_name fun p hp => (ht.cons_home p hp).1]
      exact ht.cons_nodup
    · intro a ha; obtain ⟨c, _, rfl⟩ := List.mem_map.1 ha; rfl
    · intro a ha; obtain ⟨c, _, rfl⟩ := List.mem_map.1 ha
      rw [kind_renderConstraint]; decide

theorem ok_view {s : String} {v : View} {n : Node} (hn : renderView s v = .ok n)
    (h : NameOk v.name) : NodeOk n := by
  unfold renderView at hn
  split at hn
  · injection hn with hn
    subst hn
    refine nodeOk_branch (h.key (by decide) (by decide)) ?_ ?_
    · intro n hn
      split at hn
      · rw [List.mem_singleton] at hn; subst hn; exact nodeOk_str (by decide)
      · cases hn
    · split <;> simp
  · cases hn

theorem ok_index {i : Index} (h : RelationFileOk (.index i)) : NodeOk (renderIndex i) := by
  obtain ⟨h1, h2, h3, h4, h5⟩ := h
  refine nodeOk_branch (h1.key (by decide) (by decide)) ?_ ?_
  · intro n hn
    rcases List.mem_append.1 hn with hn | hn
    · rcases List.mem_append.1 hn with hn | hn
      · exact ok_if (by decide) n hn
      · rw [h3] at hn; simp [strUnless] at hn
    · rw [List.mem_singleton] at hn; subst hn
      refine nodeOk_varargs ⟨by decide, ?_⟩
      intro m hm
      injection hm with hm; subst hm
      exact ⟨h2.1, h2.2, fun _ => ⟨h4, h5⟩⟩
  · refine nodup_kinds (ks := ["unique", "using", "on"]) ?_ (by decide)
    rw [List.map_append, List.map_append]
    exact ((kinds_if ..).append (kinds_str ..)).append (List.Sublist.refl _)

theorem ok_function {f : Function} (h : NameOk f.name) : NodeOk (renderFunction f) := by
  refine nodeOk_branch (h.key (by decide) (by decide)) ?_ ?_
  · intro n hn
    rcases List.mem_cons.1 hn with rfl | hn
    · exact nodeOk_str (by decide)
    rcases List.mem_append.1 hn with hn | hn
    · rcases List.mem_append.1 hn with hn | hn
      · exact ok_str (by decide) n hn
      · exact ok_str (by decide) n hn
    · exact ok_str (by decide) n hn
  · refine nodup_kinds (ks := ["as", "language", "returns", "volatility"]) ?_ (by decide)
    refine List.Sublist.cons_cons _ ?_
    rw [List.map_append, List.map_append]
    exact ((kinds_str ..).append (kinds_str ..)).append (kinds_str ..)

theorem ok_owner {s : Sequence} {ns : List Node} (h : renderOwner s = .ok ns)
    (hn : ∀ t, s.ownedByTable = some t → NameOk t) :
    (∀ n ∈ ns, NodeOk n) ∧ (ns.map Node.kind).Sublist ["owned by"] := by
  unfold renderOwner at h
  split at h
  · injection h with h; subst h
    exact ⟨fun _ h => (by cases h), List.nil_sublist _⟩
  · next t c h1 _ =>
    injection h with h; subst h
    refine ⟨?_, List.Sublist.refl _⟩
    intro n hn'
    rw [List.mem_singleton] at hn'; subst hn'
    rw [NodeOk]
    exact ⟨(hn t h1).key (by decide) (by decide), by rw [ValueOk] <;> simp⟩
  · cases h

theorem ok_sequence {s : Sequence} {n : Node} (hn : renderSequence s = .ok n)
    (h : RelationFileOk (.sequence s)) (hi : SequenceInt64 s) : NodeOk n := by
  obtain ⟨h1, h2, h3⟩ := h
  unfold renderSequence at hn
  split at hn
  · cases hn
  · next min hmin =>
    split at hn
    · cases hn
    · next max hmax =>
      split at hn
      · cases hn
      · next owner ho =>
        injection hn with hn
        subst hn
        obtain ⟨o1, o2⟩ := ok_owner ho h3
        refine nodeOk_branch (h1.key (by decide) (by decide)) ?_ ?_
        · intro n hn
          rcases List.mem_append.1 hn with hn | hn
          · rcases List.mem_append.1 hn with hn | hn
            · rcases List.mem_append.1 hn with hn | hn
              · rcases List.mem_append.1 hn with hn | hn
                · rcases List.mem_append.1 hn with hn | hn
                  · rcases List.mem_append.1 hn with hn | hn
                    · rcases List.mem_append.1 hn with hn | hn
                      · exact ok_str (by decide) n hn
                      · rw [h2] at hn; simp [intUnless] at hn
                    · exact ok_int (by decide) hi.minValue n hn
                  · exact ok_int (by decide) hi.maxValue n hn
                · exact ok_int (by decide) hi.start n hn
              · exact ok_int (by decide) hi.cache n hn
            · exact ok_if (by decide) n hn
          · exact o1 n hn
        · refine nodup_kinds (ks := ["as", "increment", "minvalue", "maxvalue", "start", "cache",
            "cycle", "owned by"]) ?_ (by decide)
          simp only [List.map_append]
          exact (((((((kinds_str ..).append (kinds_int ..)).append (kinds_int ..)).append
            (kinds_int ..)).append (kinds_int ..)).append (kinds_int ..)).append
            (kinds_if ..)).append o2

theorem ok_relation {s : String} {r : Relation} {n : Node} (hn : renderRelation s r = .ok n)
    (hw : r.WF) (hs : r.schemaName = s) (h : RelationFileOk r)
    (hi : ∀ q, r = .sequence q → SequenceInt64 q) : NodeOk n := by
  cases r with
  | table t =>
    have : renderTable s t = n := by injection hn
    subst this
    exact ok_table hw hs h
  | view v => exact ok_view hn h
  | index i =>
    have : renderIndex i = n := by injection hn
    subst this
    exact ok_index h
  | sequence q => exact ok_sequence hn h (hi q rfl)

theorem name_renderRelation {s : String} {r : Relation} {n : Node} (h : renderRelation s r = .ok n) :
    n.name = some r.name ∧ n.kind ≠ "function" := by
  cases r with
  | table t =>
    have : renderTable s t = n := by injection h
    have hne : "table" ≠ "function" := by decide
    subst this; exact ⟨rfl, hne⟩
  | view v =>
    have h' : renderView s v = .ok n := h
    refine ⟨?_, by rw [kind_renderView h']; decide⟩
    unfold renderView at h'
    split at h'
    · injection h' with h'; subst h'; rfl
    · cases h'
  | index i =>
    have : renderIndex i = n := by injection h
    have hne : "index" ≠ "function" := by decide
    subst this; exact ⟨rfl, hne⟩
  | sequence q =>
    have h' : renderSequence q = .ok n := h
    refine ⟨?_, by rw [kind_renderSequence h']; decide⟩
    unfold renderSequence at h'
    split at h'
    · cases h'
    · split at h'
      · cases h'
      · split at h'
        · cases h'
        · injection h' with h'; subst h'; rfl

theorem ok_schema {s : Schema} {n : Node} (hn : renderSchema s = .ok n) (hs : s.WF)
    (h0 : NameOk s.name) (h1 : ∀ q ∈ s.relations, RelationFileOk q.2)
    (h2 : ∀ q ∈ s.functions, NameOk q.2.name)
    (hi : ∀ q ∈ s.relations, ∀ x, q.2 = .sequence x → SequenceInt64 x) : NodeOk n := by
  unfold renderSchema at hn
  split at hn
  · cases hn
  · next ns hns =>
    injection hn with hn
    subst hn
    have hm := renderRelations_iff.1 hns
    refine nodeOk_branch (h0.key (by decide) (by decide)) ?_ ?_
    · intro n hn
      rcases List.mem_append.1 hn with hn | hn
      · obtain ⟨r, hr, e⟩ := map_ok_mem hm hn
        obtain ⟨p, hp, rfl⟩ := List.mem_map.1 hr
        obtain ⟨_, w2, w3⟩ := hs.rels_home p hp
        exact ok_relation e w3 w2 (h1 p hp) (hi p hp)
      · obtain ⟨f, hf, rfl⟩ := List.mem_map.1 hn
        obtain ⟨p, hp, rfl⟩ := List.mem_map.1 hf
        exact ok_function (h2 p hp)
    · rw [List.map_append, List.nodup_append]
      refine ⟨?_, ?_, ?_⟩
      · refine nodup_of_map Prod.snd ?_
        rw [List.map_map]
        have e : ns.map (Prod.snd ∘ fun m : Node => (m.kind, m.name)) =
            s.relations.values.map (fun r => some r.name) := by
          have : ∀ (ns : List Node) (rs : List Relation), rs.map (renderRelation s.name) = ns.map .ok →
              ns.map (Prod.snd ∘ fun m : Node => (m.kind, m.name)) = rs.map (fun r => some r.name) := by
            intro ns
            induction ns with
            | nil => intro rs h; cases rs <;> simp at h ⊢
            | cons n ns ih =>
              intro rs h
              cases rs with
              | nil => simp at h
              | cons r rs =>
                rw [List.map_cons, List.map_cons, List.cons.injEq] at h
                rw [List.map_cons, List.map_cons, ih rs h.2]
                simp only [Function.comp, (name_renderRelation h.1).1]
          exact this ns _ hm
        rw [e]
        refine nodup_of_map (fun o : Option String => o.getD "") ?_
        rw [List.map_map]
        show (s.relations.values.map Relation.name).Nodup
        rw [values_map_name fun p hp => (hs.rels_home p hp).1]
        exact hs.rels_nodup
      · refine nodup_by_name (g := Function.name) ?_ fun c _ => rfl
        rw [values_map_name fun p hp => (hs.funs_home p hp).1]
        exact hs.funs_nodup
      · intro x hx y hy e
        obtain ⟨a, ha, rfl⟩ := List.mem_map.1 hx
        obtain ⟨b, hb, rfl⟩ := List.mem_map.1 hy
        obtain ⟨f, _, rfl⟩ := List.mem_map.1 hb
        obtain ⟨r, _, er⟩ := map_ok_mem hm ha
        injection e with e1 _
        exact (name_renderRelation er).2 e1

theorem name_renderSchema {s : Schema} {n : Node} (h : renderSchema s = .ok n) :
    n.name = some s.name := by
  unfold renderSchema at h
  split at h
  · cases h
  · injection h with h; subst h; rfl

theorem loadNodes_new {ns : List Node} {ss : List Schema} (h : ns.map parseSchema = ss.map .ok)
    (d : Database) (hd : (d.schemas.keys ++ ss.map Schema.name).Nodup) :
    loadNodes d ns = .ok ⟨d.schemas ++ ss.map fun s => (s.name, s)⟩ := by
  induction ns generalizing ss d with
  | nil =>
    cases ss with
    | nil => simp [loadNodes]
    | cons _ _ => simp at h
  | cons n ns ih =>
    cases ss with
    | nil => simp at h
    | cons s ss =>
      rw [List.map_cons, List.map_cons, List.cons.injEq] at h
      rw [loadNodes, h.1]
      dsimp only
      have hnot : s.name ∉ d.schemas.keys := by
        intro hm
        rw [List.nodup_append] at hd
        exact hd.2.2 _ hm s.name (by simp) rfl
      have hg : d.schemas.get? s.name = none := AMap.get?_eq_none_iff.2 hnot
      have hm : d.mergeOne s.name s = .ok ⟨d.schemas ++ [(s.name, s)]⟩ := by
        unfold Database.mergeOne
        rw [hg]
        dsimp only
        unfold Database.addSchema
        rw [if_neg (by rw [AMap.has_of_none hg]; simp)]
        rfl
      rw [hm]
      dsimp only
      rw [ih h.2]
      · simp
      · simpa using hd

/-- C45. -/
theorem saved_loads {d : Database} (hd : d.WF) (hi : SnapshotInt64 d) (h : SnapshotOk d) :
    ∃ y, saveDoc d = .ok y ∧ loadDoc y = .ok d := by
  obtain ⟨ns, hns⟩ := exists_map_ok (R := renderSchema) (xs := d.schemas.values) (fun s hs => by
    obtain ⟨p, hp, rfl⟩ := List.mem_map.1 hs
    obtain ⟨n, hn, _⟩ := (parseSchema_iff (hd.home p hp).2).2 fun q hq => ((h p hp).2.1 q hq).1
    exact ⟨n, hn⟩)
  have hok : ∀ n ∈ ns, ∃ p ∈ d.schemas, renderSchema p.2 = .ok n := by
    intro n hn
    obtain ⟨s, hs, e⟩ := map_ok_mem hns hn
    obtain ⟨p, hp, rfl⟩ := List.mem_map.1 hs
    exact ⟨p, hp, e⟩
  have htree : TreeOk ns := by
    refine ⟨nodesOk_iff.2 ?_, ?_⟩
    · intro n hn
      obtain ⟨p, hp, e⟩ := hok n hn
      obtain ⟨a, b, c⟩ := h p hp
      exact ok_schema e (hd.home p hp).2 a (fun q hq => (b q hq).2) c (hi p hp)
    · refine nodup_of_map Prod.snd ?_
      rw [List.map_map]
      have e : ns.map (Prod.snd ∘ fun m : Node => (m.kind, m.name)) =
          d.schemas.values.map (fun r => some r.name) := by
        have : ∀ (ns : List Node) (rs : List Schema), rs.map renderSchema = ns.map .ok →
            ns.map (Prod.snd ∘ fun m : Node => (m.kind, m.name)) = rs.map (fun r => some r.name) := by
          intro ns
          induction ns with
          | nil => intro rs h; cases rs <;> simp at h ⊢
          | cons n ns ih =>
            intro rs h
            cases rs with
            | nil => simp at h
            | cons r rs =>
              rw [List.map_cons, List.map_cons, List.cons.injEq] at h
              rw [List.map_cons, List.map_cons, ih rs h.2]
              simp only [Function.comp, name_renderSchema h.1]
        exact this ns _ hns
      rw [e]
      refine nodup_of_map (fun o : Option String => o.getD "") ?_
      rw [List.map_map]
      show (d.schemas.values.map Schema.name).Nodup
      rw [values_map_name fun p hp => (hd.home p hp).1]
      exact hd.nodup
  refine ⟨mapOf (renderMapping ns), ?_, ?_⟩
  · unfold saveDoc
    rw [renderSchemas_iff.2 hns]
  · have hp : parseNodes (insertEntries (renderNodes ns)) = .ok ns := (parseTree_iff ns).2 htree
    unfold loadDoc mapOf
    dsimp only
    have hp' : parseMapping ((renderMapping ns).map fun e => some e.1)
        ((renderMapping ns).map fun e => e.2) = .ok ns := hp
    rw [hp']
    dsimp only
    have hback : ns.map parseSchema = d.schemas.values.map .ok := by
      rw [map_bind (g := parseSchema) hns]
      refine List.map_congr_left fun s hs => ?_
      obtain ⟨p, hp, rfl⟩ := List.mem_map.1 hs
      obtain ⟨n, hn, hb⟩ := (parseSchema_iff (hd.home p hp).2).2 fun q hq => ((h p hp).2.1 q hq).1
      rw [hn]; exact hb
    rw [loadNodes_new hback Database.new]
    · have : d.schemas.values.map (fun s => (s.name, s)) = d.schemas :=
        values_named fun p hp => (hd.home p hp).1
      rw [this]; rfl
    · show (d.schemas.values.map Schema.name).Nodup
      rw [values_map_name fun p hp => (hd.home p hp).1]
      exact hd.nodup

end Def
end Podo
