import Verif.Model.Diff
import Verif.Proofs.Refine
import Verif.Spec.Needed
/-
The diff of two snapshots does not depend, up to its order, on how the maps are listed.
-/
namespace Podo
namespace Diff
open Change

/-- Going through two maps with the same keys. -/
theorem values_flatMap_perm {α β γ : Type} {f : α → List γ} {g : β → List γ} :
    ∀ {m : AMap α} {n : AMap β}, m.NodupKeys → n.NodupKeys →
    (∀ k, (AMap.get? m k).isSome = (AMap.get? n k).isSome) →
    (∀ k v w, AMap.get? m k = some v → AMap.get? n k = some w → (f v).Perm (g w)) →
    ((AMap.values m).flatMap f).Perm ((AMap.values n).flatMap g)
  | [], n, _, hn, h, _ => by
    cases n with
    | nil => exact .nil
    | cons q n => have := h q.1; simp at this
  | p :: m, n, hm, hn, h, hfg => by
    have hp : (AMap.get? n p.1).isSome := by rw [← h]; simp
    obtain ⟨w, hw⟩ := Option.isSome_iff_exists.1 hp
    obtain ⟨l₁, l₂, rfl⟩ := List.append_of_mem (AMap.mem_of_get? hw)
    have hperm : (l₁ ++ (p.1, w) :: l₂).Perm ((p.1, w) :: (l₁ ++ l₂)) := List.perm_middle
    have hn' : AMap.NodupKeys ((p.1, w) :: (l₁ ++ l₂)) := (AMap.nodupKeys_perm hperm).1 hn
    have hget : ∀ k, AMap.get? (l₁ ++ (p.1, w) :: l₂) k = if p.1 = k then some w else
        AMap.get? (l₁ ++ l₂) k := fun k => by rw [AMap.get?_perm hn hperm k, AMap.get?_cons]
    refine .trans ?_ (List.Perm.flatMap_right g (hperm.map Prod.snd).symm)
    rw [AMap.nodupKeys_cons] at hm hn'
    have hne : ∀ k v, AMap.get? m k = some v → p.1 ≠ k := by
      rintro k v hv rfl
      exact hm.1 (AMap.mem_keys_of_get? hv)
    simp only [AMap.values, List.map_cons, List.flatMap_cons]
    refine (hfg p.1 p.2 w (by simp) hw).append (values_flatMap_perm hm.2 hn'.2 (fun k => ?_)
      (fun k v u hv hu => hfg k v u ?_ ?_))
    · by_cases e : p.1 = k
      · rw [AMap.get?_eq_none_iff.2 (e ▸ hm.1), AMap.get?_eq_none_iff.2 (e ▸ hn'.1)]; rfl
      · have := h k
        rwa [hget, AMap.get?_cons, if_neg e, if_neg e] at this
    · rw [AMap.get?_cons, if_neg (hne k v hv)]; exact hv
    · rw [hget, if_neg (hne k v hv)]; exact hu

/-- Two lists of columns of unique names with the same content. -/
theorem columns_perm : ∀ {l l' : List Column}, (l.map Column.name).Nodup → (l'.map Column.name).Nodup →
    columnNamed l = columnNamed l' → l.Perm l'
  | [], l', _, _, h => by
    cases l' with
    | nil => exact .nil
    | cons c l' =>
      have := congrFun h c.name
      simp [columnNamed_cons] at this
  | c :: l, l', hl, hl', h => by
    have hc : c ∈ l' := by
      have := congrFun h c.name
      rw [columnNamed_cons, if_pos rfl] at this
      exact columnNamed_mem this.symm
    obtain ⟨l₁, l₂, rfl⟩ := List.append_of_mem hc
    have hperm : (l₁ ++ c :: l₂).Perm (c :: (l₁ ++ l₂)) := List.perm_middle
    have hn' : ((c :: (l₁ ++ l₂)).map Column.name).Nodup := (hperm.map _).nodup_iff.1 hl'
    refine .trans (.cons c (columns_perm (List.nodup_cons.1 hl).2 (List.nodup_cons.1 hn').2 ?_)) hperm.symm
    funext n
    have := congrFun h n
    rw [columnNamed_cons] at this
    have h2 : columnNamed (l₁ ++ c :: l₂) n = if c.name = n then some c else columnNamed (l₁ ++ l₂) n := by
      by_cases e : c.name = n
      · rw [if_pos e, ← e]; exact columnNamed_of_mem hl' hc
      · rw [if_neg e, columnNamed_append, columnNamed_append, columnNamed_cons, if_neg e]
    rw [h2] at this
    by_cases e : c.name = n
    · subst e
      rw [columnNamed_eq_none.2 (List.nodup_cons.1 hl).1, columnNamed_eq_none.2 (List.nodup_cons.1 hn').1]
    · rwa [if_neg e, if_neg e] at this

theorem flatMap_congr_mem {α β : Type} {l : List α} {f g : α → List β} (h : ∀ a ∈ l, f a = g a) :
    l.flatMap f = l.flatMap g := by
  induction l with
  | nil => rfl
  | cons a l ih =>
    rw [List.flatMap_cons, List.flatMap_cons, h a (by simp), ih fun b hb => h b (by simp [hb])]

theorem some_same {α β : Type} {f : α → β} {a b : Option α} (h : a.map f = b.map f) :
    a.isSome = b.isSome := by
  cases a <;> cases b <;> simp_all

/-! ### Tables -/

theorem tableCreate_same {t t' : Table} (ht : t.WF) (ht' : t'.WF) (h : t.content = t'.content)
    (hc : t.columns = t'.columns) : (tableCreate t).Perm (tableCreate t') := by
  simp only [Table.content, TableContent.mk.injEq] at h
  obtain ⟨h1, h2, h3, h4⟩ := h
  unfold tableCreate newCreateTable
  rw [h1, h2, hc]
  refine .cons _ (values_flatMap_perm ht.cons_nodup ht'.cons_nodup (fun k => by rw [congrFun h4 k])
    fun k v w hv hw => ?_)
  have := congrFun h4 k
  rw [hv, hw] at this
  cases this
  exact .refl _

theorem tableUpdate_same {s s' t t' : Table} (hs : s.WF) (hs' : s'.WF) (ht : t.WF) (ht' : t'.WF)
    (h : s.content = s'.content) (g : t.content = t'.content) :
    (tableUpdate s t).Perm (tableUpdate s' t') := by
  simp only [Table.content, TableContent.mk.injEq] at h g
  obtain ⟨_, _, h3, h4⟩ := h
  obtain ⟨_, _, g3, g4⟩ := g
  have hf : ∀ n, Table.findCol s.columns n = Table.findCol s'.columns n := fun n => by
    rw [findCol_eq_columnNamed, findCol_eq_columnNamed, h3]
  have gf : ∀ n, Table.findCol t.columns n = Table.findCol t'.columns n := fun n => by
    rw [findCol_eq_columnNamed, findCol_eq_columnNamed, g3]
  have same : ∀ {a b : AMap Constraint} {f g : Constraint → List Change}, a.NodupKeys → b.NodupKeys →
      (fun c => AMap.get? a c) = (fun c => AMap.get? b c) → (∀ v, f v = g v) →
      ((AMap.values a).flatMap f).Perm ((AMap.values b).flatMap g) := by
    intro a b f g ha hb e hfg
    refine values_flatMap_perm ha hb (fun k => by rw [congrFun e k]) fun k v w hv hw => ?_
    have := congrFun e k
    rw [hv, hw] at this
    cases this
    rw [hfg]
  unfold tableUpdate
  refine .append (.append (.append ?_ ?_) ?_) ?_
  · simp only [hf]
    exact List.Perm.flatMap_right _ (columns_perm ht.cols_nodup ht'.cols_nodup g3)
  · simp only [Table.hasColumn, gf]
    exact List.Perm.flatMap_right _ (columns_perm hs.cols_nodup hs'.cols_nodup h3)
  · exact same ht.cons_nodup ht'.cons_nodup g4 fun v => by
      have := congrFun h4 v.name
      rw [this]
  · exact same hs.cons_nodup hs'.cons_nodup h4 fun v => by
      have e : t.hasConstraint v.name = t'.hasConstraint v.name :=
        congrArg Option.isSome (congrFun g4 v.name)
      simp only [e]

/-! ### Relations -/

/-- Same content, and the columns of tables in the same order. -/
def RelSame (r r' : Relation) : Prop :=
  (∃ t t' : Table, r = .table t ∧ r' = .table t' ∧ t.WF ∧ t'.WF ∧ t.content = t'.content) ∨
    (r = r' ∧ ∀ t, r ≠ .table t)

theorem relSame_of {r r' : Relation} (hr : r.WF) (hr' : r'.WF) (h : r.content = r'.content) :
    RelSame r r' := by
  cases r <;> cases r' <;> simp only [Relation.content, RelContent.table.injEq, RelContent.view.injEq,
    RelContent.index.injEq, RelContent.sequence.injEq, reduceCtorEq] at h
  · exact .inl ⟨_, _, rfl, rfl, hr, hr', h⟩
  all_goals exact .inr ⟨by rw [h], fun t ht => by cases ht⟩

theorem relationCreate_same {r r' : Relation} (h : RelSame r r')
    (hc : ∀ t t', r = .table t → r' = .table t' → t.columns = t'.columns) :
    (relationCreate r).Perm (relationCreate r') := by
  rcases h with ⟨t, t', rfl, rfl, h1, h2, h3⟩ | ⟨rfl, _⟩
  · exact tableCreate_same h1 h2 h3 (hc _ _ rfl rfl)
  · exact .refl _

theorem relationDrop_same {r r' : Relation} (h : RelSame r r') : relationDrop r = relationDrop r' := by
  rcases h with ⟨t, t', rfl, rfl, h1, h2, h3⟩ | ⟨rfl, _⟩
  · simp only [Table.content, TableContent.mk.injEq] at h3
    simp only [relationDrop, tableDrop, newDropTable, h3.1, h3.2.1]
  · rfl

theorem relationUpdate_same {r r' u u' : Relation} (h : RelSame r r') (g : RelSame u u')
    (hc : ∀ t t', u = .table t → u' = .table t' → t.columns = t'.columns) :
    (relationUpdate r u).Perm (relationUpdate r' u') := by
  have hd := relationDrop_same h
  have hcr := relationCreate_same g hc
  rcases h with ⟨t, t', rfl, rfl, h1, h2, h3⟩ | ⟨rfl, hr⟩ <;>
    rcases g with ⟨w, w', rfl, rfl, g1, g2, g3⟩ | ⟨rfl, hu⟩
  · exact tableUpdate_same h1 h2 g1 g2 h3 g3
  · cases u with
    | table t => exact absurd rfl (hu t)
    | _ => exact (List.Perm.of_eq hd).append hcr
  · cases r with
    | table t => exact absurd rfl (hr t)
    | _ => exact (List.Perm.refl _).append hcr
  · exact .refl _

/-! ### Schemas -/

/-- The columns of the tables are in the same order. -/
def SameOrder (s s' : Schema) : Prop := ∀ k t t', s.relations.get? k = some (.table t) →
  s'.relations.get? k = some (.table t') → t.columns = t'.columns

section
variable {s s' t t' : Schema}

theorem rel_same (hs : s.WF) (hs' : s'.WF) (h : s.content = s'.content) {k : String} {v w : Relation}
    (hv : s.relations.get? k = some v) (hw : s'.relations.get? k = some w) :
    RelSame v w ∧ v.name = k ∧ w.name = k := by
  simp only [Schema.content, SchemaContent.mk.injEq] at h
  have e := congrFun h.2.1 k
  simp only [hv, hw, Option.map_some, Option.some.injEq] at e
  have a := hs.rels_home _ (AMap.mem_of_get? hv)
  have b := hs'.rels_home _ (AMap.mem_of_get? hw)
  exact ⟨relSame_of a.2.2 b.2.2 e, a.1, b.1⟩

theorem rel_isSome (h : s.content = s'.content) (k : String) :
    (s.relations.get? k).isSome = (s'.relations.get? k).isSome := by
  simp only [Schema.content, SchemaContent.mk.injEq] at h
  exact some_same (congrFun h.2.1 k)

theorem fun_eq (h : s.content = s'.content) (k : String) :
    s.functions.get? k = s'.functions.get? k := by
  simp only [Schema.content, SchemaContent.mk.injEq] at h
  exact congrFun h.2.2 k

theorem functions_same {f g : Function → List Change} (hs : s.WF) (hs' : s'.WF)
    (h : s.content = s'.content) (hfg : ∀ v, f v = g v) :
    (s.functions.values.flatMap f).Perm (s'.functions.values.flatMap g) := by
  refine values_flatMap_perm hs.funs_nodup hs'.funs_nodup (fun k => by rw [fun_eq h]) fun k v w hv hw => ?_
  rw [fun_eq h, hw] at hv
  cases hv
  rw [hfg]

theorem schemaCreate_same (ht : t.WF) (ht' : t'.WF) (h : t.content = t'.content) (ho : SameOrder t t') :
    (schemaCreate t).Perm (schemaCreate t') := by
  have hn : t.name = t'.name := by
    simp only [Schema.content, SchemaContent.mk.injEq] at h; exact h.1
  unfold schemaCreate newCreateSchema
  rw [hn]
  refine .cons _ (.append (values_flatMap_perm ht.rels_nodup ht'.rels_nodup (rel_isSome h)
    fun k v w hv hw => ?_) (functions_same ht ht' h fun _ => rfl))
  exact relationCreate_same (rel_same ht ht' h hv hw).1
    fun a b ha hb => ho k a b (ha ▸ hv) (hb ▸ hw)

theorem schemaDrop_same (ht : t.WF) (ht' : t'.WF) (h : t.content = t'.content) :
    (schemaDrop t).Perm (schemaDrop t') := by
  have hn : t.name = t'.name := by
    simp only [Schema.content, SchemaContent.mk.injEq] at h; exact h.1
  unfold schemaDrop newDropSchema
  rw [hn]
  refine .append (.append (values_flatMap_perm ht.rels_nodup ht'.rels_nodup (rel_isSome h)
    fun k v w hv hw => ?_) (functions_same ht ht' h fun _ => rfl)) (.refl _)
  rw [relationDrop_same (rel_same ht ht' h hv hw).1]

theorem schemaUpdate_same (hs : s.WF) (hs' : s'.WF) (ht : t.WF) (ht' : t'.WF)
    (h : s.content = s'.content) (g : t.content = t'.content) (ho : SameOrder t t') :
    (schemaUpdate s t).Perm (schemaUpdate s' t') := by
  unfold schemaUpdate
  refine .append (.append (.append ?_ ?_) ?_) ?_
  · refine values_flatMap_perm ht.rels_nodup ht'.rels_nodup (rel_isSome g) fun k v w hv hw => ?_
    obtain ⟨hr, hvn, hwn⟩ := rel_same ht ht' g hv hw
    simp only [Schema.hasRelation, AMap.has, hvn, hwn, rel_isSome h]
    split
    · exact .refl _
    · exact relationCreate_same hr fun a b ha hb => ho k a b (ha ▸ hv) (hb ▸ hw)
  · refine values_flatMap_perm hs.rels_nodup hs'.rels_nodup (rel_isSome h) fun k v w hv hw => ?_
    obtain ⟨hr, hvn, hwn⟩ := rel_same hs hs' h hv hw
    rw [hvn, hwn]
    have hi := rel_isSome g k
    cases e : t.relations.get? k with
    | none =>
      rw [e] at hi
      cases e' : t'.relations.get? k with
      | none => rw [relationDrop_same hr]
      | some _ => rw [e'] at hi; cases hi
    | some x =>
      rw [e] at hi
      cases e' : t'.relations.get? k with
      | none => rw [e'] at hi; cases hi
      | some x' =>
        exact relationUpdate_same hr (rel_same ht ht' g e e').1
          fun a b ha hb => ho k a b (ha ▸ e) (hb ▸ e')
  · exact functions_same ht ht' g fun v => by
      show (if (s.functions.get? v.name).isSome then _ else _) =
        (if (s'.functions.get? v.name).isSome then _ else _)
      rw [fun_eq h]
  · exact functions_same hs hs' h fun v => by rw [fun_eq g]

end

/-! ### Databases -/

theorem compareDiff_same {s s' t t' : Database} (hs : s.WF) (hs' : s'.WF) (ht : t.WF) (ht' : t'.WF)
    (h : s.content = s'.content) (g : t.content = t'.content)
    (ho : ∀ a b, (t.tableNamed a b).map Table.columns = (t'.tableNamed a b).map Table.columns) :
    (compareDiff s t).Perm (compareDiff s' t') := by
  have isSome_ : ∀ {d d' : Database}, d.content = d'.content → ∀ k,
      (d.schemas.get? k).isSome = (d'.schemas.get? k).isSome := fun h k => some_same (congrFun h k)
  have sch : ∀ {d d' : Database}, d.WF → d'.WF → d.content = d'.content → ∀ {k v w},
      d.schemas.get? k = some v → d'.schemas.get? k = some w →
      v.WF ∧ w.WF ∧ v.content = w.content ∧ v.name = k ∧ w.name = k := by
    intro d d' hd hd' h k v w hv hw
    have e := congrFun h k
    simp only [Database.content, hv, hw, Option.map_some, Option.some.injEq] at e
    have a := hd.home _ (AMap.mem_of_get? hv)
    have b := hd'.home _ (AMap.mem_of_get? hw)
    exact ⟨a.2, b.2, e, a.1, b.1⟩
  have ord : ∀ {k v w}, t.schemas.get? k = some v → t'.schemas.get? k = some w → SameOrder v w := by
    intro k v w hv hw b x y hx hy
    have := ho k b
    simpa only [Database.tableNamed, hv, hw, hx, hy, Option.bind_some, Option.map_some,
      Option.some.injEq] using this
  unfold compareDiff
  refine .append ?_ ?_
  · refine values_flatMap_perm ht.nodup ht'.nodup (isSome_ g) fun k v w hv hw => ?_
    obtain ⟨h1, h2, h3, h4, h5⟩ := sch ht ht' g hv hw
    simp only [Database.hasSchema, AMap.has, h4, h5, isSome_ h]
    split
    · exact .refl _
    · exact schemaCreate_same h1 h2 h3 (ord hv hw)
  · refine values_flatMap_perm hs.nodup hs'.nodup (isSome_ h) fun k v w hv hw => ?_
    obtain ⟨h1, h2, h3, h4, h5⟩ := sch hs hs' h hv hw
    rw [h4, h5]
    have hi := isSome_ g k
    cases e : t.schemas.get? k with
    | none =>
      rw [e] at hi
      cases e' : t'.schemas.get? k with
      | none => exact schemaDrop_same h1 h2 h3
      | some _ => rw [e'] at hi; cases hi
    | some x =>
      rw [e] at hi
      cases e' : t'.schemas.get? k with
      | none => rw [e'] at hi; cases hi
      | some x' =>
        obtain ⟨g1, g2, g3, _, _⟩ := sch ht ht' g e e'
        exact schemaUpdate_same h1 h2 g1 g2 h3 g3 (ord e e')

end Diff
end Podo
