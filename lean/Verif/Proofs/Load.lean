import Verif.Spec.Load
set_option linter.unusedSimpArgs false
/-
Lemmas for C14 and C15.
-/
namespace Podo
open AMap

theorem Load.isYaml_iff {n : String} : Load.isYaml n = true ↔ YamlName n := by
  unfold Load.isYaml YamlName
  simp only [Bool.and_eq_true, List.isPrefixOf_iff_prefix, decide_eq_true_eq, List.length_reverse]
  constructor
  · rintro ⟨⟨t, ht⟩, hl⟩
    have h := congrArg List.reverse ht
    simp only [List.reverse_append, List.reverse_reverse] at h
    refine ⟨String.ofList t.reverse, ?_, ?_⟩
    · intro h0
      have : t = [] := by simpa using congrArg String.toList h0
      subst this
      rw [← h] at hl
      exact absurd hl (by decide)
    · rw [← String.toList_inj, String.toList_append, String.toList_ofList, ← h]; rfl
  · rintro ⟨stem, h0, rfl⟩
    refine ⟨⟨stem.toList.reverse, by simp only [String.toList_append, List.reverse_append]; rfl⟩, ?_⟩
    have : 0 < stem.toList.length := by
      rw [List.length_pos_iff]
      exact fun h => h0 (String.toList_inj.1 h)
    rw [String.toList_append, List.length_append]
    have : ".yaml".toList.length = 5 := rfl
    omega

mutual
theorem Load.collectEntry_eq {F : Type} : ∀ e : DirTree F, Load.collectEntry e =
    ((filesOfEntry e).filter fun p => Load.isYaml p.1).map Prod.snd
  | .file n c => by
    simp only [Load.collectEntry, filesOfEntry]
    cases h : Load.isYaml n <;> simp [h]
  | .dir _ es => by simp only [Load.collectEntry, filesOfEntry]; exact Load.collect_eq es
theorem Load.collect_eq {F : Type} : ∀ es : List (DirTree F), Load.collect es =
    ((filesOf es).filter fun p => Load.isYaml p.1).map Prod.snd
  | [] => by simp [Load.collect, filesOf]
  | e :: es => by
    simp only [Load.collect, filesOf, List.filter_append, List.map_append]
    rw [Load.collectEntry_eq e, Load.collect_eq es]
end

/-- Two collected files, in this order, are two YAML files of the tree. -/
theorem Load.pair_collect {F : Type} {es : List (DirTree F)} {f g : F} :
    [f, g].Sublist (Load.collect es) ↔ ∃ m n, [(m, f), (n, g)].Sublist (filesOf es) ∧
      YamlName m ∧ YamlName n := by
  rw [Load.collect_eq]
  constructor
  · intro h
    obtain ⟨l, hl, he⟩ := List.sublist_map_iff.1 h
    match l, he with
    | [(m, a), (n, b)], he =>
      simp only [List.map_cons, List.map_nil, List.cons.injEq, and_true] at he
      obtain ⟨rfl, rfl⟩ := he
      have hm := (List.mem_filter.1 (hl.subset (by simp : (m, f) ∈ _))).2
      have hn := (List.mem_filter.1 (hl.subset (by simp : (n, g) ∈ _))).2
      exact ⟨m, n, hl.trans List.filter_sublist, Load.isYaml_iff.1 hm, Load.isYaml_iff.1 hn⟩
  · rintro ⟨m, n, h, hm, hn⟩
    have := (h.filter fun p => Load.isYaml p.1).map Prod.snd
    simpa [List.filter, Load.isYaml_iff.2 hm, Load.isYaml_iff.2 hn] using this

theorem Relisted.collect_perm {F : Type} {xs ys : List (DirTree F)} (h : Relisted xs ys) :
    (Load.collect xs).Perm (Load.collect ys) := by
  induction h with
  | refl => exact List.Perm.refl _
  | swap a b es =>
    simp only [Load.collect, ← List.append_assoc]
    exact (List.perm_append_comm).append_right _
  | cons a _ ih => simp only [Load.collect]; exact ih.append_left _
  | inside n es _ ih => simp only [Load.collect, Load.collectEntry]; exact ih.append_right _
  | trans _ _ ih1 ih2 => exact ih1.trans ih2

theorem InTree.mem_collect {F : Type} {n : String} {c : F} {es : List (DirTree F)}
    (h : InTree n c es) (hy : Load.isYaml n = true) : c ∈ Load.collect es := by
  induction h with
  | here => simp [Load.collect, Load.collectEntry, hy]
  | inside _ _ _ ih => simp [Load.collect, Load.collectEntry, ih]
  | later _ _ ih => simp [Load.collect, ih]

mutual
theorem Load.collectEntry_sub {F : Type} {c : F} : ∀ (e : DirTree F), c ∈ Load.collectEntry e →
    ∀ es, ∃ n, Load.isYaml n = true ∧ InTree n c (e :: es)
  | .file n c', h, es => by
    simp only [Load.collectEntry] at h
    split at h
    · rename_i hy
      simp only [List.mem_singleton] at h
      subst h
      exact ⟨n, hy, .here _⟩
    · simp at h
  | .dir m xs, h, es => by
    simp only [Load.collectEntry] at h
    obtain ⟨n, hy, hin⟩ := Load.collect_sub xs h
    exact ⟨n, hy, .inside m es hin⟩
theorem Load.collect_sub {F : Type} {c : F} : ∀ (es : List (DirTree F)), c ∈ Load.collect es →
    ∃ n, Load.isYaml n = true ∧ InTree n c es
  | [], h => by simp [Load.collect] at h
  | e :: es, h => by
    simp only [Load.collect, List.mem_append] at h
    rcases h with h | h
    · exact Load.collectEntry_sub e h es
    · obtain ⟨n, hy, hin⟩ := Load.collect_sub es h
      exact ⟨n, hy, .later e hin⟩
end

/-! ### Adding relations and functions -/

theorem Schema.addRelations_ok_iff : ∀ (rs : List Relation) (s : Schema), s.WF →
    (∀ r ∈ rs, r.schemaName = s.name ∧ r.WF) → (rs.map Relation.name).Nodup →
    ((∃ s', s.addRelations rs = .ok s') ↔ ∀ r ∈ rs, r.name ∉ s.relations.keys)
  | [], s, _, _, _ => by simp [Schema.addRelations]
  | r :: rs, s, hs, hr, hn => by
    simp only [Schema.addRelations, Schema.addRelation]
    simp only [List.map_cons, List.nodup_cons] at hn
    by_cases hh : s.relations.has r.name = true
    · simp only [hh, if_true]
      constructor
      · rintro ⟨_, h⟩; cases h
      · intro h; exact absurd (has_iff.1 hh) (h r (List.mem_cons_self ..))
    · have hn' : get? s.relations r.name = none := by
        rw [← has_eq_false_iff]; simpa using hh
      simp only [hh]
      have hs' : ({ s with relations := s.relations.insertNew r.name r } : Schema).WF := by
        refine ⟨nodupKeys_insertNew hs.rels_nodup hn', ?_, hs.funs_nodup, hs.funs_home⟩
        intro p hp
        simp only [insertNew, List.mem_append, List.mem_singleton] at hp
        rcases hp with hp | hp
        · exact hs.rels_home p hp
        · subst hp; exact ⟨rfl, hr r (List.mem_cons_self ..)⟩
      have ih := Schema.addRelations_ok_iff rs _ hs'
        (fun x hx => hr x (List.mem_cons_of_mem _ hx)) hn.2
      simp only [Bool.false_eq_true, if_false]
      rw [ih]
      simp only [keys_insertNew, List.mem_append, List.mem_singleton, List.mem_cons, not_or,
        forall_eq_or_imp, List.not_mem_nil, not_false_eq_true, and_true]
      constructor
      · intro h
        exact ⟨get?_eq_none_iff.1 hn', fun x hx => (h x hx).1⟩
      · intro h x hx
        refine ⟨h.2 x hx, ?_⟩
        intro e
        exact hn.1 (e ▸ List.mem_map_of_mem hx)

theorem Schema.addRelations_ok : ∀ (rs : List Relation) (s s' : Schema), s.WF →
    (∀ r ∈ rs, r.schemaName = s.name ∧ r.WF) → s.addRelations rs = .ok s' →
    s'.WF ∧ s'.name = s.name ∧ s'.functions = s.functions ∧
      ∀ n x, s'.relations.get? n = some x ↔ s.relations.get? n = some x ∨ (x ∈ rs ∧ x.name = n)
  | [], s, s', hs, _, h => by
    simp only [Schema.addRelations] at h
    cases h
    simp [hs]
  | r :: rs, s, s', hs, hr, h => by
    simp only [Schema.addRelations, Schema.addRelation] at h
    by_cases hh : s.relations.has r.name = true
    · simp [hh] at h
    · have hn' : get? s.relations r.name = none := by
        rw [← has_eq_false_iff]; simpa using hh
      simp only [hh] at h
      have hs' : ({ s with relations := s.relations.insertNew r.name r } : Schema).WF := by
        refine ⟨nodupKeys_insertNew hs.rels_nodup hn', ?_, hs.funs_nodup, hs.funs_home⟩
        intro p hp
        simp only [insertNew, List.mem_append, List.mem_singleton] at hp
        rcases hp with hp | hp
        · exact hs.rels_home p hp
        · subst hp; exact ⟨rfl, hr r (List.mem_cons_self ..)⟩
      obtain ⟨h1, h2, h3, h4⟩ := Schema.addRelations_ok rs _ s' hs'
        (fun x hx => hr x (List.mem_cons_of_mem _ hx)) h
      refine ⟨h1, h2, h3, ?_⟩
      intro n x
      rw [h4]
      simp only [get?_insertNew _ _ _ _ hn']
      by_cases e : n = r.name
      · subst e
        simp only [if_true, hn', Option.some.injEq, List.mem_cons]
        constructor
        · rintro (h | h)
          · subst h; exact .inr ⟨.inl rfl, rfl⟩
          · exact .inr ⟨.inr h.1, h.2⟩
        · rintro (h | ⟨h | h, h'⟩)
          · cases h
          · exact .inl h.symm
          · exact .inr ⟨h, h'⟩
      · simp only [e, if_false, List.mem_cons]
        constructor
        · rintro (h | h)
          · exact .inl h
          · exact .inr ⟨.inr h.1, h.2⟩
        · rintro (h | ⟨h | h, h'⟩)
          · exact .inl h
          · subst h; exact absurd h'.symm e
          · exact .inr ⟨h, h'⟩

theorem Schema.addFunctions_ok_iff : ∀ (fs : List Function) (s : Schema), s.WF →
    (∀ f ∈ fs, f.schemaName = s.name) → (fs.map Function.name).Nodup →
    ((∃ s', s.addFunctions fs = .ok s') ↔ ∀ f ∈ fs, f.name ∉ s.functions.keys)
  | [], s, _, _, _ => by simp [Schema.addFunctions]
  | r :: rs, s, hs, hr, hn => by
    simp only [Schema.addFunctions, Schema.addFunction]
    simp only [List.map_cons, List.nodup_cons] at hn
    by_cases hh : s.functions.has r.name = true
    · simp only [hh, if_true]
      constructor
      · rintro ⟨_, h⟩; cases h
      · intro h; exact absurd (has_iff.1 hh) (h r (List.mem_cons_self ..))
    · have hn' : get? s.functions r.name = none := by
        rw [← has_eq_false_iff]; simpa using hh
      simp only [hh]
      have hs' : ({ s with functions := s.functions.insertNew r.name r } : Schema).WF := by
        refine ⟨hs.rels_nodup, hs.rels_home, nodupKeys_insertNew hs.funs_nodup hn', ?_⟩
        intro p hp
        simp only [insertNew, List.mem_append, List.mem_singleton] at hp
        rcases hp with hp | hp
        · exact hs.funs_home p hp
        · subst hp; exact ⟨rfl, hr r (List.mem_cons_self ..)⟩
      have ih := Schema.addFunctions_ok_iff rs _ hs'
        (fun x hx => hr x (List.mem_cons_of_mem _ hx)) hn.2
      simp only [Bool.false_eq_true, if_false]
      rw [ih]
      simp only [keys_insertNew, List.mem_append, List.mem_singleton, List.mem_cons, not_or,
        forall_eq_or_imp, List.not_mem_nil, not_false_eq_true, and_true]
      constructor
      · intro h
        exact ⟨get?_eq_none_iff.1 hn', fun x hx => (h x hx).1⟩
      · intro h x hx
        refine ⟨h.2 x hx, ?_⟩
        intro e
        exact hn.1 (e ▸ List.mem_map_of_mem hx)

theorem Schema.addFunctions_ok : ∀ (fs : List Function) (s s' : Schema), s.WF →
    (∀ f ∈ fs, f.schemaName = s.name) → s.addFunctions fs = .ok s' →
    s'.WF ∧ s'.name = s.name ∧ s'.relations = s.relations ∧
      ∀ n x, s'.functions.get? n = some x ↔ s.functions.get? n = some x ∨ (x ∈ fs ∧ x.name = n)
  | [], s, s', hs, _, h => by
    simp only [Schema.addFunctions] at h
    cases h
    simp [hs]
  | r :: rs, s, s', hs, hr, h => by
    simp only [Schema.addFunctions, Schema.addFunction] at h
    by_cases hh : s.functions.has r.name = true
    · simp [hh] at h
    · have hn' : get? s.functions r.name = none := by
        rw [← has_eq_false_iff]; simpa using hh
      simp only [hh] at h
      have hs' : ({ s with functions := s.functions.insertNew r.name r } : Schema).WF := by
        refine ⟨hs.rels_nodup, hs.rels_home, nodupKeys_insertNew hs.funs_nodup hn', ?_⟩
        intro p hp
        simp only [insertNew, List.mem_append, List.mem_singleton] at hp
        rcases hp with hp | hp
        · exact hs.funs_home p hp
        · subst hp; exact ⟨rfl, hr r (List.mem_cons_self ..)⟩
      obtain ⟨h1, h2, h3, h4⟩ := Schema.addFunctions_ok rs _ s' hs'
        (fun x hx => hr x (List.mem_cons_of_mem _ hx)) h
      refine ⟨h1, h2, h3, ?_⟩
      intro n x
      rw [h4]
      simp only [get?_insertNew _ _ _ _ hn']
      by_cases e : n = r.name
      · subst e
        simp only [if_true, hn', Option.some.injEq, List.mem_cons]
        constructor
        · rintro (h | h)
          · subst h; exact .inr ⟨.inl rfl, rfl⟩
          · exact .inr ⟨.inr h.1, h.2⟩
        · rintro (h | ⟨h | h, h'⟩)
          · cases h
          · exact .inl h.symm
          · exact .inr ⟨h, h'⟩
      · simp only [e, if_false, List.mem_cons]
        constructor
        · rintro (h | h)
          · exact .inl h
          · exact .inr ⟨.inr h.1, h.2⟩
        · rintro (h | ⟨h | h, h'⟩)
          · exact .inl h
          · subst h; exact absurd h'.symm e
          · exact .inr ⟨h, h'⟩

theorem AMap.mem_values {α : Type} {m : AMap α} {x : α} : x ∈ m.values ↔ ∃ k, (k, x) ∈ m := by
  simp [values]

theorem AMap.map_name_values {α : Type} {m : AMap α} {name : α → String}
    (h : ∀ p ∈ m, name p.2 = p.1) : m.values.map name = m.keys := by
  simp only [values, keys, List.map_map]
  exact List.map_congr_left h

theorem Schema.WF.mem_rels {s : Schema} (hs : s.WF) {x : Relation} {n : String} :
    (x ∈ s.relations.values ∧ x.name = n) ↔ s.relations.get? n = some x := by
  rw [get?_iff_mem hs.rels_nodup, mem_values]
  constructor
  · rintro ⟨⟨k, hk⟩, e⟩
    have := (hs.rels_home _ hk).1
    simp only at this
    rw [← e, this]; exact hk
  · intro h
    exact ⟨⟨n, h⟩, (hs.rels_home _ h).1⟩

theorem Schema.WF.mem_funs {s : Schema} (hs : s.WF) {x : Function} {n : String} :
    (x ∈ s.functions.values ∧ x.name = n) ↔ s.functions.get? n = some x := by
  rw [get?_iff_mem hs.funs_nodup, mem_values]
  constructor
  · rintro ⟨⟨k, hk⟩, e⟩
    have := (hs.funs_home _ hk).1
    simp only at this
    rw [← e, this]; exact hk
  · intro h
    exact ⟨⟨n, h⟩, (hs.funs_home _ h).1⟩

theorem Schema.merge_prep {a b : Schema} (hb : b.WF) (e : a.name = b.name) :
    (∀ r ∈ b.relations.values, r.schemaName = a.name ∧ r.WF) ∧
    (b.relations.values.map Relation.name).Nodup ∧
    (∀ f ∈ b.functions.values, f.schemaName = a.name) ∧
    (b.functions.values.map Function.name).Nodup := by
  refine ⟨?_, ?_, ?_, ?_⟩
  · intro r hr
    obtain ⟨k, hk⟩ := mem_values.1 hr
    have := hb.rels_home _ hk
    exact ⟨this.2.1.trans e.symm, this.2.2⟩
  · rw [map_name_values fun p hp => (hb.rels_home p hp).1]; exact hb.rels_nodup
  · intro r hr
    obtain ⟨k, hk⟩ := mem_values.1 hr
    exact (hb.funs_home _ hk).2.trans e.symm
  · rw [map_name_values fun p hp => (hb.funs_home p hp).1]; exact hb.funs_nodup

theorem Schema.mergeSchema_ok {a b s' : Schema} (ha : a.WF) (hb : b.WF) (e : a.name = b.name)
    (h : a.mergeSchema b = .ok s') :
    s'.WF ∧ s'.name = a.name ∧
      (∀ n x, s'.relations.get? n = some x ↔
        a.relations.get? n = some x ∨ b.relations.get? n = some x) ∧
      (∀ n x, s'.functions.get? n = some x ↔
        a.functions.get? n = some x ∨ b.functions.get? n = some x) := by
  obtain ⟨p1, p2, p3, p4⟩ := Schema.merge_prep hb e
  simp only [Schema.mergeSchema] at h
  split at h
  · cases h
  · rename_i s1 h1
    obtain ⟨w1, n1, f1, r1⟩ := Schema.addRelations_ok _ _ _ ha p1 h1
    obtain ⟨w2, n2, f2, r2⟩ := Schema.addFunctions_ok _ _ _ w1 (by rw [n1]; exact p3) h
    refine ⟨w2, n2.trans n1, ?_, ?_⟩
    · intro n x; rw [f2, r1, hb.mem_rels]
    · intro n x; rw [r2, f1, hb.mem_funs]

theorem Schema.mergeSchema_ok_iff {a b : Schema} (ha : a.WF) (hb : b.WF) (e : a.name = b.name) :
    (∃ s', a.mergeSchema b = .ok s') ↔ ¬ DefinitionsClash a b := by
  obtain ⟨p1, p2, p3, p4⟩ := Schema.merge_prep hb e
  have i1 := Schema.addRelations_ok_iff _ a ha p1 p2
  have k1 : (∀ r ∈ b.relations.values, r.name ∉ a.relations.keys) ↔
      ¬ ∃ r, r ∈ a.relations.keys ∧ r ∈ b.relations.keys := by
    have : b.relations.keys = b.relations.values.map Relation.name :=
      (map_name_values fun p hp => (hb.rels_home p hp).1).symm
    rw [this]
    constructor
    · rintro h ⟨r, h1, h2⟩
      obtain ⟨x, hx, rfl⟩ := List.mem_map.1 h2
      exact h x hx h1
    · intro h r hr hc
      exact h ⟨_, hc, List.mem_map_of_mem hr⟩
  have k2 : (∀ r ∈ b.functions.values, r.name ∉ a.functions.keys) ↔
      ¬ ∃ r, r ∈ a.functions.keys ∧ r ∈ b.functions.keys := by
    have : b.functions.keys = b.functions.values.map Function.name :=
      (map_name_values fun p hp => (hb.funs_home p hp).1).symm
    rw [this]
    constructor
    · rintro h ⟨r, h1, h2⟩
      obtain ⟨x, hx, rfl⟩ := List.mem_map.1 h2
      exact h x hx h1
    · intro h r hr hc
      exact h ⟨_, hc, List.mem_map_of_mem hr⟩
  simp only [DefinitionsClash, e, true_and, not_or, ← k1, ← k2, ← i1]
  constructor
  · rintro ⟨s', h⟩
    simp only [Schema.mergeSchema] at h
    split at h
    · cases h
    · rename_i s1 h1
      obtain ⟨w1, n1, f1, _⟩ := Schema.addRelations_ok _ _ _ ha p1 h1
      have i2 := Schema.addFunctions_ok_iff _ s1 w1 (by rw [n1]; exact p3) p4
      rw [f1] at i2
      exact ⟨⟨_, h1⟩, i2.1 ⟨_, h⟩⟩
  · rintro ⟨⟨s1, h1⟩, h2⟩
    obtain ⟨w1, n1, f1, _⟩ := Schema.addRelations_ok _ _ _ ha p1 h1
    have i2 := Schema.addFunctions_ok_iff _ s1 w1 (by rw [n1]; exact p3) p4
    rw [f1] at i2
    obtain ⟨s2, h3⟩ := i2.2 h2
    exact ⟨s2, by simp [Schema.mergeSchema, h1, h3]⟩

/-! ### Databases made of schema definitions -/

/-- `d` holds exactly what the schema definitions `scs` define. -/
structure Holds (d : Database) (scs : List Schema) : Prop where
  wf : d.WF
  schema : ∀ s, (∃ sc, d.schemas.get? s = some sc) ↔ ∃ sc ∈ scs, sc.name = s
  rel : ∀ s r x, d.relationAt s r = some x ↔
    ∃ sc ∈ scs, sc.name = s ∧ sc.relations.get? r = some x
  fn : ∀ s f x, d.functionAt s f = some x ↔
    ∃ sc ∈ scs, sc.name = s ∧ sc.functions.get? f = some x

theorem holds_new : Holds Database.new [] := by
  refine ⟨⟨by simp [Database.new], by simp [Database.new]⟩, ?_, ?_, ?_⟩ <;>
    simp [Database.new, Database.relationAt, Database.functionAt]

theorem Holds.clash_iff {d : Database} {scs : List Schema} (h : Holds d scs) {sc mine : Schema}
    (hm : d.schemas.get? sc.name = some mine) :
    DefinitionsClash mine sc ↔ ∃ a ∈ scs, DefinitionsClash a sc := by
  have hn : mine.name = sc.name := (h.wf.home _ (mem_of_get? hm)).1
  have hr : ∀ r, r ∈ mine.relations.keys ↔ ∃ a ∈ scs, a.name = sc.name ∧ r ∈ a.relations.keys := by
    intro r
    rw [← get?_isSome_iff, Option.isSome_iff_exists]
    have := h.rel sc.name r
    simp only [Database.relationAt, hm] at this
    constructor
    · rintro ⟨x, hx⟩
      obtain ⟨a, h1, h2, h3⟩ := (this x).1 hx
      exact ⟨a, h1, h2, mem_keys_of_get? h3⟩
    · rintro ⟨a, h1, h2, h3⟩
      obtain ⟨x, hx⟩ := Option.isSome_iff_exists.1 (get?_isSome_iff.2 h3)
      exact ⟨x, (this x).2 ⟨a, h1, h2, hx⟩⟩
  have hf : ∀ r, r ∈ mine.functions.keys ↔ ∃ a ∈ scs, a.name = sc.name ∧ r ∈ a.functions.keys := by
    intro r
    rw [← get?_isSome_iff, Option.isSome_iff_exists]
    have := h.fn sc.name r
    simp only [Database.functionAt, hm] at this
    constructor
    · rintro ⟨x, hx⟩
      obtain ⟨a, h1, h2, h3⟩ := (this x).1 hx
      exact ⟨a, h1, h2, mem_keys_of_get? h3⟩
    · rintro ⟨a, h1, h2, h3⟩
      obtain ⟨x, hx⟩ := Option.isSome_iff_exists.1 (get?_isSome_iff.2 h3)
      exact ⟨x, (this x).2 ⟨a, h1, h2, hx⟩⟩
  constructor
  · rintro ⟨_, ⟨r, h1, h2⟩ | ⟨r, h1, h2⟩⟩
    · obtain ⟨a, ha, e, h3⟩ := (hr r).1 h1
      exact ⟨a, ha, e, .inl ⟨r, h3, h2⟩⟩
    · obtain ⟨a, ha, e, h3⟩ := (hf r).1 h1
      exact ⟨a, ha, e, .inr ⟨r, h3, h2⟩⟩
  · rintro ⟨a, ha, e, ⟨r, h1, h2⟩ | ⟨r, h1, h2⟩⟩
    · exact ⟨hn, .inl ⟨r, (hr r).2 ⟨a, ha, e, h1⟩, h2⟩⟩
    · exact ⟨hn, .inr ⟨r, (hf r).2 ⟨a, ha, e, h1⟩, h2⟩⟩

theorem Holds.none_clash {d : Database} {scs : List Schema} (h : Holds d scs) {sc : Schema}
    (hm : d.schemas.get? sc.name = none) : ¬ ∃ a ∈ scs, DefinitionsClash a sc := by
  rintro ⟨a, ha, e, _⟩
  obtain ⟨x, hx⟩ := (h.schema sc.name).2 ⟨a, ha, e⟩
  rw [hm] at hx; cases hx

theorem mergeOne_ok_iff {d : Database} {scs : List Schema} (h : Holds d scs) {sc : Schema}
    (hsc : sc.WF) : (∃ d', d.mergeOne sc.name sc = .ok d') ↔ ∀ a ∈ scs, ¬ DefinitionsClash a sc := by
  have push : (∀ a ∈ scs, ¬ DefinitionsClash a sc) ↔ ¬ ∃ a ∈ scs, DefinitionsClash a sc := by
    constructor
    · rintro h ⟨a, h1, h2⟩; exact h a h1 h2
    · intro h a h1 h2; exact h ⟨a, h1, h2⟩
  rw [push]
  simp only [Database.mergeOne]
  cases hm : d.schemas.get? sc.name with
  | none =>
    simp only [Database.addSchema, has_of_none hm]
    simp only [h.none_clash hm, not_false_eq_true, iff_true]
    exact ⟨_, rfl⟩
  | some mine =>
    have hh := h.wf.home _ (mem_of_get? hm)
    rw [← h.clash_iff hm, ← Schema.mergeSchema_ok_iff hh.2 hsc hh.1]
    simp only
    constructor
    · rintro ⟨d', h⟩
      split at h
      · cases h
      · rename_i m hmm; exact ⟨m, hmm⟩
    · rintro ⟨m, hmm⟩
      exact ⟨_, by simp [hmm]; rfl⟩

theorem mergeOne_holds {d d' : Database} {scs : List Schema} (h : Holds d scs) {sc : Schema}
    (hsc : sc.WF) (ho : d.mergeOne sc.name sc = .ok d') : Holds d' (scs ++ [sc]) := by
  simp only [Database.mergeOne] at ho
  cases hm : d.schemas.get? sc.name with
  | none =>
    simp only [hm, Database.addSchema, has_of_none hm, Bool.false_eq_true, if_false] at ho
    injection ho with ho
    subst ho
    refine ⟨⟨nodupKeys_insertNew h.wf.nodup hm, ?_⟩, ?_, ?_, ?_⟩
    · intro p hp
      simp only [insertNew, List.mem_append, List.mem_singleton] at hp
      rcases hp with hp | hp
      · exact h.wf.home p hp
      · subst hp; exact ⟨rfl, hsc⟩
    · intro s
      have := h.schema s
      simp only [get?_insertNew _ _ _ _ hm, List.mem_append, List.mem_singleton]
      by_cases e : s = sc.name
      · subst e
        simp only [if_true]
        exact ⟨fun _ => ⟨sc, .inr rfl, rfl⟩, fun _ => ⟨_, rfl⟩⟩
      · simp only [e, if_false, this]
        constructor
        · rintro ⟨a, h1, h2⟩; exact ⟨a, .inl h1, h2⟩
        · rintro ⟨a, h1 | h1, h2⟩
          · exact ⟨a, h1, h2⟩
          · subst h1; exact absurd h2.symm e
    · intro s r x
      have := h.rel s r x
      simp only [Database.relationAt, get?_insertNew _ _ _ _ hm, List.mem_append,
        List.mem_singleton] at this ⊢
      by_cases e : s = sc.name
      · subst e
        simp only [if_true, hm] at this ⊢
        constructor
        · intro h1; exact ⟨sc, .inr rfl, rfl, h1⟩
        · rintro ⟨a, h1 | h1, h2, h3⟩
          · exact absurd (this.2 ⟨a, h1, h2, h3⟩) (by simp)
          · subst h1; exact h3
      · simp only [e, if_false, this]
        constructor
        · rintro ⟨a, h1, h2⟩; exact ⟨a, .inl h1, h2⟩
        · rintro ⟨a, h1 | h1, h2⟩
          · exact ⟨a, h1, h2⟩
          · subst h1; exact absurd h2.1.symm e
    · intro s r x
      have := h.fn s r x
      simp only [Database.functionAt, get?_insertNew _ _ _ _ hm, List.mem_append,
        List.mem_singleton] at this ⊢
      by_cases e : s = sc.name
      · subst e
        simp only [if_true, hm] at this ⊢
        constructor
        · intro h1; exact ⟨sc, .inr rfl, rfl, h1⟩
        · rintro ⟨a, h1 | h1, h2, h3⟩
          · exact absurd (this.2 ⟨a, h1, h2, h3⟩) (by simp)
          · subst h1; exact h3
      · simp only [e, if_false, this]
        constructor
        · rintro ⟨a, h1, h2⟩; exact ⟨a, .inl h1, h2⟩
        · rintro ⟨a, h1 | h1, h2⟩
          · exact ⟨a, h1, h2⟩
          · subst h1; exact absurd h2.1.symm e
  | some mine =>
    have hh := h.wf.home _ (mem_of_get? hm)
    simp only [hm] at ho
    split at ho
    · cases ho
    · rename_i m hmm
      injection ho with ho
      subst ho
      obtain ⟨w, n, hr, hf⟩ := Schema.mergeSchema_ok hh.2 hsc hh.1 hmm
      have hsome : (get? d.schemas sc.name).isSome := by simp [hm]
      refine ⟨⟨nodupKeys_set h.wf.nodup _ _, ?_⟩, ?_, ?_, ?_⟩
      · intro p hp
        have hnd := nodupKeys_set h.wf.nodup sc.name m
        have hg := get?_of_mem hnd (k := p.1) (v := p.2) hp
        rw [get?_set _ _ _ _ hsome] at hg
        by_cases e : p.1 = sc.name
        · simp only [e, if_true, Option.some.injEq] at hg
          rw [← hg, e]; exact ⟨n.trans hh.1, w⟩
        · simp only [e, if_false] at hg
          exact h.wf.home _ (mem_of_get? hg)
      · intro s
        have := h.schema s
        simp only [Database.setSchema, get?_set _ _ _ _ hsome, List.mem_append,
          List.mem_singleton]
        by_cases e : s = sc.name
        · subst e
          simp only [if_true]
          exact ⟨fun _ => ⟨sc, .inr rfl, rfl⟩, fun _ => ⟨_, rfl⟩⟩
        · simp only [e, if_false, this]
          constructor
          · rintro ⟨a, h1, h2⟩; exact ⟨a, .inl h1, h2⟩
          · rintro ⟨a, h1 | h1, h2⟩
            · exact ⟨a, h1, h2⟩
            · subst h1; exact absurd h2.symm e
      · intro s r x
        have := h.rel s r x
        simp only [Database.relationAt, Database.setSchema, get?_set _ _ _ _ hsome,
          List.mem_append, List.mem_singleton] at this ⊢
        by_cases e : s = sc.name
        · subst e
          simp only [if_true, hm] at this ⊢
          rw [hr, this]
          constructor
          · rintro (⟨a, h1, h2⟩ | h1)
            · exact ⟨a, .inl h1, h2⟩
            · exact ⟨sc, .inr rfl, rfl, h1⟩
          · rintro ⟨a, h1 | h1, h2⟩
            · exact .inl ⟨a, h1, h2⟩
            · subst h1; exact .inr h2.2
        · simp only [e, if_false, this]
          constructor
          · rintro ⟨a, h1, h2⟩; exact ⟨a, .inl h1, h2⟩
          · rintro ⟨a, h1 | h1, h2⟩
            · exact ⟨a, h1, h2⟩
            · subst h1; exact absurd h2.1.symm e
      · intro s r x
        have := h.fn s r x
        simp only [Database.functionAt, Database.setSchema, get?_set _ _ _ _ hsome,
          List.mem_append, List.mem_singleton] at this ⊢
        by_cases e : s = sc.name
        · subst e
          simp only [if_true, hm] at this ⊢
          rw [hf, this]
          constructor
          · rintro (⟨a, h1, h2⟩ | h1)
            · exact ⟨a, .inl h1, h2⟩
            · exact ⟨sc, .inr rfl, rfl, h1⟩
          · rintro ⟨a, h1 | h1, h2⟩
            · exact .inl ⟨a, h1, h2⟩
            · subst h1; exact .inr h2.2
        · simp only [e, if_false, this]
          constructor
          · rintro ⟨a, h1, h2⟩; exact ⟨a, .inl h1, h2⟩
          · rintro ⟨a, h1 | h1, h2⟩
            · exact ⟨a, h1, h2⟩
            · subst h1; exact absurd h2.1.symm e

/-- Two lists of definitions define the same things. -/
def SameDefs (xs ys : List Schema) : Prop :=
  (∀ s, (∃ a ∈ xs, a.name = s) ↔ ∃ a ∈ ys, a.name = s) ∧
  (∀ s r x, (∃ a ∈ xs, a.name = s ∧ a.relations.get? r = some x) ↔
    ∃ a ∈ ys, a.name = s ∧ a.relations.get? r = some x) ∧
  (∀ s r x, (∃ a ∈ xs, a.name = s ∧ a.functions.get? r = some x) ↔
    ∃ a ∈ ys, a.name = s ∧ a.functions.get? r = some x)

theorem exists_mem_append {α : Type} {xs ys : List α} {p : α → Prop} :
    (∃ a ∈ xs ++ ys, p a) ↔ (∃ a ∈ xs, p a) ∨ ∃ a ∈ ys, p a := by
  simp only [List.mem_append]
  constructor
  · rintro ⟨a, h | h, hp⟩
    · exact .inl ⟨a, h, hp⟩
    · exact .inr ⟨a, h, hp⟩
  · rintro (⟨a, h, hp⟩ | ⟨a, h, hp⟩)
    · exact ⟨a, .inl h, hp⟩
    · exact ⟨a, .inr h, hp⟩

theorem SameDefs.append_left {xs ys : List Schema} (h : SameDefs xs ys) (zs : List Schema) :
    SameDefs (zs ++ xs) (zs ++ ys) := by
  refine ⟨?_, ?_, ?_⟩
  · intro s; rw [exists_mem_append, exists_mem_append, h.1]
  · intro s r x; rw [exists_mem_append, exists_mem_append, h.2.1]
  · intro s r x; rw [exists_mem_append, exists_mem_append, h.2.2]

theorem SameDefs.symm {xs ys : List Schema} (h : SameDefs xs ys) : SameDefs ys xs :=
  ⟨fun s => (h.1 s).symm, fun s r x => (h.2.1 s r x).symm, fun s r x => (h.2.2 s r x).symm⟩

theorem Holds.congr {d : Database} {xs ys : List Schema} (h : Holds d xs) (e : SameDefs xs ys) :
    Holds d ys :=
  ⟨h.wf, fun s => (h.schema s).trans (e.1 s), fun s r x => (h.rel s r x).trans (e.2.1 s r x),
    fun s r x => (h.fn s r x).trans (e.2.2 s r x)⟩

/-- What a well-formed database holds is what its own schemas define. -/
theorem Database.WF.holds_self {d : Database} (h : d.WF) : Holds d d.schemas.values := by
  have key : ∀ {s : String} {sc : Schema}, (sc ∈ d.schemas.values ∧ sc.name = s) ↔
      d.schemas.get? s = some sc := by
    intro s sc
    rw [get?_iff_mem h.nodup, mem_values]
    constructor
    · rintro ⟨⟨k, hk⟩, e⟩
      have := (h.home _ hk).1
      simp only at this
      rw [← e, this]; exact hk
    · intro hk; exact ⟨⟨s, hk⟩, (h.home _ hk).1⟩
  refine ⟨h, ?_, ?_, ?_⟩
  · intro s
    constructor
    · rintro ⟨sc, hsc⟩; obtain ⟨h1, h2⟩ := key.2 hsc; exact ⟨sc, h1, h2⟩
    · rintro ⟨sc, h1, h2⟩; exact ⟨sc, key.1 ⟨h1, h2⟩⟩
  · intro s r x
    simp only [Database.relationAt]
    constructor
    · intro hx
      cases hm : d.schemas.get? s with
      | none => simp [hm] at hx
      | some sc =>
        simp only [hm] at hx
        obtain ⟨h1, h2⟩ := key.2 hm
        exact ⟨sc, h1, h2, hx⟩
    · rintro ⟨sc, h1, h2, h3⟩
      rw [key.1 ⟨h1, h2⟩]; exact h3
  · intro s r x
    simp only [Database.functionAt]
    constructor
    · intro hx
      cases hm : d.schemas.get? s with
      | none => simp [hm] at hx
      | some sc =>
        simp only [hm] at hx
        obtain ⟨h1, h2⟩ := key.2 hm
        exact ⟨sc, h1, h2, hx⟩
    · rintro ⟨sc, h1, h2, h3⟩
      rw [key.1 ⟨h1, h2⟩]; exact h3

theorem Holds.sameDefs {d : Database} {xs ys : List Schema} (h : Holds d xs) (h' : Holds d ys) :
    SameDefs xs ys :=
  ⟨fun s => (h.schema s).symm.trans (h'.schema s),
   fun s r x => (h.rel s r x).symm.trans (h'.rel s r x),
   fun s r x => (h.fn s r x).symm.trans (h'.fn s r x)⟩

theorem SameDefs.clash_left {xs ys : List Schema} (h : SameDefs xs ys) {b : Schema} :
    (∃ a ∈ xs, DefinitionsClash a b) → ∃ a ∈ ys, DefinitionsClash a b := by
  rintro ⟨a, ha, e, ⟨r, h1, h2⟩ | ⟨r, h1, h2⟩⟩
  · obtain ⟨x, hx⟩ := Option.isSome_iff_exists.1 (get?_isSome_iff.2 h1)
    obtain ⟨a', h3, h4, h5⟩ := (h.2.1 _ _ _).1 ⟨a, ha, e, hx⟩
    exact ⟨a', h3, h4, .inl ⟨r, mem_keys_of_get? h5, h2⟩⟩
  · obtain ⟨x, hx⟩ := Option.isSome_iff_exists.1 (get?_isSome_iff.2 h1)
    obtain ⟨a', h3, h4, h5⟩ := (h.2.2 _ _ _).1 ⟨a, ha, e, hx⟩
    exact ⟨a', h3, h4, .inr ⟨r, mem_keys_of_get? h5, h2⟩⟩

theorem DefinitionsClash.symm {a b : Schema} (h : DefinitionsClash a b) : DefinitionsClash b a := by
  obtain ⟨e, ⟨r, h1, h2⟩ | ⟨r, h1, h2⟩⟩ := h
  · exact ⟨e.symm, .inl ⟨r, h2, h1⟩⟩
  · exact ⟨e.symm, .inr ⟨r, h2, h1⟩⟩

theorem SameDefs.clash_right {xs ys : List Schema} (h : SameDefs xs ys) {a : Schema}
    (hc : ∃ b ∈ xs, DefinitionsClash a b) : ∃ b ∈ ys, DefinitionsClash a b := by
  obtain ⟨b, hb, hc⟩ := hc
  obtain ⟨b', h1, h2⟩ := h.clash_left ⟨b, hb, hc.symm⟩
  exact ⟨b', h1, h2.symm⟩

theorem addSchemas_ok_iff : ∀ (xs : List Schema) (d : Database) (scs : List Schema),
    Holds d scs → (∀ x ∈ xs, x.WF) →
    ((∃ d', Load.addSchemas d xs = .ok d') ↔
      (∀ a ∈ scs, ∀ b ∈ xs, ¬ DefinitionsClash a b) ∧
        xs.Pairwise (fun a b => ¬ DefinitionsClash a b)) ∧
    ∀ d', Load.addSchemas d xs = .ok d' → Holds d' (scs ++ xs)
  | [], d, scs, h, _ => by
    simp only [Load.addSchemas, Except.ok.injEq, List.append_nil]
    exact ⟨⟨fun _ => by simp, fun _ => ⟨_, rfl⟩⟩, fun d' e => e ▸ h⟩
  | x :: xs, d, scs, h, hw => by
    have hx := hw x (List.mem_cons_self ..)
    have i1 := mergeOne_ok_iff h hx
    simp only [Load.addSchemas]
    cases hm : d.mergeOne x.name x with
    | error e =>
      have hno : ¬ ∀ a ∈ scs, ¬ DefinitionsClash a x := by
        rw [← i1, hm]; rintro ⟨_, h⟩; cases h
      refine ⟨⟨(by rintro ⟨_, h⟩; cases h), fun hc => ?_⟩, (by intro d' h; cases h)⟩
      exact absurd (fun a ha => hc.1 a ha x (List.mem_cons_self ..)) hno
    | ok d1 =>
      have hyes := i1.1 ⟨_, hm⟩
      have h1 := mergeOne_holds h hx hm
      obtain ⟨ih1, ih2⟩ := addSchemas_ok_iff xs d1 _ h1 (fun y hy => hw y (List.mem_cons_of_mem _ hy))
      refine ⟨?_, ?_⟩
      · simp only
        rw [ih1]
        simp only [List.mem_append, List.mem_singleton, List.mem_cons, List.pairwise_cons,
          forall_eq_or_imp, List.not_mem_nil, or_false]
        constructor
        · rintro ⟨h1, h2⟩
          exact ⟨fun a ha => ⟨hyes a ha, fun b hb => h1 a (.inl ha) b hb⟩,
            fun b hb => h1 x (.inr rfl) b hb, h2⟩
        · rintro ⟨h1, h2, h3⟩
          refine ⟨?_, h3⟩
          rintro a (ha | ha) b hb
          · exact (h1 a ha).2 b hb
          · subst ha; exact h2 b hb
      · intro d' hd'
        have := ih2 d' hd'
        simpa using this

theorem mergeAll_eq_addSchemas : ∀ (m : AMap Schema) (d : Database), (∀ p ∈ m, p.2.name = p.1) →
    d.mergeAll m = Load.addSchemas d m.values
  | [], d, _ => rfl
  | (k, sc) :: m, d, h => by
    have hk : sc.name = k := h (k, sc) (List.mem_cons_self ..)
    have ih := fun d' => mergeAll_eq_addSchemas m d' fun p hp => h p (List.mem_cons_of_mem _ hp)
    show Database.mergeAll d ((k, sc) :: m) = Load.addSchemas d (sc :: AMap.values m)
    simp only [Database.mergeAll, Load.addSchemas, hk]
    cases d.mergeOne k sc with
    | error e => rfl
    | ok d' => exact ih d'

/-- The definitions of the files, in the order of the files. -/
def allDefs {F : Type} (parse : F → Except LoadError (List Schema)) (fs : List F) : List Schema :=
  fs.flatMap fun f => match parse f with
    | .ok scs => scs
    | .error _ => []

theorem pairwise_values_noclash {d : Database} (h : d.WF) :
    d.schemas.values.Pairwise fun a b => ¬ DefinitionsClash a b := by
  have hnd : (d.schemas.values.map Schema.name).Nodup := by
    rw [map_name_values fun p hp => (h.home p hp).1]; exact h.nodup
  exact (List.pairwise_map.1 hnd).imp fun hne hc => hne hc.1

theorem fileInto_ok_iff {F : Type} {parse : F → Except LoadError (List Schema)} {d : Database}
    {scs : List Schema} (h : Holds d scs) {f : F}
    (hw : ∀ xs, parse f = .ok xs → ∀ x ∈ xs, x.WF) :
    ((∃ d', Load.fileInto parse d f = .ok d') ↔
      ∃ xs, parse f = .ok xs ∧ (∀ a ∈ scs, ∀ b ∈ xs, ¬ DefinitionsClash a b) ∧
        xs.Pairwise fun a b => ¬ DefinitionsClash a b) ∧
    ∀ d', Load.fileInto parse d f = .ok d' → ∃ xs, parse f = .ok xs ∧ Holds d' (scs ++ xs) := by
  simp only [Load.fileInto]
  cases hp : parse f with
  | error e =>
    refine ⟨⟨(by rintro ⟨_, h⟩; cases h), (by rintro ⟨_, h, _⟩; cases h)⟩, (by intro _ h; cases h)⟩
  | ok xs =>
    have hxs := hw xs hp
    obtain ⟨i1, i2⟩ := addSchemas_ok_iff xs Database.new [] holds_new hxs
    simp only
    cases hl : Load.addSchemas Database.new xs with
    | error e =>
      have hno : ¬ xs.Pairwise fun a b => ¬ DefinitionsClash a b := by
        intro hc
        obtain ⟨d', hd'⟩ := i1.2 ⟨by simp, hc⟩
        rw [hl] at hd'; cases hd'
      refine ⟨⟨(by rintro ⟨_, h⟩; cases h), ?_⟩, (by intro _ h; cases h)⟩
      rintro ⟨ys, hy, _, hc⟩
      cases hy
      exact absurd hc hno
    | ok fd =>
      have hfd : Holds fd xs := by simpa using i2 fd hl
      have hpw := (i1.1 ⟨_, hl⟩).2
      have hm : d.merge fd = Load.addSchemas d fd.schemas.values :=
        mergeAll_eq_addSchemas _ _ fun p hp => (hfd.wf.home p hp).1
      have hvw : ∀ x ∈ fd.schemas.values, x.WF := by
        intro x hx
        obtain ⟨k, hk⟩ := mem_values.1 hx
        exact (hfd.wf.home _ hk).2
      obtain ⟨j1, j2⟩ := addSchemas_ok_iff fd.schemas.values d scs h hvw
      have hsd : SameDefs fd.schemas.values xs := (hfd.wf.holds_self).sameDefs hfd
      simp only
      rw [hm]
      refine ⟨⟨?_, ?_⟩, ?_⟩
      · rintro ⟨d', hd'⟩
        have : ∃ d', Load.addSchemas d fd.schemas.values = .ok d' := by
          cases hh : Load.addSchemas d fd.schemas.values with
          | error e => rw [hh] at hd'; cases hd'
          | ok d2 => exact ⟨_, rfl⟩
        refine ⟨xs, rfl, ?_, hpw⟩
        intro a ha b hb hc
        obtain ⟨b', h1, h2⟩ := hsd.symm.clash_right ⟨b, hb, hc⟩
        exact (j1.1 this).1 a ha b' h1 h2
      · rintro ⟨ys, hy, h1, _⟩
        cases hy
        have hno : ∀ a ∈ scs, ∀ b ∈ fd.schemas.values, ¬ DefinitionsClash a b := by
          intro a ha b hb hc
          obtain ⟨b', h3, h4⟩ := hsd.clash_right ⟨b, hb, hc⟩
          exact h1 a ha b' h3 h4
        obtain ⟨d2, hd2⟩ := j1.2 ⟨hno, pairwise_values_noclash hfd.wf⟩
        exact ⟨d2, by rw [hd2]⟩
      · intro d' hd'
        refine ⟨xs, rfl, ?_⟩
        cases hh : Load.addSchemas d fd.schemas.values with
        | error e => rw [hh] at hd'; cases hd'
        | ok d2 =>
          rw [hh] at hd'
          simp only [Except.ok.injEq] at hd'
          subst hd'
          exact (j2 _ hh).congr (hsd.append_left scs)

theorem filesInto_ok_iff {F : Type} {parse : F → Except LoadError (List Schema)} :
    ∀ (fs : List F) (d : Database) (scs : List Schema), Holds d scs →
    (∀ f ∈ fs, ∀ xs, parse f = .ok xs → ∀ x ∈ xs, x.WF) →
    ((∃ d', Load.filesInto parse d fs = .ok d') ↔
      (∀ f ∈ fs, ∃ xs, parse f = .ok xs) ∧
      (∀ a ∈ scs, ∀ b ∈ allDefs parse fs, ¬ DefinitionsClash a b) ∧
      (allDefs parse fs).Pairwise fun a b => ¬ DefinitionsClash a b) ∧
    ∀ d', Load.filesInto parse d fs = .ok d' → Holds d' (scs ++ allDefs parse fs)
  | [], d, scs, h, _ => by
    simp only [Load.filesInto, allDefs, List.flatMap_nil, List.append_nil, Except.ok.injEq]
    exact ⟨⟨fun _ => by simp, fun _ => ⟨_, rfl⟩⟩, fun d' e => e ▸ h⟩
  | f :: fs, d, scs, h, hw => by
    obtain ⟨i1, i2⟩ := fileInto_ok_iff (parse := parse) (f := f) h (hw f (List.mem_cons_self ..))
    simp only [Load.filesInto]
    cases hf : Load.fileInto parse d f with
    | error e =>
      have hno := mt i1.2 (by rw [hf]; rintro ⟨_, h⟩; cases h)
      refine ⟨⟨(by rintro ⟨_, h⟩; cases h), ?_⟩, (by intro _ h; cases h)⟩
      rintro ⟨h1, h2, h3⟩
      obtain ⟨xs, hxs⟩ := h1 f (List.mem_cons_self ..)
      have hall : allDefs parse (f :: fs) = xs ++ allDefs parse fs := by
        simp [allDefs, hxs]
      rw [hall] at h2 h3
      refine absurd ⟨xs, hxs, ?_, ?_⟩ hno
      · intro a ha b hb; exact h2 a ha b (List.mem_append_left _ hb)
      · exact (List.pairwise_append.1 h3).1
    | ok d1 =>
      obtain ⟨xs, hxs, hh⟩ := i2 d1 hf
      obtain ⟨ih1, ih2⟩ := filesInto_ok_iff fs d1 _ hh
        (fun g hg => hw g (List.mem_cons_of_mem _ hg))
      have hall : allDefs parse (f :: fs) = xs ++ allDefs parse fs := by
        simp [allDefs, hxs]
      obtain ⟨ys, hys, hc1, hc2⟩ := i1.1 ⟨_, hf⟩
      rw [hxs] at hys; cases hys
      rw [hall]
      refine ⟨?_, ?_⟩
      · simp only
        rw [ih1]
        simp only [List.mem_append, List.mem_cons, forall_eq_or_imp, List.pairwise_append]
        constructor
        · rintro ⟨h1, h2, h3⟩
          refine ⟨⟨⟨xs, hxs⟩, h1⟩, ?_, hc2, h3, ?_⟩
          · rintro a ha b (hb | hb)
            · exact hc1 a ha b hb
            · exact h2 a (.inl ha) b hb
          · intro a ha b hb; exact h2 a (.inr ha) b hb
        · rintro ⟨⟨_, h1⟩, h2, _, h3, h4⟩
          refine ⟨h1, ?_, h3⟩
          rintro a (ha | ha) b hb
          · exact h2 a ha b (.inr hb)
          · exact h4 a ha b hb
      · intro d' hd'
        have := ih2 d' hd'
        simpa using this

theorem Holds.same {a b : Database} {xs : List Schema} (ha : Holds a xs) (hb : Holds b xs) :
    SameSnapshot a b := by
  refine ⟨?_, ?_, ?_⟩
  · intro s
    have := (ha.schema s).trans (hb.schema s).symm
    rw [← AMap.has_iff, ← AMap.has_iff]
    simp only [AMap.has, Option.isSome_iff_exists]
    exact this
  · intro s r
    refine Option.ext fun x => ?_
    rw [ha.rel, hb.rel]
  · intro s r
    refine Option.ext fun x => ?_
    rw [ha.fn, hb.fn]

theorem allDefs_perm {F : Type} {parse : F → Except LoadError (List Schema)} {fs gs : List F}
    (h : fs.Perm gs) : (allDefs parse fs).Perm (allDefs parse gs) := h.flatMap_right _

theorem SameDefs.of_perm {xs ys : List Schema} (h : xs.Perm ys) : SameDefs xs ys := by
  refine ⟨?_, ?_, ?_⟩ <;> intros <;> simp only [h.mem_iff]

end Podo
