import Verif.Proofs.DiffRun
/-
The strict run of a computed diff: schemas and databases.
-/
set_option linter.unusedSimpArgs false
namespace Podo
open Spec Diff Change

/-! ### Which schema a change is about -/

theorem relSchema_of_col {c : Change} {s t : String} (h : colTable c = some (s, t)) :
    relSchema c = some s := by simp [relSchema, h]

theorem relSchema_of_con {c : Change} {s t : String} (h : conTable c = some (s, t)) :
    relSchema c = some s := by
  have hn : colTable c = none := by cases c <;> simp [conTable] at h <;> rfl
  simp [relSchema, h, hn]

theorem relSchema_create {r : Relation} (hr : r.WF) {c : Change} (h : c ∈ relationCreate r) :
    relSchema c = some r.schemaName := by
  cases r with
  | table t =>
    simp only [relationCreate, tableCreate, List.mem_cons] at h
    rcases h with rfl | h
    · rfl
    · rw [flatMap_values] at h
      obtain ⟨p, hp, h⟩ := List.mem_flatMap.1 h
      have hh := (show t.WF from hr).cons_home p hp
      rw [relSchema_of_con (conTable_create h), hh.2.1]; rfl
  | view t => simp only [relationCreate, viewCreate, List.mem_singleton] at h; subst h; rfl
  | sequence t => simp only [relationCreate, sequenceCreate, List.mem_singleton] at h; subst h; rfl
  | index t => simp only [relationCreate, indexCreate, List.mem_singleton] at h; subst h; rfl

theorem relSchema_drop {r : Relation} {c : Change} (h : c ∈ relationDrop r) :
    relSchema c = some r.schemaName := by
  cases r with
  | table t => simp only [relationDrop, tableDrop, List.mem_singleton] at h; subst h; rfl
  | view t => simp only [relationDrop, viewDrop, List.mem_singleton] at h; subst h; rfl
  | sequence t => simp only [relationDrop, sequenceDrop, List.mem_singleton] at h; subst h; rfl
  | index t => simp only [relationDrop, indexDrop, List.mem_singleton] at h; subst h; rfl

/-- An update either is empty, drops and re-creates, or updates a table in place. -/
theorem relationUpdate_cases (s t : Relation) :
    relationUpdate s t = [] ∨ relationUpdate s t = relationDrop s ++ relationCreate t ∨
    ∃ a b, s = .table a ∧ t = .table b ∧ relationUpdate s t = tableUpdate a b := by
  cases s with
  | table s => cases t with
    | table t => exact .inr (.inr ⟨s, t, rfl, rfl, rfl⟩)
    | view t | sequence t | index t => exact .inr (.inl rfl)
  | view s => cases t with
    | view t =>
      by_cases k : s.query ≠ t.query
      · exact .inr (.inl (by simp only [relationUpdate, viewUpdate, if_pos k]; rfl))
      · exact .inl (by simp only [relationUpdate, viewUpdate, if_neg k])
    | table t | sequence t | index t => exact .inr (.inl rfl)
  | sequence s => cases t with
    | sequence t =>
      simp only [relationUpdate, sequenceUpdate]
      split
      · exact .inr (.inl rfl)
      · exact .inl rfl
    | table t | view t | index t => exact .inr (.inl rfl)
  | index s => cases t with
    | index t =>
      by_cases k : s.keyExpressions ≠ t.keyExpressions
      · exact .inr (.inl (by simp only [relationUpdate, indexUpdate, if_pos k]; rfl))
      · exact .inl (by simp only [relationUpdate, indexUpdate, if_neg k])
    | table t | view t | sequence t => exact .inr (.inl rfl)

theorem relSchema_update {s t : Relation} (hs : s.WF) (ht : t.WF)
    (h1 : s.schemaName = t.schemaName) (h2 : s.name = t.name) {c : Change}
    (h : c ∈ relationUpdate s t) : relSchema c = some t.schemaName := by
  rcases relationUpdate_cases s t with e | e | ⟨a, b, rfl, rfl, e⟩
  · rw [e] at h; cases h
  · rw [e] at h
    rcases List.mem_append.1 h with h | h
    · rw [relSchema_drop h, h1]
    · exact relSchema_create ht h
  · rw [e, tableUpdate_eq] at h
    rcases List.mem_append.1 h with h | h
    · exact relSchema_of_col (colTable_colsPart hs ht h1 h2 h)
    · exact relSchema_of_con (conTable_consPart hs ht h1 h2 h)

/-! ### Tables among created and reached relations -/

def IsTab (o : Option RelContent) : Prop := ∃ tb, o = some (.table tb)

theorem isTab_content {o : Option Relation} :
    IsTab (o.map Relation.content) ↔ ∃ tb, o = some (.table tb) := by
  constructor
  · rintro ⟨tb, h⟩
    cases o with
    | none => cases h
    | some r => cases r <;> simp_all [Relation.content]
  · rintro ⟨tb, rfl⟩
    exact ⟨tb.content, rfl⟩

theorem isTab_created {o : Option Relation} :
    IsTab (o.map created) ↔ ∃ tb, o = some (.table tb) := by
  constructor
  · rintro ⟨tb, h⟩
    cases o with
    | none => cases h
    | some r => cases r <;> simp_all [created, Relation.content]
  · rintro ⟨tb, rfl⟩
    exact ⟨tb.content, rfl⟩

theorem isTab_reached {o : Option Relation} {x : Option RelContent} :
    IsTab (o.map fun r => reachedRel x r.content) ↔ ∃ tb, o = some (.table tb) := by
  constructor
  · rintro ⟨tb, h⟩
    cases o with
    | none => cases h
    | some r =>
      cases r with
      | table t => exact ⟨t, rfl⟩
      | view t =>
        cases x with
        | none => simp [Relation.content, reachedRel] at h
        | some x => cases x <;> simp [Relation.content, reachedRel] at h
      | sequence t =>
        cases x with
        | none => simp [Relation.content, reachedRel] at h
        | some x => cases x <;> simp [Relation.content, reachedRel] at h <;> split at h <;> simp at h
      | index t =>
        cases x with
        | none => simp [Relation.content, reachedRel] at h
        | some x => cases x <;> simp [Relation.content, reachedRel] at h <;> split at h <;> simp at h
  · rintro ⟨tb, rfl⟩
    refine ⟨tb.content, ?_⟩
    cases x with
    | none => rfl
    | some x => cases x <;> rfl

theorem reachedRel_none (r : Relation) : reachedRel none r.content = created r := by
  cases r <;> rfl

/-! ### Relations of a schema -/

theorem overlay_created {l : AMap Relation} (hn : l.NodupKeys) (m : PM RelContent) (j : String) :
    overlay (β := String × Relation) Prod.fst (fun p => some (created p.2)) l m j =
      match l.get? j with
      | some r => some (created r)
      | none => m j := by
  cases h : l.get? j with
  | none => exact overlay_not_mem _ _ (AMap.get?_eq_none_iff.1 h)
  | some r => exact overlay_mem (b := (j, r)) _ _ hn (AMap.mem_of_get? h)

theorem nodupKeys_pre {α : Type} {l pre post : AMap α} {p : String × α} (hn : l.NodupKeys)
    (e : l = pre ++ p :: post) : AMap.NodupKeys pre := by
  subst e
  rw [AMap.NodupKeys, AMap.keys_append] at hn
  exact (List.nodup_append.1 hn).1

open Classical in
theorem run_relsNew {t : Schema} (ht : t.WF) :
    runX relX (t.relations.values.flatMap relationCreate) (fun _ => none) =
      if ReadyNew t.relations then
        .ok (fun r => (t.relations.get? r).map fun x => reachedRel none x.content)
      else .error true := by
  rw [flatMap_values,
    runX_keyed (α := RelContent) (β := String × Relation) Prod.fst (fun p => some (created p.2))
      (fun m p => tableThere m p.2) ht.rels_nodup]
  · have hiff : ReadyAll (α := RelContent) (β := String × Relation) Prod.fst
        (fun p => some (created p.2)) (fun m p => tableThere m p.2) t.relations (fun _ => none) ↔
        ReadyNew t.relations := by
      rw [readyAll_iff]
      constructor
      · intro h pre i ix post e
        have hp := nodupKeys_pre ht.rels_nodup e
        obtain ⟨tb, hh⟩ := h pre (i, .index ix) post e
        rw [overlay_created hp] at hh
        have hh' : IsTab ((AMap.get? pre ix.tableName).map created) := by
          refine ⟨tb, ?_⟩
          rw [← hh]; cases AMap.get? pre ix.tableName <;> rfl
        obtain ⟨tb, hh⟩ := isTab_created.1 hh'
        exact ⟨tb, AMap.mem_of_get? hh⟩
      · intro h pre b post e
        obtain ⟨i, r⟩ := b
        have hp := nodupKeys_pre ht.rels_nodup e
        cases r with
        | table x => trivial
        | view x => trivial
        | sequence x => trivial
        | index ix =>
          obtain ⟨tb, hh⟩ := h pre i ix post e
          refine ⟨tb.content, ?_⟩
          rw [overlay_created hp, AMap.get?_of_mem hp hh]; rfl
    by_cases hr : ReadyNew t.relations
    · rw [if_pos hr, if_pos (hiff.2 hr)]
      congr 1
      funext j
      rw [overlay_created ht.rels_nodup]
      cases t.relations.get? j with
      | none => rfl
      | some r => simp only [Option.map_some, reachedRel_none]
    · rw [if_neg hr, if_neg (mt hiff.1 hr)]
  · intro p hp m' hm'
    have hh := ht.rels_home p hp
    have := run_relationCreate hh.2.2 (m := m') (by rw [hh.1]; exact hm')
    rw [hh.1] at this
    exact this

/-- What the first phase of an update makes of a relation of the target. -/
def added (s : Schema) (p : String × Relation) : Option RelContent :=
  match s.relations.get? p.1 with
  | some r => some r.content
  | none => some (created p.2)

def addedReady (s : Schema) (m : PM RelContent) (p : String × Relation) : Prop :=
  s.relations.get? p.1 = none → tableThere m p.2

/-- The content after the first phase. -/
def afterAdd (s t : Schema) : PM RelContent := fun j =>
  match s.relations.get? j with
  | some r => some r.content
  | none => (t.relations.get? j).map created

theorem overlay_added (s : Schema) {l : AMap Relation} (hn : l.NodupKeys) (j : String) :
    overlay (β := String × Relation) Prod.fst (added s) l s.content.relations j =
      match s.relations.get? j with
      | some r => some r.content
      | none => (l.get? j).map created := by
  cases h : l.get? j with
  | none =>
    rw [overlay_not_mem _ _ (AMap.get?_eq_none_iff.1 h)]
    simp only [Schema.content]
    cases s.relations.get? j <;> rfl
  | some r =>
    have := overlay_mem (β := String × Relation) (m := s.content.relations) Prod.fst (added s) hn
      (AMap.mem_of_get? h)
    rw [this]
    simp only [added]
    cases s.relations.get? j <;> rfl

open Classical in
theorem run_relsAdded {s t : Schema} (ht : t.WF) :
    runX relX (t.relations.values.flatMap fun ti =>
        if s.hasRelation ti.name then [] else relationCreate ti) s.content.relations =
      if ReadyAdded s t then .ok (afterAdd s t) else .error true := by
  rw [flatMap_values,
    runX_keyed (α := RelContent) (β := String × Relation) Prod.fst (added s)
      (addedReady s) ht.rels_nodup]
  · have hiff : ReadyAll (α := RelContent) (β := String × Relation) Prod.fst
        (added s) (addedReady s) t.relations s.content.relations ↔ ReadyAdded s t := by
      rw [readyAll_iff]
      constructor
      · intro h pre i ix post e hi
        have hp := nodupKeys_pre ht.rels_nodup e
        obtain ⟨tb, hh⟩ := h pre (i, .index ix) post e hi
        rw [overlay_added s hp] at hh
        cases hs : s.relations.get? ix.tableName with
        | some r =>
          rw [hs] at hh
          have : IsTab ((some r).map Relation.content) := ⟨tb, hh⟩
          obtain ⟨tb', e'⟩ := isTab_content.1 this
          cases e'
          exact .inl ⟨_, rfl⟩
        | none =>
          rw [hs] at hh
          obtain ⟨tb', e'⟩ := isTab_created.1 (⟨tb, hh⟩ : IsTab _)
          exact .inr ⟨rfl, tb', AMap.mem_of_get? e'⟩
      · intro h pre b post e hi
        obtain ⟨i, r⟩ := b
        have hp := nodupKeys_pre ht.rels_nodup e
        cases r with
        | table x => trivial
        | view x => trivial
        | sequence x => trivial
        | index ix =>
          rcases h pre i ix post e hi with ⟨tb, hh⟩ | ⟨hs, tb, hh⟩
          · refine ⟨tb.content, ?_⟩
            rw [overlay_added s hp, hh]; rfl
          · refine ⟨tb.content, ?_⟩
            rw [overlay_added s hp, hs, AMap.get?_of_mem hp hh]; rfl
    by_cases hr : ReadyAdded s t
    · rw [if_pos hr, if_pos (hiff.2 hr)]
      congr 1
      funext j
      rw [overlay_added s ht.rels_nodup]
      rfl
    · rw [if_neg hr, if_neg (mt hiff.1 hr)]
  · intro p hp m' hm'
    have hh := ht.rels_home p hp
    rw [hh.1]
    cases hs : s.relations.get? p.1 with
    | some r =>
      have hR : addedReady s m' p := by intro h; rw [hs] at h; cases h
      rw [if_pos hR, if_pos (show s.hasRelation p.1 = true from AMap.has_of_some hs)]
      simp only [runX, added, hs]
      rw [upd_eq_self]
      rw [hm']; simp [Schema.content, hs]
    | none =>
      have hf : ¬ s.hasRelation p.1 = true := by
        rw [show s.hasRelation p.1 = false from AMap.has_of_none hs]; simp
      rw [if_neg hf]
      have := run_relationCreate hh.2.2 (m := m') (by rw [hh.1, hm']; simp [Schema.content, hs])
      rw [hh.1] at this
      rw [this]
      have hiff : addedReady s m' p ↔ tableThere m' p.2 := ⟨fun h => h hs, fun h _ => h⟩
      by_cases hr : tableThere m' p.2
      · rw [if_pos hr, if_pos (hiff.2 hr)]; simp only [added, hs]
      · rw [if_neg hr, if_neg (mt hiff.1 hr)]

/-- What the second phase makes of a relation of the source. -/
def updated (t : Schema) (p : String × Relation) : Option RelContent :=
  (t.relations.get? p.1).map fun ti => reachedRel (some p.2.content) ti.content

def updatedReady (t : Schema) (m : PM RelContent) (p : String × Relation) : Prop :=
  ∀ ti, t.relations.get? p.1 = some ti → updReady p.2 ti m

theorem overlay_updated (t : Schema) {l : AMap Relation} (hn : l.NodupKeys) (m : PM RelContent)
    (j : String) :
    overlay (β := String × Relation) Prod.fst (updated t) l m j =
      match l.get? j with
      | some r => (t.relations.get? j).map fun ti => reachedRel (some r.content) ti.content
      | none => m j := by
  cases h : l.get? j with
  | none => exact overlay_not_mem _ _ (AMap.get?_eq_none_iff.1 h)
  | some r => exact overlay_mem (b := (j, r)) _ _ hn (AMap.mem_of_get? h)

theorem get?_pre_of {α : Type} {l pre post : AMap α} {p : String × α}
    (e : l = pre ++ p :: post) {j : String} {v : α} (h : AMap.get? pre j = some v) :
    AMap.get? l j = some v := by
  rw [e, AMap.get?_append, h]; rfl

open Classical in
theorem run_relsUpdated {s t : Schema} (hs : s.WF) (ht : t.WF) (hn : s.name = t.name) :
    runX relX (s.relations.values.flatMap fun si =>
        match t.relations.get? si.name with
        | some ti => relationUpdate si ti
        | none => relationDrop si) (afterAdd s t) =
      if ReadyUpdated s t then
        .ok (fun r => (t.relations.get? r).map fun x =>
          reachedRel (s.content.relations r) x.content)
      else .error true := by
  rw [flatMap_values,
    runX_keyed (α := RelContent) (β := String × Relation) Prod.fst (updated t)
      (updatedReady t) hs.rels_nodup]
  · have hiff : ReadyAll (α := RelContent) (β := String × Relation) Prod.fst
        (updated t) (updatedReady t) s.relations (afterAdd s t) ↔ ReadyUpdated s t := by
      rw [readyAll_iff]
      have key : ∀ pre i r post ix, s.relations = pre ++ (i, r) :: post →
          (IsTab (overlay (β := String × Relation) Prod.fst (updated t) pre (afterAdd s t)
            ix) ↔
          (((ix ∈ AMap.keys pre ∨ s.relations.get? ix = none) →
            ∃ tb, t.relations.get? ix = some (.table tb)) ∧
          ((ix ∉ AMap.keys pre ∧ s.relations.get? ix ≠ none) →
            ∃ tb, s.relations.get? ix = some (.table tb)))) := by
        intro pre i r post ix e
        have hp := nodupKeys_pre hs.rels_nodup e
        rw [overlay_updated t hp]
        cases hpre : AMap.get? pre ix with
        | some r' =>
          have hk : ix ∈ AMap.keys pre := AMap.mem_keys_of_get? hpre
          simp only [isTab_reached, hk, true_or, true_implies, not_true, false_and, false_implies,
            and_true]
        | none =>
          have hk : ix ∉ AMap.keys pre := AMap.get?_eq_none_iff.1 hpre
          simp only [afterAdd, hk, false_or, not_false_eq_true, true_and]
          cases hss : s.relations.get? ix with
          | none => simp [isTab_created]
          | some r' =>
            have := isTab_content (o := some r')
            simp only [Option.map_some] at this
            simp [this]
      have ready : ∀ (m : PM RelContent) i r ix, t.relations.get? i = some (.index ix) →
          (updatedReady t m (i, r) ↔ ((∀ ix₀, r = .index ix₀ → ix₀.keyExpressions ≠ ix.keyExpressions) →
            ix.tableName ≠ i ∧ IsTab (m ix.tableName))) := by
        intro m i r ix hti
        have hname : ix.name = i := (ht.rels_home _ (AMap.mem_of_get? hti)).1
        constructor
        · intro h hk
          obtain ⟨tb, h⟩ := h _ hti hk
          rw [hname] at h
          by_cases e : ix.tableName = i
          · rw [e, upd_same] at h; cases h
          · rw [upd_ne _ _ e] at h; exact ⟨e, tb, h⟩
        · intro h ti hti'
          rw [show (i, r).1 = i from rfl, hti] at hti'
          cases hti'
          intro hk
          obtain ⟨e, tb, h⟩ := h hk
          refine ⟨tb, ?_⟩
          rw [hname, upd_ne _ _ e]; exact h
      constructor
      · intro h pre i r post ix e hti hk
        have := (ready _ i r ix hti).1 (h pre (i, r) post e) hk
        exact ⟨this.1, (key pre i r post _ e).1 this.2⟩
      · intro h pre b post e
        obtain ⟨i, r⟩ := b
        intro ti hti
        cases hx : ti with
        | table x => trivial
        | view x => trivial
        | sequence x => trivial
        | index ix =>
          subst hx
          refine (ready _ i r ix hti).2 (fun hk => ?_) _ hti
          have := h pre i r post ix e hti hk
          exact ⟨this.1, (key pre i r post _ e).2 this.2⟩
    by_cases hr : ReadyUpdated s t
    · rw [if_pos hr, if_pos (hiff.2 hr)]
      congr 1
      funext j
      rw [overlay_updated t hs.rels_nodup]
      simp only [Schema.content, afterAdd]
      cases hsj : s.relations.get? j with
      | some r => rfl
      | none =>
        simp only [Option.map_none]
        cases t.relations.get? j with
        | none => rfl
        | some x => simp only [Option.map_some, reachedRel_none]
    · rw [if_neg hr, if_neg (mt hiff.1 hr)]
  · intro p hp m' hm'
    have hh := hs.rels_home p hp
    have hget := AMap.get?_of_mem hs.rels_nodup hp
    rw [hh.1]
    have hm : m' p.1 = some p.2.content := by rw [hm']; simp only [afterAdd, hget]
    cases hti : t.relations.get? p.1 with
    | none =>
      have hR : updatedReady t m' p := by intro ti h; rw [hti] at h; cases h
      rw [if_pos hR]
      have := run_relationDrop (s := p.2) (m := m') (by rw [hh.1]; exact hm)
      rw [hh.1] at this
      simp only [this, updated, hti, Option.map_none]
    | some ti =>
      have hh' := ht.rels_home _ (AMap.mem_of_get? hti)
      have := run_relationUpdate (s := p.2) (t := ti) (m := m') hh.2.2 hh'.2.2
        (hh.2.1.trans (hn.trans hh'.2.1.symm)) (hh.1.trans hh'.1.symm) (by rw [hh'.1]; exact hm)
      simp only [this, hh'.1]
      have hiff : updatedReady t m' p ↔ updReady p.2 ti m' :=
        ⟨fun h => h ti hti, fun h ti' h' => by rw [hti] at h'; cases h'; exact h⟩
      by_cases hr : updReady p.2 ti m'
      · rw [if_pos hr, if_pos (hiff.2 hr)]; simp only [updated, hti, Option.map_some]
      · rw [if_neg hr, if_neg (mt hiff.1 hr)]

/-! ### Functions of a schema -/

theorem function_ext_of {s t : Function} (h1 : s.schemaName = t.schemaName) (h2 : s.name = t.name)
    (h : ¬ (s.body ≠ t.body ∨ s.language ≠ t.language ∨ s.returns ≠ t.returns
      ∨ s.volatility ≠ t.volatility)) : s = t := by
  simp only [not_or, Decidable.not_not] at h
  cases s; cases t; simp_all

theorem run_functionUpdate {s t : Function} (h1 : s.schemaName = t.schemaName)
    (h2 : s.name = t.name) {m : PM Function} (hm : m t.name = some s) :
    runX funX (functionUpdate s t) m = .ok (upd m t.name (some t)) := by
  simp only [functionUpdate]
  split
  · simp only [newDropFunction, newCreateFunction, runX, funX, h2, remove, hm, if_true, ofOpt_some,
      putNew, upd_same, upd_upd]
  · next h =>
    have := function_ext_of h1 h2 h
    subst this
    simp only [runX]; rw [upd_eq_self]; exact hm

theorem run_functionCreate {t : Function} {m : PM Function} (hm : m t.name = none) :
    runX funX (functionCreate t) m = .ok (upd m t.name (some t)) := by
  simp only [functionCreate, newCreateFunction, runX, funX, putNew, hm, ofOpt_some]

theorem run_functionDrop {s : Function} {m : PM Function} (hm : m s.name = some s) :
    runX funX (functionDrop s) m = .ok (upd m s.name none) := by
  simp only [functionDrop, newDropFunction, runX, funX, remove, hm, ofOpt_some, if_true]

theorem run_funsNew {t : Schema} (ht : t.WF) :
    runX funX (t.functions.values.flatMap functionCreate) (fun _ => none) =
      .ok t.content.functions := by
  rw [flatMap_values, runX_keyed' (α := Function) (β := String × Function) Prod.fst
    (fun p => some p.2) ht.funs_nodup]
  · congr 1
    funext j
    simp only [Schema.content]
    cases h : t.functions.get? j with
    | none => exact overlay_not_mem _ _ (AMap.get?_eq_none_iff.1 h)
    | some r => exact overlay_mem (b := (j, r)) _ _ ht.funs_nodup (AMap.mem_of_get? h)
  · intro p hp m' hm'
    have hh := ht.funs_home p hp
    have := run_functionCreate (t := p.2) (m := m') (by rw [hh.1]; exact hm')
    rw [hh.1] at this
    exact this

theorem run_funsUpdate {s t : Schema} (hs : s.WF) (ht : t.WF) (hn : s.name = t.name) :
    runX funX ((t.functions.values.flatMap fun ti =>
        if s.hasFunction ti.name then [] else functionCreate ti) ++
      (s.functions.values.flatMap fun si =>
        match t.functions.get? si.name with
        | some ti => functionUpdate si ti
        | none => functionDrop si)) s.content.functions = .ok t.content.functions := by
  rw [runX_append, flatMap_values, flatMap_values,
    runX_keyed' (α := Function) (β := String × Function) Prod.fst
      (fun p => (s.functions.get? p.1).or (some p.2)) ht.funs_nodup]
  · simp only
    have hmid : ∀ j, overlay (β := String × Function) Prod.fst
        (fun p => (s.functions.get? p.1).or (some p.2)) t.functions s.content.functions j =
        (s.functions.get? j).or (t.functions.get? j) := by
      intro j
      cases h : t.functions.get? j with
      | none =>
        rw [overlay_not_mem _ _ (AMap.get?_eq_none_iff.1 h)]
        simp [Schema.content]
      | some r =>
        have := overlay_mem (β := String × Function) (m := s.content.functions) Prod.fst
          (fun p => (s.functions.get? p.1).or (some p.2)) ht.funs_nodup (AMap.mem_of_get? h)
        rw [this]
    rw [runX_keyed' (α := Function) (β := String × Function) Prod.fst
      (fun p => t.functions.get? p.1) hs.funs_nodup]
    · congr 1
      funext j
      cases h : s.functions.get? j with
      | none =>
        rw [overlay_not_mem _ _ (AMap.get?_eq_none_iff.1 h), hmid, h]; rfl
      | some r =>
        have := overlay_mem (β := String × Function) (m := overlay (β := String × Function) Prod.fst
          (fun p => (s.functions.get? p.1).or (some p.2)) t.functions s.content.functions) Prod.fst
          (fun p => t.functions.get? p.1) hs.funs_nodup (AMap.mem_of_get? h)
        rw [this]; rfl
    · intro p hp m' hm'
      have hh := hs.funs_home p hp
      have hget := AMap.get?_of_mem hs.funs_nodup hp
      rw [hmid, hget, Option.some_or] at hm'
      rw [hh.1]
      cases hti : t.functions.get? p.1 with
      | none =>
        have := run_functionDrop (s := p.2) (m := m') (by rw [hh.1]; exact hm')
        rw [hh.1] at this; exact this
      | some ti =>
        have hh' := ht.funs_home _ (AMap.mem_of_get? hti)
        have := run_functionUpdate (s := p.2) (t := ti) (m := m')
          (hh.2.trans (hn.trans hh'.2.symm)) (hh.1.trans hh'.1.symm) (by rw [hh'.1]; exact hm')
        rw [hh'.1] at this; exact this
  · intro p hp m' hm'
    have hh := ht.funs_home p hp
    rw [hh.1]
    cases hsj : s.functions.get? p.1 with
    | some f =>
      rw [if_pos (show s.hasFunction p.1 = true from AMap.has_of_some hsj)]
      simp only [runX, Option.some_or]
      rw [upd_eq_self]
      rw [hm']; exact hsj
    | none =>
      have hf : ¬ s.hasFunction p.1 = true := by
        rw [show s.hasFunction p.1 = false from AMap.has_of_none hsj]; simp
      rw [if_neg hf]
      have := run_functionCreate (t := p.2) (m := m') (by rw [hh.1, hm']; exact hsj)
      rw [hh.1] at this; exact this

/-! ### Schemas -/

open Classical in
theorem run_schemaCreate {t : Schema} (ht : t.WF) {C : Content} (hC : C t.name = none) :
    runX xeff (schemaCreate t) C =
      if ReadyNew t.relations then .ok (upd C t.name (some (reachedSchema none t.content)))
      else .error true := by
  have h0 : xeff (newCreateSchema t) C = .ok (upd C t.name
      (some ⟨t.name, fun _ => none, fun _ => none⟩)) := by
    simp only [newCreateSchema, xeff, relSchema, colTable, conTable, funSchema, putNew, hC,
      ofOpt_some]
  simp only [schemaCreate, runX, h0]
  rw [runX_append]
  have h1 : ∀ c ∈ t.relations.values.flatMap relationCreate, relSchema c = some t.name := by
    intro c hc
    rw [flatMap_values] at hc
    obtain ⟨p, hp, hc⟩ := List.mem_flatMap.1 hc
    have hh := ht.rels_home p hp
    rw [relSchema_create hh.2.2 hc, hh.2.1]
  have h2 : ∀ c ∈ t.functions.values.flatMap functionCreate, funSchema c = some t.name := by
    intro c hc
    rw [flatMap_values] at hc
    obtain ⟨p, hp, hc⟩ := List.mem_flatMap.1 hc
    simp only [functionCreate, List.mem_singleton] at hc
    subst hc
    simp [newCreateFunction, funSchema, (ht.funs_home p hp).2]
  rw [lift_rel _ h1 (upd_same _ _ _), run_relsNew ht]
  by_cases hr : ReadyNew t.relations
  · rw [if_pos hr, if_pos hr]
    simp only [mapX]
    rw [lift_fun _ h2 (upd_same _ _ _), run_funsNew ht]
    simp only [mapX, upd_upd]
    congr 3
    simp only [reachedSchema, Schema.content, Option.bind_none, SchemaContent.mk.injEq, true_and,
      and_true]
    funext r
    cases t.relations.get? r <;> rfl
  · rw [if_neg hr, if_neg hr]
    simp only [mapX]

open Classical in
theorem run_schemaUpdate {s t : Schema} (hs : s.WF) (ht : t.WF) (hn : s.name = t.name)
    {C : Content} (hC : C t.name = some s.content) :
    runX xeff (schemaUpdate s t) C =
      if ReadyAdded s t ∧ ReadyUpdated s t then
        .ok (upd C t.name (some (reachedSchema (some s.content) t.content)))
      else .error true := by
  have h1 : ∀ c ∈ (t.relations.values.flatMap fun ti =>
      if s.hasRelation ti.name then [] else relationCreate ti), relSchema c = some t.name := by
    intro c hc
    rw [flatMap_values] at hc
    obtain ⟨p, hp, hc⟩ := List.mem_flatMap.1 hc
    have hh := ht.rels_home p hp
    split at hc
    · cases hc
    · rw [relSchema_create hh.2.2 hc, hh.2.1]
  have h2 : ∀ c ∈ (s.relations.values.flatMap fun si =>
        match t.relations.get? si.name with
        | some ti => relationUpdate si ti
        | none => relationDrop si), relSchema c = some t.name := by
    intro c hc
    rw [flatMap_values] at hc
    obtain ⟨p, hp, hc⟩ := List.mem_flatMap.1 hc
    have hh := hs.rels_home p hp
    split at hc
    · next ti hti =>
      have hh' := ht.rels_home _ (AMap.mem_of_get? hti)
      rw [relSchema_update hh.2.2 hh'.2.2 (hh.2.1.trans (hn.trans hh'.2.1.symm)) hh'.1.symm hc,
        hh'.2.1]
    · rw [relSchema_drop hc, hh.2.1, hn]
  have h3 : ∀ c ∈ (t.functions.values.flatMap fun ti =>
        if s.hasFunction ti.name then [] else functionCreate ti) ++
      (s.functions.values.flatMap fun si =>
        match t.functions.get? si.name with
        | some ti => functionUpdate si ti
        | none => functionDrop si), funSchema c = some t.name := by
    intro c hc
    rw [flatMap_values, flatMap_values] at hc
    rcases List.mem_append.1 hc with hc | hc
    · obtain ⟨p, hp, hc⟩ := List.mem_flatMap.1 hc
      have hh := ht.funs_home p hp
      split at hc
      · cases hc
      · simp only [functionCreate, List.mem_singleton] at hc
        subst hc
        simp [newCreateFunction, funSchema, hh.2]
    · obtain ⟨p, hp, hc⟩ := List.mem_flatMap.1 hc
      have hh := hs.funs_home p hp
      split at hc
      · next ti hti =>
        have hh' := ht.funs_home _ (AMap.mem_of_get? hti)
        simp only [functionUpdate] at hc
        split at hc
        · simp only [List.mem_cons, List.not_mem_nil, or_false] at hc
          rcases hc with rfl | rfl
          · simp [newDropFunction, funSchema, hh.2, hn]
          · exact congrArg some hh'.2
        · cases hc
      · simp only [functionDrop, List.mem_singleton] at hc
        subst hc
        simp [newDropFunction, funSchema, hh.2, hn]
  have hsplit : schemaUpdate s t = (t.relations.values.flatMap fun ti =>
      if s.hasRelation ti.name then [] else relationCreate ti) ++
      ((s.relations.values.flatMap fun si =>
        match t.relations.get? si.name with
        | some ti => relationUpdate si ti
        | none => relationDrop si) ++
      ((t.functions.values.flatMap fun ti =>
        if s.hasFunction ti.name then [] else functionCreate ti) ++
      (s.functions.values.flatMap fun si =>
        match t.functions.get? si.name with
        | some ti => functionUpdate si ti
        | none => functionDrop si))) := by
    simp only [schemaUpdate, List.append_assoc]
    rfl
  rw [hsplit, runX_append, lift_rel _ h1 hC, run_relsAdded ht]
  by_cases hr1 : ReadyAdded s t
  · rw [if_pos hr1]
    simp only [mapX]
    rw [runX_append, lift_rel _ h2 (upd_same _ _ _)]
    simp only
    rw [run_relsUpdated hs ht hn]
    by_cases hr2 : ReadyUpdated s t
    · rw [if_pos hr2, if_pos ⟨hr1, hr2⟩]
      simp only [mapX]
      rw [lift_fun _ h3 (upd_same _ _ _)]
      simp only
      rw [run_funsUpdate hs ht hn]
      simp only [mapX, upd_upd]
      congr 3
      simp only [reachedSchema, Schema.content, Option.bind_some, SchemaContent.mk.injEq,
        and_true, hn, true_and]
      funext r
      cases t.relations.get? r <;> rfl
    · rw [if_neg hr2, if_neg (fun h => hr2 h.2)]
      simp only [mapX]
  · rw [if_neg hr1, if_neg (fun h => hr1 h.1)]
    simp only [mapX]

theorem run_schemaDrop {s : Schema} (hs : s.WF) {C : Content} (hC : C s.name = some s.content) :
    runX xeff (schemaDrop s) C = .ok (upd C s.name none) := by
  have h1 : ∀ c ∈ s.relations.values.flatMap relationDrop, relSchema c = some s.name := by
    intro c hc
    rw [flatMap_values] at hc
    obtain ⟨p, hp, hc⟩ := List.mem_flatMap.1 hc
    rw [relSchema_drop hc, (hs.rels_home p hp).2.1]
  have h2 : ∀ c ∈ s.functions.values.flatMap functionDrop, funSchema c = some s.name := by
    intro c hc
    rw [flatMap_values] at hc
    obtain ⟨p, hp, hc⟩ := List.mem_flatMap.1 hc
    simp only [functionDrop, List.mem_singleton] at hc
    subst hc
    simp [newDropFunction, funSchema, (hs.funs_home p hp).2]
  have k1 : ∃ m, runX relX (s.relations.values.flatMap relationDrop) s.content.relations = .ok m := by
    rw [flatMap_values, runX_keyed' (α := RelContent) (β := String × Relation) Prod.fst
      (fun _ => none) hs.rels_nodup]
    · exact ⟨_, rfl⟩
    · intro p hp m' hm'
      have hh := hs.rels_home p hp
      have := run_relationDrop (s := p.2) (m := m') (by
        rw [hh.1, hm']; simp [Schema.content, AMap.get?_of_mem hs.rels_nodup hp])
      rw [hh.1] at this; exact this
  have k2 : ∃ m, runX funX (s.functions.values.flatMap functionDrop) s.content.functions = .ok m := by
    rw [flatMap_values, runX_keyed' (α := Function) (β := String × Function) Prod.fst
      (fun _ => none) hs.funs_nodup]
    · exact ⟨_, rfl⟩
    · intro p hp m' hm'
      have hh := hs.funs_home p hp
      have := run_functionDrop (s := p.2) (m := m') (by
        rw [hh.1, hm']; simp [Schema.content, AMap.get?_of_mem hs.funs_nodup hp])
      rw [hh.1] at this; exact this
  obtain ⟨m1, k1⟩ := k1
  obtain ⟨m2, k2⟩ := k2
  rw [schemaDrop, runX_append, runX_append, lift_rel _ h1 hC, k1]
  simp only [mapX]
  rw [lift_fun _ h2 (upd_same _ _ _)]
  simp only
  rw [k2]
  simp only [mapX, runX, newDropSchema, xeff, relSchema, colTable, conTable, funSchema, remove,
    upd_same, if_true, ofOpt_some, upd_upd]

/-! ### Databases -/

def dbNew (s : Database) (p : String × Schema) : Option SchemaContent :=
  match s.schemas.get? p.1 with
  | some sc => some sc.content
  | none => some (reachedSchema none p.2.content)

open Classical in
theorem run_diff {s t : Database} (hs : s.WF) (ht : t.WF) :
    runX xeff (compareDiff s t) s.content =
      if IndexReady s t then .ok (reached s.content t.content) else .error true := by
  rw [compareDiff, runX_append, flatMap_values, flatMap_values,
    runX_keyed (α := SchemaContent) (β := String × Schema) Prod.fst (dbNew s)
      (fun _ p => s.schemas.get? p.1 = none → ReadyNew p.2.relations) ht.nodup]
  · have hR1 : ReadyAll (α := SchemaContent) (β := String × Schema) Prod.fst (dbNew s)
        (fun _ p => s.schemas.get? p.1 = none → ReadyNew p.2.relations) t.schemas s.content ↔
        ∀ n tsc, t.schemas.get? n = some tsc → s.schemas.get? n = none → ReadyNew tsc.relations := by
      rw [readyAll_iff]
      constructor
      · intro h n tsc hn hs'
        obtain ⟨pre, post, e⟩ := List.append_of_mem (AMap.mem_of_get? hn)
        exact h pre (n, tsc) post e hs'
      · intro h pre b post e hs'
        refine h b.1 b.2 (AMap.get?_of_mem ht.nodup ?_) hs'
        rw [e]; simp
    by_cases hr1 : ∀ n tsc, t.schemas.get? n = some tsc → s.schemas.get? n = none →
        ReadyNew tsc.relations
    · rw [if_pos (hR1.2 hr1)]
      simp only
      have hmid : ∀ j, overlay (β := String × Schema) Prod.fst (dbNew s) t.schemas s.content j =
          match s.schemas.get? j with
          | some sc => some sc.content
          | none => (t.schemas.get? j).map fun x => reachedSchema none x.content := by
        intro j
        cases h : t.schemas.get? j with
        | none =>
          rw [overlay_not_mem _ _ (AMap.get?_eq_none_iff.1 h)]
          simp only [Database.content]
          cases s.schemas.get? j <;> rfl
        | some r =>
          have := overlay_mem (β := String × Schema) (m := s.content) Prod.fst (dbNew s) ht.nodup
            (AMap.mem_of_get? h)
          rw [this]
          simp only [dbNew]
          cases s.schemas.get? j <;> rfl
      rw [runX_keyed (α := SchemaContent) (β := String × Schema) Prod.fst
        (fun p => (t.schemas.get? p.1).map fun x => reachedSchema (some p.2.content) x.content)
        (fun _ p => ∀ tsc, t.schemas.get? p.1 = some tsc → ReadyAdded p.2 tsc ∧ ReadyUpdated p.2 tsc)
        hs.nodup]
      · have hR2 : ReadyAll (α := SchemaContent) (β := String × Schema) Prod.fst
            (fun p => (t.schemas.get? p.1).map fun x => reachedSchema (some p.2.content) x.content)
            (fun _ p => ∀ tsc, t.schemas.get? p.1 = some tsc →
              ReadyAdded p.2 tsc ∧ ReadyUpdated p.2 tsc) s.schemas
              (overlay (β := String × Schema) Prod.fst (dbNew s) t.schemas s.content) ↔
            IndexReady s t := by
          rw [readyAll_iff]
          constructor
          · intro h
            have h' : ∀ n ssc tsc, s.schemas.get? n = some ssc → t.schemas.get? n = some tsc →
                ReadyAdded ssc tsc ∧ ReadyUpdated ssc tsc := by
              intro n ssc tsc h1 h2
              obtain ⟨pre, post, e⟩ := List.append_of_mem (AMap.mem_of_get? h1)
              exact h pre (n, ssc) post e tsc h2
            exact ⟨hr1, fun n a b x y => (h' n a b x y).1, fun n a b x y => (h' n a b x y).2⟩
          · intro h pre b post e tsc htsc
            have hb : s.schemas.get? b.1 = some b.2 :=
              AMap.get?_of_mem hs.nodup (by rw [e]; simp)
            exact ⟨h.added _ _ _ hb htsc, h.updated _ _ _ hb htsc⟩
        by_cases hr : IndexReady s t
        · rw [if_pos hr, if_pos (hR2.2 hr)]
          congr 1
          funext j
          simp only [reached]
          cases h : s.schemas.get? j with
          | none =>
            rw [overlay_not_mem _ _ (AMap.get?_eq_none_iff.1 h), hmid, h]
            simp only [Database.content, h, Option.map_none]
            cases t.schemas.get? j <;> rfl
          | some r =>
            have := overlay_mem (β := String × Schema)
              (m := overlay (β := String × Schema) Prod.fst (dbNew s) t.schemas s.content) Prod.fst
              (fun p => (t.schemas.get? p.1).map fun x =>
                reachedSchema (some p.2.content) x.content) hs.nodup (AMap.mem_of_get? h)
            rw [this]
            simp only [Database.content, h, Option.map_some]
            cases t.schemas.get? j <;> rfl
        · rw [if_neg hr, if_neg (mt hR2.1 hr)]
      · intro p hp m' hm'
        have hh := hs.home p hp
        have hget := AMap.get?_of_mem hs.nodup hp
        rw [hmid, hget] at hm'
        rw [hh.1]
        cases hti : t.schemas.get? p.1 with
        | none =>
          rw [if_pos (by intro tsc h; cases h)]
          have := run_schemaDrop hh.2 (C := m') (by rw [hh.1]; exact hm')
          rw [hh.1] at this
          simp only [this, Option.map_none]
        | some tsc =>
          have hh' := ht.home _ (AMap.mem_of_get? hti)
          have := run_schemaUpdate hh.2 hh'.2 (hh.1.trans hh'.1.symm) (C := m')
            (by rw [hh'.1]; exact hm')
          rw [show tsc.name = p.1 from hh'.1] at this
          simp only [this, Option.map_some]
          by_cases hr : ReadyAdded p.2 tsc ∧ ReadyUpdated p.2 tsc
          · rw [if_pos hr, if_pos (by intro x hx; cases hx; exact hr)]
          · rw [if_neg hr, if_neg (fun h => hr (h tsc rfl))]
    · rw [if_neg (mt hR1.1 hr1), if_neg (fun h => hr1 h.new)]
  · intro p hp m' hm'
    have hh := ht.home p hp
    rw [hh.1]
    cases hsj : s.schemas.get? p.1 with
    | some sc =>
      rw [if_pos (show s.hasSchema p.1 = true from AMap.has_of_some hsj),
        if_pos (by intro h; cases h)]
      simp only [runX, dbNew, hsj]
      rw [upd_eq_self]
      rw [hm']; simp [Database.content, hsj]
    | none =>
      have hf : ¬ s.hasSchema p.1 = true := by
        rw [show s.hasSchema p.1 = false from AMap.has_of_none hsj]; simp
      rw [if_neg hf]
      have := run_schemaCreate hh.2 (C := m') (by rw [hh.1, hm']; simp [Database.content, hsj])
      rw [hh.1] at this
      rw [this]
      simp only [dbNew, hsj]
      by_cases hr : ReadyNew p.2.relations
      · rw [if_pos hr, if_pos (fun _ => hr)]
      · rw [if_neg hr, if_neg (fun h => hr (h trivial))]

end Podo
