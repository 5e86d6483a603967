import Verif.Proofs.DiffLoss
import Verif.Spec.Undone
/-
Which computed diffs are undone by their recorded reverts, in terms of the two snapshots.
-/
set_option linter.unusedSimpArgs false
namespace Podo
open Spec Diff Change

/-- The changes for one relation of the source. -/
def relGroup (t : Database) (n : String) (rel : Relation) : List Change :=
  match t.schemas.get? n with
  | none => relationDrop rel
  | some ti =>
    match ti.relations.get? rel.name with
    | some tr => relationUpdate rel tr
    | none => relationDrop rel

/-- The diff, split at the changes for one relation of the source. -/
theorem rel_split {s t : Database} (hs : s.WF) (ht : t.WF) {n : String} {ssc : Schema}
    (hn : s.schemas.get? n = some ssc) {preR postR : AMap Relation} {r : String} {rel : Relation}
    (hr : ssc.relations = preR ++ (r, rel) :: postR) :
    ∃ P Q, compareDiff s t = P ++ relGroup t n rel ++ Q ∧
      (∀ c ∈ P, ∀ x, (x = r ∨ x ∈ AMap.keys postR) → Away n x c) ∧
      ((∀ c ∈ Q, ∀ x, (x = r ∨ x ∈ AMap.keys preR ∨ ssc.relations.get? x = none) → Away n x c) ∨
        (t.schemas.get? n = none ∧ ∃ Q₁ Q₂, Q = Q₁ ++ .dropSchema n :: Q₂ ∧
          (∀ c ∈ Q₁, ∀ x, (x = r ∨ x ∈ AMap.keys preR ∨ ssc.relations.get? x = none) → Away n x c) ∧
          (∀ c ∈ Q₂, dropsRel c ≠ some (n, r)))) := by
  have hp : (n, ssc) ∈ s.schemas := AMap.mem_of_get? hn
  have hh := hs.home _ hp
  simp only at hh
  obtain ⟨l₁, l₂, hl⟩ := List.append_of_mem hp
  have hnd := hs.nodup
  rw [AMap.NodupKeys, AMap.keys, hl, List.map_append, List.map_cons, List.nodup_append] at hnd
  have ho1 : ∀ q ∈ l₁, n ≠ q.1 := by
    rintro q hq rfl
    exact hnd.2.2 _ (List.mem_map_of_mem hq) _ (List.mem_cons_self) rfl
  have ho2 : ∀ q ∈ l₂, n ≠ q.1 := by
    rintro q hq rfl
    exact (List.nodup_cons.1 hnd.2.1).1 (List.mem_map.2 ⟨q, hq, rfl⟩)
  let A := (t.schemas.flatMap fun p => if s.hasSchema p.2.name then [] else schemaCreate p.2)
    ++ l₁.flatMap (schemaPart t)
  have hA : ∀ c ∈ A, ∀ x, Away n x c := by
    intro c hc x
    rcases List.mem_append.1 hc with hc | hc
    · obtain ⟨m, h1, h2, _⟩ := newSchemas_mem ht hc
      refine away_inSch h2 ?_ x
      rintro rfl
      rw [hn] at h1; cases h1
    · obtain ⟨q, hq, hc⟩ := List.mem_flatMap.1 hc
      exact away_inSch (schemaPart_mem hs ht (by rw [hl]; simp [hq]) hc) (ho1 q hq) x
  have hB : ∀ c ∈ l₂.flatMap (schemaPart t), ∀ x, Away n x c := by
    intro c hc x
    obtain ⟨q, hq, hc⟩ := List.mem_flatMap.1 hc
    exact away_inSch (schemaPart_mem hs ht (by rw [hl]; simp [hq]) hc) (ho2 q hq) x
  have hcd : compareDiff s t = A ++ schemaPart t (n, ssc) ++ l₂.flatMap (schemaPart t) := by
    rw [compareDiff_split, hl, List.flatMap_append, List.flatMap_cons]
    simp [A]
  have hrn := hh.2.rels_nodup
  rw [AMap.NodupKeys, AMap.keys, hr, List.map_append, List.map_cons, List.nodup_append] at hrn
  -- the names of the relations visited before, of this one and of those visited after
  have hpre : ∀ p ∈ preR, p ∈ ssc.relations ∧ p.1 ≠ r ∧ p.1 ∉ AMap.keys postR := by
    intro p hp
    refine ⟨by rw [hr]; simp [hp], ?_, ?_⟩
    · exact hrn.2.2 _ (List.mem_map_of_mem hp) _ List.mem_cons_self
    · intro hm
      exact hrn.2.2 _ (List.mem_map_of_mem hp) _ (List.mem_cons_of_mem _ hm) rfl
  have hpost : ∀ p ∈ postR, p ∈ ssc.relations ∧ p.1 ≠ r ∧ p.1 ∉ AMap.keys preR := by
    intro p hp
    refine ⟨by rw [hr]; simp [hp], ?_, ?_⟩
    · rintro rfl
      exact (List.nodup_cons.1 hrn.2.1).1 (List.mem_map.2 ⟨p, hp, rfl⟩)
    · intro hm
      exact hrn.2.2 _ hm _ (List.mem_cons_of_mem _ (List.mem_map_of_mem hp)) rfl
  have hrel := hh.2.rels_home (r, rel) (by rw [hr]; simp)
  simp only at hrel
  have hin : ∀ x, (x = r ∨ x ∈ AMap.keys postR) → ssc.relations.get? x ≠ none := by
    intro x hx e
    rw [AMap.get?_eq_none_iff] at e
    apply e
    rw [hr]
    rcases hx with rfl | hx
    · simp [AMap.keys]
    · simp only [AMap.keys, List.map_append, List.map_cons, List.mem_append, List.mem_cons]
      exact Or.inr (Or.inr hx)
  cases hti : t.schemas.get? n with
  | some ti =>
    have hh' := ht.home _ (AMap.mem_of_get? hti)
    simp only at hh'
    have hst : ssc.name = ti.name := hh.1.trans hh'.1.symm
    have hpart : schemaPart t (n, ssc) = schemaUpdate ssc ti := by
      rw [schemaPart]; simp only [hh.1, hti]
    let g := fun p : String × Relation => match ti.relations.get? p.2.name with
      | some x => relationUpdate p.2 x
      | none => relationDrop p.2
    let F := (ti.functions.values.flatMap fun f =>
        if ssc.hasFunction f.name then [] else functionCreate f) ++
      (ssc.functions.values.flatMap fun si =>
        match ti.functions.get? si.name with
        | some f => functionUpdate si f
        | none => functionDrop si)
    let N := ti.relations.flatMap fun p =>
      if ssc.hasRelation p.2.name then [] else relationCreate p.2
    have hg : relGroup t n rel = g (r, rel) := by
      simp only [relGroup, hti, g]
    have hgm : ∀ p ∈ ssc.relations, ∀ c ∈ g p, InRel n p.1 c := by
      intro p hp c hc
      have := (relsUpdated_mem hh.2 hh'.2 hst hp hc).2.1
      rwa [hh'.1] at this
    refine ⟨A ++ N ++ preR.flatMap g, postR.flatMap g ++ F ++ l₂.flatMap (schemaPart t), ?_, ?_,
      Or.inl ?_⟩
    · have hsu : schemaUpdate ssc ti = N ++ ssc.relations.flatMap g ++ F := schemaUpdate_split ssc ti
      rw [hcd, hpart, hsu, hg, hr, List.flatMap_append, List.flatMap_cons]
      simp only [List.append_assoc]
    · intro c hc x hx
      rcases List.mem_append.1 hc with hc | hc
      · rcases List.mem_append.1 hc with hc | hc
        · exact hA c hc x
        · exact (relsAdded_schema hh'.2 hc).2.2 x (hin x hx) n
      · obtain ⟨p, hp, hc⟩ := List.mem_flatMap.1 hc
        obtain ⟨h1, h2, h3⟩ := hpre p hp
        refine away_inRel (hgm p h1 c hc) ?_
        rcases hx with rfl | hx
        · exact Ne.symm h2
        · rintro rfl; exact h3 hx
    · intro c hc x hx
      rcases List.mem_append.1 hc with hc | hc
      · rcases List.mem_append.1 hc with hc | hc
        · obtain ⟨p, hp, hc⟩ := List.mem_flatMap.1 hc
          obtain ⟨h1, h2, h3⟩ := hpost p hp
          refine away_inRel (hgm p h1 c hc) ?_
          rcases hx with rfl | hx | hx
          · exact Ne.symm h2
          · rintro rfl; exact h3 hx
          · rintro rfl
            rw [AMap.get?_of_mem hh.2.rels_nodup h1] at hx; cases hx
        · exact away_funSchema (funPart_schema hh.2 hh'.2 hst hc) n x
      · exact hB c hc x
  | none =>
    have hpart : schemaPart t (n, ssc) = schemaDrop ssc := by
      rw [schemaPart]; simp only [hh.1, hti]
    have hgm : ∀ p ∈ ssc.relations, ∀ c ∈ relationDrop p.2, InRel n p.1 c := by
      intro p hp c hc
      have := (relationDrop_inRel hc).1
      have h2 := hh.2.rels_home p hp
      rwa [h2.1, h2.2.1, hh.1] at this
    refine ⟨A ++ preR.flatMap fun p => relationDrop p.2,
      ((postR.flatMap fun p => relationDrop p.2) ++ (ssc.functions.flatMap fun p => functionDrop p.2))
        ++ .dropSchema n :: l₂.flatMap (schemaPart t), ?_, ?_, Or.inr ⟨rfl, _, _, rfl, ?_, ?_⟩⟩
    · rw [hcd, hpart, schemaDrop_eq, contentsDrop, hh.1]
      have : (ssc.relations.flatMap fun p => relationDrop p.2) =
          (preR.flatMap fun p => relationDrop p.2) ++ relGroup t n rel ++
            postR.flatMap fun p => relationDrop p.2 := by
        rw [hr, List.flatMap_append, List.flatMap_cons]
        simp only [relGroup, hti, List.append_assoc]
      rw [this]
      simp only [List.append_assoc, List.cons_append, List.nil_append]
    · intro c hc x hx
      rcases List.mem_append.1 hc with hc | hc
      · exact hA c hc x
      · obtain ⟨p, hp, hc⟩ := List.mem_flatMap.1 hc
        obtain ⟨h1, h2, h3⟩ := hpre p hp
        refine away_inRel (hgm p h1 c hc) ?_
        rcases hx with rfl | hx
        · exact Ne.symm h2
        · rintro rfl; exact h3 hx
    · intro c hc x hx
      rcases List.mem_append.1 hc with hc | hc
      · obtain ⟨p, hp, hc⟩ := List.mem_flatMap.1 hc
        obtain ⟨h1, h2, h3⟩ := hpost p hp
        refine away_inRel (hgm p h1 c hc) ?_
        rcases hx with rfl | hx | hx
        · exact Ne.symm h2
        · rintro rfl; exact h3 hx
        · rintro rfl
          rw [AMap.get?_of_mem hh.2.rels_nodup h1] at hx; cases hx
      · obtain ⟨p, hp, hc⟩ := List.mem_flatMap.1 hc
        simp only [functionDrop, List.mem_singleton] at hc
        subst hc
        exact away_funSchema (s := p.2.schemaName) rfl n x
    · intro c hc hd
      have h1 := hB c hc r
      have h2 := inSch_relSchema (dropsRel_schema hd)
      cases c <;> simp [dropsRel] at hd <;> obtain ⟨rfl, rfl⟩ := hd <;>
        exact (h1 _ (List.mem_singleton.2 rfl)).1 ⟨rfl, rfl⟩


/-! ### The drop of a relation -/

/-- The relation `rel` of schema `n` is dropped by the diff to `T`. -/
def Gone (T : Content) (n : String) : Relation → Prop
  | .table x => T.tableAt n x.name = none
  | .sequence q => T.objAt (.relation n q.name) ≠ some (.sequence q)
  | .index i => ∀ j, T.objAt (.relation n i.name) = some (.index j) →
      j.keyExpressions ≠ i.keyExpressions
  | .view _ => False

theorem relGroup_gone {t : Database} (ht : t.WF) {n : String} {rel : Relation}
    (hn : rel.schemaName = n) (hg : Gone t.content n rel) :
    ∃ c rest, relGroup t n rel = c :: rest ∧ relationDrop rel = [c] ∧
      ∀ x ∈ rest, InRel n rel.name x ∧ dropsRel x = none := by
  obtain ⟨c, hc, _⟩ := relationDrop_single rel
  have hdrop : relGroup t n rel = relationDrop rel → ∃ c rest, relGroup t n rel = c :: rest ∧
      relationDrop rel = [c] ∧ ∀ x ∈ rest, InRel n rel.name x ∧ dropsRel x = none := by
    intro e
    exact ⟨c, [], by rw [e, hc], hc, by intro x hx; cases hx⟩
  rw [relGroup] at hdrop ⊢
  cases hti : t.schemas.get? n with
  | none => rw [hti] at hdrop; exact hdrop rfl
  | some ti =>
    rw [hti] at hdrop
    simp only at hdrop ⊢
    cases htr : ti.relations.get? rel.name with
    | none => rw [htr] at hdrop; exact hdrop rfl
    | some tr =>
      simp only
      have hh := ht.home _ (AMap.mem_of_get? hti)
      have hr := hh.2.rels_home _ (AMap.mem_of_get? htr)
      simp only at hh hr
      have hT : t.content.objAt (.relation n rel.name) = some tr.content.obj := by
        simp [Content.objAt, Database.content, hti, Schema.content, htr]
      have hTt : ∀ x, tr = .table x → t.content.tableAt n rel.name = some x.content := by
        rintro x rfl
        simp [Content.tableAt, Database.content, hti, Schema.content, htr, Relation.content,
          RelContent.table?]
      have hdc : relationUpdate rel tr = relationDrop rel ++ relationCreate tr := by
        cases rel with
        | table x =>
          cases tr with
          | table y =>
            have := hTt y rfl
            simp only [Gone, Relation.name] at hg this
            rw [hg] at this; cases this
          | view | sequence | index => rfl
        | view x => exact hg.elim
        | sequence x =>
          cases tr with
          | sequence y =>
            simp only [Relation.content, RelContent.obj, Relation.name] at hT
            simp only [Gone, hT, ne_eq, Option.some.injEq, Obj.sequence.injEq] at hg
            simp only [relationUpdate, sequenceUpdate]
            split
            · rfl
            · next hk =>
              exfalso
              apply hg
              simp only [Relation.name, Relation.schemaName] at hr hn
              simp only [not_or, ne_eq, Classical.not_not] at hk
              have e1 : y.name = x.name := hr.1
              have e2 : y.schemaName = x.schemaName := by rw [hr.2.1, hh.1, hn]
              cases x; cases y
              simp_all
          | view | table | index => rfl
        | index x =>
          cases tr with
          | index y =>
            simp only [Relation.content, RelContent.obj, Relation.name] at hT
            have := hg y hT
            simp only [relationUpdate, indexUpdate, if_pos (Ne.symm this)]
            rfl
          | view | table | sequence => rfl
      refine ⟨c, relationCreate tr, by rw [hdc, hc]; rfl, hc, fun x hx => ?_⟩
      have := relationCreate_inRel hr.2.2 hx
      rw [hr.1, hr.2.1, hh.1] at this
      exact this

/-- Where the drop of a relation stands in the diff. -/
theorem drop_split {s t : Database} (hs : s.WF) (ht : t.WF) {n : String} {ssc : Schema}
    (hn : s.schemas.get? n = some ssc) {preR postR : AMap Relation} {r : String} {rel : Relation}
    (hr : ssc.relations = preR ++ (r, rel) :: postR) (hg : Gone t.content n rel) :
    ∃ P c Q, compareDiff s t = P ++ c :: Q ∧ relationDrop rel = [c] ∧
      (∀ pre post, compareDiff s t = pre ++ c :: post → pre = P) ∧
      (∀ x ∈ P, ∀ y, (y = r ∨ y ∈ AMap.keys postR) → Away n y x) ∧
      ((∀ x ∈ c :: Q, ∀ y, y ≠ r → (y ∈ AMap.keys preR ∨ ssc.relations.get? y = none) → Away n y x) ∨
        (t.schemas.get? n = none ∧ ∃ Q₁ Q₂, c :: Q = Q₁ ++ .dropSchema n :: Q₂ ∧
          (∀ x ∈ Q₁, ∀ y, y ≠ r → (y ∈ AMap.keys preR ∨ ssc.relations.get? y = none) →
            Away n y x))) := by
  have hh := hs.home _ (AMap.mem_of_get? hn)
  simp only at hh
  have hrel := hh.2.rels_home (r, rel) (by rw [hr]; simp)
  simp only at hrel
  obtain ⟨P, Q, e, hP, hQ⟩ := rel_split hs ht hn hr
  obtain ⟨c, rest, h1, h2, h3⟩ := relGroup_gone ht (hrel.2.1.trans hh.1) hg
  obtain ⟨c', hc', hin, hd, _⟩ := relationDrop_single rel
  rw [h2] at hc'
  simp only [List.cons.injEq, and_true] at hc'
  subst hc'
  rw [hrel.2.1, hrel.1, hh.1] at hin
  rw [hrel.1] at h3
  have hdr : dropsRel c = some (n, r) := by
    cases rel with
    | view x => exact hg.elim
    | table x =>
      simp only [relationDrop, tableDrop, List.cons.injEq, and_true] at h2
      simp only [Relation.name, Relation.schemaName] at hrel
      rw [← h2]; simp [newDropTable, dropsRel, hrel.1, hrel.2.1, hh.1]
    | sequence x =>
      simp only [relationDrop, sequenceDrop, List.cons.injEq, and_true] at h2
      simp only [Relation.name, Relation.schemaName] at hrel
      rw [← h2]; simp [newDropSequence, dropsRel, hrel.1, hrel.2.1, hh.1]
    | index x =>
      simp only [relationDrop, indexDrop, List.cons.injEq, and_true] at h2
      simp only [Relation.name, Relation.schemaName] at hrel
      rw [← h2]; simp [newDropIndex, dropsRel, hrel.1, hrel.2.1, hh.1]
  have hself : ¬ Away n r c := by
    intro ha
    cases c <;> simp [dropsRel] at hdr <;> obtain ⟨rfl, rfl⟩ := hdr <;>
      exact (ha _ (List.mem_singleton.2 rfl)).1 ⟨rfl, rfl⟩
  rw [h1] at e
  have hsplit : compareDiff s t = P ++ c :: (rest ++ Q) := by rw [e]; simp
  have hgrp : ∀ x ∈ c :: rest, ∀ y, y ≠ r → Away n y x := by
    intro x hx y hy
    rcases List.mem_cons.1 hx with rfl | hx
    · exact away_inRel hin hy
    · exact away_inRel (h3 x hx).1 hy
  refine ⟨P, c, rest ++ Q, hsplit, h2, ?_, hP, ?_⟩
  · intro pre post e'
    refine split_unique (e'.symm.trans hsplit) ?_ ?_
    · intro hm; exact hself (hP c hm r (Or.inl rfl))
    · intro hm
      rcases List.mem_append.1 hm with hm | hm
      · rw [(h3 c hm).2] at hdr; cases hdr
      · rcases hQ with hQ | ⟨_, Q₁, Q₂, rfl, hQ1, hQ2⟩
        · exact hself (hQ c hm r (Or.inl rfl))
        · rcases List.mem_append.1 hm with hm | hm
          · exact hself (hQ1 c hm r (Or.inl rfl))
          · rcases List.mem_cons.1 hm with rfl | hm
            · cases hdr
            · exact hQ2 c hm hdr
  · rcases hQ with hQ | ⟨h0, Q₁, Q₂, rfl, hQ1, hQ2⟩
    · left
      intro x hx y hy hyr
      rw [← List.cons_append] at hx
      rcases List.mem_append.1 hx with hx | hx
      · exact hgrp x hx y hy
      · exact hQ x hx y (Or.inr hyr)
    · right
      refine ⟨h0, (c :: rest) ++ Q₁, Q₂, by simp, ?_⟩
      intro x hx y hy hyr
      rcases List.mem_append.1 hx with hx | hx
      · exact hgrp x hx y hy
      · exact hQ1 x hx y (Or.inr hyr)


/-! ### The snapshot at the moment of the drop -/

theorem isTable_obj {C : Content} {n r : String} :
    (∃ tb, C.tableAt n r = some tb) ↔ ∃ a b, C.objAt (.relation n r) = some (.table a b) := by
  simp only [Content.tableAt, Content.objAt]
  cases C n with
  | none => simp
  | some sc =>
    simp only [Option.bind_some]
    cases sc.relations r with
    | none => simp
    | some x => cases x <;> simp [RelContent.table?, RelContent.obj]

theorem isTable_reached {S T : Content} {n r : String} :
    (∃ tb, (reached S T).tableAt n r = some tb) ↔ ∃ tb, T.tableAt n r = some tb := by
  simp only [Content.tableAt, reached]
  cases T n with
  | none => simp
  | some sc =>
    simp only [Option.map_some, Option.bind_some, reachedSchema]
    cases sc.relations r with
    | none => simp
    | some x =>
      simp only [Option.map_some, Option.bind_some]
      cases x with
      | table x =>
        cases h : (S n).bind fun sc => sc.relations r with
        | none => simp [reachedRel, RelContent.table?]
        | some y => cases y <;> simp [reachedRel, RelContent.table?]
      | view x =>
        cases h : (S n).bind fun sc => sc.relations r with
        | none => simp [reachedRel, RelContent.table?]
        | some y => cases y <;> simp [reachedRel, RelContent.table?]
      | index x =>
        cases h : (S n).bind fun sc => sc.relations r with
        | none => simp [reachedRel, RelContent.table?]
        | some y =>
          cases y <;> simp only [reachedRel] <;> (try split) <;> simp [RelContent.table?]
      | sequence x =>
        cases h : (S n).bind fun sc => sc.relations r with
        | none => simp [reachedRel, RelContent.table?]
        | some y =>
          cases y <;> simp only [reachedRel] <;> (try split) <;> simp [RelContent.table?]

theorem isTable_away {cs : List Change} {n r : String} {d d' : Database} (hd : d.WF)
    (hc : ∀ c ∈ cs, Away n r c) (h : applyAll cs d = .ok d') :
    (∃ tb, d'.content.tableAt n r = some tb) ↔ ∃ tb, d.content.tableAt n r = some tb := by
  rw [isTable_obj, isTable_obj, applyAll_away hd hc h (p := .relation n r) ⟨rfl, rfl⟩]

/-- Whether a relation visited before, or new in the target, is a table when `rel` is dropped. -/
theorem table_at_drop {s t d₀ f : Database} (hs : s.WF) (ht : t.WF) {n y : String}
    {P Q : List Change} {c : Change} (e : compareDiff s t = P ++ c :: Q)
    (ha : applyAll P s = .ok d₀) (hf : applyAll (compareDiff s t) s = .ok f)
    (hQ : (∀ x ∈ c :: Q, Away n y x) ∨ (t.schemas.get? n = none ∧ ∃ Q₁ Q₂,
      c :: Q = Q₁ ++ .dropSchema n :: Q₂ ∧ ∀ x ∈ Q₁, Away n y x)) :
    (∃ tb, d₀.content.tableAt n y = some tb) ↔ ∃ tb, t.content.tableAt n y = some tb := by
  have hd₀ := applyAll_wf hs ha
  rcases hQ with hQ | ⟨h0, Q₁, Q₂, e', hQ⟩
  · have hf' := hf
    rw [e, applyAll_append, ha] at hf'
    rw [← isTable_away hd₀ hQ hf']
    obtain ⟨d, h1, h2⟩ := diff_apply hs ht ((diff_apply_iff hs ht).1 ⟨f, hf⟩)
    rw [hf] at h1
    cases h1
    rw [h2]
    exact isTable_reached
  · have hT : ¬ ∃ tb, t.content.tableAt n y = some tb := by
      simp [Content.tableAt, Database.content, h0]
    refine ⟨fun h => ?_, fun h => (hT h).elim⟩
    have hf' := hf
    rw [e, e', applyAll_append, ha] at hf'
    simp only [applyAll_append] at hf'
    cases h1 : applyAll Q₁ d₀ with
    | error err => rw [h1] at hf'; cases hf'
    | ok d₁ =>
      rw [← isTable_away hd₀ hQ h1] at h
      obtain ⟨tb, h⟩ := h
      have : Lossy d₁.content (.dropSchema n) := by
        simp only [Content.tableAt] at h
        cases hc : d₁.content n with
        | none => simp [hc] at h
        | some sc =>
          refine ⟨sc, hc, Or.inl ⟨y, fun hz => ?_⟩⟩
          simp [hc, hz] at h
      refine absurd this (dropSchema_empty hs ht (pre := P ++ Q₁) (post := Q₂) ?_ ?_)
      · rw [e, e']; simp
      · rw [applyAll_append, ha]; exact h1

theorem relation_of_obj {d : Database} {n r : String} {o : Obj}
    (h : d.content.objAt (.relation n r) = some o) :
    ∃ sc rel, d.schemas.get? n = some sc ∧ sc.relations.get? r = some rel ∧
      rel.content.obj = o := by
  simp only [Content.objAt, Database.content] at h
  cases hs : d.schemas.get? n with
  | none => simp [hs] at h
  | some sc =>
    simp only [hs, Option.map_some, Option.bind_some, Schema.content] at h
    cases hr : sc.relations.get? r with
    | none => simp [hr] at h
    | some rel =>
      simp only [hr, Option.map_some, Option.some.injEq] at h
      exact ⟨sc, rel, rfl, hr, h⟩

theorem noLoss_iff_undoable {s t f : Database} (hs : s.WF) (ht : t.WF)
    (hf : applyAll (compareDiff s t) s = .ok f) :
    (∀ pre c post d₀, compareDiff s t = pre ++ c :: post → applyAll pre s = .ok d₀ →
      ¬ Lossy d₀.content c) ↔ Undoable s t := by
  have hok : ∀ {P Q}, compareDiff s t = P ++ Q → ∃ d₀, applyAll P s = .ok d₀ := by
    intro P Q e
    rw [e, applyAll_append] at hf
    cases h : applyAll P s with
    | error err => rw [h] at hf; cases hf
    | ok d₀ => exact ⟨d₀, rfl⟩
  constructor
  · intro hl
    refine ⟨?_, ?_, ?_⟩
    · intro n r tb k htb hk
      apply Classical.byContradiction
      intro hT
      obtain ⟨a, b, ho⟩ := isTable_obj.1 ⟨tb, htb⟩
      obtain ⟨sc, rel, h1, h2, h3⟩ := relation_of_obj ho
      cases rel with
      | table x =>
        obtain ⟨preR, postR, hr⟩ := List.append_of_mem (AMap.mem_of_get? h2)
        have hh := (hs.schema h1).2.relation h2
        have hx : x.name = r := hh.1
        have hxs : x.schemaName = n := hh.2.1.trans (hs.schema h1).1
        have hg : Gone t.content n (.table x) := by
          simp only [Gone, hx]
          cases e : t.content.tableAt n r with
          | none => rfl
          | some y => exact absurd ⟨y, e⟩ hT
        obtain ⟨P, c, Q, e, hc, _, hP, _⟩ := drop_split hs ht h1 hr hg
        simp only [relationDrop, tableDrop, List.cons.injEq, and_true] at hc
        obtain ⟨d₀, ha⟩ := hok e
        refine hl P c Q d₀ e ha ?_
        rw [← hc, newDropTable, hx, hxs]
        have haw : ∀ c ∈ P, Away n r c := fun c hc => hP c hc r (Or.inl rfl)
        have e1 := applyAll_away hs haw ha (p := .constraint n r k) ⟨rfl, rfl⟩
        have e2 : s.content.objAt (.constraint n r k) ≠ none := by
          rw [objAt_constraint, htb]
          simpa using hk
        rw [← e1, objAt_constraint] at e2
        simp only [Content.tableAt] at e2
        cases hs0 : d₀.content n with
        | none => simp [hs0] at e2
        | some sc0 =>
          cases hr0 : sc0.relations r with
          | none => simp [hs0, hr0] at e2
          | some r0 =>
            refine ⟨sc0, r0, hs0, hr0, ?_⟩
            rintro tb0 rfl
            refine ⟨k, fun hz => e2 ?_⟩
            simp [hs0, hr0, RelContent.table?, hz]
      | view x => simp [Relation.content, RelContent.obj] at h3
      | sequence x => simp [Relation.content, RelContent.obj] at h3
      | index x => simp [Relation.content, RelContent.obj] at h3
    · intro n r q ho hown
      apply Classical.byContradiction
      intro hT
      obtain ⟨sc, rel, h1, h2, h3⟩ := relation_of_obj ho
      cases rel with
      | sequence x =>
        simp only [Relation.content, RelContent.obj, Obj.sequence.injEq] at h3
        subst h3
        obtain ⟨preR, postR, hr⟩ := List.append_of_mem (AMap.mem_of_get? h2)
        have hh := (hs.schema h1).2.relation h2
        have hx : x.name = r := hh.1
        have hxs : x.schemaName = n := hh.2.1.trans (hs.schema h1).1
        have hg : Gone t.content n (.sequence x) := by
          simp only [Gone, hx]; exact hT
        obtain ⟨P, c, Q, e, hc, _, hP, _⟩ := drop_split hs ht h1 hr hg
        simp only [relationDrop, sequenceDrop, List.cons.injEq, and_true] at hc
        obtain ⟨d₀, ha⟩ := hok e
        refine hl P c Q d₀ e ha ?_
        rw [← hc, newDropSequence, hx, hxs]
        have haw : ∀ c ∈ P, Away n r c := fun c hc => hP c hc r (Or.inl rfl)
        have e1 := applyAll_away hs haw ha (p := .relation n r) ⟨rfl, rfl⟩
        rw [ho] at e1
        obtain ⟨sc0, hs0, hr0⟩ := objAt_sequence.1 e1
        exact ⟨sc0, x, hs0, hr0, hown⟩
      | view x => simp [Relation.content, RelContent.obj] at h3
      | table x => simp [Relation.content, RelContent.obj] at h3
      | index x => simp [Relation.content, RelContent.obj] at h3
    · intro n sc preR i ix postR h1 hr hkeys
      have h2 : sc.relations.get? i = some (.index ix) :=
        AMap.get?_of_mem (hs.schema h1).2.rels_nodup (by rw [hr]; simp)
      have hh := (hs.schema h1).2.relation h2
      have hx : ix.name = i := hh.1
      have hxs : ix.schemaName = n := hh.2.1.trans (hs.schema h1).1
      have hg : Gone t.content n (.index ix) := by
        simp only [Gone, hx]; exact hkeys
      obtain ⟨P, c, Q, e, hc, _, hP, hQ⟩ := drop_split hs ht h1 hr hg
      simp only [relationDrop, indexDrop, List.cons.injEq, and_true] at hc
      obtain ⟨d₀, ha⟩ := hok e
      have hnl := hl P c Q d₀ e ha
      have haw : ∀ c ∈ P, Away n i c := fun c hc => hP c hc i (Or.inl rfl)
      have e1 := applyAll_away hs haw ha (p := .relation n i) ⟨rfl, rfl⟩
      have e2 : s.content.objAt (.relation n i) = some (.index ix) := by
        simp [Content.objAt, Database.content, h1, Schema.content, h2, Relation.content,
          RelContent.obj]
      rw [e2] at e1
      obtain ⟨sc0, hs0, hr0⟩ := objAt_index.1 e1
      have htab : ∃ tb, d₀.content.tableAt n ix.tableName = some tb := by
        apply Classical.byContradiction
        intro hno
        apply hnl
        rw [← hc, newDropIndex, hx, hxs]
        refine ⟨sc0, ix, hs0, hr0, fun tb htb => hno ⟨tb, ?_⟩⟩
        simp [Content.tableAt, hs0, htb, RelContent.table?]
      have hne : ix.tableName ≠ i := by
        intro he
        obtain ⟨tb, htb⟩ := htab
        rw [he] at htb
        simp [Content.tableAt, hs0, hr0, RelContent.table?] at htb
      refine ⟨fun hv => ?_, fun hv => ?_⟩
      · refine (table_at_drop hs ht e ha hf ?_).1 htab
        rcases hQ with hQ | ⟨h0, Q₁, Q₂, e', hQ⟩
        · exact Or.inl fun x hx => hQ x hx _ hne hv
        · exact Or.inr ⟨h0, Q₁, Q₂, e', fun x hx => hQ x hx _ hne hv⟩
      · have hpost : ix.tableName ∈ AMap.keys postR := by
          have := hv.2
          rw [ne_eq, AMap.get?_eq_none_iff, Classical.not_not, hr] at this
          simp only [AMap.keys, List.map_append, List.map_cons, List.mem_append,
            List.mem_cons] at this
          rcases this with h | h | h
          · exact absurd h hv.1
          · exact absurd h hne
          · exact h
        exact (isTable_away hs (fun x hx => hP x hx _ (Or.inr hpost)) ha).1 htab
  · intro hu pre c post d₀ e ha hl
    have hd₀ := applyAll_wf hs ha
    rcases lossy_cases hl with ⟨a, b, x, y, rfl⟩ | ⟨m, rfl⟩ | ⟨n, r, hdr, htg⟩
    · exact diff_no_rename hs ht _ (by rw [e]; simp) a b x y rfl
    · exact dropSchema_empty hs ht e ha hl
    · have haway := clean_diff hs ht pre c post n r e hdr
      have hrelobj := applyAll_away hs haway ha (p := .relation n r) ⟨rfl, rfl⟩
      have hneed := diff_needed hs ht (c := c) (by rw [e]; simp)
      cases c <;> simp [dropsRel] at hdr <;> obtain ⟨rfl, rfl⟩ := hdr
      · -- a table
        rename_i n r
        obtain ⟨sc0, r0, hs0, hr0, hcon⟩ := hl
        obtain ⟨hS, hT⟩ := hneed
        cases hS' : s.content.tableAt n r with
        | none => exact hS hS'
        | some tb =>
          obtain ⟨a, b, ho⟩ := isTable_obj.1 ⟨tb, hS'⟩
          rw [ho] at hrelobj
          obtain ⟨tb0, htb0⟩ := isTable_obj.2 ⟨a, b, hrelobj⟩
          have : r0 = .table tb0 := by
            simp only [Content.tableAt, hs0, Option.bind_some, hr0] at htb0
            cases r0 <;> simp [RelContent.table?] at htb0
            rw [htb0]
          obtain ⟨k, hk⟩ := hcon tb0 this
          have e1 := applyAll_away hs haway ha (p := .constraint n r k) ⟨rfl, rfl⟩
          rw [objAt_constraint, objAt_constraint, htb0, hS'] at e1
          simp only [Option.bind_some] at e1
          obtain ⟨tb', h'⟩ := hu.tables n r tb k hS' (by
            intro hz; rw [hz] at e1
            cases hy : tb0.constraints k with
            | none => exact hk hy
            | some v => simp [hy] at e1)
          rw [hT] at h'; cases h'
      · -- an index
        rename_i n r
        obtain ⟨sc0, ix, hs0, hr0, hno⟩ := hl
        have e1 : d₀.content.objAt (.relation n r) = some (.index ix) :=
          objAt_index.2 ⟨sc0, hs0, hr0⟩
        rw [e1] at hrelobj
        obtain ⟨sc, rel, h1, h2, h3⟩ := relation_of_obj hrelobj.symm
        cases rel with
        | index x =>
          simp only [Relation.content, RelContent.obj, Obj.index.injEq] at h3
          subst h3
          obtain ⟨preR, postR, hr⟩ := List.append_of_mem (AMap.mem_of_get? h2)
          have hh := (hs.schema h1).2.relation h2
          have hx : x.name = r := hh.1
          have hxs : x.schemaName = n := hh.2.1.trans (hs.schema h1).1
          have hkeys : ∀ jx, t.content.objAt (.relation n r) = some (.index jx) →
              jx.keyExpressions ≠ x.keyExpressions := by
            intro jx hj hk
            obtain ⟨ti, trel, g1, g2, g3⟩ := relation_of_obj hj
            cases trel with
            | index j =>
              simp only [Relation.content, RelContent.obj, Obj.index.injEq] at g3
              subst g3
              obtain ⟨P, Q, e', hP, hQ⟩ := rel_split hs ht h1 hr
              have hg : relGroup t n (.index x) = [] := by
                simp only [relGroup, g1, Relation.name, hx, g2, relationUpdate, indexUpdate, hk,
                  ne_eq, not_true_eq_false, if_false]
              have hm : Change.dropIndex n r ∈ compareDiff s t := by rw [e]; simp
              rw [e', hg] at hm
              have hself : ¬ Away n r (.dropIndex n r) := fun h =>
                (h (.relation n r) (by simp [targets])).1 ⟨rfl, rfl⟩
              rcases List.mem_append.1 hm with hm | hm
              · rw [List.append_nil] at hm
                exact hself (hP _ hm r (Or.inl rfl))
              · rcases hQ with hQ | ⟨h0, _⟩
                · exact hself (hQ _ hm r (Or.inl rfl))
                · rw [g1] at h0; cases h0
            | view j => simp [Relation.content, RelContent.obj] at g3
            | sequence j => simp [Relation.content, RelContent.obj] at g3
            | table j => simp [Relation.content, RelContent.obj] at g3
          have hg : Gone t.content n (.index x) := by
            simp only [Gone, hx]; exact hkeys
          obtain ⟨P, c, Q, e', hc, huniq, hP, hQ⟩ := drop_split hs ht h1 hr hg
          simp only [relationDrop, indexDrop, List.cons.injEq, and_true, newDropIndex, hx,
            hxs] at hc
          subst hc
          have : pre = P := huniq pre post e
          subst this
          obtain ⟨k1, k2⟩ := hu.indexes n sc preR r x postR h1 hr hkeys
          have hnot : ¬ ∃ tb, d₀.content.tableAt n x.tableName = some tb := by
            rintro ⟨tb, h⟩
            simp only [Content.tableAt, hs0, Option.bind_some] at h
            cases hy : sc0.relations x.tableName with
            | none => simp [hy] at h
            | some v =>
              cases v with
              | table v => exact hno v hy
              | _ => simp [hy, RelContent.table?] at h
          by_cases hv : x.tableName ∈ AMap.keys preR ∨ sc.relations.get? x.tableName = none
          · have hne : x.tableName ≠ r := by
              intro he
              rcases hv with hv | hv
              · have hnd := (hs.schema h1).2.rels_nodup
                rw [AMap.NodupKeys, AMap.keys, hr, List.map_append, List.map_cons,
                  List.nodup_append] at hnd
                rw [he] at hv
                exact hnd.2.2 _ hv _ List.mem_cons_self rfl
              · rw [he, h2] at hv; cases hv
            refine hnot ((table_at_drop hs ht e' ha hf ?_).2 (k1 hv))
            rcases hQ with hQ | ⟨h0, Q₁, Q₂, e', hQ⟩
            · exact Or.inl fun x hx => hQ x hx _ hne hv
            · exact Or.inr ⟨h0, Q₁, Q₂, e', fun x hx => hQ x hx _ hne hv⟩
          · simp only [not_or] at hv
            have hS := k2 hv
            have hin := hv.2
            rw [AMap.get?_eq_none_iff, Classical.not_not, hr] at hin
            simp only [AMap.keys, List.map_append, List.map_cons, List.mem_append,
              List.mem_cons] at hin
            rcases hin with h | h | h
            · exact hv.1 h
            · obtain ⟨tb, hS⟩ := hS
              rw [h] at hS
              simp [Content.tableAt, Database.content, h1, Schema.content, h2, Relation.content,
                RelContent.table?] at hS
            · exact hnot ((isTable_away hs (fun x hx => hP x hx _ (Or.inr h)) ha).2 hS)
        | view x => simp [Relation.content, RelContent.obj] at h3
        | sequence x => simp [Relation.content, RelContent.obj] at h3
        | table x => simp [Relation.content, RelContent.obj] at h3
      · -- a sequence
        rename_i n r
        obtain ⟨sc0, q, hs0, hr0, hown⟩ := hl
        have e1 : d₀.content.objAt (.relation n r) = some (.sequence q) :=
          objAt_sequence.2 ⟨sc0, hs0, hr0⟩
        rw [e1] at hrelobj
        have := hu.sequences n r q hrelobj.symm hown
        exact hneed.2 (hrelobj.symm.trans this.symm)

end Podo
