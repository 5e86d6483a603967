import Verif.Proofs.Keep
import Verif.Proofs.Data
import Verif.Proofs.DiffLoss
import Verif.Props.Follow
/-
The values in columns, along scripts and their reverts.
-/
namespace Podo
open Pg Change Spec
variable {σ α : Type} {B : Behaviour σ} {vals : σ → String → String → String → α} {clean : String → Prop}

theorem script_keeps (hk : Careful B vals clean) {s t n : String} {cs : List Change}
    (hc : ∀ c ∈ cs, clean c.renderSql ∧ (∀ m ∈ c.place, plain m) ∧ ¬ c.Touches s t n) {x x' : σ}
    (h : Script B x (cs.map Change.renderSql) x') : vals x' s t n = vals x s t n := by
  induction cs generalizing x with
  | nil => cases h; rfl
  | cons c cs ih =>
    cases h with
    | @cons _ _ y _ _ he hs =>
      rw [ih (fun c hm => hc c (List.mem_cons_of_mem _ hm)) hs]
      obtain ⟨h1, h2, h3⟩ := hc c List.mem_cons_self
      apply Classical.byContradiction
      intro hne
      obtain ⟨k, hs, ht⟩ := hk _ _ _ _ _ _ h1 he hne
      exact h3 (reads_touches h2 hs ht)

/-- The revert of a change is about the same table and columns. -/
theorem revert_place {c r : Change} {d : Database} (hd : d.WF) (h : c.revert d = .ok r) :
    (∀ m ∈ r.place, m ∈ c.place) ∧ ∀ s t n, r.Touches s t n → c.Touches s t n := by
  cases c with
  | createSchema s => cases h; exact ⟨fun _ h => h, fun _ _ _ h => h⟩
  | dropSchema s => cases h; exact ⟨fun _ h => h, fun _ _ _ h => h⟩
  | createTable s t cols =>
    obtain ⟨sc, _, rfl, _, h'⟩ := lookSchema_inv hd h
    cases h'; exact ⟨fun _ h => h, fun _ _ _ h => h⟩
  | dropTable s t =>
    obtain ⟨sc, tb, rfl, rfl, h3, _, h'⟩ := lookTable_inv hd h
    cases h'
    simp only [newCreateTable, place, Touches, h3]
    exact ⟨fun _ h => h, fun _ _ _ h => h⟩
  | addColumn | addPrimaryKey | addUnique | addForeignKey | addCheck =>
    obtain ⟨sc, tb, rfl, rfl, h3, _, h'⟩ := lookTable_inv hd h
    cases h'; exact ⟨fun _ h => h, fun _ _ _ h => h⟩
  | setDataType | setDefault | setNotNull | dropColumn =>
    obtain ⟨sc, tb, col, rfl, rfl, rfl, h'⟩ := lookColumn_inv hd h
    cases h'; exact ⟨fun _ h => h, fun _ _ _ h => h⟩
  | renameColumn s t a b =>
    obtain ⟨sc, tb, col, rfl, rfl, rfl, h'⟩ := lookColumn_inv hd h
    cases h'
    refine ⟨fun m hm => ?_, fun _ _ _ h => ⟨h.1, h.2.1, h.2.2.symm⟩⟩
    simp only [place, List.mem_cons, List.not_mem_nil, or_false] at hm ⊢
    rcases hm with h | h | h | h <;> simp [h]
  | alterPrimaryKey | dropPrimaryKey | alterUnique | dropUnique | alterForeignKey | dropForeignKey | alterCheck
  | dropCheck =>
    obtain ⟨sc, tb, con, x, rfl, rfl, rfl, ha, h'⟩ := lookConstraint_inv hd h
    cases h'; exact ⟨fun _ h => h, fun _ _ _ h => h⟩
  | createFunction | createView | createIndex | createSequence =>
    obtain ⟨sc, _, rfl, _, h'⟩ := lookSchema_inv hd h
    cases h'; exact ⟨fun _ h => h, fun _ _ _ h => h⟩
  | dropFunction s f =>
    obtain ⟨sc, _, rfl, _, h'⟩ := lookSchema_inv hd h
    cases hf : sc.getFunction f with
    | error e => simp [hf] at h'
    | ok fn => simp only [hf] at h'; cases h'; exact ⟨fun _ h => h, fun _ _ _ h => h⟩
  | dropView | dropIndex | dropSequence =>
    obtain ⟨sc, rel, x, _, _, _, _, _, h'⟩ := lookRelation_inv hd h
    cases h'; exact ⟨fun _ h => h, fun _ _ _ h => h⟩

theorem takenFrom_place {cs rs : List Change} {s s' : Database} (h : TakenFrom cs s rs s') (hs : s.WF) :
    ∀ r ∈ rs, ∃ c ∈ cs, (∀ m ∈ r.place, m ∈ c.place) ∧ ∀ a b n, r.Touches a b n → c.Touches a b n := by
  induction h with
  | nil => intro r hr; cases hr
  | @cons c cs s r s₁ rs s' hr ha _ ih =>
    intro r' hm
    rcases List.mem_cons.1 hm with rfl | hm
    · exact ⟨c, .head _, revert_place hs hr⟩
    · obtain ⟨c', h1, h2⟩ := ih (apply_wf hs ha) r' hm
      exact ⟨c', .tail _ h1, h2⟩

/-- The down script of a version in a history. -/
theorem down_keeps (hk : Careful B vals clean) {d : HDir} (hr : Reachable d) {v : Version} {m : String}
    (hv : Stored d m v) {s t n : String}
    (hc : ∀ c ∈ v.changes, (∀ m ∈ c.place, plain m) ∧ ¬ c.Touches s t n) (hq : ∀ q ∈ v.down, clean q) {x x' : σ}
    (h : Script B x v.down x') : vals x' s t n = vals x s t n := by
  obtain ⟨_, s₀, rs, s', hp0, ht, _, hdown, _⟩ := C28_scripts_aligned hr hv
  have hwf : s₀.WF := by
    rcases hp0 with ⟨_, rfl⟩ | ⟨p, _, h0⟩
    · exact Database.new_wf
    · exact h0.wf
  rw [hdown] at h
  refine script_keeps hk (fun r hm => ?_) h
  obtain ⟨c, h1, h2, h3⟩ := takenFrom_place ht hwf r (List.mem_reverse.1 hm)
  obtain ⟨h4, h5⟩ := hc c h1
  exact ⟨hq _ (by rw [hdown]; exact List.mem_map_of_mem hm), fun m hm => h4 m (h2 m hm), fun ht => h5 (h3 _ _ _ ht)⟩

theorem script_chain {f : Version → List String} {s t n : String} {ws : List Version}
    (hw : ∀ w ∈ ws, ∀ x x', Script B x (f w) x' → vals x' s t n = vals x s t n) {x x' : σ}
    (h : Script B x (ws.flatMap f) x') : vals x' s t n = vals x s t n := by
  induction ws generalizing x with
  | nil => cases h; rfl
  | cons w ws ih =>
    rw [List.flatMap_cons] at h
    obtain ⟨y, h1, h2⟩ := script_append.1 h
    rw [ih (fun w hm => hw w (List.mem_cons_of_mem _ hm)) h2]
    exact hw w List.mem_cons_self _ _ h1

/-- The changes from one snapshot to another are about the values of a column of the first only if the other has no
such column, or one of another type. -/
theorem diff_touches {s t : Database} (hs : s.WF) (ht : t.WF) {n r k : String} {a : Column}
    (ha : s.content.objAt (.column n r k) = some (.column a)) {c : Change} (hc : c ∈ Diff.compareDiff s t)
    (hd : c.Touches n r k) :
    ∀ b, t.content.objAt (.column n r k) = some (.column b) → b.dataType ≠ a.dataType := by
  have hn := C06_every_change_needed hs ht hc
  intro b hb
  cases c <;> simp only [Change.Touches] at hd <;> simp only [Needed] at hn
  case createTable m x cols =>
    obtain ⟨rfl, rfl⟩ := hd
    simp [Content.objAt, hn.1] at ha
  case dropTable m x =>
    obtain ⟨rfl, rfl⟩ := hd
    simp [Content.objAt, hn.2] at hb
  case addColumn =>
    obtain ⟨rfl, rfl, rfl⟩ := hd
    rw [hn.1] at ha
    cases ha
  case setDataType =>
    obtain ⟨rfl, rfl, rfl⟩ := hd
    obtain ⟨a', b', h1, h2, h3, _⟩ := hn
    rw [ha] at h1
    rw [hb] at h2
    cases h1
    cases h2
    exact fun h => h3 h.symm
  case dropColumn =>
    obtain ⟨rfl, rfl, rfl⟩ := hd
    rw [hn.2] at hb
    cases hb

theorem diff_touched {s t : Database} (hs : s.WF) (ht : t.WF) {n r k : String} {a : Column}
    (hp : s.content.objAt (.column n r k) = some (.column a))
    (hm : ∀ b, t.content.objAt (.column n r k) = some (.column b) → b.dataType ≠ a.dataType) :
    ∃ c ∈ Diff.compareDiff s t, c.Touches n r k := by
  obtain ⟨sc, tb, x, h1, h2, h3⟩ := Content.Holds.column (C := s.content) (s := n) (t := r) (c := k)
    (show _ ≠ none by rw [hp]; simp)
  obtain ⟨sa, ha, rfl⟩ := Option.map_eq_some_iff.1 h1
  have hma := AMap.mem_of_get? ha
  have hwa := (hs.home _ hma).2
  obtain ⟨rel, hr, he⟩ := Option.map_eq_some_iff.1 h2
  have hmr := AMap.mem_of_get? hr
  have hwr := hwa.rels_home _ hmr
  cases rel with
  | view => cases he
  | index => cases he
  | sequence => cases he
  | table tab =>
    cases he
    have hn : tab.name = r := hwr.1
    have hsn : tab.schemaName = n := hwr.2.1.trans (hs.home _ hma).1
    have hx : x ∈ tab.columns ∧ x.name = k := by
      have : tab.columns.find? (·.name == k) = some x := h3
      exact ⟨List.mem_of_find?_eq_some this, by simpa using List.find?_some this⟩
    have hax : a = x := by
      have h3' : columnNamed tab.columns k = some x := h3
      simp [Content.objAt, Content.tableAt, Database.content, Schema.content, ha, hr, Relation.content,
        RelContent.table?, Table.content, h3'] at hp
      exact hp.symm
    subst hax
    cases hb : t.schemas.get? n with
    | none =>
      refine ⟨.dropTable n r, mem_diff_schema hs ha ?_, rfl, rfl⟩
      rw [hb]
      simp only [Diff.schemaDrop, flatMap_values, List.mem_append, List.mem_flatMap]
      exact .inl (.inl ⟨_, hmr, by simp [Diff.relationDrop, Diff.tableDrop, newDropTable, hn, hsn]⟩)
    | some b =>
      cases hy : b.relations.get? r with
      | none =>
        refine ⟨.dropTable n r, mem_diff_schema hs ha ?_, rfl, rfl⟩
        rw [hb]
        refine mem_schemaUpdate hwa hr ?_
        rw [hy]
        simp [Diff.relationDrop, Diff.tableDrop, newDropTable, hn, hsn]
      | some y =>
        have hother : (∀ tab', y ≠ .table tab') →
            ∃ c ∈ Diff.compareDiff s t, c.Touches n r k := fun hno => by
          refine ⟨.dropTable n r, mem_diff_schema hs ha ?_, rfl, rfl⟩
          rw [hb]
          refine mem_schemaUpdate hwa hr ?_
          rw [hy]
          cases y with
          | table tab' => exact absurd rfl (hno tab')
          | view | index | sequence =>
            simp [Diff.relationUpdate, Diff.relationDrop, Diff.tableDrop, newDropTable, hn, hsn]
        cases y with
        | view => exact hother (by intro _ h; cases h)
        | index => exact hother (by intro _ h; cases h)
        | sequence => exact hother (by intro _ h; cases h)
        | table tab' =>
          cases hno : columnNamed tab'.columns k with
          | none =>
            refine ⟨.dropColumn n r k, mem_diff_schema hs ha ?_, rfl, rfl, rfl⟩
            rw [hb]
            refine mem_schemaUpdate hwa hr ?_
            rw [hy]
            simp only [Diff.relationUpdate, Diff.tableUpdate, List.mem_append, List.mem_flatMap]
            refine .inl (.inl (.inr ⟨a, hx.1, ?_⟩))
            have hno' : tab'.hasColumn k = false := by
              simp only [Table.hasColumn, findCol_eq_columnNamed, hno]
              rfl
            have hh := (show tab.WF from hwr.2.2).cols_home a hx.1
            rw [hx.2, hno']
            simp [Diff.columnDrop, newDropColumn, hh.1, hh.2, hn, hsn, hx.2]
          | some b' =>
            have hty : b'.dataType ≠ a.dataType := hm b' (by
              simp [Content.objAt, Content.tableAt, Database.content, Schema.content, hb, hy, Relation.content,
                RelContent.table?, Table.content, hno])
            have hbm : b' ∈ tab'.columns ∧ b'.name = k := by
              have : tab'.columns.find? (·.name == k) = some b' := hno
              exact ⟨List.mem_of_find?_eq_some this, by simpa using List.find?_some this⟩
            have hmb := AMap.mem_of_get? hb
            have hwb := (ht.home _ hmb).2
            have hwy := hwb.rels_home _ (AMap.mem_of_get? hy)
            have hn' : tab'.name = r := hwy.1
            have hsn' : tab'.schemaName = n := hwy.2.1.trans (ht.home _ hmb).1
            have hh := (show tab'.WF from hwy.2.2).cols_home b' hbm.1
            refine ⟨.setDataType n r k b'.dataType, mem_diff_schema hs ha ?_, rfl, rfl, rfl⟩
            rw [hb]
            refine mem_schemaUpdate hwa hr ?_
            rw [hy]
            simp only [Diff.relationUpdate, Diff.tableUpdate, List.mem_append, List.mem_flatMap]
            refine .inl (.inl (.inl ⟨b', hbm.1, ?_⟩))
            have h3' : columnNamed tab.columns k = some a := h3
            rw [hbm.2, findCol_eq_columnNamed, h3']
            simp [Diff.columnUpdate, newSetDataType, hh.1, hh.2, hn', hsn', hbm.2, Ne.symm hty]

end Podo
