import Verif.Model.Mutation
import Verif.Proofs.Wf
/-
Relation between `Change.applyMut` (value left behind) and `Change.apply` (value on success).
-/
set_option linter.unusedSimpArgs false
namespace Podo

theorem inSchema_checked {d : Database} (hd : d.schemas.NodupKeys) (s : String)
    (f : Schema → SResult Schema) :
    Mut.inSchema s (Mut.checked f) d = Mut.checked (fun x => x.withSchema s f) d := by
  simp only [Mut.inSchema, Mut.checked, Database.withSchema, Database.getSchema]
  cases hg : d.schemas.get? s with
  | none => rfl
  | some sc =>
    simp only
    cases hf : f sc with
    | ok y => rfl
    | error e => simp only [Database.setSchema, AMap.set_self hd hg]

theorem inTable_checked {sc : Schema} (hd : sc.relations.NodupKeys) (t : String)
    (f : Table → SResult Table) :
    Mut.inTable t (Mut.checked f) sc = Mut.checked (fun x => x.withTable t f) sc := by
  simp only [Mut.inTable, Mut.checked, Schema.withTable, Schema.getRelation]
  cases hg : sc.relations.get? t with
  | none => rfl
  | some r =>
    cases r with
    | table tb =>
      simp only [Relation.asTable]
      cases hf : f tb with
      | ok y => rfl
      | error e => simp only [Schema.setRelation, AMap.set_self hd hg]
    | view _ => rfl
    | index _ => rfl
    | sequence _ => rfl

theorem inSchema_congr {d : Database} (hd : d.WF) (s : String) {m m' : Mut Schema}
    (h : ∀ sc : Schema, sc.WF → m sc = m' sc) : Mut.inSchema s m d = Mut.inSchema s m' d := by
  simp only [Mut.inSchema, Database.getSchema]
  cases hg : d.schemas.get? s with
  | none => rfl
  | some sc => simp only [h sc (hd.schema hg).2]

theorem inSchemaTable_checked {d : Database} (hd : d.WF) (s t : String)
    (f : Table → SResult Table) :
    Mut.inSchema s (Mut.inTable t (Mut.checked f)) d
      = Mut.checked (fun x => x.withTable s t f) d := by
  rw [inSchema_congr hd s (m' := Mut.checked fun x => x.withTable t f)
    fun sc hsc => inTable_checked hsc.rels_nodup t f]
  exact inSchema_checked hd.nodup s _

/-- Every change but a column rename checks before it mutates. -/
theorem applyMut_eq {c : Change} {d : Database} (hd : d.WF)
    (hc : ∀ s t a b, c ≠ .renameColumn s t a b) :
    c.applyMut d = Mut.checked c.apply d := by
  cases c with
  | createSchema s => rfl
  | dropSchema s => rfl
  | renameColumn s t a b => exact absurd rfl (hc s t a b)
  | createTable | dropTable | createFunction | dropFunction | createView | dropView | createIndex
  | dropIndex | createSequence | dropSequence => exact inSchema_checked hd.nodup _ _
  | addColumn | setDataType | setDefault | setNotNull | dropColumn | addPrimaryKey
  | alterPrimaryKey | dropPrimaryKey | addUnique | alterUnique | dropUnique | addForeignKey
  | alterForeignKey | dropForeignKey | addCheck | alterCheck | dropCheck =>
    exact inSchemaTable_checked hd _ _ _

/-- What a rename leaves behind. -/
theorem applyMut_rename {s t a b : String} {d : Database} (hd : d.WF) :
    (∃ d', Change.apply (.renameColumn s t a b) d = .ok d'
        ∧ Change.applyMut (.renameColumn s t a b) d = (d', none))
    ∨ (∃ e, Change.apply (.renameColumn s t a b) d = .error e
        ∧ Change.applyMut (.renameColumn s t a b) d = (d, some e))
    ∨ (∃ e d', Change.apply (.renameColumn s t a b) d = .error e
        ∧ Change.apply (.dropColumn s t a) d = .ok d'
        ∧ Change.applyMut (.renameColumn s t a b) d = (d', some e)) := by
  simp only [Change.applyMut, Change.tableStep, Change.apply, Mut.inSchema, Mut.inTable,
    Mut.renameColumn, Database.withTable, Database.withSchema, Schema.withTable,
    Database.getSchema, Schema.getRelation, Table.renameColumn]
  cases hg : d.schemas.get? s with
  | none => exact Or.inr (Or.inl ⟨_, rfl, rfl⟩)
  | some sc =>
    simp only
    cases hr : sc.relations.get? t with
    | none =>
      exact Or.inr (Or.inl ⟨_, rfl, by simp only [Database.setSchema, AMap.set_self hd.nodup hg]⟩)
    | some r =>
      cases r with
      | view _ =>
        exact Or.inr (Or.inl ⟨_, rfl, by
          simp only [Relation.asTable, Database.setSchema, AMap.set_self hd.nodup hg]⟩)
      | index _ =>
        exact Or.inr (Or.inl ⟨_, rfl, by
          simp only [Relation.asTable, Database.setSchema, AMap.set_self hd.nodup hg]⟩)
      | sequence _ =>
        exact Or.inr (Or.inl ⟨_, rfl, by
          simp only [Relation.asTable, Database.setSchema, AMap.set_self hd.nodup hg]⟩)
      | table tb =>
        simp only [Relation.asTable]
        cases hc : tb.removeColumn a with
        | error e =>
          exact Or.inr (Or.inl ⟨_, rfl, by
            simp only [Schema.setRelation, Database.setSchema,
              AMap.set_self (hd.schema hg).2.rels_nodup hr, AMap.set_self hd.nodup hg]⟩)
        | ok p =>
          simp only [Mut.checked]
          cases ha : p.2.addColumn { p.1 with name := b } with
          | ok t' => exact Or.inl ⟨_, rfl, rfl⟩
          | error e => exact Or.inr (Or.inr ⟨_, _, rfl, rfl, rfl⟩)

theorem applyMut_wf {c : Change} {d : Database} (hd : d.WF) : (c.applyMut d).1.WF := by
  by_cases hc : ∃ s t a b, c = .renameColumn s t a b
  · obtain ⟨s, t, a, b, rfl⟩ := hc
    rcases applyMut_rename (s := s) (t := t) (a := a) (b := b) hd with
      ⟨d', h, h'⟩ | ⟨e, _, h'⟩ | ⟨e, d', _, h, h'⟩
    · rw [h']; exact apply_wf hd h
    · rw [h']; exact hd
    · rw [h']; exact apply_wf hd h
  · have hc' : ∀ s t a b, c ≠ .renameColumn s t a b := fun s t a b e => hc ⟨s, t, a, b, e⟩
    rw [applyMut_eq hd hc', Mut.checked]
    cases h : c.apply d with
    | ok d' => exact apply_wf hd h
    | error e => exact hd

theorem applyMutAll_wf {cs : List Change} {d : Database} (hd : d.WF) :
    (Change.applyMutAll cs d).WF := by
  induction cs generalizing d with
  | nil => exact hd
  | cons c cs ih => exact ih (applyMut_wf hd)

end Podo
