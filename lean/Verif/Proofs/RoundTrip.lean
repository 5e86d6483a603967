import Verif.Proofs.QueryFalse
import Verif.Proofs.Refine
import Verif.Proofs.DiffEmpty
/-
Lemmas for C76.
-/
namespace Podo
namespace Sys
open Introspect

variable {g : System} {S : List String}

theorem wf_table {d : Database} (h : d.WF) {s n : String} {t : Table} (ht : HasRelation d s n (.table t)) :
    t.WF ∧ t.schemaName = s ∧ t.name = n := by
  obtain ⟨sc, e1, e2⟩ := ht
  obtain ⟨h1, h2⟩ := h.home _ (AMap.mem_of_get? e1)
  obtain ⟨h3, h4, h5⟩ := h2.rels_home _ (AMap.mem_of_get? e2)
  exact ⟨h5, h4.trans h1, h3⟩

theorem columnNamed_iff {cols : List Column} (h : (cols.map Column.name).Nodup) {n : String} {c : Column} :
    columnNamed cols n = some c ↔ c ∈ cols ∧ c.name = n :=
  ⟨fun e => ⟨columnNamed_mem e, columnNamed_name e⟩, fun ⟨h1, h2⟩ => h2 ▸ columnNamed_of_mem h h1⟩

/-- The system tables leave nothing about the content open. -/
theorem shows_unique {d d' : Database} (hw : d.WF) (hw' : d'.WF) (h : Shows g S d) (h' : Shows g S d') :
    d.content = d'.content := by
  have one : ∀ {d d' : Database} {s n : String} {x : Relation}, d.WF → d'.WF → Shows g S d → Shows g S d' →
      HasRelation d s n x → ∃ y, HasRelation d' s n y ∧ x.content = y.content := by
    intro d d' s n x hw hw' h h' hx
    cases x with
    | view v => exact ⟨_, (h'.views s n v).2 ((h.views s n v).1 hx), rfl⟩
    | sequence q => exact ⟨_, (h'.sequences s n q).2 ((h.sequences s n q).1 hx), rfl⟩
    | index q => exact ⟨_, (h'.indexes s n q).2 ((h.indexes s n q).1 hx), rfl⟩
    | table t =>
      obtain ⟨t', ht'⟩ := (h'.tables s n).2 ((h.tables s n).1 ⟨t, hx⟩)
      refine ⟨.table t', ht', ?_⟩
      obtain ⟨a0, a1, a2⟩ := wf_table hw hx
      obtain ⟨b0, b1, b2⟩ := wf_table hw' ht'
      have e1 : ∀ m, columnNamed t.columns m = columnNamed t'.columns m := fun m => option_ext fun k => by
        rw [columnNamed_iff a0.cols_nodup, columnNamed_iff b0.cols_nodup, h.columns s n t hx,
          h'.columns s n t' ht']
      have e2 : ∀ m, t.constraints.get? m = t'.constraints.get? m := fun m => option_ext fun k => by
        rw [h.constraints s n t hx, h'.constraints s n t' ht']
      show RelContent.table t.content = .table t'.content
      unfold Table.content
      rw [a1, a2, b1, b2, funext e1, funext e2]
  funext s
  unfold Database.content
  cases e : d.schemas.get? s with
  | none =>
    cases e' : d'.schemas.get? s with
    | none => rfl
    | some sc =>
      obtain ⟨x, hx⟩ := (h.schemas s).2 ((h'.schemas s).1 ⟨sc, e'⟩)
      rw [e] at hx; cases hx
  | some sc =>
    obtain ⟨sc', e'⟩ := (h'.schemas s).2 ((h.schemas s).1 ⟨sc, e⟩)
    rw [e']
    simp only [Option.map_some, Option.some.injEq]
    unfold Schema.content
    have n1 : sc.name = s := (hw.home _ (AMap.mem_of_get? e)).1
    have n2 : sc'.name = s := (hw'.home _ (AMap.mem_of_get? e')).1
    rw [n1, n2]
    congr 1
    · funext n
      cases er : sc.relations.get? n with
      | some x =>
        obtain ⟨y, ⟨sc2, hy1, hy2⟩, hy⟩ := one hw hw' h h' ⟨sc, e, er⟩
        rw [e'] at hy1
        injection hy1 with hy1
        subst hy1
        rw [hy2]
        simp [hy]
      | none =>
        cases er' : sc'.relations.get? n with
        | none => rfl
        | some y =>
          obtain ⟨x, ⟨sc2, hy1, hy2⟩, hy⟩ := one hw' hw h' h ⟨sc', e', er'⟩
          rw [e] at hy1
          injection hy1 with hy1
          subst hy1
          rw [er] at hy2; cases hy2
    · funext n
      refine option_ext fun f => ?_
      have h1 := h.functions s n f
      have h2 := h'.functions s n f
      unfold HasFunction at h1 h2
      rw [e] at h1
      rw [e'] at h2
      simp only [Option.some.injEq, exists_eq_left'] at h1 h2
      rw [h1, h2]

theorem describeColumns_append {rs rs' : List ColumnRow} {cs cs' : List Column} (h : DescribeColumns rs cs)
    (h' : DescribeColumns rs' cs') : DescribeColumns (rs ++ rs') (cs ++ cs') := by
  induction h with
  | nil => exact h'
  | cons hd _ ih => exact .cons hd ih

theorem describeColumns_reverse {rs : List ColumnRow} {cs : List Column} (h : DescribeColumns rs cs) :
    DescribeColumns rs.reverse cs.reverse := by
  induction h with
  | nil => exact .nil
  | cons hd _ ih =>
    rw [List.reverse_cons, List.reverse_cons]
    exact describeColumns_append ih (.cons hd .nil)

theorem describeColumns_length {rs : List ColumnRow} {cs : List Column} (h : DescribeColumns rs cs) :
    rs.length = cs.length := by
  induction h with
  | nil => rfl
  | cons _ _ ih => rw [List.length_cons, List.length_cons, ih]

/-- Lists without repetition that have the same elements are equally long. -/
theorem nodup_length {α : Type} {l l' : List α} (h : l.Nodup) (h' : l'.Nodup) (he : ∀ x, x ∈ l ↔ x ∈ l') :
    l.length = l'.length :=
  Nat.le_antisymm (h.length_le_of_subset fun _ hx => (he _).1 hx)
    (h'.length_le_of_subset fun _ hx => (he _).2 hx)

/-- A table is in every snapshot that podo sees no difference to. -/
theorem keyOnly_table {d d' : Database} (h : d.content.keyOnly = d'.content.keyOnly) {s n : String} {t : Table}
    (ht : HasRelation d s n (.table t)) :
    ∃ t', HasRelation d' s n (.table t') ∧ t.content = t'.content := by
  obtain ⟨sc, e1, e2⟩ := ht
  have hs := congrFun h s
  unfold Content.keyOnly Database.content at hs
  rw [e1] at hs
  cases e' : d'.schemas.get? s with
  | none => rw [e'] at hs; cases hs
  | some sc' =>
    rw [e'] at hs
    have hr := congrFun (congrArg SchemaContent.relations (Option.some.inj hs)) n
    unfold Schema.content at hr
    dsimp only at hr
    rw [e2] at hr
    cases er : sc'.relations.get? n with
    | none => rw [er] at hr; cases hr
    | some y =>
      rw [er] at hr
      have hy := Option.some.inj hr
      cases y with
      | table t' => exact ⟨t', ⟨sc', e', er⟩, RelContent.table.inj hy⟩
      | _ => cases hy

theorem content_relation {d d' : Database} (h : d.content = d'.content) {s n : String} {x : Relation}
    (hx : HasRelation d s n x) : ∃ y, HasRelation d' s n y ∧ x.content = y.content := by
  obtain ⟨sc, e1, e2⟩ := hx
  have hs := congrFun h s
  unfold Database.content at hs
  rw [e1] at hs
  cases e' : d'.schemas.get? s with
  | none => rw [e'] at hs; cases hs
  | some sc' =>
    rw [e'] at hs
    have hr := congrFun (congrArg SchemaContent.relations (Option.some.inj hs)) n
    unfold Schema.content at hr
    dsimp only at hr
    rw [e2] at hr
    cases er : sc'.relations.get? n with
    | none => rw [er] at hr; cases hr
    | some y => rw [er] at hr; exact ⟨y, ⟨sc', e', er⟩, Option.some.inj hr⟩

theorem content_function {d d' : Database} (h : d.content = d'.content) {s n : String} {f : Function}
    (hf : HasFunction d s n f) : HasFunction d' s n f := by
  obtain ⟨sc, e1, e2⟩ := hf
  have hs := congrFun h s
  unfold Database.content at hs
  rw [e1] at hs
  cases e' : d'.schemas.get? s with
  | none => rw [e'] at hs; cases hs
  | some sc' =>
    rw [e'] at hs
    have hr := congrFun (congrArg SchemaContent.functions (Option.some.inj hs)) n
    unfold Schema.content at hr
    dsimp only at hr
    exact ⟨sc', e', hr ▸ e2⟩

/-- What the system tables tell is the content. -/
theorem shows_content {d d' : Database} (hw : d.WF) (hw' : d'.WF) (h : Shows g S d)
    (he : d.content = d'.content) : Shows g S d' := by
  have table : ∀ {s n : String} {t : Table}, HasRelation d' s n (.table t) →
      ∃ t', HasRelation d s n (.table t') ∧ t.content = t'.content := by
    intro s n t ht
    obtain ⟨y, hy, e⟩ := content_relation he.symm ht
    cases y with
    | table t' => exact ⟨t', hy, RelContent.table.inj e⟩
    | _ => cases e
  refine ⟨fun s => ?_, fun s n => ?_, fun s n t ht col => ?_, fun s n t ht m k => ?_, fun s n i => ?_,
    fun s n q => ?_, fun s n v => ?_, fun s n f => ?_⟩
  · rw [← h.schemas s]
    have hs := congrFun he s
    unfold Database.content at hs
    cases e : d.schemas.get? s <;> cases e' : d'.schemas.get? s <;> rw [e, e'] at hs <;>
      first | (simp; done) | (simp at hs; done)
  · rw [← h.tables s n]
    constructor
    · rintro ⟨t, ht⟩
      obtain ⟨t', ht', _⟩ := table ht
      exact ⟨t', ht'⟩
    · rintro ⟨t, ht⟩
      obtain ⟨y, hy, e⟩ := content_relation he ht
      cases y with
      | table t' => exact ⟨t', hy⟩
      | _ => cases e
  · obtain ⟨t', ht', e⟩ := table ht
    rw [← h.columns s n t' ht' col]
    have := congrFun (congrArg TableContent.columns e) col.name
    unfold Table.content at this
    dsimp only at this
    have a := columnNamed_iff (n := col.name) (c := col) (wf_table hw' ht).1.cols_nodup
    have b := columnNamed_iff (n := col.name) (c := col) (wf_table hw ht').1.cols_nodup
    simp only [and_true] at a b
    rw [← a, ← b, this]
  · obtain ⟨t', ht', e⟩ := table ht
    rw [← h.constraints s n t' ht' m k]
    have := congrFun (congrArg TableContent.constraints e) m
    unfold Table.content at this
    dsimp only at this
    rw [this]
  · rw [← h.indexes s n i]
    constructor <;> intro hx
    · obtain ⟨y, hy, e⟩ := content_relation he.symm hx
      cases y <;> cases e
      exact hy
    · obtain ⟨y, hy, e⟩ := content_relation he hx
      cases y <;> cases e
      exact hy
  · rw [← h.sequences s n q]
    constructor <;> intro hx
    · obtain ⟨y, hy, e⟩ := content_relation he.symm hx
      cases y <;> cases e
      exact hy
    · obtain ⟨y, hy, e⟩ := content_relation he hx
      cases y <;> cases e
      exact hy
  · rw [← h.views s n v]
    constructor <;> intro hx
    · obtain ⟨y, hy, e⟩ := content_relation he.symm hx
      cases y <;> cases e
      exact hy
    · obtain ⟨y, hy, e⟩ := content_relation he hx
      cases y <;> cases e
      exact hy
  · rw [← h.functions s n f]
    exact ⟨content_function he.symm, content_function he⟩

end Sys
end Podo
