import Verif.Model.Clone
import Verif.Spec.Introspect
import Verif.Proofs.Introspect
import Verif.Proofs.DdlFile
import Verif.Proofs.DdlWf
import Verif.Proofs.Loaded
/-
Lemmas for C60: `clone`.
-/
set_option linter.unusedSimpArgs false
namespace Podo
open AMap

theorem mergeAll_fresh : ∀ (m acc : AMap Schema), NodupKeys (acc ++ m) → (∀ p ∈ m, p.2.name = p.1) →
    Database.mergeAll ⟨acc⟩ m = .ok ⟨acc ++ m⟩
  | [], acc, _, _ => by simp [Database.mergeAll]
  | (k, sc) :: m, acc, hn, hh => by
    have hk : get? acc k = none := by
      rw [AMap.get?_eq_none_iff]
      unfold NodupKeys keys at hn
      rw [List.map_append, List.map_cons] at hn
      have h3 := (List.nodup_append.1 hn).2.2
      intro hmem
      exact h3 k hmem k (by simp) rfl
    have hsc : sc.name = k := hh (k, sc) (by simp)
    unfold Database.mergeAll Database.mergeOne
    rw [show (Database.mk acc).schemas = acc from rfl, hk]
    have h0 : has acc k = false := by
      cases h : has acc k with
      | false => rfl
      | true =>
        rw [has_iff] at h
        exact absurd h (get?_eq_none_iff.1 hk)
    simp only [Database.addSchema, Database.hasSchema, hsc, h0]
    have := mergeAll_fresh m (acc ++ [(k, sc)]) (by simpa using hn) (fun p hp => hh p (by simp [hp]))
    simpa [insertNew] using this

theorem merge_fresh {d : Database} (hd : d.WF) : Database.new.merge d = .ok d := by
  have := mergeAll_fresh d.schemas [] (by simpa using hd.nodup) (fun p hp => (hd.home p hp).1)
  simpa [Database.merge, Database.new] using this

/-- A directory with one definition file. -/
theorem snapshot_single {y : Def.Yaml} {d : Database} (h : Def.loadDoc y = .ok d) :
    Load.snapshot Def.parseDoc [.file "public.yaml" y] = .ok d := by
  obtain ⟨ss, h1, h2⟩ := Def.loadDoc_iff.1 h
  have hy : Load.isYaml "public.yaml" = true := by decide +kernel
  simp only [Load.snapshot, Load.collect, Load.collectEntry, hy, if_true, List.append_nil,
    Load.filesInto, Load.fileInto, h1, h2, merge_fresh (Def.loadDoc_wf h)]

namespace Introspect
open Def (Int64 SnapshotInt64 SequenceInt64)

theorem introspect_int64 {c : Catalog} {d : Database} (h : introspect c = .ok d)
    (hc : ∀ r ∈ c.sequences, r.Int64) : SnapshotInt64 d := by
  intro p hp q hq s hs
  have hd := introspect_wf h
  have hr : HasRelation d p.1 q.1 (.sequence s) :=
    ⟨p.2, get?_of_mem hd.nodup hp, get?_of_mem (hd.home p hp).2.rels_nodup (by rw [← hs]; exact hq)⟩
  obtain ⟨_, _, r, hr, hdesc⟩ := ((represents h).sequences _ _ _).1 hr
  have h64 := hc r hr
  exact ⟨hdesc.increment ▸ h64.increment, hdesc.minValue ▸ h64.minValue,
    hdesc.maxValue ▸ h64.maxValue, hdesc.start ▸ h64.start, hdesc.cache ▸ h64.cache⟩

theorem describeColumns_mem {rs : List ColumnRow} {cs : List Column} (h : DescribeColumns rs cs)
    {c : Column} (hc : c ∈ cs) : ∃ r ∈ rs, r.Describes c := by
  induction h with
  | nil => cases hc
  | cons h1 _ ih =>
    rcases List.mem_cons.1 hc with rfl | hc
    · exact ⟨_, List.mem_cons_self, h1⟩
    · obtain ⟨r, hr, hd⟩ := ih hc
      exact ⟨r, List.mem_cons_of_mem _ hr, hd⟩

theorem expressible_ok {c : Catalog} {d : Database} (h : introspect c = .ok d) (hc : c.Expressible) :
    Def.SnapshotOk d := by
  intro p hp
  have hd := introspect_wf h
  have hr := represents h
  have hps := get?_of_mem hd.nodup hp
  have hw := (hd.home p hp).2
  refine ⟨?_, fun q hq => ?_, fun q hq => ?_⟩
  · rw [hr.schema_name _ _ hps]
    exact hc.schemas _ ((hr.schemas _).1 ⟨_, hps⟩)
  · have hq' := get?_of_mem hw.rels_nodup hq
    obtain ⟨n, rel⟩ := q
    cases rel with
    | view v => exact absurd ⟨p.2, hps, hq'⟩ (hr.views p.1 n v)
    | sequence s =>
      obtain ⟨_, _, r, hm, hdesc⟩ := (hr.sequences p.1 n s).1 ⟨p.2, hps, hq'⟩
      obtain ⟨h1, h2, h3, h4, h5⟩ := hc.sequences r hm
      refine ⟨⟨hdesc.dataType ▸ h3, ?_⟩, ?_, ?_, ?_⟩
      · show s.ownedByTable = none ↔ s.ownedByColumn = none
        rw [hdesc.ownedByTable, hdesc.ownedByColumn]; exact h4
      · show Def.NameOk s.name
        rw [hdesc.name]; exact h1
      · rw [hdesc.increment]; exact h2
      · rw [hdesc.ownedByTable]; exact h5
    | index i =>
      obtain ⟨_, _, r, hm, hdesc⟩ := (hr.indexes p.1 n i).1 ⟨p.2, hps, hq'⟩
      refine ⟨trivial, ?_⟩
      show Def.NameOk i.name ∧ Def.NameOk i.tableName ∧ i.method = "btree" ∧
        ¬ Def.StartsWith "delete" i.tableName ∧ ¬ Def.StartsWith "update" i.tableName
      rw [hdesc.name, hdesc.table, hdesc.method]
      exact hc.indexes r hm
    | table t =>
      have ht : HasRelation d p.1 n (.table t) := ⟨p.2, hps, hq'⟩
      have hcols : ∀ col ∈ t.columns, ∃ r ∈ c.columns, r.Describes col := by
        intro col hcol
        obtain ⟨r, h1, h2⟩ := describeColumns_mem (hr.columns _ _ _ ht) hcol
        exact ⟨r, (List.mem_filter.1 h1).1, h2⟩
      have hcons : ∀ x ∈ t.constraints, Lists c x.2 := by
        intro x hx
        have tw : t.WF := (hw.rels_home _ hq).2.2
        exact ((hr.constraints _ _ _ ht x.1 x.2).1 (get?_of_mem tw.cons_nodup hx)).2.2.2
      refine ⟨⟨fun col hcol => ?_, fun x hx => ?_⟩, ?_, fun col hcol => ?_, fun x hx => ?_⟩
      · obtain ⟨r, h1, h2⟩ := hcols col hcol
        obtain ⟨_, h4⟩ := hc.columns r h1
        have h5 := h4 col.dataType h2.dataType.symm
        have h6 : (if r.default = "" then none else some r.default) = col.default := by
          have ha := h2.default
          have hb := h2.nonempty
          cases hcd : col.default with
          | none => rw [hcd] at ha; simp at ha; simp [← ha]
          | some e =>
            rw [hcd] at ha hb; simp at ha hb
            subst ha; simp [hb]
        rw [h6] at h5
        show Def.ExprOk _ _ _
        rw [h2.notNull]; exact h5
      · have hl := hcons x hx
        generalize x.2 = k at hl
        cases hl with
        | primaryKey => trivial
        | check => trivial
        | unique h1 h2 =>
          show _ ≠ _
          rw [h2.columns]; exact (hc.uniques _ h1).2
        | foreignKey h1 h2 =>
          obtain ⟨_, h4, h5⟩ := hc.foreignKeys _ h1
          refine ⟨fun e => h4 ?_, ?_⟩
          · rw [← h2.targetColumns, e]
          · rw [h2.schema, h2.targetTable]
            exact (h5 _ h2.targetSchema.symm).1
      · show Def.NameOk t.name
        rw [(hr.table_home _ _ _ ht).2]
        exact hc.tables _ ((hr.tables _ _).1 ⟨t, ht⟩)
      · obtain ⟨r, h1, h2⟩ := hcols col hcol
        rw [h2.name]; exact (hc.columns r h1).1
      · have hl := hcons x hx
        generalize x.2 = k at hl
        cases hl with
        | primaryKey h1 h2 => exact Eq.mpr (congrArg Def.NameOk h2.name) (hc.primaryKeys _ h1)
        | check h1 h2 => exact Eq.mpr (congrArg Def.NameOk h2.name) (hc.checks _ h1)
        | unique h1 h2 => exact Eq.mpr (congrArg Def.NameOk h2.name) ((hc.uniques _ h1).1)
        | foreignKey h1 h2 =>
          obtain ⟨h3, h4, h5⟩ := hc.foreignKeys _ h1
          refine ⟨h2.name ▸ h3, ?_⟩
          rw [h2.schema, h2.targetTable]
          exact (h5 _ h2.targetSchema.symm).2
  · obtain ⟨_, _, r, hm, hdesc⟩ := (hr.functions p.1 q.1 q.2).1
      ⟨p.2, hps, get?_of_mem hw.funs_nodup hq⟩
    rw [hdesc.name]
    exact hc.functions r hm

theorem describeColumns_mem' {rs : List ColumnRow} {cs : List Column} (h : DescribeColumns rs cs)
    {r : ColumnRow} (hr : r ∈ rs) : ∃ c ∈ cs, r.Describes c := by
  induction h with
  | nil => cases hr
  | cons h1 _ ih =>
    rcases List.mem_cons.1 hr with rfl | hr
    · exact ⟨_, List.mem_cons_self, h1⟩
    · obtain ⟨c, hc, hd⟩ := ih hr
      exact ⟨c, List.mem_cons_of_mem _ hc, hd⟩

/-- The rows of a catalogue whose snapshot can be written and read back. -/
theorem ok_expressible {c : Catalog} {d : Database} (h : introspect c = .ok d)
    (hok : Def.SnapshotOk d) : c.Expressible := by
  have hr := represents h
  have hcon := (succeeds_iff c).1 ⟨d, h⟩
  have rel : ∀ {s n : String} {x : Relation}, HasRelation d s n x →
      Def.RelationOk x ∧ Def.RelationFileOk x := by
    rintro s n x ⟨sc, h1, h2⟩
    exact (hok _ (mem_of_get? h1)).2.1 _ (mem_of_get? h2)
  have con : ∀ {k : Constraint}, Lists c k → (∃ n, ((k.schemaName, k.tableName), n) ∈ c.constraintPlaces) →
      Def.ConstraintOk k ∧ Def.ConstraintNamesOk k := by
    rintro k hk ⟨n, hn⟩
    obtain ⟨t, ht⟩ := (hr.tables k.schemaName k.tableName).2 (hcon.constraint_table _ hn)
    have hg := (hr.constraints _ _ t ht k.name k).2 ⟨rfl, rfl, rfl, hk⟩
    obtain ⟨⟨_, h1⟩, _, _, h2⟩ := rel ht
    exact ⟨h1 _ (mem_of_get? hg), h2 _ (mem_of_get? hg)⟩
  refine ⟨?_, ?_, ?_, ?_, ?_, ?_, ?_, ?_, ?_, ?_⟩
  · intro s hs
    obtain ⟨sc, hsc⟩ := (hr.schemas s).2 hs
    rw [← hr.schema_name _ _ hsc]
    exact (hok _ (mem_of_get? hsc)).1
  · intro r hm
    have hd := (sequenceOf_iff r _).1 rfl
    obtain ⟨⟨h1, h2⟩, h3, h4, h5⟩ := rel ((hr.sequences _ _ _).2 ⟨hd.schema, hd.name, r, hm, hd⟩)
    exact ⟨h3, h4, h1, h2, h5⟩
  · intro r hm
    obtain ⟨t, ht⟩ := (hr.tables r.schema r.name).2 hm
    have := (rel ht).2.1
    rwa [(hr.table_home _ _ _ ht).2] at this
  · intro r hm
    have hp : ((r.schema, r.table), r.name) ∈ c.columnPlaces := List.mem_map.2 ⟨r, hm, rfl⟩
    obtain ⟨t, ht⟩ := (hr.tables r.schema r.table).2 (hcon.column_table _ hp)
    have hds := hr.columns _ _ _ ht
    have hmem : r ∈ c.columns.filter fun x => x.schema = r.schema ∧ x.table = r.table :=
      List.mem_filter.2 ⟨hm, by simp⟩
    obtain ⟨col, hcol, hd⟩ := describeColumns_mem' hds hmem
    obtain ⟨⟨h1, _⟩, _, h2, _⟩ := rel ht
    refine ⟨hd.name ▸ h2 col hcol, fun ty hty => ?_⟩
    have e : col.dataType = ty := by
      have := hd.dataType
      rw [hty] at this
      injection this
    have h6 : (if r.default = "" then none else some r.default) = col.default := by
      have ha := hd.default
      have hb := hd.nonempty
      cases hcd : col.default with
      | none => rw [hcd] at ha; simp at ha; simp [← ha]
      | some e =>
        rw [hcd] at ha hb; simp at ha hb
        subst ha; simp [hb]
    rw [h6, ← e, ← hd.notNull]
    exact h1 col hcol
  · intro r hm
    have hd := (primaryKeyOf_iff r _).1 rfl
    exact (con (.primaryKey hm hd) ⟨r.name, by simp [Catalog.constraintPlaces]; exact .inl ⟨r, hm, ⟨rfl, rfl⟩, rfl⟩⟩).2
  · intro r hm
    have hd := (uniqueOf_iff r _).1 rfl
    have := con (.unique hm hd) ⟨r.name, by
      simp [Catalog.constraintPlaces]; exact .inr (.inr (.inl ⟨r, hm, ⟨rfl, rfl⟩, rfl⟩))⟩
    exact ⟨this.2, this.1⟩
  · intro r hm
    obtain ⟨h1, h2⟩ := hcon.target r hm
    obtain ⟨ts, hts⟩ := Option.ne_none_iff_exists'.1 h1
    obtain ⟨tc, htc⟩ := Option.ne_none_iff_exists'.1 h2
    obtain ⟨k, hk, e1, e2⟩ : ∃ k, foreignKeyOf r = some k ∧ k.targetSchema = ts ∧
        k.targetColumns = tc := by
      unfold foreignKeyOf
      rw [hts, htc]
      exact ⟨_, rfl, rfl, rfl⟩
    have hd := (foreignKeyOf_iff r k).1 hk
    have := con (.foreignKey hm hd) ⟨r.constraintName, by
      show ((k.schemaName, k.tableName), _) ∈ _
      rw [hd.schema, hd.table]
      simp [Catalog.constraintPlaces]; exact .inr (.inl ⟨r, hm, ⟨rfl, rfl⟩, rfl⟩)⟩
    obtain ⟨⟨h3, h4⟩, h5, h6⟩ := this
    rw [hd.schema, hd.targetTable] at h4 h6
    rw [hd.name] at h5
    refine ⟨h5, ?_, ?_⟩
    · rw [htc, ← e2]; intro e; injection e with e; exact h3 e
    · intro s hs
      rw [hts, ← e1] at hs; injection hs with hs; subst hs
      exact ⟨h4, h6⟩
  · intro r hm
    have hd := (checkOf_iff r _).1 rfl
    exact (con (.check hm hd) ⟨r.name, by
      simp [Catalog.constraintPlaces]; exact .inr (.inr (.inr ⟨r, hm, ⟨rfl, rfl⟩, rfl⟩))⟩).2
  · intro r hm
    have hd := (functionOf_iff r _).1 rfl
    obtain ⟨sc, h1, h2⟩ := (hr.functions _ _ _).2 ⟨hd.schema, hd.name, r, hm, hd⟩
    exact (hok _ (mem_of_get? h1)).2.2 _ (mem_of_get? h2)
  · intro r hm
    obtain ⟨i, hi⟩ : ∃ i, indexOf r = some i := by
      unfold indexOf
      rcases hcon.index_keys r hm with e | e <;> obtain ⟨x, hx⟩ := Option.ne_none_iff_exists'.1 e
      · rw [hx]; exact ⟨_, rfl⟩
      · cases r.expressions <;> rw [hx] <;> exact ⟨_, rfl⟩
    have hd := (indexOf_iff r i).1 hi
    obtain ⟨_, h1, h2, h3, h4, h5⟩ := rel ((hr.indexes _ _ i).2 ⟨hd.schema, hd.name, r, hm, hd⟩)
    rw [← hd.name, ← hd.table, ← hd.method]
    exact ⟨h1, h2, h3, h4, h5⟩

theorem expressible_iff {c : Catalog} {d : Database} (h : introspect c = .ok d) :
    Def.SnapshotOk d ↔ c.Expressible := ⟨ok_expressible h, expressible_ok h⟩

theorem int64_iff {c : Catalog} {d : Database} (h : introspect c = .ok d) :
    SnapshotInt64 d ↔ ∀ r ∈ c.sequences, r.Int64 := by
  refine ⟨fun hi r hm => ?_, introspect_int64 h⟩
  have hdesc := (sequenceOf_iff r _).1 rfl
  obtain ⟨sc, h1, h2⟩ := ((represents h).sequences _ _ _).2 ⟨hdesc.schema, hdesc.name, r, hm, hdesc⟩
  obtain ⟨a, b, c, d, e⟩ := hi _ (mem_of_get? h1) _ (mem_of_get? h2) _ rfl
  exact ⟨a, b, c, d, e⟩

theorem writable_iff {c : Catalog} {d : Database} (h : introspect c = .ok d) :
    Def.SnapshotWritable d ↔ ∀ r ∈ c.sequences, r.Writable := by
  have hr := represents h
  have hd := introspect_wf h
  constructor
  · intro hw r hm
    have hdesc := (sequenceOf_iff r _).1 rfl
    obtain ⟨sc, h1, h2⟩ := (hr.sequences _ _ _).2 ⟨hdesc.schema, hdesc.name, r, hm, hdesc⟩
    obtain ⟨h3, h4⟩ := hw _ (mem_of_get? h1) _ (mem_of_get? h2) _ rfl
    exact ⟨h3, h4⟩
  · rintro hw p hp q hq s hs
    have hg := get?_of_mem (hd.home p hp).2.rels_nodup hq
    rw [hs] at hg
    obtain ⟨_, _, r, hm, hdesc⟩ := (hr.sequences p.1 q.1 s).1 ⟨p.2, get?_of_mem hd.nodup hp, hg⟩
    obtain ⟨h3, h4⟩ := hw r hm
    refine ⟨hdesc.dataType ▸ h3, ?_⟩
    rw [hdesc.ownedByTable, hdesc.ownedByColumn]
    exact h4

end Introspect
namespace Proj
open AMap Introspect

/-- What `clone` leaves when it succeeds. -/
def cloned (fs : Fs) (ds : Path) (y : Def.Yaml) : Fs :=
  { fs with definitions := update fs.definitions ds
              (Def.insertEntry (fs.definitions ds) "public.yaml" y) }

theorem clone_done {env : Env} {connect : String → Option Catalog} {fs fs' : Fs} {cwd : Path}
    {profile : String} (h : clone env connect fs cwd profile = (fs', .done)) :
    ∃ p url ds c d y, discover env fs cwd = .ok p ∧ p.databaseUrl profile = .ok url ∧
      p.definitionsDir DEFAULT_PROFILE = .ok ds ∧ connect url = some c ∧ introspect c = .ok d ∧
      Def.saveDoc d = .ok y ∧ fs' = cloned fs ds y := by
  unfold clone at h
  split at h
  · cases h
  rename_i p hp
  split at h
  · rename_i url ds hu hd
    split at h
    · cases h
    rename_i c hc
    split at h
    · cases h
    · cases h
    rename_i d hi
    split at h
    · cases h
    rename_i y hy
    injection h with h _
    exact ⟨p, url, ds, c, d, y, hp, hu, hd, hc, hi, hy, h.symm⟩
  · cases h

theorem clone_done_of {env : Env} {connect : String → Option Catalog} {fs : Fs} {cwd : Path}
    {profile : String} {p : Project} {url : String} {ds : Path} {c : Catalog} {d : Database}
    {y : Def.Yaml} (h1 : discover env fs cwd = .ok p) (h2 : p.databaseUrl profile = .ok url)
    (h3 : p.definitionsDir DEFAULT_PROFILE = .ok ds) (h4 : connect url = some c)
    (h5 : introspect c = .ok d) (h6 : Def.saveDoc d = .ok y) :
    clone env connect fs cwd profile = (cloned fs ds y, .done) := by
  unfold clone cloned
  simp only [h1, h2, h3, h4, h5, h6]

theorem get?_insertEntry (m : AMap Def.Yaml) (k n : String) (v : Def.Yaml) :
    get? (Def.insertEntry m k v) n = if n = k then some v else get? m n := by
  unfold Def.insertEntry
  by_cases hk : has m k = true
  · rw [if_pos hk]
    refine get?_set m k v n ?_
    cases h : get? m k with
    | none => exact absurd (has_iff.1 hk) (get?_eq_none_iff.1 h)
    | some _ => rfl
  · rw [if_neg hk]
    refine get?_insertNew m k v n (get?_eq_none_iff.2 fun h => hk (has_iff.2 h))

theorem exists_some {α : Type} {o : Option α} {P : α → Prop} [DecidablePred P]
    (h : (o.any fun a => decide (P a)) = true) : ∃ a, o = some a ∧ P a := by
  cases o with
  | none => cases h
  | some a => exact ⟨a, rfl, of_decide_eq_true h⟩

end Proj
end Podo
