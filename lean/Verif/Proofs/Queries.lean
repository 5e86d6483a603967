import Verif.Spec.Queries
import Verif.Proofs.Introspect
/-
Lemmas about the catalogue queries.
-/
namespace Podo
namespace Sys
open Introspect

/-! ### Lists with at most one element -/

def One {α : Type} (l : List α) : Prop := l.length ≤ 1

theorem one_cases {α : Type} {l : List α} (h : One l) : l = [] ∨ ∃ x, l = [x] := by
  match l, h with
  | [], _ => exact .inl rfl
  | [x], _ => exact .inr ⟨x, rfl⟩
  | _ :: _ :: _, h => exact absurd h (by unfold One; simp)

theorem one_nil {α : Type} : One ([] : List α) := Nat.zero_le 1
theorem one_singleton {α : Type} (x : α) : One [x] := Nat.le_refl 1

theorem one_flatMap {α β : Type} {l : List α} {f : α → List β} (h : One l)
    (hf : ∀ x ∈ l, One (f x)) : One (l.flatMap f) := by
  rcases one_cases h with rfl | ⟨x, rfl⟩
  · exact one_nil
  · simpa using hf x (by simp)

theorem one_map {α β : Type} {l : List α} {f : α → β} (h : One l) : One (l.map f) := by
  simpa [One] using h

theorem one_filter {α : Type} {l : List α} {p : α → Bool} (h : One l) : One (l.filter p) :=
  Nat.le_trans (List.length_filter_le p l) h

theorem one_ite {α : Type} {c : Prop} [Decidable c] (x : α) : One (if c then [x] else []) := by
  split
  · exact one_singleton x
  · exact one_nil

theorem one_toList {α : Type} (o : Option α) : One o.toList := by
  cases o <;> simp [One]

theorem one_leftJoin {α : Type} {l : List α} (h : One l) : One (leftJoin l) := by
  rcases one_cases h with rfl | ⟨x, rfl⟩ <;> simp [leftJoin, One]

theorem one_of_all_eq {α : Type} {l : List α} (hn : l.Nodup) (h : ∀ x ∈ l, ∀ y ∈ l, x = y) : One l := by
  match l, hn, h with
  | [], _, _ => exact one_nil
  | [x], _, _ => exact one_singleton x
  | x :: y :: t, hn, h =>
    exact absurd (h x (by simp) y (by simp)) (by
      have := (List.nodup_cons.1 hn).1
      intro e; exact this (by simp [e]))

theorem nodup_of_map {α κ : Type} {l : List α} {key : α → κ} (h : (l.map key).Nodup) : l.Nodup := by
  induction l with
  | nil => exact List.nodup_nil
  | cons x t ih =>
    rw [List.map_cons, List.nodup_cons] at h
    exact List.nodup_cons.2 ⟨fun hx => h.1 (List.mem_map_of_mem hx), ih h.2⟩

theorem key_inj {α κ : Type} {l : List α} {key : α → κ} (h : (l.map key).Nodup) {x y : α}
    (hx : x ∈ l) (hy : y ∈ l) (he : key x = key y) : x = y := by
  induction l with
  | nil => cases hx
  | cons z t ih =>
    rw [List.map_cons, List.nodup_cons] at h
    rcases List.mem_cons.1 hx with rfl | hx' <;> rcases List.mem_cons.1 hy with rfl | hy'
    · rfl
    · exact absurd (by rw [he]; exact List.mem_map_of_mem hy') h.1
    · exact absurd (by rw [← he]; exact List.mem_map_of_mem hx') h.1
    · exact ih h.2 hx' hy'

theorem one_filter_key {α κ : Type} {l : List α} {key : α → κ} (h : (l.map key).Nodup) {p : α → Bool}
    {k : κ} (hp : ∀ x, p x = true → key x = k) : One (l.filter p) := by
  refine one_of_all_eq ((nodup_of_map h).filter p) ?_
  intro x hx y hy
  rw [List.mem_filter] at hx hy
  exact key_inj h hx.1 hy.1 ((hp x hx.2).trans (hp y hy.2).symm)

theorem filter_key {α κ : Type} {l : List α} {key : α → κ} (h : (l.map key).Nodup) {p : α → Bool}
    {x : α} (hx : x ∈ l) (hp : ∀ y ∈ l, p y = true ↔ key y = key x) : l.filter p = [x] := by
  have hm : x ∈ l.filter p := List.mem_filter.2 ⟨hx, (hp x hx).2 rfl⟩
  have hone : One (l.filter p) := by
    refine one_of_all_eq ((nodup_of_map h).filter p) ?_
    intro y hy z hz
    rw [List.mem_filter] at hy hz
    exact key_inj h hy.1 hz.1 (((hp y hy.1).1 hy.2).trans ((hp z hz.1).1 hz.2).symm)
  rcases one_cases hone with he | ⟨y, he⟩
  · rw [he] at hm; cases hm
  · rw [he] at hm ⊢
    rw [List.mem_singleton.1 hm]

theorem mem_leftJoin {α : Type} {l : List α} {o : Option α} :
    o ∈ leftJoin l ↔ (l = [] ∧ o = none) ∨ ∃ x ∈ l, o = some x := by
  cases l with
  | nil => simp [leftJoin]
  | cons x t =>
    simp only [leftJoin, List.mem_map]
    constructor
    · rintro ⟨y, hy, rfl⟩; exact .inr ⟨y, hy, rfl⟩
    · rintro (⟨h, _⟩ | ⟨y, hy, rfl⟩)
      · cases h
      · exact ⟨y, hy, rfl⟩

theorem exists_leftJoin {α : Type} (l : List α) : ∃ o, o ∈ leftJoin l := by
  cases l with
  | nil => exact ⟨none, by simp [leftJoin]⟩
  | cons x t => exact ⟨some x, by simp [leftJoin]⟩

theorem mem_ite {α : Type} {c : Prop} [Decidable c] {x y : α} :
    (y ∈ if c then [x] else []) ↔ c ∧ y = x := by
  split <;> simp_all

/-- Rows made from the rows of a table, at most one each, have different places. -/
theorem nodup_rows {α β κ ι : Type} {l : List α} {key : α → ι} {f : α → List β} {place : β → κ}
    (h : (l.map key).Nodup) (h1 : ∀ a ∈ l, One (f a))
    (h2 : ∀ a ∈ l, ∀ b ∈ l, ∀ x ∈ f a, ∀ y ∈ f b, place x = place y → key a = key b) :
    ((l.flatMap f).map place).Nodup := by
  induction l with
  | nil => simp
  | cons a t ih =>
    rw [List.map_cons, List.nodup_cons] at h
    rw [List.flatMap_cons, List.map_append, List.nodup_append]
    refine ⟨?_, ih h.2 (fun b hb => h1 b (List.mem_cons_of_mem _ hb))
      (fun b hb c hc => h2 b (List.mem_cons_of_mem _ hb) c (List.mem_cons_of_mem _ hc)), ?_⟩
    · rcases one_cases (h1 a (by simp)) with he | ⟨x, he⟩ <;> rw [he] <;> simp
    · intro p hp q hq e
      obtain ⟨x, hx, rfl⟩ := List.mem_map.1 hp
      obtain ⟨y, hy, rfl⟩ := List.mem_map.1 hq
      obtain ⟨b, hb, hy⟩ := List.mem_flatMap.1 hy
      have := h2 a (by simp) b (List.mem_cons_of_mem _ hb) x hx y hy e
      exact h.1 (by rw [this]; exact List.mem_map_of_mem hb)

/-! ### What the queries give -/

variable {g : System} {S : List String}

theorem mem_schemaRows {s : String} :
    s ∈ schemaRows g S ↔ s ∈ S ∧ ∃ ns ∈ g.namespaces, ns.nspname = s := by
  simp only [schemaRows, List.mem_map, List.mem_filter, decide_eq_true_eq]
  constructor
  · rintro ⟨n, ⟨h1, h2⟩, rfl⟩; exact ⟨h2, n, h1, rfl⟩
  · rintro ⟨h, n, h1, rfl⟩; exact ⟨n, ⟨h1, h⟩, rfl⟩

theorem nodup_schemaRows (h : Sound g) : (schemaRows g S).Nodup := by
  unfold schemaRows
  exact List.Nodup.sublist (List.Sublist.map _ List.filter_sublist) h.ns_name

theorem mem_tableRows {r : TableRow} :
    r ∈ tableRows g S ↔ ∃ c ∈ g.classes, ∃ nc ∈ g.namespaces, nc.oid = c.relnamespace ∧
      (c.relkind = .table ∨ c.relkind = .partitioned) ∧ nc.otherTemp = false ∧
      (c.owned = true ∨ c.readable = true) ∧ nc.nspname ∈ S ∧ r = ⟨nc.nspname, c.relname⟩ := by
  simp only [tableRows, List.mem_flatMap, List.mem_filter, decide_eq_true_eq, mem_ite]
  constructor
  · rintro ⟨c, hc, n, ⟨hn, e⟩, _, _, ⟨h1, h2, h3, h4⟩, rfl⟩
    exact ⟨c, hc, n, hn, e, h1, by simpa using h2, by simpa using h3, h4, rfl⟩
  · rintro ⟨c, hc, n, hn, e, h1, h2, h3, h4, rfl⟩
    obtain ⟨o, ho⟩ := exists_leftJoin ((g.types.filter fun t => c.reloftype = t.oid).flatMap fun t =>
      (g.namespaces.filter fun nt => t.typnamespace = nt.oid).map fun _ => t)
    exact ⟨c, hc, n, ⟨hn, e⟩, o, ho, ⟨h1, by simpa using h2, by simpa using h3, h4⟩, rfl⟩

theorem ns_inj (h : Sound g) {n m : Namespace} (hn : n ∈ g.namespaces) (hm : m ∈ g.namespaces)
    (e : n.nspname = m.nspname) : n = m := key_inj h.ns_name hn hm e

theorem class_inj (h : Sound g) {c d : Class} (hc : c ∈ g.classes) (hd : d ∈ g.classes)
    (e : c.oid = d.oid) : c = d := key_inj h.class_oid hc hd e

/-- A relation is determined by its schema and name. -/
theorem class_place (h : Sound g) {c d : Class} {n m : Namespace} (hc : c ∈ g.classes)
    (hd : d ∈ g.classes) (hn : n ∈ g.namespaces) (hm : m ∈ g.namespaces) (en : n.oid = c.relnamespace)
    (em : m.oid = d.relnamespace) (e1 : n.nspname = m.nspname) (e2 : c.relname = d.relname) : c = d := by
  have : n = m := ns_inj h hn hm e1
  subst this
  exact key_inj h.class_name hc hd (by simp [← en, ← em, e2])

theorem rel_inj (h : Sound g) {s n : String} {c d : Class} (hc : g.Rel s n c) (hd : g.Rel s n d) :
    c = d := by
  obtain ⟨h1, h2, ns, h3, h4, h5⟩ := hc
  obtain ⟨h1', h2', ns', h3', h4', h5'⟩ := hd
  exact class_place h h1 h1' h3 h3' h4 h4' (h5.trans h5'.symm) (h2.trans h2'.symm)

theorem nodup_tableRows (h : Sound g) : ((tableRows g S).map fun r => (r.schema, r.name)).Nodup := by
  unfold tableRows
  refine nodup_rows h.class_oid (fun c _ => ?_) ?_
  · refine one_flatMap (one_filter_key h.ns_oid (k := c.relnamespace) (by simp)) fun n _ => ?_
    refine one_flatMap (one_leftJoin (one_flatMap (one_filter_key h.type_oid (k := c.reloftype)
      (by simp +contextual)) fun t _ => one_map (one_filter_key h.ns_oid (k := t.typnamespace)
      (by simp +contextual)))) fun _ _ => one_ite _
  · intro c hc d hd x hx y hy e
    simp only [List.mem_flatMap, List.mem_filter, decide_eq_true_eq, mem_ite] at hx hy
    obtain ⟨n, ⟨hn, en⟩, _, _, _, rfl⟩ := hx
    obtain ⟨m, ⟨hm, em⟩, _, _, _, rfl⟩ := hy
    simp only [Prod.mk.injEq] at e
    rw [class_place h hc hd hn hm en em e.1 e.2]

theorem mem_sequenceRows {r : SequenceRow} :
    r ∈ sequenceRows g S ↔ ∃ x ∈ g.sequences, ∃ c ∈ g.classes, x.seqrelid = c.oid ∧
      ∃ n ∈ g.namespaces, n.oid = c.relnamespace ∧ ∃ pa ∈ leftJoin (owners g x.seqrelid),
      ∃ t, g.types.find? (fun t => t.oid = x.seqtypid) = some t ∧ n.nspname ∈ S ∧
      r = { schema := n.nspname, name := c.relname, dataType := t.typname,
            increment := x.seqincrement, minValue := x.seqmin, maxValue := x.seqmax,
            start := x.seqstart, cache := x.seqcache, cycle := x.seqcycle,
            ownedByTableName :=
              (pa.bind fun a => g.classes.find? fun c => a.attrelid = c.oid).map (·.relname),
            ownedByColumnName := pa.map (·.attname) } := by
  simp only [sequenceRows, List.mem_flatMap, List.mem_filter, decide_eq_true_eq, mem_ite,
    Option.mem_toList]
  constructor
  · rintro ⟨x, hx, c, ⟨hc, e⟩, n, ⟨hn, en⟩, pa, hpa, t, ht, hS, rfl⟩
    exact ⟨x, hx, c, hc, e, n, hn, en, pa, hpa, t, ht, hS, rfl⟩
  · rintro ⟨x, hx, c, hc, e, n, hn, en, pa, hpa, t, ht, hS, rfl⟩
    exact ⟨x, hx, c, ⟨hc, e⟩, n, ⟨hn, en⟩, pa, hpa, t, ht, hS, rfl⟩

theorem find_key {α κ : Type} [DecidableEq κ] {l : List α} {key : α → κ} (h : (l.map key).Nodup) {x : α}
    (hx : x ∈ l) : l.find? (fun y => key y = key x) = some x := by
  have h1 : ∃ y, l.find? (fun y => key y = key x) = some y := by
    rw [← Option.isSome_iff_exists, List.find?_isSome]
    exact ⟨x, hx, by simp⟩
  obtain ⟨y, hy⟩ := h1
  have := List.find?_some hy
  rw [hy, key_inj h (List.mem_of_find?_eq_some hy) hx (by simpa using this)]

/-- The columns a sequence is joined with are its owners. -/
theorem owners_iff (h : Sound g) {o : Aggs} (hr : Readable g S o) {x : Seq} (hx : x ∈ g.sequences)
    {c : Class} (hc : c ∈ g.classes) (e : c.oid = x.seqrelid) (hin : g.In S c) :
    One (owners g x.seqrelid) ∧ ∀ a, a ∈ owners g x.seqrelid ↔ g.Owner x.seqrelid a := by
  obtain ⟨h1, h2⟩ := hr.owners x hx c hc e hin
  constructor
  · have key : ∀ l : List Depend, One (l.filter fun d => d.objid = x.seqrelid ∧ d.refobjsubid ≠ 0) →
        One ((l.filter fun d => d.objid = x.seqrelid).flatMap fun d =>
          g.attributes.filter fun a => a.attrelid = d.refobjid ∧ a.attnum = d.refobjsubid) := by
      intro l
      induction l with
      | nil => intro _; exact one_nil
      | cons d t ih =>
        intro hl
        by_cases hd : d.objid = x.seqrelid
        · by_cases hz : d.refobjsubid = 0
          · have hnil : (g.attributes.filter fun a =>
                a.attrelid = d.refobjid ∧ a.attnum = d.refobjsubid) = [] := by
              rw [List.filter_eq_nil_iff]
              intro a ha
              have := h.attr_zero a ha
              simp [hz, this]
            rw [List.filter_cons_of_pos (by simpa using hd), List.flatMap_cons, hnil, List.nil_append]
            exact ih (by rwa [List.filter_cons_of_neg (by simp [hz])] at hl)
          · rw [List.filter_cons_of_pos (by simp [hd, hz])] at hl
            have ht : (t.filter fun d => d.objid = x.seqrelid ∧ d.refobjsubid ≠ 0) = [] := by
              have : (t.filter fun d => d.objid = x.seqrelid ∧ d.refobjsubid ≠ 0).length ≤ 0 := by
                unfold One at hl; simp only [List.length_cons] at hl; omega
              exact List.eq_nil_of_length_eq_zero (Nat.le_zero.1 this)
            have hnil : ((t.filter fun d => d.objid = x.seqrelid).flatMap fun d =>
                g.attributes.filter fun a => a.attrelid = d.refobjid ∧ a.attnum = d.refobjsubid) = [] := by
              rw [List.flatMap_eq_nil_iff]
              intro d' hd'
              rw [List.filter_eq_nil_iff]
              intro a ha
              rw [List.mem_filter] at hd'
              have hz' : d'.refobjsubid = 0 := by
                by_cases hz' : d'.refobjsubid = 0
                · exact hz'
                · have : d' ∈ (t.filter fun d => d.objid = x.seqrelid ∧ d.refobjsubid ≠ 0) := by
                    rw [List.mem_filter]
                    exact ⟨hd'.1, by simpa [hz'] using hd'.2⟩
                  rw [ht] at this; cases this
              have := h.attr_zero a ha
              simp [hz', this]
            rw [List.filter_cons_of_pos (by simpa using hd), List.flatMap_cons, hnil, List.append_nil]
            exact one_filter_key h.attr_num (k := (d.refobjid, d.refobjsubid)) (by simp +contextual)
        · rw [List.filter_cons_of_neg (by simpa using hd)]
          exact ih (by rwa [List.filter_cons_of_neg (by simp [hd])] at hl)
    exact key g.depends h1
  · intro a
    simp only [owners, List.mem_flatMap, List.mem_filter, decide_eq_true_eq, System.Owner]
    constructor
    · rintro ⟨d, ⟨hd, e1⟩, ha, e2, e3⟩
      obtain ⟨h3, h4⟩ := h2 d hd e1 (by rw [← e3]; exact h.attr_zero a ha)
      exact ⟨ha, d, hd, h3, e1, h4, e2.symm, e3.symm⟩
    · rintro ⟨ha, d, hd, _, e1, _, e2, e3⟩
      exact ⟨d, ⟨hd, e1⟩, ha, e2.symm, e3.symm⟩

theorem nodup_sequenceRows (h : Sound g) {o : Aggs} (hr : Readable g S o) :
    ((sequenceRows g S).map fun r => (r.schema, r.name)).Nodup := by
  unfold sequenceRows
  refine nodup_rows h.seq_oid (fun x hx => ?_) ?_
  · by_cases hin : ∃ c ∈ g.classes, c.oid = x.seqrelid ∧ g.In S c
    · obtain ⟨c, hc, e, hin⟩ := hin
      have ho := (owners_iff h hr hx hc e hin).1
      refine one_flatMap (one_filter_key h.class_oid (k := x.seqrelid) (by simp +contextual)) fun c _ => ?_
      refine one_flatMap (one_filter_key h.ns_oid (k := c.relnamespace) (by simp)) fun n _ => ?_
      refine one_flatMap (one_leftJoin ho) fun pa _ => ?_
      exact one_flatMap (one_toList _) fun t _ => one_ite _
    · have : ∀ l : List SequenceRow, l = [] → One l := fun l hl => by rw [hl]; exact one_nil
      apply this
      rw [List.flatMap_eq_nil_iff]
      intro c hc
      rw [List.mem_filter] at hc
      rw [List.flatMap_eq_nil_iff]
      intro n hn
      rw [List.mem_filter] at hn
      rw [List.flatMap_eq_nil_iff]
      intro pa _
      rw [List.flatMap_eq_nil_iff]
      intro t _
      rw [if_neg]
      intro hS
      exact hin ⟨c, hc.1, by simpa using (by simpa using hc.2 : x.seqrelid = c.oid).symm, n, hn.1,
        by simpa using hn.2, hS⟩
  · intro x hx y hy r hr q hq e
    simp only [List.mem_flatMap, List.mem_filter, decide_eq_true_eq, mem_ite] at hr hq
    obtain ⟨c, ⟨hc, ec⟩, n, ⟨hn, en⟩, _, _, _, _, _, rfl⟩ := hr
    obtain ⟨d, ⟨hd, ed⟩, m, ⟨hm, em⟩, _, _, _, _, _, rfl⟩ := hq
    simp only [Prod.mk.injEq] at e
    rw [ec, ed, class_place h hc hd hn hm en em e.1 e.2]

/-! ### Columns -/

theorem mem_columnRows {r : ColumnRow} :
    r ∈ columnRows g S ↔ ∃ a ∈ g.attributes,
      ∃ ad ∈ leftJoin (g.attrdefs.filter fun ad => a.attrelid = ad.adrelid ∧ a.attnum = ad.adnum),
      ∃ c ∈ g.classes, a.attrelid = c.oid ∧ ∃ n ∈ g.namespaces, c.relnamespace = n.oid ∧
      ∃ t ∈ g.types, a.atttypid = t.oid ∧ ∃ m ∈ g.namespaces, t.typnamespace = m.oid ∧
      (n.otherTemp = false ∧ a.attnum > 0 ∧ a.attisdropped = false ∧ c.relkind = .table ∧
        n.nspname ∈ S) ∧
      r = { schema := n.nspname, table := c.relname, name := a.attname, default := defaultText a ad,
            notNull := a.attnotnull || (t.typdomain && t.typnotnull), dataType := typeText g a t } := by
  simp only [columnRows, List.mem_flatMap, List.mem_filter, decide_eq_true_eq, mem_ite]
  constructor
  · rintro ⟨a, ha, ad, had, c, ⟨hc, ec⟩, n, ⟨hn, en⟩, t, ⟨ht, et⟩, m, ⟨hm, em⟩, ⟨h1, h2, h3, h4, h5⟩, rfl⟩
    exact ⟨a, ha, ad, had, c, hc, ec, n, hn, en, t, ht, et, m, hm, em,
      ⟨by simpa using h1, h2, by simpa using h3, h4, h5⟩, rfl⟩
  · rintro ⟨a, ha, ad, had, c, hc, ec, n, hn, en, t, ht, et, m, hm, em, ⟨h1, h2, h3, h4, h5⟩, rfl⟩
    exact ⟨a, ha, ad, had, c, ⟨hc, ec⟩, n, ⟨hn, en⟩, t, ⟨ht, et⟩, m, ⟨hm, em⟩,
      ⟨by simpa using h1, h2, by simpa using h3, h4, h5⟩, rfl⟩

theorem nodup_columnRows (h : Sound g) :
    ((columnRows g S).map fun r => ((r.schema, r.table), r.name)).Nodup := by
  unfold columnRows
  refine nodup_rows h.attr_name (fun a _ => ?_) ?_
  · refine one_flatMap (one_leftJoin (one_filter_key h.attrdef (k := (a.attrelid, a.attnum))
      (by simp +contextual))) fun _ _ => ?_
    refine one_flatMap (one_filter_key h.class_oid (k := a.attrelid) (by simp +contextual)) fun c _ => ?_
    refine one_flatMap (one_filter_key h.ns_oid (k := c.relnamespace) (by simp +contextual)) fun n _ => ?_
    refine one_flatMap (one_filter_key h.type_oid (k := a.atttypid) (by simp +contextual)) fun t _ => ?_
    exact one_flatMap (one_filter_key h.ns_oid (k := t.typnamespace) (by simp +contextual)) fun _ _ =>
      one_ite _
  · intro a ha b hb x hx y hy e
    simp only [List.mem_flatMap, List.mem_filter, decide_eq_true_eq, mem_ite] at hx hy
    obtain ⟨_, _, c, ⟨hc, ec⟩, n, ⟨hn, en⟩, _, _, _, _, _, rfl⟩ := hx
    obtain ⟨_, _, d, ⟨hd, ed⟩, m, ⟨hm, em⟩, _, _, _, _, _, rfl⟩ := hy
    simp only [Prod.mk.injEq] at e
    rw [ec, ed, class_place h hc hd hn hm en.symm em.symm e.1.1 e.1.2, e.2]

theorem spelled_inj (h : Sound g) {ty : Nat} {m : Int} {x y : String} (hx : g.Spelled ty m x)
    (hy : g.Spelled ty m y) : x = y := by
  cases hx with
  | @plain t m ht hne =>
    generalize hq : t.oid = q at hy
    cases hy with
    | @plain u m hu hne' => rw [key_inj h.type_oid ht hu hq]
    | @array u e m hu he hz hl hm =>
      have := key_inj h.type_oid ht hu hq
      subst this
      rcases hne with h0 | h0
      · exact absurd h0 hz
      · exact absurd hl h0
  | @array t e m ht he hz hl hm =>
    generalize hq : t.oid = q at hy
    cases hy with
    | @plain u m hu hne =>
      have := key_inj h.type_oid ht hu hq
      subst this
      rcases hne with h0 | h0
      · exact absurd h0 hz
      · exact absurd hl h0
    | @array u e' m hu he' hz' hl' hm' =>
      have := key_inj h.type_oid ht hu hq
      subst this
      rw [key_inj h.type_oid hm hm' (he.symm.trans he')]

theorem modified_plain {b : String} (hb : b ∈ modifiable) : AMap.get? modified b = some b := by
  simp only [modifiable, List.mem_cons, List.not_mem_nil, or_false] at hb
  rcases hb with rfl | rfl | rfl | rfl | rfl | rfl | rfl | rfl | rfl | rfl <;> decide

theorem modified_array {b : String} (hb : b ∈ modifiable) : AMap.get? modified ("_" ++ b) = some b := by
  simp only [modifiable, List.mem_cons, List.not_mem_nil, or_false] at hb
  rcases hb with rfl | rfl | rfl | rfl | rfl | rfl | rfl | rfl | rfl | rfl <;> decide

/-- The text for the type of a column is how the type is written. -/
theorem typeText_spelled (h : Sound g) {o : Aggs} (hr : Readable g S o) {a : Attribute}
    (ha : a ∈ g.attributes) (hd : a.attisdropped = false) {c : Class} (hc : c ∈ g.classes)
    (e : c.oid = a.attrelid) (hin : g.In S c) (hk : c.relkind = .table) {t : Typ} (ht : t ∈ g.types)
    (et : t.oid = a.atttypid) :
    ∃ ty, typeText g a t = some ty ∧ g.Spelled a.atttypid a.atttypmod ty := by
  obtain ⟨h1, h2⟩ := (hr.columns a ha hd c hc e hin hk).2 t ht et
  rw [← et]
  by_cases hz : t.typelem = 0
  · have hmod : ∃ m, typeModifier g a t = some m ∧
        m = g.modifier t.typname a.atttypmod := by
      by_cases hm : a.atttypmod = -1
      · exact ⟨"", by simp [typeModifier, hm], by simp [System.modifier, hm]⟩
      · obtain ⟨b, hb, ⟨_, hn⟩ | ⟨e', he', hoid, _⟩⟩ := h2 hm
        · refine ⟨_, by rw [typeModifier, if_pos hm, hn, modified_plain hb]; rfl, ?_⟩
          simp [System.modifier, hm, hn]
        · exact absurd (hoid.trans hz) (h.type_zero e' he')
    obtain ⟨m, hm, em⟩ := hmod
    refine ⟨t.typname ++ m, ?_, ?_⟩
    · unfold typeText
      rw [typeName, if_neg (by simpa using hz), hm]
      simp [hz]
    · rw [em]
      exact .plain ht (.inl hz)
  · obtain ⟨e', he', hoid⟩ := h.type_elem t ht hz
    have hmod : ∃ m, typeModifier g a t = some m ∧
        m = g.modifier e'.typname a.atttypmod := by
      by_cases hm : a.atttypmod = -1
      · exact ⟨"", by simp [typeModifier, hm], by simp [System.modifier, hm]⟩
      · obtain ⟨b, hb, ⟨h0, _⟩ | ⟨e'', he'', hoid', hn, hn'⟩⟩ := h2 hm
        · exact absurd h0 hz
        · have := key_inj h.type_oid he' he'' (hoid.trans hoid'.symm)
          subst this
          refine ⟨_, by rw [typeModifier, if_pos hm, hn', modified_array hb]; rfl, ?_⟩
          simp [System.modifier, hm, hn]
    obtain ⟨m, hm, em⟩ := hmod
    refine ⟨e'.typname ++ m ++ "[]", ?_, ?_⟩
    · unfold typeText
      have : e'.oid ≠ 0 := h.type_zero e' he'
      rw [hm, typeName, ← hoid, find_key h.type_oid he', if_pos this]
      simp [this]
    · rw [em]
      exact .array ht hoid.symm hz (h1 hz) he'

end Sys
end Podo
