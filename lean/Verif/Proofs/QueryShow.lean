import Verif.Proofs.QueryKeys
import Verif.Props.Introspect
/-
The rows of the catalogue queries make a consistent catalogue, and what it lists is what the system tables
say.
-/
namespace Podo
namespace Sys
open Introspect

variable {g : System} {S : List String} {o : Aggs}

theorem in_of_rel {s n : String} {c : Class} (h : g.Rel s n c) (hs : s ∈ S) : g.In S c := by
  obtain ⟨_, _, ns, h1, h2, rfl⟩ := h
  exact ⟨ns, h1, h2, hs⟩

/-! ### Tables -/

theorem table_iff (hr : Readable g S o) {s n : String} :
    ⟨s, n⟩ ∈ tableRows g S ↔
      s ∈ S ∧ ∃ c, g.Rel s n c ∧ (c.relkind = .table ∨ c.relkind = .partitioned) := by
  rw [mem_tableRows]
  constructor
  · rintro ⟨c, hc, ns, hn, e, hk, _, _, hS, e'⟩
    cases e'
    exact ⟨hS, c, ⟨hc, rfl, ns, hn, e, rfl⟩, hk⟩
  · rintro ⟨hS, c, ⟨hc, rfl, ns, hn, e, rfl⟩, hk⟩
    exact ⟨c, hc, ns, hn, e, hk, hr.temp ns hn hS, .inl (hr.owned c hc ⟨ns, hn, e, hS⟩), hS, rfl⟩

/-! ### Sequences -/

theorem sequence_iff (h : Sound g) (hr : Readable g S o) {q : Sequence} :
    (∃ r ∈ sequenceRows g S, r.Describes q) ↔ q.schemaName ∈ S ∧ g.IsSequence q.schemaName q := by
  constructor
  · rintro ⟨r, hrow, d⟩
    obtain ⟨x, hx, c, hc, ec, n, hn, en, pa, hpa, t, ht, hS, rfl⟩ := mem_sequenceRows.1 hrow
    obtain ⟨d1, d2, d3, d4, d5, d6, d7, d8, d9, d10, d11⟩ := d
    dsimp only at d1 d2 d3 d4 d5 d6 d7 d8 d9 d10 d11
    obtain ⟨hone, how⟩ := owners_iff h hr hx hc ec.symm ⟨n, hn, en, hS⟩
    have hown : ∀ a, pa = some a ↔ g.Owner c.oid a := by
      intro a
      rw [← ec, ← how]
      rcases one_cases hone with he | ⟨b, hb⟩
      · rw [he] at hpa ⊢
        have : pa = none := by simpa [leftJoin] using hpa
        rw [this]; simp
      · rw [hb] at hpa ⊢
        have : pa = some b := by simpa [leftJoin] using hpa
        rw [this]; simp [eq_comm]
    refine ⟨by rw [d1]; exact hS, c, ⟨hc, d2.symm, n, hn, en, d1.symm⟩, rfl, x, hx, ec, d4, d5, d6, d7, d8, d9,
      ⟨t, List.mem_of_find?_eq_some ht, by simpa using List.find?_some ht, d3.symm⟩, ?_, ?_⟩
    · intro m
      rw [d11]
      cases pa with
      | none =>
        simp only [Option.map_none, reduceCtorEq, false_iff]
        rintro ⟨a, ha, _⟩
        have := (hown a).2 ha
        cases this
      | some b =>
        simp only [Option.map_some, Option.some_inj]
        constructor
        · exact fun e => ⟨b, (hown b).1 rfl, e⟩
        · rintro ⟨a, ha, e⟩
          have := Option.some.inj ((hown a).2 ha)
          rw [this, e]
    · intro m
      rw [d10]
      cases pa with
      | none =>
        simp only [Option.bind_none, Option.map_none, reduceCtorEq, false_iff]
        rintro ⟨a, ha, _⟩
        have := (hown a).2 ha
        cases this
      | some b =>
        obtain ⟨tc, htc, etc⟩ := h.attr_class b ((hown b).1 rfl).1
        have hf : (g.classes.find? fun c => b.attrelid = c.oid) = some tc := by
          have := find_key h.class_oid htc
          rw [← this]
          congr 1
          funext y
          rw [decide_eq_decide, etc]
          exact eq_comm
        simp only [Option.bind_some, hf, Option.map_some, Option.some_inj]
        constructor
        · exact fun e => ⟨b, (hown b).1 rfl, tc, htc, etc, e⟩
        · rintro ⟨a, ha, t', ht', et', e⟩
          have := Option.some.inj ((hown a).2 ha)
          subst this
          rw [class_inj h htc ht' (etc.trans et'.symm), e]
  · rintro ⟨hS, c, ⟨hc, e1, n, hn, en, e2⟩, _, x, hx, ec, d4, d5, d6, d7, d8, d9, ⟨t, ht, et, d3⟩, d11, d10⟩
    obtain ⟨hone, how⟩ := owners_iff h hr hx hc ec.symm ⟨n, hn, en, by rw [e2]; exact hS⟩
    obtain ⟨pa, hpa⟩ := exists_leftJoin (owners g x.seqrelid)
    have hown : ∀ a, pa = some a ↔ g.Owner c.oid a := by
      intro a
      rw [← ec, ← how]
      rcases one_cases hone with he | ⟨b, hb⟩
      · rw [he] at hpa ⊢
        have : pa = none := by simpa [leftJoin] using hpa
        rw [this]; simp
      · rw [hb] at hpa ⊢
        have : pa = some b := by simpa [leftJoin] using hpa
        rw [this]; simp [eq_comm]
    have hft : (g.types.find? fun t => t.oid = x.seqtypid) = some t := by
      have := find_key h.type_oid ht
      rw [et] at this
      exact this
    refine ⟨_, mem_sequenceRows.2 ⟨x, hx, c, hc, ec, n, hn, en, pa, hpa, t, hft, by rw [e2]; exact hS, rfl⟩, ?_⟩
    refine ⟨e2.symm, e1.symm, d3.symm, d4, d5, d6, d7, d8, d9, ?_, ?_⟩
    · refine Option.ext fun m => ?_
      rw [d10]
      cases pa with
      | none =>
        simp only [Option.bind_none, Option.map_none, reduceCtorEq, iff_false]
        rintro ⟨a, ha, _⟩
        have := (hown a).2 ha
        cases this
      | some b =>
        obtain ⟨tc, htc, etc⟩ := h.attr_class b ((hown b).1 rfl).1
        have hf : (g.classes.find? fun c => b.attrelid = c.oid) = some tc := by
          have := find_key h.class_oid htc
          rw [← this]
          congr 1
          funext y
          rw [decide_eq_decide, etc]
          exact eq_comm
        simp only [Option.bind_some, hf, Option.map_some, Option.some_inj]
        constructor
        · rintro ⟨a, ha, t', ht', et', e⟩
          have := Option.some.inj ((hown a).2 ha)
          subst this
          rw [class_inj h htc ht' (etc.trans et'.symm), e]
        · exact fun e => ⟨b, (hown b).1 rfl, tc, htc, etc, e⟩
    · refine Option.ext fun m => ?_
      rw [d11]
      cases pa with
      | none =>
        simp only [Option.map_none, reduceCtorEq, iff_false]
        rintro ⟨a, ha, _⟩
        have := (hown a).2 ha
        cases this
      | some b =>
        simp only [Option.map_some, Option.some_inj]
        constructor
        · rintro ⟨a, ha, e⟩
          have := Option.some.inj ((hown a).2 ha)
          rw [this, e]
        · exact fun e => ⟨b, (hown b).1 rfl, e⟩

/-! ### Functions -/

theorem function_iff (hr : Readable g S o) {f : Function} :
    (∃ r ∈ functionRows g S, r.Describes f) ↔ f.schemaName ∈ S ∧ g.IsFunction f.schemaName f := by
  have hret : ∀ p : Proc, (if p.proretset then "setof " ++ p.prorettype else p.prorettype) =
      (if p.proretset then "setof " else "") ++ p.prorettype := by
    intro p
    split
    · rfl
    · rw [String.empty_append]
  have hvol : ∀ v, volatilityText v = v.sql := by
    intro v
    cases v <;> rfl
  constructor
  · rintro ⟨r, hrow, d⟩
    obtain ⟨p, hp, n, hn, en, l, hl, el, hS, rfl⟩ := mem_functionRows.1 hrow
    obtain ⟨d1, d2, d3, d4, d5, d6⟩ := d
    dsimp only at d1 d2 d3 d4 d5 d6
    obtain ⟨h1, h2⟩ := hr.functions p hp ⟨n, hn, en.symm, hS⟩
    exact ⟨by rw [d1]; exact hS, rfl, p, hp, h1, h2, d2.symm, ⟨n, hn, en.symm, d1.symm⟩,
      ⟨l, hl, el.symm, d4.symm⟩, d3, by rw [d5, hret], by rw [d6, hvol]⟩
  · rintro ⟨hS, _, p, hp, _, _, d2, ⟨n, hn, en, d1⟩, ⟨l, hl, el, d4⟩, d3, d5, d6⟩
    exact ⟨_, mem_functionRows.2 ⟨p, hp, n, hn, en.symm, l, hl, el.symm, by rw [d1]; exact hS, rfl⟩,
      ⟨d1.symm, d2.symm, d3, d4.symm, by rw [d5, hret], by rw [d6, hvol]⟩⟩

/-! ### Indexes -/

theorem keys_named {rel : Nat} {ks : List Int} {es ss : List String} (h0 : (0 : Int) ∉ ks) :
    g.Keys rel ks es ss ↔ es = [] ∧ g.Named rel ks ss := by
  constructor
  · intro h
    induction h with
    | nil => exact ⟨rfl, .nil⟩
    | column hn ha e1 e2 _ ih =>
      obtain ⟨h1, h2⟩ := ih fun h => h0 (List.mem_cons_of_mem _ h)
      exact ⟨h1, .cons ha e1 e2 h2⟩
    | expression => exact absurd List.mem_cons_self h0
  · rintro ⟨rfl, h⟩
    induction h with
    | nil => exact .nil
    | @cons a n _ _ ha e1 e2 _ ih =>
      refine .column ?_ ha e1 e2 (ih fun h => h0 (List.mem_cons_of_mem _ h))
      rintro rfl
      exact h0 List.mem_cons_self

theorem keys_zero {rel : Nat} {es ss : List String} : g.Keys rel [0] es ss ↔ ∃ e, es = [e] ∧ ss = [e] := by
  constructor
  · intro h
    cases h with
    | column hn => exact absurd rfl hn
    | expression h =>
      cases h
      exact ⟨_, rfl, rfl⟩
  · rintro ⟨e, rfl, rfl⟩
    exact .expression .nil

theorem exprsText_one (e : String) : exprsText [e] = some e := rfl

/-- An index is that of no constraint if no constraint owns it. -/
theorem not_owned_iff (h : Sound g) (hr : Readable g S o) {x : Idx} (hx : x ∈ g.indexes) {c : Class}
    (hc : c ∈ g.classes) (ec : c.oid = x.indexrelid) (hin : g.In S c) :
    (∀ k ∈ g.constraints, k.conindid ≠ c.oid) ↔ ¬ g.OwnedIndex c.oid := by
  constructor
  · rintro hk ⟨k, hk', e, _⟩
    exact hk k hk' e
  · intro hno k hk e
    by_cases hf : k.contype = .foreignKey
    · obtain ⟨y, hy, ey, er⟩ := h.fk_table k hk hf
      have := key_inj h.index_oid hx hy (by rw [ey, e, ec])
      subst this
      obtain ⟨t, ht, et, hns⟩ := h.index_table x hx
      obtain ⟨ns, hns', e1, e2⟩ := hin
      obtain ⟨p, hp, hty, hi⟩ := hr.fk_key k hk hf t ht (.inr (by rw [et, er]))
        ⟨ns, hns', by rw [e1, hns c hc ec], e2⟩
      refine hno ⟨p, hp, by rw [hi, e], ?_⟩
      rcases hty with e | e <;> rw [e] <;> simp
    · exact hno ⟨k, hk, e, hf⟩

/-- The two columns of a row for an index give the keys of the index. -/
theorem index_keys_iff (h : Sound g) (ho : Lawful o) (hr : Readable g S o) {x : Idx} (hx : x ∈ g.indexes)
    {c : Class} (hc : c ∈ g.classes) (ec : c.oid = x.indexrelid) (hin : g.In S c)
    (hno : ¬ g.OwnedIndex c.oid) :
    (exprsText x.indexprs ≠ none ∨
      arrayAgg (o.index x.indexrelid) (keyNames g x.indrelid x.indkey) ≠ none) ∧
    ∀ ss, g.Keys x.indrelid (x.indkey.take x.indnkeyatts) x.indexprs ss ↔
      (∀ e, exprsText x.indexprs = some e → ss = [e]) ∧
      (exprsText x.indexprs = none →
        some ss = arrayAgg (o.index x.indexrelid) (keyNames g x.indrelid x.indkey)) := by
  obtain ⟨hl, hk⟩ := hr.indexes x hx c hc ec hin hno
  obtain ⟨hne, hat⟩ := h.index_key x hx
  have hex := h.index_exprs x hx
  rw [hl, List.take_length]
  rcases hk with hz | ⟨hz, hord⟩
  · rw [hz] at hex ⊢
    obtain ⟨e, he⟩ : ∃ e, x.indexprs = [e] := by
      match hh : x.indexprs, hex with
      | [e], _ => exact ⟨e, rfl⟩
    rw [he, exprsText_one]
    refine ⟨.inl (by simp), fun ss => ?_⟩
    rw [keys_zero]
    constructor
    · rintro ⟨e', h1, rfl⟩
      cases h1
      refine ⟨fun e' h => ?_, fun h => by cases h⟩
      cases h; rfl
    · rintro ⟨h1, _⟩
      exact ⟨e, rfl, h1 e rfl⟩
  · have hnil : x.indexprs = [] := by
      rw [List.countP_eq_zero.2 (by
        intro n hn; simp only [decide_eq_true_eq]; rintro rfl; exact hz hn)] at hex
      exact List.eq_nil_of_length_eq_zero hex
    have hnm : g.Named x.indrelid x.indkey (keyNames g x.indrelid x.indkey) := by
      refine named_keyNames h fun n hn => ?_
      rcases hat n hn with rfl | h
      · exact absurd hn hz
      · exact h
    have hagg : arrayAgg (o.index x.indexrelid) (keyNames g x.indrelid x.indkey) =
        some (keyNames g x.indrelid x.indkey) := by
      refine arrayAgg_order (ho.index _) (named_ne_nil hnm hne) ?_
      rw [named_length hnm]
      exact hord
    rw [hnil, hagg]
    refine ⟨.inr (by simp), fun ss => ?_⟩
    rw [keys_named hz]
    constructor
    · rintro ⟨_, hn⟩
      refine ⟨fun e h => (by cases h), fun _ => ?_⟩
      rw [named_inj h hn hnm]
    · rintro ⟨_, h1⟩
      refine ⟨rfl, ?_⟩
      rw [Option.some.inj (h1 rfl)]
      exact hnm

theorem index_iff (h : Sound g) (ho : Lawful o) (hr : Readable g S o) {i : Index} :
    (∃ r ∈ indexRows g S o, r.Describes i) ↔ i.schemaName ∈ S ∧ g.IsIndex i.schemaName i := by
  constructor
  · rintro ⟨r, hrow, d⟩
    obtain ⟨x, hx, c, hc, ec, n, hn, en, t, ht, et, am, ham, eam, hno, hS, rfl⟩ := mem_indexRows.1 hrow
    obtain ⟨d1, d2, d3, d4, d5, d6, d7⟩ := d
    dsimp only at d1 d2 d3 d4 d5 d6 d7
    have hin : g.In S c := ⟨n, hn, en.symm, hS⟩
    have hno' := (not_owned_iff h hr hx hc ec hin).1 hno
    exact ⟨by rw [d1]; exact hS, c, ⟨hc, d2.symm, n, hn, en.symm, d1.symm⟩, rfl, hno', x, hx, ec.symm, d4,
      t, ht, et, d3.symm, am, ham, eam, d5.symm, ((index_keys_iff h ho hr hx hc ec hin hno').2 _).2 ⟨d6, d7⟩⟩
  · rintro ⟨hS, c, ⟨hc, e1, n, hn, en, e2⟩, _, hno', x, hx, ec, d4, t, ht, et, d3, am, ham, eam, d5, hk⟩
    have hin : g.In S c := ⟨n, hn, en, by rw [e2]; exact hS⟩
    have hkk := ((index_keys_iff h ho hr hx hc ec.symm hin hno').2 _).1 hk
    exact ⟨_, mem_indexRows.2 ⟨x, hx, c, hc, ec.symm, n, hn, en.symm, t, ht, et, am, ham, eam,
      (not_owned_iff h hr hx hc ec.symm hin).2 hno', by rw [e2]; exact hS, rfl⟩,
      ⟨e2.symm, e1.symm, d3.symm, d4, d5.symm, hkk.1, hkk.2⟩⟩

/-! ### Columns -/

theorem describes_column_inj {r : ColumnRow} {a b : Column} (ha : r.Describes a) (hb : r.Describes b) :
    a = b := by
  obtain ⟨a1, a2, a3, a4, a5, a6, a7⟩ := ha
  obtain ⟨b1, b2, b3, b4, b5, b6, b7⟩ := hb
  have hd : a.default = b.default := by
    rw [← b6] at a6
    cases hx : a.default <;> cases hy : b.default <;> rw [hx, hy] at a6 <;> simp_all
  have ht := Option.some.inj (a4.trans b4.symm)
  cases a; cases b
  simp_all

theorem mem_describeColumns {rs : List ColumnRow} {cs : List Column} (h : DescribeColumns rs cs)
    {col : Column} : col ∈ cs ↔ ∃ r ∈ rs, r.Describes col := by
  induction h with
  | nil => simp
  | @cons r c rs cs hd _ ih =>
    rw [List.mem_cons, ih]
    constructor
    · rintro (rfl | ⟨r', h1, h2⟩)
      · exact ⟨r, List.mem_cons_self, hd⟩
      · exact ⟨r', List.mem_cons_of_mem _ h1, h2⟩
    · rintro ⟨r', h1, h2⟩
      rcases List.mem_cons.1 h1 with rfl | h1
      · exact .inl (describes_column_inj h2 hd)
      · exact .inr ⟨r', h1, h2⟩

/-- The default in a row, which has to be read as "none" if it is empty. -/
theorem default_iff (h : Sound g) {a : Attribute} (hgen : a.generated = false) {ad : Option Attrdef}
    (had : ad ∈ leftJoin (g.attrdefs.filter fun ad => a.attrelid = ad.adrelid ∧ a.attnum = ad.adnum))
    {d : Option String} :
    (d.getD "" = defaultText a ad ∧ d ≠ some "") ↔
      ∀ e, d = some e ↔ ∃ ad ∈ g.attrdefs, ad.adrelid = a.attrelid ∧ ad.adnum = a.attnum ∧ ad.expr = e := by
  have hdt : defaultText a ad = (ad.map (·.expr)).getD "" := by simp [defaultText, hgen]
  rw [hdt]
  have hone : One (g.attrdefs.filter fun ad => a.attrelid = ad.adrelid ∧ a.attnum = ad.adnum) :=
    one_filter_key h.attrdef (k := (a.attrelid, a.attnum)) (by simp +contextual)
  have hspec : ∀ e, (∃ ad ∈ g.attrdefs, ad.adrelid = a.attrelid ∧ ad.adnum = a.attnum ∧ ad.expr = e) ↔
      ad.map (·.expr) = some e := by
    intro e
    have hmem : ∀ x, x ∈ (g.attrdefs.filter fun ad => a.attrelid = ad.adrelid ∧ a.attnum = ad.adnum) ↔
        x ∈ g.attrdefs ∧ x.adrelid = a.attrelid ∧ x.adnum = a.attnum := by
      intro x
      rw [List.mem_filter, decide_eq_true_eq]
      constructor <;> rintro ⟨h1, h2, h3⟩ <;> exact ⟨h1, h2.symm, h3.symm⟩
    rcases one_cases hone with hf | ⟨y, hf⟩ <;> rw [hf] at had hmem
    · have hno : ad = none := by simpa [leftJoin] using had
      rw [hno]
      simp only [Option.map_none, reduceCtorEq, iff_false]
      rintro ⟨x, h1, h2, h3, _⟩
      have := (hmem x).2 ⟨h1, h2, h3⟩
      cases this
    · have hy : ad = some y := by simpa [leftJoin] using had
      rw [hy]
      simp only [Option.map_some, Option.some_inj]
      constructor
      · rintro ⟨x, h1, h2, h3, h4⟩
        have := (hmem x).2 ⟨h1, h2, h3⟩
        rw [List.mem_singleton] at this
        rw [← this, h4]
      · intro h4
        obtain ⟨h1, h2, h3⟩ := (hmem y).1 List.mem_cons_self
        exact ⟨y, h1, h2, h3, h4⟩
  have hne : ad.map (·.expr) ≠ some "" := by
    intro he
    obtain ⟨x, h1, _, _, h4⟩ := (hspec "").2 he
    exact h.attrdef_text x h1 h4
  simp only [hspec]
  generalize ad.map (·.expr) = v at hne
  constructor
  · rintro ⟨h1, h2⟩ e
    have : d = v := by
      cases hx : d <;> cases hy : v <;> rw [hx, hy] at h1 <;> simp_all
    rw [this]
  · intro hh
    have : d = v := Option.ext hh
    rw [this]
    exact ⟨rfl, hne⟩

theorem column_iff (h : Sound g) (hr : Readable g S o) {s n : String} (hs : s ∈ S) {c : Class}
    (hc : g.Rel s n c) (hk : c.relkind = .table) {col : Column} :
    (∃ r ∈ columnRows g S, (r.schema = s ∧ r.table = n) ∧ r.Describes col) ↔ g.IsColumn s c col := by
  have hin := in_of_rel hc hs
  constructor
  · rintro ⟨r, hrow, ⟨e1, e2⟩, d⟩
    obtain ⟨a, ha, ad, had, c', hc', ec', ns, hn, en, t, ht, et, m, hm, em, ⟨_, hpos, hdr, _, hS⟩, rfl⟩ :=
      mem_columnRows.1 hrow
    dsimp only at e1 e2
    have hcc : c' = c := rel_inj h ⟨hc', e2, ns, hn, en.symm, e1⟩ hc
    subst hcc
    obtain ⟨d1, d2, d3, d4, d5, d6, d7⟩ := d
    dsimp only at d1 d2 d3 d4 d5 d6
    have hgen := (hr.columns a ha hdr c' hc' ec'.symm hin hk).1
    obtain ⟨ty, hty, hsp⟩ := typeText_spelled h hr ha hdr hc' ec'.symm hin hk ht et.symm
    rw [hty] at d4
    cases d4
    refine ⟨by rw [d1, e1], d2, a, ha, ec', hpos, hdr, hgen, d3.symm, hsp, ?_, (default_iff h hgen had).1 ⟨d6, d7⟩⟩
    rw [d5]
    simp only [Bool.or_eq_true, Bool.and_eq_true]
    constructor
    · rintro (h1 | ⟨h1, h2⟩)
      · exact .inl h1
      · exact .inr ⟨t, ht, et.symm, h1, h2⟩
    · rintro (h1 | ⟨t', ht', et', h1, h2⟩)
      · exact .inl h1
      · have := key_inj h.type_oid ht ht' (et.symm.trans et'.symm)
        subst this
        exact .inr ⟨h1, h2⟩
  · rintro ⟨d1, d2, a, ha, ea, hpos, hdr, hgen, d3, hsp, d5, dd⟩
    obtain ⟨hc1, hc2, ns, hn, en, hns⟩ := hc
    obtain ⟨t, ht, et⟩ := h.attr_type a ha hdr
    obtain ⟨m, hm, em⟩ := h.type_ns t ht
    obtain ⟨ad, had⟩ := exists_leftJoin (g.attrdefs.filter fun ad => a.attrelid = ad.adrelid ∧ a.attnum = ad.adnum)
    obtain ⟨ty, hty, hsp'⟩ := typeText_spelled h hr ha hdr hc1 ea.symm hin hk ht et
    have hS : ns.nspname ∈ S := by rw [hns]; exact hs
    obtain ⟨d6, d7⟩ := (default_iff h hgen had).2 dd
    refine ⟨_, mem_columnRows.2 ⟨a, ha, ad, had, c, hc1, ea, ns, hn, en.symm, t, ht, et.symm, m, hm, em.symm,
      ⟨hr.temp ns hn hS, hpos, hdr, hk, hS⟩, rfl⟩, ⟨hns, hc2⟩, ⟨d1.trans hns.symm, d2, d3.symm, ?_, ?_, d6, d7⟩⟩
    · rw [hty, spelled_inj h hsp hsp']
    · rw [Bool.eq_iff_iff, d5]
      simp only [Bool.or_eq_true, Bool.and_eq_true]
      constructor
      · rintro (h1 | ⟨t', ht', et', h1, h2⟩)
        · exact .inl h1
        · have := key_inj h.type_oid ht ht' (et.trans et'.symm)
          subst this
          exact .inr ⟨h1, h2⟩
      · rintro (h1 | ⟨h1, h2⟩)
        · exact .inl h1
        · exact .inr ⟨t, ht, et, h1, h2⟩

/-! ### Constraints -/

theorem key_columns (h : Sound g) (ho : Lawful o) (hr : Readable g S o) {k : Con} (hk : k ∈ g.constraints)
    (ht : k.contype ≠ .check ∧ k.contype ≠ .other) {c : Class} (hc : c ∈ g.classes) (ec : c.oid = k.conrelid)
    (hin : g.In S c) :
    ∃ ss, (arrayAgg (o.key k.oid) (keyNames g k.conrelid k.conkey)).getD [] = ss ∧
      g.Named c.oid k.conkey ss := by
  obtain ⟨hne, hat⟩ := h.con_key k hk ht.1 ht.2
  have hnm : g.Named k.conrelid k.conkey (keyNames g k.conrelid k.conkey) := by
    refine named_keyNames h fun n hn => ?_
    obtain ⟨a, ha, e1, e2, _⟩ := hat n hn
    exact ⟨a, ha, e1, e2⟩
  refine ⟨keyNames g k.conrelid k.conkey, ?_, by rw [ec]; exact hnm⟩
  rw [arrayAgg_order (ho.key _) (named_ne_nil hnm hne) (by
    rw [named_length hnm]; exact hr.keys k hk c hc ec hin)]
  rfl

theorem key_kind (h : Sound g) {k : Con} (hk : k ∈ g.constraints) (ht : k.contype ≠ .check) {c : Class}
    (hc : c ∈ g.classes) (ec : c.oid = k.conrelid) : c.relkind = .table ∨ c.relkind = .partitioned := by
  obtain ⟨c', hc', ec', _, hkind⟩ := h.con_class k hk
  rw [class_inj h hc hc' (ec.trans ec'.symm)]
  exact hkind ht

/-- The row for a key. -/
theorem keyRow_iff (h : Sound g) (ho : Lawful o) (hr : Readable g S o) {ty : ConType}
    (hty : ty ≠ .check ∧ ty ≠ .other) {s n : String} (hs : s ∈ S) {c : Class} (hc : g.Rel s n c)
    {name : String} {cols : List String} {df idf : Bool} :
    (∃ r ∈ keyRows g S o ty, r.schema = s ∧ r.tableName = n ∧ r.name = name ∧ r.tableColumns = cols ∧
      r.deferrable = df ∧ r.initiallyDeferred = idf) ↔
    ∃ k ∈ g.constraints, k.contype = ty ∧ k.conrelid = c.oid ∧ k.conname = name ∧
      g.Named c.oid k.conkey cols ∧ k.condeferrable = df ∧ k.condeferred = idf := by
  have hin := in_of_rel hc hs
  constructor
  · rintro ⟨r, hrow, e1, e2, e3, e4, e5, e6⟩
    obtain ⟨k, hk, ns, hn, en, c', hc', ec', m, hm, em, ⟨h1, h2, _, _, h5⟩, rfl⟩ := mem_keyRows.1 hrow
    dsimp only at e1 e2 e3 e4 e5 e6
    have hcc : c' = c :=
      rel_inj h ⟨hc', e2, ns, hn, en.trans (ns_of_con h hk hc' ec'.symm).symm, e1⟩ hc
    subst hcc
    obtain ⟨ss, hss, hnm⟩ := key_columns h ho hr hk (by rw [h1]; exact hty) hc' ec'.symm hin
    rw [hss] at e4
    subst e4
    exact ⟨k, hk, h1, ec', e3, hnm, e5, e6⟩
  · rintro ⟨k, hk, h1, ec, e3, hnm, e5, e6⟩
    obtain ⟨hc1, hc2, ns, hn, en, hns⟩ := hc
    obtain ⟨ss, hss, hnm'⟩ := key_columns h ho hr hk (by rw [h1]; exact hty) hc1 ec.symm hin
    have hS : ns.nspname ∈ S := by rw [hns]; exact hs
    exact ⟨_, mem_keyRows.2 ⟨k, hk, ns, hn, en.trans (ns_of_con h hk hc1 ec.symm), c, hc1, ec, ns, hn, en,
      ⟨h1, key_kind h hk (by rw [h1]; exact hty.1) hc1 ec.symm, hr.temp ns hn hS, .inl (hr.owned c hc1 hin), hS⟩,
      rfl⟩, hns, hc2, e3, hss.trans (named_inj h hnm' hnm), e5, e6⟩

theorem matchText_sql {m : MatchType} (h : m ≠ .simple) : matchText m = m.sql := by
  cases m <;> first | rfl | exact absurd rfl h

theorem actionText_sql (a : Action) : actionText a = a.sql := by cases a <;> rfl

/-- The row for a foreign key. -/
theorem foreignKeyRow_iff (h : Sound g) (ho : Lawful o) (hr : Readable g S o) {s n : String} (hs : s ∈ S)
    {c : Class} (hc : g.Rel s n c) {fk : ForeignKey} :
    (∃ r ∈ foreignKeyRows g S o, (r.constraintSchema = s ∧ r.constraintTableName = n) ∧ r.Describes fk) ↔
    ∃ k ∈ g.constraints, k.contype = .foreignKey ∧ k.conrelid = c.oid ∧ g.Named c.oid k.conkey fk.columns ∧
      ∃ fc, g.Rel fk.targetSchema fk.targetTable fc ∧ fc.oid = k.confrelid ∧
      g.Named fc.oid k.confkey fk.targetColumns ∧ fk.schemaName = s ∧ fk.tableName = c.relname ∧
      fk.name = k.conname ∧ fk.matchOption = k.confmatchtype.sql ∧ fk.updateRule = k.confupdtype.sql ∧
      fk.deleteRule = k.confdeltype.sql ∧ fk.deferrable = k.condeferrable ∧
      fk.initiallyDeferred = k.condeferred := by
  have hin := in_of_rel hc hs
  constructor
  · rintro ⟨r, hrow, ⟨e1, e2⟩, d⟩
    obtain ⟨k, hk, ns, hn, en, c', hc', ec', fc, hfc, efc, pkc, hpkc, npkc, hnpkc, ⟨h1, h2, h3⟩, rfl⟩ :=
      mem_foreignKeyRows.1 hrow
    dsimp only [fkRow] at e1 e2
    have hcc : c' = c :=
      rel_inj h ⟨hc', e2, ns, hn, en.trans (ns_of_con h hk hc' ec'.symm).symm, e1⟩ hc
    subst hcc
    obtain ⟨p, hp, hpt, hpi⟩ := hr.fk_key k hk h1 c' hc' (.inl ec'.symm) hin
    rw [targetKeys_eq h hk h1 hp hpt hpi, List.mem_singleton] at hpkc
    subst hpkc
    obtain ⟨d1, d2, d3, d4, d5, d6, d7, d8, d9, d10, d11, d12⟩ := d
    dsimp only [fkRow] at d1 d2 d3 d4 d5 d6 d7 d8 d9 d10 d11 d12
    obtain ⟨ss, hss, hnm⟩ := key_columns h ho hr hk (by rw [h1]; simp) hc' ec'.symm hin
    obtain ⟨ts, hts, htn⟩ := targetNames_named h ho hr hk h1 hc' ec'.symm hin hp hpt hpi efc.symm
    obtain ⟨hpr, _⟩ := h.fk_columns k hk h1 p hp hpt hpi
    rw [hss] at d4
    rw [Option.bind_some, hts] at d7
    cases d7
    have hns : ∃ m ∈ g.namespaces, m.oid = fc.relnamespace ∧ m.nspname = fk.targetSchema := by
      cases npkc with
      | none => cases d5
      | some m =>
        have hfs := Option.some.inj d5
        rcases mem_leftJoin.1 hnpkc with ⟨_, e⟩ | ⟨x, hx, e⟩
        · cases e
        · cases e
          rw [List.mem_filter, decide_eq_true_eq] at hx
          have hmo := Option.some.inj hx.2
          exact ⟨m, hx.1, by rw [ns_of_con h hp hfc (by rw [hpr, efc]), ← hmo], hfs.symm⟩
    obtain ⟨m, hm, em, hms⟩ := hns
    refine ⟨k, hk, h1, ec', by rw [d4]; exact hnm, fc, ⟨hfc, d6.symm, m, hm, em, hms⟩, efc.symm, htn, by rw [d1, e1],
      d2, d3, by rw [d8, matchText_sql (hr.fk k hk h1 c' hc' ec'.symm hin).1], by rw [d9, actionText_sql],
      by rw [d10, actionText_sql], d11, d12⟩
  · rintro ⟨k, hk, h1, ec, hnm, fc, ⟨hfc1, hfc2, m, hm, em, hms⟩, efc, htn, d1, d2, d3, d8, d9, d10, d11, d12⟩
    obtain ⟨hc1, hc2, ns, hn, en, hns⟩ := hc
    have hS : ns.nspname ∈ S := by rw [hns]; exact hs
    obtain ⟨p, hp, hpt, hpi⟩ := hr.fk_key k hk h1 c hc1 (.inl ec.symm) hin
    obtain ⟨ss, hss, hnm'⟩ := key_columns h ho hr hk (by rw [h1]; simp) hc1 ec.symm hin
    obtain ⟨ts, hts, htn'⟩ := targetNames_named h ho hr hk h1 hc1 ec.symm hin hp hpt hpi efc
    obtain ⟨hpr, _⟩ := h.fk_columns k hk h1 p hp hpt hpi
    refine ⟨_, mem_foreignKeyRows.2 ⟨k, hk, ns, hn, en.trans (ns_of_con h hk hc1 ec.symm), c, hc1, ec, fc, hfc1,
      efc.symm, some p, by rw [targetKeys_eq h hk h1 hp hpt hpi]; simp, some m, ?_,
      ⟨h1, .inl (hr.owned c hc1 hin), hS⟩, rfl⟩, ⟨hns, hc2⟩, ?_⟩
    · refine mem_leftJoin.2 (.inr ⟨m, ?_, rfl⟩)
      rw [List.mem_filter, decide_eq_true_eq]
      exact ⟨hm, by rw [Option.map_some, em, ns_of_con h hp hfc1 (by rw [hpr, efc])]⟩
    · refine ⟨d1.trans hns.symm, d2, d3, ?_, ?_, hfc2.symm, ?_, ?_, ?_, ?_, d11, d12⟩
      · exact (named_inj h hnm hnm').trans hss.symm
      · exact congrArg some hms.symm
      · dsimp only [fkRow]
        rw [Option.bind_some, hts, named_inj h htn htn']
      · dsimp only [fkRow]
        rw [matchText_sql (hr.fk k hk h1 c hc1 ec.symm hin).1, d8]
      · dsimp only [fkRow]
        rw [actionText_sql, d9]
      · dsimp only [fkRow]
        rw [actionText_sql, d10]

theorem afterCheck_append (e : String) : afterCheck ("CHECK " ++ e) = e := by
  unfold afterCheck
  rw [String.toList_append]
  show String.ofList ((['C', 'H', 'E', 'C', 'K', ' '] ++ e.toList).drop 6) = e
  simp

/-- The row for a check. -/
theorem checkRow_iff (h : Sound g) (hr : Readable g S o) {s n : String} (hs : s ∈ S) {c : Class}
    (hc : g.Rel s n c) {name e : String} {df idf : Bool} :
    (∃ r ∈ checkRows g S, r.schema = s ∧ r.table = n ∧ r.name = name ∧ r.checkClause = e ∧
      r.isDeferrable = df ∧ r.initiallyDeferred = idf) ↔
    ∃ k ∈ g.constraints, k.contype = .check ∧ k.conrelid = c.oid ∧ k.conname = name ∧
      k.condef = "CHECK " ++ e ∧ k.condeferrable = df ∧ k.condeferred = idf := by
  have hin := in_of_rel hc hs
  constructor
  · rintro ⟨r, hrow, e1, e2, e3, e4, e5, e6⟩
    obtain ⟨k, hk, ns, hn, en, c', hc', ec', ⟨h1, h2, h3, h4⟩, rfl⟩ := mem_checkRows.1 hrow
    dsimp only at e1 e2 e3 e4 e5 e6
    have hcc : c' = c :=
      rel_inj h ⟨hc', e2, ns, hn, en.trans (ns_of_con h hk hc' ec').symm, e1⟩ hc
    subst hcc
    obtain ⟨x, hx⟩ := h.con_check k hk h2
    rw [hx, afterCheck_append] at e4
    subst e4
    exact ⟨k, hk, h2, ec'.symm, e3, hx, e5, e6⟩
  · rintro ⟨k, hk, h1, ec, e3, e4, e5, e6⟩
    obtain ⟨hc1, hc2, ns, hn, en, hns⟩ := hc
    have hS : ns.nspname ∈ S := by rw [hns]; exact hs
    exact ⟨_, mem_checkRows.2 ⟨k, hk, ns, hn, en.trans (ns_of_con h hk hc1 ec.symm), c, hc1, ec.symm,
      ⟨hr.owned c hc1 hin, h1, h.con_zero k hk, hS⟩, rfl⟩, hns, hc2, e3, by
        dsimp only; rw [e4, afterCheck_append], e5, e6⟩

/-- The constraints listed for a table are its constraints. -/
theorem constraint_iff (h : Sound g) (ho : Lawful o) (hr : Readable g S o) {cat : Catalog}
    (hg : Gives g S o cat) {s n : String} (hs : s ∈ S) {c : Class} (hc : g.Rel s n c) {k : Constraint} :
    (k.schemaName = s ∧ k.tableName = n ∧ Lists cat k) ↔ g.IsConstraint s c k := by
  have hn : c.relname = n := hc.2.1
  constructor
  · rintro ⟨e1, e2, hl⟩
    cases hl with
    | @primaryKey r p hr' d =>
      obtain ⟨d1, d2, d3, d4, d5, d6⟩ := d
      obtain ⟨q, hq, f1, f2, f3, f4, f5, f6⟩ := (keyRow_iff h ho hr (ty := .primaryKey) (by simp) hs hc).1
        ⟨r, hg.primaryKeys.mem_iff.1 hr', d1.symm.trans e1, d2.symm.trans e2, d3.symm, d4.symm, d5.symm, d6.symm⟩
      have := System.IsConstraint.primaryKey (s := s) (c := c) hq f1 f2 f4
      rw [f3, f5, f6, hn, ← e1, ← e2] at this
      rw [← e1]
      exact this
    | @unique r p hr' d =>
      obtain ⟨d1, d2, d3, d4, d5, d6⟩ := d
      obtain ⟨q, hq, f1, f2, f3, f4, f5, f6⟩ := (keyRow_iff h ho hr (ty := .unique) (by simp) hs hc).1
        ⟨r, hg.uniques.mem_iff.1 hr', d1.symm.trans e1, d2.symm.trans e2, d3.symm, d4.symm, d5.symm, d6.symm⟩
      have := System.IsConstraint.unique (s := s) (c := c) hq f1 f2 f4
      rw [f3, f5, f6, hn, ← e1, ← e2] at this
      rw [← e1]
      exact this
    | @foreignKey r p hr' d =>
      obtain ⟨q, hq, f1, f2, f3, fc, f4, f5, f6, f7, f8, f9, f10, f11, f12, f13, f14⟩ :=
        (foreignKeyRow_iff h ho hr hs hc).1 ⟨r, hg.foreignKeys.mem_iff.1 hr',
          ⟨d.schema.symm.trans e1, d.table.symm.trans e2⟩, d⟩
      have := System.IsConstraint.foreignKey (s := s) (c := c) hq f1 f2 f3 f4 f5 f6
      rw [← f7, ← f8, ← f9, ← f10, ← f11, ← f12, ← f13, ← f14] at this
      rw [← e1]
      exact this
    | @check r p hr' d =>
      obtain ⟨d1, d2, d3, d4, d5, d6⟩ := d
      obtain ⟨q, hq, f1, f2, f3, f4, f5, f6⟩ := (checkRow_iff h hr hs hc).1
        ⟨r, hg.checks.mem_iff.1 hr', d1.symm.trans e1, d2.symm.trans e2, d3.symm, d4.symm, d5.symm, d6.symm⟩
      have := System.IsConstraint.check (s := s) (c := c) hq f1 f2 f4
      rw [f3, f5, f6, hn, ← e1, ← e2] at this
      rw [← e1]
      exact this
  · intro hk
    cases hk with
    | @primaryKey k cols hk h1 h2 h3 =>
      refine ⟨rfl, hn, ?_⟩
      obtain ⟨r, hr', e1, e2, e3, e4, e5, e6⟩ := (keyRow_iff h ho hr (ty := .primaryKey) (by simp) hs hc).2
        ⟨k, hk, h1, h2, rfl, h3, rfl, rfl⟩
      exact .primaryKey (hg.primaryKeys.mem_iff.2 hr')
        ⟨e1.symm, hn.trans e2.symm, e3.symm, e4.symm, e5.symm, e6.symm⟩
    | @unique k cols hk h1 h2 h3 =>
      refine ⟨rfl, hn, ?_⟩
      obtain ⟨r, hr', e1, e2, e3, e4, e5, e6⟩ := (keyRow_iff h ho hr (ty := .unique) (by simp) hs hc).2
        ⟨k, hk, h1, h2, rfl, h3, rfl, rfl⟩
      exact .unique (hg.uniques.mem_iff.2 hr')
        ⟨e1.symm, hn.trans e2.symm, e3.symm, e4.symm, e5.symm, e6.symm⟩
    | @foreignKey k cols ts tt fc tcols hk h1 h2 h3 h4 h5 h6 =>
      refine ⟨rfl, hn, ?_⟩
      obtain ⟨r, hr', _, d⟩ := (foreignKeyRow_iff h ho hr hs hc (fk := {
        schemaName := s, tableName := c.relname, name := k.conname,
        columns := cols, targetSchema := ts, targetTable := tt, targetColumns := tcols,
        matchOption := k.confmatchtype.sql, updateRule := k.confupdtype.sql,
        deleteRule := k.confdeltype.sql, deferrable := k.condeferrable,
        initiallyDeferred := k.condeferred })).2
        ⟨k, hk, h1, h2, h3, fc, h4, h5, h6, rfl, rfl, rfl, rfl, rfl, rfl, rfl, rfl⟩
      exact .foreignKey (hg.foreignKeys.mem_iff.2 hr') d
    | @check k e hk h1 h2 h3 =>
      refine ⟨rfl, hn, ?_⟩
      obtain ⟨r, hr', e1, e2, e3, e4, e5, e6⟩ := (checkRow_iff h hr hs hc).2
        ⟨k, hk, h1, h2, rfl, h3, rfl, rfl⟩
      exact .check (hg.checks.mem_iff.2 hr')
        ⟨e1.symm, hn.trans e2.symm, e3.symm, e4.symm, e5.symm, e6.symm⟩

/-! ### The catalogue -/

/-- The kinds of relations at the places the three queries list. -/
theorem sequence_place (h : Sound g) {r : SequenceRow} (hr : r ∈ sequenceRows g S) :
    r.schema ∈ S ∧ ∃ c, g.Rel r.schema r.name c ∧ c.relkind = .sequence := by
  obtain ⟨x, hx, c, hc, ec, n, hn, en, _, _, _, _, hS, rfl⟩ := mem_sequenceRows.1 hr
  obtain ⟨c', hc', ec', hk⟩ := h.seq_class x hx
  rw [class_inj h hc' hc (ec'.trans ec)] at hk
  exact ⟨hS, c, ⟨hc, rfl, n, hn, en, rfl⟩, hk⟩

theorem index_place (h : Sound g) {r : IndexRow} (hr : r ∈ indexRows g S o) :
    r.schemaName ∈ S ∧ ∃ c, g.Rel r.schemaName r.indexName c ∧ c.relkind = .index := by
  obtain ⟨x, hx, c, hc, ec, n, hn, en, _, _, _, _, _, _, _, hS, rfl⟩ := mem_indexRows.1 hr
  obtain ⟨c', hc', ec', hk, _⟩ := h.index_class x hx
  rw [class_inj h hc' hc (ec'.trans ec.symm)] at hk
  exact ⟨hS, c, ⟨hc, rfl, n, hn, en.symm, rfl⟩, hk⟩

theorem schema_of_rel {s n : String} {c : Class} (h : g.Rel s n c) (hs : s ∈ S) : s ∈ schemaRows g S := by
  obtain ⟨_, _, ns, h1, _, h3⟩ := h
  exact mem_schemaRows.2 ⟨hs, ns, h1, h3⟩

theorem nodup_append {α : Type} {l m : List α} (h1 : l.Nodup) (h2 : m.Nodup)
    (h3 : ∀ x ∈ l, x ∈ m → False) : (l ++ m).Nodup := by
  rw [List.nodup_append]
  exact ⟨h1, h2, fun x hx y hy e => h3 x hx (e ▸ hy)⟩

theorem constraint_on_table (h : Sound g) (hr : Readable g S o) {k : Con}
    {p : (String × String) × String} (hk : ConAt g k p) (hS : p.1.1 ∈ S) : ⟨p.1.1, p.1.2⟩ ∈ tableRows g S := by
  obtain ⟨h1, _, c, h2, h3⟩ := hk
  refine (table_iff hr).2 ⟨hS, c, h2, ?_⟩
  by_cases hc : k.contype = .check
  · exact .inl (hr.checks k h1 hc c h2.1 h3 (in_of_rel h2 hS))
  · exact key_kind h h1 hc h2.1 h3

theorem gives_consistent (h : Sound g) (ho : Lawful o) (hr : Readable g S o) {c : Catalog}
    (hg : Gives g S o c) : c.Consistent := by
  have hseq : (c.sequences.map fun r => (r.schema, r.name)).Perm _ := hg.sequences.map _
  have htab : (c.tables.map fun r => (r.schema, r.name)).Perm _ := hg.tables.map _
  have hidx : (c.indexes.map fun r => (r.schemaName, r.indexName)).Perm _ := hg.indexes.map _
  have hcolm := hg.columns.map fun r => ((r.schema, r.table), r.name)
  have hpk := hg.primaryKeys.map fun r => ((r.schema, r.tableName), r.name)
  have hfk := hg.foreignKeys.map fun r => ((r.constraintSchema, r.constraintTableName), r.constraintName)
  have huq := hg.uniques.map fun r => ((r.schema, r.tableName), r.name)
  have hck := hg.checks.map fun r => ((r.schema, r.table), r.name)
  -- the kinds of relations and constraints tell the lists apart
  have pseq : ∀ p ∈ c.sequences.map (fun r => (r.schema, r.name)), p.1 ∈ S ∧
      ∃ cl, g.Rel p.1 p.2 cl ∧ cl.relkind = .sequence := by
    intro p hp
    obtain ⟨r, hr', rfl⟩ := List.mem_map.1 (hseq.mem_iff.1 hp)
    exact sequence_place h hr'
  have ptab : ∀ p ∈ c.tables.map (fun r => (r.schema, r.name)), p.1 ∈ S ∧
      ∃ cl, g.Rel p.1 p.2 cl ∧ (cl.relkind = .table ∨ cl.relkind = .partitioned) := by
    intro p hp
    obtain ⟨r, hr', rfl⟩ := List.mem_map.1 (htab.mem_iff.1 hp)
    exact (table_iff hr).1 hr'
  have pidx : ∀ p ∈ c.indexes.map (fun r => (r.schemaName, r.indexName)), p.1 ∈ S ∧
      ∃ cl, g.Rel p.1 p.2 cl ∧ cl.relkind = .index := by
    intro p hp
    obtain ⟨r, hr', rfl⟩ := List.mem_map.1 (hidx.mem_iff.1 hp)
    exact index_place h hr'
  have ppk : ∀ p ∈ c.primaryKeys.map (fun r => ((r.schema, r.tableName), r.name)), p.1.1 ∈ S ∧
      ∃ k, ConAt g k p ∧ k.contype = .primaryKey := by
    intro p hp
    obtain ⟨r, hr', rfl⟩ := List.mem_map.1 (hpk.mem_iff.1 hp)
    obtain ⟨k, h1, h2, h3, _⟩ := keyRow_at h hr'
    exact ⟨h3, k, h1, h2⟩
  have pfk : ∀ p ∈ c.foreignKeys.map (fun r =>
      ((r.constraintSchema, r.constraintTableName), r.constraintName)), p.1.1 ∈ S ∧
      ∃ k, ConAt g k p ∧ k.contype = .foreignKey := by
    intro p hp
    obtain ⟨r, hr', rfl⟩ := List.mem_map.1 (hfk.mem_iff.1 hp)
    obtain ⟨k, h1, h2, h3⟩ := foreignKeyRow_at h hr'
    exact ⟨h3, k, h1, h2⟩
  have puq : ∀ p ∈ c.uniques.map (fun r => ((r.schema, r.tableName), r.name)), p.1.1 ∈ S ∧
      ∃ k, ConAt g k p ∧ k.contype = .unique := by
    intro p hp
    obtain ⟨r, hr', rfl⟩ := List.mem_map.1 (huq.mem_iff.1 hp)
    obtain ⟨k, h1, h2, h3, _⟩ := keyRow_at h hr'
    exact ⟨h3, k, h1, h2⟩
  have pck : ∀ p ∈ c.checks.map (fun r => ((r.schema, r.table), r.name)), p.1.1 ∈ S ∧
      ∃ k, ConAt g k p ∧ k.contype = .check := by
    intro p hp
    obtain ⟨r, hr', rfl⟩ := List.mem_map.1 (hck.mem_iff.1 hp)
    obtain ⟨k, h1, h2, h3⟩ := checkRow_at h hr'
    exact ⟨h3, k, h1, h2⟩
  have apart : ∀ {p : (String × String) × String} {ty ty' : ConType}, ty ≠ ty' →
      (∃ k, ConAt g k p ∧ k.contype = ty) → (∃ k, ConAt g k p ∧ k.contype = ty') → False := by
    rintro p ty ty' hne ⟨k, h1, rfl⟩ ⟨k', h2, rfl⟩
    exact hne (by rw [conAt_inj h h1 h2])
  refine
    { schemas := hg.schemas.nodup_iff.2 (nodup_schemaRows h)
      relations := ?_
      functions := (hg.functions.map _).nodup_iff.2 (nodup_functionRows h hr)
      columns := hcolm.nodup_iff.2 (nodup_columnRows h)
      constraints := ?_
      relation_schema := ?_
      function_schema := ?_
      column_table := ?_
      constraint_table := ?_
      column_type := ?_
      target := ?_
      index_keys := ?_ }
  · refine nodup_append (nodup_append (hseq.nodup_iff.2 (nodup_sequenceRows h hr))
      (htab.nodup_iff.2 (nodup_tableRows h)) ?_) (hidx.nodup_iff.2 (nodup_indexRows h)) ?_
    · intro p h1 h2
      obtain ⟨_, a, ha, ka⟩ := pseq p h1
      obtain ⟨_, b, hb, kb⟩ := ptab p h2
      rw [rel_inj h ha hb] at ka
      rcases kb with kb | kb <;> rw [ka] at kb <;> cases kb
    · intro p h1 h2
      obtain ⟨_, b, hb, kb⟩ := pidx p h2
      rcases List.mem_append.1 h1 with h1 | h1
      · obtain ⟨_, a, ha, ka⟩ := pseq p h1
        rw [rel_inj h ha hb, kb] at ka
        cases ka
      · obtain ⟨_, a, ha, ka⟩ := ptab p h1
        rw [rel_inj h ha hb, kb] at ka
        rcases ka with ka | ka <;> cases ka
  · refine nodup_append (nodup_append (nodup_append (hpk.nodup_iff.2 (nodup_keyRows h))
      (hfk.nodup_iff.2 (nodup_foreignKeyRows h hr)) ?_) (huq.nodup_iff.2 (nodup_keyRows h)) ?_)
      (hck.nodup_iff.2 (nodup_checkRows h)) ?_
    · exact fun p h1 h2 => apart (by simp) (ppk p h1).2 (pfk p h2).2
    · intro p h1 h2
      rcases List.mem_append.1 h1 with h1 | h1
      · exact apart (by simp) (ppk p h1).2 (puq p h2).2
      · exact apart (by simp) (pfk p h1).2 (puq p h2).2
    · intro p h1 h2
      rcases List.mem_append.1 h1 with h1 | h1
      · rcases List.mem_append.1 h1 with h1 | h1
        · exact apart (by simp) (ppk p h1).2 (pck p h2).2
        · exact apart (by simp) (pfk p h1).2 (pck p h2).2
      · exact apart (by simp) (puq p h1).2 (pck p h2).2
  · intro p hp
    rw [hg.schemas.mem_iff]
    rcases List.mem_append.1 hp with hp | hp
    · rcases List.mem_append.1 hp with hp | hp
      · obtain ⟨h1, _, h2, _⟩ := pseq p hp
        exact schema_of_rel h2 h1
      · obtain ⟨h1, _, h2, _⟩ := ptab p hp
        exact schema_of_rel h2 h1
    · obtain ⟨h1, _, h2, _⟩ := pidx p hp
      exact schema_of_rel h2 h1
  · intro p hp
    rw [hg.schemas.mem_iff]
    obtain ⟨r, hr', rfl⟩ := List.mem_map.1 ((hg.functions.map _).mem_iff.1 hp)
    obtain ⟨_, _, n, hn, _, _, _, _, hS, rfl⟩ := mem_functionRows.1 hr'
    exact mem_schemaRows.2 ⟨hS, n, hn, rfl⟩
  · intro p hp
    rw [hg.tables.mem_iff]
    obtain ⟨r, hr', rfl⟩ := List.mem_map.1 (hcolm.mem_iff.1 hp)
    obtain ⟨_, _, _, _, cl, hc, _, n, hn, en, _, _, _, _, _, _, ⟨_, _, _, hk, hS⟩, rfl⟩ := mem_columnRows.1 hr'
    exact (table_iff hr).2 ⟨hS, cl, ⟨hc, rfl, n, hn, en.symm, rfl⟩, .inl hk⟩
  · intro p hp
    rw [hg.tables.mem_iff]
    have : p.1.1 ∈ S ∧ ∃ k, ConAt g k p := by
      rcases List.mem_append.1 hp with hp | hp
      · rcases List.mem_append.1 hp with hp | hp
        · rcases List.mem_append.1 hp with hp | hp
          · obtain ⟨h1, k, h2, _⟩ := ppk p hp; exact ⟨h1, k, h2⟩
          · obtain ⟨h1, k, h2, _⟩ := pfk p hp; exact ⟨h1, k, h2⟩
        · obtain ⟨h1, k, h2, _⟩ := puq p hp; exact ⟨h1, k, h2⟩
      · obtain ⟨h1, k, h2, _⟩ := pck p hp; exact ⟨h1, k, h2⟩
    obtain ⟨h1, k, h2⟩ := this
    exact constraint_on_table h hr h2 h1
  · intro r hr'
    obtain ⟨a, ha, ad, _, cl, hc, ec, n, hn, en, t, ht, et, _, _, _, ⟨_, _, hd, hk, hS⟩, rfl⟩ :=
      mem_columnRows.1 (hg.columns.mem_iff.1 hr')
    obtain ⟨ty, hty, _⟩ := typeText_spelled h hr ha hd hc ec.symm ⟨n, hn, en.symm, hS⟩ hk ht et.symm
    dsimp only
    rw [hty]
    simp
  · intro r hr'
    obtain ⟨k, hk, n, hn, en, cl, hc, ec, fc, hfc, efc, pkc, hpkc, npkc, hnpkc, ⟨h1, _, hS⟩, rfl⟩ :=
      mem_foreignKeyRows.1 (hg.foreignKeys.mem_iff.1 hr')
    have hin := in_of_con h hk hn en hS hc ec.symm
    obtain ⟨p, hp, hpt, hpi⟩ := hr.fk_key k hk h1 cl hc (.inl ec.symm) hin
    rw [targetKeys_eq h hk h1 hp hpt hpi, List.mem_singleton] at hpkc
    subst hpkc
    obtain ⟨ts, hts, _⟩ := targetNames_named h ho hr hk h1 hc ec.symm hin hp hpt hpi efc.symm
    dsimp only [fkRow]
    rw [Option.bind_some, hts]
    refine ⟨?_, by simp⟩
    obtain ⟨pc, hpc, epc, ens, _⟩ := h.con_class p hp
    obtain ⟨m, hm, em⟩ := h.class_ns pc hpc
    rcases mem_leftJoin.1 hnpkc with ⟨he, _⟩ | ⟨x, _, rfl⟩
    · exfalso
      have : m ∈ g.namespaces.filter fun npkc => (some p).map (·.connamespace) = some npkc.oid := by
        rw [List.mem_filter, decide_eq_true_eq]
        exact ⟨hm, by rw [Option.map_some, em, ens]⟩
      rw [he] at this
      cases this
    · simp
  · intro r hr'
    obtain ⟨x, hx, cl, hc, ec, n, hn, en, t, ht, et, am, ham, eam, hno, hS, rfl⟩ :=
      mem_indexRows.1 (hg.indexes.mem_iff.1 hr')
    have hin : g.In S cl := ⟨n, hn, en.symm, hS⟩
    exact (index_keys_iff h ho hr hx hc ec hin ((not_owned_iff h hr hx hc ec hin).1 hno)).1

/-- What a snapshot of the rows holds is what the system tables say. -/
theorem represents_shows (h : Sound g) (ho : Lawful o) (hr : Readable g S o) {c : Catalog}
    (hg : Gives g S o c) {d : Database} (hd : Represents c d) : Shows g S d := by
  have htab : ∀ s n, (∃ t, HasRelation d s n (.table t)) ↔
      s ∈ S ∧ ∃ c, g.Rel s n c ∧ (c.relkind = .table ∨ c.relkind = .partitioned) := by
    intro s n
    rw [hd.tables, hg.tables.mem_iff, table_iff hr]
  have hrel : ∀ s n t, HasRelation d s n (.table t) →
      s ∈ S ∧ ∃ c, g.Rel s n c ∧ c.relkind = .table := by
    intro s n t ht
    obtain ⟨hS, cl, hcl, hk⟩ := (htab s n).1 ⟨t, ht⟩
    refine ⟨hS, cl, hcl, ?_⟩
    rcases hk with hk | hk
    · exact hk
    · exact absurd hk (hr.kinds cl hcl.1 (in_of_rel hcl hS)).2
  refine
    { schemas := fun s => by rw [hd.schemas, hg.schemas.mem_iff, mem_schemaRows]
      tables := htab
      columns := ?_
      constraints := ?_
      indexes := ?_
      sequences := ?_
      views := ?_
      functions := ?_ }
  · intro s n t ht col
    obtain ⟨hS, cl, hcl, hk⟩ := hrel s n t ht
    rw [mem_describeColumns (hd.columns s n t ht)]
    constructor
    · rintro ⟨r, hr', hdc⟩
      rw [List.mem_filter, decide_eq_true_eq] at hr'
      exact ⟨cl, hcl, (column_iff h hr hS hcl hk).1 ⟨r, hg.columns.mem_iff.1 hr'.1, hr'.2, hdc⟩⟩
    · rintro ⟨cl', hcl', hcol⟩
      rw [rel_inj h hcl' hcl] at hcol
      obtain ⟨r, hr', e, hdc⟩ := (column_iff h hr hS hcl hk).2 hcol
      refine ⟨r, ?_, hdc⟩
      rw [List.mem_filter, decide_eq_true_eq]
      exact ⟨hg.columns.mem_iff.2 hr', e⟩
  · intro s n t ht m k
    obtain ⟨hS, cl, hcl, hk⟩ := hrel s n t ht
    rw [hd.constraints s n t ht]
    constructor
    · rintro ⟨e1, e2, e3, hl⟩
      exact ⟨e3, cl, hcl, (constraint_iff h ho hr hg hS hcl).1 ⟨e1, e2, hl⟩⟩
    · rintro ⟨e3, cl', hcl', hkk⟩
      rw [rel_inj h hcl' hcl] at hkk
      obtain ⟨e1, e2, hl⟩ := (constraint_iff h ho hr hg hS hcl).2 hkk
      exact ⟨e1, e2, e3, hl⟩
  · intro s n i
    rw [hd.indexes]
    have := index_iff h ho hr (i := i)
    constructor
    · rintro ⟨rfl, e, r, hr', hdc⟩
      obtain ⟨h1, h2⟩ := this.1 ⟨r, hg.indexes.mem_iff.1 hr', hdc⟩
      exact ⟨h1, e, h2⟩
    · rintro ⟨h1, e, h2⟩
      have es : i.schemaName = s := by
        obtain ⟨_, _, es, _⟩ := h2
        exact es
      subst es
      obtain ⟨r, hr', hdc⟩ := this.2 ⟨h1, h2⟩
      exact ⟨rfl, e, r, hg.indexes.mem_iff.2 hr', hdc⟩
  · intro s n q
    rw [hd.sequences]
    have := sequence_iff h hr (q := q)
    constructor
    · rintro ⟨rfl, e, r, hr', hdc⟩
      obtain ⟨h1, h2⟩ := this.1 ⟨r, hg.sequences.mem_iff.1 hr', hdc⟩
      exact ⟨h1, e, h2⟩
    · rintro ⟨h1, e, h2⟩
      have es : q.schemaName = s := by
        obtain ⟨_, _, es, _⟩ := h2
        exact es
      subst es
      obtain ⟨r, hr', hdc⟩ := this.2 ⟨h1, h2⟩
      exact ⟨rfl, e, r, hg.sequences.mem_iff.2 hr', hdc⟩
  · intro s n v
    constructor
    · intro hv
      exact absurd hv (hd.views s n v)
    · rintro ⟨hS, _, _, cl, hcl, hk, _⟩
      exact absurd hk (hr.kinds cl hcl.1 (in_of_rel hcl hS)).1
  · intro s n f
    rw [hd.functions]
    have := function_iff hr (f := f)
    constructor
    · rintro ⟨rfl, e, r, hr', hdc⟩
      obtain ⟨h1, h2⟩ := this.1 ⟨r, hg.functions.mem_iff.1 hr', hdc⟩
      exact ⟨h1, e, h2⟩
    · rintro ⟨h1, e, h2⟩
      have es : f.schemaName = s := h2.1
      subst es
      obtain ⟨r, hr', hdc⟩ := this.2 ⟨h1, h2⟩
      exact ⟨rfl, e, r, hg.functions.mem_iff.2 hr', hdc⟩

end Sys
end Podo
