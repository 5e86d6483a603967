import Verif.Spec.Along
import Verif.Proofs.Keeping
/-
What the text of a change can be read as, for constraints; and where the changes of a diff stand.
-/
namespace Podo
open Pg Change

theorem place_quoted {c : Change} {n : String} (h : n ∈ c.place) : n ∈ c.quotedNames := by
  cases c <;> simp only [Change.place, Change.quotedNames, List.mem_cons, List.not_mem_nil, or_false] at h ⊢ <;>
    first | exact h | (rcases h with h | h <;> simp [h])

theorem reads_addConstraint {c : Change} (hp : ∀ n ∈ c.quotedNames, plain n) {s t k : String} {r : List Char}
    (hr : r.head? ≠ some '"')
    (e : c.renderSql.toList = "ALTER TABLE ".toList ++ ((qualified s t).toList ++
      (" ADD CONSTRAINT ".toList ++ ((quoted k).toList ++ r)))) : c.AddsConstraint s t k := by
  obtain ⟨r', h, e⟩ := alter_inv (fun n hn => hp n (place_quoted hn)) (by simp) e
  cases c
  case addColumn => cases h; replace e := congrArg (List.take 8) e; simp at e
  case setNotNull => cases h; replace e := congrArg (List.take 8) e; simp at e
  case setDataType => cases h; replace e := congrArg (List.take 8) e; simp at e
  case dropColumn => cases h; replace e := congrArg (List.take 8) e; simp at e
  case renameColumn => cases h; replace e := congrArg (List.take 8) e; simp at e
  case addPrimaryKey =>
    cases h
    simp only [String.toList_append, List.append_assoc] at e
    obtain ⟨rfl, -⟩ := quoted_split (hp _ (.tail _ (.tail _ (.head _)))) hr (by simp) (List.append_cancel_left e).symm
    exact ⟨rfl, rfl, rfl⟩
  case alterPrimaryKey => cases h; replace e := congrArg (List.take 8) e; simp at e
  case dropPrimaryKey => cases h; replace e := congrArg (List.take 8) e; simp at e
  case addUnique =>
    cases h
    simp only [String.toList_append, List.append_assoc] at e
    obtain ⟨rfl, -⟩ := quoted_split (hp _ (.tail _ (.tail _ (.head _)))) hr (by simp) (List.append_cancel_left e).symm
    exact ⟨rfl, rfl, rfl⟩
  case alterUnique => cases h; replace e := congrArg (List.take 8) e; simp at e
  case dropUnique => cases h; replace e := congrArg (List.take 8) e; simp at e
  case addForeignKey =>
    cases h
    simp only [String.toList_append, List.append_assoc] at e
    obtain ⟨rfl, -⟩ := quoted_split (hp _ (.tail _ (.tail _ (.head _)))) hr (by simp) (List.append_cancel_left e).symm
    exact ⟨rfl, rfl, rfl⟩
  case alterForeignKey => cases h; replace e := congrArg (List.take 8) e; simp at e
  case dropForeignKey => cases h; replace e := congrArg (List.take 8) e; simp at e
  case addCheck =>
    cases h
    simp only [String.toList_append, List.append_assoc] at e
    obtain ⟨rfl, -⟩ := quoted_split (hp _ (.tail _ (.tail _ (.head _)))) hr (by simp) (List.append_cancel_left e).symm
    exact ⟨rfl, rfl, rfl⟩
  case alterCheck => cases h; replace e := congrArg (List.take 8) e; simp at e
  case dropCheck => cases h; replace e := congrArg (List.take 8) e; simp at e
  case setDefault d => cases d <;> (cases h; replace e := congrArg (List.take 8) e; simp at e)
  case createSchema => cases h
  case dropSchema => cases h
  case createTable => cases h
  case dropTable => cases h
  case createFunction => cases h
  case dropFunction => cases h
  case createView => cases h
  case dropView => cases h
  case createIndex => cases h
  case dropIndex => cases h
  case createSequence => cases h
  case dropSequence => cases h

theorem reads_dropConstraint {c : Change} (hp : ∀ n ∈ c.quotedNames, plain n) {s t k : String} {r : List Char}
    (hr : r.head? ≠ some '"')
    (e : c.renderSql.toList = "ALTER TABLE ".toList ++ ((qualified s t).toList ++
      (" DROP CONSTRAINT ".toList ++ ((quoted k).toList ++ r)))) : c.DropsConstraint s t k := by
  obtain ⟨r', h, e⟩ := alter_inv (fun n hn => hp n (place_quoted hn)) (by simp) e
  cases c
  case addColumn => cases h; replace e := congrArg (List.take 9) e; simp at e
  case setNotNull => cases h; replace e := congrArg (List.take 9) e; simp at e
  case setDataType => cases h; replace e := congrArg (List.take 9) e; simp at e
  case dropColumn => cases h; replace e := congrArg (List.take 9) e; simp at e
  case renameColumn => cases h; replace e := congrArg (List.take 9) e; simp at e
  case addPrimaryKey => cases h; replace e := congrArg (List.take 9) e; simp at e
  case alterPrimaryKey => cases h; replace e := congrArg (List.take 9) e; simp at e
  case dropPrimaryKey =>
    cases h
    simp only [String.toList_append, List.append_assoc] at e
    obtain ⟨rfl, -⟩ := quoted_split (hp _ (.tail _ (.tail _ (.head _)))) hr (by simp) (List.append_cancel_left e).symm
    exact ⟨rfl, rfl, rfl⟩
  case addUnique => cases h; replace e := congrArg (List.take 9) e; simp at e
  case alterUnique => cases h; replace e := congrArg (List.take 9) e; simp at e
  case dropUnique =>
    cases h
    simp only [String.toList_append, List.append_assoc] at e
    obtain ⟨rfl, -⟩ := quoted_split (hp _ (.tail _ (.tail _ (.head _)))) hr (by simp) (List.append_cancel_left e).symm
    exact ⟨rfl, rfl, rfl⟩
  case addForeignKey => cases h; replace e := congrArg (List.take 9) e; simp at e
  case alterForeignKey => cases h; replace e := congrArg (List.take 9) e; simp at e
  case dropForeignKey =>
    cases h
    simp only [String.toList_append] at e
    obtain ⟨rfl, -⟩ := quoted_split (b := []) (hp _ (.tail _ (.tail _ (.head _)))) hr (by simp) (by
      rw [List.append_nil]; exact (List.append_cancel_left e).symm)
    exact ⟨rfl, rfl, rfl⟩
  case addCheck => cases h; replace e := congrArg (List.take 9) e; simp at e
  case alterCheck => cases h; replace e := congrArg (List.take 9) e; simp at e
  case dropCheck =>
    cases h
    simp only [String.toList_append, List.append_assoc] at e
    obtain ⟨rfl, -⟩ := quoted_split (hp _ (.tail _ (.tail _ (.head _)))) hr (by simp) (List.append_cancel_left e).symm
    exact ⟨rfl, rfl, rfl⟩
  case setDefault d => cases d <;> (cases h; replace e := congrArg (List.take 9) e; simp at e)
  case createSchema => cases h
  case dropSchema => cases h
  case createTable => cases h
  case dropTable => cases h
  case createFunction => cases h
  case dropFunction => cases h
  case createView => cases h
  case dropView => cases h
  case createIndex => cases h
  case dropIndex => cases h
  case createSequence => cases h
  case dropSequence => cases h

theorem says_text {c k : Change} (h : Says c.renderSql k) : ∃ (st : Stmt) (e : String), Does st k ∧
    e.toList.head? ≠ some '"' ∧ c.renderSql.toList = st.text.toList ++ e.toList := by
  obtain ⟨st, hd, h⟩ := h
  rcases h with h | h
  · exact ⟨st, "", hd, by simp, by rw [h]; simp⟩
  · exact ⟨st, ";", hd, by simp, by rw [h]; simp⟩

theorem says_adds {c k : Change} (hp : ∀ n ∈ c.quotedNames, plain n) (h : Says c.renderSql k)
    {s t n : String} (ht : k.AddsConstraint s t n) : c.AddsConstraint s t n := by
  obtain ⟨st, e, hd, he, hq⟩ := says_text h
  cases k <;> simp only [Change.AddsConstraint] at ht
  case addPrimaryKey =>
    obtain ⟨k, _, _, _, rfl⟩ := hd
    obtain ⟨rfl, rfl, rfl⟩ := ht
    rw [text_addPrimaryKey] at hq
    simp only [String.toList_append, List.append_assoc] at hq
    exact reads_addConstraint hp (by simp) hq
  case addUnique =>
    obtain ⟨k, _, _, _, rfl⟩ := hd
    obtain ⟨rfl, rfl, rfl⟩ := ht
    rw [text_addUnique] at hq
    simp only [String.toList_append, List.append_assoc] at hq
    exact reads_addConstraint hp (by simp) hq
  case addForeignKey =>
    obtain ⟨m', u', d', k, _, _, _, _, _, rfl⟩ := hd
    obtain ⟨rfl, rfl, rfl⟩ := ht
    rw [text_addForeignKey] at hq
    simp only [String.toList_append, List.append_assoc] at hq
    exact reads_addConstraint hp (by simp) hq
  case addCheck =>
    obtain ⟨x, k, _, _, _, rfl⟩ := hd
    obtain ⟨rfl, rfl, rfl⟩ := ht
    rw [text_addCheck] at hq
    simp only [String.toList_append, List.append_assoc] at hq
    exact reads_addConstraint hp (by simp) hq

theorem says_drops {c k : Change} (hp : ∀ n ∈ c.quotedNames, plain n) (h : Says c.renderSql k)
    {s t n : String} (ht : k.DropsConstraint s t n) : c.DropsConstraint s t n := by
  obtain ⟨st, e, hd, he, hq⟩ := says_text h
  cases k <;> simp only [Change.DropsConstraint] at ht <;>
  · cases hd
    obtain ⟨rfl, rfl, rfl⟩ := ht
    rw [text_dropConstraint] at hq
    simp only [String.toList_append, List.append_assoc] at hq
    exact reads_dropConstraint hp he hq

theorem says_renames {c : Change} (hp : ∀ n ∈ c.quotedNames, plain n) {s t a b : String}
    (h : Says c.renderSql (.renameColumn s t a b)) : ∃ b', c = .renameColumn s t a b' := by
  obtain ⟨st, e, hd, he, hq⟩ := says_text h
  cases hd
  rw [text_renameColumn] at hq
  simp only [String.toList_append, List.append_assoc] at hq
  obtain ⟨b', rfl, _⟩ := reads_renameColumn (fun n hn => hp n (place_quoted hn)) (by simp) hq
  exact ⟨b', rfl⟩

theorem says_dropsColumn {c : Change} (hp : ∀ n ∈ c.quotedNames, plain n) {s t k : String}
    (h : Says c.renderSql (.dropColumn s t k)) : c = .dropColumn s t k := by
  obtain ⟨st, e, hd, he, hq⟩ := says_text h
  cases hd
  rw [text_dropColumn] at hq
  simp only [String.toList_append, List.append_assoc] at hq
  exact reads_dropColumn (fun n hn => hp n (place_quoted hn)) he hq

theorem says_dropsTable {c : Change} (hp : ∀ n ∈ c.quotedNames, plain n) {s t : String}
    (h : Says c.renderSql (.dropTable s t)) : c = .dropTable s t := by
  obtain ⟨st, e, hd, he, hq⟩ := says_text h
  cases hd
  rw [text_dropTable] at hq
  simp only [String.toList_append, List.append_assoc] at hq
  exact reads_dropTable (fun n hn => hp n (place_quoted hn)) he hq

/-! ### Where the changes of a diff stand -/

open Diff

/-- `m` stands in `l`, and everything around it satisfies `P`. -/
def Around {α : Type} (P : α → Prop) (l m : List α) : Prop :=
  ∃ p q, l = p ++ m ++ q ∧ (∀ c ∈ p, P c) ∧ ∀ c ∈ q, P c

theorem Around.rfl {α : Type} {P : α → Prop} {l : List α} : Around P l l := ⟨[], [], by simp, by simp, by simp⟩

theorem Around.trans {α : Type} {P : α → Prop} {l m o : List α} (h : Around P l m) (h' : Around P m o) :
    Around P l o := by
  obtain ⟨p, q, rfl, h1, h2⟩ := h
  obtain ⟨p', q', rfl, h3, h4⟩ := h'
  refine ⟨p ++ p', q' ++ q, by simp, ?_, ?_⟩ <;>
  · intro c hc
    rcases List.mem_append.1 hc with hc | hc
    all_goals first | exact h1 c hc | exact h2 c hc | exact h3 c hc | exact h4 c hc

theorem Around.left {α : Type} {P : α → Prop} {a l : List α} (h : ∀ c ∈ a, P c) : Around P (a ++ l) l :=
  ⟨a, [], by simp, h, by simp⟩

theorem Around.right {α : Type} {P : α → Prop} {a l : List α} (h : ∀ c ∈ a, P c) : Around P (l ++ a) l :=
  ⟨[], a, by simp, by simp, h⟩

theorem Around.flatMap {α β : Type} {P : β → Prop} {m : AMap α} (hm : m.NodupKeys) {k : String} {v : α}
    (hv : (k, v) ∈ m) {f : String × α → List β} (hf : ∀ p ∈ m, p.1 ≠ k → ∀ c ∈ f p, P c) :
    Around P (m.flatMap f) (f (k, v)) := by
  obtain ⟨l1, l2, hl⟩ := List.append_of_mem hv
  have hnd : (m.map Prod.fst).Nodup := hm
  rw [hl, List.map_append, List.map_cons, List.nodup_append, List.nodup_cons] at hnd
  refine ⟨l1.flatMap f, l2.flatMap f, ?_, ?_, ?_⟩
  · rw [hl, List.flatMap_append, List.flatMap_cons]; simp
  · intro c hc
    obtain ⟨p, hp, hc⟩ := List.mem_flatMap.1 hc
    exact hf p (by rw [hl]; exact List.mem_append_left _ hp)
      (hnd.2.2 _ (List.mem_map_of_mem hp) _ List.mem_cons_self) c hc
  · intro c hc
    obtain ⟨p, hp, hc⟩ := List.mem_flatMap.1 hc
    refine hf p (by rw [hl]; exact List.mem_append_right _ (List.mem_cons_of_mem _ hp)) ?_ c hc
    intro e
    have := List.mem_map_of_mem (f := Prod.fst) hp
    rw [e] at this
    exact hnd.2.1.1 this

/-- Everything a diff says about a table that both snapshots have stands in one place. -/
theorem diff_around {s t : Database} (hs : s.WF) (ht : t.WF) {n r : String} {a b : Schema} {x y : Table}
    (ha : s.schemas.get? n = some a) (hx : a.relations.get? r = some (.table x))
    (hb : t.schemas.get? n = some b) (hy : b.relations.get? r = some (.table y)) :
    Around (Away n r) (compareDiff s t) (tableUpdate x y) := by
  have hma := AMap.mem_of_get? ha
  have hmx := AMap.mem_of_get? hx
  have hna : a.name = n := (hs.home _ hma).1
  have hnb : b.name = n := (ht.home _ (AMap.mem_of_get? hb)).1
  have hwa : a.WF := (hs.home _ hma).2
  have hwb : b.WF := (ht.home _ (AMap.mem_of_get? hb)).2
  have hnx : (Relation.table x).name = r := (hwa.rels_home _ hmx).1
  rw [compareDiff_split]
  refine (Around.left fun c hc => ?_).trans ((Around.flatMap hs.nodup hma fun p hp hne c hc => ?_).trans ?_)
  · obtain ⟨m, hm, h, _⟩ := newSchemas_mem ht hc
    refine away_inSch h ?_ r
    rintro rfl
    rw [ha] at hm
    cases hm
  · exact away_inSch (schemaPart_mem hs ht hp hc) (Ne.symm hne) r
  · have e : schemaPart t (n, a) = schemaUpdate a b := by
      simp only [schemaPart, hna, hb]
    rw [e, schemaUpdate_split]
    refine (Around.right fun c hc => away_funSchema (funPart_schema hwa hwb (hna.trans hnb.symm) hc) n r).trans
      ((Around.left fun c hc => (relsAdded_schema hwb hc).2.2 r (by rw [hx]; simp) n).trans
      ((Around.flatMap hwa.rels_nodup hmx fun p hp hne c hc =>
        away_inRel (relsUpdated_mem hwa hwb (hna.trans hnb.symm) hp hc).2.1 (Ne.symm hne)).trans ?_))
    simp only [hnx, hy]
    exact Around.rfl

theorem away_not {c : Change} {n r m : String} (h : Away n r c) :
    ¬ c.AddsConstraint n r m ∧ ¬ c.DropsConstraint n r m := by
  constructor <;> intro hd <;> cases c <;> simp only [Change.AddsConstraint, Change.DropsConstraint] at hd <;>
  · obtain ⟨rfl, rfl, rfl⟩ := hd
    exact (h _ (List.mem_singleton.2 rfl)).2 ⟨rfl, rfl⟩

theorem colTable_not {c : Change} {p : String × String} (h : colTable c = some p) (n r m : String) :
    ¬ c.AddsConstraint n r m ∧ ¬ c.DropsConstraint n r m := by
  constructor <;> intro hd <;> cases c <;> simp [colTable] at h <;> exact hd

theorem create_named {o : Constraint} {c : Change} (hc : c ∈ constraintCreate o) {n r m : String} :
    (c.AddsConstraint n r m → m = o.name) ∧ ¬ c.DropsConstraint n r m := by
  cases o <;> (cases List.mem_singleton.1 hc; exact ⟨fun h => h.2.2, id⟩)

theorem drop_named {o : Constraint} {c : Change} (hc : c ∈ constraintDrop o) {n r m : String} :
    ¬ c.AddsConstraint n r m ∧ (c.DropsConstraint n r m → m = o.name) := by
  cases o <;> (cases List.mem_singleton.1 hc; exact ⟨id, fun h => h.2.2⟩)

theorem update_cases (o o' : Constraint) : (∀ c ∈ constraintUpdate o o', ∀ n r m, ¬ c.AddsConstraint n r m ∧
    ¬ c.DropsConstraint n r m) ∨ constraintUpdate o o' = constraintDrop o ++ constraintCreate o' := by
  cases o <;> cases o' <;> first
    | exact .inr rfl
    | (simp only [constraintUpdate, primaryKeyUpdate, uniqueUpdate, foreignKeyUpdate, checkUpdate]
       split
       · exact .inr rfl
       · split
         · left; intro c hc; cases List.mem_singleton.1 hc; exact fun _ _ _ => ⟨id, id⟩
         · left; intro c hc; cases hc)

theorem update_untimed {o o' : Constraint} (h1 : o.schemaName = o'.schemaName) (h2 : o.tableName = o'.tableName)
    (h3 : o.name = o'.name) (h : o'.untimed ≠ o.untimed) :
    constraintUpdate o o' = constraintDrop o ++ constraintCreate o' := by
  cases o <;> cases o' <;> first
    | rfl
    | (simp only [constraintUpdate, primaryKeyUpdate, uniqueUpdate, foreignKeyUpdate, checkUpdate]
       split
       · rfl
       · next hc =>
         exfalso
         simp only [ne_eq, not_or, Decidable.not_not, Constraint.schemaName, Constraint.tableName, Constraint.name] at hc h1 h2 h3
         apply h
         simp [Constraint.untimed, *])

/-- What a diff of two tables says about a constraint: it is dropped, and perhaps added, in one place. -/
theorem cons_around {x y : Table} (hx : x.WF) (hy : y.WF) (h1 : x.schemaName = y.schemaName) (h2 : x.name = y.name)
    {m : String} {o : Constraint} (ho : x.constraints.get? m = some o)
    (ho' : ∀ o', y.constraints.get? m = some o' → o'.untimed ≠ o.untimed) (n r : String) :
    ∃ rest, Around (fun c => ¬ c.AddsConstraint n r m ∧ ¬ c.DropsConstraint n r m) (consPart x y)
      (constraintDrop o ++ rest) ∧ ∀ c ∈ rest, ¬ c.DropsConstraint n r m := by
  have hom := AMap.mem_of_get? ho
  obtain ⟨a1, a2, a3⟩ := hx.cons_home _ hom
  have hup : ∀ p ∈ y.constraints, p.1 ≠ m → ∀ c ∈ (match x.constraints.get? p.2.name with
      | some si => constraintUpdate si p.2
      | none => constraintCreate p.2), ¬ c.AddsConstraint n r m ∧ ¬ c.DropsConstraint n r m := by
    intro p hp hne c hc
    have hpn := (hy.cons_home p hp).1
    have hcr : ∀ c ∈ constraintCreate p.2, ¬ c.AddsConstraint n r m ∧ ¬ c.DropsConstraint n r m := fun c hc =>
      ⟨fun h => hne ((create_named hc).1 h ▸ hpn.symm), (create_named hc).2⟩
    split at hc
    · next si hsi =>
      have hsn : si.name = p.2.name := (hx.cons_home _ (AMap.mem_of_get? hsi)).1
      rcases update_cases si p.2 with h | h
      · exact h c hc n r m
      · rw [h] at hc
        rcases List.mem_append.1 hc with hc | hc
        · exact ⟨(drop_named hc).1, fun h => hne (((drop_named hc).2 h).trans (hsn.trans hpn)).symm⟩
        · exact hcr c hc
    · exact hcr c hc
  have hdn : ∀ p ∈ x.constraints, p.1 ≠ m → ∀ c ∈ (if y.hasConstraint p.2.name then [] else constraintDrop p.2),
      ¬ c.AddsConstraint n r m ∧ ¬ c.DropsConstraint n r m := by
    intro p hp hne c hc
    split at hc
    · cases hc
    · exact ⟨(drop_named hc).1, fun h => hne (((drop_named hc).2 h).trans (hx.cons_home p hp).1).symm⟩
  unfold consPart
  rw [flatMap_values, flatMap_values]
  cases e : y.constraints.get? m with
  | none =>
    refine ⟨[], (Around.left fun c hc => ?_).trans ((Around.flatMap hx.cons_nodup hom hdn).trans ?_), by simp⟩
    · obtain ⟨p, hp, hc⟩ := List.mem_flatMap.1 hc
      refine hup p hp ?_ c hc
      rintro rfl
      rw [AMap.get?_of_mem hy.cons_nodup hp] at e
      cases e
    · have : y.hasConstraint m = false := by simp [Table.hasConstraint, AMap.has, e]
      simp only [show o.name = m from a1, this, List.append_nil]
      exact Around.rfl
  | some o' =>
    have hom' := AMap.mem_of_get? e
    obtain ⟨b1, b2, b3⟩ := hy.cons_home _ hom'
    refine ⟨constraintCreate o', (Around.right fun c hc => ?_).trans ((Around.flatMap hy.cons_nodup hom' hup).trans ?_),
      fun c hc => (create_named hc).2⟩
    · obtain ⟨p, hp, hc⟩ := List.mem_flatMap.1 hc
      by_cases hpm : p.1 = m
      · have hpn : p.2.name = m := (hx.cons_home p hp).1.trans hpm
        have : y.hasConstraint m = true := by simp [Table.hasConstraint, AMap.has, e]
        rw [hpn, this] at hc
        cases hc
      · exact hdn p hp hpm c hc
    · have hu := update_untimed (o := o) (o' := o') (a2.trans (h1.trans b2.symm)) (a3.trans (h2.trans b3.symm))
        (a1.trans b1.symm) (ho' o' e)
      simp only [show o'.name = m from b1, ho, hu]
      exact Around.rfl

theorem constraintDrop_single {x : Table} (hx : x.WF) {m : String} {o : Constraint}
    (ho : x.constraints.get? m = some o) : ∃ d, constraintDrop o = [d] ∧ d.DropsConstraint x.schemaName x.name m ∧
      d.TextRight := by
  obtain ⟨h1, h2, h3⟩ := hx.cons_home _ (AMap.mem_of_get? ho)
  cases o <;> exact ⟨_, rfl, ⟨h2.symm, h3.symm, h1.symm⟩, trivial⟩

theorem dropColumn_mem {x y : Table} (hx : x.WF) {k : String} {c : Column}
    (hc : columnNamed x.columns k = some c) (hc' : columnNamed y.columns k = none) :
    .dropColumn x.schemaName x.name k ∈ colsPart x y := by
  have hcm : c ∈ x.columns ∧ c.name = k := by
    have : x.columns.find? (·.name == k) = some c := hc
    exact ⟨List.mem_of_find?_eq_some this, by simpa using List.find?_some this⟩
  have hch := hx.cols_home c hcm.1
  have hno : y.hasColumn k = false := by
    simp only [Table.hasColumn, findCol_eq_columnNamed, hc']
    rfl
  unfold colsPart
  refine List.mem_append_right _ (List.mem_flatMap.2 ⟨c, hcm.1, ?_⟩)
  simp [hcm.2, hno, columnDrop, newDropColumn, hch.1, hch.2]
end Podo
