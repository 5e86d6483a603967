import Verif.Proofs.Wf
import Verif.Spec.Path
/-
A change leaves every object outside the objects it names as it was.
-/
set_option linter.unusedSimpArgs false
namespace Podo
namespace Spec

theorem upd_same {α : Type} (m : String → Option α) (k : String) (v : Option α) :
    upd m k v k = v := by simp [upd]
theorem upd_ne {α : Type} (m : String → Option α) {k j : String} (v : Option α) (h : j ≠ k) :
    upd m k v j = m j := by simp [upd, h]
theorem upd_upd {α : Type} (m : String → Option α) (k : String) (v w : Option α) :
    upd (upd m k v) k w = upd m k w := by funext j; simp only [upd]; split <;> rfl
theorem upd_self {α : Type} (m : String → Option α) (k : String) : upd m k (m k) = m := by
  funext j; simp only [upd]; split
  · next h => rw [h]
  · rfl
theorem upd_eq_self {α : Type} (m : String → Option α) (k : String) {v : Option α} (h : m k = v) :
    upd m k v = m := by rw [← h]; exact upd_self m k

theorem putNew_some {α : Type} {m m' : String → Option α} {k : String} {v : α}
    (h : putNew m k v = some m') : m k = none ∧ m' = upd m k (some v) := by
  simp only [putNew] at h
  cases hk : m k with
  | some x => simp [hk] at h
  | none => simp only [hk, Option.some.injEq] at h; exact ⟨rfl, h.symm⟩

theorem remove_some {α : Type} {p : α → Bool} {m m' : String → Option α} {k : String}
    (h : remove p m k = some m') : (∃ x, m k = some x ∧ p x = true) ∧ m' = upd m k none := by
  simp only [remove] at h
  cases hk : m k with
  | none => simp [hk] at h
  | some x =>
    simp only [hk] at h
    by_cases hp : p x = true
    · rw [if_pos hp] at h
      simp only [Option.some.injEq] at h
      exact ⟨⟨x, rfl, hp⟩, h.symm⟩
    · rw [if_neg hp] at h; cases h

theorem alter_some {α : Type} {f : α → Option α} {m m' : String → Option α} {k : String}
    (h : alter f m k = some m') :
    ∃ x y, m k = some x ∧ f x = some y ∧ m' = upd m k (some y) := by
  simp only [alter] at h
  cases hk : m k with
  | none => simp [hk] at h
  | some x =>
    simp only [hk] at h
    cases hf : f x with
    | none => simp [hf] at h
    | some y =>
      simp only [hf, Option.map_some, Option.some.injEq] at h
      exact ⟨x, y, rfl, hf, h.symm⟩

theorem inSchema_some {C C' : Content} {s : String} {f : SchemaContent → Option SchemaContent}
    (h : inSchema C s f = some C') :
    ∃ sc sc', C s = some sc ∧ f sc = some sc' ∧ C' = upd C s (some sc') := alter_some h

theorem onRels_some {f : (String → Option RelContent) → Option (String → Option RelContent)}
    {sc sc' : SchemaContent} (h : onRels f sc = some sc') :
    ∃ m, f sc.relations = some m ∧ sc' = { sc with relations := m } := by
  simp only [onRels, Option.map_eq_some_iff] at h
  obtain ⟨m, h1, h2⟩ := h
  exact ⟨m, h1, h2.symm⟩

theorem onFuns_some {f : (String → Option Function) → Option (String → Option Function)}
    {sc sc' : SchemaContent} (h : onFuns f sc = some sc') :
    ∃ m, f sc.functions = some m ∧ sc' = { sc with functions := m } := by
  simp only [onFuns, Option.map_eq_some_iff] at h
  obtain ⟨m, h1, h2⟩ := h
  exact ⟨m, h1, h2.symm⟩

theorem onCols_some {f : (String → Option Column) → Option (String → Option Column)}
    {tb tb' : TableContent} (h : onCols f tb = some tb') :
    ∃ m, f tb.columns = some m ∧ tb' = { tb with columns := m } := by
  simp only [onCols, Option.map_eq_some_iff] at h
  obtain ⟨m, h1, h2⟩ := h
  exact ⟨m, h1, h2.symm⟩

theorem onCons_some {f : (String → Option Constraint) → Option (String → Option Constraint)}
    {tb tb' : TableContent} (h : onCons f tb = some tb') :
    ∃ m, f tb.constraints = some m ∧ tb' = { tb with constraints := m } := by
  simp only [onCons, Option.map_eq_some_iff] at h
  obtain ⟨m, h1, h2⟩ := h
  exact ⟨m, h1, h2.symm⟩

theorem inTable_some {C C' : Content} {s t : String} {f : TableContent → Option TableContent}
    (h : inTable C s t f = some C') :
    ∃ sc tb tb', C s = some sc ∧ sc.relations t = some (.table tb) ∧ f tb = some tb'
      ∧ C' = upd C s (some { sc with relations := upd sc.relations t (some (.table tb')) }) := by
  obtain ⟨sc, sc', h1, h2, h3⟩ := inSchema_some h
  obtain ⟨m, h4, h5⟩ := onRels_some h2
  obtain ⟨x, y, h6, h7, h8⟩ := alter_some h4
  cases x with
  | table tb =>
    simp only [Option.map_eq_some_iff] at h7
    obtain ⟨tb', h9, h10⟩ := h7
    exact ⟨sc, tb, tb', h1, h6, h9, by rw [h3, h5, h8, h10]⟩
  | view _ => simp at h7
  | index _ => simp at h7
  | sequence _ => simp at h7

/-! ### Frame lemmas -/

theorem frame_schema {C : Content} {s : String} {v : Option SchemaContent} {p : Path}
    (hp : ¬ (Path.schema s).Contains p) : Content.objAt (upd C s v) p = C.objAt p := by
  cases p <;> simp only [Path.Contains] at hp <;>
    simp only [Content.objAt, Content.tableAt, upd_ne _ _ hp]

theorem frame_rel {C : Content} {s r : String} {sc : SchemaContent} {v : Option RelContent}
    {p : Path} (hs : C s = some sc) (hp : ¬ (Path.relation s r).Contains p) :
    Content.objAt (upd C s (some { sc with relations := upd sc.relations r v })) p = C.objAt p := by
  by_cases hq : (Path.schema s).Contains p
  · cases p <;> simp only [Path.Contains] at hq hp <;> subst hq <;>
      simp only [Content.objAt, Content.tableAt, upd_same, hs, Option.map_some, Option.bind_some,
        true_and] at hp ⊢ <;> (try simp only [upd_ne _ _ hp])
  · exact frame_schema hq

theorem frame_fun {C : Content} {s r : String} {sc : SchemaContent} {v : Option Function}
    {p : Path} (hs : C s = some sc) (hp : ¬ (Path.function s r).Contains p) :
    Content.objAt (upd C s (some { sc with functions := upd sc.functions r v })) p = C.objAt p := by
  by_cases hq : (Path.schema s).Contains p
  · cases p <;> simp only [Path.Contains] at hq hp <;> subst hq <;>
      simp only [Content.objAt, Content.tableAt, upd_same, hs, Option.map_some, Option.bind_some,
        true_and] at hp ⊢ <;> (try simp only [upd_ne _ _ hp])
  · exact frame_schema hq

theorem frame_tab {C : Content} {s t : String} {sc : SchemaContent} {tb tb' : TableContent}
    {p : Path} (hs : C s = some sc) (ht : sc.relations t = some (.table tb))
    (h1 : tb'.schemaName = tb.schemaName) (h2 : tb'.name = tb.name)
    (h3 : ∀ c, p = .column s t c → tb'.columns c = tb.columns c)
    (h4 : ∀ c, p = .constraint s t c → tb'.constraints c = tb.constraints c) :
    Content.objAt (upd C s (some { sc with relations := upd sc.relations t (some (.table tb')) })) p
      = C.objAt p := by
  by_cases hq : (Path.relation s t).Contains p
  · cases p <;> simp only [Path.Contains] at hq
    · obtain ⟨rfl, rfl⟩ := hq
      simp [Content.objAt, upd_same, hs, ht, RelContent.obj, h1, h2]
    · obtain ⟨rfl, rfl⟩ := hq
      simp [Content.objAt, Content.tableAt, upd_same, hs, ht, RelContent.table?, h3 _ rfl]
    · obtain ⟨rfl, rfl⟩ := hq
      simp [Content.objAt, Content.tableAt, upd_same, hs, ht, RelContent.table?, h4 _ rfl]
  · exact frame_rel hs hq

/-- A column update at one name. -/
theorem frame_inTable_cols {C C' : Content} {s t n : String}
    {f : (String → Option Column) → Option (String → Option Column)} {p : Path}
    (hf : ∀ m m', f m = some m' → ∀ c, c ≠ n → m' c = m c)
    (h : inTable C s t (onCols f) = some C') (hp : ¬ (Path.column s t n).Contains p) :
    C'.objAt p = C.objAt p := by
  obtain ⟨sc, tb, tb', h1, h2, h3, rfl⟩ := inTable_some h
  obtain ⟨m, h4, rfl⟩ := onCols_some h3
  refine frame_tab h1 h2 rfl rfl (fun c hc => ?_) (fun c _ => rfl)
  subst hc
  refine hf _ _ h4 c (fun e => hp ?_)
  subst e; exact ⟨rfl, rfl, rfl⟩

theorem frame_inTable_cons {C C' : Content} {s t n : String}
    {f : (String → Option Constraint) → Option (String → Option Constraint)} {p : Path}
    (hf : ∀ m m', f m = some m' → ∀ c, c ≠ n → m' c = m c)
    (h : inTable C s t (onCons f) = some C') (hp : ¬ (Path.constraint s t n).Contains p) :
    C'.objAt p = C.objAt p := by
  obtain ⟨sc, tb, tb', h1, h2, h3, rfl⟩ := inTable_some h
  obtain ⟨m, h4, rfl⟩ := onCons_some h3
  refine frame_tab h1 h2 rfl rfl (fun c _ => rfl) (fun c hc => ?_)
  subst hc
  refine hf _ _ h4 c (fun e => hp ?_)
  subst e; exact ⟨rfl, rfl, rfl⟩

theorem frame_inSchema_rels {C C' : Content} {s n : String}
    {f : (String → Option RelContent) → Option (String → Option RelContent)} {p : Path}
    (hf : ∀ m m', f m = some m' → ∃ v, m' = upd m n v)
    (h : inSchema C s (onRels f) = some C') (hp : ¬ (Path.relation s n).Contains p) :
    C'.objAt p = C.objAt p := by
  obtain ⟨sc, sc', h1, h2, rfl⟩ := inSchema_some h
  obtain ⟨m, h3, rfl⟩ := onRels_some h2
  obtain ⟨v, rfl⟩ := hf _ _ h3
  exact frame_rel h1 hp

theorem frame_inSchema_funs {C C' : Content} {s n : String}
    {f : (String → Option Function) → Option (String → Option Function)} {p : Path}
    (hf : ∀ m m', f m = some m' → ∃ v, m' = upd m n v)
    (h : inSchema C s (onFuns f) = some C') (hp : ¬ (Path.function s n).Contains p) :
    C'.objAt p = C.objAt p := by
  obtain ⟨sc, sc', h1, h2, rfl⟩ := inSchema_some h
  obtain ⟨m, h3, rfl⟩ := onFuns_some h2
  obtain ⟨v, rfl⟩ := hf _ _ h3
  exact frame_fun h1 hp

theorem putNew_upd {α : Type} {m m' : String → Option α} {k : String} {v : α}
    (h : putNew m k v = some m') : ∃ w, m' = upd m k w := ⟨_, (putNew_some h).2⟩
theorem remove_upd {α : Type} {p : α → Bool} {m m' : String → Option α} {k : String}
    (h : remove p m k = some m') : ∃ w, m' = upd m k w := ⟨_, (remove_some h).2⟩
theorem alter_upd {α : Type} {f : α → Option α} {m m' : String → Option α} {k : String}
    (h : alter f m k = some m') : ∃ w, m' = upd m k w := by
  obtain ⟨x, y, _, _, h⟩ := alter_some h
  exact ⟨_, h⟩
theorem ne_of_upd {α : Type} {m m' : String → Option α} {k : String}
    (h : ∃ w, m' = upd m k w) (j : String) (hj : j ≠ k) : m' j = m j := by
  obtain ⟨w, rfl⟩ := h; exact upd_ne _ _ hj

/-- The intended effect of a change leaves every object outside its targets as it was. -/
theorem effect_frame {c : Change} {C C' : Content} (h : effect c C = some C') {p : Path}
    (hp : ∀ q ∈ c.targets, ¬ q.Contains p) : C'.objAt p = C.objAt p := by
  cases c with
  | createSchema s =>
    rw [(putNew_some h).2]
    exact frame_schema (hp _ (by simp [Change.targets]))
  | dropSchema s =>
    rw [(remove_some h).2]
    exact frame_schema (hp _ (by simp [Change.targets]))
  | createTable s t cols =>
    refine frame_inSchema_rels (n := t) (fun m m' hm => ?_) h (hp _ (by simp [Change.targets]))
    by_cases hn : (cols.map NewColumn.name).Nodup
    · rw [if_pos hn] at hm; exact putNew_upd hm
    · rw [if_neg hn] at hm; cases hm
  | createIndex s t i u me ks =>
    refine frame_inSchema_rels (n := i) (fun m m' hm => ?_) h (hp _ (by simp [Change.targets]))
    split at hm
    · exact putNew_upd hm
    · cases hm
  | createView | createSequence =>
    exact frame_inSchema_rels (fun m m' hm => putNew_upd hm) h (hp _ (by simp [Change.targets]))
  | dropTable | dropView | dropIndex | dropSequence =>
    exact frame_inSchema_rels (fun m m' hm => remove_upd hm) h (hp _ (by simp [Change.targets]))
  | createFunction =>
    exact frame_inSchema_funs (fun m m' hm => putNew_upd hm) h (hp _ (by simp [Change.targets]))
  | dropFunction =>
    exact frame_inSchema_funs (fun m m' hm => remove_upd hm) h (hp _ (by simp [Change.targets]))
  | addColumn =>
    exact frame_inTable_cols (fun m m' hm => ne_of_upd (putNew_upd hm)) h
      (hp _ (by simp [Change.targets]))
  | setDataType | setDefault | setNotNull =>
    exact frame_inTable_cols (fun m m' hm => ne_of_upd (alter_upd hm)) h
      (hp _ (by simp [Change.targets]))
  | dropColumn =>
    exact frame_inTable_cols (fun m m' hm => ne_of_upd (remove_upd hm)) h
      (hp _ (by simp [Change.targets]))
  | renameColumn s t a b =>
    have ha := hp (.column s t a) (by simp [Change.targets])
    have hb := hp (.column s t b) (by simp [Change.targets])
    obtain ⟨sc, tb, tb', h1, h2, h3, rfl⟩ := inTable_some h
    obtain ⟨m, h4, rfl⟩ := onCols_some h3
    refine frame_tab h1 h2 rfl rfl (fun c hc => ?_) (fun c _ => rfl)
    subst hc
    cases hx : tb.columns a with
    | none => simp [hx] at h4
    | some x =>
      simp only [hx] at h4
      obtain ⟨_, rfl⟩ := putNew_some h4
      have h5 : c ≠ b := fun e => hb (by subst e; exact ⟨rfl, rfl, rfl⟩)
      have h6 : c ≠ a := fun e => ha (by subst e; exact ⟨rfl, rfl, rfl⟩)
      simp only [upd_ne _ _ h5, upd_ne _ _ h6]
  | addPrimaryKey | addUnique | addForeignKey | addCheck =>
    exact frame_inTable_cons (fun m m' hm => ne_of_upd (putNew_upd hm)) h
      (hp _ (by simp [Change.targets]))
  | alterPrimaryKey | alterUnique | alterForeignKey | alterCheck =>
    exact frame_inTable_cons (fun m m' hm => ne_of_upd (alter_upd hm)) h
      (hp _ (by simp [Change.targets]))
  | dropPrimaryKey | dropUnique | dropForeignKey | dropCheck =>
    exact frame_inTable_cons (fun m m' hm => ne_of_upd (remove_upd hm)) h
      (hp _ (by simp [Change.targets]))

end Spec

/-- Applying a change has its intended effect. -/
theorem apply_effect {c : Change} {d d' : Database} (hd : d.WF) (h : c.apply d = .ok d') :
    Spec.effect c d.content = some d'.content := by
  rw [← apply_refines c d hd, h]; rfl

theorem apply_of_effect {c : Change} {d : Database} {C' : Content} (hd : d.WF)
    (h : Spec.effect c d.content = some C') : ∃ d', c.apply d = .ok d' ∧ d'.content = C' := by
  rw [← apply_refines c d hd] at h
  cases ha : c.apply d with
  | error e => rw [ha] at h; simp at h
  | ok d' => rw [ha] at h; simp only [okMap_ok, Option.some.injEq] at h; exact ⟨d', rfl, h⟩

end Podo
