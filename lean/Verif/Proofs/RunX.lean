import Verif.Proofs.Revert
import Verif.Model.Diff
import Verif.Spec.Reached
/-
A run of a change list on contents that distinguishes "stopped at an index whose table is missing"
(`error true`) from every other failure (`error false`), and is stricter than `Spec.effect`: a table
drop must name a table and there are no column renames.
-/
set_option linter.unusedSimpArgs false
namespace Podo
open Spec

abbrev PM (α : Type) := String → Option α

def runX {σ : Type} (f : Change → σ → Except Bool σ) : List Change → σ → Except Bool σ
  | [], s => .ok s
  | c :: cs, s =>
    match f c s with
    | .error b => .error b
    | .ok s' => runX f cs s'

theorem runX_append {σ : Type} (f : Change → σ → Except Bool σ) (xs ys : List Change) (s : σ) :
    runX f (xs ++ ys) s = match runX f xs s with
      | .error b => .error b
      | .ok s' => runX f ys s' := by
  induction xs generalizing s with
  | nil => rfl
  | cons c xs ih =>
    simp only [List.cons_append, runX]
    cases f c s with
    | error b => rfl
    | ok s' => exact ih s'

def ofOpt {α : Type} : Option α → Except Bool α
  | some x => .ok x
  | none => .error false

@[simp] theorem ofOpt_some {α : Type} (x : α) : ofOpt (some x) = .ok x := rfl
@[simp] theorem ofOpt_none {α : Type} : ofOpt (none : Option α) = .error false := rfl
theorem ofOpt_eq_ok {α : Type} {o : Option α} {x : α} : ofOpt o = .ok x ↔ o = some x := by
  cases o <;> simp
theorem ofOpt_ne_stop {α : Type} {o : Option α} : ofOpt o ≠ .error true := by
  cases o <;> simp

def mapX {α β : Type} (f : α → β) : Except Bool α → Except Bool β
  | .ok x => .ok (f x)
  | .error b => .error b

theorem mapX_eq_ok {α β : Type} {f : α → β} {x : Except Bool α} {y : β} :
    mapX f x = .ok y ↔ ∃ z, x = .ok z ∧ f z = y := by
  cases x <;> simp [mapX]
theorem mapX_eq_error {α β : Type} {f : α → β} {x : Except Bool α} {b : Bool} :
    mapX f x = .error b ↔ x = .error b := by
  cases x <;> simp [mapX]

theorem runX_lift {σ τ : Type} {f : Change → σ → Except Bool σ} {g : Change → τ → Except Bool τ}
    {put : τ → σ} {cs : List Change} (h : ∀ c ∈ cs, ∀ y, f c (put y) = mapX put (g c y)) (x : τ) :
    runX f cs (put x) = mapX put (runX g cs x) := by
  induction cs generalizing x with
  | nil => rfl
  | cons c cs ih =>
    simp only [runX, h c (by simp) x]
    cases g c x with
    | error b => rfl
    | ok y => exact ih (fun c hc => h c (by simp [hc])) y

/-! ### One change, level by level -/

def colX : Change → PM Column → Except Bool (PM Column)
  | .addColumn s t n ty nn df, m => ofOpt (putNew m n ⟨s, t, n, ty, nn, df⟩)
  | .setDataType _ _ n ty, m => ofOpt (alter (fun col => some { col with dataType := ty }) m n)
  | .setDefault _ _ n df, m => ofOpt (alter (fun col => some { col with default := df }) m n)
  | .setNotNull _ _ n nn, m => ofOpt (alter (fun col => some { col with notNull := nn }) m n)
  | .dropColumn _ _ n, m => ofOpt (remove (fun _ => true) m n)
  | _, _ => .error false

def conX : Change → PM Constraint → Except Bool (PM Constraint)
  | .addPrimaryKey s t n cols df ini, m => ofOpt (putNew m n (.primaryKey ⟨s, t, n, cols, df, ini⟩))
  | .alterPrimaryKey _ _ n df ini, m => ofOpt (alter (fun
      | .primaryKey k => some (.primaryKey { k with deferrable := df, initiallyDeferred := ini })
      | _ => none) m n)
  | .dropPrimaryKey _ _ n, m => ofOpt (remove isPrimaryKey m n)
  | .addUnique s t n cols df ini, m => ofOpt (putNew m n (.unique ⟨s, t, n, cols, df, ini⟩))
  | .alterUnique _ _ n df ini, m => ofOpt (alter (fun
      | .unique k => some (.unique { k with deferrable := df, initiallyDeferred := ini })
      | _ => none) m n)
  | .dropUnique _ _ n, m => ofOpt (remove isUnique m n)
  | .addForeignKey s t n cols ts tt tcols mo ur dr df ini, m =>
      ofOpt (putNew m n (.foreignKey ⟨s, t, n, cols, ts, tt, tcols, mo, ur, dr, df, ini⟩))
  | .alterForeignKey _ _ n df ini, m => ofOpt (alter (fun
      | .foreignKey k => some (.foreignKey { k with deferrable := df, initiallyDeferred := ini })
      | _ => none) m n)
  | .dropForeignKey _ _ n, m => ofOpt (remove isForeignKey m n)
  | .addCheck s t n ex df ini, m => ofOpt (putNew m n (.check ⟨s, t, n, ex, df, ini⟩))
  | .alterCheck _ _ n df ini, m => ofOpt (alter (fun
      | .check k => some (.check { k with deferrable := df, initiallyDeferred := ini })
      | _ => none) m n)
  | .dropCheck _ _ n, m => ofOpt (remove isCheck m n)
  | _, _ => .error false

/-- The table a column change is about. -/
def colTable : Change → Option (String × String)
  | .addColumn s t _ _ _ _ | .setDataType s t _ _ | .setDefault s t _ _ | .setNotNull s t _ _
  | .dropColumn s t _ => some (s, t)
  | _ => none

/-- The table a constraint change is about. -/
def conTable : Change → Option (String × String)
  | .addPrimaryKey s t _ _ _ _ | .alterPrimaryKey s t _ _ _ | .dropPrimaryKey s t _
  | .addUnique s t _ _ _ _ | .alterUnique s t _ _ _ | .dropUnique s t _
  | .addForeignKey s t _ _ _ _ _ _ _ _ _ _ | .alterForeignKey s t _ _ _ | .dropForeignKey s t _
  | .addCheck s t _ _ _ _ | .alterCheck s t _ _ _ | .dropCheck s t _ => some (s, t)
  | _ => none

def inTabX (t : String) (f : TableContent → Except Bool TableContent) (m : PM RelContent) :
    Except Bool (PM RelContent) :=
  match m t with
  | some (.table tb) => mapX (fun tb' => upd m t (some (.table tb'))) (f tb)
  | _ => .error false

/-- Changes of relations themselves. -/
def relOnlyX : Change → PM RelContent → Except Bool (PM RelContent)
  | .createTable s t cols, rels =>
      if (cols.map NewColumn.name).Nodup then
        ofOpt (putNew rels t (.table ⟨s, t,
          columnNamed (cols.map fun n => ⟨s, t, n.name, n.dataType, n.notNull, n.default⟩),
          fun _ => none⟩))
      else .error false
  | .dropTable _ t, rels => ofOpt (remove isTable rels t)
  | .createView s v q, rels => ofOpt (putNew rels v (.view ⟨s, v, q⟩))
  | .dropView _ v, rels => ofOpt (remove isView rels v)
  | .createIndex s t i u m ks, rels =>
      match rels t with
      | some (.table _) => ofOpt (putNew rels i (.index ⟨s, i, t, u, m, ks⟩))
      | _ => .error true
  | .dropIndex _ i, rels => ofOpt (remove isIndex rels i)
  | .createSequence s q ty inc mn mx st ca cy, rels =>
      ofOpt (putNew rels q (.sequence ⟨s, q, ty, inc, mn, mx, st, ca, cy, none, none⟩))
  | .dropSequence _ q, rels => ofOpt (remove isSequence rels q)
  | _, _ => .error false

def relX (c : Change) (rels : PM RelContent) : Except Bool (PM RelContent) :=
  match colTable c, conTable c with
  | some (_, t), _ => inTabX t (fun tb => mapX (fun m => { tb with columns := m })
      (colX c tb.columns)) rels
  | none, some (_, t) => inTabX t (fun tb => mapX (fun m => { tb with constraints := m })
      (conX c tb.constraints)) rels
  | none, none => relOnlyX c rels

def funX : Change → PM Function → Except Bool (PM Function)
  | .createFunction s f b l r v, m => ofOpt (putNew m f ⟨s, f, b, l, r, v⟩)
  | .dropFunction _ f, m => ofOpt (remove (fun _ => true) m f)
  | _, _ => .error false

/-- The schema a relation change is about (column and constraint changes included). -/
def relSchema (c : Change) : Option String :=
  match colTable c, conTable c with
  | some (s, _), _ => some s
  | none, some (s, _) => some s
  | none, none =>
    match c with
    | .createTable s _ _ | .dropTable s _ | .createView s _ _ | .dropView s _
    | .createIndex s _ _ _ _ _ | .dropIndex s _ | .createSequence s _ _ _ _ _ _ _ _
    | .dropSequence s _ => some s
    | _ => none

/-- The schema a function change is about. -/
def funSchema : Change → Option String
  | .createFunction s _ _ _ _ _ | .dropFunction s _ => some s
  | _ => none

def inSchX (s : String) (f : SchemaContent → Except Bool SchemaContent) (C : Content) :
    Except Bool Content :=
  match C s with
  | some sc => mapX (fun sc' => upd C s (some sc')) (f sc)
  | none => .error false

def xeff (c : Change) (C : Content) : Except Bool Content :=
  match relSchema c, funSchema c with
  | some s, _ => inSchX s (fun sc => mapX (fun m => { sc with relations := m })
      (relX c sc.relations)) C
  | none, some s => inSchX s (fun sc => mapX (fun m => { sc with functions := m })
      (funX c sc.functions)) C
  | none, none =>
    match c with
    | .createSchema s => ofOpt (putNew C s ⟨s, fun _ => none, fun _ => none⟩)
    | .dropSchema s => ofOpt (remove (fun _ => true) C s)
    | _ => .error false

/-! ### Lifting between levels -/

theorem lift_col {m : PM RelContent} {s t : String} {tb : TableContent}
    (cs : List Change) (hc : ∀ c ∈ cs, colTable c = some (s, t))
    (hm : m t = some (.table tb)) :
    runX relX cs m = mapX (fun y => upd m t (some (.table { tb with columns := y })))
      (runX colX cs tb.columns) := by
  have := runX_lift (f := relX) (g := colX) (cs := cs)
    (put := fun y => upd m t (some (.table { tb with columns := y })))
    (by
      intro c h y
      have hc' := hc c h
      simp only [relX, hc', inTabX, upd_same]
      cases colX c y <;> simp [mapX, upd_upd]) tb.columns
  rw [← this]
  congr 1
  exact (upd_eq_self m t hm).symm

theorem lift_con {m : PM RelContent} {s t : String} {tb : TableContent}
    (cs : List Change) (hc : ∀ c ∈ cs, conTable c = some (s, t))
    (hm : m t = some (.table tb)) :
    runX relX cs m = mapX (fun y => upd m t (some (.table { tb with constraints := y })))
      (runX conX cs tb.constraints) := by
  have := runX_lift (f := relX) (g := conX) (cs := cs)
    (put := fun y => upd m t (some (.table { tb with constraints := y })))
    (by
      intro c h y
      have hc' := hc c h
      have hn : colTable c = none := by
        cases c <;> simp [conTable] at hc' <;> rfl
      simp only [relX, hc', hn, inTabX, upd_same]
      cases conX c y <;> simp [mapX, upd_upd]) tb.constraints
  rw [← this]
  congr 1
  exact (upd_eq_self m t hm).symm

theorem lift_rel {C : Content} {s : String} {sc : SchemaContent}
    (cs : List Change) (hc : ∀ c ∈ cs, relSchema c = some s) (hm : C s = some sc) :
    runX xeff cs C = mapX (fun y => upd C s (some { sc with relations := y }))
      (runX relX cs sc.relations) := by
  have := runX_lift (f := xeff) (g := relX) (cs := cs)
    (put := fun y => upd C s (some { sc with relations := y }))
    (by
      intro c h y
      have hc' := hc c h
      simp only [xeff, hc', inSchX, upd_same]
      cases relX c y <;> simp [mapX, upd_upd]) sc.relations
  rw [← this]
  congr 1
  exact (upd_eq_self C s hm).symm

theorem lift_fun {C : Content} {s : String} {sc : SchemaContent}
    (cs : List Change) (hc : ∀ c ∈ cs, funSchema c = some s) (hm : C s = some sc) :
    runX xeff cs C = mapX (fun y => upd C s (some { sc with functions := y }))
      (runX funX cs sc.functions) := by
  have := runX_lift (f := xeff) (g := funX) (cs := cs)
    (put := fun y => upd C s (some { sc with functions := y }))
    (by
      intro c h y
      have hc' := hc c h
      have hn : relSchema c = none := by
        cases c <;> simp [funSchema] at hc' <;> rfl
      simp only [xeff, hc', hn, inSchX, upd_same]
      cases funX c y <;> simp [mapX, upd_upd]) sc.functions
  rw [← this]
  congr 1
  exact (upd_eq_self C s hm).symm

/-! ### Keyed blocks -/

section Keyed
variable {α β : Type} (key : β → String) (new : β → Option α) (ready : PM α → β → Prop)

def overlay : List β → PM α → PM α
  | [], m => m
  | b :: l, m => overlay l (upd m (key b) (new b))

def ReadyAll : List β → PM α → Prop
  | [], _ => True
  | b :: l, m => ready m b ∧ ReadyAll l (upd m (key b) (new b))

theorem overlay_not_mem {l : List β} {m : PM α} {j : String} (h : j ∉ l.map key) :
    overlay key new l m j = m j := by
  induction l generalizing m with
  | nil => rfl
  | cons b l ih =>
    simp only [List.map_cons, List.mem_cons, not_or] at h
    simp only [overlay, ih h.2, upd_ne _ _ h.1]

theorem overlay_mem {l : List β} {m : PM α} (hn : (l.map key).Nodup) {b : β} (hb : b ∈ l) :
    overlay key new l m (key b) = new b := by
  induction l generalizing m with
  | nil => cases hb
  | cons b' l ih =>
    simp only [List.map_cons, List.nodup_cons] at hn
    simp only [overlay]
    rcases List.mem_cons.1 hb with rfl | hb
    · rw [overlay_not_mem key new hn.1, upd_same]
    · exact ih hn.2 hb

theorem overlay_append (l l' : List β) (m : PM α) :
    overlay key new (l ++ l') m = overlay key new l' (overlay key new l m) := by
  induction l generalizing m with
  | nil => rfl
  | cons b l ih => exact ih _

theorem readyAll_iff (l : List β) (m : PM α) :
    ReadyAll key new ready l m ↔
      ∀ pre b post, l = pre ++ b :: post → ready (overlay key new pre m) b := by
  induction l generalizing m with
  | nil => simp [ReadyAll]
  | cons b l ih =>
    simp only [ReadyAll, ih]
    constructor
    · rintro ⟨h1, h2⟩ pre b' post e
      cases pre with
      | nil => simp only [List.nil_append, List.cons.injEq] at e; rw [← e.1]; exact h1
      | cons x pre =>
        simp only [List.cons_append, List.cons.injEq] at e
        rw [← e.1]; exact h2 pre b' post e.2
    · intro h
      exact ⟨h [] b l rfl, fun pre b' post e => h (b :: pre) b' post (by rw [e]; rfl)⟩

open Classical in
theorem runX_keyed {f : Change → PM α → Except Bool (PM α)} {blk : β → List Change} {l : List β}
    {m : PM α} (hn : (l.map key).Nodup)
    (h : ∀ b ∈ l, ∀ m' : PM α, m' (key b) = m (key b) →
      runX f (blk b) m' = if ready m' b then .ok (upd m' (key b) (new b)) else .error true) :
    runX f (l.flatMap blk) m =
      if ReadyAll key new ready l m then .ok (overlay key new l m) else .error true := by
  induction l generalizing m with
  | nil => simp [runX, ReadyAll, overlay]
  | cons b l ih =>
    simp only [List.map_cons, List.nodup_cons] at hn
    rw [List.flatMap_cons, runX_append, h b (by simp) m rfl]
    by_cases hr : ready m b
    · simp only [if_pos hr, ReadyAll, hr, true_and, overlay]
      refine ih hn.2 fun b' hb' m' hm' => h b' (by simp [hb']) m' ?_
      have hne : key b' ≠ key b := fun e => hn.1 (e ▸ List.mem_map_of_mem hb')
      rw [hm', upd_ne _ _ hne]
    · simp only [if_neg hr, ReadyAll, hr, false_and, if_false]

/-- Without readiness conditions. -/
theorem runX_keyed' {f : Change → PM α → Except Bool (PM α)} {blk : β → List Change} {l : List β}
    {m : PM α} (hn : (l.map key).Nodup)
    (h : ∀ b ∈ l, ∀ m' : PM α, m' (key b) = m (key b) →
      runX f (blk b) m' = .ok (upd m' (key b) (new b))) :
    runX f (l.flatMap blk) m = .ok (overlay key new l m) := by
  have hR : ∀ (l : List β) (m : PM α), ReadyAll key new (fun _ _ => True) l m := by
    intro l
    induction l with
    | nil => intro m; trivial
    | cons b l ih => intro m; exact ⟨trivial, ih _⟩
  rw [runX_keyed key new (fun _ _ => True) hn (fun b hb m' hm' => by
    rw [h b hb m' hm']; simp)]
  exact if_pos (hR l m)
end Keyed

/-! ### From strict runs back to effects and the model -/

theorem inSchX_ok {s : String} {f : SchemaContent → Except Bool SchemaContent} {C C' : Content}
    {g : SchemaContent → Option SchemaContent} (hfg : ∀ x y, f x = .ok y → g x = some y)
    (h : inSchX s f C = .ok C') : inSchema C s g = some C' := by
  simp only [inSchX] at h
  cases hs : C s with
  | none => simp [hs] at h
  | some sc =>
    simp only [hs] at h
    obtain ⟨y, h1, h2⟩ := mapX_eq_ok.1 h
    simp only [inSchema, alter, hs, hfg _ _ h1, Option.map_some, h2]

theorem inTabX_ok {t : String} {f : TableContent → Except Bool TableContent}
    {m m' : PM RelContent} {g : TableContent → Option TableContent}
    (hfg : ∀ x y, f x = .ok y → g x = some y)
    (h : inTabX t f m = .ok m') : alter (fun
      | .table tb => (g tb).map .table
      | _ => none) m t = some m' := by
  simp only [inTabX] at h
  split at h
  · next tb ht =>
    obtain ⟨y, h1, h2⟩ := mapX_eq_ok.1 h
    simp only [alter, ht, hfg _ _ h1, Option.map_some, h2]
  · cases h

theorem remove_mono {α : Type} {p : α → Bool} {m m' : PM α} {k : String}
    (h : remove p m k = some m') : remove (fun _ => true) m k = some m' := by
  obtain ⟨⟨x, hx, _⟩, rfl⟩ := remove_some h
  simp [remove, hx]

theorem onRelsX_ok {f : PM RelContent → Except Bool (PM RelContent)}
    {g : PM RelContent → Option (PM RelContent)} (hfg : ∀ x y, f x = .ok y → g x = some y)
    (x y : SchemaContent)
    (h : mapX (fun m => { x with relations := m }) (f x.relations) = .ok y) :
    onRels g x = some y := by
  obtain ⟨z, h1, h2⟩ := mapX_eq_ok.1 h
  simp only [onRels, hfg _ _ h1, Option.map_some, h2]

theorem onFunsX_ok {f : PM Function → Except Bool (PM Function)}
    {g : PM Function → Option (PM Function)} (hfg : ∀ x y, f x = .ok y → g x = some y)
    (x y : SchemaContent)
    (h : mapX (fun m => { x with functions := m }) (f x.functions) = .ok y) :
    onFuns g x = some y := by
  obtain ⟨z, h1, h2⟩ := mapX_eq_ok.1 h
  simp only [onFuns, hfg _ _ h1, Option.map_some, h2]

theorem onColsX_ok {f : PM Column → Except Bool (PM Column)}
    {g : PM Column → Option (PM Column)} (hfg : ∀ x y, f x = .ok y → g x = some y)
    (x y : TableContent)
    (h : mapX (fun m => { x with columns := m }) (f x.columns) = .ok y) :
    onCols g x = some y := by
  obtain ⟨z, h1, h2⟩ := mapX_eq_ok.1 h
  simp only [onCols, hfg _ _ h1, Option.map_some, h2]

theorem onConsX_ok {f : PM Constraint → Except Bool (PM Constraint)}
    {g : PM Constraint → Option (PM Constraint)} (hfg : ∀ x y, f x = .ok y → g x = some y)
    (x y : TableContent)
    (h : mapX (fun m => { x with constraints := m }) (f x.constraints) = .ok y) :
    onCons g x = some y := by
  obtain ⟨z, h1, h2⟩ := mapX_eq_ok.1 h
  simp only [onCons, hfg _ _ h1, Option.map_some, h2]

theorem xeff_effect {c : Change} {C C' : Content} (h : xeff c C = .ok C') :
    effect c C = some C' := by
  cases c with
  | createSchema s => exact ofOpt_eq_ok.1 h
  | dropSchema s => exact ofOpt_eq_ok.1 h
  | renameColumn => simp [xeff, relSchema, colTable, conTable, funSchema] at h
  | createFunction | dropFunction =>
    exact inSchX_ok (onFunsX_ok fun x y h => ofOpt_eq_ok.1 h) h
  | createView | dropView | dropIndex | createSequence | dropSequence =>
    exact inSchX_ok (onRelsX_ok fun x y h => ofOpt_eq_ok.1 h) h
  | dropTable =>
    exact inSchX_ok (onRelsX_ok fun x y h => remove_mono (ofOpt_eq_ok.1 h)) h
  | createTable s t cols =>
    refine inSchX_ok (onRelsX_ok fun x y h => ?_) h
    simp only [relX, colTable, conTable, relOnlyX] at h
    by_cases hn : (cols.map NewColumn.name).Nodup
    · rw [if_pos hn] at h ⊢; exact ofOpt_eq_ok.1 h
    · rw [if_neg hn] at h; cases h
  | createIndex s t i u m ks =>
    refine inSchX_ok (onRelsX_ok fun x y h => ?_) h
    simp only [relX, colTable, conTable, relOnlyX] at h
    split at h
    · next ht => simp only [ht]; exact ofOpt_eq_ok.1 h
    · cases h
  | addColumn | setDataType | setDefault | setNotNull | dropColumn =>
    exact inSchX_ok (onRelsX_ok fun x y h =>
      inTabX_ok (onColsX_ok fun x y h => ofOpt_eq_ok.1 h) h) h
  | addPrimaryKey | alterPrimaryKey | dropPrimaryKey | addUnique | alterUnique | dropUnique
  | addForeignKey | alterForeignKey | dropForeignKey | addCheck | alterCheck | dropCheck =>
    exact inSchX_ok (onRelsX_ok fun x y h =>
      inTabX_ok (onConsX_ok fun x y h => ofOpt_eq_ok.1 h) h) h

theorem inSchX_stop {s : String} {f : SchemaContent → Except Bool SchemaContent} {C : Content}
    (h : inSchX s f C = .error true) : ∃ sc, C s = some sc ∧ f sc = .error true := by
  simp only [inSchX] at h
  cases hs : C s with
  | none => simp [hs] at h
  | some sc => simp only [hs] at h; exact ⟨sc, rfl, mapX_eq_error.1 h⟩

theorem inTabX_stop {t : String} {f : TableContent → Except Bool TableContent}
    {m : PM RelContent} (h : inTabX t f m = .error true) : ∃ tb, f tb = .error true := by
  simp only [inTabX] at h
  split at h
  · exact ⟨_, mapX_eq_error.1 h⟩
  · cases h

/-- A strict run stops only at the creation of an index whose table is missing. -/
theorem xeff_stop {c : Change} {C : Content} (h : xeff c C = .error true) :
    ∃ s t i u m ks sc, c = .createIndex s t i u m ks ∧ C s = some sc
      ∧ (∀ tb, sc.relations t ≠ some (.table tb)) ∧ effect c C = none := by
  cases c with
  | createSchema s => exact absurd h ofOpt_ne_stop
  | dropSchema s => exact absurd h ofOpt_ne_stop
  | renameColumn => simp [xeff, relSchema, colTable, conTable, funSchema] at h
  | createFunction | dropFunction =>
    obtain ⟨sc, _, h⟩ := inSchX_stop h
    exact absurd (mapX_eq_error.1 h) ofOpt_ne_stop
  | createView | dropView | dropIndex | createSequence | dropSequence | dropTable =>
    obtain ⟨sc, _, h⟩ := inSchX_stop h
    exact absurd (mapX_eq_error.1 h) ofOpt_ne_stop
  | createTable s t cols =>
    obtain ⟨sc, _, h⟩ := inSchX_stop h
    have h := mapX_eq_error.1 h
    simp only [relX, colTable, conTable, relOnlyX] at h
    split at h
    · exact absurd h ofOpt_ne_stop
    · cases h
  | createIndex s t i u m ks =>
    obtain ⟨sc, hs, h⟩ := inSchX_stop h
    have h := mapX_eq_error.1 h
    simp only [relX, colTable, conTable, relOnlyX] at h
    refine ⟨s, t, i, u, m, ks, sc, rfl, hs, ?_⟩
    split at h
    · exact absurd h ofOpt_ne_stop
    · next hne =>
      refine ⟨fun tb e => hne tb e, ?_⟩
      simp only [effect, inSchema, alter, hs, onRels, Option.map_none]
  | addColumn | setDataType | setDefault | setNotNull | dropColumn =>
    obtain ⟨sc, _, h⟩ := inSchX_stop h
    obtain ⟨tb, h⟩ := inTabX_stop (mapX_eq_error.1 h)
    exact absurd (mapX_eq_error.1 h) ofOpt_ne_stop
  | addPrimaryKey | alterPrimaryKey | dropPrimaryKey | addUnique | alterUnique | dropUnique
  | addForeignKey | alterForeignKey | dropForeignKey | addCheck | alterCheck | dropCheck =>
    obtain ⟨sc, _, h⟩ := inSchX_stop h
    obtain ⟨tb, h⟩ := inTabX_stop (mapX_eq_error.1 h)
    exact absurd (mapX_eq_error.1 h) ofOpt_ne_stop

end Podo
