import Verif.Proofs.DiffOrder
import Verif.Proofs.DiffApply
import Verif.Proofs.Frame
/-
When the recorded reverts of a computed diff give back the snapshot: exactly when no change of the
diff is lossy at the point where it is applied.
-/
set_option linter.unusedSimpArgs false
namespace Podo
open Spec Diff Change

/-! ### The targets of a revert -/

theorem lookSchema_inv {d : Database} (hd : d.WF) {s : String} {k : Schema → SResult Change}
    {r : Change} (h : lookSchema d s k = .ok r) :
    ∃ sc, d.schemas.get? s = some sc ∧ sc.name = s ∧ sc.WF ∧ k sc = .ok r := by
  simp only [lookSchema, Database.getSchema] at h
  cases hs : d.schemas.get? s with
  | none => simp [hs] at h
  | some sc =>
    simp only [hs] at h
    exact ⟨sc, rfl, (hd.schema hs).1, (hd.schema hs).2, h⟩

theorem lookRelation_inv {α : Type} {d : Database} (hd : d.WF) {s r : String}
    {as : Relation → SResult α} {k : Schema → α → SResult Change} {c : Change}
    (h : lookRelation d s r as k = .ok c) :
    ∃ sc rel x, sc.name = s ∧ sc.WF ∧ rel.name = r ∧ rel.schemaName = s ∧ as rel = .ok x ∧
      k sc x = .ok c := by
  obtain ⟨sc, _, hn, hw, h⟩ := lookSchema_inv hd h
  simp only [Schema.getRelation] at h
  cases hr : sc.relations.get? r with
  | none => simp [hr] at h
  | some rel =>
    simp only [hr] at h
    have hh := hw.relation hr
    cases ha : as rel with
    | error e => simp [ha] at h
    | ok x =>
      simp only [ha] at h
      exact ⟨sc, rel, x, hn, hw, hh.1, hh.2.1.trans hn, ha, h⟩

theorem lookTable_inv {d : Database} (hd : d.WF) {s t : String}
    {k : Schema → Table → SResult Change} {c : Change} (h : lookTable d s t k = .ok c) :
    ∃ sc tb, sc.name = s ∧ tb.name = t ∧ tb.schemaName = s ∧ tb.WF ∧ k sc tb = .ok c := by
  obtain ⟨sc, _, hn, hw, h⟩ := lookSchema_inv hd h
  simp only [Schema.getRelation] at h
  cases hr : sc.relations.get? t with
  | none => simp [hr] at h
  | some rel =>
    have hh := hw.relation hr
    cases rel with
    | table tb =>
      simp only [hr, Relation.asTable] at h
      exact ⟨sc, tb, hn, hh.1, hh.2.1.trans hn, hh.2.2, h⟩
    | view x => simp [hr, Relation.asTable] at h
    | index x => simp [hr, Relation.asTable] at h
    | sequence x => simp [hr, Relation.asTable] at h


theorem lookColumn_inv {d : Database} (hd : d.WF) {s t c : String}
    {k : Schema → Table → Column → SResult Change} {r : Change}
    (h : lookColumn d s t c k = .ok r) :
    ∃ sc tb col, sc.name = s ∧ tb.name = t ∧ col.name = c ∧ k sc tb col = .ok r := by
  obtain ⟨sc, tb, h1, h2, _, hw, h⟩ := lookTable_inv hd h
  simp only [Table.getColumn, findCol_eq_columnNamed] at h
  cases hc : columnNamed tb.columns c with
  | none => simp [hc] at h
  | some col =>
    simp only [hc] at h
    exact ⟨sc, tb, col, h1, h2, columnNamed_name hc, h⟩

theorem lookConstraint_inv {α : Type} {d : Database} (hd : d.WF) {s t c : String}
    {as : Constraint → SResult α} {k : Schema → Table → α → SResult Change} {r : Change}
    (h : lookConstraint d s t c as k = .ok r) :
    ∃ sc tb con x, sc.name = s ∧ tb.name = t ∧ con.name = c ∧ as con = .ok x ∧
      k sc tb x = .ok r := by
  obtain ⟨sc, tb, h1, h2, _, hw, h⟩ := lookTable_inv hd h
  simp only [Table.getConstraint] at h
  cases hc : tb.constraints.get? c with
  | none => simp [hc] at h
  | some con =>
    simp only [hc] at h
    cases ha : as con with
    | error e => simp [ha] at h
    | ok x =>
      simp only [ha] at h
      exact ⟨sc, tb, con, x, h1, h2, (hw.cons_home _ (AMap.mem_of_get? hc)).1, ha, h⟩

/-- The revert of a change is about the same objects. -/
theorem revert_targets {c r : Change} {d : Database} (hd : d.WF) (h : c.revert d = .ok r)
    {q : Path} (hq : q ∈ r.targets) : q ∈ c.targets := by
  cases c with
  | createSchema s => cases h; exact hq
  | dropSchema s => cases h; exact hq
  | createTable s t cols =>
    obtain ⟨sc, _, rfl, _, h'⟩ := lookSchema_inv hd h
    cases h'; exact hq
  | dropTable s t =>
    obtain ⟨sc, tb, rfl, rfl, h3, _, h'⟩ := lookTable_inv hd h
    cases h'
    simp only [newCreateTable, targets, h3] at hq ⊢
    exact hq
  | addColumn | addPrimaryKey | addUnique | addForeignKey | addCheck =>
    obtain ⟨sc, tb, rfl, rfl, h3, _, h'⟩ := lookTable_inv hd h
    cases h'; exact hq
  | setDataType | setDefault | setNotNull | dropColumn =>
    obtain ⟨sc, tb, col, rfl, rfl, rfl, h'⟩ := lookColumn_inv hd h
    cases h'; exact hq
  | renameColumn s t a b =>
    obtain ⟨sc, tb, col, rfl, rfl, rfl, h'⟩ := lookColumn_inv hd h
    cases h'
    simp only [targets, List.mem_cons, List.not_mem_nil, or_false] at hq ⊢
    exact hq.symm
  | alterPrimaryKey | dropPrimaryKey =>
    obtain ⟨sc, tb, con, x, rfl, rfl, rfl, ha, h'⟩ := lookConstraint_inv hd h
    cases con <;> simp [Constraint.asPrimaryKey] at ha
    subst ha; cases h'; exact hq
  | alterUnique | dropUnique =>
    obtain ⟨sc, tb, con, x, rfl, rfl, rfl, ha, h'⟩ := lookConstraint_inv hd h
    cases con <;> simp [Constraint.asUnique] at ha
    subst ha; cases h'; exact hq
  | alterForeignKey | dropForeignKey =>
    obtain ⟨sc, tb, con, x, rfl, rfl, rfl, ha, h'⟩ := lookConstraint_inv hd h
    cases con <;> simp [Constraint.asForeignKey] at ha
    subst ha; cases h'; exact hq
  | alterCheck | dropCheck =>
    obtain ⟨sc, tb, con, x, rfl, rfl, rfl, ha, h'⟩ := lookConstraint_inv hd h
    cases con <;> simp [Constraint.asCheck] at ha
    subst ha; cases h'; exact hq
  | createFunction | createView | createIndex | createSequence =>
    obtain ⟨sc, _, rfl, _, h'⟩ := lookSchema_inv hd h
    cases h'; exact hq
  | dropFunction s f =>
    obtain ⟨sc, _, rfl, _, h'⟩ := lookSchema_inv hd h
    cases hf : sc.getFunction f with
    | error e => simp [hf] at h'
    | ok fn => simp only [hf] at h'; cases h'; exact hq
  | dropView s v =>
    obtain ⟨sc, rel, x, _, _, _, _, _, h'⟩ := lookRelation_inv hd h
    cases h'; exact hq
  | dropIndex s i =>
    obtain ⟨sc, rel, x, rfl, _, rfl, _, ha, h'⟩ := lookRelation_inv hd h
    cases rel <;> simp [Relation.asIndex] at ha
    subst ha; cases h'; exact hq
  | dropSequence s v =>
    obtain ⟨sc, rel, x, rfl, _, rfl, h3, ha, h'⟩ := lookRelation_inv hd h
    cases rel <;> simp [Relation.asSequence] at ha
    subst ha; cases h'
    simp only [Relation.schemaName] at h3
    simp only [newCreateSequence, targets, h3, Relation.name] at hq ⊢
    exact hq

/-! ### Changes that stay away from a relation -/

/-- None of the objects named by the change is, contains or lies inside the relation. -/
def Away (n r : String) (c : Change) : Prop :=
  ∀ q ∈ c.targets, ¬ q.Contains (.relation n r) ∧ ¬ (Path.relation n r).Contains q

theorem away_contains {n r : String} {c : Change} (h : Away n r c) {p : Path}
    (hp : (Path.relation n r).Contains p) : ∀ q ∈ c.targets, ¬ q.Contains p := by
  intro q hq hc
  obtain ⟨h1, h2⟩ := h q hq
  cases p <;> cases q <;> simp only [Path.Contains] at * <;> simp_all

theorem applyAll_away {cs : List Change} {n r : String} {d d' : Database} (hd : d.WF)
    (hc : ∀ c ∈ cs, Away n r c) (h : applyAll cs d = .ok d') {p : Path}
    (hp : (Path.relation n r).Contains p) : d'.content.objAt p = d.content.objAt p := by
  induction cs generalizing d with
  | nil => cases h; rfl
  | cons c cs ih =>
    simp only [applyAll] at h
    cases ha : c.apply d with
    | error e => simp [ha] at h
    | ok d₁ =>
      simp only [ha] at h
      rw [ih (apply_wf hd ha) (fun c hc' => hc c (List.mem_cons_of_mem _ hc')) h]
      exact effect_frame (apply_effect hd ha) (away_contains (hc c List.mem_cons_self) hp)

theorem stageLoop_downs {cs recorded downs : List Change} {d f : Database} (hd : d.WF)
    (h : stageLoop cs d [] [] = .done f recorded downs) :
    ∀ w ∈ downs, ∃ c ∈ cs, ∀ q ∈ w.targets, q ∈ c.targets := by
  induction cs generalizing d f recorded downs with
  | nil =>
    simp only [stageLoop, StageOutcome.done.injEq] at h
    rw [← h.2.2]; intro w hw; cases hw
  | cons c cs ih =>
    simp only [stageLoop] at h
    cases hr : c.revert d with
    | error e => simp [hr] at h
    | ok r =>
      cases ha : c.apply d with
      | error e => simp [hr, ha] at h
      | ok d' =>
        simp only [hr, ha] at h
        rw [stageLoop_acc] at h
        cases hs : stageLoop cs d' [] [] with
        | error e => simp [hs] at h
        | panic e => simp [hs] at h
        | done f' r' w' =>
          simp only [hs, StageOutcome.done.injEq] at h
          rw [← h.2.2]
          intro w hw
          rcases List.mem_append.1 hw with hw | hw
          · obtain ⟨c', h1, h2⟩ := ih (apply_wf hd ha) hs w hw
            exact ⟨c', List.mem_cons_of_mem _ h1, h2⟩
          · rw [List.mem_singleton] at hw
            subst hw
            exact ⟨c, List.mem_cons_self, fun q hq => revert_targets hd hr hq⟩

theorem stageLoop_split {xs ys recorded downs : List Change} {d f : Database}
    (h : stageLoop (xs ++ ys) d [] [] = .done f recorded downs) :
    ∃ d₁ v w, stageLoop xs d [] [] = .done d₁ xs v ∧ stageLoop ys d₁ [] [] = .done f ys w ∧
      downs = w ++ v := by
  induction xs generalizing d f recorded downs with
  | nil =>
    refine ⟨d, [], downs, rfl, ?_, by simp⟩
    rw [List.nil_append] at h
    have := (stageLoop_done h).2.1
    subst this
    exact h
  | cons c cs ih =>
    simp only [List.cons_append, stageLoop] at h ⊢
    cases hr : c.revert d with
    | error e => simp [hr] at h
    | ok r =>
      cases ha : c.apply d with
      | error e => simp [hr, ha] at h
      | ok d' =>
        simp only [hr, ha] at h ⊢
        rw [stageLoop_acc] at h
        cases hs : stageLoop (cs ++ ys) d' [] [] with
        | error e => simp [hs] at h
        | panic e => simp [hs] at h
        | done f' r' w' =>
          simp only [hs, StageOutcome.done.injEq] at h
          obtain ⟨d₁, v, w, h1, h2, h3⟩ := ih hs
          refine ⟨d₁, v ++ [r], w, ?_, ?_, ?_⟩
          · rw [stageLoop_acc, h1]; rfl
          · rw [← h.1]; exact h2
          · rw [← h.2.2, h3]; simp

/-! ### Two contents with the same objects -/

theorem content_ext_at {C D : Content} {n : String}
    (h : ∀ p, (Path.schema n).Contains p → C.objAt p = D.objAt p) : C n = D n := by
  have h1 := h (.schema n) rfl
  simp only [Content.objAt] at h1
  cases e1 : C n with
  | none =>
    cases e2 : D n with
    | none => rfl
    | some b => simp [e1, e2] at h1
  | some a =>
    cases e2 : D n with
    | none => simp [e1, e2] at h1
    | some b =>
      simp only [e1, e2, Option.map_some, Option.some.injEq, Obj.schema.injEq] at h1
      have hf : a.functions = b.functions := by
        funext f
        have := h (.function n f) rfl
        simp only [Content.objAt, e1, e2, Option.bind_some] at this
        cases x : a.functions f <;> cases y : b.functions f <;> simp_all
      have hr : a.relations = b.relations := by
        funext r
        have hr := h (.relation n r) rfl
        have hc := fun c => h (.column n r c) rfl
        have hk := fun c => h (.constraint n r c) rfl
        simp only [Content.objAt, Content.tableAt, e1, e2, Option.bind_some] at hr hc hk
        cases x : a.relations r with
        | none => cases y : b.relations r <;> simp_all
        | some u =>
          cases y : b.relations r with
          | none => simp_all
          | some v =>
            simp only [x, y, Option.map_some, Option.some.injEq, Option.bind_some] at hr hc hk
            cases u with
            | table u =>
              cases v with
              | table v =>
                simp only [RelContent.obj, Obj.table.injEq, RelContent.table?,
                  Option.bind_some] at hr hc hk
                have k1 : u.columns = v.columns := by
                  funext c
                  have := hc c
                  cases x : u.columns c <;> cases y : v.columns c <;> simp_all
                have k2 : u.constraints = v.constraints := by
                  funext c
                  have := hk c
                  cases x : u.constraints c <;> cases y : v.constraints c <;> simp_all
                cases u; cases v
                simp_all
              | _ => simp [RelContent.obj] at hr
            | _ => cases v <;> simp [RelContent.obj] at hr; subst hr; rfl
      cases a; cases b
      simp_all

theorem content_ext {C D : Content} (h : ∀ p, C.objAt p = D.objAt p) : C = D :=
  funext fun _ => content_ext_at fun p _ => h p

/-! ### Nothing of a relation is changed before it is dropped -/

/-- The relation dropped, for the drops that may lose something. -/
def dropsRel : Change → Option (String × String)
  | .dropTable s t => some (s, t)
  | .dropSequence s q => some (s, q)
  | .dropIndex s i => some (s, i)
  | _ => none

/-- Before a relation is dropped, no change of the list is about it. -/
def Clean (cs : List Change) : Prop :=
  ∀ pre c post n r, cs = pre ++ c :: post → dropsRel c = some (n, r) → ∀ x ∈ pre, Away n r x

theorem away_relSchema {c : Change} {s n : String} (h : relSchema c = some s) (hn : n ≠ s)
    (r : String) : Away n r c := by
  intro q hq
  cases c <;> simp [relSchema, colTable, conTable] at h <;> subst h <;>
    simp only [targets, List.mem_singleton] at hq <;> subst hq <;>
    simp [Path.Contains, hn, Ne.symm hn]

theorem away_funSchema {c : Change} {s : String} (h : funSchema c = some s) (n r : String) :
    Away n r c := by
  intro q hq
  cases c <;> simp [funSchema] at h <;>
    simp only [targets, List.mem_singleton] at hq <;> subst hq <;>
    simp only [Path.Contains, not_false_eq_true, and_true]

/-- All objects named by the change are the relation or lie in it. -/
def InRel (n r : String) (c : Change) : Prop := ∀ q ∈ c.targets, (Path.relation n r).Contains q

theorem away_inRel {c : Change} {n r n' r' : String} (h : InRel n r c) (hr : r' ≠ r) :
    Away n' r' c := by
  intro q hq
  have := h q hq
  cases q <;> simp only [Path.Contains] at this ⊢ <;> simp_all <;> intro _ e <;> simp_all

theorem inRel_conTable {c : Change} {n r : String} (h : conTable c = some (n, r)) :
    InRel n r c := by
  intro q hq
  cases c <;> simp [conTable] at h <;> obtain ⟨rfl, rfl⟩ := h <;>
    simp only [targets, List.mem_singleton] at hq <;> subst hq <;> exact ⟨rfl, rfl⟩

theorem inRel_colTable {c : Change} {n r : String} (h : colTable c = some (n, r)) :
    InRel n r c := by
  intro q hq
  cases c <;> simp [colTable] at h <;> obtain ⟨rfl, rfl⟩ := h <;>
    simp only [targets, List.mem_singleton] at hq <;> subst hq <;> exact ⟨rfl, rfl⟩

theorem dropsRel_conTable {c : Change} {p : String × String} (h : conTable c = some p) :
    dropsRel c = none := by
  cases c <;> simp [conTable] at h <;> rfl

theorem dropsRel_colTable {c : Change} {p : String × String} (h : colTable c = some p) :
    dropsRel c = none := by
  cases c <;> simp [colTable] at h <;> rfl

theorem dropsRel_funSchema {c : Change} {p : String} (h : funSchema c = some p) :
    dropsRel c = none := by
  cases c <;> simp [funSchema] at h <;> rfl

theorem dropsRel_schema {c : Change} {n r : String} (h : dropsRel c = some (n, r)) :
    relSchema c = some n := by
  cases c <;> simp [dropsRel] at h <;> simp [relSchema, colTable, conTable, h.1]

theorem clean_none {cs : List Change} (h : ∀ c ∈ cs, dropsRel c = none) : Clean cs := by
  intro pre c post n r e hd
  rw [h c (by rw [e]; simp)] at hd; cases hd

theorem clean_append {xs ys : List Change} (hx : Clean xs) (hy : Clean ys)
    (h : ∀ c ∈ ys, ∀ n r, dropsRel c = some (n, r) → ∀ x ∈ xs, Away n r x) : Clean (xs ++ ys) := by
  intro pre c post n r e hd x hm
  rcases List.append_eq_append_iff.1 e with ⟨a, rfl, e'⟩ | ⟨a, e', e''⟩
  · rcases List.mem_append.1 hm with hm | hm
    · exact h c (by rw [e']; simp) n r hd x hm
    · exact hy a c post n r e' hd x hm
  · cases a with
    | nil =>
      simp only [List.nil_append, List.append_nil] at e' e''
      subst e'
      exact h c (by rw [← e'']; simp) n r hd x hm
    | cons b a =>
      simp only [List.cons_append, List.cons.injEq] at e''
      obtain ⟨rfl, _⟩ := e''
      exact hx pre _ a n r e' hd x hm

theorem clean_flatMap {α : Type} {l : List α} {key : α → String} {f : α → List Change}
    (hn : (l.map key).Nodup) (h1 : ∀ x ∈ l, Clean (f x))
    (h2 : ∀ x ∈ l, ∀ y ∈ l, key x ≠ key y → ∀ c ∈ f y, ∀ n r, dropsRel c = some (n, r) →
      ∀ z ∈ f x, Away n r z) : Clean (l.flatMap f) := by
  induction l with
  | nil => exact clean_none (by intro c hc; cases hc)
  | cons a l ih =>
    rw [List.flatMap_cons]
    rw [List.map_cons, List.nodup_cons] at hn
    refine clean_append (h1 a List.mem_cons_self)
      (ih hn.2 (fun x hx => h1 x (List.mem_cons_of_mem _ hx))
        fun x hx y hy => h2 x (List.mem_cons_of_mem _ hx) y (List.mem_cons_of_mem _ hy)) ?_
    intro c hc n r hd
    obtain ⟨b, hb, hc⟩ := List.mem_flatMap.1 hc
    refine h2 a List.mem_cons_self b (List.mem_cons_of_mem _ hb) ?_ c hc n r hd
    intro e
    exact hn.1 (by rw [e]; exact List.mem_map_of_mem hb)

theorem relationCreate_inRel {t : Relation} (ht : t.WF) {c : Change} (h : c ∈ relationCreate t) :
    InRel t.schemaName t.name c ∧ dropsRel c = none := by
  cases t with
  | table t =>
    simp only [relationCreate, tableCreate, List.mem_cons] at h
    rcases h with rfl | h
    · exact ⟨by intro q hq; simp only [newCreateTable, targets, List.mem_singleton] at hq
                subst hq; exact ⟨rfl, rfl⟩, rfl⟩
    · rw [flatMap_values] at h
      obtain ⟨p, hp, h⟩ := List.mem_flatMap.1 h
      have := conTable_create h
      have hh := Table.WF.cons_home ht p hp
      rw [hh.2.1, hh.2.2] at this
      exact ⟨inRel_conTable this, dropsRel_conTable this⟩
  | view t =>
    simp only [relationCreate, viewCreate, List.mem_singleton] at h; subst h
    exact ⟨by intro q hq; simp only [newCreateView, targets, List.mem_singleton] at hq
              subst hq; exact ⟨rfl, rfl⟩, rfl⟩
  | sequence t =>
    simp only [relationCreate, sequenceCreate, List.mem_singleton] at h; subst h
    exact ⟨by intro q hq; simp only [newCreateSequence, targets, List.mem_singleton] at hq
              subst hq; exact ⟨rfl, rfl⟩, rfl⟩
  | index t =>
    simp only [relationCreate, indexCreate, List.mem_singleton] at h; subst h
    exact ⟨by intro q hq; simp only [newCreateIndex, targets, List.mem_singleton] at hq
              subst hq; exact ⟨rfl, rfl⟩, rfl⟩

theorem relationDrop_single (t : Relation) : ∃ c, relationDrop t = [c] ∧
    InRel t.schemaName t.name c ∧ (∀ n r, dropsRel c = some (n, r) → n = t.schemaName ∧ r = t.name)
    ∧ (∀ n, c ≠ .dropSchema n) := by
  cases t with
  | table t =>
    refine ⟨_, rfl, ?_, ?_, ?_⟩
    · intro q hq; simp only [newDropTable, targets, List.mem_singleton] at hq
      subst hq; exact ⟨rfl, rfl⟩
    · intro n r h; cases h; exact ⟨rfl, rfl⟩
    · intro n h; cases h
  | view t =>
    refine ⟨_, rfl, ?_, ?_, ?_⟩
    · intro q hq; simp only [newDropView, targets, List.mem_singleton] at hq
      subst hq; exact ⟨rfl, rfl⟩
    · intro n r h; cases h
    · intro n h; cases h
  | sequence t =>
    refine ⟨_, rfl, ?_, ?_, ?_⟩
    · intro q hq; simp only [newDropSequence, targets, List.mem_singleton] at hq
      subst hq; exact ⟨rfl, rfl⟩
    · intro n r h; cases h; exact ⟨rfl, rfl⟩
    · intro n h; cases h
  | index t =>
    refine ⟨_, rfl, ?_, ?_, ?_⟩
    · intro q hq; simp only [newDropIndex, targets, List.mem_singleton] at hq
      subst hq; exact ⟨rfl, rfl⟩
    · intro n r h; cases h; exact ⟨rfl, rfl⟩
    · intro n h; cases h

theorem clean_relationDrop (t : Relation) : Clean (relationDrop t) := by
  obtain ⟨c, e, _⟩ := relationDrop_single t
  rw [e]
  intro pre c post n r e hd x hx
  cases pre with
  | nil => cases hx
  | cons a pre => simp at e

theorem relationDrop_inRel {t : Relation} {c : Change} (h : c ∈ relationDrop t) :
    InRel t.schemaName t.name c ∧
      (∀ n r, dropsRel c = some (n, r) → n = t.schemaName ∧ r = t.name) := by
  obtain ⟨c', e, h1, h2, _⟩ := relationDrop_single t
  rw [e, List.mem_singleton] at h
  subst h
  exact ⟨h1, h2⟩

theorem relationUpdate_inRel {s t : Relation} (hs : s.WF) (ht : t.WF)
    (h1 : s.schemaName = t.schemaName) (h2 : s.name = t.name) {c : Change}
    (h : c ∈ relationUpdate s t) : InRel t.schemaName t.name c ∧
      (∀ n r, dropsRel c = some (n, r) → n = t.schemaName ∧ r = t.name) := by
  rcases relationUpdate_cases s t with e | e | ⟨a, b, rfl, rfl, e⟩
  · rw [e] at h; cases h
  · rw [e] at h
    rcases List.mem_append.1 h with h | h
    · rw [← h1, ← h2]; exact relationDrop_inRel h
    · obtain ⟨h3, h4⟩ := relationCreate_inRel ht h
      exact ⟨h3, fun n r hd => by rw [h4] at hd; cases hd⟩
  · rw [e, tableUpdate_eq] at h
    rcases List.mem_append.1 h with h | h
    · have := colTable_colsPart hs ht h1 h2 h
      exact ⟨inRel_colTable this, fun n r hd => by rw [dropsRel_colTable this] at hd; cases hd⟩
    · have := conTable_consPart hs ht h1 h2 h
      exact ⟨inRel_conTable this, fun n r hd => by rw [dropsRel_conTable this] at hd; cases hd⟩

theorem clean_relationUpdate {s t : Relation} (hs : s.WF) (ht : t.WF)
    (h1 : s.schemaName = t.schemaName) (h2 : s.name = t.name) : Clean (relationUpdate s t) := by
  rcases relationUpdate_cases s t with e | e | ⟨a, b, rfl, rfl, e⟩
  · rw [e]; exact clean_none (by intro c hc; cases hc)
  · rw [e]
    refine clean_append (clean_relationDrop s)
      (clean_none fun c hc => (relationCreate_inRel ht hc).2) ?_
    intro c hc n r hd
    rw [(relationCreate_inRel ht hc).2] at hd; cases hd
  · rw [e, tableUpdate_eq]
    refine clean_none fun c hc => ?_
    rcases List.mem_append.1 hc with h | h
    · exact dropsRel_colTable (colTable_colsPart hs ht h1 h2 h)
    · exact dropsRel_conTable (conTable_consPart hs ht h1 h2 h)


/-- All objects named by the change are the schema or lie in it. -/
def InSch (n : String) (c : Change) : Prop := ∀ q ∈ c.targets, (Path.schema n).Contains q

theorem away_inSch {c : Change} {n n' : String} (h : InSch n c) (hn : n' ≠ n) (r : String) :
    Away n' r c := by
  intro q hq
  have := h q hq
  cases q <;> simp only [Path.Contains] at this ⊢ <;> simp_all [Ne.symm hn]

theorem inSch_relSchema {c : Change} {n : String} (h : relSchema c = some n) : InSch n c := by
  intro q hq
  cases c <;> simp [relSchema, colTable, conTable] at h <;> subst h <;>
    simp only [targets, List.mem_singleton] at hq <;> subst hq <;> exact rfl

theorem inSch_funSchema {c : Change} {n : String} (h : funSchema c = some n) : InSch n c := by
  intro q hq
  cases c <;> simp [funSchema] at h <;> subst h <;>
    simp only [targets, List.mem_singleton] at hq <;> subst hq <;> exact rfl

theorem relsAdded_schema {s t : Schema} (ht : t.WF) {c : Change}
    (hc : c ∈ t.relations.flatMap fun p => if s.hasRelation p.2.name then [] else relationCreate p.2) :
    relSchema c = some t.name ∧ dropsRel c = none ∧
      ∀ r, s.relations.get? r ≠ none → ∀ n, Away n r c := by
  obtain ⟨p, hp, hc⟩ := List.mem_flatMap.1 hc
  have hh := ht.rels_home p hp
  split at hc
  · cases hc
  · next hs =>
    obtain ⟨h1, h2⟩ := relationCreate_inRel hh.2.2 hc
    refine ⟨by rw [relSchema_create hh.2.2 hc, hh.2.1], h2, fun r hr n => away_inRel h1 ?_⟩
    rintro rfl
    cases e : s.relations.get? p.2.name with
    | none => exact hr e
    | some x => exact hs (AMap.has_of_some e)

theorem relsUpdated_mem {s t : Schema} (hs : s.WF) (ht : t.WF) (hn : s.name = t.name)
    {p : String × Relation} (hp : p ∈ s.relations) {c : Change}
    (hc : c ∈ (match t.relations.get? p.2.name with
      | some ti => relationUpdate p.2 ti
      | none => relationDrop p.2)) :
    relSchema c = some t.name ∧ InRel t.name p.1 c ∧
      ∀ n r, dropsRel c = some (n, r) → n = t.name ∧ r = p.1 := by
  have hh := hs.rels_home p hp
  split at hc
  · next ti hti =>
    have hh' := ht.rels_home _ (AMap.mem_of_get? hti)
    have h1 := hh.2.1.trans (hn.trans hh'.2.1.symm)
    have := relationUpdate_inRel hh.2.2 hh'.2.2 h1 hh'.1.symm hc
    refine ⟨by rw [relSchema_update hh.2.2 hh'.2.2 h1 hh'.1.symm hc, hh'.2.1], ?_⟩
    simp only at hh'
    rw [hh'.2.1, hh'.1, hh.1] at this
    exact this
  · have := relationDrop_inRel hc
    rw [hh.2.1, hh.1, hn] at this
    exact ⟨by rw [relSchema_drop hc, hh.2.1, hn], this⟩

theorem funPart_schema {s t : Schema} (hs : s.WF) (ht : t.WF) (hn : s.name = t.name) {c : Change}
    (hc : c ∈ (t.functions.values.flatMap fun ti =>
        if s.hasFunction ti.name then [] else functionCreate ti) ++
      (s.functions.values.flatMap fun si =>
        match t.functions.get? si.name with
        | some ti => functionUpdate si ti
        | none => functionDrop si)) : funSchema c = some t.name := by
  rw [flatMap_values, flatMap_values] at hc
  rcases List.mem_append.1 hc with hc | hc
  · obtain ⟨p, hp, hc⟩ := List.mem_flatMap.1 hc
    have hh := ht.funs_home p hp
    split at hc
    · cases hc
    · simp only [functionCreate, List.mem_singleton] at hc
      subst hc
      simp [newCreateFunction, funSchema, hh.2]
  · obtain ⟨p, hp, hc⟩ := List.mem_flatMap.1 hc
    have hh := hs.funs_home p hp
    split at hc
    · next ti hti =>
      have hh' := ht.funs_home _ (AMap.mem_of_get? hti)
      simp only [functionUpdate] at hc
      split at hc
      · simp only [List.mem_cons, List.not_mem_nil, or_false] at hc
        rcases hc with rfl | rfl
        · simp [newDropFunction, funSchema, hh.2, hn]
        · exact congrArg some hh'.2
      · cases hc
    · simp only [functionDrop, List.mem_singleton] at hc
      subst hc
      simp [newDropFunction, funSchema, hh.2, hn]

theorem clean_schemaUpdate {s t : Schema} (hs : s.WF) (ht : t.WF) (hn : s.name = t.name) :
    Clean (schemaUpdate s t) := by
  rw [schemaUpdate_split]
  refine clean_append (clean_append (clean_none fun c hc => (relsAdded_schema ht hc).2.1) ?_ ?_)
    (clean_none fun c hc => dropsRel_funSchema (funPart_schema hs ht hn hc)) ?_
  · refine clean_flatMap hs.rels_nodup ?_ ?_
    · intro p hp
      have hh := hs.rels_home p hp
      split
      · next ti hti =>
        have hh' := ht.rels_home _ (AMap.mem_of_get? hti)
        exact clean_relationUpdate hh.2.2 hh'.2.2 (hh.2.1.trans (hn.trans hh'.2.1.symm)) hh'.1.symm
      · exact clean_relationDrop _
    · intro x hx y hy hne c hc n r hd z hz
      obtain ⟨rfl, rfl⟩ := (relsUpdated_mem hs ht hn hy hc).2.2 n r hd
      exact away_inRel (relsUpdated_mem hs ht hn hx hz).2.1 (Ne.symm hne)
  · intro c hc n r hd x hx
    obtain ⟨p, hp, hc⟩ := List.mem_flatMap.1 hc
    obtain ⟨rfl, rfl⟩ := (relsUpdated_mem hs ht hn hp hc).2.2 n r hd
    refine (relsAdded_schema ht hx).2.2 _ ?_ _
    rw [AMap.get?_of_mem hs.rels_nodup hp]; simp
  · intro c hc n r hd
    rw [dropsRel_funSchema (funPart_schema hs ht hn hc)] at hd; cases hd

theorem inSch_schemaUpdate {s t : Schema} (hs : s.WF) (ht : t.WF) (hn : s.name = t.name)
    {c : Change} (hc : c ∈ schemaUpdate s t) : relSchema c = some t.name ∨ funSchema c = some t.name := by
  rw [schemaUpdate_split] at hc
  rcases List.mem_append.1 hc with hc | hc
  · rcases List.mem_append.1 hc with hc | hc
    · exact Or.inl (relsAdded_schema ht hc).1
    · obtain ⟨p, hp, hc⟩ := List.mem_flatMap.1 hc
      exact Or.inl (relsUpdated_mem hs ht hn hp hc).1
  · exact Or.inr (funPart_schema hs ht hn hc)

/-- The drops of the contents of a schema. -/
def contentsDrop (s : Schema) : List Change :=
  (s.relations.flatMap fun p => relationDrop p.2) ++ (s.functions.flatMap fun p => functionDrop p.2)

theorem schemaDrop_eq (s : Schema) : schemaDrop s = contentsDrop s ++ [.dropSchema s.name] := by
  rw [schemaDrop, flatMap_values, flatMap_values]; rfl

theorem contentsDrop_schema {s : Schema} (hs : s.WF) {c : Change} (hc : c ∈ contentsDrop s) :
    relSchema c = some s.name ∨ funSchema c = some s.name := by
  rcases List.mem_append.1 hc with hc | hc
  · obtain ⟨p, hp, hc⟩ := List.mem_flatMap.1 hc
    exact Or.inl (by rw [relSchema_drop hc, (hs.rels_home p hp).2.1])
  · obtain ⟨p, hp, hc⟩ := List.mem_flatMap.1 hc
    simp only [functionDrop, List.mem_singleton] at hc
    subst hc
    exact Or.inr (by simp [newDropFunction, funSchema, (hs.funs_home p hp).2])

theorem clean_contentsDrop {s : Schema} (hs : s.WF) : Clean (contentsDrop s) := by
  refine clean_append (clean_flatMap hs.rels_nodup (fun p _ => clean_relationDrop _) ?_)
    (clean_none ?_) ?_
  · intro x hx y hy hne c hc n r hd z hz
    obtain ⟨rfl, rfl⟩ := (relationDrop_inRel hc).2 n r hd
    refine away_inRel (relationDrop_inRel hz).1 ?_
    rw [(hs.rels_home x hx).1, (hs.rels_home y hy).1]
    exact Ne.symm hne
  · intro c hc
    obtain ⟨p, hp, hc⟩ := List.mem_flatMap.1 hc
    simp only [functionDrop, List.mem_singleton] at hc
    subst hc; rfl
  · intro c hc n r hd
    obtain ⟨p, hp, hc⟩ := List.mem_flatMap.1 hc
    simp only [functionDrop, List.mem_singleton] at hc
    subst hc; cases hd

theorem clean_schemaDrop {s : Schema} (hs : s.WF) : Clean (schemaDrop s) := by
  rw [schemaDrop_eq]
  refine clean_append (clean_contentsDrop hs) (clean_none ?_) ?_
  · intro c hc; rw [List.mem_singleton] at hc; subst hc; rfl
  · intro c hc n r hd; rw [List.mem_singleton] at hc; subst hc; cases hd

/-- The changes of one schema present in the source. -/
def schemaPart (t : Database) (p : String × Schema) : List Change :=
  match t.schemas.get? p.2.name with
  | some ti => schemaUpdate p.2 ti
  | none => schemaDrop p.2

theorem compareDiff_split (s t : Database) : compareDiff s t =
    (t.schemas.flatMap fun p => if s.hasSchema p.2.name then [] else schemaCreate p.2) ++
    s.schemas.flatMap (schemaPart t) := by
  rw [compareDiff, flatMap_values, flatMap_values]; rfl

theorem schemaCreate_inSch {t : Schema} (ht : t.WF) {c : Change} (hc : c ∈ schemaCreate t) :
    InSch t.name c ∧ dropsRel c = none ∧ ∀ n, c ≠ .dropSchema n := by
  simp only [schemaCreate, flatMap_values, List.mem_cons, List.mem_append, List.mem_flatMap] at hc
  rcases hc with rfl | ⟨q, hq, hc⟩ | ⟨q, hq, hc⟩
  · refine ⟨?_, rfl, by intro n h; cases h⟩
    intro p hp
    simp only [newCreateSchema, targets, List.mem_singleton] at hp
    subst hp; exact rfl
  · have hr := ht.rels_home q hq
    have h1 := relSchema_create hr.2.2 hc
    rw [hr.2.1] at h1
    exact ⟨inSch_relSchema h1, (relationCreate_inRel hr.2.2 hc).2, by rintro n rfl; cases h1⟩
  · have hr := ht.funs_home q hq
    simp only [functionCreate, List.mem_singleton] at hc
    subst hc
    have h1 : funSchema (newCreateFunction q.2) = some t.name := by
      simp [newCreateFunction, funSchema, hr.2]
    exact ⟨inSch_funSchema h1, rfl, by intro n h; cases h⟩

theorem newSchemas_mem {s t : Database} (ht : t.WF) {c : Change}
    (hc : c ∈ t.schemas.flatMap fun p => if s.hasSchema p.2.name then [] else schemaCreate p.2) :
    ∃ n, s.schemas.get? n = none ∧ InSch n c ∧ dropsRel c = none ∧ ∀ m, c ≠ .dropSchema m := by
  obtain ⟨p, hp, hc⟩ := List.mem_flatMap.1 hc
  split at hc
  · cases hc
  · next h =>
    refine ⟨p.2.name, ?_, schemaCreate_inSch (ht.home p hp).2 hc⟩
    cases e : s.schemas.get? p.2.name with
    | none => rfl
    | some x => exact absurd (AMap.has_of_some e) h

theorem schemaPart_mem {s t : Database} (hs : s.WF) (ht : t.WF) {p : String × Schema}
    (hp : p ∈ s.schemas) {c : Change} (hc : c ∈ schemaPart t p) :
    InSch p.1 c := by
  have hh := hs.home p hp
  rw [schemaPart] at hc
  split at hc
  · next ti hti =>
    have hh' := ht.home _ (AMap.mem_of_get? hti)
    simp only at hh'
    rcases inSch_schemaUpdate hh.2 hh'.2 hh'.1.symm hc with h | h
    · rw [hh'.1, hh.1] at h; exact inSch_relSchema h
    · rw [hh'.1, hh.1] at h; exact inSch_funSchema h
  · rw [schemaDrop_eq] at hc
    rcases List.mem_append.1 hc with hc | hc
    · rcases contentsDrop_schema hh.2 hc with h | h
      · rw [hh.1] at h; exact inSch_relSchema h
      · rw [hh.1] at h; exact inSch_funSchema h
    · rw [List.mem_singleton] at hc
      subst hc
      intro q hq
      simp only [targets, List.mem_singleton] at hq
      subst hq; exact hh.1

theorem inSch_unique {c : Change} {n m : String} (h1 : InSch n c) (h2 : InSch m c) : n = m := by
  cases c with
  | renameColumn s t a b =>
    exact Eq.trans (Eq.symm (h1 (.column s t a) (by simp [targets]))) (h2 (.column s t a) (by simp [targets]))
  | _ =>
    have a := h1 _ (List.mem_singleton.2 rfl)
    have b := h2 _ (List.mem_singleton.2 rfl)
    exact Eq.trans (Eq.symm a) b

theorem clean_diff {s t : Database} (hs : s.WF) (ht : t.WF) : Clean (compareDiff s t) := by
  rw [compareDiff_split]
  refine clean_append (clean_none fun c hc => ?_) (clean_flatMap hs.nodup ?_ ?_) ?_
  · obtain ⟨n, _, _, h, _⟩ := newSchemas_mem ht hc; exact h
  · intro p hp
    have hh := hs.home p hp
    rw [schemaPart]
    split
    · next ti hti =>
      have hh' := ht.home _ (AMap.mem_of_get? hti)
      exact clean_schemaUpdate hh.2 hh'.2 hh'.1.symm
    · exact clean_schemaDrop hh.2
  · intro x hx y hy hne c hc n r hd z hz
    have h1 := inSch_unique (schemaPart_mem hs ht hy hc) (inSch_relSchema (dropsRel_schema hd))
    exact away_inSch (schemaPart_mem hs ht hx hz) (by rw [← h1]; exact Ne.symm hne) r
  · intro c hc n r hd x hx
    obtain ⟨p, hp, hc⟩ := List.mem_flatMap.1 hc
    have h1 := inSch_unique (schemaPart_mem hs ht hp hc) (inSch_relSchema (dropsRel_schema hd))
    obtain ⟨m, hm, h2, _⟩ := newSchemas_mem ht hx
    refine away_inSch h2 ?_ r
    rintro rfl
    rw [← h1, AMap.get?_of_mem hs.nodup hp] at hm
    cases hm


/-! ### A schema is empty when it is dropped -/

theorem inSch_contains {c : Change} {n m : String} (h : InSch n c) (hn : m ≠ n) {p : Path}
    (hp : (Path.schema m).Contains p) : ∀ q ∈ c.targets, ¬ q.Contains p := by
  intro q hq hc
  have := h q hq
  cases p <;> cases q <;> simp only [Path.Contains] at * <;> simp_all

theorem applyAll_otherSchemas {cs : List Change} {m : String} {d d' : Database} (hd : d.WF)
    (hc : ∀ c ∈ cs, ∃ n, InSch n c ∧ m ≠ n) (h : applyAll cs d = .ok d') :
    d'.content m = d.content m := by
  induction cs generalizing d with
  | nil => cases h; rfl
  | cons c cs ih =>
    simp only [applyAll] at h
    cases ha : c.apply d with
    | error e => simp [ha] at h
    | ok d₁ =>
      simp only [ha] at h
      rw [ih (apply_wf hd ha) (fun c hc' => hc c (List.mem_cons_of_mem _ hc')) h]
      obtain ⟨n, h1, h2⟩ := hc c List.mem_cons_self
      exact content_ext_at fun p hp =>
        effect_frame (apply_effect hd ha) (inSch_contains h1 h2 hp)

theorem run_contentsDrop {s : Schema} (hs : s.WF) {C : Content} (hC : C s.name = some s.content) :
    runX xeff (contentsDrop s) C =
      .ok (upd C s.name (some ⟨s.name, fun _ => none, fun _ => none⟩)) := by
  have h1 : ∀ c ∈ (s.relations.flatMap fun p => relationDrop p.2), relSchema c = some s.name := by
    intro c hc
    obtain ⟨p, hp, hc⟩ := List.mem_flatMap.1 hc
    rw [relSchema_drop hc, (hs.rels_home p hp).2.1]
  have h2 : ∀ c ∈ (s.functions.flatMap fun p => functionDrop p.2), funSchema c = some s.name := by
    intro c hc
    obtain ⟨p, hp, hc⟩ := List.mem_flatMap.1 hc
    simp only [functionDrop, List.mem_singleton] at hc
    subst hc
    simp [newDropFunction, funSchema, (hs.funs_home p hp).2]
  have k1 : runX relX (s.relations.flatMap fun p => relationDrop p.2) s.content.relations
      = .ok fun _ => none := by
    rw [runX_keyed' (α := RelContent) (β := String × Relation) Prod.fst
      (fun _ => none) hs.rels_nodup]
    · congr 1
      funext j
      cases h : s.relations.get? j with
      | none =>
        rw [overlay_not_mem _ _ (AMap.get?_eq_none_iff.1 h)]
        simp [Schema.content, h]
      | some x =>
        exact overlay_mem (β := String × Relation) (m := s.content.relations) Prod.fst
          (fun _ => none) hs.rels_nodup (AMap.mem_of_get? h)
    · intro p hp m' hm'
      have hh := hs.rels_home p hp
      have := run_relationDrop (s := p.2) (m := m') (by
        rw [hh.1, hm']; simp [Schema.content, AMap.get?_of_mem hs.rels_nodup hp])
      rw [hh.1] at this; exact this
  have k2 : runX funX (s.functions.flatMap fun p => functionDrop p.2) s.content.functions
      = .ok fun _ => none := by
    rw [runX_keyed' (α := Function) (β := String × Function) Prod.fst
      (fun _ => none) hs.funs_nodup]
    · congr 1
      funext j
      cases h : s.functions.get? j with
      | none =>
        rw [overlay_not_mem _ _ (AMap.get?_eq_none_iff.1 h)]
        simp [Schema.content, h]
      | some x =>
        exact overlay_mem (β := String × Function) (m := s.content.functions) Prod.fst
          (fun _ => none) hs.funs_nodup (AMap.mem_of_get? h)
    · intro p hp m' hm'
      have hh := hs.funs_home p hp
      have := run_functionDrop (s := p.2) (m := m') (by
        rw [hh.1, hm']; simp [Schema.content, AMap.get?_of_mem hs.funs_nodup hp])
      rw [hh.1] at this; exact this
  rw [contentsDrop, runX_append, lift_rel _ h1 hC, k1]
  simp only [mapX]
  rw [lift_fun _ h2 (upd_same _ _ _)]
  simp only
  rw [k2]
  simp only [mapX, upd_upd]
  rfl

theorem split_unique {α : Type} {x : α} {a b pre post : List α} (h : pre ++ x :: post = a ++ x :: b)
    (ha : x ∉ a) (hb : x ∉ b) : pre = a := by
  rcases List.append_eq_append_iff.1 h with ⟨u, rfl, e⟩ | ⟨u, rfl, e⟩
  · cases u with
    | nil => simp
    | cons y u =>
      simp only [List.cons_append, List.cons.injEq] at e
      exact absurd (by rw [← e.1]; simp) ha
  · cases u with
    | nil => simp
    | cons y u =>
      simp only [List.cons_append, List.cons.injEq] at e
      exact absurd (by rw [e.2]; simp) hb

theorem dropSchema_empty {s t d₀ : Database} (hs : s.WF) (ht : t.WF) {pre post : List Change}
    {m : String} (h : compareDiff s t = pre ++ .dropSchema m :: post)
    (ha : applyAll pre s = .ok d₀) : ¬ Lossy d₀.content (.dropSchema m) := by
  have hm : Change.dropSchema m ∈ compareDiff s t := by rw [h]; simp
  rw [compareDiff_split] at hm
  rcases List.mem_append.1 hm with hm | hm
  · obtain ⟨n, _, _, _, hne⟩ := newSchemas_mem ht hm
    exact absurd rfl (hne m)
  obtain ⟨p, hp, hm⟩ := List.mem_flatMap.1 hm
  have hpm : p.1 = m := (schemaPart_mem hs ht hp hm (.schema m) (by simp [targets])).symm
  have hh := hs.home p hp
  have hpart : schemaPart t p = contentsDrop p.2 ++ [.dropSchema m] := by
    rw [schemaPart] at hm ⊢
    split at hm
    · next ti hti =>
      have hh' := ht.home _ (AMap.mem_of_get? hti)
      rcases inSch_schemaUpdate hh.2 hh'.2 hh'.1.symm hm with e | e <;> cases e
    · rw [schemaDrop_eq, hh.1, hpm]
  obtain ⟨l₁, l₂, hl⟩ := List.append_of_mem hp
  have hnd := hs.nodup
  rw [AMap.NodupKeys, AMap.keys, hl, List.map_append, List.map_cons, List.nodup_append] at hnd
  have ho1 : ∀ q ∈ l₁, m ≠ q.1 := by
    rintro q hq rfl
    exact hnd.2.2 _ (List.mem_map_of_mem hq) _ (List.mem_cons_self) hpm.symm
  have ho2 : ∀ q ∈ l₂, m ≠ q.1 := by
    rintro q hq rfl
    have := (List.nodup_cons.1 hnd.2.1).1
    rw [hpm] at this
    exact this (List.mem_map_of_mem hq)
  let A := t.schemas.flatMap fun p => if s.hasSchema p.2.name then [] else schemaCreate p.2
  have hA : ∀ c ∈ A ++ l₁.flatMap (schemaPart t), ∃ n, InSch n c ∧ m ≠ n := by
    intro c hc
    rcases List.mem_append.1 hc with hc | hc
    · obtain ⟨n, h1, h2, _⟩ := newSchemas_mem ht hc
      refine ⟨n, h2, ?_⟩
      rintro rfl
      rw [← hpm, AMap.get?_of_mem hs.nodup hp] at h1; cases h1
    · obtain ⟨q, hq, hc⟩ := List.mem_flatMap.1 hc
      exact ⟨q.1, schemaPart_mem hs ht (by rw [hl]; simp [hq]) hc, ho1 q hq⟩
  have hpre : pre = (A ++ l₁.flatMap (schemaPart t)) ++ contentsDrop p.2 := by
    refine split_unique (x := Change.dropSchema m) (post := post)
      (b := l₂.flatMap (schemaPart t)) ?_ ?_ ?_
    · rw [← h, compareDiff_split, hl, List.flatMap_append, List.flatMap_cons, hpart]
      simp [A]
    · intro hc
      rcases List.mem_append.1 hc with hc | hc
      · obtain ⟨n, h1, h2⟩ := hA _ hc
        exact h2 (h1 (.schema m) (by simp [targets]))
      · rcases contentsDrop_schema hh.2 hc with e | e <;> cases e
    · intro hc
      obtain ⟨q, hq, hc⟩ := List.mem_flatMap.1 hc
      exact ho2 q hq
        (schemaPart_mem hs ht (by rw [hl]; simp [hq]) hc (.schema m) (by simp [targets]))
  rw [hpre, applyAll_append] at ha
  cases hb : applyAll (A ++ l₁.flatMap (schemaPart t)) s with
  | error e => rw [hb] at ha; cases ha
  | ok d₁ =>
    rw [hb] at ha
    simp only at ha
    have hd₁ := applyAll_wf hs hb
    have hC : d₁.content p.2.name = some p.2.content := by
      rw [hh.1, hpm, applyAll_otherSchemas hs hA hb, ← hpm]
      simp [Database.content, AMap.get?_of_mem hs.nodup hp]
    obtain ⟨d', h1, h2⟩ := runX_applyAll hd₁ (run_contentsDrop hh.2 hC)
    have h3 : d₀ = d' := by
      have := ha.symm.trans h1
      cases this; rfl
    subst h3
    rintro ⟨sc, h4, h5⟩
    rw [h2, hh.1, hpm, upd_same] at h4
    cases h4
    rcases h5 with ⟨x, hx⟩ | ⟨x, hx⟩ <;> exact hx rfl

/-! ### Undoing a computed diff -/

theorem noLoss_of {cs : List Change} {d : Database}
    (hl : ∀ pre c post d₀, cs = pre ++ c :: post → applyAll pre d = .ok d₀ →
      ¬ Lossy d₀.content c) : NoLoss cs d := by
  induction cs generalizing d with
  | nil => trivial
  | cons c cs ih =>
    refine ⟨hl [] c cs d rfl rfl, fun d' hd' => ih fun pre c' post d₀ e h => ?_⟩
    refine hl (c :: pre) c' post d₀ (by rw [e]; rfl) ?_
    simp [applyAll, hd', h]

/-- A list with a lossy change has a last one. -/
theorem last_lossy {cs : List Change} {d : Database}
    (h : ∃ pre c post d₀, cs = pre ++ c :: post ∧ applyAll pre d = .ok d₀ ∧ Lossy d₀.content c) :
    ∃ pre c post d₀, cs = pre ++ c :: post ∧ applyAll pre d = .ok d₀ ∧ Lossy d₀.content c ∧
      ∀ d₁, c.apply d₀ = .ok d₁ → NoLoss post d₁ := by
  obtain ⟨pre, c, post, d₀, e, ha, hl⟩ := h
  induction hn : post.length using Nat.strongRecOn generalizing pre c post d₀ with
  | ind n ih =>
    by_cases hnl : ∀ d₁, c.apply d₀ = .ok d₁ → NoLoss post d₁
    · exact ⟨pre, c, post, d₀, e, ha, hl, hnl⟩
    · have : ∃ d₁, c.apply d₀ = .ok d₁ ∧ ∃ pre' c' post' d₂, post = pre' ++ c' :: post' ∧
          applyAll pre' d₁ = .ok d₂ ∧ Lossy d₂.content c' := by
        apply Classical.byContradiction
        intro hno
        apply hnl
        intro d₁ h1
        refine noLoss_of fun pre' c' post' d₂ e' h2 h3 => hno ⟨d₁, h1, pre', c', post', d₂, e', h2, h3⟩
      obtain ⟨d₁, h1, pre', c', post', d₂, e', h2, h3⟩ := this
      refine ih post'.length ?_ (pre ++ c :: pre') c' post' d₂ ?_ ?_ h3 rfl
      · rw [← hn, e']; simp only [List.length_append, List.length_cons]; omega
      · rw [e, e']; simp
      · rw [applyAll_append, ha]
        simp [applyAll, h1, h2]

theorem lossy_cases {C : Content} {c : Change} (h : Lossy C c) :
    (∃ s t a b, c = .renameColumn s t a b) ∨ (∃ s, c = .dropSchema s) ∨
      ∃ n r, dropsRel c = some (n, r) ∧ c.targets = [.relation n r] := by
  cases c <;> simp only [Lossy] at h <;> first
    | exact Or.inl ⟨_, _, _, _, rfl⟩
    | exact Or.inr (Or.inl ⟨_, rfl⟩)
    | exact Or.inr (Or.inr ⟨_, _, rfl, rfl⟩)

/-- Undoing the staging of a computed diff restores the snapshot exactly when nothing was lossy. -/
theorem diff_undone_iff {s t f : Database} (hs : s.WF) (ht : t.WF) {recorded downs : List Change}
    (h : stageLoop (compareDiff s t) s [] [] = .done f recorded downs) :
    (∃ d', applyAll downs f = .ok d' ∧ d'.content = s.content) ↔
      ∀ pre c post d₀, compareDiff s t = pre ++ c :: post → applyAll pre s = .ok d₀ →
        ¬ Lossy d₀.content c := by
  constructor
  · rintro ⟨d', hd', hcont⟩
    apply Classical.byContradiction
    intro hno
    have hex : ∃ pre c post d₀, compareDiff s t = pre ++ c :: post ∧ applyAll pre s = .ok d₀ ∧
        Lossy d₀.content c := by
      apply Classical.byContradiction
      intro hn
      exact hno fun pre c post d₀ e ha hl => hn ⟨pre, c, post, d₀, e, ha, hl⟩
    obtain ⟨pre, c, post, d₀, e, ha, hl, hnl⟩ := last_lossy hex
    rcases lossy_cases hl with ⟨a, b, x, y, rfl⟩ | ⟨m, rfl⟩ | ⟨n, r, hdr, htg⟩
    · exact diff_no_rename hs ht _ (by rw [e]; simp) a b x y rfl
    · exact dropSchema_empty hs ht e ha hl
    · have haway := clean_diff hs ht pre c post n r e hdr
      rw [e] at h
      obtain ⟨d₀', v, w, h1, h2, h3⟩ := stageLoop_split h
      have : d₀' = d₀ := by
        have := (stageLoop_done h1).1.symm.trans ha
        cases this; rfl
      subst this
      have hd₀ := applyAll_wf hs ha
      simp only [stageLoop] at h2
      cases hr : c.revert d₀' with
      | error err => simp [hr] at h2
      | ok rv =>
        cases hap : c.apply d₀' with
        | error err => simp [hr, hap] at h2
        | ok d₁ =>
          simp only [hr, hap] at h2
          rw [stageLoop_acc] at h2
          cases hst : stageLoop post d₁ [] [] with
          | error err => simp [hst] at h2
          | panic err => simp [hst] at h2
          | done f' r' w' =>
            simp only [hst, StageOutcome.done.injEq] at h2
            have hd₁ := apply_wf hd₀ hap
            obtain ⟨d₂, k1, k2⟩ := stageLoop_undo hd₁ (hnl d₁ hap) hst
            have hf' : f'.WF := applyAll_wf hd₁ (stageLoop_done hst).1
            have hd₂ := applyAll_wf hf' k1
            rw [h3, ← h2.2.2, ← h2.1, applyAll_append, applyAll_append, k1] at hd'
            simp only [applyAll] at hd'
            cases hrv : rv.apply d₂ with
            | error err => simp [hrv] at hd'
            | ok d₃ =>
              simp only [hrv] at hd'
              have hd₃ := apply_wf hd₂ hrv
              have e1 := apply_effect hd₂ hrv
              rw [k2] at e1
              have hne : d₃.content ≠ d₀'.content := by
                intro e2
                rw [e2] at e1
                exact revert_lossy hd₀ (apply_effect hd₀ hap) hl hr e1
              apply hne
              apply content_ext
              intro p
              by_cases hp : (Path.relation n r).Contains p
              · -- inside the relation nothing else was changed
                have hv : ∀ x ∈ v, Away n r x := by
                  intro x hx q hq
                  obtain ⟨y, hy, hq'⟩ := stageLoop_downs hs h1 x hx
                  exact haway y hy q (hq' q hq)
                have e3 := applyAll_away hd₃ hv hd' hp
                have e4 := applyAll_away hs haway ha hp
                rw [← e3, hcont, e4]
              · have e3 : d₃.content.objAt p = d₁.content.objAt p := by
                  refine effect_frame e1 fun q hq => ?_
                  have := revert_targets hd₀ hr hq
                  rw [htg, List.mem_singleton] at this
                  rw [this]; exact hp
                have e4 : d₁.content.objAt p = d₀'.content.objAt p := by
                  refine effect_frame (apply_effect hd₀ hap) fun q hq => ?_
                  rw [htg, List.mem_singleton] at hq
                  rw [hq]; exact hp
                rw [e3, e4]
  · intro hl
    exact stageLoop_undo hs (noLoss_of hl) h

end Podo
