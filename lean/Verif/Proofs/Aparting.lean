import Verif.Proofs.Apart
import Verif.Proofs.Keeping
/-
`up` and `down` on a server that keeps the metadata schema apart.
-/
namespace Podo
open Pg Change Spec
variable {σ : Type} {W : Wide σ} {B : Behaviour σ} {m : String} {clean : String → Prop}

/-- A statement as the scripts may have them. -/
def Elsewhere (clean : String → Prop) (m q : String) : Prop := clean q ∧ ¬ WorksIn q m

theorem elsewhere_render {c : Change} (hc : clean c.renderSql) (hp : ∀ n ∈ c.leading, plain n) (hs : c.schema ≠ some m) :
    Elsewhere clean m c.renderSql := by
  refine ⟨hc, ?_⟩
  rintro ⟨st, h1, h2⟩
  rw [reads_schema hp h1] at h2
  exact hs h2

namespace Pg.Wide

theorem execAll_apart (hA : W.Apart B m clean) {qs : List String} (hq : ∀ q ∈ qs, Elsewhere clean m q) (t : VTable)
    (x : σ) : W.execAll ⟨.table t, x⟩ qs = (Pg.execAll B x qs).map fun y => ⟨.table t, y⟩ := by
  induction qs generalizing x with
  | nil => rfl
  | cons q qs ih =>
    obtain ⟨h1, h2⟩ := hq q List.mem_cons_self
    rw [execAll, Pg.execAll, hA.exec q t x h1 h2]
    cases B.exec x q with
    | none => rfl
    | some y => exact ih (fun q hm => hq q (List.mem_cons_of_mem _ hm)) y

theorem records_insert (hA : W.Apart B m clean) (t : VTable) (v : Version) :
    t.insert W.records v = t.insert B v := by
  unfold VTable.insert records
  rw [hA.accepts]

theorem records_ensure (hA : W.Apart B m clean) (db : DB σ) :
    ensureInitialized W.records db = ensureInitialized B db := by
  unfold ensureInitialized
  cases db.metaSchema with
  | absent =>
    simp only [records_insert hA]
    simp only [records, hA.creates]
  | noTable => rfl
  | table t => rfl

theorem insert_apart (hA : W.Apart B m clean) (t : VTable) (x : σ) (v : Version) :
    W.insert ⟨.table t, x⟩ v = (⟨.table (t.insert B v).1, x⟩, (t.insert B v).2) := by
  unfold insert
  simp only [records_insert hA]

theorem upLoop_apart (hA : W.Apart B m clean) {d : HDir} {ns : List String}
    (hn : ∀ n ∈ ns, ∀ v, d.getVersion n = .ok v → ∀ q ∈ v.up, Elsewhere clean m q) (t : VTable) (x : σ) :
    W.upLoop d ns ⟨.table t, x⟩ =
      (⟨.table (Pg.upLoop B d ns t x).1, (Pg.upLoop B d ns t x).2.1⟩, (Pg.upLoop B d ns t x).2.2) := by
  induction ns generalizing t x with
  | nil => rfl
  | cons n ns ih =>
    rw [upLoop, Pg.upLoop]
    cases hv : d.getVersion n with
    | error e => rfl
    | ok v =>
      simp only
      rw [execAll_apart hA (hn n List.mem_cons_self v hv)]
      cases Pg.execAll B x v.up with
      | none => rfl
      | some y =>
        simp only [Option.map_some]
        rw [insert_apart hA]
        rcases h : t.insert B v with ⟨t', ok⟩
        cases ok with
        | false => rfl
        | true => exact ih (fun n hm => hn n (List.mem_cons_of_mem _ hm)) t' y

theorem up_apart (hA : W.Apart B m clean) {d : HDir}
    (hn : ∀ n v, d.getVersion n = .ok v → ∀ q ∈ v.up, Elsewhere clean m q) (fuel : Nat) (target : Option String)
    (db : DB σ) : W.up fuel d target db = Pg.up B fuel d target db := by
  unfold up Pg.up
  rw [records_ensure hA]
  cases HDir.fromDir fuel d with
  | none => rfl
  | some r =>
    cases r with
    | error e => rfl
    | ok opened =>
      simp only
      rcases ensureInitialized B db with ⟨me, ok⟩
      cases ok with
      | false => rfl
      | true =>
        cases me with
        | absent => rfl
        | noTable => rfl
        | table t =>
          simp only
          cases t.current with
          | none => rfl
          | some cur =>
            simp only
            cases d.getVersion (target.getD opened.currentVersion) with
            | error e => rfl
            | ok to =>
              simp only
              cases HDir.upwardRange fuel d cur.name to.name with
              | none => rfl
              | some r =>
                cases r with
                | error e => rfl
                | ok vs =>
                  cases vs with
                  | nil => rfl
                  | cons v vs =>
                    simp only
                    rw [upLoop_apart hA (fun n _ => hn n)]
                    rcases h : Pg.upLoop B d (v :: vs) t db.data with ⟨t', s, o⟩
                    cases o with
                    | ok => simp only [hA.commits]
                    | error => rfl
                    | panic => rfl

theorem downLoop_apart (hA : W.Apart B m clean) {ns : List String} {t : VTable}
    (hn : ns ≠ [] → ∀ r ∈ t.rows, ∀ q ∈ r.version.down, Elsewhere clean m q) (x : σ) :
    W.downLoop ns ⟨.table t, x⟩ =
      (⟨.table (Pg.downLoop B ns t x).1, (Pg.downLoop B ns t x).2.1⟩, (Pg.downLoop B ns t x).2.2) := by
  induction ns generalizing t x with
  | nil => rfl
  | cons n ns ih =>
    replace hn := hn (by simp)
    rw [downLoop, Pg.downLoop, getVersion]
    simp only
    cases hv : t.getVersion n with
    | none => rfl
    | some v =>
      simp only
      have hd : ∀ q ∈ v.down, Elsewhere clean m q := by
        unfold VTable.getVersion at hv
        obtain ⟨r, hr, rfl⟩ := Option.map_eq_some_iff.1 hv
        exact hn r (List.mem_of_find?_eq_some hr)
      rw [execAll_apart hA hd]
      cases Pg.execAll B x v.down with
      | none => rfl
      | some y =>
        simp only [Option.map_some, delete]
        cases he : t.delete v with
        | none => rfl
        | some t' =>
          simp only [Option.map_some]
          refine ih (fun _ r hr => hn r ?_) y
          unfold VTable.delete at he
          split at he
          · cases he
          · cases he
            exact (List.mem_filter.1 hr).1

theorem down_apart (hA : W.Apart B m clean) {db : DB σ}
    (hn : ∀ t, db.metaSchema = .table t → ∀ r ∈ t.rows, ∀ q ∈ r.version.down, Elsewhere clean m q)
    (target : Option String) : W.down target db = Pg.down B target db := by
  have hrange : ∀ t, ensureInitialized B db = (.table t, true) → ∀ a b v vs, t.downwardRange a b = some (v :: vs) →
      ∀ r ∈ t.rows, ∀ q ∈ r.version.down, Elsewhere clean m q := by
    intro t he a b v vs hr
    unfold ensureInitialized at he
    cases hm : db.metaSchema with
    | noTable => rw [hm] at he; cases he
    | table t' => rw [hm] at he; cases he; exact hn t hm
    | absent =>
      exfalso
      rw [hm] at he
      simp only at he
      split at he
      · have e : t = (VTable.insert B ⟨[], 1⟩ Version.newInit).1 := (Meta.table.inj (Prod.mk.inj he).1).symm
        have e2 : (VTable.insert B ⟨[], 1⟩ Version.newInit).2 = true := (Prod.mk.inj he).2
        unfold VTable.insert at e e2
        rw [if_neg (by decide)] at e e2
        split at e
        · subst e
          revert hr
          simp only [VTable.downwardRange, VTable.order, List.nil_append, List.find?_cons, List.find?_nil]
          by_cases ha : (Version.newInit.name == a) = true
          · by_cases hb : (Version.newInit.name == b) = true
            · simp [ha, hb]
            · simp [ha, hb]
          · simp [ha]
        · rename_i hx
          rw [if_neg hx] at e2
          cases e2
      · cases he
  unfold down Pg.down
  rw [records_ensure hA]
  rcases he : ensureInitialized B db with ⟨me, ok⟩
  cases ok with
  | false => rfl
  | true =>
    cases me with
    | absent => rfl
    | noTable => rfl
    | table t =>
      simp only
      cases t.current with
      | none => rfl
      | some cur =>
        simp only
        cases target with
        | none =>
          cases hp : cur.previous with
          | none => rfl
          | some p =>
            simp only
            cases hr : t.downwardRange cur.name ((none : Option String).getD ((some p).getD "")) with
            | none => rfl
            | some vs =>
              cases vs with
              | nil => rfl
              | cons v vs =>
                simp only
                rw [downLoop_apart hA (fun _ => hrange t he _ _ _ _ hr)]
                rcases h : Pg.downLoop B (v :: vs) t db.data with ⟨t', s, o⟩
                cases o with
                | ok => simp only [hA.commits]
                | error => rfl
                | panic => rfl
        | some tg =>
          simp only
          cases hr : t.downwardRange cur.name ((some tg).getD (cur.previous.getD "")) with
          | none => rfl
          | some vs =>
            cases vs with
            | nil => rfl
            | cons v vs =>
              simp only
              rw [downLoop_apart hA (fun _ => hrange t he _ _ _ _ hr)]
              rcases h : Pg.downLoop B (v :: vs) t db.data with ⟨t', s, o⟩
              cases o with
              | ok => simp only [hA.commits]
              | error => rfl
              | panic => rfl

end Pg.Wide

/-- The revert of a change works in the same schema. -/
theorem revert_schema {c r : Change} {d : Database} (hd : d.WF) (h : c.revert d = .ok r) :
    r.schema = c.schema ∧ ∀ n ∈ r.leading, n ∈ c.leading := by
  cases c with
  | createSchema s => cases h; exact ⟨rfl, fun _ h => h⟩
  | dropSchema s => cases h; exact ⟨rfl, fun _ h => h⟩
  | createTable s t cols =>
    obtain ⟨sc, _, rfl, _, h'⟩ := lookSchema_inv hd h
    cases h'; exact ⟨rfl, fun _ h => h⟩
  | dropTable s t =>
    obtain ⟨sc, tb, rfl, rfl, h3, _, h'⟩ := lookTable_inv hd h
    cases h'
    simp only [newCreateTable, leading, schema, h3]
    exact ⟨trivial, fun _ h => h⟩
  | addColumn | addPrimaryKey | addUnique | addForeignKey | addCheck =>
    obtain ⟨sc, tb, rfl, rfl, h3, _, h'⟩ := lookTable_inv hd h
    cases h'; exact ⟨rfl, fun _ h => h⟩
  | setDataType | setDefault | setNotNull | dropColumn =>
    obtain ⟨sc, tb, col, rfl, rfl, rfl, h'⟩ := lookColumn_inv hd h
    cases h'; exact ⟨rfl, fun _ h => h⟩
  | renameColumn s t a b =>
    obtain ⟨sc, tb, col, rfl, rfl, rfl, h'⟩ := lookColumn_inv hd h
    cases h'; exact ⟨rfl, fun _ h => h⟩
  | alterPrimaryKey | dropPrimaryKey | alterUnique | dropUnique | alterForeignKey | dropForeignKey | alterCheck
  | dropCheck =>
    obtain ⟨sc, tb, con, x, rfl, rfl, rfl, ha, h'⟩ := lookConstraint_inv hd h
    cases h'; exact ⟨rfl, fun _ h => h⟩
  | createFunction | createView | createSequence =>
    obtain ⟨sc, _, rfl, _, h'⟩ := lookSchema_inv hd h
    cases h'; exact ⟨rfl, fun _ h => h⟩
  | createIndex =>
    obtain ⟨sc, _, rfl, _, h'⟩ := lookSchema_inv hd h
    cases h'; exact ⟨rfl, fun _ h => h⟩
  | dropFunction s f =>
    obtain ⟨sc, _, rfl, _, h'⟩ := lookSchema_inv hd h
    cases hf : sc.getFunction f with
    | error e => simp [hf] at h'
    | ok fn => simp only [hf] at h'; cases h'; exact ⟨rfl, fun _ h => h⟩
  | dropView =>
    obtain ⟨sc, rel, x, _, _, _, _, _, h'⟩ := lookRelation_inv hd h
    cases h'; exact ⟨rfl, fun _ h => h⟩
  | dropIndex =>
    obtain ⟨sc, rel, x, rfl, _, rfl, _, ha, h'⟩ := lookRelation_inv hd h
    cases h'
    cases rel <;> cases ha
    exact ⟨rfl, fun _ h => h⟩
  | dropSequence =>
    obtain ⟨sc, rel, x, _, _, rfl, rfl, ha, h'⟩ := lookRelation_inv hd h
    cases h'
    cases rel <;> cases ha
    exact ⟨rfl, fun _ h => h⟩

theorem takenFrom_schema {cs rs : List Change} {s s' : Database} (h : TakenFrom cs s rs s') (hs : s.WF) :
    ∀ r ∈ rs, ∃ c ∈ cs, r.schema = c.schema ∧ ∀ n ∈ r.leading, n ∈ c.leading := by
  induction h with
  | nil => intro r hr; cases hr
  | @cons c cs s r s₁ rs s' hr ha _ ih =>
    intro r' hm
    rcases List.mem_cons.1 hm with rfl | hm
    · exact ⟨c, .head _, revert_schema hs hr⟩
    · obtain ⟨c', h1, h2⟩ := ih (apply_wf hs ha) r' hm
      exact ⟨c', .tail _ h1, h2⟩

/-- What podo writes for a change begins so. -/
theorem render_begins (c : Change) : ∃ r, c.renderSql = "CREATE " ++ r ∨ c.renderSql = "ALTER " ++ r ∨
    c.renderSql = "DROP " ++ r := by
  cases ht : alterTail c with
  | some x => exact ⟨"TABLE " ++ (Sql.qa x.1 x.2.1 ++ x.2.2), .inr (.inl (by
      rw [(alterTail_some (s := x.1) (t := x.2.1) (r := x.2.2) ht).1]; simp [← String.toList_inj]))⟩
  | none =>
    cases c
    case setDefault d => cases d <;> cases ht
    case addColumn => cases ht
    case setNotNull => cases ht
    case setDataType => cases ht
    case dropColumn => cases ht
    case renameColumn => cases ht
    case addPrimaryKey => cases ht
    case alterPrimaryKey => cases ht
    case dropPrimaryKey => cases ht
    case addUnique => cases ht
    case alterUnique => cases ht
    case dropUnique => cases ht
    case addForeignKey => cases ht
    case alterForeignKey => cases ht
    case dropForeignKey => cases ht
    case addCheck => cases ht
    case alterCheck => cases ht
    case dropCheck => cases ht
    case createSchema s => exact ⟨"SCHEMA " ++ s ++ ";", .inl (by rw [render_createSchema]; simp [← String.toList_inj])⟩
    case dropSchema s => exact ⟨"SCHEMA " ++ s ++ ";", .inr (.inr (by rw [render_dropSchema]; simp [← String.toList_inj]))⟩
    case createTable s t cols =>
      exact ⟨"TABLE " ++ Sql.qa s t ++ " (" ++ Sql.l (cols.map Sql.newColumn) ++ ");", .inl (by
        rw [render_createTable]; simp [← String.toList_inj])⟩
    case dropTable s t => exact ⟨"TABLE " ++ Sql.qa s t ++ ";", .inr (.inr (by rw [render_dropTable]; simp [← String.toList_inj]))⟩
    case createFunction s f b la r v =>
      exact ⟨"FUNCTION " ++ Sql.qa s f ++ " " ++ b ++ " RETURNS " ++ r ++ " LANGUAGE " ++ la ++ " " ++ v ++ ";", .inl (by
        rw [render_createFunction]; simp [← String.toList_inj])⟩
    case dropFunction s f => exact ⟨"FUNCTION " ++ Sql.qa s f ++ ";", .inr (.inr (by rw [render_dropFunction]; simp [← String.toList_inj]))⟩
    case createView s v q => exact ⟨"VIEW " ++ Sql.qa s v ++ " AS " ++ q, .inl (by rw [render_createView]; simp [← String.toList_inj])⟩
    case dropView s v => exact ⟨"VIEW " ++ Sql.qa s v, .inr (.inr (by rw [render_dropView]; simp [← String.toList_inj]))⟩
    case createIndex s t i u m ks =>
      exact ⟨(if u then "UNIQUE INDEX" else "INDEX") ++ " " ++ Sql.qn i ++ " ON " ++ Sql.qa s t ++ " USING " ++ m ++ " ("
        ++ Sql.l ks ++ ");", .inl (by rw [render_createIndex]; simp only [String.append_assoc])⟩
    case dropIndex s i => exact ⟨"INDEX " ++ Sql.qa s i ++ ";", .inr (.inr (by rw [render_dropIndex]; simp [← String.toList_inj]))⟩
    case createSequence s n ty inc mn mx st ca cy =>
      exact ⟨"SEQUENCE " ++ (Sql.qa s n ++ (" AS " ++ (ty ++ (" INCREMENT BY " ++ (toString inc ++ (" MINVALUE " ++
        (toString mn ++ (" MAXVALUE " ++ (toString mx ++ (" START WITH " ++ (toString st ++ (" CACHE " ++ (toString ca ++
        (" " ++ ((if cy then "CYCLE" else "NO CYCLE") ++ ";"))))))))))))))), .inl (by
          rw [render_createSequence]
          simp only [String.append_assoc]
          rw [← String.append_assoc (s₁ := "CREATE ")]
          rfl)⟩
    case dropSequence s n => exact ⟨"SEQUENCE " ++ Sql.qa s n ++ ";", .inr (.inr (by rw [render_dropSequence]; simp [← String.toList_inj]))⟩

end Podo
