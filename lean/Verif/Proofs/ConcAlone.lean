import Verif.Spec.Conc
/-
Lemmas for C69: a process that runs alone does what the sequential model says.
-/
set_option linter.unusedSimpArgs false
namespace Podo
namespace Conc
open Pg (Row VTable Behaviour DB Outcome)
variable {σ : Type}

theorem Steps.trans {a b c : State} (h : Steps a b) (h' : Steps b c) : Steps a c := by
  induction h with
  | refl => exact h'
  | step hs _ ih => exact .step hs (ih h')

/-- A state with one process at most. -/
def solo (t : Option (List Row)) (n : Nat) (l : List Ran) (p : Option Proc) : State :=
  ⟨t, n, l, fun j => if j = 0 then p else none⟩

theorem solo_free {t n l p} {ok : Tx → Prop} : (solo t n l p).free 0 ok := by
  intro j x hne hj
  simp only [solo, hne, if_false] at hj
  cases hj

theorem solo_step {t n l p t' n' l' p' s' s''} (hs : Step (solo t n l p) s')
    (ht : s'.table = t') (hn : s'.next = n') (hl : s'.log = l')
    (hp : s'.procs = ((solo t n l p).put 0 p').procs) (h : Steps (solo t' n' l' p') s'') :
    Steps (solo t n l p) s'' := by
  refine .step hs ?_
  have e : s' = solo t' n' l' p' := by
    obtain ⟨a, b, c, d⟩ := s'
    simp only at ht hn hl hp
    subst ht hn hl hp
    unfold solo State.put
    congr 1
    funext j
    simp only
    split <;> rfl
  rw [e]; exact h

theorem solo_leave {t n l p} : Steps (solo t n l p) (solo t n l none) :=
  solo_step (.leave 0) rfl rfl rfl rfl .refl

/-- The rows a transaction sees. -/
def rowsOf (t : Option (List Row)) (tx : Tx) : List Row :=
  ((t.getD []).filter fun r => !tx.removed.contains r.version.name) ++ tx.added

theorem solo_seen {t n l p tx} : (solo t n l p).seen tx = ⟨rowsOf t tx, n⟩ := rfl

theorem upLoop_steps {B : Behaviour σ} {d : HDir} {target : Option String} {base : Option (List Row)}
    {l : List Ran} : ∀ {ns : List String} {t : VTable} {st : σ} {tx : Tx} {t' : VTable} {st' : σ} {o : Outcome},
    Pg.upLoop B d ns t st = (t', st', o) → rowsOf base tx = t.rows →
    (o = .ok → ∃ (tx' : Tx) (ws : List Version),
      Steps (solo base t.next l (some ⟨.up d target, .applying ns, tx⟩))
        (solo base t'.next l (some ⟨.up d target, .applying [], tx'⟩)) ∧
      rowsOf base tx' = t'.rows ∧ tx'.ran = tx.ran ++ ws.map .up ∧
      t'.rows.map Row.version = t.rows.map Row.version ++ ws) ∧
    (o ≠ .ok → Steps (solo base t.next l (some ⟨.up d target, .applying ns, tx⟩)) (solo base t'.next l none)) := by
  intro ns
  induction ns with
  | nil =>
    intro t st tx t' st' o h hr
    unfold Pg.upLoop at h
    cases h
    exact ⟨fun _ => ⟨tx, [], .refl, hr, by simp, by simp⟩, fun h => absurd rfl h⟩
  | cons n ns ih =>
    intro t st tx t' st' o h hr
    unfold Pg.upLoop at h
    split at h
    · cases h
      exact ⟨fun h => (by cases h), fun _ => solo_leave⟩
    · next v hv =>
      split at h
      · cases h
        exact ⟨fun h => (by cases h), fun _ => solo_leave⟩
      · have run : ∀ {s''}, Steps (solo base t.next l (some ⟨.up d target, .applied v ns,
            { tx with ran := tx.ran ++ [.up v] }⟩)) s'' →
            Steps (solo base t.next l (some ⟨.up d target, .applying (n :: ns), tx⟩)) s'' :=
          fun h => solo_step (.runUp 0 rfl hv) rfl rfl rfl rfl h
        split at h
        · next t₁ hins =>
          cases h
          refine ⟨fun h => (by cases h), fun _ => run ?_⟩
          unfold VTable.insert at hins
          split at hins
          · cases hins; exact solo_leave
          · split at hins
            · cases hins
            · cases hins
              exact solo_step (.refused 0 rfl) rfl rfl rfl rfl .refl
        · next t₁ hins =>
          unfold VTable.insert at hins
          split at hins
          · cases hins
          · next hmax =>
            split at hins
            · next hadm =>
              cases hins
              simp only [Bool.and_eq_true] at hadm
              have hr' : rowsOf base { tx with ran := tx.ran ++ [.up v], added := tx.added ++ [⟨v, t.next⟩] } =
                  t.rows ++ [⟨v, t.next⟩] := by
                rw [← hr]; simp only [rowsOf, List.append_assoc]
              have save : ∀ {s''}, Steps (solo base (t.next + 1) l (some ⟨.up d target, .applying ns,
                  { tx with ran := tx.ran ++ [.up v], added := tx.added ++ [⟨v, t.next⟩] }⟩)) s'' →
                  Steps (solo base t.next l (some ⟨.up d target, .applied v ns,
                    { tx with ran := tx.ran ++ [.up v] }⟩)) s'' := by
                intro s'' h
                refine solo_step (.saveUp 0 rfl solo_free ?_ (by simp only [solo]; omega)) rfl rfl rfl rfl h
                have e : (solo base t.next l (some ⟨.up d target, .applied v ns,
                    { tx with ran := tx.ran ++ [.up v] }⟩)).seen { tx with ran := tx.ran ++ [.up v] } = t := by
                  rw [solo_seen, show rowsOf base { tx with ran := tx.ran ++ [.up v] } = rowsOf base tx from rfl, hr]
                rw [e]; exact hadm.1
              obtain ⟨i1, i2⟩ := ih h hr'
              refine ⟨fun ho => ?_, fun ho => run (save (i2 ho))⟩
              obtain ⟨tx', ws, h1, h2, h3, h4⟩ := i1 ho
              exact ⟨tx', v :: ws, run (save h1), h2, by rw [h3]; simp, by rw [h4]; simp⟩
            · cases hins

theorem idle_solo {db : DB σ} {s : State} (h : Idle db s) : s = solo s.table s.next s.log none := by
  obtain ⟨a, b, c, f⟩ := s
  unfold solo
  congr 1
  funext j
  have := h.procs j
  simp only at this
  rw [this]
  split <;> rfl

theorem solo_idle {db : DB σ} {t n l} (h : match db.metaSchema with
    | .absent => t = none
    | .noTable => False
    | .table v => t = some v.rows ∧ n = v.next) : Idle db (solo t n l none) := by
  refine ⟨fun i => ?_, h⟩
  simp only [solo]
  split <;> rfl

/-- The state after `ensure_initialized`. -/
theorem ensure_steps {B : Behaviour σ} {db : DB σ} {s : State} (h : Idle db s) {t : VTable}
    (he : Pg.ensureInitialized B db = (.table t, true)) (c : Cmd) : ∃ tx,
    (∀ {s''}, Steps (solo s.table t.next s.log (some ⟨c, .opened, tx⟩)) s'' → Steps s s'') ∧
    rowsOf s.table tx = t.rows ∧ tx.ran = [] ∧ t.rows.map Row.version = s.recorded ∧
    ∀ t', Idle (db.rollback (.table t')) (solo s.table t'.next s.log none) := by
  have hs := idle_solo h
  have ht := h.tables
  unfold Pg.ensureInitialized at he
  cases hm : db.metaSchema with
  | noTable => rw [hm] at ht; exact ht.elim
  | absent =>
    rw [hm] at he ht
    simp only at he ht
    split at he
    · have : t = ⟨[⟨Version.newInit, 1⟩], 2⟩ := by
        unfold VTable.insert at he
        rw [if_neg (by decide)] at he
        split at he
        · simp only [Prod.mk.injEq, Pg.Meta.table.injEq] at he
          rw [← he.1]; rfl
        · simp at he
      subst this
      refine ⟨⟨true, [⟨Version.newInit, 1⟩], [], []⟩, ?_, by rw [ht]; rfl, rfl, ?_, ?_⟩
      · intro s'' h
        rw [hs]
        refine solo_step (.begin 0 c rfl) rfl rfl rfl rfl ?_
        refine solo_step (.create 0 rfl ht solo_free) rfl rfl rfl rfl h
      · simp [State.recorded, ht]
      · intro t'
        refine solo_idle ?_
        rw [show (db.rollback (.table t')).metaSchema = .absent by simp [DB.rollback, hm, Pg.Meta.rolledBack]]
        exact ht
    · cases he
  | table t₀ =>
    rw [hm] at he ht
    simp only [Prod.mk.injEq, Pg.Meta.table.injEq, and_true] at he ht
    subst he
    refine ⟨⟨false, [], [], []⟩, ?_, ?_, rfl, by simp [State.recorded, ht.1], ?_⟩
    · intro s'' h
      rw [hs]
      refine solo_step (.begin 0 c rfl) rfl rfl rfl rfl ?_
      refine solo_step (.exists_ 0 rfl ht.1) rfl ht.2 rfl rfl h
    · simp [rowsOf, ht.1]
    · intro t'
      refine solo_idle ?_
      rw [show (db.rollback (.table t')).metaSchema = .table { t₀ with next := t'.next } by
        simp [DB.rollback, hm, Pg.Meta.rolledBack]]
      exact ⟨ht.1, rfl⟩

theorem rollback_false {B : Behaviour σ} {db : DB σ} {m : Pg.Meta}
    (he : Pg.ensureInitialized B db = (m, false)) : db.rollback m = db := by
  unfold Pg.ensureInitialized at he
  cases hm : db.metaSchema with
  | absent =>
    obtain ⟨a, b⟩ := db
    simp only at hm
    subst hm
    rfl
  | noTable => rw [hm] at he; cases he
  | table t => rw [hm] at he; cases he

theorem solo_recorded {t n l} : (solo t n l none).recorded = (match t with
    | none => [Version.newInit]
    | some rows => rows.map Row.version) := rfl

theorem solo_recorded' {s : State} {n l} : (solo s.table n l none).recorded = s.recorded := rfl

theorem up_alone {B : Behaviour σ} {db db' : DB σ} {s : State} (h : Idle db s) {fuel : Nat} {d : HDir}
    {target : Option String} {o : Outcome} (hu : Pg.up B fuel d target db = some (db', o)) :
    ∃ s' ws, Steps s s' ∧ Idle db' s' ∧ s'.log = s.log ++ ws.map .up ∧ s'.recorded = s.recorded ++ ws := by
  have stay : db' = db → ∃ s' ws, Steps s s' ∧ Idle db' s' ∧ s'.log = s.log ++ ws.map .up ∧
      s'.recorded = s.recorded ++ ws := by
    rintro rfl; exact ⟨s, [], .refl, h, by simp, by simp⟩
  unfold Pg.up at hu
  split at hu
  · cases hu
  · cases hu; exact stay rfl
  · next opened hf =>
    split at hu
    · next m he => cases hu; exact stay (rollback_false he)
    · cases hu; exact stay rfl
    · cases hu; exact stay rfl
    · next t he =>
      obtain ⟨tx, hst, hrows, hran, hrec, hidle⟩ := ensure_steps h he (.up d target)
      have back : db' = db.rollback (.table t) → ∃ s' ws, Steps s s' ∧ Idle db' s' ∧
          s'.log = s.log ++ ws.map .up ∧ s'.recorded = s.recorded ++ ws := by
        rintro rfl
        exact ⟨_, [], hst solo_leave, hidle t, by simp [solo], by rw [solo_recorded']; simp⟩
      split at hu
      · cases hu; exact back rfl
      · next current hcur =>
        split at hu
        · cases hu; exact back rfl
        · next to hto =>
          split at hu
          · cases hu
          · cases hu; exact back rfl
          · cases hu; exact back rfl
          · next versions hne hr =>
            have plan : ∀ {s''}, Steps (solo s.table t.next s.log (some ⟨.up d target, .applying versions, tx⟩)) s'' →
                Steps s s'' := by
              intro s'' h
              refine hst (solo_step (.plan 0 rfl ?_ hf hto hr ?_) rfl rfl rfl rfl h)
              · rw [solo_seen, hrows]; exact hcur
              · rintro rfl; exact hne rfl
            split at hu
            · next t' st' hl =>
              obtain ⟨i1, _⟩ := upLoop_steps (target := target) (l := s.log) hl hrows
              obtain ⟨tx', ws, h1, h2, h3, h4⟩ := i1 rfl
              split at hu
              · cases hu
                refine ⟨solo (some t'.rows) t'.next (s.log ++ ws.map .up) none, ws, plan (h1.trans ?_),
                  solo_idle ⟨rfl, rfl⟩, rfl, ?_⟩
                · refine solo_step (.commitUp 0 rfl) ?_ rfl ?_ rfl .refl
                  · show some (State.seen _ _).rows = _
                    rw [solo_seen, h2]
                  · show s.log ++ tx'.ran = _
                    rw [h3, hran]; rfl
                · rw [solo_recorded]
                  simp only
                  rw [h4, hrec]
              · cases hu
                exact ⟨_, [], plan (h1.trans solo_leave), hidle t', by simp [solo],
                  by rw [solo_recorded']; simp⟩
            · next t' st' o' hno hl =>
              cases hu
              obtain ⟨_, i2⟩ := upLoop_steps (target := target) (l := s.log) hl hrows
              exact ⟨_, [], plan (i2 hno), hidle t', by simp [solo],
                by rw [solo_recorded']; simp⟩

theorem rowsOf_deleted {base : Option (List Row)} {tx : Tx} {n : String} :
    rowsOf base { tx with
      added := tx.added.filter fun r => r.version.name != n,
      removed := if (base.getD []).any (fun r => r.version.name == n) then n :: tx.removed else tx.removed } =
    (rowsOf base tx).filter fun r => r.version.name != n := by
  simp only [rowsOf, List.filter_append, List.filter_filter]
  congr 1
  apply List.filter_congr
  intro r hr
  by_cases hb : (base.getD []).any (fun r => r.version.name == n) = true
  · rw [if_pos hb]
    simp only [List.contains_cons, bne]
    cases r.version.name == n <;> simp
  · rw [if_neg hb]
    have : (r.version.name != n) = true := by
      cases h : r.version.name == n with
      | true => exact absurd (List.any_eq_true.2 ⟨r, hr, h⟩) hb
      | false => simp [bne, h]
    rw [this, Bool.true_and]

theorem downLoop_steps {B : Behaviour σ} {c : Cmd} {base : Option (List Row)}
    {l : List Ran} : ∀ {ns : List String} {t : VTable} {st : σ} {tx : Tx} {t' : VTable} {st' : σ} {o : Outcome},
    Pg.downLoop B ns t st = (t', st', o) → rowsOf base tx = t.rows →
    (o = .ok → ∃ (tx' : Tx) (ws : List Version),
      Steps (solo base t.next l (some ⟨c, .reverting ns, tx⟩))
        (solo base t'.next l (some ⟨c, .reverting [], tx'⟩)) ∧
      rowsOf base tx' = t'.rows ∧ tx'.ran = tx.ran ++ ws.map .down ∧ ws.map Version.name = ns ∧
      t'.rows = t.rows.filter fun r => !ns.contains r.version.name) ∧
    (o ≠ .ok → Steps (solo base t.next l (some ⟨c, .reverting ns, tx⟩)) (solo base t'.next l none)) := by
  intro ns
  induction ns with
  | nil =>
    intro t st tx t' st' o h hr
    unfold Pg.downLoop at h
    cases h
    exact ⟨fun _ => ⟨tx, [], .refl, hr, by simp, by simp, (List.filter_eq_self.2 (fun _ _ => rfl)).symm⟩,
      fun h => absurd rfl h⟩
  | cons n ns ih =>
    intro t st tx t' st' o h hr
    unfold Pg.downLoop at h
    split at h
    · cases h
      exact ⟨fun h => (by cases h), fun _ => solo_leave⟩
    · next v hv =>
      have hvn : v.name = n := by
        unfold VTable.getVersion at hv
        simp only [Option.map_eq_some_iff] at hv
        obtain ⟨r, hr, rfl⟩ := hv
        simpa using List.find?_some hr
      split at h
      · cases h
        exact ⟨fun h => (by cases h), fun _ => solo_leave⟩
      · have seen : ∀ p (tx₁ : Tx), rowsOf base tx₁ = t.rows → (solo base t.next l p).seen tx₁ = t := by
          intro p tx₁ h; rw [solo_seen, h]
        have run : ∀ {s''}, Steps (solo base t.next l (some ⟨c, .reverted v ns,
            { tx with ran := tx.ran ++ [.down v] }⟩)) s'' →
            Steps (solo base t.next l (some ⟨c, .reverting (n :: ns), tx⟩)) s'' :=
          fun h => solo_step (.runDown 0 rfl (by rw [seen _ _ hr]; exact hv)) rfl rfl rfl rfl h
        split at h
        · cases h
          exact ⟨fun h => (by cases h), fun _ => run solo_leave⟩
        · next t₁ hdel =>
          have ht₁ : t₁ = { t with rows := t.rows.filter fun r => r.version.name != v.name } := by
            unfold VTable.delete at hdel
            split at hdel
            · cases hdel
            · cases hdel; rfl
          have hr' := rowsOf_deleted (base := base) (tx := { tx with ran := tx.ran ++ [.down v] }) (n := v.name)
          rw [show rowsOf base { tx with ran := tx.ran ++ [.down v] } = t.rows from hr] at hr'
          have del : ∀ {s''}, Steps (solo base t₁.next l (some ⟨c, .reverting ns, { tx with
                ran := tx.ran ++ [.down v]
                added := tx.added.filter fun r => r.version.name != v.name,
                removed := if (base.getD []).any (fun r => r.version.name == v.name) then v.name :: tx.removed
                  else tx.removed }⟩)) s'' →
              Steps (solo base t.next l (some ⟨c, .reverted v ns, { tx with ran := tx.ran ++ [.down v] }⟩)) s'' := by
            intro s'' h
            refine solo_step (.deleteDown 0 rfl solo_free ⟨t₁, ?_⟩) rfl ?_ rfl rfl h
            · rw [seen _ { tx with ran := tx.ran ++ [.down v] } hr]; exact hdel
            · rw [ht₁]; rfl
          obtain ⟨i1, i2⟩ := ih h (by rw [ht₁]; exact hr')
          refine ⟨fun ho => ?_, fun ho => run (del (i2 ho))⟩
          obtain ⟨tx', ws, h1, h2, h3, h4, h5⟩ := i1 ho
          refine ⟨tx', v :: ws, run (del h1), h2, by rw [h3]; simp, by simp [hvn, h4], ?_⟩
          rw [h5, ht₁]
          simp only [List.filter_filter, hvn]
          apply List.filter_congr
          intro r _
          simp only [List.contains_cons, bne]
          cases r.version.name == n <;> simp

theorem down_alone {B : Behaviour σ} {db db' : DB σ} {s : State} (h : Idle db s)
    {tgt : Option String} {o : Outcome} (hu : Pg.down B tgt db = (db', o)) :
    ∃ (s' : State) (ws : List Version), Steps s s' ∧ Idle db' s' ∧ s'.log = s.log ++ ws.map .down ∧
      s'.recorded = s.recorded.filter fun v => !(ws.map Version.name).contains v.name := by
  have nofilter : ∀ l : List Version,
      l = l.filter fun v => !((([] : List Version).map Version.name).contains v.name) :=
    fun l => (List.filter_eq_self.2 (fun _ _ => rfl)).symm
  have stay : db' = db → ∃ (s' : State) (ws : List Version), Steps s s' ∧ Idle db' s' ∧ s'.log = s.log ++ ws.map .down ∧
      s'.recorded = s.recorded.filter fun v => !(ws.map Version.name).contains v.name := by
    rintro rfl; exact ⟨s, [], .refl, h, by simp, nofilter _⟩
  unfold Pg.down at hu
  split at hu
  · next m he => cases hu; exact stay (rollback_false he)
  · cases hu; exact stay rfl
  · cases hu; exact stay rfl
  · next t he =>
    obtain ⟨tx, hst, hrows, hran, hrec, hidle⟩ := ensure_steps h he (.down tgt)
    have back : db' = db.rollback (.table t) → ∃ (s' : State) (ws : List Version), Steps s s' ∧ Idle db' s' ∧
        s'.log = s.log ++ ws.map .down ∧
        s'.recorded = s.recorded.filter fun v => !(ws.map Version.name).contains v.name := by
      rintro rfl
      exact ⟨_, [], hst solo_leave, hidle t, by simp [solo], by rw [solo_recorded']; exact nofilter _⟩
    have seen : ∀ p, (solo s.table t.next s.log p).seen tx = t := by
      intro p; rw [solo_seen, hrows]
    split at hu
    · cases hu; exact back rfl
    · next current hcur =>
      split at hu
      · cases hu; exact back rfl
      · next tgt _ _ hno =>
        split at hu
        · cases hu; exact back rfl
        · cases hu; exact back rfl
        · next versions hne hr =>
          unfold VTable.downwardRange at hr
          split at hr
          · next f o' hf ho' =>
            have hb : between t f o' = versions := by
              simp only [Option.some.injEq] at hr; exact hr
            have plan : ∀ {s''}, Steps (solo s.table t.next s.log (some ⟨.down tgt, .reverting versions, tx⟩)) s'' →
                Steps s s'' := by
              intro s'' h
              refine hst ?_
              refine solo_step (.readCurrent 0 rfl (show (State.seen (solo s.table t.next s.log none) tx).current = some current by rw [seen]; exact hcur) ?_) rfl rfl rfl rfl ?_
              · cases htg : tgt with
                | some n => exact .inl (by simp)
                | none =>
                  right
                  intro hpv
                  exact hno htg hpv
              refine solo_step (.orderFrom 0 rfl (show (State.seen (solo s.table t.next s.log none) tx).order current.name = some f by rw [seen]; exact hf)) rfl rfl rfl rfl ?_
              refine solo_step (.orderTo 0 rfl (show (State.seen (solo s.table t.next s.log none) tx).order _ = some o' by rw [seen]; exact ho')) rfl rfl rfl rfl ?_
              have hne' : versions ≠ [] := by rintro rfl; exact hne rfl
              refine solo_step (.range 0 rfl (show between (State.seen (solo s.table t.next s.log none) tx) f o' ≠ [] by rw [seen, hb]; exact hne')) rfl rfl rfl ?_ h
              show (State.put _ 0 (some ⟨_, .reverting (between (State.seen (solo s.table t.next s.log none) tx) f o'), tx⟩)).procs = _
              rw [seen, hb]
            split at hu
            · next t' st' hl =>
              obtain ⟨i1, _⟩ := downLoop_steps (c := .down tgt) (l := s.log) hl hrows
              obtain ⟨tx', ws, h1, h2, h3, h4, h5⟩ := i1 rfl
              split at hu
              · cases hu
                refine ⟨solo (some t'.rows) t'.next (s.log ++ ws.map .down) none, ws, plan (h1.trans ?_),
                  solo_idle ⟨rfl, rfl⟩, rfl, ?_⟩
                · refine solo_step (.commitDown 0 rfl) ?_ rfl ?_ rfl .refl
                  · show some (State.seen _ _).rows = _
                    rw [solo_seen, h2]
                  · show s.log ++ tx'.ran = _
                    rw [h3, hran]; rfl
                · rw [solo_recorded]
                  simp only
                  rw [h5, h4, ← hrec, List.filter_map]
                  rfl
              · cases hu
                exact ⟨_, [], plan (h1.trans solo_leave), hidle t', by simp [solo],
                  by rw [solo_recorded']; exact nofilter _⟩
            · next t' st' o'' hno' hl =>
              cases hu
              obtain ⟨_, i2⟩ := downLoop_steps (c := .down tgt) (l := s.log) hl hrows
              exact ⟨_, [], plan (i2 hno'), hidle t', by simp [solo],
                by rw [solo_recorded']; exact nofilter _⟩
          · cases hr

end Conc
end Podo
