import Verif.Model.UpConc
import Verif.Proofs.FileConc
import Verif.Proofs.Pg
/-
`up` beside processes that write version files.
-/
namespace Podo
namespace UConc
open Pg
variable {σ : Type}

/-! ### The rest of the way, when the files do not change -/

/-- What follows once the versions to apply are known. -/
def applyRest (B : Behaviour σ) (db : DB σ) : VTable × σ × Outcome → DB σ × Outcome
  | (t, s, .ok) => if B.commits s then (⟨.table t, s⟩, .ok) else (db.rollback (.table t), .error)
  | (t, _, o) => (db.rollback (.table t), o)

/-- What follows once the range is known. -/
def rangeRest (B : Behaviour σ) (db : DB σ) (d : HDir) (t : VTable) :
    Option (Except FSError (List String)) → Option (DB σ × Outcome)
  | none => none
  | some (.error _) => some (db.rollback (.table t), .error)
  | some (.ok []) => some (db.rollback (.table t), .ok)
  | some (.ok versions) => some (applyRest B db (upLoop B d versions t db.data))

/-- What follows once the history is open. -/
def openRest (B : Behaviour σ) (fuel : Nat) (target : Option String) (db : DB σ) (d : HDir) (cv : String) :
    Option (DB σ × Outcome) :=
  match ensureInitialized B db with
  | (m, false) => some (db.rollback m, .error)
  | (.absent, true) => some (db, .error)
  | (.noTable, true) => some (db, .error)
  | (.table t, true) =>
    match t.current with
    | none => some (db.rollback (.table t), .error)
    | some current =>
      match d.getVersion (target.getD cv) with
      | .error _ => some (db.rollback (.table t), .error)
      | .ok to => rangeRest B db d t (HDir.upwardRange fuel d current.name to.name)

/-- How `up` ends from here on. -/
def Phase.rest (B : Behaviour σ) (fuel : Nat) (target : Option String) (db : DB σ) (d : HDir) :
    Phase σ → Option (DB σ × Outcome)
  | .started => up B fuel d target db
  | .scanning left nm =>
    match HDir.scan d left nm with
    | .error _ => some (db, .error)
    | .ok nm' =>
      match HDir.walk nm' fuel "init" Version.INIT with
      | none => none
      | some cv => openRest B fuel target db d cv
  | .opened cv => openRest B fuel target db d cv
  | .ranging t source to curr acc => rangeRest B db d t (HDir.rangeLoop d source to fuel curr acc)
  | .applying t s names => some (applyRest B db (upLoop B d names t s))
  | .done db' o => some (db', o)

theorem up_openRest (B : Behaviour σ) (fuel : Nat) (d : HDir) (target : Option String) (db : DB σ) :
    up B fuel d target db =
      match HDir.fromDir fuel d with
      | none => none
      | some (.error _) => some (db, .error)
      | some (.ok opened) => openRest B fuel target db d opened.currentVersion := by
  rw [up]
  cases HDir.fromDir fuel d with
  | none => rfl
  | some x =>
    cases x with
    | error e => rfl
    | ok opened =>
      simp only
      rw [openRest]
      cases ensureInitialized B db with
      | mk m b =>
        cases b with
        | false => cases m <;> rfl
        | true =>
          cases m with
          | absent => rfl
          | noTable => rfl
          | table t =>
            simp only
            cases t.current with
            | none => rfl
            | some current =>
              simp only
              cases d.getVersion (target.getD opened.currentVersion) with
              | error e => rfl
              | ok to =>
                simp only
                cases HDir.upwardRange fuel d current.name to.name with
                | none => rfl
                | some y =>
                  cases y with
                  | error e => rfl
                  | ok l =>
                    cases l with
                    | nil => rfl
                    | cons n ns =>
                      simp only [rangeRest]
                      cases upLoop B d (n :: ns) t db.data with
                      | mk t' r =>
                        cases r with
                        | mk s' o => cases o <;> simp only [applyRest] <;> (try split) <;> rfl

theorem rest_started (B : Behaviour σ) (fuel : Nat) (target : Option String) (db : DB σ) (d : HDir) :
    Phase.rest B fuel target db d .started = Phase.rest B fuel target db d (.scanning d []) := by
  rw [Phase.rest, up_openRest, Phase.rest, HDir.fromDir]
  cases HDir.scan d d [] with
  | error e => rfl
  | ok nm =>
    simp only
    cases HDir.walk nm fuel "init" Version.INIT <;> rfl

theorem openRest_mono {B : Behaviour σ} {f g : Nat} (hfg : f ≤ g) {target : Option String} {db : DB σ} {d : HDir}
    {cv : String} {r : DB σ × Outcome} (h : openRest B f target db d cv = some r) :
    openRest B g target db d cv = some r := by
  unfold openRest at h ⊢
  split at h
  · exact h
  · exact h
  · exact h
  · split at h
    · exact h
    · split at h
      · exact h
      · next to hto =>
        cases hu : HDir.upwardRange f d _ to.name with
        | none => rw [hu] at h; cases h
        | some x => rw [hu] at h; rw [upwardRange_mono hfg hu]; exact h

theorem scan_cons (d : HDir) (e : String × Entry) (es : List (String × Entry)) (nm : AMap String) :
    HDir.scan d (e :: es) nm = (HDir.scan d [e] nm).bind (HDir.scan d es) := by
  obtain ⟨f', e'⟩ := e
  rw [HDir.scan, HDir.scan]
  split
  · simp [HDir.scan, Except.bind]
  · split
    · rfl
    · split
      · simp [HDir.scan, Except.bind]
      · split <;> simp [HDir.scan, Except.bind]

/-- One step does not change how it ends. -/
theorem rest_back {B : Behaviour σ} {f g : Nat} {target : Option String} {db : DB σ} {d : HDir}
    {p p' : Phase σ} (h : p.next B f target db d = some p') {r : DB σ × Outcome}
    (hr : p'.rest B g target db d = some r) : ∃ k, p.rest B k target db d = some r := by
  cases p with
  | started => cases h; exact ⟨g, by rw [rest_started]; exact hr⟩
  | scanning left nm =>
    cases left with
    | nil =>
      rw [Phase.next] at h
      split at h
      · cases h
      · next cv hw =>
        cases h
        refine ⟨max f g, ?_⟩
        rw [Phase.rest, HDir.scan]
        simp only
        rw [walk_mono (Nat.le_max_left f g) hw]
        exact openRest_mono (Nat.le_max_right f g) hr
    | cons e es =>
      rw [Phase.next] at h
      refine ⟨g, ?_⟩
      rw [Phase.rest, scan_cons]
      split at h
      · next hs => cases h; rw [hs]; exact hr
      · next hs => cases h; rw [hs]; exact hr
  | opened cv =>
    rw [Phase.next] at h
    refine ⟨g, ?_⟩
    rw [Phase.rest, openRest]
    revert h
    cases ensureInitialized B db with
    | mk m b =>
      cases b with
      | false => cases m <;> (intro h; cases h; exact hr)
      | true =>
        cases m with
        | absent => intro h; cases h; exact hr
        | noTable => intro h; cases h; exact hr
        | table t =>
          simp only
          cases t.current with
          | none => intro h; cases h; exact hr
          | some current =>
            simp only
            cases d.getVersion (target.getD cv) with
            | error e => intro h; cases h; exact hr
            | ok to => intro h; cases h; exact hr
  | ranging t source to curr acc =>
    rw [Phase.next] at h
    refine ⟨g + 1, ?_⟩
    rw [Phase.rest, HDir.rangeLoop]
    split at h
    · next hv => cases h; rw [hv]; exact hr
    · next v hv =>
      rw [hv]
      simp only
      split at h
      · next hc =>
        rw [if_pos hc]
        split at h
        · next ha => cases h; subst ha; exact hr
        · next ha =>
          cases h
          rw [rangeRest]
          · exact hr
          · simpa using ha
      · next hc =>
        rw [if_neg hc]
        split at h
        · next p hp => cases h; rw [hp]; exact hr
        · next hp => cases h; rw [hp]; exact hr
  | applying t s names =>
    refine ⟨g, ?_⟩
    cases names with
    | nil =>
      rw [Phase.next] at h
      rw [Phase.rest, upLoop, applyRest]
      split at h
      · next hc => cases h; rw [if_pos hc]; exact hr
      · next hc => cases h; rw [if_neg hc]; exact hr
    | cons n ns =>
      rw [Phase.next] at h
      rw [Phase.rest, upLoop]
      split at h
      · next hv => cases h; rw [hv]; exact hr
      · next v hv =>
        rw [hv]
        simp only
        split at h
        · next hx => cases h; rw [hx]; exact hr
        · next s' hx =>
          rw [hx]
          simp only
          split at h
          · next hi => cases h; rw [hi]; exact hr
          · next hi => cases h; rw [hi]; exact hr
  | done db' o => cases h

/-! ### Alone -/

theorem beside_rest {B : Behaviour σ} {target : Option String} {db : DB σ} {P : HistCmd → Prop}
    {s₀ s : FConc.State} {db' : DB σ} {o : Outcome} :
    (∀ {names : List String} {t : VTable} {x : σ}, Beside B target db P s₀ s (.applying t x names) →
      applyRest B db (upLoop B s.dir names t x) = (db', o) → Beside B target db P s₀ s (.done db' o)) := by
  intro names
  induction names with
  | nil =>
    intro t x h hr
    rw [upLoop, applyRest] at hr
    have hn := fun p hp => Beside.up (p' := p) (fuel := 0) h hp
    rw [Phase.next] at hn
    split at hr
    · next hc =>
      rw [if_pos hc] at hn
      cases hr
      exact hn _ rfl
    · next hc =>
      rw [if_neg hc] at hn
      cases hr
      exact hn _ rfl
  | cons n ns ih =>
    intro t x h hr
    have hn := fun p hp => Beside.up (p' := p) (fuel := 0) h hp
    rw [Phase.next] at hn
    rw [upLoop] at hr
    cases hv : s.dir.getVersion n with
    | error e => rw [hv] at hr hn; cases hr; exact hn _ rfl
    | ok v =>
      rw [hv] at hr hn
      simp only at hr hn
      cases hx : execAll B x v.up with
      | none => rw [hx] at hr hn; cases hr; exact hn _ rfl
      | some x' =>
        rw [hx] at hr hn
        simp only at hr hn
        cases hi : t.insert B v with
        | mk t' b =>
          rw [hi] at hr hn
          cases b with
          | false => cases hr; exact hn _ rfl
          | true => exact ih (hn _ rfl) hr

theorem beside_range {B : Behaviour σ} {target : Option String} {db : DB σ} {P : HistCmd → Prop}
    {s₀ s : FConc.State} {db' : DB σ} {o : Outcome} {t : VTable} {source to : String} :
    ∀ {fuel : Nat} {curr : String} {acc : List String},
      Beside B target db P s₀ s (.ranging t source to curr acc) →
      rangeRest B db s.dir t (HDir.rangeLoop s.dir source to fuel curr acc) = some (db', o) →
      Beside B target db P s₀ s (.done db' o) := by
  intro fuel
  induction fuel with
  | zero => intro curr acc h hr; cases hr
  | succ fuel ih =>
    intro curr acc h hr
    have hn := fun p hp => Beside.up (p' := p) (fuel := 0) h hp
    rw [Phase.next] at hn
    rw [HDir.rangeLoop] at hr
    cases hv : s.dir.getVersion curr with
    | error e => rw [hv] at hr hn; cases hr; exact hn _ rfl
    | ok v =>
      rw [hv] at hr hn
      simp only at hr hn
      by_cases hc : curr = source
      · rw [if_pos hc] at hr hn
        by_cases ha : acc = []
        · rw [if_pos ha] at hn
          subst ha
          cases hr
          exact hn _ rfl
        · rw [if_neg ha] at hn
          have hr' : some (applyRest B db (upLoop B s.dir acc.reverse t db.data)) = some (db', o) := by
            rw [← hr]
            symm
            apply rangeRest.eq_4
            simpa using ha
          injection hr' with hr'
          exact beside_rest (hn _ rfl) hr'
      · rw [if_neg hc] at hr hn
        cases hp : v.previous with
        | none => rw [hp] at hr hn; cases hr; exact hn _ rfl
        | some q => rw [hp] at hr hn; exact ih (hn _ rfl) hr

theorem beside_open {B : Behaviour σ} {target : Option String} {db : DB σ} {P : HistCmd → Prop}
    {s₀ s : FConc.State} {db' : DB σ} {o : Outcome} {cv : String} {fuel : Nat}
    (h : Beside B target db P s₀ s (.opened cv)) (hr : openRest B fuel target db s.dir cv = some (db', o)) :
    Beside B target db P s₀ s (.done db' o) := by
  have hn := fun p hp => Beside.up (p' := p) (fuel := 0) h hp
  rw [Phase.next] at hn
  rw [openRest] at hr
  cases he : ensureInitialized B db with
  | mk m b =>
    rw [he] at hr hn
    cases b with
    | false => cases m <;> (cases hr; exact hn _ rfl)
    | true =>
      cases m with
      | absent => cases hr; exact hn _ rfl
      | noTable => cases hr; exact hn _ rfl
      | table t =>
        simp only at hr hn
        cases hc : t.current with
        | none => rw [hc] at hr hn; cases hr; exact hn _ rfl
        | some current =>
          rw [hc] at hr hn
          simp only at hr hn
          cases hv : s.dir.getVersion (target.getD cv) with
          | error e => rw [hv] at hr hn; cases hr; exact hn _ rfl
          | ok to => rw [hv] at hr hn; exact beside_range (hn _ rfl) hr

theorem beside_scan {B : Behaviour σ} {target : Option String} {db : DB σ} {P : HistCmd → Prop}
    {s₀ s : FConc.State} {db' : DB σ} {o : Outcome} {fuel : Nat} : ∀ {left : List (String × Entry)}
    {nm : AMap String}, Beside B target db P s₀ s (.scanning left nm) →
      Phase.rest B fuel target db s.dir (.scanning left nm) = some (db', o) →
      Beside B target db P s₀ s (.done db' o)
  | [], nm, h, hr => by
    have hn := fun p hp => Beside.up (p' := p) (fuel := fuel) h hp
    rw [Phase.next] at hn
    rw [Phase.rest, HDir.scan] at hr
    simp only at hr
    cases hw : HDir.walk nm fuel "init" Version.INIT with
    | none => rw [hw] at hr; cases hr
    | some cv => rw [hw] at hr hn; exact beside_open (hn _ rfl) hr
  | e :: es, nm, h, hr => by
    have hn := fun p hp => Beside.up (p' := p) (fuel := fuel) h hp
    rw [Phase.next] at hn
    rw [Phase.rest, scan_cons] at hr
    cases hs : HDir.scan s.dir [e] nm with
    | error x => rw [hs] at hr hn; cases hr; exact hn _ rfl
    | ok nm' => rw [hs] at hr hn; exact beside_scan (hn _ rfl) hr

/-- What `up` does alone is one of the things it may do beside others. -/
theorem beside_alone {B : Behaviour σ} {fuel : Nat} {d : HDir} {target : Option String} {db db' : DB σ}
    {o : Outcome} {P : HistCmd → Prop} (h : Pg.up B fuel d target db = some (db', o)) :
    Beside B target db P (FConc.idle d) (FConc.idle d) (.done db' o) :=
  beside_scan (fuel := fuel) (.up (fuel := 0) .start rfl)
    ((rest_started B fuel target db d).symm.trans h)

/-! ### What is recorded -/

theorem Beside.run {B : Behaviour σ} {target : Option String} {db : DB σ} {P : HistCmd → Prop}
    {s₀ s : FConc.State} {p : Phase σ} (h : Beside B target db P s₀ s p) : FConc.Run P s₀ s := by
  induction h with
  | start => exact .refl _
  | other _ hs ih => exact .tail ih hs
  | up _ _ ih => exact ih

/-- The files `ns` were read one after the other, each naming the one before it, the first naming `a`. -/
def Back (R : String → Version → Prop) : String → List String → Prop
  | _, [] => True
  | a, n :: ns => (∃ w, R n w ∧ w.previous = some a) ∧ Back R n ns

/-- Whatever is read from one file has one predecessor. -/
def OnePrevious (R : String → Version → Prop) : Prop :=
  ∀ n w w', R n w → R n w' → w.previous = w'.previous

/-- What is known of `up` when all it can read from the file of `n` are versions with `R n`. -/
def Phase.Trace (R : String → Version → Prop) (B : Behaviour σ) (db : DB σ) : Phase σ → Prop
  | .ranging t source _ curr acc => ensureInitialized B db = (.table t, true) ∧
      (∃ cur, t.current = some cur ∧ cur.name = source) ∧ Back R curr acc.reverse
  | .applying t s names => ∃ t₀ cur ws, ensureInitialized B db = (.table t₀, true) ∧
      t₀.current = some cur ∧ t.rows.map Row.version = t₀.rows.map Row.version ++ ws ∧
      execAll B db.data (ws.flatMap Version.up) = some s ∧ (∀ w ∈ ws, R w.name w) ∧
      Back R ((ws.getLast?.map Version.name).getD cur.name) names ∧ t₀.next ≤ t.next ∧
      (OnePrevious R → Linked (some cur.name) ws ∧ (IsChain t₀ → IsChain t))
  | .done db' .ok => ∃ ws, db'.applied = db.applied ++ ws ∧
      execAll B db.data (ws.flatMap Version.up) = some db'.data ∧ (∀ w ∈ ws, R w.name w) ∧
      (Good db → OnePrevious R → Good db' ∧ ∃ cur, db.applied.getLast? = some cur ∧ Linked (some cur.name) ws)
  | .done db' _ => Unchanged db db' ∧ (Good db → Good db')
  | _ => True

theorem ensure_applied {B : Behaviour σ} {db : DB σ} {t : VTable}
    (h : ensureInitialized B db = (.table t, true)) : t.rows.map Row.version = db.applied := by
  rcases ensure_cases h with ⟨hm, _⟩ | ⟨ha, hm⟩
  · unfold DB.applied; rw [← hm]
  · unfold DB.applied; rw [ha]; cases hm; rfl

theorem linked_append {a : String} {ws : List Version} {v : Version} (h : Linked (some a) ws)
    (hv : v.previous = some ((ws.getLast?.map Version.name).getD a)) : Linked (some a) (ws ++ [v]) := by
  induction ws generalizing a with
  | nil => exact ⟨hv, trivial⟩
  | cons w ws ih =>
    refine ⟨h.1, ih h.2 ?_⟩
    rw [hv]
    cases ws with
    | nil => rfl
    | cons x xs => rw [List.getLast?_cons_cons]; simp [List.getLast?_cons]

theorem chain_current {t : VTable} (h : IsChain t) {cur : Version} (hc : t.current = some cur) :
    (t.rows.map Row.version).getLast? = some cur := by
  obtain ⟨q, r, he⟩ := h.split_last
  rw [h.current he] at hc
  cases hc
  rw [he]; simp

theorem rollback_done {B : Behaviour σ} {db : DB σ} {t₀ t : VTable}
    (h : ensureInitialized B db = (.table t₀, true)) (hn : t₀.next ≤ t.next) :
    Unchanged db (db.rollback (.table t)) ∧ (Good db → Good (db.rollback (.table t))) :=
  ⟨rollback_unchanged db _, fun hg => rollback_good hg (ensure_next h hn)⟩

theorem Trace.next {R : String → Version → Prop} {B : Behaviour σ} {fuel : Nat} {target : Option String}
    {db : DB σ} {d : HDir} (hR : ∀ n w, d.getVersion n = .ok w → R n w) (hN : ∀ n w, R n w → w.name = n)
    {p p' : Phase σ} (h : p.Trace R B db) (hp : p.next B fuel target db d = some p') : p'.Trace R B db := by
  cases p with
  | started => cases hp; trivial
  | scanning left nm =>
    cases left with
    | nil =>
      rw [Phase.next] at hp
      split at hp
      · cases hp
      · cases hp; trivial
    | cons e es =>
      rw [Phase.next] at hp
      split at hp
      · cases hp; exact ⟨.refl db, id⟩
      · cases hp; trivial
  | opened cv =>
    rw [Phase.next] at hp
    split at hp
    · next he =>
      cases hp
      rw [ensure_fail_rollback he]
      exact ⟨.refl db, id⟩
    · cases hp; exact ⟨.refl db, id⟩
    · cases hp; exact ⟨.refl db, id⟩
    · next t he =>
      split at hp
      · cases hp; exact rollback_done he (Nat.le_refl _)
      · next cur hc =>
        split at hp
        · cases hp; exact rollback_done he (Nat.le_refl _)
        · cases hp; exact ⟨he, ⟨cur, hc, rfl⟩, trivial⟩
  | ranging t source to curr acc =>
    obtain ⟨he, ⟨cur, hc, hcs⟩, hb⟩ := h
    rw [Phase.next] at hp
    split at hp
    · cases hp; exact rollback_done he (Nat.le_refl _)
    · next v hv =>
      split at hp
      · next hcurr =>
        split at hp
        · cases hp
          rw [Phase.Trace]
          refine ⟨[], ?_, rfl, by simp, fun hg ho => ⟨(rollback_done he (Nat.le_refl _)).2 hg, cur, ?_, trivial⟩⟩
          · rw [rollback_applied, List.append_nil]
          · rw [← ensure_applied he]
            exact chain_current (ensure_chain hg he).1 hc
        · cases hp
          refine ⟨t, cur, [], he, hc, by simp, rfl, by simp, ?_, Nat.le_refl _, fun _ => ⟨trivial, id⟩⟩
          rw [hcurr, ← hcs] at hb
          exact hb
      · split at hp
        · next q hq =>
          cases hp
          refine ⟨he, ⟨cur, hc, hcs⟩, ?_⟩
          rw [List.reverse_append]
          have hr := hR _ _ hv
          have hn := hN _ _ hr
          refine ⟨⟨v, hn ▸ hr, hq⟩, ?_⟩
          rw [hn]; exact hb
        · cases hp; exact rollback_done he (Nat.le_refl _)
  | applying t x names =>
    obtain ⟨t₀, cur, ws, he, hc, hrows, hx, hws, hb, hnext, hch⟩ := h
    cases names with
    | nil =>
      rw [Phase.next] at hp
      split at hp
      · cases hp
        refine ⟨ws, ?_, hx, hws, fun hg ho => ⟨fun t' ht' => ?_, cur, ?_, (hch ho).1⟩⟩
        · rw [← ensure_applied he]; exact hrows
        · cases ht'; exact (hch ho).2 (ensure_chain hg he).1
        · rw [← ensure_applied he]
          exact chain_current (ensure_chain hg he).1 hc
      · cases hp; exact rollback_done he hnext
    | cons n ns =>
      rw [Phase.next] at hp
      split at hp
      · cases hp; exact rollback_done he hnext
      · next v hv =>
        have hr := hR _ _ hv
        have hvn := hN _ _ hr
        split at hp
        · cases hp; exact rollback_done he hnext
        · next x' hx' =>
          split at hp
          · next t' hi => cases hp; exact rollback_done he (Nat.le_trans hnext (insert_next hi))
          · next t' hi =>
            cases hp
            obtain ⟨⟨w, hw, hwp⟩, hb'⟩ := hb
            have hrows' : t'.rows = t.rows ++ [⟨v, t.next⟩] := by
              unfold VTable.insert at hi
              split at hi
              · cases hi
              · split at hi
                · cases hi; rfl
                · cases hi
            refine ⟨t₀, cur, ws ++ [v], he, hc, ?_, ?_, ?_, ?_, Nat.le_trans hnext (insert_next hi), fun ho => ?_⟩
            · rw [hrows', List.map_append, hrows, List.append_assoc]; rfl
            · rw [List.flatMap_append, execAll_append, hx]
              simp [hx']
            · intro u hu
              rcases List.mem_append.1 hu with hu | hu
              · exact hws u hu
              · cases List.mem_singleton.1 hu
                exact hvn.symm ▸ hr
            · rw [List.getLast?_append, List.getLast?_singleton]
              simp only [Option.some_or, Option.map_some, Option.getD_some, hvn]
              exact hb'
            · have hvp : v.previous = some ((ws.getLast?.map Version.name).getD cur.name) :=
                (ho n v w hr hw).trans hwp
              refine ⟨linked_append (hch ho).1 hvp, fun hc₀ => ?_⟩
              have hct := (hch ho).2 hc₀
              obtain ⟨q, r, hqr⟩ := hct.split_last
              refine (hct.insert hi hqr ?_).2
              rw [hvp]
              congr 1
              have h1 := congrArg List.getLast? hrows
              rw [hqr, List.map_append, List.getLast?_append] at h1
              simp only [List.map_cons, List.map_nil, List.getLast?_singleton, Option.some_or,
                List.getLast?_append, chain_current hc₀ hc] at h1
              cases hl : ws.getLast? with
              | none => rw [hl] at h1; simp only [Option.none_or, Option.some.injEq] at h1; rw [h1]; rfl
              | some u => rw [hl] at h1; simp only [Option.some_or, Option.some.injEq] at h1; rw [h1]; rfl
  | done db' o => cases hp

theorem Beside.trace {R : String → Version → Prop} {B : Behaviour σ} {target : Option String}
    {db : DB σ} {P : HistCmd → Prop} {s₀ s : FConc.State} {p : Phase σ}
    (hR : ∀ s, FConc.Run P s₀ s → ∀ n w, s.dir.getVersion n = .ok w → R n w)
    (hN : ∀ n w, R n w → w.name = n) (h : Beside B target db P s₀ s p) : p.Trace R B db := by
  induction h with
  | start => trivial
  | other _ _ ih => exact ih
  | up hb hp ih => exact Trace.next (hR _ hb.run) hN ih hp

/-! ### What can be read -/

/-- Writing a version of the name of its file keeps the names of files and versions the same. -/
theorem storedNames_write {s : FConc.State} {i : Nat} {q : FConc.Phase} {v : Version} {e : Option Version}
    (h : StoredNames s.dir) (hi : (s.dir.get? (v.name ++ ".yaml")).isSome)
    (he : ∀ w, e = some w → w.name = v.name) : StoredNames (s.write i q v.name e).dir := by
  intro n w hw
  unfold Stored at hw
  rw [FConc.write_get hi] at hw
  split at hw
  · next hn =>
    rw [append_yaml_inj hn]
    injection hw with hw
    injection hw with hw
    exact he w hw
  · exact h n w hw

theorem storedNames_save {d d' : HDir} {v : Version} (h : StoredNames d) (hs : d.save v = some d') :
    StoredNames d' := by
  intro n w hw
  unfold Stored at hw
  rw [save_get hs] at hw
  split at hw
  · next hn =>
    rw [append_yaml_inj hn]
    injection hw with hw
    injection hw with hw
    injection hw with hw
    rw [hw]
  · exact h n w hw

theorem storedNames_step {P : HistCmd → Prop} {d : HDir} {s t : FConc.State} (hi : FConc.Inv P d s)
    (h : StoredNames s.dir) (hs : FConc.Step P s t) : StoredNames t.dir := by
  cases hs with
  | @empty i v vs d' h1 h2 =>
    refine storedNames_write (s := ⟨d', s.procs⟩) (storedNames_save h h2) ?_ (fun w hw => by cases hw)
    show (d'.get? _).isSome
    rw [save_get h2, if_pos rfl]; rfl
  | piece h1 h2 => exact storedNames_write h (hi.there _ _ _ _ h1) fun w hw => (h2 w hw).1
  | written h1 => exact storedNames_write h (hi.there _ _ _ _ h1) fun w hw => by cases hw; rfl
  | mixed h1 h2 => exact storedNames_write h (hi.there _ _ _ _ h1) fun w hw => (h2 w hw).1
  | @relist d' hp =>
    intro n v hv
    refine h n v ?_
    unfold Stored at hv ⊢
    rw [← hv]
    exact AMap.get?_perm hi.nodup hp _
  | _ => exact h

theorem storedNames_run {P : HistCmd → Prop} {d : HDir} {s t : FConc.State} (hi : FConc.Inv P d s)
    (h : StoredNames s.dir) (hs : FConc.Run P s t) : StoredNames t.dir := by
  induction hs with
  | refl => exact h
  | tail hr hst ih => exact storedNames_step (hi.run hr) ih hst

/-- What may be read from the file of `n` while the commands of `P` are at work. -/
def Seen (P : HistCmd → Prop) (d : HDir) (n : String) (w : Version) : Prop :=
  w.name = n ∧ (Stored d n w ∨ n = "stage" ∨ ∃ stamp label, P (.make stamp label) ∧ n = madeName stamp label)

theorem seen_of_run {P : HistCmd → Prop} {d : HDir} {vs : List Version} {st : Version}
    (h : IsHistory d vs st) {s : FConc.State} (hr : FConc.Run P (FConc.idle d) s) {n : String} {w : Version}
    (hw : s.dir.getVersion n = .ok w) : Seen P d n w := by
  have hi := (FConc.inv_idle (P := P) h).run hr
  have hs := Podo.stored_iff.2 hw
  refine ⟨storedNames_run (FConc.inv_idle (P := P) h) h.storedNames hr n w hs, ?_⟩
  by_cases hst : n = "stage"
  · exact .inr (.inl hst)
  · by_cases hm : ∃ stamp label, P (.make stamp label) ∧ n = madeName stamp label
    · exact .inr (.inr hm)
    · left
      unfold Stored at hs ⊢
      rw [← hs]
      symm
      refine hi.files _ (fun he => hst (append_yaml_inj (he : n ++ ".yaml" = "stage" ++ ".yaml"))) ?_
      exact fun stamp label hp he => hm ⟨stamp, label, hp, append_yaml_inj he⟩

/-- What may be read from the file of `n` when no version is made meanwhile. -/
def SeenAlike (d : HDir) (n : String) (w : Version) : Prop :=
  w.name = n ∧ ∃ v, Stored d n v ∧ w.previous = v.previous ∧ (n ≠ "stage" → w = v)

theorem seenAlike_of_run {P : HistCmd → Prop} (hP : ∀ stamp label, ¬ P (.make stamp label)) {d : HDir}
    {vs : List Version} {st : Version} (h : IsHistory d vs st) {s : FConc.State}
    (hr : FConc.Run P (FConc.idle d) s) {n : String} {w : Version} (hw : s.dir.getVersion n = .ok w) :
    SeenAlike d n w := by
  obtain ⟨hn, hs⟩ := seen_of_run h hr hw
  refine ⟨hn, ?_⟩
  by_cases hst : n = "stage"
  · subst hst
    exact ⟨st, h.stored_stage, (FConc.run_history hP h hr (Podo.stored_iff.2 hw)).2.1, fun e => absurd rfl e⟩
  · rcases hs with hs | hs | ⟨stamp, label, hp, _⟩
    · exact ⟨w, hs, rfl, fun _ => rfl⟩
    · exact absurd hs hst
    · exact absurd hp (hP stamp label)

theorem onePrevious_alike {d : HDir} : OnePrevious (SeenAlike d) := by
  rintro n w w' ⟨_, v, hv, hp, _⟩ ⟨_, v', hv', hp', _⟩
  rw [hp, hp']
  unfold Stored at hv hv'
  rw [hv] at hv'
  cases hv'
  rfl

/-! ### The same as alone -/

/-- The names in a listing, and which of them are directories. -/
def kinds (l : List (String × Entry)) : AMap Bool := l.map fun p => (p.1, decide (p.2 = .dir))

theorem reads_kinds (d : HDir) (l : List (String × Entry)) :
    reads d l = ((kinds l).filter fun q => decide (¬ (q.2 = true ∨ endsYaml q.1 = false))).map
      fun q => d.getVersion (trimYaml q.1) := by
  unfold reads kinds
  rw [List.filter_map, List.map_map]
  congr 1
  apply List.filter_congr
  intro x _
  simp

theorem reads_perm {d : HDir} {l m : List (String × Entry)} (h : (kinds l).Perm (kinds m)) :
    (reads d l).Perm (reads d m) := by
  rw [reads_kinds, reads_kinds]
  exact (h.filter _).map _

theorem get?_kinds (l : List (String × Entry)) (k : String) :
    AMap.get? (kinds l) k = (AMap.get? l k).map fun e => decide (e = .dir) := by
  induction l with
  | nil => rfl
  | cons p l ih =>
    show AMap.get? ((p.1, decide (p.2 = .dir)) :: kinds l) k = _
    rw [AMap.get?_cons, AMap.get?_cons]
    split
    · rfl
    · exact ih

theorem nodupKeys_kinds {l : List (String × Entry)} (h : AMap.NodupKeys l) : AMap.NodupKeys (kinds l) := by
  unfold AMap.NodupKeys AMap.keys kinds at *
  rw [List.map_map]
  exact h

theorem kinds_run {P : HistCmd → Prop} (hP : ∀ stamp label, ¬ P (.make stamp label)) {d : HDir}
    {vs : List Version} {st : Version} (h : IsHistory d vs st) {s : FConc.State}
    (hr : FConc.Run P (FConc.idle d) s) : (kinds s.dir).Perm (kinds d) := by
  have hi := (FConc.inv_idle (P := P) h).run hr
  have hs := FConc.StageInv.run hP (FConc.inv_idle h) (FConc.stageInv_idle h) hr
  refine amap_perm_of_get (nodupKeys_kinds hi.nodup) (nodupKeys_kinds h.nodup) fun k => ?_
  rw [get?_kinds, get?_kinds]
  by_cases hk : k = "stage.yaml"
  · obtain ⟨e, he⟩ := hs.file
    have h2 : AMap.get? d "stage.yaml" = some (.file (some st)) := h.stored_stage
    rw [hk, he, h2]
    rfl
  · rw [hi.files k hk fun a b hp => absurd hp (hP a b)]

theorem scan_append (d : HDir) (a b : List (String × Entry)) (nm : AMap String) :
    HDir.scan d (a ++ b) nm = (HDir.scan d a nm).bind (HDir.scan d b) := by
  induction a generalizing nm with
  | nil => rfl
  | cons e es ih =>
    rw [List.cons_append, scan_cons, scan_cons d e es]
    cases HDir.scan d [e] nm with
    | error x => rfl
    | ok nm' => exact ih nm'

/-- What was listed and read while no version was made is what would have been found at the start. -/
theorem opens_of_scan {d : HDir} {vs : List Version} {st : Version} (h : IsHistory d vs st)
    {l : List (String × Entry)} {nm : AMap String} (hs : HDir.scan d l [] = .ok nm)
    (hk : (kinds l).Perm (kinds d)) {fuel : Nat} {cv : String}
    (hw : HDir.walk nm fuel "init" Version.INIT = some cv) : Opens d cv := by
  obtain ⟨nm₀, hs₀, _⟩ := h.scan
  have h1 := (scan_ok_iff d l [] nm (by simp [AMap.NodupKeys, AMap.keys])).1 hs
  have h2 := (scan_ok_iff d d [] nm₀ (by simp [AMap.NodupKeys, AMap.keys])).1 hs₀
  simp only [List.nil_append] at h1 h2
  have hp : nm.Perm nm₀ := by
    rw [h1.2.2, h2.2.2]
    exact (reads_perm hk).filterMap _
  refine ⟨fuel, nm₀, ?_⟩
  rw [HDir.fromDir, hs₀]
  simp only
  rw [← walk_congr (fun k => AMap.get?_perm (h1.2.2 ▸ h1.2.1) hp k), hw]

theorem scan_one {P : HistCmd → Prop} (hP : ∀ stamp label, ¬ P (.make stamp label)) {d : HDir}
    {vs : List Version} {st : Version} (h : IsHistory d vs st) {s : FConc.State}
    (hr : FConc.Run P (FConc.idle d) s) {e : String × Entry} {nm nm' : AMap String}
    (hs : HDir.scan s.dir [e] nm = .ok nm') : HDir.scan d [e] nm = .ok nm' := by
  obtain ⟨f, e⟩ := e
  rw [HDir.scan] at hs ⊢
  split at hs
  · next hc => rw [if_pos hc]; exact hs
  · next hc =>
    rw [if_neg hc]
    split at hs
    · cases hs
    · next w hw =>
      obtain ⟨hn, v, hv, hp, _⟩ := seenAlike_of_run hP h hr hw
      have hvn := h.storedNames _ _ hv
      rw [Podo.stored_iff.1 hv]
      simp only
      rw [← hp, hvn, ← hn]
      exact hs

theorem previous_stored {d : HDir} {vs : List Version} {st : Version} (h : IsHistory d vs st) {n p : String}
    {v : Version} (hv : Stored d n v) (hp : v.previous = some p) : p ≠ "stage" ∧ ∃ w, Stored d p w := by
  obtain ⟨hm, _⟩ := h.stored_iff.1 hv
  obtain ⟨A, u, B, hl, hu⟩ := h.linked.split hm hp
  have hum : u ∈ Version.newInit :: (vs ++ [st]) := by rw [hl]; simp
  refine ⟨?_, u, hu ▸ h.stored hum⟩
  intro hps
  have he : u = st := eq_of_name h.names' hum (by simp) (by rw [hu, hps, h.stage])
  have hlast := congrArg List.getLast? hl
  have hn := h.names'
  rw [hl] at hn
  have h1 : (Version.newInit :: (vs ++ [st])).getLast? = some st := by
    rw [← List.cons_append, List.getLast?_append]; rfl
  rw [h1] at hlast
  have hmem : st ∈ v :: B := by
    have h2 : (A ++ u :: v :: B).getLast? = (v :: B).getLast? := by
      rw [List.getLast?_append, List.getLast?_cons_cons]
      simp [List.getLast?_cons]
    rw [h2] at hlast
    exact List.mem_of_getLast? hlast.symm
  rw [List.map_append, List.map_cons, List.nodup_append] at hn
  have := (List.nodup_cons.1 hn.2.1).1
  exact this (he ▸ List.mem_map_of_mem hmem)

/-- The file of `n` is never touched. -/
def Fixed (P : HistCmd → Prop) (d : HDir) (n : String) : Prop :=
  ∀ s, FConc.Run P (FConc.idle d) s → s.dir.getVersion n = d.getVersion n

/-- How `up` ends from here, if nothing changes, is how it ends alone. -/
def Phase.AsAlone (B : Behaviour σ) (target : Option String) (db : DB σ) (d : HDir) (p : Phase σ) : Prop :=
  ∀ g r, p.rest B g target db d = some r → ∃ f, Pg.up B f d target db = some r

/-- What is known of `up` to a version that nobody touches. -/
def Phase.Same (B : Behaviour σ) (target : Option String) (db : DB σ) (P : HistCmd → Prop) (d : HDir) :
    Phase σ → Prop
  | .started => True
  | .scanning left nm => target = none →
      ∃ read, HDir.scan d read [] = .ok nm ∧ (kinds (read ++ left)).Perm (kinds d)
  | .opened cv => Phase.AsAlone B target db d (.opened cv) ∧ Fixed P d (target.getD cv)
  | .ranging t a b curr acc => Phase.AsAlone B target db d (.ranging t a b curr acc) ∧ Fixed P d curr ∧
      ∀ n ∈ acc, Fixed P d n
  | .applying t s names => Phase.AsAlone B target db d (.applying t s names) ∧ ∀ n ∈ names, Fixed P d n
  | .done db' o => o = .error ∧ db' = db ∨ ∃ f, Pg.up B f d target db = some (db', o)

theorem AsAlone.next {B : Behaviour σ} {fuel : Nat} {target : Option String} {db : DB σ} {d : HDir}
    {p p' : Phase σ} (h : p.AsAlone B target db d) (hp : p.next B fuel target db d = some p') :
    p'.AsAlone B target db d := by
  intro g r hr
  obtain ⟨k, hk⟩ := rest_back hp hr
  exact h k r hk

theorem AsAlone.ends {B : Behaviour σ} {target : Option String} {db db' : DB σ} {d : HDir} {o : Outcome}
    (h : Phase.AsAlone B target db d (.done db' o)) : ∃ f, Pg.up B f d target db = some (db', o) :=
  h 0 _ rfl

theorem opened_alone {B : Behaviour σ} {target : Option String} {db : DB σ} {d : HDir} {cv cv' : String}
    (ho : Opens d cv') (he : target.getD cv = target.getD cv') :
    Phase.AsAlone B target db d (.opened cv) := by
  intro g r hr
  obtain ⟨f, nm, hf⟩ := ho
  refine ⟨max f g, ?_⟩
  rw [up_openRest, fromDir_mono (Nat.le_max_left f g) hf]
  simp only
  refine openRest_mono (Nat.le_max_right f g) ?_
  rw [Phase.rest, openRest, he] at hr
  exact hr

theorem Same.next {B : Behaviour σ} {fuel : Nat} {target : Option String} {db : DB σ} {P : HistCmd → Prop}
    {d : HDir} {vs : List Version} {st : Version} (h : IsHistory d vs st)
    (hfix : ∀ n v, Stored d n v → n ≠ "stage" → Fixed P d n)
    (htar : target = none ∧ (∀ stamp label, ¬ P (.make stamp label)) ∨ ∃ n, target = some n ∧ Fixed P d n)
    {s : FConc.State} (hr : FConc.Run P (FConc.idle d) s) {p p' : Phase σ} (hs : p.Same B target db P d)
    (hp : p.next B fuel target db s.dir = some p') : p'.Same B target db P d := by
  cases p with
  | started =>
    cases hp
    intro ht
    rcases htar with ⟨_, hP⟩ | ⟨n, hn, _⟩
    · exact ⟨[], rfl, kinds_run hP h hr⟩
    · rw [ht] at hn; cases hn
  | scanning left nm =>
    cases left with
    | cons e es =>
      rw [Phase.next] at hp
      split at hp
      · cases hp; exact .inl ⟨rfl, rfl⟩
      · next nm' hsc =>
        cases hp
        intro ht
        obtain ⟨read, h1, h2⟩ := hs ht
        rcases htar with ⟨_, hP⟩ | ⟨n, hn, _⟩
        · refine ⟨read ++ [e], ?_, ?_⟩
          · rw [scan_append, h1]
            exact scan_one hP h hr hsc
          · rw [List.append_assoc]; exact h2
        · rw [ht] at hn; cases hn
    | nil =>
      rw [Phase.next] at hp
      split at hp
      · cases hp
      · next cv hw =>
        cases hp
        rcases htar with ⟨ht, hP⟩ | ⟨n, hn, hf⟩
        · obtain ⟨read, h1, h2⟩ := hs ht
          rw [List.append_nil] at h2
          have ho := opens_of_scan h h1 h2 hw
          refine ⟨opened_alone ho rfl, ?_⟩
          subst ht
          have hcv := h.opens_iff.1 ho
          show Fixed P d cv
          have hin : cv ∈ "init" :: vs.map Version.name := by
            rw [hcv]
            cases hl : (vs.map Version.name).getLast? with
            | none => simp
            | some x => exact List.mem_cons_of_mem _ (List.mem_of_getLast? hl)
          have hns : cv ≠ "stage" := by
            rintro rfl
            have := h.names
            rw [List.nodup_append] at this
            exact this.2.2 _ hin _ (by simp) rfl
          rcases List.mem_cons.1 hin with rfl | hin
          · exact hfix _ _ h.stored_init hns
          · obtain ⟨v, hv, rfl⟩ := List.mem_map.1 hin
            exact hfix _ _ (h.stored (by simp [hv])) hns
        · subst hn
          exact ⟨opened_alone (h.opens_iff.2 rfl) rfl, hf⟩
  | opened cv =>
    obtain ⟨ha, hf⟩ := hs
    have hp' : Phase.next B fuel target db d (.opened cv) = some p' := by
      rw [← hp, Phase.next, Phase.next, hf s hr]
    have ha' := AsAlone.next ha hp'
    rw [Phase.next] at hp'
    split at hp'
    · cases hp'; exact .inr (AsAlone.ends ha')
    · cases hp'; exact .inr (AsAlone.ends ha')
    · cases hp'; exact .inr (AsAlone.ends ha')
    · split at hp'
      · cases hp'; exact .inr (AsAlone.ends ha')
      · split at hp'
        · cases hp'; exact .inr (AsAlone.ends ha')
        · next to hto =>
          cases hp'
          have hn := h.storedNames _ _ (Podo.stored_iff.2 hto)
          exact ⟨ha', by rw [hn]; exact hf, by simp⟩
  | ranging t a b curr acc =>
    obtain ⟨ha, hf, hacc⟩ := hs
    have hp' : Phase.next B fuel target db d (.ranging t a b curr acc) = some p' := by
      rw [← hp, Phase.next, Phase.next, hf s hr]
    have ha' := AsAlone.next ha hp'
    rw [Phase.next] at hp'
    split at hp'
    · cases hp'; exact .inr (AsAlone.ends ha')
    · next v hv =>
      have hst := Podo.stored_iff.2 hv
      split at hp'
      · split at hp'
        · cases hp'; exact .inr (AsAlone.ends ha')
        · cases hp'; exact ⟨ha', fun n hn => hacc n (List.mem_reverse.1 hn)⟩
      · split at hp'
        · next q hq =>
          cases hp'
          obtain ⟨hqs, w, hw⟩ := previous_stored h hst hq
          refine ⟨ha', hfix q w hw hqs, fun n hn => ?_⟩
          rcases List.mem_append.1 hn with hn | hn
          · exact hacc n hn
          · cases List.mem_singleton.1 hn
            rw [h.storedNames _ _ hst]; exact hf
        · cases hp'; exact .inr (AsAlone.ends ha')
  | applying t x names =>
    obtain ⟨ha, hf⟩ := hs
    cases names with
    | nil =>
      have hp' : Phase.next B fuel target db d (.applying t x []) = some p' := hp
      have ha' := AsAlone.next ha hp'
      rw [Phase.next] at hp'
      split at hp'
      · cases hp'; exact .inr (AsAlone.ends ha')
      · cases hp'; exact .inr (AsAlone.ends ha')
    | cons n ns =>
      have hp' : Phase.next B fuel target db d (.applying t x (n :: ns)) = some p' := by
        rw [← hp, Phase.next, Phase.next, hf n (by simp) s hr]
      have ha' := AsAlone.next ha hp'
      rw [Phase.next] at hp'
      split at hp'
      · cases hp'; exact .inr (AsAlone.ends ha')
      · split at hp'
        · cases hp'; exact .inr (AsAlone.ends ha')
        · split at hp'
          · cases hp'; exact .inr (AsAlone.ends ha')
          · cases hp'; exact ⟨ha', fun m hm => hf m (List.mem_cons_of_mem _ hm)⟩
  | done db' o => cases hp

theorem Beside.same {B : Behaviour σ} {target : Option String} {db : DB σ} {P : HistCmd → Prop}
    {d : HDir} {vs : List Version} {st : Version} (h : IsHistory d vs st)
    (hfix : ∀ n v, Stored d n v → n ≠ "stage" → Fixed P d n)
    (htar : target = none ∧ (∀ stamp label, ¬ P (.make stamp label)) ∨ ∃ n, target = some n ∧ Fixed P d n)
    {s : FConc.State} {p : Phase σ} (hb : Beside B target db P (FConc.idle d) s p) :
    p.Same B target db P d := by
  induction hb with
  | start => trivial
  | other _ _ ih => exact ih
  | up hb hp ih => exact Same.next h hfix htar hb.run ih hp

/-- A file that is not the stage, and that no `make` is for, is never touched. -/
theorem fixed {P : HistCmd → Prop} {d : HDir} {vs : List Version} {st : Version} (h : IsHistory d vs st)
    {n : String} (hn : n ≠ "stage") (hm : ∀ stamp label, P (.make stamp label) → n ≠ madeName stamp label) :
    Fixed P d n := by
  intro s hr
  unfold HDir.getVersion
  rw [((FConc.inv_idle (P := P) h).run hr).files (n ++ ".yaml")
    (fun he => hn (append_yaml_inj (he : n ++ ".yaml" = "stage" ++ ".yaml")))
    fun stamp label hp he => hm stamp label hp (append_yaml_inj he)]

/-- Others do any number of steps. -/
theorem Beside.others {B : Behaviour σ} {target : Option String} {db : DB σ} {P : HistCmd → Prop}
    {s₀ s t : FConc.State} {p : Phase σ} (h : Beside B target db P s₀ s p) (hr : FConc.Run P s t) :
    Beside B target db P s₀ t p := by
  induction hr with
  | refl => exact h
  | tail _ hs ih => exact .other ih hs

theorem up_mono {B : Behaviour σ} {f g : Nat} (hfg : f ≤ g) {target : Option String} {db : DB σ} {d : HDir}
    {r : DB σ × Outcome} (h : Pg.up B f d target db = some r) : Pg.up B g d target db = some r := by
  rw [up_openRest] at h ⊢
  cases hf : HDir.fromDir f d with
  | none => rw [hf] at h; cases h
  | some x =>
    rw [hf] at h
    rw [fromDir_mono hfg hf]
    cases x with
    | error e => exact h
    | ok o => exact openRest_mono hfg h

/-! ### Without a target -/

/-- What a version file may name as the predecessor: a version other than the stage that was there at the
start, or one of a name given to `make`. -/
def Known (P : HistCmd → Prop) (d : HDir) (n : String) : Prop :=
  n ≠ "stage" ∧ (∃ v, Stored d n v) ∨ ∃ stamp label, P (.make stamp label) ∧ n = madeName stamp label

/-- Every predecessor named in a file, or about to be, is known. -/
structure KnownInv (P : HistCmd → Prop) (d : HDir) (s : FConc.State) : Prop where
  dir : ∀ n v p, Stored s.dir n v → v.previous = some p → Known P d p
  procs : ∀ i q, s.procs i = some q → ∀ v ∈ q.unsaved, ∀ p, v.previous = some p → Known P d p

theorem KnownInv.put {P : HistCmd → Prop} {d : HDir} {s : FConc.State} (h : KnownInv P d s) {i : Nat}
    {q : Option FConc.Phase}
    (hq : ∀ x, q = some x → ∀ v ∈ x.unsaved, ∀ p, v.previous = some p → Known P d p) :
    KnownInv P d (s.put i q) :=
  ⟨h.dir, FConc.procs_put (Q := fun x => ∀ v ∈ x.unsaved, ∀ p, v.previous = some p → Known P d p) h.procs hq⟩

theorem KnownInv.write {P : HistCmd → Prop} {d : HDir} {s : FConc.State} (h : KnownInv P d s) {i : Nat}
    {q : FConc.Phase} {n : String} {e : Option Version} (hi : (s.dir.get? (n ++ ".yaml")).isSome)
    (he : ∀ w p, e = some w → w.previous = some p → Known P d p)
    (hq : ∀ v ∈ q.unsaved, ∀ p, v.previous = some p → Known P d p) : KnownInv P d (s.write i q n e) := by
  refine ⟨fun m v p hv hp => ?_, FConc.procs_write
    (Q := fun x => ∀ v ∈ x.unsaved, ∀ p, v.previous = some p → Known P d p) h.procs hq
    (fun x hx => by rw [FConc.disturb_unsaved]; exact hx)⟩
  unfold Stored at hv
  rw [FConc.write_get hi] at hv
  split at hv
  · injection hv with hv
    injection hv with hv
    exact he v p hv hp
  · exact h.dir m v p hv hp

theorem KnownInv.step {P : HistCmd → Prop} {d : HDir} {s t : FConc.State} (hi : FConc.Inv P d s)
    (h : KnownInv P d s) (hs : FConc.Step P s t) : KnownInv P d t := by
  have hread : ∀ {n v p}, s.dir.getVersion n = .ok v → v.previous = some p → Known P d p :=
    fun hv => h.dir _ _ _ (Podo.stored_iff.2 hv)
  cases hs with
  | start i c hp _ => exact h.put fun x hx => by cases hx; simp [FConc.Phase.unsaved]
  | leave i => exact h.put fun x hx => by cases hx
  | list h1 => exact h.put fun x hx => by cases hx; simp [FConc.Phase.unsaved]
  | scan h1 _ => exact h.put fun x hx => by cases hx; simp [FConc.Phase.unsaved]
  | opens h1 _ => exact h.put fun x hx => by cases hx; simp [FConc.Phase.unsaved]
  | ranges h1 => exact h.put fun x hx => by cases hx; simp [FConc.Phase.unsaved]
  | range h1 => exact h.put fun x hx => by cases hx; simp [FConc.Phase.unsaved]
  | ranged h1 => exact h.put fun x hx => by cases hx; simp [FConc.Phase.unsaved]
  | base h1 => exact h.put fun x hx => by cases hx; simp [FConc.Phase.unsaved]
  | replay h1 => exact h.put fun x hx => by cases hx; simp [FConc.Phase.unsaved]
  | stage h1 h2 h3 =>
    refine h.put fun x hx => ?_
    cases hx
    intro v hv p hp
    simp only [FConc.Phase.unsaved, List.mem_singleton] at hv
    subst hv
    obtain ⟨rs, s', _, rfl⟩ := stageVersion_ok h3
    exact hread h2 hp
  | @make i stamp label v h1 h2 =>
    refine h.put fun x hx => ?_
    cases hx
    intro w hw p hp
    simp only [FConc.Phase.unsaved] at hw
    split at hw
    · cases hw
    · simp only [List.mem_cons, List.not_mem_nil, or_false] at hw
      rcases hw with rfl | rfl
      · exact hread h2 hp
      · cases hp
        exact .inr ⟨stamp, label, hi.procs _ _ h1, rfl⟩
  | @reset i v h1 h2 =>
    refine h.put fun x hx => ?_
    cases hx
    intro w hw p hp
    simp only [FConc.Phase.unsaved, List.mem_singleton] at hw
    subst hw
    exact hread h2 hp
  | @empty i v vs d' h1 h2 =>
    have hpr := h.procs _ _ h1
    refine KnownInv.write (s := { s with dir := d' }) (e := none) ⟨fun m w p hw hp => ?_, h.procs⟩ ?_
      (fun w _ hw => by cases hw) hpr
    · unfold Stored at hw
      change d'.get? _ = _ at hw
      rw [save_get h2] at hw
      split at hw
      · cases hw
        exact hpr v (by simp [FConc.Phase.unsaved]) p hp
      · exact h.dir m w p hw hp
    · show (d'.get? _).isSome
      rw [save_get h2, if_pos rfl]; rfl
  | @piece i v vs a e h1 h2 =>
    have hpr := h.procs _ _ h1
    exact h.write (hi.there _ _ _ _ h1)
      (fun w p hw hp => hpr v (by simp [FConc.Phase.unsaved]) p ((h2 w hw).2.1 ▸ hp)) hpr
  | @written i v vs h1 =>
    have hpr := h.procs _ _ h1
    exact h.write (hi.there _ _ _ _ h1)
      (fun w p hw hp => by cases hw; exact hpr v (by simp [FConc.Phase.unsaved]) p hp)
      (fun w hw => hpr w (List.mem_cons_of_mem _ hw))
  | @mixed i v vs e h1 h2 =>
    have hpr := h.procs _ _ h1
    exact h.write (hi.there _ _ _ _ h1)
      (fun w p hw hp => hpr v (by simp [FConc.Phase.unsaved]) p ((h2 w hw).2.1 ▸ hp))
      (fun w hw => hpr w (List.mem_cons_of_mem _ hw))
  | @relist d' hp =>
    refine ⟨fun n v p hv hpv => h.dir n v p ?_ hpv, h.procs⟩
    unfold Stored at hv ⊢
    rw [← hv]
    exact AMap.get?_perm hi.nodup hp _

theorem run_known {P : HistCmd → Prop} {d : HDir} {vs : List Version} {st : Version}
    (h : IsHistory d vs st) {s : FConc.State} (hr : FConc.Run P (FConc.idle d) s) : KnownInv P d s := by
  induction hr with
  | refl => exact ⟨fun n v p hv hp => .inl (previous_stored h hv hp), fun i q hq => by cases hq⟩
  | tail hr hst ih => exact ih.step ((FConc.inv_idle h).run hr) hst

theorem known_of_run {P : HistCmd → Prop} {d : HDir} {vs : List Version} {st : Version}
    (h : IsHistory d vs st) {s : FConc.State} (hr : FConc.Run P (FConc.idle d) s) {n p : String} {v : Version}
    (hv : s.dir.getVersion n = .ok v) (hp : v.previous = some p) : Known P d p :=
  (run_known h hr).dir _ _ _ (Podo.stored_iff.2 hv) hp

/-- What reading one file adds to the map. -/
theorem scan_keys {K : String → Prop} {d : HDir} (hK : ∀ n v q, d.getVersion n = .ok v → v.previous = some q → K q)
    {e : String × Entry} {nm nm' : AMap String} (hnm : ∀ k v, AMap.get? nm k = some v → K k)
    (hs : HDir.scan d [e] nm = .ok nm') : ∀ k v, AMap.get? nm' k = some v → K k := by
  obtain ⟨f, e⟩ := e
  rw [HDir.scan] at hs
  split at hs
  · cases hs; exact hnm
  · split at hs
    · cases hs
    · next v hv =>
      split at hs
      · cases hs; exact hnm
      · next p hp =>
        split at hs
        · cases hs
        · cases hs
          intro k w hk
          by_cases hkp : k = p
          · rw [hkp]; exact hK _ _ _ hv hp
          · refine hnm k w ?_
            rwa [AMap.get?_insertNew _ _ _ _ (by assumption), if_neg hkp] at hk

theorem walk_keys {K : String → Prop} {nm : AMap String} (hnm : ∀ k v, AMap.get? nm k = some v → K k) {n : Nat}
    {c cv r : String} (hcv : K cv) (h : HDir.walk nm n c cv = some r) : K r := by
  induction n generalizing c cv with
  | zero => cases h
  | succ n ih =>
    rw [HDir.walk] at h
    split at h
    · next x hx => exact ih (hnm _ _ hx) h
    · cases h; exact hcv

/-- The history is not open yet. -/
def Phase.early : Phase σ → Bool
  | .started => true
  | .scanning _ _ => true
  | _ => false

theorem next_late {B : Behaviour σ} {fuel : Nat} {target : Option String} {db : DB σ} {d : HDir} {p p' : Phase σ}
    (hp : p.next B fuel target db d = some p') (h : p.early = false) :
    p'.early = false ∧ ∀ cv, p' ≠ .opened cv := by
  have ends : ∀ {x : DB σ} {o : Outcome}, some (Phase.done x o) = some p' →
      p'.early = false ∧ ∀ cv, p' ≠ .opened cv := fun e => by cases e; exact ⟨rfl, by simp⟩
  cases p with
  | started => cases h
  | scanning left nm => cases h
  | opened cv =>
    rw [Phase.next] at hp
    repeat' split at hp
    all_goals first
      | exact ends hp
      | (cases hp; exact ⟨rfl, by simp⟩)
  | ranging t a b curr acc =>
    rw [Phase.next] at hp
    repeat' split at hp
    all_goals first
      | exact ends hp
      | (cases hp; exact ⟨rfl, by simp⟩)
  | applying t x names =>
    cases names <;> rw [Phase.next] at hp <;> repeat' split at hp
    all_goals first
      | exact ends hp
      | (cases hp; exact ⟨rfl, by simp⟩)
  | done db' o => cases hp

/-- Until it has opened the history, `up` without a target does what it does with any, and from then on what
it does with the version it found. -/
theorem Beside.chosen {K : String → Prop} (hinit : K "init") {B : Behaviour σ} {db : DB σ}
    {P : HistCmd → Prop} {s₀ s : FConc.State}
    (hK : ∀ s, FConc.Run P s₀ s → ∀ n v q, s.dir.getVersion n = .ok v → v.previous = some q → K q)
    {p : Phase σ} (h : Beside B none db P s₀ s p) :
    ((p = .started ∨ ∃ left nm, p = .scanning left nm ∧ ∀ k v, AMap.get? nm k = some v → K k) ∧
      ∀ n, Beside B (some n) db P s₀ s p) ∨
    ∃ n, K n ∧ Beside B (some n) db P s₀ s p ∧ p.early = false ∧ ∀ cv, p = .opened cv → cv = n := by
  induction h with
  | start => exact .inl ⟨.inl rfl, fun n => .start⟩
  | other hb hs ih =>
    rcases ih with ⟨h1, h2⟩ | ⟨n, h1, h2, h3⟩
    · exact .inl ⟨h1, fun n => (h2 n).other hs⟩
    · exact .inr ⟨n, h1, h2.other hs, h3⟩
  | @up s p p' fuel hb hp ih =>
    rcases ih with ⟨h1, h2⟩ | ⟨n, h1, h2, hl, h3⟩
    · rcases h1 with rfl | ⟨left, nm, rfl, hnm⟩
      · cases hp
        exact .inl ⟨.inr ⟨_, _, rfl, fun k v hk => by cases hk⟩, fun n => (h2 n).up (fuel := fuel) rfl⟩
      · have hn : ∀ n, Phase.next B fuel (some n) db s.dir (.scanning left nm) = some p' := by
          intro n
          rw [← hp]
          cases left <;> rfl
        cases left with
        | cons e es =>
          rw [Phase.next] at hp
          split at hp
          · cases hp
            exact .inr ⟨"init", hinit, (h2 _).up (hn _), rfl, fun cv hcv => by cases hcv⟩
          · next nm' hsc =>
            cases hp
            exact .inl ⟨.inr ⟨_, _, rfl, scan_keys (hK s hb.run) hnm hsc⟩, fun n => (h2 n).up (hn n)⟩
        | nil =>
          rw [Phase.next] at hp
          split at hp
          · cases hp
          · next cv hw =>
            cases hp
            exact .inr ⟨cv, walk_keys hnm hinit hw, (h2 cv).up (hn cv), rfl, fun _ hcv => by cases hcv; rfl⟩
    · have hn : Phase.next B fuel (some n) db s.dir p = some p' := by
        rw [← hp]
        cases p with
        | opened cv => rw [h3 cv rfl]; rfl
        | scanning left nm => cases left <;> rfl
        | applying t x names => cases names <;> rfl
        | _ => rfl
      obtain ⟨l1, l2⟩ := next_late hp hl
      exact .inr ⟨n, h1, h2.up hn, l1, fun cv hcv => absurd hcv (l2 cv)⟩

end UConc
end Podo
