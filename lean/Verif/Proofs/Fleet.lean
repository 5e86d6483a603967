import Verif.Spec.Fleet
import Verif.Proofs.Endings
import Verif.Proofs.FileConc
/-
Lemmas for C84 and C85.
-/
namespace Podo
open Pg
variable {σ : Type}

/-- A directory is the history of one list of versions only. -/
theorem IsHistory.unique {d : HDir} {vs vs' : List Version} {st st' : Version} (h : IsHistory d vs st)
    (h' : IsHistory d vs' st') : vs = vs' ∧ st = st' := by
  have way : ∀ {vs : List Version} {st : Version}, IsHistory d vs st → Way d "init" "stage" (vs ++ [st]) := by
    intro vs st h
    refine ⟨h.path_stage, ?_, fun v hv => h.stored (by simp at hv ⊢; exact .inr hv)⟩
    have := h.names'
    simp only [List.map_cons, List.nodup_cons] at this
    exact this.1
  have e := (way h).unique (way h')
  exact ⟨(List.append_inj' e rfl).1, by simpa using (List.append_inj' e rfl).2⟩

/-- Later histories go on from the earlier ones. -/
theorem later_extends {d : HDir} (hr : Reachable d) {d' : HDir} (hl : Later d d') {vs : List Version} {st : Version}
    (h : IsHistory d vs st) : Reachable d' ∧ ∃ vs' st', IsHistory d' (vs ++ vs') st' := by
  induction hl with
  | refl => exact ⟨hr, [], st, by simpa using h⟩
  | relisted _ hp ih =>
    obtain ⟨h1, vs', st', h2⟩ := ih
    exact ⟨.relisted h1 hp, vs', st', h2.perm hp⟩
  | step _ hf he ih =>
    obtain ⟨h1, vs', st', h2⟩ := ih
    refine ⟨.step h1 hf he, ?_⟩
    obtain ⟨vs₀, st₀, s, hh, hrec⟩ := h1.sound
    obtain ⟨rfl, rfl⟩ := hh.unique h2
    rcases exec_cases hh he hrec hf with rfl | ⟨st'', s', h3, _⟩ | ⟨m, _, h3, _⟩
    · exact ⟨vs', st₀, hh⟩
    · exact ⟨vs', st'', h3⟩
    · exact ⟨vs' ++ [{ st₀ with name := m }], _, by rw [← List.append_assoc]; exact h3⟩

/-- A list of versions with different names is cut at a name in one way. -/
theorem cut_unique {A A' R R' : List Version} {u u' : Version} (h : A ++ u :: R = A' ++ u' :: R')
    (hn : ((A ++ u :: R).map Version.name).Nodup) (hu : u.name = u'.name) : A = A' ∧ u = u' ∧ R = R' := by
  induction A generalizing A' with
  | nil =>
    cases A' with
    | nil => simp at h; exact ⟨rfl, h⟩
    | cons a A' =>
      exfalso
      simp only [List.nil_append, List.cons_append, List.cons.injEq] at h hn
      rw [List.map_cons, List.nodup_cons, h.2] at hn
      exact hn.1 (by rw [hu]; simp)
  | cons a A ih =>
    cases A' with
    | nil =>
      exfalso
      simp only [List.nil_append, List.cons_append, List.cons.injEq] at h hn
      rw [List.map_cons, List.nodup_cons, h.1] at hn
      exact hn.1 (by rw [← hu]; simp)
    | cons a' A' =>
      simp only [List.cons_append, List.cons.injEq, List.map_cons, List.nodup_cons] at h hn
      obtain ⟨e1, e2, e3⟩ := ih h.2 hn.2
      exact ⟨by rw [h.1, e1], e2, e3⟩

/-- Versions of a chain that follow one another are a piece of it. -/
theorem segment {L : List Version} (hl : Linked none L) (hn : (L.map Version.name).Nodup) {A R : List Version}
    {u : Version} (hL : L = A ++ u :: R) {ws : List Version} (hw : Linked (some u.name) ws)
    (hm : ∀ w ∈ ws, w ∈ L) : ws <+: R := by
  induction ws generalizing A u R with
  | nil => exact List.nil_prefix
  | cons w ws ih =>
    obtain ⟨A', u', R', e, hu⟩ := hl.split (hm w (by simp)) hw.1
    obtain ⟨rfl, rfl, rfl⟩ := cut_unique (hL.symm.trans e) (hL ▸ hn) hu.symm
    obtain ⟨R'', hR⟩ := ih (A := A ++ [u]) (u := w) (R := R') (by rw [hL]; simp) hw.2
      (fun x hx => hm x (by simp [hx]))
    exact ⟨R'', by rw [← hR]; simp⟩

/-- The versions that `up` applies are a piece of the made versions, if it does not go to the stage. -/
theorem way_made {d : HDir} {vs : List Version} {st : Version} (h : IsHistory d vs st) {a n : String}
    {ws : List Version} (hw : Way d a n ws) (hn : n ≠ "stage") :
    ∃ A u R, Version.newInit :: vs = A ++ u :: (ws ++ R) ∧ u.name = a := by
  obtain ⟨ws', hws, hst, hlk, hlast⟩ := path_versions h.storedNames hw.path
  have hww : ws' = ws := Way.unique (d := d) (a := a) (n := n) ⟨hws ▸ hw.path, hws ▸ hw.once, hst⟩ hw
  subst hww
  obtain ⟨u, hu⟩ : ∃ u, Stored d a u := by
    have : ∀ {b l}, VersionPath d a b l → ∃ u, Stored d a u := by
      intro b l hp
      induction hp with
      | here hs => exact ⟨_, hs⟩
      | later _ _ _ ih => exact ih
    exact this hw.path
  obtain ⟨hum, rfl⟩ := h.stored_iff.1 hu
  obtain ⟨A, R, hL⟩ := List.append_of_mem hum
  obtain ⟨R', hR⟩ := segment h.linked h.names' hL hlk fun w hw' => (h.stored_iff.1 (hst w hw')).1
  rcases List.eq_nil_or_concat R' with rfl | ⟨R'', x, rfl⟩
  · exfalso
    rw [List.append_nil] at hR
    subst hR
    have hx : (Version.newInit :: (vs ++ [st])).getLast?.map Version.name = some "stage" := by
      rw [show Version.newInit :: (vs ++ [st]) = (Version.newInit :: vs) ++ [st] from rfl, List.getLast?_append]
      simp [h.stage]
    rw [hL] at hx
    rw [List.getLast?_append, List.getLast?_cons] at hx
    simp only [Option.some_or, Option.map_some, Option.some.injEq] at hx
    apply hn
    rw [← hlast, ← hx]
    cases ws'.getLast? <;> rfl
  · refine ⟨A, u, R'', ?_, rfl⟩
    have : (Version.newInit :: vs) ++ [st] = (A ++ u :: (ws' ++ R'')) ++ [x] := by
      rw [show (Version.newInit :: vs) ++ [st] = Version.newInit :: (vs ++ [st]) from rfl, hL, ← hR]
      simp
    exact (List.append_inj' this rfl).1

theorem Deployed.reachable {B : Behaviour σ} {d : HDir} {db : DB σ} (h : Deployed B d db) : Reachable d := by
  induction h with
  | new _ hr => exact hr
  | later _ hl ih =>
    obtain ⟨vs, st, s, hh, _⟩ := ih.sound
    exact (later_extends ih hl hh).1
  | up _ _ _ ih => exact ih
  | down _ _ ih => exact ih
  | elsewhere _ _ ih => exact ih
  | used _ _ _ ih => exact ih

theorem Deployed.reach {B : Behaviour σ} {d : HDir} {db : DB σ} (h : Deployed B d db) : Reach B db := by
  induction h with
  | new s _ => exact .new s
  | later _ _ ih => exact ih
  | up h _ hu ih => exact .up ih (Deployed.reachable h).namedAfterVersion hu
  | down t _ ih => exact .down t ih
  | elsewhere s _ ih => exact .elsewhere s ih
  | used _ ht hn ih => exact .used ih ht hn

theorem Brought.deployed {B : Behaviour σ} {s₀ : σ} {d : HDir} {db : DB σ} (h : Brought B s₀ d db) :
    Deployed B d db := by
  induction h with
  | new hr => exact .new _ hr
  | later _ hl ih => exact .later ih hl
  | up _ hs hu ih => exact .up ih hs hu

/-- What `up` without a target, or to anything but the stage, goes to. -/
theorem up_target {d : HDir} {vs : List Version} {st : Version} (h : IsHistory d vs st) {target : Option String}
    (hs : target ≠ some "stage") {n : String} (hn : target = some n ∨ target = none ∧ Opens d n) : n ≠ "stage" := by
  rintro rfl
  rcases hn with rfl | ⟨rfl, ho⟩
  · exact hs rfl
  · have e := h.opens_iff.1 ho
    have hnd := h.names
    rw [List.nodup_append] at hnd
    refine hnd.2.2 "stage" ?_ "stage" (by simp) rfl
    cases hg : (vs.map Version.name).getLast? with
    | none => rw [hg] at e; exact absurd e (by decide)
    | some x =>
      rw [hg] at e
      simp only [Option.getD_some] at e
      rw [e]
      exact List.mem_cons_of_mem _ (List.mem_of_getLast? hg)

/-- What is recorded is always the beginning of the made versions. -/
theorem Deployed.applied_prefix {B : Behaviour σ} {d : HDir} {db : DB σ} (h : Deployed B d db) :
    ∀ vs st, IsHistory d vs st → db.applied <+: Version.newInit :: vs := by
  induction h with
  | new s _ => intro vs st _; exact ⟨vs, rfl⟩
  | @later d d' db h hl ih =>
    intro vs st hh
    obtain ⟨vs₀, st₀, s, hh₀, _⟩ := (Deployed.reachable h).sound
    obtain ⟨_, vs', st', hh'⟩ := later_extends (Deployed.reachable h) hl hh₀
    obtain ⟨rfl, rfl⟩ := hh.unique hh'
    exact (ih _ _ hh₀).trans ⟨vs', by simp⟩
  | @up d db db' fuel target o h hs hu ih =>
    intro vs st hh
    by_cases ho : o = .ok
    · subst ho
      obtain ⟨n, cur, ws, h1, h2, h3, h4, h5, _, h7, _⟩ :=
        C31_up_applies_missing_partial (Deployed.reach h) (Deployed.reachable h).namedAfterVersion hu
      obtain ⟨A, u, R, e, hu⟩ := way_made hh ⟨h3, h4, h5⟩ (up_target hh hs h1)
      obtain ⟨R₀, hR₀⟩ := ih _ _ hh
      obtain ⟨pre, hpre⟩ := List.getLast?_eq_some_iff.1 h2
      have hnd : ((Version.newInit :: vs).map Version.name).Nodup := by
        have := hh.names'
        rw [show Version.newInit :: (vs ++ [st]) = (Version.newInit :: vs) ++ [st] from rfl, List.map_append,
          List.nodup_append] at this
        exact this.1
      have e' : pre ++ cur :: R₀ = A ++ u :: (ws ++ R) := by rw [← e, ← hR₀, hpre]; simp
      obtain ⟨rfl, rfl, rfl⟩ := cut_unique e' (by rw [e', ← e]; exact hnd) hu.symm
      exact ⟨R, by rw [e, h7, hpre]; simp⟩
    · rw [(up_unchanged hu ho).applied]
      exact ih _ _ hh
  | @down d db t h ih =>
    intro vs st hh
    exact ((C35_only_the_top_changes (Deployed.reach h)).2 t).trans (ih _ _ hh)
  | elsewhere s h ih =>
    intro vs st hh
    exact ih _ _ hh
  | used h ht _ ih =>
    intro vs st hh
    have := ih _ _ hh
    unfold DB.applied at this ⊢
    rw [ht] at this
    exact this

/-! ### Loops -/

theorem upLoop_append {B : Behaviour σ} {d : HDir} (l m : List String) (t : VTable) (s : σ) :
    upLoop B d (l ++ m) t s =
      match upLoop B d l t s with
      | (t', s', .ok) => upLoop B d m t' s'
      | r => r := by
  induction l generalizing t s with
  | nil => simp [upLoop]
  | cons n l ih =>
    simp only [List.cons_append, upLoop]
    cases d.getVersion n with
    | error e => rfl
    | ok v =>
      simp only
      cases execAll B s v.up with
      | none => rfl
      | some s' =>
        simp only
        cases hi : t.insert B v with
        | mk t' b => cases b with
          | false => rfl
          | true => exact ih t' s'

theorem upLoop_congr {B : Behaviour σ} {d d' : HDir} {l : List String}
    (h : ∀ n ∈ l, d.getVersion n = d'.getVersion n) (t : VTable) (s : σ) :
    upLoop B d l t s = upLoop B d' l t s := by
  induction l generalizing t s with
  | nil => rfl
  | cons n l ih =>
    simp only [upLoop, h n (by simp)]
    cases d'.getVersion n with
    | error e => rfl
    | ok v =>
      simp only
      cases execAll B s v.up with
      | none => rfl
      | some s' =>
        simp only
        cases hi : t.insert B v with
        | mk t' b => cases b with
          | false => rfl
          | true => exact ih (fun n hn => h n (by simp [hn])) t' s'

theorem open_target {d : HDir} {vs : List Version} {st : Version} (h : IsHistory d vs st) {target : Option String}
    {n : String} (hn : target = some n ∨ target = none ∧ Opens d n) : ∃ cv, Opens d cv ∧ target.getD cv = n := by
  rcases hn with rfl | ⟨rfl, ho⟩
  · exact ⟨_, h.opens_iff.2 rfl, rfl⟩
  · exact ⟨n, ho, rfl⟩

/-- A successful `up` that has something to do, in terms of the loop. -/
theorem up_loop {B : Behaviour σ} {d : HDir} {vs : List Version} {st : Version} (h : IsHistory d vs st)
    {db db' : DB σ} (hg : Good db) {fuel : Nat} {target : Option String} {t : VTable}
    (ht : ensureInitialized B db = (.table t, true)) {n : String}
    (hn : target = some n ∨ target = none ∧ Opens d n) {cur : Version} (hcur : db.applied.getLast? = some cur)
    {ws : List Version} (hw : Way d cur.name n ws) (hne : ws ≠ [])
    (hu : up B fuel d target db = some (db', .ok)) :
    ∃ t' s', upLoop B d (ws.map Version.name) t db.data = (t', s', .ok) ∧ B.commits s' = true ∧
      db' = ⟨.table t', s'⟩ := by
  obtain ⟨cv, hop, htar⟩ := open_target h hn
  obtain ⟨_, hall⟩ := up_along h.storedNames hg ht hop htar hcur hw.path hw.once hne
  have e := hall fuel _ (.inl hu)
  rw [hu] at e
  cases hx : upLoop B d (ws.map Version.name) t db.data with
  | mk t' so =>
    obtain ⟨s', o⟩ := so
    rw [hx] at e
    cases o with
    | ok =>
      simp only at e
      cases hc : B.commits s' with
      | true =>
        rw [hc, if_pos rfl] at e
        cases e
        exact ⟨_, _, rfl, hc, rfl⟩
      | false =>
        rw [hc, if_neg (by decide)] at e
        cases e
    | error => cases e
    | panic => cases e

/-- And the other way round. -/
theorem up_of_loop {B : Behaviour σ} {d : HDir} {vs : List Version} {st : Version} (h : IsHistory d vs st)
    {db : DB σ} (hg : Good db) {target : Option String} {t : VTable}
    (ht : ensureInitialized B db = (.table t, true)) {n : String}
    (hn : target = some n ∨ target = none ∧ Opens d n) {cur : Version} (hcur : db.applied.getLast? = some cur)
    {ws : List Version} (hw : Way d cur.name n ws) (hne : ws ≠ []) {t' : VTable} {s' : σ}
    (hx : upLoop B d (ws.map Version.name) t db.data = (t', s', .ok)) (hc : B.commits s' = true) :
    ∃ fuel, up B fuel d target db = some (⟨.table t', s'⟩, .ok) := by
  obtain ⟨cv, hop, htar⟩ := open_target h hn
  obtain ⟨k, hall⟩ := up_along h.storedNames hg ht hop htar hcur hw.path hw.once hne
  have e := hall k (db, .ok) (.inr (Nat.le_refl _))
  rw [hx] at e
  simp only [hc, if_true] at e
  exact ⟨k, e⟩

theorem Way.linked {d : HDir} {vs : List Version} {st : Version} (h : IsHistory d vs st) {a n : String}
    {ws : List Version} (hw : Way d a n ws) :
    Linked (some a) ws ∧ (ws.getLast?.map Version.name).getD a = n := by
  obtain ⟨ws', hws, hst, hlk, hlast⟩ := path_versions h.storedNames hw.path
  have hww : ws' = ws := Way.unique (d := d) (a := a) (n := n) ⟨hws ▸ hw.path, hws ▸ hw.once, hst⟩ hw
  subst hww
  exact ⟨hlk, hlast⟩

/-- Two ways, one after the other. -/
theorem Way.append {d : HDir} {vs : List Version} {st : Version} (h : IsHistory d vs st) {a b n : String}
    {ws ws' : List Version} (hw : Way d a b ws) (hw' : Way d b n ws') : Way d a n (ws ++ ws') := by
  obtain ⟨hlk, hlast⟩ := Way.linked h hw'
  have hp := hw.path.extend hlk hw'.stored
  rw [hlast, ← List.map_append] at hp
  refine ⟨hp, hp.notMem h.acyclic, ?_⟩
  intro v hv
  rcases List.mem_append.1 hv with hv | hv
  · exact hw.stored v hv
  · exact hw'.stored v hv

/-- A way over made versions is still the way later. -/
theorem Way.later {d d' : HDir} (hr : Reachable d) (hl : Later d d') {a n : String} {ws : List Version}
    (hw : Way d a n ws) (hn : n ≠ "stage") : Way d' a n ws ∧
      ∀ v ∈ ws, d.getVersion v.name = d'.getVersion v.name := by
  obtain ⟨vs, st, _, hh, _⟩ := hr.sound
  obtain ⟨hr', vs', st', hh'⟩ := later_extends hr hl hh
  obtain ⟨A, u, R, e, rfl⟩ := way_made hh hw hn
  obtain ⟨_, hlast⟩ := Way.linked hh hw
  have hst : ∀ v ∈ ws, Stored d' v.name v := by
    intro v hv
    refine hh'.stored ?_
    have : v ∈ Version.newInit :: vs := by rw [e]; simp [hv]
    rcases List.mem_cons.1 this with rfl | hm
    · simp
    · simp [hm]
  have hp := hh'.path (A := A) (u := u) (B := ws) (C := R ++ vs' ++ [st']) (by
    rw [show Version.newInit :: (vs ++ vs' ++ [st']) = (Version.newInit :: vs) ++ (vs' ++ [st']) by simp, e]
    simp)
  rw [hlast] at hp
  refine ⟨⟨hp, hw.once, hst⟩, fun v hv => ?_⟩
  rw [stored_iff.1 (hw.stored v hv), stored_iff.1 (hst v hv)]

/-- Two beginnings of a list without repeated names that end in the same name are the same. -/
theorem prefix_same_last {σ σ' : Type} {db : DB σ} {db' : DB σ'} {l : List Version} (h : db.applied <+: l)
    (h' : db'.applied <+: l) (hnd : (l.map Version.name).Nodup) (hv : db.version? = db'.version?) :
    db.applied = db'.applied := by
  obtain ⟨R, hR⟩ := h
  obtain ⟨R', hR'⟩ := h'
  unfold DB.version? at hv
  rcases List.eq_nil_or_concat db.applied with e | ⟨p, x, e⟩
  · rw [e] at hv ⊢
    simp only [List.getLast?_nil, Option.map_none] at hv
    exact (List.getLast?_eq_none_iff.1 (Option.map_eq_none_iff.1 hv.symm)).symm
  · rcases List.eq_nil_or_concat db'.applied with e' | ⟨p', x', e'⟩
    · rw [e, e'] at hv
      simp at hv
    · rw [List.concat_eq_append] at e e'
      rw [e, e'] at hv
      simp only [List.getLast?_append, List.getLast?_singleton, Option.some_or, Option.map_some,
        Option.some.injEq] at hv
      have hc : p ++ x :: R = p' ++ x' :: R' := by
        rw [e] at hR
        rw [e'] at hR'
        simpa using hR.trans hR'.symm
      have hc' : p ++ x :: R = l := by rw [← hR, e]; simp
      obtain ⟨rfl, rfl, _⟩ := cut_unique hc (by rw [hc']; exact hnd) hv
      rw [e, e']

end Podo
