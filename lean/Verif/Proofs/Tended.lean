import Verif.Proofs.Life
import Verif.Props.Life
import Verif.Props.Fleet
import Verif.Props.Edited
import Verif.Spec.Tended
/-
Lemmas for C94.
-/
namespace Podo

/-- What is left of a database when `up` has been killed. -/
theorem Pg.UpDies.cases {σ : Type} {B : Pg.Behaviour σ} {d : HDir} {target : Option String} {db db' : Pg.DB σ}
    (hn : db.metaSchema ≠ .noTable) (h : Pg.UpDies B d target db db') :
    db' = db ∨ (∃ t n, db.metaSchema = .table t ∧ t.next ≤ n ∧ db' = ⟨.table { t with next := n }, db.data⟩) ∨
    ∃ fuel o, Pg.up B fuel d target db = some (db', o) := by
  cases h with
  | before => exact .inl rfl
  | @within fuel opened t t' current to versions _ he _ _ _ hup =>
    cases hm : db.metaSchema with
    | absent =>
      left
      unfold Pg.DB.rollback
      rw [hm]
      cases db
      simp only at hm
      subst hm
      rfl
    | noTable => exact absurd hm hn
    | table t₀ =>
      have ht : t = t₀ := by
        unfold Pg.ensureInitialized at he
        rw [hm] at he
        simp only [Prod.mk.injEq, Pg.Meta.table.injEq, and_true] at he
        exact he.symm
      subst ht
      refine .inr (.inl ⟨t, t'.next, rfl, hup.next, ?_⟩)
      unfold Pg.DB.rollback
      rw [hm]
      rfl
  | after h => exact .inr (.inr ⟨_, _, h⟩)

namespace Prog
open Proj
variable {σ : Type} {B : Pg.Behaviour σ} {ok : Makes → LocalTime × String → Prop}
  {R : LocalTime × String → LocalTime × String → Prop} {to : Option String → Prop} {p : Proj.Path} {url m : String}

theorem Tends.happens {log log' : Makes} {w w' : World σ} (h : Tends B ok to p url m log w log' w') :
    Happens B ok log w log' w' := by
  cases h with
  | apart h _ => exact h
  | up hB ht _ _ h => exact Happens.command (a := .up _ _) hB ht trivial h
  | killed hs _ h => exact .killed hs h
  | down hB ht h => exact Happens.command (a := .down _ _) hB ht trivial h

theorem Tended.life {log : Makes} {w : World σ} (h : Tended B ok to p url m log w) : Life B ok log w := by
  induction h with
  | new h => exact ⟨_, h, .now⟩
  | on _ ht ih =>
    obtain ⟨w₀, h0, hg⟩ := ih
    exact ⟨w₀, h0, .on hg ht.happens⟩

/-- The version files, or those of a new project where there are none yet. -/
def orInit (d : HDir) : HDir := if d = [] then initDir else d

theorem orInit_nil : orInit [] = initDir := rfl

theorem orInit_some {d : HDir} (h : d ≠ []) : orInit d = d := by
  unfold orInit; rw [if_neg h]

theorem reachable_some {d : HDir} (h : Reachable d) : d ≠ [] := by
  rintro rfl
  obtain ⟨vs, st, s, hh, _⟩ := h.sound
  have := hh.stored_init
  cases this

theorem Onward.orInit {d d' : HDir} (h : Onward d d') : Later (orInit d) (orInit d') := by
  rcases h with ⟨rfl, rfl | rfl⟩ | ⟨hr, hl⟩
  · exact .refl _
  · exact .refl _
  · obtain ⟨vs, st, s, hh, _⟩ := hr.sound
    rw [orInit_some (reachable_some hr), orInit_some (reachable_some (later_extends hr hl hh).1)]
    exact hl

/-- What always holds of the database. -/
def InStep (B : Pg.Behaviour σ) (p : Proj.Path) (url m : String) (w : World σ) : Prop :=
  ∀ s, w.servers url = some s → Pg.Deployed B (orInit (w.fs.history p)) (s.db m)

theorem deployed_absent {d : HDir} (hr : Reachable d) {db : Pg.DB σ} (h : db.metaSchema = .absent) :
    Pg.Deployed B d db := by
  cases db
  simp only at h
  subst h
  exact .new _ hr

theorem deployed_same {d : HDir} {db db' : Pg.DB σ} (h : Pg.Deployed B d db) (he : db'.metaSchema = db.metaSchema) :
    Pg.Deployed B d db' := by
  cases db'
  simp only at he
  subst he
  exact .elsewhere _ h

theorem deployed_version {d : HDir} {db : Pg.DB σ} (h : Pg.Deployed B d db) : ∃ n, db.version? = some n := by
  obtain ⟨ws, h1, _⟩ := C84_recorded_as_filed h
  unfold Pg.DB.version?
  rw [h1, List.getLast?_cons]
  exact ⟨_, rfl⟩

/-- `up` from the directory, where there are version files or not. -/
theorem deployed_up {d : HDir} {db db' : Pg.DB σ} (h : Pg.Deployed B (orInit d) db) {fuel : Nat}
    {target : Option String} (ht : target ≠ some "stage") {o : Pg.Outcome}
    (hu : Pg.up B fuel d target db = some (db', o)) : Pg.Deployed B (orInit d) db' := by
  by_cases hd : d = []
  · subst hd
    obtain ⟨n, hn⟩ := deployed_version h
    rw [(C88_no_place_refused_partial (Deployed.reach h) hn (d := []) (fun v hv => by cases hv) hu).1]
    exact h
  · rw [orInit_some hd] at h ⊢
    exact .up h ht hu

theorem deployed_killed {d : HDir} {db db' : Pg.DB σ} (h : Pg.Deployed B (orInit d) db)
    {target : Option String} (ht : target ≠ some "stage") (hu : Pg.UpDies B d target db db') :
    Pg.Deployed B (orInit d) db' := by
  rcases hu.cases (Deployed.reach h).hasTable with rfl | ⟨t, n, h1, h2, rfl⟩ | ⟨fuel, o, hu⟩
  · exact h
  · exact .used h h1 h2
  · exact deployed_up h ht hu

/-- The database after something was put in some database. -/
theorem inStep_put {w : World σ} (h : InStep B p url m w) {u mm : String} {s : Server σ} (hs : w.servers u = some s)
    {db : Pg.DB σ} (hdb : u = url → mm = m → Pg.Deployed B (orInit (w.fs.history p)) db) :
    InStep B p url m (putServer w u mm s db) := by
  intro s' hs'
  change Pg.Deployed B (orInit (w.fs.history p)) _
  simp only [putServer] at hs'
  by_cases hu : url = u
  · subst hu
    rw [update_self] at hs'
    cases hs'
    by_cases hm : m = mm
    · subst hm
      simp only [Server.db, update_self]
      exact hdb rfl rfl
    · refine deployed_same (h s hs) ?_
      simp only [Server.db]
      rw [update_other _ _ hm]
  · rw [update_other _ _ hu] at hs'
    exact h s' hs'

theorem inStep_away {w w₁ : World σ} {away : String → Bool} (hf : w₁.fs.history p = w.fs.history p)
    (h : InStep B p url m w) (h1 : InStep B p url m w₁) : InStep B p url m (w₁.back w away) := by
  intro s hs
  simp only [World.back] at hs
  split at hs
  · have := h s hs
    change Pg.Deployed B (orInit (w₁.fs.history p)) _
    rw [hf]
    exact this
  · exact h1 s hs

theorem inStep_without {w : World σ} {away : String → Bool} (h : InStep B p url m w) :
    InStep B p url m (w.without away) := by
  intro s hs
  simp only [World.without] at hs
  split at hs
  · cases hs
  · exact h s hs

/-- One thing more. -/
theorem InStep.tends {log log' : Makes} {w w' : World σ} (h : InStep B p url m w) (hh : Healthy B R log w)
    (hok : ∀ log m, ok log m → ∀ m' ∈ log, R m' m) (hR : ∀ m, ¬ R m m) (ht : Tends B ok NotStage p url m log w log' w') :
    InStep B p url m w' := by
  have hnext := hh.happens hok hR ht.happens
  cases ht with
  | apart hap hl =>
    intro s' hs'
    have hon := (hnext.2 p).orInit
    have hr : Reachable (orInit (w.fs.history p)) := by
      rcases hh.history p with e | ⟨hr, _⟩
      · rw [e]; exact .init
      · rw [orInit_some (reachable_some hr)]; exact hr
    rcases hl s' hs' with ha | ⟨s, hs, he⟩
    · exact .later (deployed_absent hr (by exact ha)) hon
    · exact .later (deployed_same (h s hs) (by exact he)) hon
  | up hB hnow hfor htar hends =>
    rename_i w₁ S t cwd name target away out e
    subst hB
    obtain ⟨hi, q₀, q, hq₀, hq, rfl, rfl, rfl⟩ := hfor
    obtain ⟨fuel, hrun⟩ := hends
    have hq₀' : ProfileAt S.env (w.without away).fs cwd "database" q₀ := hq₀
    have hq' : ProfileAt S.env (w.without away).fs cwd name q := hq
    have hw := inStep_without (away := away) h
    cases hs : (w.without away).servers q.databaseUrl with
    | none =>
      have : w₁ = w.without away := by
        obtain ⟨pr, hp, h0, h1⟩ := profileAt_default hq₀' hq'
        have e1 := (profile_dirs h0).1
        obtain ⟨_, _, e2, e3⟩ := profile_dirs h1
        change pr.historyDir DEFAULT_PROFILE = _ at e1
        simp only [run, hp, e1, e2, e3, hs] at hrun
        cases hrun
        rfl
      subst this
      exact inStep_away rfl h hw
    | some s =>
      rw [run_up hq₀' hq' hi target hs] at hrun
      cases hu : Pg.up S.B fuel ((w.without away).fs.history q₀.history) target (s.db q.metadataSchema) with
      | none => rw [hu] at hrun; cases hrun
      | some r =>
        obtain ⟨db, o⟩ := r
        rw [hu] at hrun
        cases hrun
        exact inStep_away rfl h (inStep_put hw hs fun _ _ => deployed_up (hw s hs) htar hu)
  | killed hs htar hu => exact inStep_put h hs fun _ _ => deployed_killed (h _ hs) htar hu
  | down hB hnow hends =>
    rename_i w₁ S t cwd name target away out e
    subst hB
    obtain ⟨fuel, hrun⟩ := hends
    have hw := inStep_without (away := away) h
    have key : w₁ = w.without away ∨ ∃ u s mm, (w.without away).servers u = some s ∧
        w₁ = putServer (w.without away) u mm s (Pg.down S.B target (s.db mm)).1 := by
      simp only [run] at hrun
      split at hrun
      · cases hrun; exact .inl rfl
      · split at hrun
        · split at hrun
          · cases hrun; exact .inl rfl
          · next s hs =>
            split at hrun
            · cases hrun; exact .inl rfl
            · next mm hm => cases hrun; exact .inr ⟨_, s, mm, hs, rfl⟩
        · cases hrun; exact .inl rfl
    rcases key with rfl | ⟨u, s, mm, hs, rfl⟩
    · exact inStep_away rfl h hw
    · refine inStep_away rfl h (inStep_put hw hs ?_)
      rintro rfl rfl
      exact .down target (hw s hs)

theorem Tended.inStep {log : Makes} {w : World σ} (hok : ∀ log m, ok log m → ∀ m' ∈ log, R m' m)
    (hR : ∀ m, ¬ R m m) (h : Tended B ok NotStage p url m log w) : InStep B p url m w := by
  induction h with
  | new h0 =>
    intro s hs
    rw [h0.history p, orInit_nil]
    exact deployed_absent .init (h0.servers url s hs m)
  | on h ht ih => exact ih.tends (h.life.healthy hok hR) hok hR ht

end Prog
end Podo
