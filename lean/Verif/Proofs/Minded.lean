import Verif.Proofs.Tended
import Verif.Props.Follow
import Verif.Spec.Minded
/-
Lemmas for C95.
-/
namespace Podo
namespace Pg
variable {σ : Type} {B : Behaviour σ} {cat : σ → Content} {free : Change → Content → Prop} {dn : Prop}

/-- The versions made remain, with their snapshots. -/
theorem made_later {d d' : HDir} (hr : Reachable d) (hl : Later d d') {n : String} {v : Version} (hn : n ≠ "stage")
    (hv : Stored d n v) : Stored d' n v ∧ ∀ s, SnapshotOf d n s → SnapshotOf d' n s := by
  obtain ⟨vs, st, s₀, hh, hrec⟩ := hr.sound
  obtain ⟨hr', vs', st', hh'⟩ := later_extends hr hl hh
  obtain ⟨hm, rfl⟩ := hh.stored_iff.1 hv
  have hmade : v ∈ Version.newInit :: vs := by
    rcases List.mem_cons.1 hm with rfl | hm
    · simp
    · rcases List.mem_append.1 hm with hm | hm
      · simp [hm]
      · rw [List.mem_singleton] at hm
        subst hm
        exact absurd hh.stage hn
  obtain ⟨A, C, hAC⟩ := List.append_of_mem hmade
  have e1 : Version.newInit :: (vs ++ [st]) = A ++ v :: (C ++ [st]) := by
    rw [← List.cons_append, hAC]; simp
  have e2 : Version.newInit :: ((vs ++ vs') ++ [st']) = A ++ v :: (C ++ vs' ++ [st']) := by
    rw [List.append_assoc, ← List.cons_append, hAC]; simp
  refine ⟨hh'.stored (by rw [e2]; simp), fun s hs => ?_⟩
  rw [e1, show A ++ v :: (C ++ [st]) = (A ++ [v]) ++ (C ++ [st]) by simp] at hrec
  obtain ⟨s₁, h1, _⟩ := recorded_append.1 hrec
  cases hs.unique (hh.snapshotOf e1 h1)
  exact hh'.snapshotOf e2 h1

/-- What precedes a version made is a version made. -/
theorem prev_made {d : HDir} (hr : Reachable d) {n p : String} {v : Version} (hn : n ≠ "stage") (hv : Stored d n v)
    (hp : v.previous = some p) : p ≠ "stage" ∧ ∃ u, Stored d p u := by
  obtain ⟨vs, st, s₀, hh, _⟩ := hr.sound
  obtain ⟨hm, rfl⟩ := hh.stored_iff.1 hv
  rcases List.mem_cons.1 hm with rfl | hm
  · cases hp
  · rcases List.mem_append.1 hm with hm | hm
    · obtain ⟨A, C, rfl⟩ := List.append_of_mem hm
      have := hh.prev_of (A := A) (v := v) (C := C ++ [st]) (by simp)
      rw [hp, Option.some.injEq] at this
      rcases List.eq_nil_or_concat A with rfl | ⟨A', u, rfl⟩
      · subst this
        exact ⟨by decide, _, hh.stored_init⟩
      · rw [List.concat_eq_append] at *
        have hu : u ∈ (A' ++ [u]) ++ v :: C := by simp
        have e : p = u.name := by
          rw [this, ← List.cons_append, List.getLast?_append]
          rfl
        rw [e]
        exact ⟨hh.made_ne_stage hu, u, hh.stored (by simp [hu])⟩
    · rw [List.mem_singleton] at hm
      subst hm
      exact absurd hh.stage hn

theorem UpsPlain.before {d d' : HDir} (hr : Reachable d) (hl : Later d d') (h : UpsPlain free d') : UpsPlain free d := by
  intro n v p s₀ hn hv hp hs
  obtain ⟨hps, u, hu⟩ := prev_made hr hn hv hp
  exact h n v p s₀ hn (made_later hr hl hn hv).1 hp ((made_later hr hl hps hu).2 _ hs)

theorem DownsPlain.before {d d' : HDir} (hr : Reachable d) (hl : Later d d') (h : DownsPlain free d') :
    DownsPlain free d := by
  intro n v p s₀ rs s₁ hn hv hp hs
  obtain ⟨hps, u, hu⟩ := prev_made hr hn hv hp
  exact h n v p s₀ rs s₁ hn (made_later hr hl hn hv).1 hp ((made_later hr hl hps hu).2 _ hs)

/-- The databases of a project whose schema is left to podo. -/
inductive Held (B : Behaviour σ) (cat : σ → Content) (dn : Prop) : HDir → DB σ → Prop where
  | new {d : HDir} {s : σ} : Reachable d → cat s = newSchema → Held B cat dn d ⟨.absent, s⟩
  | later {d d' : HDir} {db : DB σ} : Held B cat dn d db → Later d d' → Held B cat dn d' db
  | up {d : HDir} {db db' : DB σ} {fuel : Nat} {target : Option String} {o : Outcome} : Held B cat dn d db →
      target ≠ some "stage" → up B fuel d target db = some (db', o) → Held B cat dn d db'
  | down {d : HDir} {db : DB σ} (target : Option String) : dn → Held B cat dn d db →
      Held B cat dn d (down B target db).1
  | elsewhere {d : HDir} {db : DB σ} {s : σ} : Held B cat dn d db → cat s = cat db.data →
      Held B cat dn d ⟨db.metaSchema, s⟩
  | used {d : HDir} {db : DB σ} {t : VTable} {n : Nat} : Held B cat dn d db → db.metaSchema = .table t → t.next ≤ n →
      Held B cat dn d ⟨.table { t with next := n }, db.data⟩

theorem Held.deployed {d : HDir} {db : DB σ} (h : Held B cat dn d db) : Deployed B d db := by
  induction h with
  | new hr _ => exact .new _ hr
  | later _ hl ih => exact .later ih hl
  | up _ ht hu ih => exact .up ih ht hu
  | down t _ _ ih => exact .down t ih
  | elsewhere _ _ ih => exact .elsewhere _ ih
  | used _ h1 h2 ih => exact .used ih h1 h2

/-- The schema is that of the version. -/
def HasSchema (cat : σ → Content) (d : HDir) (db : DB σ) : Prop :=
  ∃ v s, db.applied.getLast? = some v ∧ SnapshotOf d v.name s ∧ cat db.data = s.content

theorem Unchanged.follows {d : HDir} {db db' : DB σ} (hu : Unchanged db db') (h : HasSchema cat d db) :
    HasSchema cat d db' := by
  obtain ⟨v, s, h1, h2, h3⟩ := h
  exact ⟨v, s, by rw [hu.applied]; exact h1, h2, by rw [hu.data]; exact h3⟩

theorem Held.follows (ho : Obedient B cat free) {d : HDir} {db : DB σ} (h : Held B cat dn d db)
    (hu : UpsPlain free d) (hd : dn → DownsPlain free d) : HasSchema cat d db := by
  induction h with
  | @new d s hr hc =>
    obtain ⟨vs, st, s₀, hh, hrec⟩ := hr.sound
    exact ⟨Version.newInit, ⟨[("public", Schema.new "public")]⟩, rfl,
      hh.calculate_prefix (B := []) (C := vs ++ [st]) rfl rfl, hc⟩
  | @later d d' db h hl ih =>
    have hr := Deployed.reachable h.deployed
    obtain ⟨v, s, h1, h2, h3⟩ := ih (hu.before hr hl) (fun x => (hd x).before hr hl)
    obtain ⟨ws, _, h5, _⟩ := C84_recorded_as_filed h.deployed
    obtain ⟨hn, hv⟩ := h5 v (List.mem_of_getLast? h1)
    exact ⟨v, s, h1, (made_later hr hl hn hv).2 s h2, h3⟩
  | @up d db db' fuel target o h ht hup ih =>
    have ih := ih hu hd
    by_cases hok : o = .ok
    · subst hok
      obtain ⟨v, s, h1, h2, h3⟩ := ih
      have hdep' : Deployed B d db' := .up h.deployed ht hup
      obtain ⟨ws, _, h5, _⟩ := C84_recorded_as_filed hdep'
      exact C66_up_follows_partial ho (Deployed.reachable h.deployed) (Deployed.reach h.deployed) hup h1 h2 h3
        fun v hv _ p s₀ hp hs => hu v.name v p s₀ (h5 v hv).1 (h5 v hv).2 hp hs
    · exact (C30_up_all_or_nothing B hup hok).follows ih
  | @down d db target hdn h ih =>
    have ih := ih hu hd
    by_cases hok : (Pg.down B target db).2 = .ok
    · obtain ⟨v, s, h1, h2, h3⟩ := ih
      obtain ⟨ws, _, h5, _⟩ := C84_recorded_as_filed h.deployed
      exact C67_down_follows_partial ho (Deployed.reachable h.deployed) (Deployed.reach h.deployed) (by rw [← hok])
        (fun v hv => (h5 v hv).2) h1 h2 h3
        fun v hv _ p s₀ rs s₁ hp hs ht => hd hdn v.name v p s₀ rs s₁ (h5 v hv).1 (h5 v hv).2 hp hs ht
    · exact (C30_down_all_or_nothing B target db hok).follows ih
  | elsewhere _ he ih =>
    obtain ⟨v, s, h1, h2, h3⟩ := ih hu hd
    exact ⟨v, s, h1, h2, by rw [← h3]; exact he⟩
  | used _ hm _ ih =>
    obtain ⟨v, s, h1, h2, h3⟩ := ih hu hd
    refine ⟨v, s, ?_, h2, h3⟩
    unfold DB.applied at h1 ⊢
    rw [hm] at h1
    exact h1

end Pg

namespace Prog
open Proj
variable {σ : Type} {B : Pg.Behaviour σ} {cat : σ → Content} {free : Change → Content → Prop} {dn : Prop}
  {ok : Makes → LocalTime × String → Prop} {R : LocalTime × String → LocalTime × String → Prop} {p : Proj.Path}
  {url m : String}

theorem LeavesSchema.record {w w' : World σ} (h : LeavesSchema cat w w' url m) : LeavesRecord w w' url m := by
  intro s' hs'
  rcases h s' hs' with ⟨ha, _⟩ | ⟨s, hs, he, _⟩
  · exact .inl ha
  · exact .inr ⟨s, hs, he⟩

theorem Minds.tends {log log' : Makes} {w w' : World σ} (h : Minds B cat ok dn p url m log w log' w') :
    Tends B ok NotStage p url m log w log' w' := by
  cases h with
  | apart h hl => exact .apart h hl.record
  | up hB ht hf hto h => exact .up hB ht hf hto h
  | killed hs hto h => exact .killed hs hto h
  | down _ hB ht _ h => exact .down hB ht h

theorem Minded.tended {log : Makes} {w : World σ} (h : Minded B cat ok dn p url m log w) :
    Tended B ok NotStage p url m log w := by
  induction h with
  | new h _ => exact .new h
  | on _ ht ih => exact .on ih ht.tends

/-- What always holds of the database. -/
def InHand (B : Pg.Behaviour σ) (cat : σ → Content) (dn : Prop) (p : Proj.Path) (url m : String) (w : World σ) : Prop :=
  ∀ s, w.servers url = some s → Pg.Held B cat dn (orInit (w.fs.history p)) (s.db m)

theorem held_up {d : HDir} {db db' : Pg.DB σ} (h : Pg.Held B cat dn (orInit d) db) {fuel : Nat}
    {target : Option String} (ht : target ≠ some "stage") {o : Pg.Outcome}
    (hu : Pg.up B fuel d target db = some (db', o)) : Pg.Held B cat dn (orInit d) db' := by
  by_cases hd : d = []
  · subst hd
    obtain ⟨n, hn⟩ := deployed_version h.deployed
    rw [(C88_no_place_refused_partial (Deployed.reach h.deployed) hn (d := []) (fun v hv => by cases hv) hu).1]
    exact h
  · rw [orInit_some hd] at h ⊢
    exact .up h ht hu

theorem held_killed {d : HDir} {db db' : Pg.DB σ} (h : Pg.Held B cat dn (orInit d) db)
    {target : Option String} (ht : target ≠ some "stage") (hu : Pg.UpDies B d target db db') :
    Pg.Held B cat dn (orInit d) db' := by
  rcases hu.cases (Deployed.reach h.deployed).hasTable with rfl | ⟨t, n, h1, h2, rfl⟩ | ⟨fuel, o, hu⟩
  · exact h
  · exact .used h h1 h2
  · exact held_up h ht hu

theorem inHand_put {w : World σ} (h : InHand B cat dn p url m w) {s : Server σ} {db : Pg.DB σ}
    (hdb : Pg.Held B cat dn (orInit (w.fs.history p)) db) : InHand B cat dn p url m (putServer w url m s db) := by
  intro s' hs'
  change Pg.Held B cat dn (orInit (w.fs.history p)) _
  simp only [putServer] at hs'
  rw [update_self] at hs'
  cases hs'
  simp only [Server.db, update_self]
  exact hdb

theorem inHand_away {w w₁ : World σ} {away : String → Bool} (hf : w₁.fs.history p = w.fs.history p)
    (h : InHand B cat dn p url m w) (h1 : InHand B cat dn p url m w₁) : InHand B cat dn p url m (w₁.back w away) := by
  intro s hs
  simp only [World.back] at hs
  split at hs
  · have := h s hs
    change Pg.Held B cat dn (orInit (w₁.fs.history p)) _
    rw [hf]
    exact this
  · exact h1 s hs

theorem inHand_without {w : World σ} {away : String → Bool} (h : InHand B cat dn p url m w) :
    InHand B cat dn p url m (w.without away) := by
  intro s hs
  simp only [World.without] at hs
  split at hs
  · cases hs
  · exact h s hs

/-- One thing more. -/
theorem InHand.minds {log log' : Makes} {w w' : World σ} (h : InHand B cat dn p url m w) (hh : Healthy B R log w)
    (hok : ∀ log m, ok log m → ∀ m' ∈ log, R m' m) (hR : ∀ m, ¬ R m m) (ht : Minds B cat ok dn p url m log w log' w') :
    InHand B cat dn p url m w' := by
  have hnext := hh.happens hok hR ht.tends.happens
  cases ht with
  | apart hap hl =>
    intro s' hs'
    have hon := (hnext.2 p).orInit
    have hr : Reachable (orInit (w.fs.history p)) := by
      rcases hh.history p with e | ⟨hr, _⟩
      · rw [e]; exact .init
      · rw [orInit_some (reachable_some hr)]; exact hr
    rcases hl s' hs' with ⟨ha, hc⟩ | ⟨s, hs, he, hc⟩
    · have : s'.db m = ⟨.absent, s'.data⟩ := by unfold Server.db; rw [ha]
      rw [this]
      exact .later (.new hr hc) hon
    · have : s'.db m = ⟨(s.db m).metaSchema, s'.data⟩ := by unfold Server.db; rw [he]
      rw [this]
      exact .later (.elsewhere (h s hs) hc) hon
  | up hB hnow hfor htar hends =>
    rename_i w₁ S t cwd name target away out e
    subst hB
    obtain ⟨hi, q₀, q, hq₀, hq, rfl, rfl, rfl⟩ := hfor
    obtain ⟨fuel, hrun⟩ := hends
    have hq₀' : ProfileAt S.env (w.without away).fs cwd "database" q₀ := hq₀
    have hq' : ProfileAt S.env (w.without away).fs cwd name q := hq
    have hw := inHand_without (away := away) h
    cases hs : (w.without away).servers q.databaseUrl with
    | none =>
      have : w₁ = w.without away := by
        obtain ⟨pr, hp, h0, h1⟩ := profileAt_default hq₀' hq'
        have e1 := (profile_dirs h0).1
        obtain ⟨_, _, e2, e3⟩ := profile_dirs h1
        change pr.historyDir DEFAULT_PROFILE = _ at e1
        simp only [run, hp, e1, e2, e3, hs] at hrun
        cases hrun
        rfl
      subst this
      exact inHand_away rfl h hw
    | some s =>
      rw [run_up hq₀' hq' hi target hs] at hrun
      cases hu : Pg.up S.B fuel ((w.without away).fs.history q₀.history) target (s.db q.metadataSchema) with
      | none => rw [hu] at hrun; cases hrun
      | some r =>
        obtain ⟨db, o⟩ := r
        rw [hu] at hrun
        cases hrun
        exact inHand_away rfl h (inHand_put hw (held_up (hw s hs) htar hu))
  | killed hs htar hu => exact inHand_put h (held_killed (h _ hs) htar hu)
  | down hdn hB hnow hfor hends =>
    rename_i w₁ S t cwd name target away out e
    subst hB
    obtain ⟨hi, q, hq, rfl, rfl⟩ := hfor
    obtain ⟨fuel, hrun⟩ := hends
    have hq' : ProfileAt S.env (w.without away).fs cwd name q := hq
    have hw := inHand_without (away := away) h
    cases hs : (w.without away).servers q.databaseUrl with
    | none =>
      have : w₁ = w.without away := by
        obtain ⟨pr, hp, h1⟩ := hq'
        obtain ⟨_, _, e2, e3⟩ := profile_dirs h1
        simp only [run, hp, e2, e3, hs] at hrun
        cases hrun
        rfl
      subst this
      exact inHand_away rfl h hw
    | some s =>
      rw [run_down hq' hi target hs] at hrun
      cases hrun
      exact inHand_away rfl h (inHand_put hw (.down target hdn (hw s hs)))

theorem Minded.inHand {log : Makes} {w : World σ} (hok : ∀ log m, ok log m → ∀ m' ∈ log, R m' m)
    (hR : ∀ m, ¬ R m m) (h : Minded B cat ok dn p url m log w) : InHand B cat dn p url m w := by
  induction h with
  | @new w h0 hc =>
    intro s hs
    rw [h0.history p, orInit_nil]
    have : s.db m = ⟨.absent, s.data⟩ := by unfold Server.db; rw [h0.servers url s hs m]
    rw [this]
    exact .new .init (hc s hs)
  | on h ht ih => exact ih.minds (h.tended.life.healthy hok hR) hok hR ht

end Prog
end Podo
