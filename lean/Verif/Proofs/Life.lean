import Verif.Proofs.Clock
import Verif.Proofs.Merge
import Verif.Proofs.UpConc
import Verif.Props.Endings
import Verif.Props.Program
import Verif.Props.Pg
import Verif.Props.Repair
/-
Lemmas for C91 and C92.
-/
namespace Podo

/-- How a command changes a chain: not at all, by a new stage, or by a version with the name `make` gives. -/
theorem exec_new {d d' : HDir} {vs : List Version} {st : Version} (h : IsHistory d vs st)
    {c : HistCmd} {k : Nat} {ok : Bool} (he : c.exec k d = some (d', ok)) {s : Database}
    (hs : Recorded Database.new (Version.newInit :: (vs ++ [st])) s)
    (hfresh : ∀ stamp label, c = .make stamp label → FreshName d (madeName stamp label)) :
    (∃ st', IsHistory d' vs st') ∨ ∃ stamp label, c = .make stamp label ∧
      IsHistory d' (vs ++ [{ st with name := madeName stamp label }]) (Version.newStage (madeName stamp label)) := by
  unfold HistCmd.exec at he
  split at he
  · cases he
  · cases he; exact .inl ⟨st, h⟩
  · next ws hws =>
    simp only [Option.some.injEq] at he
    rcases plan_cases h hws hs with rfl | ⟨defs, st', rfl, rfl, hst⟩ | ⟨stamp, label, rfl, hne, rfl⟩ |
      ⟨rfl, rfl⟩
    · simp only [HDir.saveAll, Prod.mk.injEq] at he
      rw [← he.1]; exact .inl ⟨st, h⟩
    · obtain ⟨rs, s', ht, hst'⟩ := stageVersion_ok hst
      obtain ⟨d₁, hd₁, hh⟩ := h.saveStage (st' := st') (by rw [hst']; exact h.stage) (by rw [hst'])
      rw [saveAll_single hd₁] at he
      cases he
      exact .inl ⟨_, hh⟩
    · by_cases hsl : '/' ∈ (madeName stamp label).toList
      · left
        simp only [HDir.saveAll] at he
        have : d.save { st with name := madeName stamp label } = none := by
          unfold HDir.save; rw [if_pos (by simpa using hsl)]
        rw [this] at he
        cases he; exact ⟨st, h⟩
      · right
        obtain ⟨d₁, hd₁, hh⟩ := h.make (hfresh stamp label rfl) hsl
        rw [hd₁] at he
        cases he
        exact ⟨stamp, label, rfl, hh⟩
    · obtain ⟨d₁, hd₁, hh⟩ := h.saveStage (st' := st.reset) h.stage rfl
      rw [saveAll_single hd₁] at he
      cases he
      exact .inl ⟨_, hh⟩

theorem plan_nil {c : HistCmd} {k : Nat} {ws : List Version} (hp : c.plan k [] = some (.ok ws)) : ws = [] := by
  obtain ⟨e, hg⟩ : ∃ e, HDir.getVersion [] "stage" = .error e := ⟨_, rfl⟩
  have hg' : HDir.getVersion [] Version.STAGE = .error e := hg
  cases c with
  | init => cases hp; rfl
  | stage defs =>
    simp only [HistCmd.plan, stagePlan, hg'] at hp
    repeat' split at hp
    all_goals cases hp
  | make stamp label =>
    simp only [HistCmd.plan, makePlan, hg] at hp
    repeat' split at hp
    all_goals cases hp
  | reset =>
    simp only [HistCmd.plan, resetPlan, hg'] at hp
    repeat' split at hp
    all_goals cases hp

/-- A directory without files stays that way, whatever command of a project is run. -/
theorem exec_nil {d' : HDir} {c : HistCmd} {k : Nat} {ok : Bool} (he : c.exec k [] = some (d', ok)) : d' = [] := by
  unfold HistCmd.exec at he
  split at he
  · cases he
  · cases he; rfl
  · next ws hp => rw [plan_nil hp] at he; cases he; rfl

namespace Prog
open Proj
variable {σ : Type} {B : Pg.Behaviour σ} {ok : Makes → LocalTime × String → Prop}

/-- A directory of the machine: without files, or written by podo, with the versions made in the order of
making, and any two of them related by `R`. -/
def Kept (R : LocalTime × String → LocalTime × String → Prop) (log : Makes) (d : HDir) : Prop :=
  d = [] ∨ (Reachable d ∧ ∃ (vs : List Version) (st : Version) (ms : Makes), IsHistory d vs st ∧ (∀ m ∈ ms, m ∈ log) ∧
    vs.map Version.name = ms.map nameOf ∧ ms.Pairwise R)

/-- What always holds. -/
structure Healthy (B : Pg.Behaviour σ) (R : LocalTime × String → LocalTime × String → Prop) (log : Makes)
    (w : World σ) : Prop where
  history : ∀ p, Kept R log (w.fs.history p)
  servers : ∀ url s, w.servers url = some s → ∀ m, Pg.Reach B (s.db m)

variable {R : LocalTime × String → LocalTime × String → Prop}

/-- How the version files of a directory go on. -/
def Onward (d d' : HDir) : Prop := (d = [] ∧ (d' = [] ∨ d' = initDir)) ∨ (Reachable d ∧ Later d d')

theorem Onward.kept {d d' : HDir} (h : Onward d d') {n : String} {v : Version} (hn : n ≠ "stage") (hv : Stored d n v) :
    Stored d' n v := by
  rcases h with ⟨rfl, _⟩ | ⟨hr, hl⟩
  · cases hv
  · exact C24_made_versions_immutable hr hl hn hv

theorem Kept.still {log : Makes} {d : HDir} (h : Kept R log d) : Onward d d := by
  rcases h with h | ⟨hr, _⟩
  · exact .inl ⟨h, .inl h⟩
  · exact .inr ⟨hr, .refl _⟩

theorem Kept.more {log log' : Makes} {d : HDir} (h : Kept R log d) (hl : ∀ m ∈ log, m ∈ log') : Kept R log' d := by
  rcases h with h | ⟨hr, vs, st, ms, h1, h2, h3, h4⟩
  · exact .inl h
  · exact .inr ⟨hr, vs, st, ms, h1, fun m hm => hl m (h2 m hm), h3, h4⟩

theorem Kept.relisted {log : Makes} {d d' : HDir} (h : Kept R log d) (hp : d.Perm d') : Kept R log d' := by
  rcases h with rfl | ⟨hr, vs, st, ms, h1, h2⟩
  · exact .inl hp.nil_eq.symm
  · exact .inr ⟨.relisted hr hp, vs, st, ms, h1.perm hp, h2⟩

theorem Kept.named {log : Makes} {d : HDir} (h : Kept R log d) : NamedAfterVersion d := by
  rcases h with rfl | ⟨hr, _⟩
  · rintro f v ⟨h, _⟩; cases h
  · exact hr.namedAfterVersion

theorem Kept.acyclic {log : Makes} {d : HDir} (h : Kept R log d) : Acyclic d := by
  rcases h with rfl | ⟨_, vs, st, _, h, _⟩
  · exact ⟨fun _ => 0, fun n v p h => by cases h⟩
  · exact h.acyclic

/-- The names that are taken. -/
theorem Kept.taken {log : Makes} {d : HDir} (h : Kept R log d) {n : String} (hn : d.get? (n ++ ".yaml") ≠ none) :
    n = "init" ∨ n = "stage" ∨ ∃ m ∈ log, n = nameOf m := by
  rcases h with rfl | ⟨hr, vs, st, ms, h1, h2, h3, h4⟩
  · exact absurd rfl hn
  · obtain ⟨e, he⟩ := Option.ne_none_iff_exists'.1 hn
    obtain ⟨v, hv, rfl, _⟩ := (h1.files _ _).1 he
    rcases List.mem_cons.1 hv with rfl | hv
    · exact .inl rfl
    rcases List.mem_append.1 hv with hv | hv
    · right; right
      have : v.name ∈ ms.map nameOf := h3 ▸ List.mem_map_of_mem hv
      obtain ⟨m, hm, e⟩ := List.mem_map.1 this
      exact ⟨m, h2 m hm, e.symm⟩
    · rw [List.mem_singleton] at hv
      exact .inr (.inl (hv ▸ h1.stage))

theorem Kept.fresh {log : Makes} {d : HDir} (h : Kept R log d) {m : LocalTime × String} (hm : m ∉ log)
    (hy : ∀ stem, nameOf m ≠ stem ++ ".yaml") : FreshName d (nameOf m) := by
  refine ⟨Classical.byContradiction fun hn => ?_, hy⟩
  rcases h.taken hn with e | e | ⟨m', hm', e⟩
  · exact nameOf_long (by decide) e
  · exact nameOf_long (by decide) e
  · exact hm (nameOf_inj e ▸ hm')

theorem Kept.exec {log log' : Makes} {d d' : HDir} (h : Kept R log d) {c : HistCmd} {k : Nat} {o : Bool}
    (he : c.exec k d = some (d', o)) (hl : ∀ m ∈ log, m ∈ log')
    (hc : ∀ stamp label, c = .make stamp label → ∃ t : LocalTime, stamp = t.text ∧
      (t, label.getD "auto") ∈ log' ∧ (t, label.getD "auto") ∉ log ∧ (∀ m ∈ log, R m (t, label.getD "auto")) ∧
      ∀ stem, nameOf (t, label.getD "auto") ≠ stem ++ ".yaml") :
    Kept R log' d' ∧ Onward d d' := by
  rcases id h with rfl | ⟨hr, vs, st, ms, h1, h2, h3, h4⟩
  · rw [exec_nil he]
    exact ⟨.inl rfl, .inl ⟨rfl, .inl rfl⟩⟩
  · have hf : ∀ stamp label, c = .make stamp label → FreshName d (madeName stamp label) := by
      intro stamp label e
      obtain ⟨t, rfl, _, h5, _, h6⟩ := hc stamp label e
      rw [nameOf_made]
      exact h.fresh (m := (t, label.getD "auto")) h5 h6
    have hr' : Reachable d' := .step hr hf he
    refine ⟨.inr ⟨hr', ?_⟩, .inr ⟨hr, .step (.refl _) hf he⟩⟩
    obtain ⟨vs₁, st₁, s, hh, hrec⟩ := hr.sound
    obtain ⟨e1, e2⟩ := h1.unique hh
    subst e1 e2
    rcases exec_new h1 he hrec hf with ⟨st', h'⟩ | ⟨stamp, label, e, h'⟩
    · exact ⟨vs, st', ms, h', fun m hm => hl m (h2 m hm), h3, h4⟩
    · obtain ⟨t, rfl, h5, _, h6, _⟩ := hc stamp label e
      refine ⟨_, _, ms ++ [(t, label.getD "auto")], h', ?_, ?_, ?_⟩
      · intro m hm
        rcases List.mem_append.1 hm with hm | hm
        · exact hl m (h2 m hm)
        · rw [List.mem_singleton] at hm; exact hm ▸ h5
      · rw [List.map_append, List.map_append, h3]; rfl
      · rw [List.pairwise_append]
        refine ⟨h4, List.pairwise_singleton _ _, fun a ha b hb => ?_⟩
        rw [List.mem_singleton] at hb
        exact hb ▸ h6 a (h2 a ha)

theorem Dies.nil {c : HistCmd} {d : HDir} (h : Dies c [] d) : d = [] := by
  obtain ⟨k, vs, hp, hc⟩ := h
  rw [plan_nil hp] at hc
  cases hc
  rfl

theorem Mended.nil {d : HDir} (h : Mended [] d) : d = [] := by
  rcases h with ⟨k, h⟩ | h
  · exact exec_nil h
  · cases h with
    | stage h _ _ => cases h
    | unreadable _ h => cases h
    | branch _ h _ _ => cases h

/-- A command is killed, and the history is put in order. -/
theorem Kept.mended {log log' : Makes} {d d₁ d' : HDir} (h : Kept R log d) {c : HistCmd} (hd : Dies c d d₁)
    (hm : Mended d₁ d') (hl : ∀ m ∈ log, m ∈ log')
    (hc : ∀ stamp label, c = .make stamp label → ∃ t : LocalTime, stamp = t.text ∧
      (t, label.getD "auto") ∈ log' ∧ (t, label.getD "auto") ∉ log ∧ (∀ m ∈ log, R m (t, label.getD "auto")) ∧
      ∀ stem, nameOf (t, label.getD "auto") ≠ stem ++ ".yaml") :
    Kept R log' d' ∧ Onward d d' := by
  rcases id h with rfl | ⟨hr, _⟩
  · rw [Dies.nil hd] at hm
    rw [Mended.nil hm]
    exact ⟨.inl rfl, .inl ⟨rfl, .inl rfl⟩⟩
  · have hf : ∀ stamp label, c = .make stamp label → FreshName d (madeName stamp label) := by
      intro stamp label e
      obtain ⟨t, rfl, _, h5, _, h6⟩ := hc stamp label e
      rw [nameOf_made]
      exact h.fresh (m := (t, label.getD "auto")) h5 h6
    have hcase : d' = d ∨ Runs c d d' true ∨ Runs .reset d d' true := by
      rcases hm with hm | hm
      · exact .inr (C93_reset hr hf hd hm).symm
      · exact C93_repaired hr hf hd hm
    rcases hcase with rfl | ⟨k, he⟩ | ⟨k, he⟩
    · exact ⟨h.more hl, h.still⟩
    · exact h.exec he hl hc
    · exact h.exec he hl (by intro _ _ e; cases e)

/-- What a command does to the histories and the databases. -/
theorem run_effects {S : Setting σ} {fuel : Nat} {w w' : World σ} {cwd : Proj.Path} {a : Args}
    {out : List String} {e : Ending} (h : run S fuel w cwd a = some (w', out, e)) (ha : a ≠ .init) :
    w' = w ∨
    (∃ p c d o, (∀ stamp label, c = .make stamp label → stamp = S.now ∧ ∃ name, a = .make name label) ∧
      HistCmd.exec fuel c (w.fs.history p) = some (d, o) ∧
      w' = ⟨{ w.fs with history := update w.fs.history p d }, w.servers⟩) ∨
    (∃ url s m p target db o, w.servers url = some s ∧
      Pg.up S.B fuel (w.fs.history p) target (s.db m) = some (db, o) ∧ w' = putServer w url m s db) ∨
    ∃ url s m target, w.servers url = some s ∧ w' = putServer w url m s (Pg.down S.B target (s.db m)).1 := by
  cases a with
  | init => exact absurd rfl ha
  | clone => cases h; exact .inl rfl
  | print => cases h; exact .inl rfl
  | sync p => cases h; exact .inl rfl
  | status name =>
    left
    simp only [run] at h
    repeat' split at h
    all_goals first | cases h; rfl | cases h
  | stage name =>
    simp only [run] at h
    split at h
    · cases h; exact .inl rfl
    · split at h
      · rcases runHist_cases h with ⟨_, _, rfl, _⟩ | ⟨d, o, he, rfl, _⟩
        · exact .inl rfl
        · exact .inr (.inl ⟨_, _, d, o, (by intro _ _ e; cases e), he, rfl⟩)
      · cases h; exact .inl rfl
  | reset name =>
    simp only [run] at h
    split at h
    · cases h; exact .inl rfl
    · split at h
      · rcases runHist_cases h with ⟨_, _, rfl, _⟩ | ⟨d, o, he, rfl, _⟩
        · exact .inl rfl
        · exact .inr (.inl ⟨_, _, d, o, (by intro _ _ e; cases e), he, rfl⟩)
      · cases h; exact .inl rfl
  | make name label =>
    simp only [run] at h
    split at h
    · cases h; exact .inl rfl
    · split at h
      · rcases runHist_cases h with ⟨_, _, rfl, _⟩ | ⟨d, o, he, rfl, _⟩
        · exact .inl rfl
        · refine .inr (.inl ⟨_, _, d, o, fun _ _ e => ?_, he, rfl⟩)
          cases e; exact ⟨rfl, name, rfl⟩
      · cases h; exact .inl rfl
  | up name target =>
    simp only [run] at h
    split at h
    · cases h; exact .inl rfl
    · split at h
      · split at h
        · cases h; exact .inl rfl
        · next s hs =>
          split at h
          · split at h
            · cases h
            · cases h; exact .inl rfl
          · next m hm =>
            split at h
            · cases h
            · next db o hup =>
              cases h
              exact .inr (.inr (.inl ⟨_, s, m, _, target, db, o, hs, hup, rfl⟩))
      · cases h; exact .inl rfl
  | down name target =>
    simp only [run] at h
    split at h
    · cases h; exact .inl rfl
    · split at h
      · split at h
        · cases h; exact .inl rfl
        · next s hs =>
          split at h
          · cases h; exact .inl rfl
          · next m hm =>
            cases h
            exact .inr (.inr (.inr ⟨_, s, m, target, hs, rfl⟩))
      · cases h; exact .inl rfl

theorem putServer_reach {w : World σ} {url m : String} {s : Server σ} {db : Pg.DB σ}
    (hw : ∀ url s, w.servers url = some s → ∀ m, Pg.Reach B (s.db m)) (hs : w.servers url = some s)
    (hdb : Pg.Reach B db) {u : String} {s' : Server σ} (h : (putServer w url m s db).servers u = some s') (m' : String) :
    Pg.Reach B (s'.db m') := by
  unfold putServer at h
  dsimp only at h
  by_cases hu : u = url
  · subst hu
    rw [update_self] at h
    cases h
    unfold Server.db
    dsimp only
    by_cases hm : m' = m
    · subst hm; rw [update_self]; exact hdb
    · rw [update_other _ _ hm]
      exact .elsewhere db.data (hw _ _ hs m')
  · rw [update_other _ _ hu] at h
    exact hw _ _ h m'

theorem noted_more (t : LocalTime) (log : Makes) (a : Args) : ∀ m ∈ log, m ∈ noted t log a := by
  intro m hm
  cases a with
  | make _ _ => exact List.mem_cons_of_mem _ hm
  | _ => exact hm

/-- One thing more. -/
theorem Healthy.happens {log log' : Makes} {w w' : World σ} (h : Healthy B R log w)
    (hok : ∀ log m, ok log m → ∀ m' ∈ log, R m' m) (hR : ∀ m, ¬ R m m) (hh : Happens B ok log w log' w') :
    Healthy B R log' w' ∧ ∀ p, Onward (w.fs.history p) (w'.fs.history p) := by
  cases hh with
  | edit hs hp =>
    refine ⟨⟨fun p => (h.history p).relisted (hp p), fun url s hu => h.servers url s (hs ▸ hu)⟩, ?_⟩
    intro p
    rcases h.history p with e | ⟨hr, _⟩
    · have hp := hp p
      rw [e] at hp ⊢
      exact .inl ⟨rfl, .inl hp.nil_eq.symm⟩
    · exact .inr ⟨hr, .relisted (.refl _) (hp p)⟩
  | database hf hs =>
    refine ⟨⟨fun p => hf ▸ h.history p, fun url s' hu m => ?_⟩, fun p => by rw [hf]; exact (h.history p).still⟩
    rcases hs url s' hu with ⟨s, hsu, he⟩ | ⟨_, he⟩
    · unfold Server.db
      rw [he]
      exact .elsewhere s'.data (h.servers url s hsu m)
    · unfold Server.db
      rw [he]
      exact .new s'.data
  | @command w₁ S t cwd a away out e hB hnow hal hrun =>
    subst hB
    have hsub : ∀ url s, (w.without away).servers url = some s → w.servers url = some s := by
      intro url s hu
      unfold World.without at hu
      dsimp only at hu
      split at hu
      · cases hu
      · exact hu
    have hw : ∀ url s, (w.without away).servers url = some s → ∀ m, Pg.Reach S.B (s.db m) :=
      fun url s hu => h.servers url s (hsub url s hu)
    have hback : (∀ url s, w₁.servers url = some s → ∀ m, Pg.Reach S.B (s.db m)) →
        ∀ url s, (w₁.back w away).servers url = some s → ∀ m, Pg.Reach S.B (s.db m) := by
      intro h1 url s hu
      unfold World.back at hu
      dsimp only at hu
      split at hu
      · exact h.servers url s hu
      · exact h1 url s hu
    have hmore := noted_more t log a
    obtain ⟨fuel, hrun⟩ := hrun
    by_cases ha : a = .init
    · subst ha
      obtain ⟨h1, h2, _⟩ := init_servers hrun
      have hserv := hback (by rw [h1]; exact hw)
      rcases hal with ⟨p, hd⟩ | hnil
      · have hfs : (w₁.back w away).fs = w.fs := by
          change w₁.fs = w.fs
          rw [h2]
          unfold Proj.init
          rw [show discover S.env (w.without away).fs cwd = .ok p from hd]
          rfl
        exact ⟨⟨fun q => by rw [hfs]; exact h.history q, hserv⟩, fun q => by rw [hfs]; exact (h.history q).still⟩
      · cases hd : discover S.env w.fs cwd with
        | ok p =>
          have hfs : (w₁.back w away).fs = w.fs := by
            change w₁.fs = w.fs
            rw [h2]
            unfold Proj.init
            rw [show discover S.env (w.without away).fs cwd = .ok p from hd]
            rfl
          exact ⟨⟨fun q => by rw [hfs]; exact h.history q, hserv⟩, fun q => by rw [hfs]; exact (h.history q).still⟩
        | error er =>
          have hi := init_new (env := S.env) (fs := w.fs) (cwd := cwd) (dir := initDir) hd (by rw [hnil]; rfl)
          have hfs : (w₁.back w away).fs.history = update w.fs.history (cwd ++ ["database", "history"]) initDir := by
            change w₁.fs.history = _
            rw [h2]
            change (Proj.init S.env w.fs cwd).1.history = _
            rw [hi]
          refine ⟨⟨fun q => ?_, hserv⟩, fun q => ?_⟩
          · rw [hfs]
            by_cases hq : q = cwd ++ ["database", "history"]
            · subst hq
              rw [update_self]
              exact .inr ⟨.init, [], _, [], initDir_history, by simp, rfl, .nil⟩
            · rw [update_other _ _ hq]; exact h.history q
          · rw [hfs]
            by_cases hq : q = cwd ++ ["database", "history"]
            · subst hq; rw [hnil, update_self]; exact .inl ⟨rfl, .inr rfl⟩
            · rw [update_other _ _ hq]; exact (h.history q).still
    · rcases run_effects hrun ha with rfl | ⟨p, c, d, o, hc, he, rfl⟩ | ⟨url, s, m, p, target, db, o, hs, hup, rfl⟩ |
        ⟨url, s, m, target, hs, rfl⟩
      · exact ⟨⟨fun q => (h.history q).more hmore, hback hw⟩, fun q => (h.history q).still⟩
      · have key := (h.history p).exec (log' := noted t log a) he hmore (by
          intro stamp label hcm
          obtain ⟨rfl, name, rfl⟩ := hc stamp label hcm
          obtain ⟨h1, h2⟩ := hal
          exact ⟨t, hnow, .head _, fun hm => hR _ (hok _ _ h1 _ hm), fun m hm => hok _ _ h1 m hm, h2⟩)
        refine ⟨⟨fun q => ?_, hback hw⟩, fun q => ?_⟩
        · change Kept R _ (update w.fs.history p d q)
          by_cases hq : q = p
          · subst hq; rw [update_self]; exact key.1
          · rw [update_other _ _ hq]; exact (h.history q).more hmore
        · change Onward _ (update w.fs.history p d q)
          by_cases hq : q = p
          · subst hq; rw [update_self]; exact key.2
          · rw [update_other _ _ hq]; exact (h.history q).still
      · refine ⟨⟨fun q => (h.history q).more hmore, hback fun u s' hu m' => ?_⟩, fun q => (h.history q).still⟩
        exact putServer_reach hw hs (.up (hw _ _ hs m) (h.history p).named hup) hu m'
      · refine ⟨⟨fun q => (h.history q).more hmore, hback fun u s' hu m' => ?_⟩, fun q => (h.history q).still⟩
        exact putServer_reach hw hs (.down target (hw _ _ hs m)) hu m'

  | @interrupted p t c d d' hc hd hm =>
    have hmore : ∀ m ∈ log, m ∈ notedDead t log c := by
      intro m hm
      cases c with
      | make _ _ => exact List.mem_cons_of_mem _ hm
      | _ => exact hm
    have key := (h.history p).mended (log' := notedDead t log c) hd hm hmore (by
      intro stamp label e
      subst e
      obtain ⟨h1, h2, h3⟩ := hc stamp label rfl
      exact ⟨t, h1, .head _, fun hm => hR _ (hok _ _ h2 _ hm), fun m hm => hok _ _ h2 m hm, h3⟩)
    refine ⟨⟨fun q => ?_, h.servers⟩, fun q => ?_⟩
    · change Kept R _ (update w.fs.history p d' q)
      by_cases hq : q = p
      · subst hq; rw [update_self]; exact key.1
      · rw [update_other _ _ hq]; exact (h.history q).more hmore
    · change Onward _ (update w.fs.history p d' q)
      by_cases hq : q = p
      · subst hq; rw [update_self]; exact key.2
      · rw [update_other _ _ hq]; exact (h.history q).still
  | @killed p url m s target db hs hu =>
    refine ⟨⟨fun q => h.history q, fun u s' hus m' => ?_⟩, fun q => (h.history q).still⟩
    exact putServer_reach h.servers hs (Pg.C93_up_killed_reach (h.history p).named (h.servers _ _ hs m) hu) hus m'

theorem Healthy.goes {log log' : Makes} {w w' : World σ} (h : Healthy B R log w)
    (hok : ∀ log m, ok log m → ∀ m' ∈ log, R m' m) (hR : ∀ m, ¬ R m m) (hg : Goes B ok log w log' w') :
    Healthy B R log' w' ∧ ∀ p n v, n ≠ "stage" → Stored (w.fs.history p) n v → Stored (w'.fs.history p) n v := by
  induction hg with
  | now => exact ⟨h, fun _ _ _ _ hv => hv⟩
  | on _ hh ih =>
    have := ih.1.happens hok hR hh
    exact ⟨this.1, fun p n v hn hv => (this.2 p).kept hn (ih.2 p n v hn hv)⟩

theorem Untouched.healthy {w : World σ} (h : Untouched w) : Healthy B R [] w :=
  ⟨fun p => .inl (h.history p), fun url s hs m => by unfold Server.db; rw [h.servers url s hs m]; exact .new _⟩

theorem Life.healthy {log : Makes} {w : World σ} (hok : ∀ log m, ok log m → ∀ m' ∈ log, R m' m)
    (hR : ∀ m, ¬ R m m) (h : Life B ok log w) : Healthy B R log w := by
  obtain ⟨w₀, h0, hg⟩ := h
  exact (h0.healthy.goes hok hR hg).1

/-! ### Ending -/

/-- Nothing podo reads of a directory goes on for ever. -/
structure Finite (d : HDir) : Prop where
  opens : ∃ k r, HDir.fromDir k d = some r
  acyclic : Acyclic d

theorem Kept.finite {log : Makes} {d : HDir} (h : Kept R log d) : Finite d := by
  refine ⟨?_, h.acyclic⟩
  rcases h with rfl | ⟨_, vs, st, _, h, _⟩
  · exact ⟨1, _, rfl⟩
  · obtain ⟨nm, _, hf⟩ := h.fromDir
    exact ⟨_, _, hf _ (Nat.lt_succ_self _)⟩

theorem Finite.range {d : HDir} (h : Finite d) (a b : String) : ∃ k r, HDir.upwardRange k d a b = some r := by
  obtain ⟨rank, hr⟩ := h.acyclic
  obtain ⟨r, hl⟩ := rangeLoop_ends hr a b (rank b + 1) b (Nat.lt_succ_self _) []
  exact ⟨_, r, hl⟩

theorem Finite.snapshot {d : HDir} (h : Finite d) (b : String) : ∃ k r, calculateSnapshot k d b = some r := by
  obtain ⟨k, r, hr⟩ := h.range Version.INIT b
  refine ⟨k, ?_⟩
  unfold calculateSnapshot
  rw [hr]
  repeat' split
  all_goals first | exact ⟨_, rfl⟩ | (next h => cases h)

theorem Finite.plan {d : HDir} (h : Finite d) (c : HistCmd) : ∃ k r, c.plan k d = some r := by
  obtain ⟨k₁, r₁, h1⟩ := h.opens
  obtain ⟨k₂, r₂, h2⟩ := h.snapshot Version.STAGE
  have h1 := fromDir_mono (Nat.le_max_left k₁ k₂) h1
  have h2 := calculate_mono (Nat.le_max_right k₁ k₂) h2
  refine ⟨max k₁ k₂, ?_⟩
  cases c with
  | init => exact ⟨_, rfl⟩
  | stage defs =>
    simp only [HistCmd.plan, stagePlan, h1, h2]
    repeat' split
    all_goals first | exact ⟨_, rfl⟩ | (next h => cases h)
  | make stamp label =>
    simp only [HistCmd.plan, makePlan, h1]
    repeat' split
    all_goals first | exact ⟨_, rfl⟩ | (next h => cases h)
  | reset =>
    simp only [HistCmd.plan, resetPlan, h1]
    repeat' split
    all_goals first | exact ⟨_, rfl⟩ | (next h => cases h)

theorem Finite.up {d : HDir} (h : Finite d) (target : Option String) (db : Pg.DB σ) :
    ∃ k r, Pg.up B k d target db = some r := by
  obtain ⟨k, r, hk⟩ := h.opens
  cases r with
  | error e => exact ⟨k, _, by unfold Pg.up; rw [hk]⟩
  | ok o =>
    cases hg : d.getVersion (target.getD o.currentVersion) with
    | error e =>
      refine ⟨k, ?_⟩
      unfold Pg.up
      rw [hk]
      dsimp only
      rw [hg]
      dsimp only
      repeat' split
      all_goals first | exact ⟨_, rfl⟩ | (next h => cases h)
    | ok to =>
      cases he : Pg.ensureInitialized B db with
      | mk m b =>
        cases b with
        | false => exact ⟨k, _, by unfold Pg.up; rw [hk]; dsimp only; rw [he]⟩
        | true =>
          cases m with
          | absent => exact ⟨k, _, by unfold Pg.up; rw [hk]; dsimp only; rw [he]⟩
          | noTable => exact ⟨k, _, by unfold Pg.up; rw [hk]; dsimp only; rw [he]⟩
          | table t =>
            cases hc : t.current with
            | none => exact ⟨k, _, by unfold Pg.up; rw [hk]; dsimp only; rw [he]; dsimp only; rw [hc]⟩
            | some cur =>
              obtain ⟨k₂, r₂, h2⟩ := h.range cur.name to.name
              have hk := fromDir_mono (Nat.le_max_left k k₂) hk
              have h2 := upwardRange_mono (Nat.le_max_right k k₂) h2
              refine ⟨max k k₂, ?_⟩
              unfold Pg.up
              rw [hk]
              dsimp only
              rw [he]
              dsimp only
              rw [hc]
              dsimp only
              rw [hg]
              dsimp only
              rw [h2]
              repeat' split
              all_goals first | exact ⟨_, rfl⟩ | (next h => cases h)

theorem runHist_finite {w : World σ} {p : Proj.Path} (h : Finite (w.fs.history p)) (c : HistCmd) :
    ∃ k r, runHist k w p c = some r := by
  obtain ⟨k, r, hk⟩ := h.plan c
  refine ⟨k, ?_⟩
  unfold runHist
  rw [hk]
  cases r with
  | error e => exact ⟨_, rfl⟩
  | ok vs => exact ⟨_, rfl⟩

theorem statusIn_finite {S : Setting σ} {w : World σ} {p : Proj.Path} (h : Finite (w.fs.history p)) (ds : Proj.Path)
    (url ms : String) : ∃ k r, statusIn S k w p ds url ms = some r := by
  obtain ⟨k₁, r₁, h1⟩ := h.opens
  obtain ⟨k₂, r₂, h2⟩ := h.snapshot Version.STAGE
  have h1 := fromDir_mono (Nat.le_max_left k₁ k₂) h1
  have h2 := calculate_mono (Nat.le_max_right k₁ k₂) h2
  refine ⟨max k₁ k₂, ?_⟩
  unfold statusIn
  rw [h1]
  rw [h2]
  repeat' split
  all_goals first | exact ⟨_, rfl⟩ | (next h => cases h)

/-- Every command ends. -/
theorem ends_finite {w : World σ} (h : ∀ p, Finite (w.fs.history p)) (S : Setting σ) (cwd : Proj.Path) (a : Args) :
    ∃ w' out e, Ends S w cwd a w' out e := by
  have key : ∃ k r, run S k w cwd a = some r := by
    cases a with
    | init =>
      refine ⟨0, ?_⟩
      simp only [run]
      split
      all_goals exact ⟨_, rfl⟩
    | clone => exact ⟨0, _, rfl⟩
    | print => exact ⟨0, _, rfl⟩
    | sync _ => exact ⟨0, _, rfl⟩
    | status name =>
      simp only [run]
      split
      · exact ⟨0, _, rfl⟩
      · split
        · next hh ds url ms _ _ _ _ =>
          obtain ⟨k, r, hk⟩ := statusIn_finite (S := S) (h hh) ds url ms
          exact ⟨k, _, by rw [hk]⟩
        · exact ⟨0, _, rfl⟩
    | stage name =>
      simp only [run]
      split
      · exact ⟨0, _, rfl⟩
      · split
        · next hh _ _ _ => exact runHist_finite (h hh) _
        · exact ⟨0, _, rfl⟩
    | reset name =>
      simp only [run]
      split
      · exact ⟨0, _, rfl⟩
      · split
        · next hh _ => exact runHist_finite (h hh) _
        · exact ⟨0, _, rfl⟩
    | make name label =>
      simp only [run]
      split
      · exact ⟨0, _, rfl⟩
      · split
        · next hh _ => exact runHist_finite (h hh) _
        · exact ⟨0, _, rfl⟩
    | up name target =>
      simp only [run]
      split
      · exact ⟨0, _, rfl⟩
      · split
        · next hh _ _ _ _ _ =>
          split
          · exact ⟨0, _, rfl⟩
          · next s _ =>
            split
            · obtain ⟨k, r, hk⟩ := (h hh).opens
              exact ⟨k, _, by rw [hk]⟩
            · next m _ =>
              obtain ⟨k, r, hk⟩ := (h hh).up (B := S.B) target ⟨s.metas m, s.data⟩
              exact ⟨k, _, by rw [hk]⟩
        · exact ⟨0, _, rfl⟩
    | down name target =>
      refine ⟨0, ?_⟩
      simp only [run]
      repeat' split
      all_goals exact ⟨_, rfl⟩
  obtain ⟨k, ⟨w', out, e⟩, hk⟩ := key
  exact ⟨w', out, e, k, hk⟩

/-! ### Order -/

theorem Kept.order {log : Makes} {d : HDir} (h : Kept (fun a b => a.1.Before b.1) log d) {a b : String} {v w : Version}
    (ha : Stored d a v) (hb : Stored d b w) (ha' : a ≠ "init" ∧ a ≠ "stage") (hb' : b ≠ "init" ∧ b ≠ "stage")
    (hne : a ≠ b) : OnPath d a b ↔ a.toList < b.toList := by
  rcases h with rfl | ⟨_, vs, st, ms, hi, _, hn, hp⟩
  · cases ha
  have hmem : ∀ {n : String} {v : Version}, Stored d n v → n ≠ "init" ∧ n ≠ "stage" → v ∈ vs ∧ v.name = n := by
    intro n v hv hn
    obtain ⟨h1, h2⟩ := hi.stored_iff.1 hv
    refine ⟨?_, h2⟩
    rcases List.mem_cons.1 h1 with rfl | h1
    · exact absurd h2.symm hn.1
    rcases List.mem_append.1 h1 with h1 | h1
    · exact h1
    · rw [List.mem_singleton] at h1
      subst h1
      exact absurd (h2.symm.trans hi.stage) hn.2
  obtain ⟨hav, rfl⟩ := hmem ha ha'
  obtain ⟨hbw, rfl⟩ := hmem hb hb'
  have hsort : vs.Pairwise fun x y => x.name.toList < y.name.toList := by
    rw [← List.pairwise_map (f := Version.name) (R := fun x y : String => x.toList < y.toList), hn,
      List.pairwise_map]
    exact hp.imp fun h => nameOf_lt h
  -- one comes before the other
  have split : ∀ {x y : Version} {l : List Version}, x ∈ l → y ∈ l → x.name ≠ y.name →
      (∃ A B C, l = A ++ x :: (B ++ y :: C)) ∨ ∃ A B C, l = A ++ y :: (B ++ x :: C) := by
    intro x y l hx hy hxy
    obtain ⟨A, C, rfl⟩ := List.append_of_mem hx
    rcases List.mem_append.1 hy with hy | hy
    · obtain ⟨A', B', rfl⟩ := List.append_of_mem hy
      exact .inr ⟨A', B', C, by simp⟩
    · rcases List.mem_cons.1 hy with rfl | hy
      · exact absurd rfl hxy
      · obtain ⟨B', C', rfl⟩ := List.append_of_mem hy
        exact .inl ⟨A, B', C', rfl⟩
  have path : ∀ {x y : Version} {A B C : List Version}, vs = A ++ x :: (B ++ y :: C) →
      OnPath d x.name y.name ∧ x.name.toList < y.name.toList := by
    intro x y A B C e
    refine ⟨?_, ?_⟩
    · have := hi.path (A := Version.newInit :: A) (B := B ++ [y]) (C := C ++ [st]) (u := x) (by rw [e]; simp)
      rw [List.getLast?_append] at this
      exact ⟨_, this⟩
    · rw [e, List.pairwise_append, List.pairwise_cons] at hsort
      exact hsort.2.1.1 y (by simp)
  obtain ⟨rank, hrank⟩ := hi.acyclic
  have hlt : ∀ {x y : String} {l : List String}, VersionPath d x y l → x ≠ y → rank x < rank y := by
    intro x y l hl hxy
    cases hl with
    | here _ => exact absurd rfl hxy
    | later h3 h4 h5 =>
      have h6 := hrank _ _ _ h4 h5
      have h7 := (h3.rank_le hrank).1
      omega
  rcases split hav hbw hne with ⟨A, B, C, e⟩ | ⟨A, B, C, e⟩
  · have := path e
    exact ⟨fun _ => this.2, fun _ => this.1⟩
  · have hp := path e
    constructor
    · rintro ⟨l, hl⟩
      exfalso
      obtain ⟨l', hl'⟩ := hp.1
      have h1 := (hl.rank_le hrank).1
      have h2 := hlt hl' (Ne.symm hne)
      omega
    · intro h
      exact absurd h (List.lt_asymm hp.2)

end Prog
end Podo
