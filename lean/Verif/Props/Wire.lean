import Verif.Spec.Wire
import Verif.Spec.Minded
import Verif.Proofs.Wire
import Verif.Proofs.UpConc
import Verif.Proofs.Stderr
import Verif.Props.Wild
import Verif.Props.Pipe
/-!
# C102: a connection to the server that is lost
-/
namespace Podo
namespace Pg
variable {σ : Type} {B : Behaviour σ}

theorem up_still {fuel : Nat} {d : HDir} {target : Option String} {db db' : DB σ}
    (h : up { B with exec := fun _ _ => none, commits := fun _ => false } fuel d target db = some (db', .ok)) :
    up B fuel d target db = some (db', .ok) := by
  rcases up_cases h with ⟨_, hc⟩ | ⟨opened, t, hopen, ht, c, to, l, hcur, hto, hl, hc⟩
  · cases hc
  · have ht' : ensureInitialized B db = (.table t, true) := ht
    rcases hc with ⟨rfl, rfl, _⟩ | ⟨_, t', s, o', _, ⟨_, hc, _⟩ | ⟨ho, _⟩⟩
    · unfold up
      rw [hopen]
      simp only
      rw [ht']
      simp only [hcur, hto, hl, rollback_self ht']
    · cases hc
    · exact absurd rfl ho

theorem down_named_again {db db' : DB σ} (hr : ReachAny B db) {n : String} (h : down B (some n) db = (db', .ok)) :
    down B (some n) db' = (db', .ok) := by
  by_cases hm : db'.metaSchema = .absent
  · have e : db' = db := by
      rcases down_cases B (some n) db with ⟨hu, _⟩ | ⟨t, _, _, cur, l, t', s, _, _, _, _, e⟩
      · rw [h] at hu
        have h1 := hu.data
        have h2 := hu.absent
        obtain ⟨m₁, s₁⟩ := db
        obtain ⟨m₂, s₂⟩ := db'
        simp only at h1 h2 hm
        subst hm
        subst h1
        simp only [true_iff] at h2
        rw [h2]
      · rw [h] at e
        simp only at e
        rw [e] at hm
        cases hm
    rw [e] at h ⊢
    exact h
  · obtain ⟨pre, v, post, _, rfl, _, ha⟩ := C33_down_any_files hr h
    have hr' : ReachAny B db' := by
      have := ReachAny.down (some v.name) hr
      rwa [h] at this
    exact down_here_any hr' hm ha

end Pg

namespace Prog
open Proj

variable {σ : Type} {S : Setting σ}

theorem runOver_up {c : Wire} {fuel : Nat} {w : World σ} {cwd : Proj.Path} {name : String} {q₀ q : Profile}
    (hq₀ : ProfileAt S.env w.fs cwd "database" q₀) (hq : ProfileAt S.env w.fs cwd name q)
    (hi : S.Reads q.metadataSchema) (target : Option String) {s : Server σ} (hs : w.servers q.databaseUrl = some s) :
    runOver S c fuel w cwd (.up name target) =
      (Pg.upOver S.B c.arrived fuel c.good (w.fs.history q₀.history) target (s.db q.metadataSchema)).map
        fun r => (putServer w q.databaseUrl q.metadataSchema s r.1, pgEnding r.2) := by
  obtain ⟨p, hp, h0, h⟩ := profileAt_default hq₀ hq
  obtain ⟨h1, _, _, _⟩ := profile_dirs h0
  obtain ⟨_, _, h2, h3⟩ := profile_dirs h
  change p.historyDir DEFAULT_PROFILE = _ at h1
  simp only [runOver, hp, h1, h2, h3, hs, Server.db, openMeta_self hi]
  cases Pg.upOver S.B c.arrived fuel c.good (w.fs.history q₀.history) target ⟨s.metas q.metadataSchema, s.data⟩ <;> rfl

theorem runOver_down {c : Wire} {fuel : Nat} {w : World σ} {cwd : Proj.Path} {name : String} {q : Profile}
    (hq : ProfileAt S.env w.fs cwd name q) (hi : S.Reads q.metadataSchema) (target : Option String)
    {s : Server σ} (hs : w.servers q.databaseUrl = some s) :
    runOver S c fuel w cwd (.down name target) =
      some (putServer w q.databaseUrl q.metadataSchema s
          (Pg.downOver S.B c.arrived c.good target (s.db q.metadataSchema)).1,
        pgEnding (Pg.downOver S.B c.arrived c.good target (s.db q.metadataSchema)).2) := by
  obtain ⟨p, hp, h⟩ := hq
  obtain ⟨_, _, h2, h3⟩ := profile_dirs h
  simp only [runOver, hp, h2, h3, hs, Server.db, openMeta_self hi]

theorem putServer_twice {w : World σ} {url m : String} {s : Server σ} (db db' : Pg.DB σ) :
    ∃ s', (putServer w url m s db).servers url = some s' ∧ s'.db m = db ∧
      putServer (putServer w url m s db) url m s' db' = putServer w url m s db' := by
  refine ⟨⟨update s.metas m db.metaSchema, db.data⟩, ?_, ?_, ?_⟩
  · simp [putServer, update]
  · simp [Server.db, update]
  · simp only [putServer]
    congr 1
    · funext u
      simp only [update]
      split
      · congr 1
        congr 1
        funext x
        simp only [update]
        split <;> rfl
      · rfl

/-- C102.  Wherever the connection is lost, and whatever has arrived: the command ends as it would have; or it does
not report success, no file has changed and no user of the servers sees a difference; or it reports an error, and
everything has been done — the last only when the commit has arrived and its answer has not. -/
theorem C102_all_or_nothing {c : Wire} {w w' : World σ} {cwd : Proj.Path} {a : Args} {e : Ending}
    (h : EndsOver S c w cwd a w' e) :
    (∃ out, Ends S w cwd a w' out e) ∨
    (e ≠ .success ∧ w'.fs = w.fs ∧ SameServers w w') ∨
    (e = .error ∧ c.arrived = true ∧ ∃ out, Ends S w cwd a w' out .success) := by
  obtain ⟨fuel, h⟩ := h
  rcases runOver_cases h with ⟨out, h⟩ | ⟨he, _, h⟩ | ⟨he, _, ha, out, h⟩
  · exact .inl ⟨out, fuel, h⟩
  · refine .inr (.inl ⟨he, ?_⟩)
    rcases h with rfl | ⟨url, m, s, db, hs, rfl, ⟨t, rfl⟩, _⟩
    · exact ⟨rfl, sameServers_refl _ rfl⟩
    · exact ⟨rfl, putServer_same hs (Pg.rollback_unchanged _ _)⟩
  · exact .inr (.inr ⟨he, ha, out, fuel, h⟩)

/-- C102, success: when a command reports success on a connection that is lost at some time, it has done what it
does on a good one. -/
theorem C102_success {c : Wire} {w w' : World σ} {cwd : Proj.Path} {a : Args}
    (h : EndsOver S c w cwd a w' .success) : ∃ out, Ends S w cwd a w' out .success := by
  rcases C102_all_or_nothing h with h | ⟨he, _⟩ | ⟨he, _⟩
  · exact h
  · exact absurd rfl he
  · cases he

/-- C102, a good connection: the command ends as specified when the connection holds long enough. -/
theorem C102_long_enough {w w' : World σ} {cwd : Proj.Path} {a : Args} {out : List String} {e : Ending}
    (h : Ends S w cwd a w' out e) (arrived : Bool) : ∃ n, ∀ k, n ≤ k → EndsOver S ⟨k, arrived⟩ w cwd a w' e := by
  obtain ⟨fuel, h⟩ := h
  obtain ⟨⟨n, hn⟩, _⟩ := runOver_enough arrived h
  exact ⟨n, fun k hk => ⟨fuel, hn k hk⟩⟩

/-- C102, other commands: nothing but `up` and `down` depends on how long the connection holds. -/
theorem C102_others {c : Wire} {w w' : World σ} {cwd : Proj.Path} {a : Args} (ha : ¬ Migrates a) {e : Ending} :
    EndsOver S c w cwd a w' e ↔ ∃ out, Ends S w cwd a w' out e := by
  constructor
  · rintro ⟨fuel, h⟩
    rcases runOver_cases h with ⟨out, h⟩ | ⟨_, hm, _⟩ | ⟨_, hm, _⟩
    · exact ⟨out, fuel, h⟩
    · exact absurd hm ha
    · exact absurd hm ha
  · rintro ⟨out, fuel, h⟩
    exact ⟨fuel, by rw [others_over ha, h]; rfl⟩

/-- C102 fails where it says that an error means that nothing has been done: every `up` and every `down` that
succeeds and changes something reports an error, on some connection, although it has done it all. -/
theorem C102_unheard_false {w w' : World σ} {cwd : Proj.Path} {a : Args} (ha : Migrates a) {out : List String}
    (h : Ends S w cwd a w' out .success) (hne : w' ≠ w) : ∃ c, EndsOver S c w cwd a w' .error := by
  obtain ⟨fuel, h⟩ := h
  obtain ⟨_, hk⟩ := runOver_enough true h
  obtain ⟨k, hk⟩ := hk rfl ha hne
  exact ⟨_, fuel, hk⟩

/-- C102, whatever happens to the files: lost connections are among what `C97` is about. -/
theorem C102_befalls {c : Wire} {w w' : World σ} {cwd : Proj.Path} {a : Args} {e : Ending}
    (h : EndsOver S c w cwd a w' e) : Befalls S.B w w' := by
  obtain ⟨fuel, h⟩ := h
  rcases runOver_cases h with ⟨out, h⟩ | ⟨_, _, h⟩ | ⟨_, _, _, out, h⟩
  · exact .command (away := allThere) rfl ⟨fuel, h⟩
  · rcases h with rfl | ⟨url, m, s, db, hs, rfl, _, ⟨_, _, _, _, hd⟩ | ⟨_, _, _, hd, _⟩⟩
    · exact .files w'.fs
    · exact .upKilled hs hd
    · exact .downKilled hs hd
  · exact .command (away := allThere) rfl ⟨fuel, h⟩

/-- C102, along a life: and among what C91 to C95 are about. -/
theorem C102_life {ok : Makes → LocalTime × String → Prop} {log : Makes} {c : Wire} {w w' : World σ}
    {cwd : Proj.Path} {a : Args} {e : Ending} {t : LocalTime} (hw : Life S.B ok log w) (ht : S.now = t.text)
    (ha : Allowed ok S w cwd log t a) (h : EndsOver S c w cwd a w' e) : Life S.B ok (noted t log a) w' := by
  have key : Happens S.B ok log w (noted t log a) w' := by
    obtain ⟨fuel, h⟩ := h
    rcases runOver_cases h with ⟨out, h⟩ | ⟨_, hm, h⟩ | ⟨_, _, _, out, h⟩
    · exact .command (away := allThere) rfl ht ha ⟨fuel, h⟩
    · have hl : noted t log a = log := by obtain ⟨n, t, rfl | rfl⟩ := hm <;> rfl
      rw [hl]
      rcases h with rfl | ⟨url, m, s, db, hs, rfl, ⟨r, hr⟩, ⟨name, target, p, rfl, hd⟩ | ⟨name, target, rfl, _, hd⟩⟩
      · exact .edit rfl fun _ => .refl _
      · exact .killed hs hd
      · rcases hd with rfl | ⟨out, e', hd⟩
        · rw [putServer_self hs]; exact .edit rfl fun _ => .refl _
        · exact .command (away := allThere) rfl ht ha ⟨fuel, hd⟩
    · exact .command (away := allThere) rfl ht ha ⟨fuel, h⟩
  obtain ⟨w₀, hu, hg⟩ := hw
  exact ⟨w₀, hu, .on hg key⟩

/-- C102, `up` again: when the connection is lost in an `up` that would have succeeded, the same `up` on a good
connection succeeds and leaves what the first would have left, the data and the versions recorded — provided that
the versions can still be numbered. -/
theorem C102_up_again {w w₁ w' : World σ} {cwd p : Proj.Path} {name url m : String} {target : Option String}
    (hf : UpFor S w cwd name p url m) (hd : NamedAfterVersion (w.fs.history p)) {s s₁ s' : Server σ}
    (hs : w.servers url = some s) (hr : Pg.Reach S.B (s.db m)) {out : List String} (hu : Ends S w cwd (.up name target) w₁ out .success)
    (hs₁ : w₁.servers url = some s₁) {c : Wire} {e : Ending} (hl : EndsOver S c w cwd (.up name target) w' e)
    (hs' : w'.servers url = some s')
    (hroom : ∀ t, s'.metas m = .table t → t.next + (s₁.db m).applied.length ≤ 2147483648) :
    ∃ w₂ out₂ s₂, Ends S w' cwd (.up name target) w₂ out₂ .success ∧ w₂.servers url = some s₂ ∧
      s₂.data = s₁.data ∧ (s₂.db m).applied = (s₁.db m).applied ∧ w₂.fs = w₁.fs := by
  obtain ⟨hi, q₀, q, hq₀, hq, rfl, rfl, rfl⟩ := hf
  obtain ⟨f, hu⟩ := hu
  obtain ⟨g, hl⟩ := hl
  rw [run_up hq₀ hq hi target hs, Option.map_eq_some_iff] at hu
  obtain ⟨⟨db₁, o₁⟩, hu, e₁⟩ := hu
  injection e₁ with e₁ e₂
  injection e₂ with _ e₂
  have e₂ := pgEnding_success.1 e₂
  simp only at e₁ e₂
  subst e₁ e₂
  rw [runOver_up hq₀ hq hi target hs, Option.map_eq_some_iff] at hl
  obtain ⟨⟨db', o'⟩, hl, e₃⟩ := hl
  injection e₃ with e₃ e₄
  simp only at e₃ e₄
  subst e₃
  obtain ⟨t₁, ht₁, hd₁, _⟩ := putServer_twice (w := w) (url := q.databaseUrl) (m := q.metadataSchema) (s := s) db₁ db₁
  rw [ht₁] at hs₁
  have hs₁ := Option.some.inj hs₁
  subst hs₁
  have hd₁' : t₁.data = db₁.data := by rw [← hd₁]; rfl
  have key : ∃ db₂, Pg.up S.B f (w.fs.history q₀.history) target db' = some (db₂, .ok) ∧ db₂.data = db₁.data ∧
      db₂.applied = db₁.applied := by
    have hdone : ∀ {o}, Pg.up S.B g (w.fs.history q₀.history) target (s.db q.metadataSchema) = some (db', o) →
        ∃ db₂, Pg.up S.B f (w.fs.history q₀.history) target db' = some (db₂, .ok) ∧ db₂.data = db₁.data ∧
          db₂.applied = db₁.applied := by
      intro o hg
      have h1 := UConc.up_mono (Nat.le_max_left f g) hu
      have h2 := UConc.up_mono (Nat.le_max_right f g) hg
      rw [h1] at h2
      cases h2
      exact ⟨db₁, Pg.up_still (C32_up_idempotent_partial hr hd hu), rfl, rfl⟩
    rcases Pg.upOver_cases hl with hc | ⟨_, _, t, rfl⟩ | ⟨_, _, hc⟩
    · exact hdone hc
    · obtain ⟨db₂, h1, h2, h3, _⟩ := Pg.up_renumbered t hu (by
        obtain ⟨t', ht', hdt', _⟩ := putServer_twice (w := w) (url := q.databaseUrl) (m := q.metadataSchema) (s := s)
          ((s.db q.metadataSchema).rollback t) db₁
        rw [ht'] at hs'
        have hs' := Option.some.inj hs'
        subst hs'
        intro u hu
        rw [← hdt'] at hu
        rw [← hd₁]
        exact hroom u hu)
      exact ⟨db₂, h1, h2, h3⟩
    · exact hdone hc
  obtain ⟨db₂, h₂, hd₂, ha₂⟩ := key
  obtain ⟨t', ht', hdt', hp'⟩ := putServer_twice (w := w) (url := q.databaseUrl) (m := q.metadataSchema) (s := s) db' db₂
  obtain ⟨t₂, ht₂, hdt₂, _⟩ := putServer_twice (w := w) (url := q.databaseUrl) (m := q.metadataSchema) (s := s) db₂ db₂
  have hr := run_up (S := S) (fuel := f) (w := putServer w q.databaseUrl q.metadataSchema s db') (cwd := cwd) hq₀ hq hi
    target ht'
  rw [hdt'] at hr
  rw [show (putServer w q.databaseUrl q.metadataSchema s db').fs = w.fs from rfl, h₂] at hr
  simp only [Option.map_some, hp'] at hr
  refine ⟨_, _, t₂, ⟨f, hr⟩, ht₂, ?_, ?_, rfl⟩
  · rw [hd₁', ← hd₂, ← hdt₂]; rfl
  · rw [hdt₂, hd₁]; exact ha₂

/-- C102, `down` to a version again: when the connection is lost in a `down` to a version that would have succeeded,
the same `down` on a good connection succeeds and leaves exactly what the first would have left. -/
theorem C102_down_to_again {w w₁ w' : World σ} (h : WildLife S.B w) {cwd : Proj.Path} {name url m n : String}
    (hf : DownFor S w cwd name url m) {s : Server σ} (hs : w.servers url = some s) {out : List String}
    (hu : Ends S w cwd (.down name (some n)) w₁ out .success) {c : Wire} {e : Ending}
    (hl : EndsOver S c w cwd (.down name (some n)) w' e) :
    ∃ out', Ends S w' cwd (.down name (some n)) w₁ out' .success := by
  have hr := h.reach url s hs m
  obtain ⟨hi, q, hq, rfl, rfl⟩ := hf
  obtain ⟨f, hu⟩ := hu
  obtain ⟨g, hl⟩ := hl
  rw [run_down hq hi (some n) hs] at hu
  injection hu with hu
  injection hu with h1 h2
  injection h2 with _ h2
  have h2 := pgEnding_success.1 h2
  subst h1
  rw [runOver_down hq hi (some n) hs] at hl
  injection hl with hl
  injection hl with h3 _
  subst h3
  rcases ho : Pg.downOver S.B c.arrived c.good (some n) (s.db q.metadataSchema) with ⟨db', o'⟩
  rcases hd : Pg.down S.B (some n) (s.db q.metadataSchema) with ⟨db₁, o₁⟩
  rw [hd] at h2
  simp only at h2 ⊢
  subst h2
  have key : Pg.down S.B (some n) db' = (db₁, .ok) := by
    have hdone : db' = db₁ → Pg.down S.B (some n) db' = (db₁, .ok) := by
      rintro rfl; exact Pg.down_named_again hr hd
    rcases Pg.downOver_cases ho with hc | ⟨_, hc, _⟩ | ⟨_, _, hc⟩
    · rw [hd] at hc; cases hc; exact hdone rfl
    · rcases Pg.downDies_cases hc with rfl | hc
      · exact hd
      · rw [hd] at hc; exact hdone hc
    · rw [hd] at hc; cases hc; exact hdone rfl
  obtain ⟨t', ht', hdt', hp'⟩ := putServer_twice (w := w) (url := q.databaseUrl) (m := q.metadataSchema) (s := s) db' db₁
  have hr := run_down (S := S) (fuel := f) (w := putServer w q.databaseUrl q.metadataSchema s db') (cwd := cwd) hq hi
    (some n) ht'
  rw [hdt', key] at hr
  simp only [hp'] at hr
  exact ⟨_, f, hr⟩

/-- C102 fails where it says that the command can be repeated: when the answer to the commit of a `down` without a
version is lost, `down` once more takes back a second version. -/
theorem C102_down_again_false {w w₁ w₂ : World σ} {cwd : Proj.Path} {name url m : String}
    (hf : DownFor S w cwd name url m) {s s₂ : Server σ} (hs : w.servers url = some s) (hr : Pg.Reach S.B (s.db m))
    {pre : List Version} {u v : Version} (ha : (s.db m).applied = pre ++ [u, v]) (hpre : pre ≠ [])
    {out₁ out₂ : List String} (h₁ : Ends S w cwd (.down name none) w₁ out₁ .success)
    (h₂ : Ends S w₁ cwd (.down name none) w₂ out₂ .success) (hs₂ : w₂.servers url = some s₂) :
    (∃ c, EndsOver S c w cwd (.down name none) w₁ .error) ∧ (s₂.db m).applied = pre := by
  obtain ⟨hi, q, hq, rfl, rfl⟩ := hf
  obtain ⟨f, h₁⟩ := h₁
  have h₁' := h₁
  rw [run_down hq hi none hs] at h₁
  injection h₁ with h₁
  injection h₁ with e₁ e₂
  injection e₂ with _ e₂
  have e₂ := pgEnding_success.1 e₂
  rcases hd : Pg.down S.B none (s.db q.metadataSchema) with ⟨db₁, o₁⟩
  rw [hd] at e₁ e₂
  simp only at e₁ e₂
  subst e₂ e₁
  have ha' : (s.db q.metadataSchema).applied = (pre ++ [u]) ++ [v] := by rw [ha]; simp
  obtain ⟨_, hp₁⟩ := C36_down_one_partial hr ha' (by simp) hd
  have hr₁ : Pg.Reach S.B db₁ := by
    have := Pg.Reach.down none hr
    rwa [hd] at this
  constructor
  · refine C102_unheard_false ⟨name, none, .inr rfl⟩ ⟨f, h₁'⟩ fun e => ?_
    obtain ⟨t, ht, hdt, _⟩ := putServer_twice (w := w) (url := q.databaseUrl) (m := q.metadataSchema) (s := s) db₁ db₁
    rw [e, hs] at ht
    have ht := Option.some.inj ht
    subst ht
    rw [hdt, hp₁] at ha'
    have := congrArg List.length ha'
    simp at this
  · obtain ⟨t, ht, hdt, hpt⟩ := putServer_twice (w := w) (url := q.databaseUrl) (m := q.metadataSchema) (s := s) db₁
      (Pg.down S.B none db₁).1
    obtain ⟨g, h₂⟩ := h₂
    rw [run_down (w := putServer w q.databaseUrl q.metadataSchema s db₁) hq hi none ht, hdt, hpt] at h₂
    injection h₂ with h₂
    injection h₂ with e₃ e₄
    injection e₄ with _ e₄
    have e₄ := pgEnding_success.1 e₄
    subst e₃
    obtain ⟨t₂, ht₂, hdt₂, _⟩ := putServer_twice (w := w) (url := q.databaseUrl) (m := q.metadataSchema) (s := s)
      (Pg.down S.B none db₁).1 db₁
    rw [ht₂] at hs₂
    have hs₂ := Option.some.inj hs₂
    subst hs₂
    rw [hdt₂]
    exact (C36_down_one_partial hr₁ hp₁ hpre (Prod.ext rfl e₄)).2

theorem pgWorld_profile (db : Pg.DB (List String)) :
    ProfileAt pgSetting.env (pgWorld db).fs ["w"] "database" progProfile := progFs_profile _ _

/-- The server of the examples. -/
def pgServer (db : Pg.DB (List String)) : Server (List String) :=
  ⟨fun m => if m = "podo_meta" then db.metaSchema else .absent, db.data⟩

/-- The examples after a command that leaves `db'`. -/
def pgAfter (db db' : Pg.DB (List String)) : World (List String) :=
  putServer (pgWorld db) progProfile.databaseUrl "podo_meta" (pgServer db) db'

theorem pg_up_over {k : Nat} {arrived : Bool} {db db' : Pg.DB (List String)} {o : Pg.Outcome}
    (h : Pg.upOver demoB arrived 9 k demoDir (some "stage") db = some (db', o)) :
    EndsOver pgSetting ⟨k, arrived⟩ (pgWorld db) ["w"] (.up "database" (some "stage")) (pgAfter db db') (pgEnding o) := by
  have e := runOver_up (S := pgSetting) (c := ⟨k, arrived⟩) (fuel := 9) (w := pgWorld db) (q₀ := progProfile)
    (q := progProfile) (pgWorld_profile db) (pgWorld_profile db) podo_meta_reads (some "stage") (s := pgServer db) rfl
  refine ⟨9, e.trans ?_⟩
  have h' : Pg.upOver pgSetting.B arrived 9 k ((pgWorld db).fs.history progProfile.history) (some "stage")
      ((pgServer db).db progProfile.metadataSchema) = some (db', o) := h
  rw [h']
  rfl

/-- `podo up --version stage` on a new database takes twelve exchanges.  Without the ninth it panics, and nothing is
done; without the twelfth, the answer to the commit, it reports an error, and all is done or nothing is; and with all
twelve it succeeds. -/
example :
    EndsOver pgSetting ⟨8, true⟩ (pgWorld demoNew) ["w"] (.up "database" (some "stage")) (pgAfter demoNew demoNew) .panic ∧
    EndsOver pgSetting ⟨11, true⟩ (pgWorld demoNew) ["w"] (.up "database" (some "stage")) (pgAfter demoNew demoUp) .error ∧
    EndsOver pgSetting ⟨11, false⟩ (pgWorld demoNew) ["w"] (.up "database" (some "stage")) (pgAfter demoNew demoNew) .error ∧
    EndsOver pgSetting ⟨12, false⟩ (pgWorld demoNew) ["w"] (.up "database" (some "stage")) (pgAfter demoNew demoUp) .success :=
  ⟨pg_up_over (o := .panic) rfl, pg_up_over (o := .error) rfl, pg_up_over (o := .error) rfl, pg_up_over (o := .ok) rfl⟩

theorem pg_up_ends : Ends pgSetting (pgWorld demoNew) ["w"] (.up "database" (some "stage")) (pgAfter demoNew demoUp)
    ["On database version: init", "Applying upward migrations to stage:",
      "  Applying version 20200101000000-first",
      "    CREATE TABLE \"public\".\"t\" (\"id\" int8);", "  Applying version stage",
      "    CREATE VIEW \"public\".\"v\" AS SELECT 1"] .success :=
  ⟨9, run_up (S := pgSetting) (pgWorld_profile demoNew) (pgWorld_profile demoNew) podo_meta_reads (some "stage") rfl⟩

/-- All that `C102_up_again` asks for, where the answer to the commit is lost and where the commit itself is. -/
example : ∀ arrived, ∃ w' e w₂ out₂ s₂,
    EndsOver pgSetting ⟨11, arrived⟩ (pgWorld demoNew) ["w"] (.up "database" (some "stage")) w' e ∧ e = .error ∧
    Ends pgSetting w' ["w"] (.up "database" (some "stage")) w₂ out₂ .success ∧
    w₂.servers progProfile.databaseUrl = some s₂ ∧ s₂.data = demoUp.data ∧ (s₂.db "podo_meta").applied = demoUp.applied := by
  have hf : UpFor pgSetting (pgWorld demoNew) ["w"] "database" progProfile.history progProfile.databaseUrl "podo_meta" :=
    ⟨podo_meta_reads, _, _, pgWorld_profile demoNew, pgWorld_profile demoNew, rfl, rfl, rfl⟩
  have key : ∀ (arrived : Bool) (db' : Pg.DB (List String)),
      Pg.upOver demoB arrived 9 11 demoDir (some "stage") demoNew = some (db', .error) →
      (∀ t, db'.metaSchema = .table t → t.next + demoUp.applied.length ≤ 2147483648) →
      ∃ w' e w₂ out₂ s₂,
        EndsOver pgSetting ⟨11, arrived⟩ (pgWorld demoNew) ["w"] (.up "database" (some "stage")) w' e ∧ e = .error ∧
        Ends pgSetting w' ["w"] (.up "database" (some "stage")) w₂ out₂ .success ∧
        w₂.servers progProfile.databaseUrl = some s₂ ∧ s₂.data = demoUp.data ∧
        (s₂.db "podo_meta").applied = demoUp.applied := by
    intro arrived db' h hroom
    have hl := pg_up_over h
    obtain ⟨w₂, out₂, s₂, h1, h2, h3, h4, _⟩ := C102_up_again (S := pgSetting) (w := pgWorld demoNew)
      (w₁ := pgAfter demoNew demoUp) (w' := pgAfter demoNew db') hf demoDir_reachable.namedAfterVersion
      (s := pgServer demoNew) rfl (.new []) pg_up_ends
      (s₁ := ⟨update (pgServer demoNew).metas "podo_meta" demoUp.metaSchema, demoUp.data⟩) rfl hl
      (s' := ⟨update (pgServer demoNew).metas "podo_meta" db'.metaSchema, db'.data⟩) rfl
      (fun t ht => hroom t ht)
    exact ⟨_, _, w₂, out₂, s₂, hl, rfl, h1, h2, h3, h4⟩
  intro arrived
  cases arrived with
  | true => exact key true demoUp rfl (by intro t ht; cases ht; decide)
  | false => exact key false demoNew rfl (by intro t ht; cases ht)

/-- A machine where `podo up --version stage` has brought the database of the examples up. -/
theorem pg_wild : WildLife demoB (pgAfter demoNew demoUp) := by
  refine .on (.new (w := pgWorld demoNew) fun url s hs m => ?_) 
    (.command (w := pgWorld demoNew) (S := pgSetting) (away := allThere) rfl pg_up_ends)
  cases hs
  simp only [demoNew, ite_self]

theorem pgAfter_profile (db db' : Pg.DB (List String)) :
    ProfileAt pgSetting.env (pgAfter db db').fs ["w"] "database" progProfile := progFs_profile _ _

/-- The server after a command that leaves `db'`. -/
def pgServerAfter (db db' : Pg.DB (List String)) : Server (List String) :=
  ⟨update (pgServer db).metas "podo_meta" db'.metaSchema, db'.data⟩

theorem pg_down_ends {db db₁ db₂ : Pg.DB (List String)} {target : Option String}
    (h : Pg.down demoB target db₁ = (db₂, .ok)) :
    ∃ out, Ends pgSetting (pgAfter db db₁) ["w"] (.down "database" target) (pgAfter db db₂) out .success := by
  have e := run_down (fuel := 0) (S := pgSetting) (w := pgAfter db db₁) (pgAfter_profile db db₁) podo_meta_reads target
    (s := pgServerAfter db db₁) rfl
  have h' : Pg.down pgSetting.B target ((pgServerAfter db db₁).db progProfile.metadataSchema) = (db₂, .ok) := by
    rw [← h]; congr 1
  rw [h'] at e
  obtain ⟨s', h1, _, h3⟩ := putServer_twice (w := pgWorld db) (url := progProfile.databaseUrl) (m := "podo_meta")
    (s := pgServer db) db₁ db₂
  have hs : s' = pgServerAfter db db₁ := by
    have : (pgAfter db db₁).servers progProfile.databaseUrl = some s' := h1
    exact (Option.some.inj this).symm
  subst hs
  exact ⟨_, 0, e.trans (congrArg (fun x => some (x, _, Ending.success)) h3)⟩

theorem pg_downFor (db db' : Pg.DB (List String)) :
    DownFor pgSetting (pgAfter db db') ["w"] "database" progProfile.databaseUrl "podo_meta" :=
  ⟨podo_meta_reads, _, pgAfter_profile db db', rfl, rfl⟩

/-- All that `C102_down_again_false` asks for: the database is on the stage, `podo down` reports an error and has
taken it back, and `podo down` once more leaves nothing but `init`. -/
example : ∃ c w₁ w₂ out s₂,
    EndsOver pgSetting c (pgAfter demoNew demoUp) ["w"] (.down "database" none) w₁ .error ∧
    Ends pgSetting w₁ ["w"] (.down "database" none) w₂ out .success ∧
    w₂.servers progProfile.databaseUrl = some s₂ ∧ (s₂.db "podo_meta").applied = [Version.newInit] := by
  have o₁ : (Pg.down demoB none demoUp).2 = .ok :=
    (C36_down_one_succeeds (pre := [Version.newInit, demoMade]) (v := demoStage) demoUp_reach rfl
      (by simp)).2 ⟨_, Pg.script_iff.2 rfl, rfl⟩
  obtain ⟨c₁, a₁⟩ := C36_down_one_partial (pre := [Version.newInit, demoMade]) (v := demoStage) demoUp_reach rfl
    (by simp) (Prod.ext rfl o₁)
  have d₁ : (Pg.down demoB none demoUp).1.data = demoMade.up := by
    have := Pg.script_iff.1 c₁
    rw [show Pg.execAll demoB demoUp.data demoStage.down = some demoMade.up from rfl] at this
    exact (Option.some.inj this).symm
  have r₁ : Pg.Reach demoB (Pg.down demoB none demoUp).1 := .down none demoUp_reach
  have o₂ : (Pg.down demoB none (Pg.down demoB none demoUp).1).2 = .ok :=
    (C36_down_one_succeeds (pre := [Version.newInit]) (v := demoMade) r₁ a₁
      (by simp)).2 ⟨[], Pg.script_iff.2 (by rw [d₁]; rfl), rfl⟩
  obtain ⟨out₁, h₁⟩ := pg_down_ends (db := demoNew) (db₁ := demoUp) (Prod.ext rfl o₁)
  obtain ⟨out₂, h₂⟩ := pg_down_ends (db := demoNew) (db₁ := (Pg.down demoB none demoUp).1) (Prod.ext rfl o₂)
  obtain ⟨⟨c, hc⟩, ha⟩ := C102_down_again_false (S := pgSetting) (pg_downFor demoNew demoUp)
    (s := pgServerAfter demoNew demoUp) rfl demoUp_reach (pre := [Version.newInit]) (u := demoMade) (v := demoStage) rfl
    (by simp) h₁ h₂ (s₂ := pgServerAfter demoNew (Pg.down demoB none (Pg.down demoB none demoUp).1).1) rfl
  exact ⟨c, _, _, _, _, hc, h₂, rfl, ha⟩

/-- And for `C102_down_to_again`: `podo down --version init` reports an error and has taken the versions back, and
once more it succeeds and leaves the same. -/
example : ∃ c w₁ out, EndsOver pgSetting c (pgAfter demoNew demoUp) ["w"] (.down "database" (some "init")) w₁ .error ∧
    Ends pgSetting w₁ ["w"] (.down "database" (some "init")) w₁ out .success := by
  have o₁ : (Pg.down demoB (some "init") demoUp).2 = .ok :=
    (C33_down_succeeds (pre := []) (v := Version.newInit) (post := [demoMade, demoStage]) demoUp_reach
      (by simp [demoUp]) rfl (by simp)).2 ⟨_, Pg.script_iff.2 rfl, rfl⟩
  obtain ⟨out₁, h₁⟩ := pg_down_ends (db := demoNew) (db₁ := demoUp) (Prod.ext rfl o₁)
  have hd : (Pg.down demoB (some "init") demoUp).1.data = [] := by
    obtain ⟨pre, v, post, h1, h2, h3, _⟩ := C33_down_any_files (n := "init") demoUp_reach.any (Prod.ext rfl o₁)
    have h1' : [Version.newInit, demoMade, demoStage] = pre ++ v :: post := h1
    have hpost : post = [demoMade, demoStage] := by
      match pre, h1' with
      | [], h => simp only [List.nil_append, List.cons.injEq] at h; exact h.2.symm
      | [_], h =>
        simp only [List.cons_append, List.nil_append, List.cons.injEq] at h
        rw [← h.2.1] at h2; exact absurd h2 (by decide)
      | [_, _], h =>
        simp only [List.cons_append, List.nil_append, List.cons.injEq] at h
        rw [← h.2.2.1] at h2; exact absurd h2 (by decide)
      | _ :: _ :: _ :: l, h =>
        have := congrArg List.length h
        simp at this
    subst hpost
    have h3 := Pg.script_iff.1 h3
    rw [show Pg.execAll demoB demoUp.data ([demoMade, demoStage].reverse.flatMap Version.down) = some [] from rfl] at h3
    exact (Option.some.inj h3).symm
  obtain ⟨c, hc⟩ := C102_unheard_false ⟨_, _, .inr rfl⟩ h₁ (fun e => by
    have e' : (Pg.down demoB (some "init") demoUp).1.data = demoUp.data :=
      congrArg (fun w : World (List String) => ((w.servers progProfile.databaseUrl).map Server.data).getD []) e
    rw [hd] at e'; cases e')
  obtain ⟨out', h⟩ := C102_down_to_again (S := pgSetting) pg_wild (pg_downFor demoNew demoUp)
    (s := pgServerAfter demoNew demoUp) rfl h₁ hc
  exact ⟨c, _, out', hc, h⟩

/-- A life in which `podo up` loses the connection while it brings the database up. -/
example : ∃ c w' e, EndsOver (lifeSetting tenPast) c
      (lifeWorld true (lifeTwo "20201025_023000-auto" "20201025_021000-auto") []) ["w"] (.up "database" none) w' e ∧
    e = .panic ∧ Life progSetting.B Distinct [(tenPast, "auto"), (halfPast, "auto")] w' := by
  have e := runOver_up (S := lifeSetting tenPast) (c := ⟨8, true⟩) (fuel := 9)
    (w := lifeWorld true (lifeTwo "20201025_023000-auto" "20201025_021000-auto") []) (cwd := ["w"]) (name := "database")
    (lifeWorld_profile tenPast _ _) (lifeWorld_profile tenPast _ _) podo_meta_reads none
    (s := ⟨fun _ => .absent, []⟩) rfl
  rw [lifeWorld_history] at e
  have hu : Pg.upOver (lifeSetting tenPast).B true 9 8 (lifeTwo "20201025_023000-auto" "20201025_021000-auto") none
      (Server.db ⟨fun _ => .absent, []⟩ progProfile.metadataSchema) = some (⟨.absent, []⟩, .panic) := rfl
  rw [hu] at e
  exact ⟨_, _, _, ⟨9, e⟩, rfl, C102_life (S := lifeSetting tenPast) (a := .up "database" none) life_back rfl trivial ⟨9, e⟩⟩

end Prog
end Podo
