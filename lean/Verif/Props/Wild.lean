import Verif.Spec.Wild
import Verif.Props.Renamed
import Verif.Props.Return
/-
C93 and C97: `down` killed, and what remains true of the databases whatever happens to the files.
-/
namespace Podo
namespace Pg
variable {σ : Type} {B : Behaviour σ}

/-- How many numbers were drawn does not change when versions are taken back. -/
theorem DownTo.next {ns : List String} {t t' : VTable} {s : σ} (h : DownTo B ns t s t') : t'.next = t.next := by
  induction h with
  | here => rfl
  | on _ _ hd _ ih =>
    rw [ih]
    unfold VTable.delete at hd
    split at hd
    · cases hd
    · cases hd; rfl

/-- C93, `down`: if the process that runs `down` is killed, at any point, then nothing a user can see has
changed, or everything that was to be taken back is taken back. -/
theorem C93_down_killed {target : Option String} {db db' : DB σ} (h : DownDies B target db db') :
    Unchanged db db' ∨ down B target db = (db', .ok) := by
  cases h with
  | before => exact .inl (.refl _)
  | within _ _ _ _ => exact .inl (rollback_unchanged _ _)
  | after =>
    by_cases ho : (down B target db).2 = .ok
    · exact .inr (Prod.ext rfl ho)
    · exact .inl (C30_down_all_or_nothing B target db ho)

/-- Taking back two versions, killed after the first. -/
example : ∃ t', DownTo demoB ["stage", "20200101000000-first"]
    ⟨[⟨Version.newInit, 1⟩, ⟨demoMade, 2⟩, ⟨demoStage, 3⟩], 4⟩ demoUp.data t' ∧
    t'.rows = [⟨Version.newInit, 1⟩, ⟨demoMade, 2⟩] ∧ demoUp.rollback (.table t') = demoUp :=
  ⟨_, .on (v := demoStage) rfl rfl rfl .here, rfl, rfl⟩

theorem DownDies.reach {target : Option String} {db db' : DB σ} (hr : ReachAny B db) (h : DownDies B target db db') :
    ReachAny B db' := by
  cases h with
  | before => exact hr
  | within he _ _ hd => rw [rollback_next he hd.next]; exact hr
  | after => exact .down target hr

theorem UpDies.reachAny {d : HDir} {target : Option String} {db db' : DB σ} (hr : ReachAny B db)
    (h : UpDies B d target db db') : ReachAny B db' := by
  cases h with
  | before => exact hr
  | @within fuel opened t t' current to versions _ he _ _ _ hup =>
    cases hm : db.metaSchema with
    | absent =>
      have : db.rollback (.table t') = db := by
        obtain ⟨m, s⟩ := db
        simp only at hm
        subst hm
        rfl
      rw [this]; exact hr
    | noTable => exact absurd hm hr.hasTable
    | table t₀ =>
      have ht : t = t₀ := by
        unfold ensureInitialized at he
        rw [hm] at he
        simp only [Prod.mk.injEq, Meta.table.injEq, and_true] at he
        exact he.symm
      subst ht
      have : db.rollback (.table t') = ⟨.table { t with next := t'.next }, db.data⟩ := by
        unfold DB.rollback
        rw [hm]
        rfl
      rw [this]
      exact .used hr hm hup.next
  | after h => exact .up hr h

theorem down_here_any {db : DB σ} (hr : ReachAny B db) (hw : db.metaSchema ≠ .absent) {pre : List Version}
    {v : Version} (ha : db.applied = pre ++ [v]) : down B (some v.name) db = (db, .ok) := by
  obtain ⟨t, htab⟩ : ∃ t, db.metaSchema = .table t := by
    cases hm : db.metaSchema with
    | absent => exact absurd hm hw
    | noTable => exact absurd hm hr.hasTable
    | table t => exact ⟨t, rfl⟩
  have ht : ensureInitialized B db = (.table t, true) := by unfold ensureInitialized; rw [htab]
  obtain ⟨hch, happ⟩ := ensure_sound hr.fair ht
  obtain ⟨a, r, b, hrows, h1, h2, h3⟩ := applied_split happ ha
  subst h2
  have hb : b = [] := List.map_eq_nil_iff.1 h3
  rw [down_to_sound ht hch hrows, if_pos hb]

theorem applied_names_any {db : DB σ} (hr : ReachAny B db) : (db.applied.map Version.name).Nodup := by
  unfold DB.applied
  split
  · simp
  · simp
  · next t ht => rw [List.map_map]; exact (hr.fair t ht).names

theorem applied_unique_any {db : DB σ} (hr : ReachAny B db) {pre pre' post post' : List Version} {v v' : Version}
    (h : db.applied = pre ++ v :: post) (h' : db.applied = pre' ++ v' :: post') (hn : v'.name = v.name) :
    pre' = pre ∧ v' = v ∧ post' = post := by
  obtain rfl : post = post' := TakesBack.unique (applied_names_any hr) (target := some v.name)
    ⟨pre, v, h, .inl rfl⟩ ⟨pre', v', h', .inl (by rw [hn])⟩
  rw [h] at h'
  have := List.append_inj' h' rfl
  simp only [List.cons.injEq, and_true] at this
  exact ⟨this.1.symm, this.2.symm, rfl⟩

end Pg

namespace Prog
open Proj
variable {σ : Type} {B : Pg.Behaviour σ} {url m : String}

/-- Whatever befalls a machine, each version table stays one that `up` and `down` can have written, and is lengthened or
shortened at its end only. -/
theorem befalls_effects {w w' : World σ} (hw : ∀ url s, w.servers url = some s → ∀ m, Pg.ReachAny B (s.db m))
    (h : Befalls B w w') : ∀ url s', w'.servers url = some s' → ∀ m, Pg.ReachAny B (s'.db m) ∧
      ∀ s, w.servers url = some s →
        (s.db m).applied <+: (s'.db m).applied ∨ (s'.db m).applied <+: (s.db m).applied := by
  have same : ∀ (m' : String) (s s' : Server σ), s'.metas m' = s.metas m' → (s'.db m').applied = (s.db m').applied := by
    intro m' s s' he
    unfold Server.db Pg.DB.applied
    dsimp only
    rw [he]
  have put : ∀ {w : World σ} {url m : String} {s : Server σ} {db : Pg.DB σ},
      (∀ url s, w.servers url = some s → ∀ m, Pg.ReachAny B (s.db m)) → w.servers url = some s → Pg.ReachAny B db →
      ((s.db m).applied <+: db.applied ∨ db.applied <+: (s.db m).applied) →
      ∀ u s', (putServer w url m s db).servers u = some s' → ∀ m', Pg.ReachAny B (s'.db m') ∧
        ∀ s₀, w.servers u = some s₀ →
          (s₀.db m').applied <+: (s'.db m').applied ∨ (s'.db m').applied <+: (s₀.db m').applied := by
    intro w url m s db hw hs hdb hpre u s' h m'
    unfold putServer at h
    dsimp only at h
    by_cases hu : u = url
    · subst hu
      rw [update_self] at h
      cases h
      by_cases hm : m' = m
      · subst hm
        unfold Server.db
        dsimp only
        rw [update_self]
        refine ⟨hdb, fun s₀ h₀ => ?_⟩
        rw [hs] at h₀
        cases h₀
        exact hpre
      · refine ⟨?_, fun s₀ h₀ => .inl ?_⟩
        · unfold Server.db
          dsimp only
          rw [update_other _ _ hm]
          exact .elsewhere db.data (hw _ _ hs m')
        · rw [hs] at h₀
          cases h₀
          rw [same m' s ⟨update s.metas m db.metaSchema, db.data⟩ (update_other _ _ hm)]
          exact List.prefix_refl _
    · rw [update_other _ _ hu] at h
      refine ⟨hw _ _ h m', fun s₀ h₀ => .inl ?_⟩
      rw [h] at h₀
      cases h₀
      exact List.prefix_refl _
  cases h with
  | files fs =>
    intro u s' hu m'
    refine ⟨hw u s' hu m', fun s hs => .inl ?_⟩
    rw [show w.servers u = some s' from hu] at hs
    cases hs
    exact List.prefix_refl _
  | database hs =>
    intro u s' hu m'
    rcases hs u s' hu with ⟨s, hsu, he⟩ | ⟨hn, he⟩
    · refine ⟨?_, fun s₀ h₀ => .inl ?_⟩
      · unfold Server.db
        rw [he]
        exact .elsewhere s'.data (hw u s hsu m')
      · rw [hsu] at h₀
        cases h₀
        rw [same m' s s' (by rw [he])]
        exact List.prefix_refl _
    · refine ⟨?_, fun s₀ h₀ => ?_⟩
      · unfold Server.db
        rw [he]
        exact .new s'.data
      · rw [hn] at h₀; cases h₀
  | @command w₁ S cwd a away out e hB hrun =>
    subst hB
    have hsub : ∀ url s, (w.without away).servers url = some s → w.servers url = some s := by
      intro url s hu
      unfold World.without at hu
      dsimp only at hu
      split at hu
      · cases hu
      · exact hu
    have hw' : ∀ url s, (w.without away).servers url = some s → ∀ m, Pg.ReachAny S.B (s.db m) :=
      fun url s hu => hw url s (hsub url s hu)
    have hback : (∀ u s', w₁.servers u = some s' → ∀ m', Pg.ReachAny S.B (s'.db m') ∧
        ∀ s₀, (w.without away).servers u = some s₀ →
          (s₀.db m').applied <+: (s'.db m').applied ∨ (s'.db m').applied <+: (s₀.db m').applied) →
        ∀ u s', (w₁.back w away).servers u = some s' → ∀ m', Pg.ReachAny S.B (s'.db m') ∧
        ∀ s₀, w.servers u = some s₀ →
          (s₀.db m').applied <+: (s'.db m').applied ∨ (s'.db m').applied <+: (s₀.db m').applied := by
      intro h1 u s' hu m'
      unfold World.back at hu
      dsimp only at hu
      by_cases ha : away u = true
      · rw [if_pos ha] at hu
        refine ⟨hw u s' hu m', fun s₀ h₀ => .inl ?_⟩
        rw [hu] at h₀
        cases h₀
        exact List.prefix_refl _
      · rw [if_neg ha] at hu
        refine ⟨(h1 u s' hu m').1, fun s₀ h₀ => (h1 u s' hu m').2 s₀ ?_⟩
        unfold World.without
        dsimp only
        rw [if_neg ha]
        exact h₀
    have stay : ∀ {w₂ : World σ}, w₂.servers = (w.without away).servers →
        ∀ u s', w₂.servers u = some s' → ∀ m', Pg.ReachAny S.B (s'.db m') ∧
        ∀ s₀, (w.without away).servers u = some s₀ →
          (s₀.db m').applied <+: (s'.db m').applied ∨ (s'.db m').applied <+: (s₀.db m').applied := by
      intro w₂ he u s' hu m'
      rw [he] at hu
      refine ⟨hw' u s' hu m', fun s₀ h₀ => .inl ?_⟩
      rw [hu] at h₀
      cases h₀
      exact List.prefix_refl _
    obtain ⟨fuel, hrun⟩ := hrun
    by_cases ha : a = .init
    · subst ha
      exact hback (stay (init_servers hrun).1)
    · rcases run_effects hrun ha with rfl | ⟨p, c, d, o, _, _, rfl⟩ | ⟨url, s, m, p, target, db, o, hs, hup, rfl⟩ |
        ⟨url, s, m, target, hs, rfl⟩
      · exact hback (stay rfl)
      · exact hback (stay rfl)
      · exact hback (put hw' hs (.up (hw' _ _ hs m) hup)
          (.inl ((C35_only_the_top_any_files (hw' _ _ hs m)).1 _ _ _ _ _ hup)))
      · exact hback (put hw' hs (.down target (hw' _ _ hs m))
          (.inr ((C35_only_the_top_any_files (hw' _ _ hs m)).2 target)))
  | @upKilled d url m s target db hs hu =>
    refine put hw hs (hu.reachAny (hw _ _ hs m)) (.inl ?_)
    cases hu with
    | before => exact List.prefix_refl _
    | within => rw [Pg.rollback_applied]; exact List.prefix_refl _
    | after h => exact (C35_only_the_top_any_files (hw _ _ hs m)).1 _ _ _ _ _ h
  | @downKilled url m s target db hs hd =>
    refine put hw hs (hd.reach (hw _ _ hs m)) (.inr ?_)
    cases hd with
    | before => exact List.prefix_refl _
    | within => rw [Pg.rollback_applied]; exact List.prefix_refl _
    | after => exact (C35_only_the_top_any_files (hw _ _ hs m)).2 target

theorem WildLife.reach {w : World σ} (h : WildLife B w) :
    ∀ url s, w.servers url = some s → ∀ m, Pg.ReachAny B (s.db m) := by
  induction h with
  | new h =>
    intro url s hs m
    unfold Server.db
    rw [h url s hs m]
    exact .new _
  | on _ hb ih => exact fun url s hs m => (befalls_effects ih hb url s hs m).1

/-- C97, records, whatever happens to the files: a metadata schema podo has written to has a version table that starts
at init, with no version twice, every predecessor recorded before, in the order of application. -/
theorem C97_records_sound {w : World σ} (h : WildLife B w) {s : Server σ} (hs : w.servers url = some s) (m : String) :
    s.metas m = .absent ∨ ∃ t, s.metas m = .table t ∧ Pg.IsSound t :=
  C35_table_sound_any_files (h.reach url s hs m)

/-- C97, kept, whatever happens to the files: what is recorded only ever grows at the end or is shortened at the end;
no recorded version, with its scripts, is ever altered. -/
theorem C97_records_kept {w w' : World σ} (h : WildLife B w) (hb : Befalls B w w') {s s' : Server σ}
    (hs : w.servers url = some s) (hs' : w'.servers url = some s') (m : String) :
    (s.db m).applied <+: (s'.db m).applied ∨ (s'.db m).applied <+: (s.db m).applied :=
  (befalls_effects h.reach hb url s' hs' m).2 s hs

/-- C97, when, whatever happens to the files: a database can be taken back to any version recorded, `podo down v`
succeeding exactly if the server runs the recorded down scripts of the later versions, newest first, and commits. -/
theorem C97_down_iff_any_files {w : World σ} (h : WildLife B w) {s : Server σ}
    (hs : w.servers url = some s) (hm : s.metas m ≠ .absent) {pre post : List Version} {v : Version}
    (ha : (s.db m).applied = pre ++ v :: post) {S : Setting σ} (hB : S.B = B) {cwd : Proj.Path} {name : String}
    (hf : DownFor S w cwd name url m) :
    (∃ w' out, Ends S w cwd (.down name (some v.name)) w' out .success) ↔
      post = [] ∨ ∃ x, Pg.Script B s.data (post.reverse.flatMap Version.down) x ∧ B.commits x = true := by
  subst hB
  have hr := h.reach url s hs m
  obtain ⟨hi, q, hq, rfl, rfl⟩ := hf
  have key : (∃ w' out, Ends S w cwd (.down name (some v.name)) w' out .success) ↔
      (Pg.down S.B (some v.name) (s.db q.metadataSchema)).2 = .ok := by
    constructor
    · rintro ⟨w', out, fuel, he⟩
      rw [run_down hq hi (some v.name) hs] at he
      injection he with he
      injection he with _ he
      injection he with _ he
      exact pgEnding_success.1 he
    · intro he
      have r := run_down (fuel := 0) hq hi (some v.name) hs
      rw [he] at r
      exact ⟨_, _, 0, r⟩
  rw [key]
  by_cases hp : post = []
  · subst hp
    simp only [true_or, iff_true]
    rw [Pg.down_here_any hr hm ha]
  · rw [C33_down_succeeds_any_files hr hm ha hp]
    simp only [hp, false_or]
    rfl

/-- C97, what, whatever happens to the files: then the later versions are no longer recorded, the others are as they
were, exactly these scripts have run, and no file and nothing else on any server has changed. -/
theorem C97_down_result_any_files {w w' : World σ} (h : WildLife B w) {s : Server σ}
    (hs : w.servers url = some s) {pre post : List Version} {v : Version}
    (ha : (s.db m).applied = pre ++ v :: post) {S : Setting σ} (hB : S.B = B) {cwd : Proj.Path} {name : String}
    (hf : DownFor S w cwd name url m) {out : List String}
    (he : Ends S w cwd (.down name (some v.name)) w' out .success) :
    w'.fs = w.fs ∧ (∀ u, u ≠ url → w'.servers u = w.servers u) ∧
    ∃ s', w'.servers url = some s' ∧ (s'.db m).applied = pre ++ [v] ∧
      Pg.Script B s.data (post.reverse.flatMap Version.down) s'.data ∧ ∀ m', m' ≠ m → s'.metas m' = s.metas m' := by
  subst hB
  have hr := h.reach url s hs m
  obtain ⟨hi, q, hq, rfl, rfl⟩ := hf
  obtain ⟨fuel, he⟩ := he
  rw [run_down hq hi (some v.name) hs] at he
  injection he with he
  injection he with h1 h2
  injection h2 with _ h2
  have h2 := pgEnding_success.1 h2
  subst h1
  obtain ⟨pre', v', post', a, b, c, d⟩ := C33_down_any_files hr (Prod.ext rfl h2)
  obtain ⟨rfl, rfl, rfl⟩ := Pg.applied_unique_any hr ha a b
  have ho := onlyDatabase_put hs (Pg.down S.B (some v'.name) (s.db q.metadataSchema)).1 (ms := q.metadataSchema)
  obtain ⟨s', e1, e2, e3⟩ := ho.becomes s hs
  exact ⟨ho.files, ho.others, s', e1, by rw [e2]; exact d, by
    rw [show s'.data = _ from congrArg Pg.DB.data e2]; exact c, e3⟩

/-- Every life of C91 is one of these. -/
theorem Life.wild {ok : Makes → LocalTime × String → Prop} {log : Makes} {w : World σ} (h : Life B ok log w) :
    WildLife B w := by
  obtain ⟨w₀, h₀, hg⟩ := h
  induction hg with
  | now => exact .new h₀.servers
  | @on log₁ log₂ w₁ w₂ _ hh ih =>
    refine .on ih ?_
    cases hh with
    | edit hs _ =>
      obtain ⟨fs, sv⟩ := w₂
      cases hs
      exact .files fs
    | database _ hs => exact .database hs
    | command hB _ _ he => exact .command hB he
    | interrupted _ _ _ => exact .files _
    | killed hs hu => exact .upKilled hs hu

/-- The world of C97's example, with all version files deleted. -/
def wildWorld : World (List String) :=
  let w := putServer (lifeWorld true (lifeOne "20201025_021000-auto" (Version.newStage "20201025_021000-auto")) [])
    progProfile.databaseUrl "podo_meta" ⟨fun _ => .absent, []⟩ returnDb
  ⟨{ w.fs with history := fun _ => [] }, w.servers⟩

/-- C97 at work: after `init`, `stage`, `make` and `up` all version files are deleted; `down init` succeeds. -/
example : WildLife progSetting.B wildWorld ∧
    ∃ w' out s', Ends (lifeSetting tenPast) wildWorld ["w"] (.down "database" (some "init")) w' out .success ∧
      w'.servers progProfile.databaseUrl = some s' ∧ (s'.db "podo_meta").applied = [Version.newInit] := by
  have hl : WildLife progSetting.B wildWorld := .on return_tended.life.wild (.files _)
  have hsv : wildWorld.servers progProfile.databaseUrl = some returnServer := return_server
  have hdf : DownFor (lifeSetting tenPast) wildWorld ["w"] "database" progProfile.databaseUrl "podo_meta" :=
    ⟨podo_meta_reads, progProfile, lifeWorld_profile tenPast (lifeOne "20201025_021000-auto"
      (Version.newStage "20201025_021000-auto")) [], rfl, rfl⟩
  obtain ⟨w', out, he⟩ := (C97_down_iff_any_files hl hsv
    (by simp [returnServer, returnDb, update_self]) return_applied (S := lifeSetting tenPast) rfl hdf).2
    (.inr ⟨[], Pg.script_iff.2 rfl, rfl⟩)
  obtain ⟨_, _, s', h1, h2, _⟩ := C97_down_result_any_files hl hsv return_applied
    (S := lifeSetting tenPast) rfl hdf he
  exact ⟨hl, w', out, s', he, h1, h2⟩

end Prog
end Podo
