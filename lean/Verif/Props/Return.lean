import Verif.Spec.Minded
import Verif.Props.Tended
import Verif.Proofs.Missing
import Verif.Proofs.Endings
/-
C97: taking a database back, at any time in the life of a machine.
-/
namespace Podo
namespace Prog
open Proj
variable {σ : Type} {B : Pg.Behaviour σ} {p : Proj.Path} {url m : String}

theorem Pg.down_here {db : Pg.DB σ} (hr : Pg.Reach B db) (hw : db.metaSchema ≠ .absent) {pre : List Version}
    {v : Version} (ha : db.applied = pre ++ [v]) : Pg.down B (some v.name) db = (db, .ok) := by
  obtain ⟨t, htab⟩ : ∃ t, db.metaSchema = .table t := by
    cases hm : db.metaSchema with
    | absent => exact absurd hm hw
    | noTable => exact absurd hm hr.hasTable
    | table t => exact ⟨t, rfl⟩
  have ht : Pg.ensureInitialized B db = (.table t, true) := by unfold Pg.ensureInitialized; rw [htab]
  obtain ⟨hch, happ, _⟩ := Pg.ensure_chain hr.good ht
  obtain ⟨a, r, b, hrows, h1, h2, h3⟩ := applied_split happ ha
  subst h2
  have hb : b = [] := List.map_eq_nil_iff.1 h3
  rw [Pg.down_to ht hch hrows (.inl rfl), if_pos hb]

theorem applied_unique {db : Pg.DB σ} (hr : Pg.Reach B db) {pre pre' post post' : List Version} {v v' : Version}
    (h : db.applied = pre ++ v :: post) (h' : db.applied = pre' ++ v' :: post') (hn : v'.name = v.name) :
    pre' = pre ∧ v' = v ∧ post' = post := by
  obtain rfl : post = post' := Pg.TakesBack.unique (Pg.applied_names hr.good) (target := some v.name)
    ⟨pre, v, h, .inl rfl⟩ ⟨pre', v', h', .inl (by rw [hn])⟩
  rw [h] at h'
  have := List.append_inj' h' rfl
  simp only [List.cons.injEq, and_true] at this
  exact ⟨this.1.symm, this.2.symm, rfl⟩

/-- C97, when: through the whole life of a machine (see C91), whatever has happened to the project and its files, a
database in which podo has recorded versions can be taken back to any of them, `podo down v` succeeding exactly if
the server runs the recorded down scripts of the later versions, newest first, and commits what comes of them. -/
theorem C97_down_iff {log : Makes} {w : World σ} (h : Life B Distinct log w) {s : Server σ}
    (hs : w.servers url = some s) (hm : s.metas m ≠ .absent) {pre post : List Version} {v : Version}
    (ha : (s.db m).applied = pre ++ v :: post) {S : Setting σ} (hB : S.B = B) {cwd : Proj.Path} {name : String}
    (hf : DownFor S w cwd name url m) :
    (∃ w' out, Ends S w cwd (.down name (some v.name)) w' out .success) ↔
      post = [] ∨ ∃ x, Pg.Script B s.data (post.reverse.flatMap Version.down) x ∧ B.commits x = true := by
  subst hB
  have hr := (C91_health h).2 url s hs m
  obtain ⟨hi, q, hq, rfl, rfl⟩ := hf
  have key : (∃ w' out, Ends S w cwd (.down name (some v.name)) w' out .success) ↔
      (Pg.down S.B (some v.name) (s.db q.metadataSchema)).2 = .ok := by
    constructor
    · rintro ⟨w', out, fuel, he⟩
      rw [run_down hq hi (some v.name) hs] at he
      injection he with he
      injection he with _ he
      injection he with _ he
      exact pgEnding_success.1 he
    · intro he
      have r := run_down (fuel := 0) hq hi (some v.name) hs
      rw [he] at r
      exact ⟨_, _, 0, r⟩
  rw [key]
  by_cases hp : post = []
  · subst hp
    simp only [true_or, iff_true]
    rw [Pg.down_here hr hm ha]
  · rw [C33_down_succeeds hr hm ha hp]
    simp only [hp, false_or]
    rfl

/-- C97, what: then the later versions are no longer recorded, the others are as they were, exactly these scripts
have run, and no file and nothing else on any server has changed. -/
theorem C97_down_result {log : Makes} {w w' : World σ} (h : Life B Distinct log w) {s : Server σ}
    (hs : w.servers url = some s) {pre post : List Version} {v : Version}
    (ha : (s.db m).applied = pre ++ v :: post) {S : Setting σ} (hB : S.B = B) {cwd : Proj.Path} {name : String}
    (hf : DownFor S w cwd name url m) {out : List String}
    (he : Ends S w cwd (.down name (some v.name)) w' out .success) :
    w'.fs = w.fs ∧ (∀ u, u ≠ url → w'.servers u = w.servers u) ∧
    ∃ s', w'.servers url = some s' ∧ (s'.db m).applied = pre ++ [v] ∧
      Pg.Script B s.data (post.reverse.flatMap Version.down) s'.data ∧ ∀ m', m' ≠ m → s'.metas m' = s.metas m' := by
  subst hB
  have hr := (C91_health h).2 url s hs m
  obtain ⟨hi, q, hq, rfl, rfl⟩ := hf
  obtain ⟨db, pre', v', post', ho, h1, h2, h3, h4⟩ := C33_podo_down hq hi hs hr he
  obtain ⟨rfl, rfl, rfl⟩ := applied_unique hr ha h1 h2
  obtain ⟨s', e1, e2, e3⟩ := ho.becomes s hs
  exact ⟨ho.files, ho.others, s', e1, by rw [e2]; exact h4, by rw [← e2] at h3; exact h3, e3⟩

/-- C97, again: a database of one project (see C94) that has been taken back can be brought up again: what had been
recorded and what was missing are together all versions made, and if the server takes what has been taken back and
what was missing before, as the files hold them, `podo up` succeeds and then all versions are recorded. -/
theorem C97_up_again {log : Makes} {w w' : World σ} (h : Tended B Distinct NotStage p url m log w) {s : Server σ}
    (hs : w.servers url = some s) {n₀ : String} {v₀ : Version} (hv₀ : Stored (w.fs.history p) n₀ v₀)
    {pre post : List Version} {v : Version} (ha : (s.db m).applied = pre ++ v :: post) {S : Setting σ} (hB : S.B = B)
    {t : LocalTime} (ht : S.now = t.text) {cwd : Proj.Path} {name : String} (hf : UpFor S w cwd name p url m)
    {out : List String} (he : Ends S w cwd (.down name (some v.name)) w' out .success) :
    ∃ newest made rest s', Opens (w.fs.history p) newest ∧ Pg.Way (w.fs.history p) "init" newest made ∧
      Version.newInit :: made = (s.db m).applied ++ rest ∧ w'.servers url = some s' ∧
      (s'.db m).applied = pre ++ [v] ∧
      (Pg.Takes B (s'.db m) (post ++ rest) →
        ∃ w'' out' s'', Ends S w' cwd (.up name none) w'' out' .success ∧ w''.servers url = some s'' ∧
          (s''.db m).applied = Version.newInit :: made) := by
  subst hB
  have hdf : DownFor S w cwd name url m := by
    obtain ⟨hi, _, q, _, hq, _, h1, h2⟩ := hf
    exact ⟨hi, q, hq, h1, h2⟩
  obtain ⟨hfs, _, s', hs', happ, _, _⟩ := C97_down_result h.life hs ha rfl hdf he
  have hstep : Tended S.B Distinct NotStage p url m log w' := by
    have := Tends.down (B := S.B) (ok := Distinct) (to := NotStage) (p := p) (url := url) (m := m) (log := log) (w := w)
      (w₁ := w') (S := S) (t := t) (cwd := cwd) (name := name) (target := some v.name) (away := allThere) (out := out)
      (e := .success) rfl ht he
    exact .on h this
  have hv₁ : Stored (w'.fs.history p) n₀ v₀ := by rw [hfs]; exact hv₀
  obtain ⟨newest, made, missing, hop, hway, hsplit, hup⟩ := C94_up_works hstep hs' hv₁
  obtain ⟨newest', made', rest, hop', hway', hsplit', _⟩ := C94_up_works h hs hv₀
  rw [hfs] at hop hway
  obtain rfl := Opens.unique hop hop'
  obtain rfl := Pg.Way.unique hway hway'
  have hm : missing = post ++ rest := by
    rw [hsplit', ha, happ] at hsplit
    simpa [List.append_assoc] using hsplit.symm
  subst hm
  refine ⟨newest, made, rest, s', hop, hway, hsplit', hs', happ, fun htk => ?_⟩
  exact hup htk S cwd name rfl (by
      obtain ⟨hi, q₀, q, hq₀, hq, h3, h1, h2⟩ := hf
      exact ⟨hi, q₀, q, by rw [hfs]; exact hq₀, by rw [hfs]; exact hq, h3, h1, h2⟩)

/-- The version of the example, and the database after `init`, `stage`, `make` and `up`. -/
def returnMade : Version := { progStage with name := "20201025_021000-auto" }

def returnDb : Pg.DB (List String) := ⟨.table ⟨[⟨Version.newInit, 1⟩, ⟨returnMade, 2⟩], 3⟩, progStage.up.reverse⟩

/-- And after `down init`. -/
def returnBack : Pg.DB (List String) := ⟨.table ⟨[⟨Version.newInit, 1⟩], 3⟩, []⟩

def returnServer : Server (List String) := ⟨update (fun _ => .absent) "podo_meta" returnDb.metaSchema, returnDb.data⟩

theorem return_tended : Tended progSetting.B Distinct NotStage progProfile.history progProfile.databaseUrl "podo_meta"
    [(tenPast, "auto")] (putServer (lifeWorld true (lifeOne "20201025_021000-auto"
      (Version.newStage "20201025_021000-auto")) []) progProfile.databaseUrl "podo_meta" ⟨fun _ => .absent, []⟩ returnDb) :=
  tend_up (target := none) (by intro e; cases e) (tend_made (by intro hm; cases hm)) rfl

theorem return_server : (putServer (lifeWorld true (lifeOne "20201025_021000-auto"
      (Version.newStage "20201025_021000-auto")) []) progProfile.databaseUrl "podo_meta" ⟨fun _ => .absent, []⟩
      returnDb).servers progProfile.databaseUrl = some returnServer := by
  simp only [putServer]; exact update_self _ _ _

theorem return_applied : (returnServer.db "podo_meta").applied = [] ++ Version.newInit :: [returnMade] := by
  simp only [Server.db, returnServer, Pg.DB.applied, update_self]; rfl

/-- C97 at work: after `init`, `stage`, `make` and `up`, `down init` succeeds, and then `up` again. -/
example : ∃ log w w' w'' out out' s'', Tended progSetting.B Distinct NotStage progProfile.history
      progProfile.databaseUrl "podo_meta" log w ∧
    Ends (lifeSetting tenPast) w ["w"] (.down "database" (some "init")) w' out .success ∧
    Ends (lifeSetting tenPast) w' ["w"] (.up "database" none) w'' out' .success ∧
    w''.servers progProfile.databaseUrl = some s'' ∧
    (s''.db "podo_meta").applied = [Version.newInit, returnMade] := by
  have hfor := life_upFor tenPast (lifeOne "20201025_021000-auto" (Version.newStage "20201025_021000-auto")) []
  have hf : UpFor (lifeSetting tenPast) (putServer (lifeWorld true (lifeOne "20201025_021000-auto"
      (Version.newStage "20201025_021000-auto")) []) progProfile.databaseUrl "podo_meta" ⟨fun _ => .absent, []⟩ returnDb)
      ["w"] "database" progProfile.history progProfile.databaseUrl "podo_meta" := hfor
  have hdf : DownFor (lifeSetting tenPast) (putServer (lifeWorld true (lifeOne "20201025_021000-auto"
      (Version.newStage "20201025_021000-auto")) []) progProfile.databaseUrl "podo_meta" ⟨fun _ => .absent, []⟩ returnDb)
      ["w"] "database" progProfile.databaseUrl "podo_meta" := by
    obtain ⟨hi, _, q, _, hq, _, h1, h2⟩ := hf
    exact ⟨hi, q, hq, h1, h2⟩
  have hd : Pg.down progSetting.B (some "init") (returnServer.db "podo_meta") = (returnBack, .ok) := by
    have hg := ((C91_health return_tended.life).2 _ _ return_server "podo_meta").good
    have hdb : returnServer.db "podo_meta" = returnDb := by simp only [Server.db, returnServer, update_self]
    rw [hdb] at hg ⊢
    have ht : Pg.ensureInitialized progSetting.B returnDb = (.table ⟨[⟨Version.newInit, 1⟩, ⟨returnMade, 2⟩], 3⟩, true) := rfl
    rw [Pg.down_to ht (Pg.ensure_chain hg ht).1 (a := []) (b := [⟨returnMade, 2⟩]) rfl
      (target := some "init") (.inl rfl), if_neg (by simp)]
    rfl
  have he := run_down (S := lifeSetting tenPast) (fuel := 0) (cwd := ["w"]) (name := "database") (q := progProfile)
    (w := putServer (lifeWorld true (lifeOne "20201025_021000-auto" (Version.newStage "20201025_021000-auto")) [])
      progProfile.databaseUrl "podo_meta" ⟨fun _ => .absent, []⟩ returnDb) (lifeWorld_profile tenPast _ _)
    podo_meta_reads (some "init") return_server
  have he : Ends (lifeSetting tenPast) _ ["w"] (.down "database" (some "init")) _ _ _ := ⟨0, he⟩
  rw [show (Pg.down (lifeSetting tenPast).B (some "init") (returnServer.db progProfile.metadataSchema)) = (returnBack, .ok)
    from hd] at he
  have hv₀ : Stored ((putServer (lifeWorld true (lifeOne "20201025_021000-auto"
      (Version.newStage "20201025_021000-auto")) []) progProfile.databaseUrl "podo_meta" ⟨fun _ => .absent, []⟩
      returnDb).fs.history progProfile.history) "init" Version.newInit := by
    show Stored ((lifeWorld true _ _).fs.history _) _ _
    rw [lifeWorld_history]; unfold Stored; decide +kernel
  obtain ⟨newest, made, rest, s', h1, h2, h3, h4, _, h5⟩ := C97_up_again return_tended return_server hv₀ return_applied
    (S := lifeSetting tenPast) rfl rfl hf he
  have e : (putServer (lifeWorld true (lifeOne "20201025_021000-auto" (Version.newStage "20201025_021000-auto")) [])
      progProfile.databaseUrl "podo_meta" ⟨fun _ => .absent, []⟩ returnDb).fs.history progProfile.history =
      lifeOne "20201025_021000-auto" (Version.newStage "20201025_021000-auto") := lifeWorld_history _ _ _
  rw [e] at h1 h2
  obtain rfl := Opens.unique h1 ⟨9, _, rfl⟩
  rw [e] at hv₀
  have hm : Stored (lifeOne "20201025_021000-auto" (Version.newStage "20201025_021000-auto")) "20201025_021000-auto"
      returnMade := by unfold Stored; decide +kernel
  have hw : Pg.Way (lifeOne "20201025_021000-auto" (Version.newStage "20201025_021000-auto")) "init"
      "20201025_021000-auto" [returnMade] :=
    ⟨.later (.here hv₀) hm rfl, by simp [returnMade], fun v hv => by rw [List.mem_singleton.1 hv]; exact hm⟩
  obtain rfl := Pg.Way.unique h2 hw
  rw [return_applied] at h3
  have hr : rest = [] := by simpa using h3
  subst hr
  have hs' : s' = ⟨update returnServer.metas "podo_meta" returnBack.metaSchema, []⟩ := by
    simp only [putServer] at h4
    erw [update_self] at h4
    cases h4
    rfl
  obtain ⟨w'', out', s'', g1, g2, g3⟩ := h5 (by
    subst hs'
    refine ⟨⟨progStage.up.reverse, ?_, rfl⟩, ?_, fun v _ => rfl, ?_, ?_⟩
    · exact .cons rfl (.cons rfl .nil)
    · intro v hv
      rw [List.append_nil, List.mem_singleton] at hv
      subst hv
      exact ⟨by decide, fun p hp => by cases hp; decide⟩
    · intro t ht
      simp only [Server.db, update_self] at ht
      cases ht
      decide
    · intro ht
      simp only [Server.db, update_self] at ht
      cases ht)
  exact ⟨_, _, _, w'', _, out', s'', return_tended, he, g1, g2, g3⟩

end Prog
end Podo
