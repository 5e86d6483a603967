import Verif.Proofs.Minded
import Verif.Props.Tended
/-
C95: the schema of a database through the life of a machine.
-/
namespace Podo
namespace Prog
open Proj
variable {σ : Type} {B B' : Pg.Behaviour σ} {cat : σ → Content} {free : Change → Content → Prop} {dn dn' : Prop}
  {p : Proj.Path} {url url' m m' : String}

/-- C95 (partial).  Through the whole life of a machine (see C91), a database whose schema is left to podo and one
project has the schema of the version it is on — for every server that does what statements say, if the SQL
texts of the project's versions are right and free of surprises, and, if the database is taken down at all, those
of their reverts, too, and the versions lose nothing.  Missing for the full property: versions with other changes;
see `C95_not_null_false`. -/
theorem C95_schema_kept_partial (ho : Pg.Obedient B cat free) {log : Makes} {w : World σ}
    (h : Minded B cat Distinct dn p url m log w) {s : Server σ} (hs : w.servers url = some s)
    (hu : Pg.UpsPlain free (w.fs.history p)) (hd : dn → Pg.DownsPlain free (w.fs.history p)) {n₀ : String}
    {v₀ : Version} (hv₀ : Stored (w.fs.history p) n₀ v₀) :
    ∃ v sn, (s.db m).applied.getLast? = some v ∧ SnapshotOf (w.fs.history p) v.name sn ∧ cat s.data = sn.content := by
  have hh := h.inHand distinct_ne (fun _ h => h rfl) s hs
  rw [orInit_some (by rintro e; rw [e] at hv₀; cases hv₀)] at hh
  exact hh.follows ho hu hd

/-- C95, before: while the project has no version files, there is nothing in the database. -/
theorem C95_before {log : Makes} {w : World σ} (h : Minded B cat Distinct dn p url m log w) {s : Server σ}
    (hs : w.servers url = some s) (he : w.fs.history p = []) : cat s.data = Pg.newSchema := by
  have hh := h.inHand distinct_ne (fun _ h => h rfl) s hs
  rw [he, orInit_nil] at hh
  have hin : ∀ n v q, n ≠ "stage" → Stored initDir n v → v.previous = some q → False := by
    intro n v q hn hv hq
    obtain ⟨hm, rfl⟩ := initDir_history.stored_iff.1 hv
    rcases List.mem_cons.1 hm with rfl | hm
    · cases hq
    · rw [List.nil_append, List.mem_singleton] at hm
      subst hm
      exact hn rfl
  obtain ⟨v, sn, h1, h2, h3⟩ := hh.follows (free := fun _ _ => False) (fun _ _ _ _ _ _ hf => hf.elim)
    (fun n v q s₀ hn hv hq => (hin n v q hn hv hq).elim) (fun _ n v q s₀ rs s₁ hn hv hq => (hin n v q hn hv hq).elim)
  rw [C94_nothing_recorded h.tended hs he] at h1
  cases h1
  rw [show cat s.data = _ from h3]
  have : SnapshotOf initDir Version.newInit.name ⟨[("public", Schema.new "public")]⟩ :=
    initDir_history.calculate_prefix (B := []) (C := [Version.newStage "init"]) rfl rfl
  cases h2.unique this
  rfl

/-- C95, several databases (partial): two databases of the project that are on the same version have the same
schema, on whatever servers that do what statements say, however they came there.  Missing: as above. -/
theorem C95_same_schema_partial {free' : Change → Content → Prop} (ho : Pg.Obedient B cat free)
    (ho' : Pg.Obedient B' cat free') {log log' : Makes} {w : World σ} (h : Minded B cat Distinct dn p url m log w)
    (h' : Minded B' cat Distinct dn' p url' m' log' w) {s s' : Server σ} (hs : w.servers url = some s)
    (hs' : w.servers url' = some s') (hu : Pg.UpsPlain free (w.fs.history p))
    (hd : dn → Pg.DownsPlain free (w.fs.history p)) (hu' : Pg.UpsPlain free' (w.fs.history p))
    (hd' : dn' → Pg.DownsPlain free' (w.fs.history p)) (hv : (s.db m).version? = (s'.db m').version?) :
    cat s.data = cat s'.data := by
  by_cases he : w.fs.history p = []
  · rw [C95_before h hs he, C95_before h' hs' he]
  · have hh := h.inHand distinct_ne (fun _ h => h rfl) s hs
    have hh' := h'.inHand distinct_ne (fun _ h => h rfl) s' hs'
    rw [orInit_some he] at hh hh'
    obtain ⟨v, sn, h1, h2, h3⟩ := hh.follows ho hu hd
    obtain ⟨v', sn', h1', h2', h3'⟩ := hh'.follows ho' hu' hd'
    unfold Pg.DB.version? at hv
    rw [h1, h1', Option.map_some, Option.map_some, Option.some.injEq] at hv
    rw [hv] at h2
    cases h2.unique h2'
    change cat (s.db m).data = cat (s'.db m').data
    rw [h3, h3']

/-! ### A database whose schema is left to podo -/

/-- A table with one column, which may be null or not. -/
def mindDoc (nn : Bool) : Def.Yaml :=
  .map [some "schema public"] [.map [some "table t"] [.map [some "column id"] [.str (if nn then "int8!" else "int8")]]]

/-- What it defines. -/
def mindDb (nn : Bool) : Database :=
  ⟨[("public", ⟨"public", [("t", .table ⟨"public", "t", [⟨"public", "t", "id", "int8", nn, none⟩], []⟩)], []⟩)]⟩

/-- A server that knows three statements, and does what they say; its state says whether the table is there. -/
def mindB : Pg.Behaviour Bool :=
  ⟨fun x q => if x = false ∧ (q = exCreate.renderSql ∨ q = "CREATE TABLE \"public\".\"t\" (\"id\" int8);") then some true
    else if x = true ∧ q = exDrop.renderSql then some false else none,
   fun _ => true, fun _ => true, fun _ => true⟩

theorem mindB_obedient : Pg.Obedient mindB (fun x => (exDb x).content) exFree := by
  intro c q x x' C _ hf he hx
  rcases hf with ⟨rfl, h⟩ | ⟨rfl, h⟩
  · cases x with
    | true => exact absurd h.symm exDb_ne
    | false =>
      have h1 := apply_effect (exDb_wf false) (c := exCreate) (d' := exDb true) rfl
      simp only [he, Option.some.injEq] at h1
      simp only [mindB, true_and, Bool.false_eq_true, false_and, if_false] at hx
      split at hx
      · cases hx; exact h1.symm
      · cases hx
  · cases x with
    | false => exact absurd h exDb_ne
    | true =>
      have h1 := apply_effect (exDb_wf true) (c := exDrop) (d' := exDb false) rfl
      simp only [he, Option.some.injEq] at h1
      simp only [mindB, true_and, Bool.true_eq_false, false_and, if_false] at hx
      split at hx
      · cases hx; exact h1.symm
      · cases hx

/-- A machine with a history in `/w`, definitions, and one kind of servers. -/
def mindWorld (config : Bool) (d : HDir) (files : AMap Def.Yaml) : World Bool :=
  ⟨⟨fun p => if config && p == ["w"] then some (some baseProject) else none,
    update (fun _ => []) progProfile.history d, fun _ => files⟩, fun _ => some ⟨fun _ => .absent, false⟩⟩

def mindSetting : Setting Bool :=
  ⟨demoEnv, mindB, readSchema, fun _ => none, "cannot connect", tenPast.text⟩

theorem mindWorld_nil (c : Bool) (files : AMap Def.Yaml) (p : Proj.Path) : (mindWorld c [] files).fs.history p = [] := by
  simp only [mindWorld, update]
  split <;> rfl

theorem mindWorld_history (c : Bool) (d : HDir) (files : AMap Def.Yaml) :
    (mindWorld c d files).fs.history progProfile.history = d := by
  simp only [mindWorld]
  exact update_self _ _ _

theorem mindWorld_profile (d : HDir) (files : AMap Def.Yaml) :
    ProfileAt mindSetting.env (mindWorld true d files).fs ["w"] "database" progProfile := by
  refine ⟨⟨["w"], [progProfile]⟩, ?_, rfl⟩
  show loadProject demoEnv ["w"] (some baseProject) = _
  decide +kernel

theorem mindWorld_defs (nn : Bool) (d : HDir) (ds : Proj.Path) :
    definitions (mindWorld true d [("public.yaml", mindDoc nn)]).fs ds = .ok (mindDb nn) := by
  cases nn <;> (show Def.loadDir [.file "public.yaml" (mindDoc _)] = _; decide +kernel)

theorem leavesSchema_same {w w' : World σ} (h : w'.servers = w.servers) : LeavesSchema cat w w' url m := by
  intro s' hs'
  rw [h] at hs'
  exact .inr ⟨s', hs', rfl, rfl⟩

/-- The version made. -/
def mindVersion (nn : Bool) : Version :=
  ⟨"20201025_021000-auto", some "init", [.createTable "public" "t" [⟨"id", "int8", nn, none⟩]],
    [(Change.createTable "public" "t" [⟨"id", "int8", nn, none⟩]).renderSql], [exDrop.renderSql]⟩

/-- The version files after `stage`, and after `make`. -/
def mindStaged (nn : Bool) : HDir :=
  [("init.yaml", .file (some Version.newInit)), ("stage.yaml", .file (some { mindVersion nn with name := "stage" }))]

def mindMade (nn : Bool) : HDir :=
  [("init.yaml", .file (some Version.newInit)), ("stage.yaml", .file (some (Version.newStage "20201025_021000-auto"))),
    ("20201025_021000-auto.yaml", .file (some (mindVersion nn)))]

/-- The database after `up`. -/
def mindUp (nn : Bool) : Pg.DB Bool := ⟨.table ⟨[⟨Version.newInit, 1⟩, ⟨mindVersion nn, 2⟩], 3⟩, true⟩

theorem mind_step {log log₁ : Makes} {c c' : Bool} {d d' : HDir} {files files' : AMap Def.Yaml} {w₁ : World Bool}
    {cat : Bool → Content} (hg : Minded mindB cat Distinct dn p url m log (mindWorld c d files))
    (hh : Happens mindB Distinct log (mindWorld c d files) log₁ w₁)
    (h1 : w₁.fs.history = update (fun _ => []) progProfile.history d') (h2 : w₁.servers = (mindWorld c d files).servers) :
    Minded mindB cat Distinct dn p url m log₁ (mindWorld c' d' files') :=
  .on (.on hg (.apart hh (leavesSchema_same h2)))
    (.apart (.edit h2.symm fun p => by rw [h1]; exact .refl _) (leavesSchema_same h2.symm))

theorem mind_exec {log : Makes} {d d' : HDir} {files : AMap Def.Yaml} {a : Args} {hc : HistCmd}
    (hal : Allowed Distinct mindSetting (mindWorld true d files) ["w"] log tenPast a)
    (hrun : run mindSetting 9 (mindWorld true d files) ["w"] a = runHist 9 (mindWorld true d files) progProfile.history hc)
    (he : hc.exec 9 d = some (d', true)) :
    ∃ w₁, Happens mindB Distinct log (mindWorld true d files) (noted tenPast log a) w₁ ∧
      w₁.fs.history = update (fun _ => []) progProfile.history d' ∧ w₁.servers = (mindWorld true d files).servers := by
  have hd := mindWorld_history true d files
  obtain ⟨w₁, out, h1, _, h2, h3⟩ := runHist_ok (w := mindWorld true d files) (h := progProfile.history)
    (by rw [hd]; exact he)
  refine ⟨w₁, happens_there (S := mindSetting) (t := tenPast) rfl hal ⟨9, hrun.trans h1⟩, ?_, h3⟩
  rw [h2]
  exact update_update _ _ _ _

/-- `init`, definitions, `stage`, `make` and `up`. -/
theorem mind_life (nn : Bool) : Minded mindB (fun x => (exDb x).content) Distinct dn progProfile.history
    progProfile.databaseUrl "podo_meta" [(tenPast, "auto")]
    (putServer (mindWorld true (mindMade nn) []) progProfile.databaseUrl "podo_meta" ⟨fun _ => .absent, false⟩
      (mindUp nn)) := by
  have g0 : Minded mindB (fun x => (exDb x).content) Distinct dn progProfile.history progProfile.databaseUrl
      "podo_meta" [] (mindWorld false [] []) :=
    .new ⟨mindWorld_nil _ _, fun url s h m => by cases h; rfl⟩ (fun s h => by cases h; rfl)
  have g1 : Minded mindB (fun x => (exDb x).content) Distinct dn progProfile.history progProfile.databaseUrl
      "podo_meta" [] (mindWorld true initDir [("public.yaml", mindDoc nn)]) := by
    have h0 : discover mindSetting.env (mindWorld false [] []).fs ["w"] = .error (.projectNotFound []) := by
      refine (discoverUp_none _).2 ?_
      intro d _
      rfl
    have hs : ((mindWorld false [] []).fs.history (["w"] ++ ["database", "history"])).saveAll
        [Version.newInit, Version.newStage "init"] = (initDir, true) := by
      rw [mindWorld_nil]; rfl
    have hi := init_new h0 hs
    have hr : Ends mindSetting (mindWorld false [] []) ["w"] .init
        ⟨(Proj.init mindSetting.env (mindWorld false [] []).fs ["w"]).1, (mindWorld false [] []).servers⟩ [] .success :=
      ⟨0, by simp only [run, hi]⟩
    have ha : Allowed Distinct mindSetting (mindWorld false [] []) ["w"] [] tenPast .init := .inr (mindWorld_nil _ _ _)
    refine mind_step g0 (happens_there (S := mindSetting) (t := tenPast) rfl ha hr) ?_ rfl
    show (Proj.init _ _ _).1.history = _
    rw [hi]
    exact update_update _ _ _ _
  have e1 : (HistCmd.stage (.ok (mindDb nn))).exec 9 initDir = some (mindStaged nn, true) := by cases nn <;> rfl
  obtain ⟨w₂, a1, a2, a3⟩ := mind_exec (a := .stage "database") (log := []) (files := [("public.yaml", mindDoc nn)])
    trivial (by rw [run_stage (mindWorld_profile _ _), mindWorld_defs]) e1
  have g2 : Minded mindB (fun x => (exDb x).content) Distinct dn progProfile.history progProfile.databaseUrl
      "podo_meta" [] (mindWorld true (mindStaged nn) []) := mind_step g1 a1 a2 a3
  have e2 : (HistCmd.make tenPast.text none).exec 9 (mindStaged nn) = some (mindMade nn, true) := by
    cases nn <;> decide +kernel
  obtain ⟨w₃, b1, b2, b3⟩ := mind_exec (a := .make "database" none) (log := []) (files := [])
    ⟨(by intro h; cases h), noYaml (by decide +kernel)⟩ (run_make (mindWorld_profile _ _) none) e2
  have g3 : Minded mindB (fun x => (exDb x).content) Distinct dn progProfile.history progProfile.databaseUrl
      "podo_meta" [(tenPast, "auto")] (mindWorld true (mindMade nn) []) := mind_step g2 b1 b2 b3
  have e3 : Pg.up mindB 9 (mindMade nn) none ⟨.absent, false⟩ = some (mindUp nn, .ok) := by cases nn <;> rfl
  have r := run_up (S := mindSetting) (fuel := 9) (w := mindWorld true (mindMade nn) []) (cwd := ["w"])
    (name := "database") (mindWorld_profile _ _) (mindWorld_profile _ _) podo_meta_reads none
    (s := ⟨fun _ => .absent, false⟩) rfl
  rw [mindWorld_history] at r
  change _ = (Pg.up mindB 9 (mindMade nn) none ⟨.absent, false⟩).map _ at r
  rw [e3, Option.map_some] at r
  have hr : Ends mindSetting ((mindWorld true (mindMade nn) []).without allThere) ["w"] (.up "database" none) _ _ _ :=
    ⟨9, r⟩
  exact .on g3 (.up (S := mindSetting) (t := tenPast) rfl rfl
    ⟨podo_meta_reads, _, _, mindWorld_profile _ _, mindWorld_profile _ _, rfl, rfl, rfl⟩ (by simp) hr)

theorem mind_server (nn : Bool) : (putServer (mindWorld true (mindMade nn) []) progProfile.databaseUrl "podo_meta"
      ⟨fun _ => .absent, false⟩ (mindUp nn)).servers progProfile.databaseUrl =
    some ⟨update (fun _ => .absent) "podo_meta" (mindUp nn).metaSchema, true⟩ :=
  update_self (mindWorld true (mindMade nn) []).servers progProfile.databaseUrl _

theorem mindMade_stored {nn : Bool} {v : Version} {n : String} (h : Stored (mindMade nn) n v) :
    v = Version.newInit ∨ v = mindVersion nn ∨ n = "stage" := by
  have h1 : (n ++ ".yaml", Entry.file (some v)) ∈ mindMade nn := AMap.mem_of_get? h
  simp only [mindMade, List.mem_cons, Prod.mk.injEq, Entry.file.injEq, Option.some.injEq, List.not_mem_nil,
    or_false] at h1
  rcases h1 with ⟨_, h⟩ | ⟨h, _⟩ | ⟨_, h⟩
  · exact .inl h
  · exact .inr (.inr (String.append_left_inj ".yaml" |>.1 (h.trans (by decide))))
  · exact .inr (.inl h)

theorem mindMade_snapshots (nn : Bool) : SnapshotOf (mindMade nn) "init" (exDb false) ∧
    SnapshotOf (mindMade nn) "20201025_021000-auto" (mindDb nn) := by
  cases nn <;> exact ⟨⟨9, rfl⟩, ⟨9, rfl⟩⟩

theorem mind_upsPlain : Pg.UpsPlain exFree (mindMade false) := by
  intro n v p s₀ hn hv hp hs
  rcases mindMade_stored hv with rfl | rfl | rfl
  · cases hp
  · cases hp
    cases hs.unique (mindMade_snapshots false).1
    exact exPlain false
  · exact absurd rfl hn

theorem mind_downsPlain : Pg.DownsPlain exFree (mindMade false) := by
  intro n v p s₀ rs s₁ hn hv hp hs ht
  rcases mindMade_stored hv with rfl | rfl | rfl
  · cases hp
  · cases hp
    cases hs.unique (mindMade_snapshots false).1
    have h1 : (exCreate).revert (exDb false) = .ok exDrop := rfl
    have h2 : (exCreate).apply (exDb false) = .ok (exDb true) := rfl
    change TakenFrom [exCreate] _ _ _ at ht
    cases ht with
    | cons hrev hap ht' =>
      cases ht'
      rw [h1] at hrev
      rw [h2] at hap
      cases hrev
      cases hap
      refine ⟨?_, exPlain true⟩
      intro a c b s₂ h3 _
      cases a with
      | cons x a => simp [mindVersion] at h3
      | nil => cases h3; exact id
  · exact absurd rfl hn

/-- The hypotheses of `C95_schema_kept_partial` are met, with `down` allowed, and the table is there. -/
example : Pg.Obedient mindB (fun x => (exDb x).content) exFree ∧
    ∃ (w : World Bool) (s : Server Bool), Minded mindB (fun x => (exDb x).content) Distinct True progProfile.history
      progProfile.databaseUrl "podo_meta" [(tenPast, "auto")] w ∧ w.servers progProfile.databaseUrl = some s ∧
      Pg.UpsPlain exFree (w.fs.history progProfile.history) ∧ Pg.DownsPlain exFree (w.fs.history progProfile.history) ∧
      Stored (w.fs.history progProfile.history) "20201025_021000-auto" (mindVersion false) ∧
      (exDb s.data).content = (mindDb false).content := by
  refine ⟨mindB_obedient, _, ⟨update (fun _ => .absent) "podo_meta" (mindUp false).metaSchema, true⟩, mind_life false,
    mind_server false, ?_⟩
  have e : (putServer (mindWorld true (mindMade false) []) progProfile.databaseUrl "podo_meta" ⟨fun _ => .absent, false⟩
      (mindUp false)).fs.history progProfile.history = mindMade false := mindWorld_history _ _ _
  rw [e]
  exact ⟨mind_upsPlain, mind_downsPlain, rfl, rfl⟩

/-- The full C95 is false where a table has a column that is not null (C66): after `init`, `stage`, `make` and `up`
the server has done what the only statement of the version says, and yet the database has not the schema of the
version it is on. -/
theorem C95_not_null_false : ∃ (B : Pg.Behaviour Bool) (cat : Bool → Content) (free : Change → Content → Prop)
    (log : Makes) (w : World Bool) (p : Proj.Path) (url m : String) (s : Server Bool) (v : Version) (sn : Database)
    (q : String) (c : Change), Pg.Obedient B cat free ∧ Minded B cat Distinct False p url m log w ∧
    w.servers url = some s ∧ (s.db m).applied = [Version.newInit, v] ∧ SnapshotOf (w.fs.history p) v.name sn ∧
    v.up = [q] ∧ Pg.Says q c ∧ free c Pg.newSchema ∧ Spec.effect c Pg.newSchema = some (cat s.data) ∧
    cat s.data ≠ sn.content := by
  refine ⟨mindB, fun x => (exDb x).content, exFree, _, _, progProfile.history, progProfile.databaseUrl, "podo_meta",
    ⟨update (fun _ => .absent) "podo_meta" (mindUp true).metaSchema, true⟩, mindVersion true, mindDb true, _, exCreate,
    mindB_obedient, mind_life true, mind_server true, ?_, ?_, rfl,
    says_nullable "public" "t" [⟨"id", "int8", true, none⟩] (by decide) (by decide) (by decide), .inl ⟨rfl, rfl⟩,
    apply_effect (exDb_wf false) (c := exCreate) (d' := exDb true) rfl, ?_⟩
  · unfold Server.db Pg.DB.applied
    dsimp only
    rw [update_self]
    rfl
  · have e : (putServer (mindWorld true (mindMade true) []) progProfile.databaseUrl "podo_meta"
        ⟨fun _ => .absent, false⟩ (mindUp true)).fs.history progProfile.history = mindMade true := mindWorld_history _ _ _
    rw [e]
    exact (mindMade_snapshots true).2
  · intro h
    have := congrArg (fun C => (Pg.colAt C "public" "t" "id").map fun c => c.notNull) h
    revert this
    decide

end Prog
end Podo
