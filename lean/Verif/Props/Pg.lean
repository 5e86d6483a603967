import Verif.Proofs.Pg
import Verif.Props.Commands
/-
C30–C37: `up` and `down`.
-/
set_option linter.unusedSimpArgs false
namespace Podo
open Pg
variable {σ : Type}

/-! ### A database for the examples -/

/-- The data is a stack of statements: statements of `ups` are pushed, any other takes the top off. -/
def stackDb (ups : List String) : Behaviour (List String) where
  exec s q := if q ∈ ups then some (q :: s) else match s with
    | [] => none
    | _ :: s' => some s'
  commits _ := true
  accepts _ := true
  creates _ := true

def demoB : Behaviour (List String) := stackDb (Version.newInit.up ++ demoMade.up ++ demoStage.up)

def demoNew : DB (List String) := ⟨.absent, []⟩

/-- After `up --version stage`. -/
def demoUp : DB (List String) :=
  ⟨.table ⟨[⟨Version.newInit, 1⟩, ⟨demoMade, 2⟩, ⟨demoStage, 3⟩], 4⟩, demoStage.up ++ demoMade.up⟩

theorem demoUp_eq : up demoB 9 demoDir (some "stage") demoNew = some (demoUp, .ok) := by rfl

theorem IsHistory.namedAfterVersion {d : HDir} {vs : List Version} {st : Version}
    (h : IsHistory d vs st) : NamedAfterVersion d := by
  rintro f v ⟨hf, hy⟩
  obtain ⟨w, _, hfn, he⟩ := h.get_yaml hf hy
  cases he; exact hfn

theorem Reachable.namedAfterVersion {d : HDir} (h : Reachable d) : NamedAfterVersion d := by
  obtain ⟨vs, st, s, hh, _⟩ := h.sound
  exact hh.namedAfterVersion

theorem demoUp_reach : Reach demoB demoUp :=
  .up (.new []) demoDir_reachable.namedAfterVersion demoUp_eq

/-! ### C30 -/

/-- C30.  Whatever goes wrong in `up` — a statement, the bookkeeping, the commit, a version file that
cannot be read — the data and the recorded versions are as before. -/
theorem C30_up_all_or_nothing (B : Behaviour σ) {fuel : Nat} {d : HDir} {target : Option String}
    {db db' : DB σ} {o : Outcome} (h : up B fuel d target db = some (db', o)) (ho : o ≠ .ok) :
    Unchanged db db' :=
  up_unchanged h ho

/-- The same for `down`. -/
theorem C30_down_all_or_nothing (B : Behaviour σ) (target : Option String) (db : DB σ)
    (ho : (down B target db).2 ≠ .ok) : Unchanged db (down B target db).1 := by
  rcases down_cases B target db with ⟨h, _⟩ | ⟨_, _, h, _⟩
  · exact h
  · exact absurd h ho

/-- The second version's script fails after the first version's ran. -/
def failB : Behaviour (List String) where
  exec s q := if q ∈ demoMade.up then some (q :: s) else none
  commits _ := true
  accepts _ := true
  creates _ := true

example : up failB 9 demoDir (some "stage") demoNew = some (demoNew, .panic) := by rfl

/-! ### C31 -/

/-- C31.  After a successful `up` to `n` (the version given, or else the history's current one), the
up scripts of the versions on the path from the database's current version to `n`, in this order,
lead from the old data to the new, exactly these versions have been recorded on top, and the
version recorded last is `n`. -/
theorem C31_up_applies_missing_partial {B : Behaviour σ} {db db' : DB σ} (hr : Reach B db) {d : HDir}
    (hd : NamedAfterVersion d) {fuel : Nat} {target : Option String}
    (h : up B fuel d target db = some (db', .ok)) :
    ∃ n cur ws, (target = some n ∨ target = none ∧ Opens d n) ∧ db.applied.getLast? = some cur ∧
      VersionPath d cur.name n (ws.map Version.name) ∧ cur.name ∉ ws.map Version.name ∧
      (∀ w ∈ ws, Stored d w.name w) ∧
      Script B db.data (ws.flatMap Version.up) db'.data ∧ db'.applied = db.applied ++ ws ∧
      db'.applied.getLast?.map Version.name = some n := by
  obtain ⟨n, cur, ws, h1, h2, h3, h4, h5, _, h7, h8, h9, _⟩ := up_ok hd.storedNames hr.good h
  refine ⟨n, cur, ws, h1, h2, h3, h4, h5, script_iff.2 h7, h8, ?_⟩
  rw [h8, List.getLast?_append]
  cases hw : ws.getLast? with
  | none => rw [hw] at h9; rw [Option.none_or, h2]; exact congrArg some h9
  | some w => rw [hw] at h9; exact congrArg some h9

/-- And it does succeed: if there is a path, the scripts run, the commit succeeds and the versions can
be recorded, then `up` ends with success. -/
theorem C31_up_succeeds {B : Behaviour σ} {db : DB σ} (hr : Reach B db) {d : HDir}
    (hd : NamedAfterVersion d) {target : Option String} {cv n : String} (hop : Opens d cv)
    (htar : target.getD cv = n) {cur : Version} (hcur : db.applied.getLast? = some cur)
    {ws : List Version} (hp : VersionPath d cur.name n (ws.map Version.name))
    (hnot : cur.name ∉ ws.map Version.name) (hst : ∀ w ∈ ws, Stored d w.name w) {s' : σ}
    (hx : Script B db.data (ws.flatMap Version.up) s') (hcom : B.commits s' = true)
    (hrec : Recordable B db ws) :
    ∃ fuel db', up B fuel d target db = some (db', .ok) ∧ db'.data = s' ∧
      db'.applied = db.applied ++ ws := by
  obtain ⟨f, db', h1, h2, h3, _⟩ := up_runs hd.storedNames hr.good hop htar hcur hp hnot hst
    (script_iff.1 hx) hcom hrec
  exact ⟨f, db', h1, h2, h3⟩

example : demoUp.applied = demoNew.applied ++ [demoMade, demoStage] ∧
    Script demoB demoNew.data ([demoMade, demoStage].flatMap Version.up) demoUp.data := by
  refine ⟨rfl, script_iff.2 rfl⟩

/-! ### C32 -/

/-- C32.  After a successful `up`, the same `up` again leaves the database as it is — even if the
database refused every statement and every commit, so none is run. -/
theorem C32_up_idempotent_partial {B : Behaviour σ} {db db' : DB σ} (hr : Reach B db) {d : HDir}
    (hd : NamedAfterVersion d) {fuel : Nat} {target : Option String}
    (h : up B fuel d target db = some (db', .ok)) :
    up { B with exec := fun _ _ => none, commits := fun _ => false } fuel d target db' =
      some (db', .ok) := by
  obtain ⟨n, cur, ws, h1, h2, h3, h4, h5, h6, h7, h8, h9, h10, h11⟩ := up_ok hd.storedNames hr.good h
  rcases up_cases h with ⟨_, hc⟩ | ⟨opened, t, hopen, ht, c, to, l, hcur, hto, hl, hc⟩
  · cases hc
  · rcases hc with ⟨rfl, rfl, _⟩ | ⟨hne, t', s, o', hu, ⟨rfl, _, rfl, _⟩ | ⟨ho, _⟩⟩
    · unfold up
      rw [hopen]
      simp only
      have ht' : ensureInitialized { B with exec := fun _ _ => none, commits := fun _ => false } db' =
        (.table t, true) := ht
      rw [ht']
      simp only [hcur, hto, hl, rollback_self ht]
    · -- the table now ends in the target
      obtain ⟨hch, happ, _⟩ := ensure_chain hr.good ht
      have hchain : IsChain t' := by
        by_cases hws : ws = []
        · have hg : Good (⟨.table t', s⟩ : DB σ) := up_good hd.storedNames hr.good h
          exact hg t' rfl
        · obtain ⟨t'', h12, h13⟩ := h11 hws
          cases h12; exact h13
      obtain ⟨q, r, hq⟩ := hchain.split_last
      have hton := hd.storedNames _ _ (stored_iff.2 hto)
      have hlast : r.version.name = to.name := by
        obtain ⟨l', hp, hnot, hl'⟩ := path_of_rangeLoop hd.storedNames hl
        simp only [List.reverse_nil, List.append_nil] at hl'
        subst hl'
        obtain ⟨ws', hws', hst', hlk', hlast'⟩ := path_versions hd.storedNames hp
        obtain ⟨q₀, r₀, hq₀⟩ := hch.split_last
        have hcr := hch.current hq₀
        rw [hcur] at hcr
        cases hcr
        rw [← hws'] at hu
        obtain ⟨_, _, h14⟩ := upLoop_ok hst' hch hq₀ hlk' hu
        have h15 := congrArg List.getLast? h14
        rw [hq] at h15
        simp only [List.map_append, List.map_cons, List.map_nil, List.getLast?_append,
          List.getLast?_singleton, Option.some_or] at h15
        cases hw : ws'.getLast? with
        | none =>
          have : ws' = [] := by simpa using hw
          subst this
          exact absurd hws'.symm hne
        | some w =>
          rw [hw] at h15 hlast'
          simp only [Option.some_or, Option.some.injEq] at h15
          rw [h15]; exact hlast'
      have hrange : HDir.upwardRange fuel d to.name to.name = some (.ok []) := by
        cases fuel with
        | zero => simp [HDir.upwardRange, HDir.rangeLoop] at hl
        | succ k =>
          unfold HDir.upwardRange HDir.rangeLoop
          rw [stored_iff.1 (show Stored d to.name to by rw [hton]; exact stored_iff.2 hto)]
          simp
      unfold up
      rw [hopen]
      simp only [ensureInitialized, hchain.current hq, hto, hlast, hrange]
      rfl
    · exact absurd rfl ho

example : up demoB 9 demoDir (some "stage") demoUp = some (demoUp, .ok) := by rfl

/-! ### C33 -/

theorem down_ok_table {B : Behaviour σ} {target : Option String} {db : DB σ}
    (h : (down B target db).2 = .ok) : ∃ t, ensureInitialized B db = (.table t, true) := by
  unfold down at h
  split at h
  · cases h
  · cases h
  · cases h
  · next t ht => exact ⟨t, ht⟩

theorem applied_split {t : VTable} {db : DB σ} (happ : t.rows.map Row.version = db.applied)
    {pre post : List Version} {v : Version} (h : db.applied = pre ++ v :: post) :
    ∃ a r b, t.rows = a ++ r :: b ∧ a.map Row.version = pre ∧ r.version = v ∧
      b.map Row.version = post := by
  rw [h] at happ
  obtain ⟨a, x, h1, h2, h3⟩ := List.map_eq_append_iff.1 happ
  obtain ⟨r, b, h4, h5, h6⟩ := List.map_eq_cons_iff.1 h3
  exact ⟨a, r, b, by rw [h1, h4], h2, h5, h6⟩

theorem down_flat (b : List Row) : (b.reverse.flatMap fun x => x.version.down) =
    (b.map Row.version).reverse.flatMap Version.down := by
  rw [← List.map_reverse, List.flatMap_map]

/-- C33.  A successful `down` to `n`: the database has recorded `n`; the recorded down scripts of the
versions recorded after it, newest first, lead from the old data to the new; exactly these versions
are no longer recorded. -/
theorem C33_down_reverts_later {B : Behaviour σ} {db db' : DB σ} (hr : Reach B db) {n : String}
    (h : down B (some n) db = (db', .ok)) :
    ∃ pre v post, db.applied = pre ++ v :: post ∧ v.name = n ∧
      Script B db.data (post.reverse.flatMap Version.down) db'.data ∧ db'.applied = pre ++ [v] := by
  obtain ⟨t, ht⟩ := down_ok_table (B := B) (target := some n) (db := db) (by rw [h])
  obtain ⟨hch, happ, _⟩ := ensure_chain hr.good ht
  by_cases hx : ∃ r ∈ t.rows, r.version.name = n
  · obtain ⟨r, hrm, rfl⟩ := hx
    obtain ⟨a, b, hab⟩ := List.append_of_mem hrm
    rw [down_to ht hch hab (.inl rfl)] at h
    refine ⟨a.map Row.version, r.version, b.map Row.version, by rw [← happ, hab]; simp, rfl, ?_⟩
    split at h
    · next hb =>
      cases h
      subst hb
      exact ⟨.nil, by rw [← happ, hab]; simp⟩
    · split at h
      · cases h
      · next s hs =>
        split at h
        · cases h
          exact ⟨script_iff.2 (by rw [← down_flat]; exact hs), by simp [DB.applied]⟩
        · cases h
  · rw [down_unknown ht hch fun r hr he => hx ⟨r, hr, he⟩] at h
    cases h

/-- And it does succeed exactly when these scripts run and the commit succeeds. -/
theorem C33_down_succeeds {B : Behaviour σ} {db : DB σ} (hr : Reach B db)
    (hw : db.metaSchema ≠ .absent) {pre post : List Version} {v : Version}
    (ha : db.applied = pre ++ v :: post) (hpost : post ≠ []) :
    (down B (some v.name) db).2 = .ok ↔
      ∃ s, Script B db.data (post.reverse.flatMap Version.down) s ∧ B.commits s = true := by
  obtain ⟨t, htab⟩ : ∃ t, db.metaSchema = .table t := by
    cases hm : db.metaSchema with
    | absent => exact absurd hm hw
    | noTable => exact absurd hm hr.hasTable
    | table t => exact ⟨t, rfl⟩
  have ht : ensureInitialized B db = (.table t, true) := by unfold ensureInitialized; rw [htab]
  obtain ⟨hch, happ, _⟩ := ensure_chain hr.good ht
  obtain ⟨a, r, b, hrows, h1, h2, h3⟩ := applied_split happ ha
  subst h2
  rw [down_to ht hch hrows (.inl rfl), down_flat, h3]
  have hb : b ≠ [] := by rintro rfl; exact hpost h3.symm
  rw [if_neg hb]
  constructor
  · intro h
    split at h
    · cases h
    · next s hs =>
      split at h
      · next hc => exact ⟨s, script_iff.2 hs, hc⟩
      · cases h
  · rintro ⟨s, hs, hc⟩
    rw [script_iff.1 hs]
    simp only [hc, if_true]

/-- When `down` panics. -/
theorem Pg.down_panic_iff {B : Behaviour σ} {db : DB σ} (hr : Reach B db)
    (hw : db.metaSchema ≠ .absent) {pre post : List Version} {v : Version}
    (ha : db.applied = pre ++ v :: post) :
    (down B (some v.name) db).2 = .panic ↔
      ¬ ∃ s, Script B db.data (post.reverse.flatMap Version.down) s := by
  obtain ⟨t, htab⟩ : ∃ t, db.metaSchema = .table t := by
    cases hm : db.metaSchema with
    | absent => exact absurd hm hw
    | noTable => exact absurd hm hr.hasTable
    | table t => exact ⟨t, rfl⟩
  have ht : ensureInitialized B db = (.table t, true) := by unfold ensureInitialized; rw [htab]
  obtain ⟨hch, happ, _⟩ := ensure_chain hr.good ht
  obtain ⟨a, r, b, hrows, h1, h2, h3⟩ := applied_split happ ha
  subst h2
  rw [down_to ht hch hrows (.inl rfl), down_flat, h3]
  have hs : (∃ s, Script B db.data (post.reverse.flatMap Version.down) s) ↔
      execAll B db.data (post.reverse.flatMap Version.down) ≠ none := by
    constructor
    · rintro ⟨s, h⟩; rw [script_iff.1 h]; simp
    · intro h
      cases he : execAll B db.data (post.reverse.flatMap Version.down) with
      | none => exact absurd he h
      | some s => exact ⟨s, script_iff.2 he⟩
  rw [hs]
  by_cases hb : b = []
  · rw [if_pos hb]
    subst hb
    simp only [List.map_nil] at h3
    subst h3
    simp [execAll]
  · rw [if_neg hb]
    cases he : execAll B db.data (post.reverse.flatMap Version.down) with
    | none => simp
    | some s =>
      simp only
      split <;> simp

example : (down demoB (some "init") demoUp).2 = .ok :=
  (C33_down_succeeds demoUp_reach (by simp [demoUp]) (pre := []) (v := Version.newInit)
    (post := [demoMade, demoStage]) rfl (by simp)).2 ⟨[], script_iff.2 rfl, rfl⟩

/-! ### C34 -/

theorem undo {B : Behaviour σ} {ws : List Version}
    (hinv : ∀ w ∈ ws, ∀ x y, execAll B x w.up = some y → execAll B y w.down = some x) {x y : σ}
    (h : execAll B x (ws.flatMap Version.up) = some y) :
    execAll B y (ws.reverse.flatMap Version.down) = some x := by
  induction ws generalizing x with
  | nil => simpa [execAll, eq_comm] using h
  | cons w ws ih =>
    rw [List.flatMap_cons, execAll_append] at h
    cases h1 : execAll B x w.up with
    | none => rw [h1] at h; cases h
    | some z =>
      rw [h1] at h
      have h2 := ih (fun v hv => hinv v (by simp [hv])) h
      rw [List.reverse_cons, List.flatMap_append, execAll_append, h2]
      simp only [Option.bind_some, List.flatMap_cons, List.flatMap_nil, List.append_nil]
      exact hinv w (by simp) _ _ h1

/-- C34.  If on this database each stored version's down script undoes its up script, and the old
data could be committed, then `down` to the version that was current before a successful `up`
succeeds and restores the data and the recorded versions. -/
theorem C34_down_undoes_up {B : Behaviour σ} {db db' : DB σ} (hr : Reach B db) {d : HDir}
    (hd : NamedAfterVersion d) {fuel : Nat} {target : Option String}
    (h : up B fuel d target db = some (db', .ok)) {cur : Version}
    (hcur : db.applied.getLast? = some cur)
    (hinv : ∀ n w, Stored d n w → ∀ x y, Script B x w.up y → Script B y w.down x)
    (hcom : B.commits db.data = true) :
    ∃ db'', down B (some cur.name) db' = (db'', .ok) ∧ db''.data = db.data ∧
      db''.applied = db.applied := by
  obtain ⟨n, cur', ws, h1, h2, h3, h4, h5, h6, h7, h8, h9, h10, h11⟩ := up_ok hd.storedNames hr.good h
  rw [hcur] at h2
  cases h2
  have hund := undo (fun w hw x y hxy =>
    script_iff.1 (hinv _ w (h5 w hw) x y (script_iff.2 hxy))) h7
  rcases up_cases h with ⟨_, hc⟩ | ⟨opened, t, hopen, ht, c, to, l, hcu, hto, hl, hc⟩
  · cases hc
  · by_cases hws : ws = []
    · rw [h10 hws] at h ⊢
      obtain ⟨hch, happ, _⟩ := ensure_chain hr.good ht
      obtain ⟨q, r, hq⟩ := hch.split_last
      have hcr : r.version = cur := by
        rw [← happ, hq] at hcur; simpa using hcur
      refine ⟨db, ?_, rfl, rfl⟩
      have := down_to (B := B) ht hch (a := q) (r := r) (b := []) hq (target := some cur.name)
        (.inl (by rw [hcr]))
      rw [this, if_pos rfl]
    · obtain ⟨t', htab', hch'⟩ := h11 hws
      have ht' : ensureInitialized B db' = (.table t', true) := by
        unfold ensureInitialized; rw [htab']
      have happ' : t'.rows.map Row.version = db'.applied := by unfold DB.applied; rw [htab']
      obtain ⟨pre, hpre⟩ : ∃ pre, db.applied = pre ++ [cur] := by
        rcases List.eq_nil_or_concat db.applied with he | ⟨p, x, he⟩
        · rw [he] at hcur; cases hcur
        · rw [List.concat_eq_append] at he
          rw [he] at hcur
          simp only [List.getLast?_append, List.getLast?_singleton, Option.some_or,
            Option.some.injEq] at hcur
          exact ⟨p, by rw [he, hcur]⟩
      obtain ⟨a, r, b, hrows, e1, e2, e3⟩ := applied_split (post := ws) (v := cur) (pre := pre) happ'
        (by rw [h8, hpre]; simp)
      have hdt := down_to (B := B) ht' hch' hrows (target := some cur.name) (.inl (by rw [e2]))
      rw [down_flat, e3, hund] at hdt
      have hb : b ≠ [] := by rintro rfl; exact hws e3.symm
      rw [if_neg hb] at hdt
      simp only [hcom, if_true] at hdt
      refine ⟨_, hdt, rfl, ?_⟩
      show (a ++ [r]).map Row.version = _
      rw [List.map_append, e1, List.map_cons, List.map_nil, e2, hpre]

/-- The scripts of the example directory are inverse on the example database. -/
theorem demoB_inverse : ∀ n w, Stored demoDir n w → ∀ x y, Script demoB x w.up y →
    Script demoB y w.down x := by
  intro n w hw x y hxy
  have hmem : ((n ++ ".yaml"), Entry.file (some w)) ∈ demoDir := AMap.mem_of_get? hw
  rw [demoDir_eq] at hmem
  simp only [List.mem_cons, Prod.mk.injEq, Entry.file.injEq, Option.some.injEq, List.not_mem_nil,
    or_false] at hmem
  rw [script_iff] at hxy ⊢
  rcases hmem with ⟨_, rfl⟩ | ⟨_, rfl⟩ | ⟨_, rfl⟩
  · have : execAll demoB x Version.newInit.up = some (Version.newInit.up ++ x) := rfl
    rw [this] at hxy; cases hxy; rfl
  · have : execAll demoB x demoStage.up = some (demoStage.up ++ x) := rfl
    rw [this] at hxy; cases hxy; rfl
  · have : execAll demoB x demoMade.up = some (demoMade.up ++ x) := rfl
    rw [this] at hxy; cases hxy; rfl

example : ∃ db'', down demoB (some "init") demoUp = (db'', .ok) ∧ db''.data = demoNew.data ∧
    db''.applied = demoNew.applied :=
  C34_down_undoes_up (.new []) demoDir_reachable.namedAfterVersion demoUp_eq
    (cur := Version.newInit) rfl demoB_inverse rfl

/-! ### C35 -/

/-- C35.  After any commands, in any order and with any directories, podo has either never written to
the database, or its version table is a chain that starts at init. -/
theorem C35_version_table_chain_partial {B : Behaviour σ} {db : DB σ} (h : Reach B db) :
    db.metaSchema = .absent ∨ ∃ t, db.metaSchema = .table t ∧ IsChain t := by
  cases hm : db.metaSchema with
  | absent => exact .inl rfl
  | noTable => exact absurd hm h.hasTable
  | table t => exact .inr ⟨t, rfl, h.good t hm⟩

/-- Rows are only ever added by `up` on top and removed by `down` from the top. -/
theorem C35_only_the_top_changes {B : Behaviour σ} {db : DB σ} (h : Reach B db) :
    (∀ (fuel : Nat) (d : HDir) (target : Option String) (db' : DB σ) (o : Outcome),
      NamedAfterVersion d → up B fuel d target db = some (db', o) → db.applied <+: db'.applied) ∧
    (∀ target : Option String, (down B target db).1.applied <+: db.applied) := by
  constructor
  · intro fuel d target db' o hd hu
    by_cases ho : o = .ok
    · subst ho
      obtain ⟨n, cur, ws, _, _, _, _, _, _, h8, _⟩ := C31_up_applies_missing_partial h hd hu
      exact ⟨ws, h8.symm⟩
    · rw [(up_unchanged hu ho).applied]; exact List.prefix_refl _
  · intro target
    by_cases ho : (down B target db).2 = .ok
    · obtain ⟨t, ht⟩ := down_ok_table ho
      obtain ⟨hch, happ, _⟩ := ensure_chain h.good ht
      cases target with
      | some n =>
        obtain ⟨pre, v, post, h1, _, _, h4⟩ := C33_down_reverts_later h
          (show down B (some n) db = ((down B (some n) db).1, .ok) by rw [← ho])
        rw [h4, h1]
        exact ⟨post, by simp⟩
      | none =>
        obtain ⟨q, r, hq⟩ := hch.split_last
        rcases List.eq_nil_or_concat q with rfl | ⟨a, x, rfl⟩
        · rw [down_init ht hch hq]; exact List.prefix_refl _
        · have hq' : t.rows = a ++ x :: [r] := by rw [hq]; simp
          have := down_to (B := B) ht hch hq' (target := none) (.inr ⟨rfl, r, rfl⟩)
          rw [this] at ho ⊢
          rw [if_neg (by simp)] at ho ⊢
          split
          · exact List.prefix_refl _
          · split
            · refine ⟨[r.version], ?_⟩
              rw [← happ, hq]; simp [DB.applied]
            · exact List.prefix_refl _
    · rw [(C30_down_all_or_nothing B target db ho).applied]; exact List.prefix_refl _

example : IsChain ⟨[⟨Version.newInit, 1⟩, ⟨demoMade, 2⟩, ⟨demoStage, 3⟩], 4⟩ := by
  rcases C35_version_table_chain_partial demoUp_reach with h | ⟨t, h, ht⟩
  · cases h
  · cases h; exact ht

/-! ### C36 -/

/-- C36.  A successful `down` without a version, with `v` recorded last and something before it:
`v`'s recorded down script is run, and exactly `v` is no longer recorded. -/
theorem C36_down_one_partial {B : Behaviour σ} {db db' : DB σ} (hr : Reach B db) {pre : List Version}
    {v : Version} (ha : db.applied = pre ++ [v]) (hpre : pre ≠ [])
    (h : down B none db = (db', .ok)) :
    Script B db.data v.down db'.data ∧ db'.applied = pre := by
  obtain ⟨t, ht⟩ := down_ok_table (B := B) (target := none) (db := db) (by rw [h])
  obtain ⟨hch, happ, _⟩ := ensure_chain hr.good ht
  rcases List.eq_nil_or_concat pre with rfl | ⟨p, u, rfl⟩
  · exact absurd rfl hpre
  · rw [List.concat_eq_append] at ha ⊢
    obtain ⟨a, r, b, hrows, e1, e2, e3⟩ := applied_split (post := [v]) (v := u) (pre := p) happ
      (by rw [ha]; simp)
    obtain ⟨x, rfl⟩ : ∃ x, b = [x] := by
      cases b with
      | nil => cases e3
      | cons x b =>
        cases b with
        | nil => exact ⟨x, rfl⟩
        | cons y b => simp at e3
    rw [down_to ht hch hrows (.inr ⟨rfl, x, rfl⟩), if_neg (by simp), down_flat, e3] at h
    split at h
    · cases h
    · next s hs =>
      split at h
      · cases h
        refine ⟨script_iff.2 (by simpa using hs), ?_⟩
        simp [DB.applied, e1, e2]
      · cases h

/-- It succeeds exactly when that script runs and the commit succeeds. -/
theorem C36_down_one_succeeds {B : Behaviour σ} {db : DB σ} (hr : Reach B db) {pre : List Version}
    {v : Version} (ha : db.applied = pre ++ [v]) (hpre : pre ≠ []) :
    (down B none db).2 = .ok ↔ ∃ s, Script B db.data v.down s ∧ B.commits s = true := by
  have ht : ∃ t, ensureInitialized B db = (.table t, true) := by
    cases hm : db.metaSchema with
    | absent =>
      unfold DB.applied at ha
      rw [hm] at ha
      cases pre with
      | nil => exact absurd rfl hpre
      | cons p ps => simp at ha
    | noTable => exact absurd hm hr.hasTable
    | table t => exact ⟨t, by unfold ensureInitialized; rw [hm]⟩
  obtain ⟨t, ht⟩ := ht
  obtain ⟨hch, happ, _⟩ := ensure_chain hr.good ht
  rcases List.eq_nil_or_concat pre with rfl | ⟨p, u, rfl⟩
  · exact absurd rfl hpre
  · rw [List.concat_eq_append] at ha
    obtain ⟨a, r, b, hrows, e1, e2, e3⟩ := applied_split (post := [v]) (v := u) (pre := p) happ
      (by rw [ha]; simp)
    obtain ⟨x, rfl⟩ : ∃ x, b = [x] := by
      cases b with
      | nil => cases e3
      | cons x b =>
        cases b with
        | nil => exact ⟨x, rfl⟩
        | cons y b => simp at e3
    rw [down_to ht hch hrows (.inr ⟨rfl, x, rfl⟩), if_neg (by simp), down_flat, e3]
    simp only [List.reverse_cons, List.reverse_nil, List.nil_append, List.flatMap_cons,
      List.flatMap_nil, List.append_nil, script_iff]
    cases execAll B db.data v.down with
    | none => simp
    | some s =>
      simp only
      split
      · next hc => simp [hc]
      · next hc => simp [hc]

/-- On the initial version it does nothing, and reports success when the metadata schema is there. -/
theorem C36_down_at_init {B : Behaviour σ} {db : DB σ} (hr : Reach B db) {v : Version}
    (ha : db.applied = [v]) :
    Unchanged db (down B none db).1 ∧ (db.metaSchema ≠ .absent → down B none db = (db, .ok)) := by
  have key : ∀ t, ensureInitialized B db = (.table t, true) → down B none db = (db, .ok) := by
    intro t ht
    obtain ⟨hch, happ, _⟩ := ensure_chain hr.good ht
    rw [ha] at happ
    obtain ⟨r, hr'⟩ : ∃ r, t.rows = [r] := by
      cases hrs : t.rows with
      | nil => rw [hrs] at happ; cases happ
      | cons r rs =>
        cases rs with
        | nil => exact ⟨r, rfl⟩
        | cons r' rs => rw [hrs] at happ; simp at happ
    exact down_init ht hch hr'
  constructor
  · by_cases ho : (down B none db).2 = .ok
    · obtain ⟨t, ht⟩ := down_ok_table ho
      rw [key t ht]; exact .refl _
    · exact C30_down_all_or_nothing B none db ho
  · intro hm
    cases hm' : db.metaSchema with
    | absent => exact absurd hm' hm
    | noTable => exact absurd hm' hr.hasTable
    | table t => exact key t (by unfold ensureInitialized; rw [hm'])

/-- A version that is not recorded is an error and changes nothing. -/
theorem C36_down_unknown {B : Behaviour σ} {db : DB σ} (hr : Reach B db) {n : String}
    (hn : ∀ v ∈ db.applied, v.name ≠ n) :
    (down B (some n) db).2 = .error ∧ Unchanged db (down B (some n) db).1 := by
  have key : (down B (some n) db).2 = .error := by
    by_cases hx : ∃ t, ensureInitialized B db = (.table t, true)
    · obtain ⟨t, ht⟩ := hx
      obtain ⟨hch, happ, _⟩ := ensure_chain hr.good ht
      rw [down_unknown ht hch]
      intro r hr'
      exact hn _ (by rw [← happ]; exact List.mem_map_of_mem hr')
    · unfold down
      split
      · rfl
      · rfl
      · rfl
      · next t ht => exact absurd ⟨t, ht⟩ hx
  exact ⟨key, C30_down_all_or_nothing B _ db (by rw [key]; simp)⟩

example : (down demoB none demoUp).2 = .ok :=
  (C36_down_one_succeeds demoUp_reach (pre := [Version.newInit, demoMade]) rfl (by simp)).2
    ⟨_, script_iff.2 rfl, rfl⟩
example : (down demoB (some "nope") demoUp).2 = .error :=
  (C36_down_unknown demoUp_reach (by
    intro v hv
    simp only [show demoUp.applied = [Version.newInit, demoMade, demoStage] from rfl, List.mem_cons,
      List.not_mem_nil, or_false] at hv
    rcases hv with rfl | rfl | rfl <;> decide)).1
example : down demoB none demoNew = (demoNew, .ok) := by rfl

/-! ### C37 -/

/-- In a project's history nothing comes after the stage. -/
theorem path_from_stage {d : HDir} {vs : List Version} {st : Version} (h : IsHistory d vs st)
    {b : String} {l : List String} (hp : VersionPath d "stage" b l) : b = "stage" ∧ l = [] := by
  induction hp with
  | here _ => exact ⟨rfl, rfl⟩
  | @later p b l v _ hs hv ih =>
    exfalso
    rw [ih.1] at hv
    have hm := (h.stored_iff.1 hs).1
    obtain ⟨a, c, hac⟩ := List.append_of_mem hm
    have hl := h.linked
    rw [hac] at hl
    have hlast := hl.prev_last
    rw [hv] at hlast
    simp only [Option.or_none] at hlast
    cases ha : a.getLast? with
    | none => rw [ha] at hlast; cases hlast
    | some w =>
      rw [ha] at hlast
      simp only [Option.map_some, Option.some.injEq] at hlast
      -- `w` is called stage and is not last
      obtain ⟨a', rfl⟩ : ∃ a', a = a' ++ [w] := by
        rcases List.eq_nil_or_concat a with rfl | ⟨a', x, rfl⟩
        · cases ha
        · simp at ha; exact ⟨a', by rw [← ha]; simp⟩
      have hn := h.names
      have hmap : ("init" :: vs.map Version.name) ++ ["stage"] =
          (Version.newInit :: (vs ++ [st])).map Version.name := by
        simp [h.stage]; rfl
      rw [hmap, hac] at hn
      have hst : st ∈ v :: c := by
        have hg : (Version.newInit :: (vs ++ [st])).getLast? = some st := by
          rw [show Version.newInit :: (vs ++ [st]) = (Version.newInit :: vs) ++ [st] from rfl,
            List.getLast?_append]
          rfl
        rw [hac, List.getLast?_append] at hg
        cases hvc : (v :: c).getLast? with
        | none => simp at hvc
        | some y =>
          rw [hvc] at hg
          simp only [Option.some_or, Option.some.injEq] at hg
          rw [← hg]; exact List.mem_of_getLast? hvc
      rw [List.map_append, List.nodup_append] at hn
      exact hn.2.2 w.name (by simp) st.name (List.mem_map_of_mem hst)
        (by rw [h.stage]; exact hlast.symm)

/-- C37 is false: in every project, when the database is on the stage and the stage is then made a
version, `up` fails, and no `up` to whatever target changes the database. -/
theorem C37_stage_strands_false {B : Behaviour σ} {db : DB σ} (hdb : Reach B db)
    (hcur : db.applied.getLast?.map Version.name = some "stage")
    {d : HDir} (hr : Reachable d) {stamp : String} {label : Option String} {n : String}
    (hn : n = stamp ++ "-" ++ label.getD "auto") (hf : FreshName d n) (hsl : '/' ∉ n.toList)
    {st : Version} (hst : Stored d "stage" st) (hne : st.changes ≠ [] ∨ st.up ≠ [] ∨ st.down ≠ []) :
    ∃ d', Runs (.make stamp label) d d' true ∧ Opens d' n ∧
      (∃ fuel, up B fuel d' none db = some (db, .error)) ∧
      ∀ fuel target db' o, up B fuel d' target db = some (db', o) → Unchanged db db' := by
  subst hn
  change FreshName d (madeName stamp label) at hf
  change '/' ∉ (madeName stamp label).toList at hsl
  obtain ⟨vs, st₀, s, hh, hrec⟩ := hr.sound
  cases hst.unique hh.stored_stage
  obtain ⟨d', hd', hh'⟩ := hh.make hf hsl
  obtain ⟨k, hplan⟩ := hh.makePlan (Version.isEmpty_false hne) stamp label
  obtain ⟨nm, _, hfrom⟩ := hh'.fromDir
  have hcv : (((vs ++ [{ st with name := madeName stamp label }]).map Version.name).getLast?).getD
      "init" = madeName stamp label := by simp
  rw [hcv] at hfrom
  obtain ⟨t, ht⟩ : ∃ t, db.metaSchema = .table t := by
    cases hm : db.metaSchema with
    | absent => unfold DB.applied at hcur; rw [hm] at hcur; exact absurd hcur (by decide)
    | noTable => exact absurd hm hdb.hasTable
    | table t => exact ⟨t, rfl⟩
  have hens : ensureInitialized B db = (.table t, true) := by unfold ensureInitialized; rw [ht]
  obtain ⟨hch, happ, _⟩ := ensure_chain hdb.good hens
  obtain ⟨q, r, hq⟩ := hch.split_last
  have hrn : r.version.name = "stage" := by
    rw [← happ, hq] at hcur; simpa using hcur
  refine ⟨d', runs_of_plan ⟨k, hplan⟩ hd', ⟨_, nm, hfrom _ (Nat.lt_succ_self _)⟩, ?_, ?_⟩
  · -- no path from the stage
    have hnp : ¬ OnPath d' "stage" (madeName stamp label) := by
      rintro ⟨l, hl⟩
      have := (path_from_stage hh' hl).1
      exact hh.fresh_not_mem hf.1 st (by simp) (hh.stage.trans this.symm)
    obtain ⟨f, e, hfe⟩ := (C22_range_fails hh'.namedAfterVersion hh'.acyclic "stage"
      (madeName stamp label)).1.2 hnp
    have hsm : Stored d' (madeName stamp label) { st with name := madeName stamp label } :=
      hh'.stored (v := { st with name := madeName stamp label }) (by simp)
    refine ⟨f + (vs ++ [{ st with name := madeName stamp label }]).length + 2, ?_⟩
    unfold up
    rw [hfrom _ (by omega)]
    simp only [hens, hch.current hq, Option.getD_none, stored_iff.1 hsm, hrn,
      upwardRange_mono (show f ≤ f + (vs ++ [{ st with name := madeName stamp label }]).length + 2 by
        omega) hfe, rollback_self hens]
  · intro fuel target db' o hu
    by_cases ho : o = .ok
    · subst ho
      obtain ⟨m, cur, ws, h1, h2, h3, h4, h5, h6, h7, h8, h9, h10, h11⟩ :=
        up_ok hh'.storedNames hdb.good hu
      rw [h2] at hcur
      simp only [Option.map_some, Option.some.injEq] at hcur
      rw [hcur] at h3
      have := (path_from_stage hh' h3).2
      rw [h10 (by simpa using this)]
      exact .refl _
    · exact up_unchanged hu ho

/-- What remains of C37: if the stage's down script works, the way out is to revert the stage first.
`down` without a version and then `up` bring the database to the made version.  Missing: that `up`
alone does so. -/
theorem C37_recovered_by_down_partial {B : Behaviour σ} {db : DB σ} (hdb : Reach B db)
    {pre : List Version} {st : Version} (happ : db.applied = pre ++ [st]) (hpre : pre ≠ [])
    {d : HDir} (hr : Reachable d) {stamp : String} {label : Option String} {n : String}
    (hn : n = stamp ++ "-" ++ label.getD "auto") (hf : FreshName d n) (hsl : '/' ∉ n.toList)
    (hst : Stored d "stage" st) (hne : st.changes ≠ [] ∨ st.up ≠ [] ∨ st.down ≠ []) {x y : σ}
    (hdown : Script B db.data st.down x) (hcx : B.commits x = true)
    (hup : Script B x st.up y) (hcy : B.commits y = true)
    (hrec : Recordable B (down B none db).1 [{ st with name := n }]) :
    ∃ d' fuel db', Runs (.make stamp label) d d' true ∧
      (down B none db).2 = .ok ∧ up B fuel d' none (down B none db).1 = some (db', .ok) ∧
      db'.data = y ∧ db'.applied = pre ++ [{ st with name := n }] := by
  subst hn
  change FreshName d (madeName stamp label) at hf
  change '/' ∉ (madeName stamp label).toList at hsl
  change Recordable B _ [{ st with name := madeName stamp label }] at hrec
  show ∃ d' fuel db', Runs (.make stamp label) d d' true ∧
      (down B none db).2 = .ok ∧ up B fuel d' none (down B none db).1 = some (db', .ok) ∧
      db'.data = y ∧ db'.applied = pre ++ [{ st with name := madeName stamp label }]
  obtain ⟨vs, st₀, s, hh, hreco⟩ := hr.sound
  cases hst.unique hh.stored_stage
  obtain ⟨d', hd', hh'⟩ := hh.make hf hsl
  obtain ⟨k, hplan⟩ := hh.makePlan (Version.isEmpty_false hne) stamp label
  obtain ⟨nm, _, hfrom⟩ := hh'.fromDir
  have hcv : (((vs ++ [{ st with name := madeName stamp label }]).map Version.name).getLast?).getD
      "init" = madeName stamp label := by simp
  rw [hcv] at hfrom
  have hok : (down B none db).2 = .ok :=
    (C36_down_one_succeeds hdb happ hpre).2 ⟨x, hdown, hcx⟩
  obtain ⟨hs1, hs2⟩ := C36_down_one_partial hdb happ hpre (db' := (down B none db).1) (by rw [← hok])
  have hx : (down B none db).1.data = x := by
    rw [script_iff] at hs1 hdown
    rw [hs1] at hdown; exact Option.some.inj hdown
  -- the version before the stage
  obtain ⟨cur, hcur⟩ : ∃ cur, pre.getLast? = some cur := by
    cases hg : pre.getLast? with
    | none => exact absurd (by simpa using hg) hpre
    | some c => exact ⟨c, rfl⟩
  have hprev : st.previous = some cur.name := by
    rcases C35_version_table_chain_partial hdb with hm | ⟨t, hm, hch⟩
    · unfold DB.applied at happ; rw [hm] at happ
      cases pre with
      | nil => exact absurd rfl hpre
      | cons p ps => simp at happ
    · have hl := hch.linked
      have : t.rows.map Row.version = pre ++ st :: [] := by
        rw [← happ]; unfold DB.applied; rw [hm]
      rw [this] at hl
      have := hl.prev_last
      rw [hcur] at this
      simpa using this
  have hsm : Stored d' (madeName stamp label) { st with name := madeName stamp label } :=
    hh'.stored (v := { st with name := madeName stamp label }) (by simp)
  have hsc : ∃ v, Stored d' cur.name v := by
    have hl := hh.linked
    rw [show Version.newInit :: (vs ++ [st]) = (Version.newInit :: vs) ++ st :: [] by simp] at hl
    have hp := hl.prev_last
    rw [hprev] at hp
    cases hg : (Version.newInit :: vs).getLast? with
    | none => simp at hg
    | some w =>
      rw [hg] at hp
      simp only [Option.map_some, Option.some_or, Option.some.injEq, Option.or_none] at hp
      have hm : w ∈ Version.newInit :: vs := List.mem_of_getLast? hg
      rw [hp]
      refine ⟨w, hh'.stored (v := w) ?_⟩
      rcases List.mem_cons.1 hm with rfl | hm
      · simp
      · simp [hm]
  obtain ⟨cv, hscv⟩ := hsc
  have hpath : VersionPath d' cur.name (madeName stamp label)
      ([{ st with name := madeName stamp label }].map Version.name) :=
    .later (l := []) (.here hscv) hsm hprev
  obtain ⟨fuel, db', h1, h2, h3⟩ := C31_up_succeeds (Reach.down none hdb) hh'.namedAfterVersion
    (target := none) ⟨_, nm, hfrom _ (Nat.lt_succ_self _)⟩ rfl (by rw [hs2]; exact hcur) hpath
    (by
      simp only [List.map_cons, List.map_nil, List.mem_cons, List.not_mem_nil, or_false]
      intro he
      have hfr := hrec.fresh
      rw [hs2, List.map_append, List.nodup_append] at hfr
      exact hfr.2.2 cur.name (List.mem_map_of_mem (List.mem_of_getLast? hcur)) _ (by simp) he)
    (by
      intro w hw
      simp only [List.mem_cons, List.not_mem_nil, or_false] at hw
      subst hw; exact hsm)
    (s' := y) (by rw [hx]; simpa using hup) hcy hrec
  refine ⟨d', fuel, db', runs_of_plan ⟨k, hplan⟩ hd', hok, h1, h2, ?_⟩
  rw [h3, hs2]

/-- Both apply to the example: the database is on the stage of the example directory. -/
example : ∃ d', Runs (.make "20200202000000" none) demoDir d' true ∧
    ∃ fuel, up demoB fuel d' none demoUp = some (demoUp, .error) := by
  obtain ⟨d', h1, _, h2, _⟩ := C37_stage_strands_false demoUp_reach rfl demoDir_reachable
    (stamp := "20200202000000") (label := none) (n := "20200202000000-auto") rfl
    ⟨rfl, noYaml (by decide)⟩ (by decide) (st := demoStage) rfl (by simp [demoStage])
  exact ⟨d', h1, h2⟩

end Podo
