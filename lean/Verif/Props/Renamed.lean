import Verif.Proofs.Renamed
import Verif.Props.Pg
/-
C31–C36 with version files of any names and contents: what still holds when files were renamed or edited by
hand, and what does not.
-/
namespace Podo
open Pg
variable {σ : Type}

/-! ### The directory of the examples -/

/-- Four version files, two of them holding another version than their names say.  No two name the same
predecessor, so the history opens. -/
def renamedDir : HDir :=
  [ ("init.yaml", .file (some Version.newInit)),
    ("1-a.yaml", .file (some ⟨"1-a", some "init", [], ["a"], ["-a"]⟩)),
    ("2-b.yaml", .file (some ⟨"2-x", some "1-a", [], ["b"], ["-b"]⟩)),
    ("2-x.yaml", .file (some ⟨"2-y", none, [], ["x"], ["-x"]⟩)),
    ("3-c.yaml", .file (some ⟨"2-b", none, [], ["c"], ["-c"]⟩)) ]

def renamedB : Behaviour (List String) := stackDb (Version.newInit.up ++ ["a", "b", "x", "c"])

/-- After `up --version 3-c`. -/
def renamedUp : DB (List String) :=
  ⟨.table ⟨[⟨Version.newInit, 1⟩, ⟨⟨"1-a", some "init", [], ["a"], ["-a"]⟩, 2⟩,
    ⟨⟨"2-y", none, [], ["x"], ["-x"]⟩, 3⟩], 4⟩, ["x", "a"]⟩

theorem renamedUp_eq : up renamedB 9 renamedDir (some "3-c") demoNew = some (renamedUp, .ok) := by rfl

theorem renamedUp_reach : ReachAny renamedB renamedUp := .up (.new []) renamedUp_eq

/-! ### C35 -/

/-- C35, for all directories: whatever stands in the version files, podo has either never written to the database, or
its version table starts at init, holds no version twice, names as predecessors only versions recorded before, and the
application order strictly increases. -/
theorem C35_table_sound_any_files {B : Behaviour σ} {db : DB σ} (h : ReachAny B db) :
    db.metaSchema = .absent ∨ ∃ t, db.metaSchema = .table t ∧ IsSound t := by
  cases hm : db.metaSchema with
  | absent => exact .inl rfl
  | noTable => exact absurd hm h.hasTable
  | table t => exact .inr ⟨t, rfl, h.fair t hm⟩

/-- But it need not be a chain where files are not named after their versions: here the version recorded last names no
predecessor at all. -/
theorem C35_renamed_files_false :
    ¬ ∀ (B : Behaviour (List String)) (db : DB (List String)) (t : VTable), ReachAny B db →
      db.metaSchema = .table t → IsChain t := by
  intro h
  have := (h _ _ _ renamedUp_reach rfl).linked
  simp [Linked] at this

/-- Rows are only ever added by `up` on top and removed by `down` from the top, whatever stands in the version files. -/
theorem C35_only_the_top_any_files {B : Behaviour σ} {db : DB σ} (h : ReachAny B db) :
    (∀ (fuel : Nat) (d : HDir) (target : Option String) (db' : DB σ) (o : Outcome),
      up B fuel d target db = some (db', o) → db.applied <+: db'.applied) ∧
    (∀ target : Option String, (down B target db).1.applied <+: db.applied) := by
  constructor
  · intro fuel d target db' o hu
    by_cases ho : o = .ok
    · subst ho
      obtain ⟨_, _, _, _, ws, _, _, _, _, _, _, h8, _⟩ := up_finds h.fair hu
      exact ⟨ws, h8.symm⟩
    · rw [(up_unchanged hu ho).applied]; exact List.prefix_refl _
  · intro target
    rcases down_fair_cases B target h.fair with ⟨hu, _⟩ | ⟨t, a, b, r, s, ht, hab, hd, _⟩
    · rw [hu.applied]; exact List.prefix_refl _
    · rw [hd, ← (ensure_sound h.fair ht).2, hab]
      exact ⟨b.map Row.version, by simp [DB.applied]⟩

example : renamedUp.applied = [Version.newInit, ⟨"1-a", some "init", [], ["a"], ["-a"]⟩,
    ⟨"2-y", none, [], ["x"], ["-x"]⟩] := rfl

/-! ### C31 -/

/-- C31, for all directories.  A successful `up` looks up the version `to` in the file it is given (or in the history's
current one), goes back from the name in it to the database's current version by predecessors, looks up the files with
the names found on the way, and what it finds in these it applies and records: the up scripts of exactly the versions
recorded on top, in this order, lead from the old data to the new. -/
theorem C31_up_any_files {B : Behaviour σ} {db db' : DB σ} (hr : ReachAny B db) {d : HDir}
    {fuel : Nat} {target : Option String} (h : up B fuel d target db = some (db', .ok)) :
    ∃ n to cur ns ws, (target = some n ∨ target = none ∧ Opens d n) ∧ Stored d n to ∧
      db.applied.getLast? = some cur ∧ NamesBack d cur.name to.name ns ∧ Finds d ns ws ∧
      Script B db.data (ws.flatMap Version.up) db'.data ∧ db'.applied = db.applied ++ ws := by
  obtain ⟨n, to, cur, ns, ws, h1, h2, h3, h4, h5, h6, h7, _⟩ := up_finds hr.fair h
  exact ⟨n, to, cur, ns, ws, h1, h2, h3, h4, h5, script_iff.2 h6, h7⟩

/-- But the version asked for need not be among those recorded where files are not named after their versions: neither
one of the name given nor the one in the file of this name. -/
theorem C31_renamed_files_false :
    ∃ (B : Behaviour (List String)) (db db' : DB (List String)) (fuel : Nat) (d : HDir) (n : String) (to : Version),
      ReachAny B db ∧ up B fuel d (some n) db = some (db', .ok) ∧ Stored d n to ∧ to ∉ db'.applied ∧
      ∀ v ∈ db'.applied, v.name ≠ n ∧ v.name ≠ to.name :=
  ⟨renamedB, demoNew, renamedUp, 9, renamedDir, "3-c", ⟨"2-b", none, [], ["c"], ["-c"]⟩, .new [], renamedUp_eq, rfl,
    by decide +kernel, by decide +kernel⟩

/-! ### C32 -/

/-- And a second `up` right after a successful one need not end well there. -/
theorem C32_renamed_files_false :
    ∃ (B : Behaviour (List String)) (db db' : DB (List String)) (fuel : Nat) (d : HDir) (n : String),
      ReachAny B db ∧ up B fuel d (some n) db = some (db', .ok) ∧
      up B fuel d (some n) db' = some (db', .error) :=
  ⟨renamedB, demoNew, renamedUp, 9, renamedDir, "3-c", .new [], renamedUp_eq, rfl⟩

/-! ### C33 -/

/-- C33, for all directories: a successful `down` to `n`, whatever stood in the version files when the versions were
applied. -/
theorem C33_down_any_files {B : Behaviour σ} {db db' : DB σ} (hr : ReachAny B db) {n : String}
    (h : down B (some n) db = (db', .ok)) :
    ∃ pre v post, db.applied = pre ++ v :: post ∧ v.name = n ∧
      Script B db.data (post.reverse.flatMap Version.down) db'.data ∧ db'.applied = pre ++ [v] := by
  obtain ⟨t, ht⟩ := down_ok_table (B := B) (target := some n) (db := db) (by rw [h])
  obtain ⟨hch, happ⟩ := ensure_sound hr.fair ht
  by_cases hx : ∃ r ∈ t.rows, r.version.name = n
  · obtain ⟨r, hrm, rfl⟩ := hx
    obtain ⟨a, b, hab⟩ := List.append_of_mem hrm
    rw [down_to_sound ht hch hab] at h
    refine ⟨a.map Row.version, r.version, b.map Row.version, by rw [← happ, hab]; simp, rfl, ?_⟩
    split at h
    · next hb =>
      cases h
      subst hb
      exact ⟨.nil, by rw [← happ, hab]; simp⟩
    · split at h
      · cases h
      · next s hs =>
        split at h
        · cases h
          exact ⟨script_iff.2 (by rw [← down_flat]; exact hs), by simp [DB.applied]⟩
        · cases h
  · rw [down_unknown_sound ht hch fun r hr he => hx ⟨r, hr, he⟩] at h
    cases h

/-- And it succeeds exactly when these scripts run and the commit succeeds. -/
theorem C33_down_succeeds_any_files {B : Behaviour σ} {db : DB σ} (hr : ReachAny B db)
    (hw : db.metaSchema ≠ .absent) {pre post : List Version} {v : Version}
    (ha : db.applied = pre ++ v :: post) (hpost : post ≠ []) :
    (down B (some v.name) db).2 = .ok ↔
      ∃ s, Script B db.data (post.reverse.flatMap Version.down) s ∧ B.commits s = true := by
  obtain ⟨t, htab⟩ : ∃ t, db.metaSchema = .table t := by
    cases hm : db.metaSchema with
    | absent => exact absurd hm hw
    | noTable => exact absurd hm hr.hasTable
    | table t => exact ⟨t, rfl⟩
  have ht : ensureInitialized B db = (.table t, true) := by unfold ensureInitialized; rw [htab]
  obtain ⟨hch, happ⟩ := ensure_sound hr.fair ht
  obtain ⟨a, r, b, hrows, h1, h2, h3⟩ := applied_split happ ha
  subst h2
  rw [down_to_sound ht hch hrows, down_flat, h3]
  have hb : b ≠ [] := by rintro rfl; exact hpost h3.symm
  rw [if_neg hb]
  constructor
  · intro h
    split at h
    · cases h
    · next s hs =>
      split at h
      · next hc => exact ⟨s, script_iff.2 hs, hc⟩
      · cases h
  · rintro ⟨s, hs, hc⟩
    rw [script_iff.1 hs]
    simp only [hc, if_true]

/-- On the database of the example both versions above init are taken back. -/
example : (down renamedB (some "init") renamedUp).2 = .ok ∧
    (down renamedB (some "init") renamedUp).1.applied = [Version.newInit] := by
  have h := (C33_down_succeeds_any_files renamedUp_reach (by simp [renamedUp]) (pre := []) (v := Version.newInit)
    (post := [⟨"1-a", some "init", [], ["a"], ["-a"]⟩, ⟨"2-y", none, [], ["x"], ["-x"]⟩]) rfl (by simp)).2
    ⟨[], script_iff.2 rfl, rfl⟩
  refine ⟨h, ?_⟩
  obtain ⟨pre, v, post, h1, h2, _, h4⟩ := C33_down_any_files renamedUp_reach (n := "init") (Prod.ext rfl h)
  cases pre with
  | nil =>
    have : v = Version.newInit := by cases h1; rfl
    rw [h4, this]; rfl
  | cons x pre =>
    exfalso
    have hn : ((renamedUp.applied).map Version.name).Nodup := by decide +kernel
    have hx : x = Version.newInit := (List.cons.inj h1).1.symm
    rw [h1, List.cons_append, List.map_cons, List.nodup_cons] at hn
    exact hn.1 (by rw [hx, List.map_append, List.map_cons, h2]; exact List.mem_append_right _ List.mem_cons_self)

/-! ### C34 -/

/-- C34, for all directories. -/
theorem C34_down_undoes_up_any_files {B : Behaviour σ} {db db' : DB σ} (hr : ReachAny B db) {d : HDir}
    {fuel : Nat} {target : Option String}
    (h : up B fuel d target db = some (db', .ok)) {cur : Version}
    (hcur : db.applied.getLast? = some cur)
    (hinv : ∀ n w, Stored d n w → ∀ x y, Script B x w.up y → Script B y w.down x)
    (hcom : B.commits db.data = true) :
    ∃ db'', down B (some cur.name) db' = (db'', .ok) ∧ db''.data = db.data ∧
      db''.applied = db.applied := by
  obtain ⟨n, to, cur', ns, ws, h1, h2, h3, h4, h5, h6, h8, h9, h10⟩ := up_finds hr.fair h
  rw [hcur] at h3
  cases h3
  have hund := undo (fun w hw x y hxy => by
    obtain ⟨m, hm⟩ := h5.stored w hw
    exact script_iff.1 (hinv m w hm x y (script_iff.2 hxy))) h6
  rcases up_cases h with ⟨_, hc⟩ | ⟨opened, t, hopen, ht, c, to', l, hcu, hto, hl, hc⟩
  · cases hc
  · by_cases hws : ws = []
    · rw [h9 hws] at h ⊢
      obtain ⟨hch, happ⟩ := ensure_sound hr.fair ht
      obtain ⟨q, r, hq⟩ := hch.split_last
      have hcr : r.version = cur := by
        rw [← happ, hq] at hcur; simpa using hcur
      refine ⟨db, ?_, rfl, rfl⟩
      have := down_to_sound (B := B) ht hch (a := q) (r := r) (b := []) hq
      rw [hcr] at this
      rw [this, if_pos rfl]
    · obtain ⟨t', htab', hch'⟩ := h10 hws
      have ht' : ensureInitialized B db' = (.table t', true) := by
        unfold ensureInitialized; rw [htab']
      have happ' : t'.rows.map Row.version = db'.applied := by unfold DB.applied; rw [htab']
      obtain ⟨pre, hpre⟩ : ∃ pre, db.applied = pre ++ [cur] := by
        rcases List.eq_nil_or_concat db.applied with he | ⟨p, x, he⟩
        · rw [he] at hcur; cases hcur
        · rw [List.concat_eq_append] at he
          rw [he] at hcur
          simp only [List.getLast?_append, List.getLast?_singleton, Option.some_or,
            Option.some.injEq] at hcur
          exact ⟨p, by rw [he, hcur]⟩
      obtain ⟨a, r, b, hrows, e1, e2, e3⟩ := applied_split (post := ws) (v := cur) (pre := pre) happ'
        (by rw [h8, hpre]; simp)
      have hdt := down_to_sound (B := B) ht' hch' hrows
      rw [down_flat, e3, hund, e2] at hdt
      have hb : b ≠ [] := by rintro rfl; exact hws e3.symm
      rw [if_neg hb] at hdt
      simp only [hcom, if_true] at hdt
      refine ⟨_, hdt, rfl, ?_⟩
      show (a ++ [r]).map Row.version = _
      rw [List.map_append, e1, List.map_cons, List.map_nil, e2, hpre]

/-- The scripts of the example directory are inverse on its database. -/
example : ∃ db'', down renamedB (some "init") renamedUp = (db'', .ok) ∧ db''.data = demoNew.data ∧
    db''.applied = demoNew.applied := by
  refine C34_down_undoes_up_any_files (.new []) renamedUp_eq (cur := Version.newInit) rfl ?_ rfl
  intro n w hw x y hxy
  have hmem : ((n ++ ".yaml"), Entry.file (some w)) ∈ renamedDir := AMap.mem_of_get? hw
  simp only [renamedDir, List.mem_cons, Prod.mk.injEq, Entry.file.injEq, Option.some.injEq, List.not_mem_nil,
    or_false] at hmem
  rw [script_iff] at hxy ⊢
  rcases hmem with ⟨_, rfl⟩ | ⟨_, rfl⟩ | ⟨_, rfl⟩ | ⟨_, rfl⟩ | ⟨_, rfl⟩
  · have : execAll renamedB x Version.newInit.up = some (Version.newInit.up ++ x) := rfl
    rw [this] at hxy; cases hxy; rfl
  all_goals · cases hxy; rfl

/-! ### C36 -/

/-- C36, for all directories: `down` without a version goes back to the recorded predecessor of the version recorded
last, and that is a version recorded; if it names none, nothing is done. -/
theorem C36_down_any_files {B : Behaviour σ} {db : DB σ} (hr : ReachAny B db) (hw : db.metaSchema ≠ .absent)
    {v : Version} (hv : db.applied.getLast? = some v) :
    (v.previous = none → down B none db = (db, .ok)) ∧
    ∀ p, v.previous = some p → down B none db = down B (some p) db ∧ ∃ u ∈ db.applied, u.name = p := by
  obtain ⟨t, htab⟩ : ∃ t, db.metaSchema = .table t := by
    cases hm : db.metaSchema with
    | absent => exact absurd hm hw
    | noTable => exact absurd hm hr.hasTable
    | table t => exact ⟨t, rfl⟩
  have ht : ensureInitialized B db = (.table t, true) := by unfold ensureInitialized; rw [htab]
  obtain ⟨hch, happ⟩ := ensure_sound hr.fair ht
  obtain ⟨q, r, hq⟩ := hch.split_last
  have hrv : r.version = v := by
    rw [← happ, hq] at hv; simpa using hv
  have hd := down_none_sound (B := B) ht hch hq
  rw [hrv] at hd
  refine ⟨fun hp => by rw [hp] at hd; exact hd, fun p hp => ⟨by rw [hp] at hd; exact hd, ?_⟩⟩
  rcases hch.back q r [] hq p (by rw [hrv]; exact hp) with he | ⟨x, hx, he⟩
  · exact ⟨v, by rw [← happ, hq]; simp [hrv], by rw [← hrv]; exact he.symm⟩
  · exact ⟨x.version, by rw [← happ, hq]; exact List.mem_map_of_mem (List.mem_append_left _ hx), he⟩

/-- A version that is not recorded is an error and changes nothing. -/
theorem C36_down_unknown_any_files {B : Behaviour σ} {db : DB σ} (hr : ReachAny B db) {n : String}
    (hn : ∀ v ∈ db.applied, v.name ≠ n) :
    (down B (some n) db).2 = .error ∧ Unchanged db (down B (some n) db).1 := by
  by_cases hx : ∃ t, ensureInitialized B db = (.table t, true)
  · obtain ⟨t, ht⟩ := hx
    obtain ⟨hch, happ⟩ := ensure_sound hr.fair ht
    rw [down_unknown_sound ht hch fun r hr' he => hn r.version (by rw [← happ]; exact List.mem_map_of_mem hr') he]
    exact ⟨rfl, .refl _⟩
  · unfold down
    split
    · next m hm => rw [ensure_fail_rollback hm]; exact ⟨rfl, .refl _⟩
    · exact ⟨rfl, .refl _⟩
    · exact ⟨rfl, .refl _⟩
    · next t ht => exact absurd ⟨t, ht⟩ hx

/-- But where files are not named after their versions, `down` without a version need not take back the version
recorded last: here it does nothing and says it succeeded. -/
theorem C36_renamed_files_false :
    ∃ (B : Behaviour (List String)) (db : DB (List String)) (pre : List Version) (v : Version),
      ReachAny B db ∧ db.applied = pre ++ [v] ∧ pre ≠ [] ∧ down B none db = (db, .ok) :=
  ⟨renamedB, renamedUp, [Version.newInit, ⟨"1-a", some "init", [], ["a"], ["-a"]⟩],
    ⟨"2-y", none, [], ["x"], ["-x"]⟩, renamedUp_reach, rfl, by simp,
    (C36_down_any_files renamedUp_reach (by simp [renamedUp]) rfl).1 rfl⟩

end Podo
