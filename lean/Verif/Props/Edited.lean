import Verif.Proofs.Edited
import Verif.Props.Fleet
/-
C88: the files of versions that are applied, and databases with no place in the files.
-/
namespace Podo
open Pg
variable {σ : Type}

/-! ### C88 -/

/-- C88.  However the changes and scripts of versions that a database has applied are edited afterwards, `up` to
whatever target does with the database what it would have done without the edit. -/
theorem C88_applied_files_not_read {B : Behaviour σ} {d : HDir} {db : DB σ} (h : Deployed B d db)
    {f : Version → Version} (hf : EditsApplied db f) (fuel : Nat) (target : Option String) :
    up B fuel (d.edit f) target db = up B fuel d target db := by
  unfold up
  rw [fromDir_edit hf.name hf.previous]
  cases HDir.fromDir fuel d with
  | none => rfl
  | some x =>
    cases x with
    | error e => rfl
    | ok opened =>
      simp only
      cases he : ensureInitialized B db with
      | mk m b =>
        cases b with
        | false => rfl
        | true =>
          cases m with
          | absent => rfl
          | noTable => rfl
          | table t =>
            simp only
            cases hcur : t.current with
            | none => rfl
            | some cur =>
              simp only [getVersion_edit]
              cases d.getVersion (target.getD opened.currentVersion) with
              | error e => rfl
              | ok to =>
                simp only [hf.name]
                rw [show HDir.upwardRange fuel (d.edit f) cur.name to.name = HDir.upwardRange fuel d cur.name to.name
                  from rangeLoop_edit hf.name hf.previous ..]
                cases hl : HDir.upwardRange fuel d cur.name to.name with
                | none => rfl
                | some x =>
                  cases x with
                  | error e => rfl
                  | ok l =>
                    cases l with
                    | nil => rfl
                    | cons n l =>
                      simp only
                      rw [upLoop_congr (d := d.edit f) (d' := d)]
                      intro k hk
                      obtain ⟨v, hv, hvn, hna⟩ := range_not_applied h he hcur hl k hk
                      rw [getVersion_edit, stored_iff.1 hv]
                      simp only
                      rw [hf.applied v (by rw [hvn]; exact hna)]

-- The made version's scripts are replaced after it has been applied.
def spoil (v : Version) : Version :=
  if v.name = "20200101000000-first" then { v with up := ["DROP TABLE x"], changes := [] } else v

example : EditsApplied demoAtMade spoil ∧ demoDir.edit spoil ≠ demoDir ∧
    up demoB 9 (demoDir.edit spoil) (some "stage") demoAtMade = up demoB 9 demoDir (some "stage") demoAtMade := by
  have he : EditsApplied demoAtMade spoil := by
    refine ⟨fun v => ?_, fun v => ?_, fun v hv => ?_⟩
    · unfold spoil; split <;> rfl
    · unfold spoil; split <;> rfl
    · unfold spoil
      rw [if_neg]
      intro h
      exact hv demoMade (by simp [DB.applied, demoAtMade]) h.symm
  exact ⟨he, by decide, C88_applied_files_not_read (Brought.deployed demoAtMade_brought) he 9 _⟩

/-- C88 (partial), the other side.  If the files hold no readable version of the name the database is on, `up` to whatever
target ends with an error and leaves the database as it is.  This holds of every directory and of every database that
podo's commands, of this project or of others, have produced.  Missing: databases of other projects that are on a
version of the same name (`C88_same_name_false`). -/
theorem C88_no_place_refused_partial {B : Behaviour σ} {db : DB σ} (hr : Reach B db) {n : String}
    (hn : db.version? = some n) {d : HDir} (hno : ∀ v, ¬ Stored d n v) {fuel : Nat} {target : Option String}
    {db' : DB σ} {o : Outcome} (h : up B fuel d target db = some (db', o)) : db' = db ∧ o = .error := by
  rcases up_cases h with h | ⟨opened, t, _, ht, cur, to, l, hcur, _, hl, _⟩
  · exact h
  · exfalso
    obtain ⟨hch, happ, _⟩ := ensure_chain hr.good ht
    obtain ⟨v, hv⟩ := rangeLoop_source hl
    have : cur.name = n := by
      rcases List.eq_nil_or_concat t.rows with e | ⟨q, r, e⟩
      · obtain ⟨rest, e'⟩ := hch.starts
        rw [e] at e'; cases e'
      · rw [List.concat_eq_append] at e
        have hc := hch.current e
        rw [hcur] at hc
        cases hc
        unfold DB.version? at hn
        rw [← happ, e] at hn
        simpa using hn
    exact hno v (stored_iff.2 (this ▸ hv))

-- A new project and a database of another one.
example : Reach demoB demoAtMade ∧ demoAtMade.version? = some "20200101000000-first" ∧
    (∀ v, ¬ Stored initDir "20200101000000-first" v) ∧
    up demoB 9 initDir none demoAtMade = some (demoAtMade, .error) :=
  ⟨Deployed.reach (Brought.deployed demoAtMade_brought), rfl, (fun _ h => (nomatch (show none = some _ from h))), rfl⟩

/-- Another project, with a made version of the same name. -/
def otherDir : HDir := (runCommands 9 [.stage (.ok (built [.createSchema "public",
  .createTable "public" "other" [⟨"id", "int8", true, none⟩]])), .make "20200101000000" (some "first")] initDir).getD []

def otherMade : Version :=
  ⟨"20200101000000-first", some "init", [.createTable "public" "other" [⟨"id", "int8", true, none⟩]],
    [(Change.createTable "public" "other" [⟨"id", "int8", true, none⟩]).renderSql],
    [(Change.dropTable "public" "other").renderSql]⟩

theorem otherDir_reachable : Reachable otherDir := by
  have h1 : Reachable ((runCommands 9 [.stage (.ok (built [.createSchema "public",
      .createTable "public" "other" [⟨"id", "int8", true, none⟩]]))] initDir).getD []) :=
    .step (fuel := 9) (ok := true) .init (by intro _ _ h; cases h) (c := .stage (.ok (built [.createSchema "public",
      .createTable "public" "other" [⟨"id", "int8", true, none⟩]]))) rfl
  refine .step (fuel := 9) (ok := true) h1 ?_ (c := .make "20200101000000" (some "first")) rfl
  intro a b h
  cases h
  exact ⟨rfl, noYaml (by decide)⟩

def otherAtMade : DB (List String) := ⟨.table ⟨[⟨Version.newInit, 1⟩, ⟨otherMade, 2⟩], 3⟩, otherMade.up⟩

/-- A server that runs everything. -/
def anyB : Behaviour (List String) where
  exec s q := some (s ++ [q])
  commits _ := true
  accepts _ := true
  creates _ := true

theorem otherAtMade_deployed : Deployed anyB otherDir otherAtMade :=
  .up (fuel := 9) (target := none) (o := .ok) (.new [] otherDir_reachable) (by decide) rfl

/-- That a database belongs to the project is not checked beyond the name of the version it is on: `up` of one
project goes on with the database of another, if that is on a version of the same name, and records its versions on
top of those of the other. -/
theorem C88_same_name_false : ∃ (d d' : HDir) (db db' : DB (List String)) (fuel : Nat),
    Reachable d ∧ Deployed anyB d' db ∧ up anyB fuel d (some "stage") db = some (db', .ok) ∧
      db'.applied ≠ db.applied ∧ ∃ v ∈ db'.applied, ¬ Stored d v.name v := by
  refine ⟨demoDir, otherDir, otherAtMade, ⟨.table ⟨[⟨Version.newInit, 1⟩, ⟨otherMade, 2⟩, ⟨demoStage, 3⟩], 4⟩,
    otherMade.up ++ demoStage.up⟩, 9, demoDir_reachable, otherAtMade_deployed, rfl, by decide, otherMade,
    by simp [DB.applied], ?_⟩
  intro h
  have : demoMade = otherMade := (show Stored demoDir "20200101000000-first" demoMade from rfl).unique h
  revert this
  decide

end Podo
