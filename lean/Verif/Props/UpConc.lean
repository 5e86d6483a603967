import Verif.Proofs.UpConc
import Verif.Props.Pg
import Verif.Props.FileConc
/-
C83: `up` while other processes write version files.
-/
namespace Podo
open Pg FConc UConc
variable {σ : Type}

/-! ### What always holds -/

/-- C83.  What `up` does with nobody else at the version files is one of the things it may do beside others. -/
theorem C83_alone {B : Behaviour σ} {fuel : Nat} {d : HDir} {target : Option String} {db db' : DB σ}
    {o : Outcome} {P : HistCmd → Prop} (h : up B fuel d target db = some (db', o)) :
    Beside B target db P (idle d) (idle d) (.done db' o) :=
  beside_alone h

/-- C83.  Whatever others do to the version files: if `up` fails, nothing has changed; if it succeeds, some
versions are recorded on top of those that were, exactly their statements have run, and each of them is as it
was in its file at the start, unless it is the stage or of a name that a `make` was writing. -/
theorem C83_all_or_nothing {B : Behaviour σ} {target : Option String} {db db' : DB σ} {o : Outcome}
    {P : HistCmd → Prop} {d : HDir} (hr : Reachable d) {s : State}
    (h : Beside B target db P (idle d) s (.done db' o)) :
    (o ≠ .ok → Unchanged db db') ∧
    (o = .ok → ∃ ws, db'.applied = db.applied ++ ws ∧
      Script B db.data (ws.flatMap Version.up) db'.data ∧
      ∀ w ∈ ws, Stored d w.name w ∨ w.name = "stage" ∨
        ∃ stamp label, P (.make stamp label) ∧ w.name = madeName stamp label) := by
  obtain ⟨vs, st, sn, hh, _⟩ := hr.sound
  have ht := h.trace (R := Seen P d) (fun s hs n w hw => seen_of_run hh hs hw) (fun n w hw => hw.1)
  cases o with
  | ok =>
    obtain ⟨ws, h1, h2, h3, _⟩ := ht
    exact ⟨fun e => absurd rfl e, fun _ => ⟨ws, h1, script_iff.2 h2, fun w hw => (h3 w hw).2⟩⟩
  | error => exact ⟨fun _ => ht.1, fun e => by cases e⟩
  | panic => exact ⟨fun _ => ht.1, fun e => by cases e⟩

/-! ### As if alone -/

/-- C83, without `make` and not to the stage (partial: see `C83_stage_false`).  Beside any number of `stage`
and `reset` processes, wherever they are with their files and wherever they die, `up` either fails without
having done anything, or does what it does alone. -/
theorem C83_as_if_alone_partial {B : Behaviour σ} {target : Option String} (ht : target ≠ some "stage")
    {db db' : DB σ} {o : Outcome} {d : HDir} (hr : Reachable d) {s : State}
    (h : Beside B target db NoMake (idle d) s (.done db' o)) :
    o = .error ∧ db' = db ∨ ∃ fuel, up B fuel d target db = some (db', o) := by
  obtain ⟨vs, st, sn, hh, _⟩ := hr.sound
  have hno : ∀ stamp label, ¬ NoMake (.make stamp label) := fun _ _ hc => hc _ _ rfl
  have hfix : ∀ n, n ≠ "stage" → Fixed NoMake d n := fun n hn =>
    fixed hh hn fun _ _ hp => absurd hp (hno _ _)
  refine h.same hh (fun n v _ hn => hfix n hn) ?_
  cases target with
  | none => exact .inl ⟨rfl, hno⟩
  | some n => exact .inr ⟨n, rfl, hfix n fun e => ht (by rw [e])⟩

/-- C83, to a made version.  Beside any commands whatever, where no `make` is for a name that is taken, `up`
to a version that is there either fails without having done anything, or does what it does alone. -/
theorem C83_to_made {B : Behaviour σ} {n : String} (hn : n ≠ "stage") {db db' : DB σ} {o : Outcome}
    {P : HistCmd → Prop} {d : HDir} (hr : Reachable d) {v : Version} (hv : Stored d n v)
    (hm : ∀ stamp label w, P (.make stamp label) → ¬ Stored d (madeName stamp label) w) {s : State}
    (h : Beside B (some n) db P (idle d) s (.done db' o)) :
    o = .error ∧ db' = db ∨ ∃ fuel, up B fuel d (some n) db = some (db', o) := by
  obtain ⟨vs, st, sn, hh, _⟩ := hr.sound
  have hfix : ∀ n v, Stored d n v → n ≠ "stage" → Fixed P d n := fun n v hv hn =>
    fixed hh hn fun stamp label hp e => hm stamp label v hp (e ▸ hv)
  exact h.same hh hfix (.inr ⟨n, rfl, hfix n v hv hn⟩)

/-- C83, without a target, beside any commands whatever, where no `make` is for a name that is taken (partial:
it may be towards another version than the newest, see `C83_newest_false`).  `up` either fails without having
done anything, or does what `up` alone does to some version that is there, or does what `up` to a version that
is being made may do. -/
theorem C83_newest_partial {B : Behaviour σ} {db db' : DB σ} {o : Outcome} {P : HistCmd → Prop} {d : HDir}
    (hr : Reachable d) (hm : ∀ stamp label w, P (.make stamp label) → ¬ Stored d (madeName stamp label) w)
    {s : State} (h : Beside B none db P (idle d) s (.done db' o)) :
    o = .error ∧ db' = db ∨
    (∃ n v fuel, n ≠ "stage" ∧ Stored d n v ∧ up B fuel d (some n) db = some (db', o)) ∨
    ∃ stamp label, P (.make stamp label) ∧
      Beside B (some (madeName stamp label)) db P (idle d) s (.done db' o) := by
  obtain ⟨vs, st, sn, hh, _⟩ := hr.sound
  have hi : Known P d "init" := .inl ⟨by decide, _, hh.stored_init⟩
  rcases h.chosen hi fun s hs n v q hv hq => known_of_run hh hs hv hq with ⟨he, _⟩ | ⟨n, hn, hb, _⟩
  · rcases he with he | ⟨_, _, he, _⟩ <;> cases he
  · rcases hn with ⟨hs, v, hv⟩ | ⟨stamp, label, hp, rfl⟩
    · rcases C83_to_made hs hr hv hm hb with h | ⟨fuel, h⟩
      · exact .inl h
      · exact .inr (.inl ⟨n, v, fuel, hs, hv, h⟩)
    · exact .inr (.inr ⟨stamp, label, hp, hb⟩)

/-! ### The version table -/

/-- C83, the version table, without `make` (partial: see `C83_chain_false`).  Beside any number of `stage`
and `reset` processes, whatever the target, the version table remains one chain. -/
theorem C83_chain_partial {B : Behaviour σ} {target : Option String} {db db' : DB σ} {o : Outcome}
    (hdb : Reach B db) {d : HDir} (hr : Reachable d) {s : State}
    (h : Beside B target db NoMake (idle d) s (.done db' o)) :
    (db'.metaSchema = .absent ∨ ∃ t, db'.metaSchema = .table t ∧ IsChain t) ∧
    (o = .ok → ∃ cur ws, db.applied.getLast? = some cur ∧ db'.applied = db.applied ++ ws ∧
      Linked (some cur.name) ws) := by
  obtain ⟨vs, st, sn, hh, _⟩ := hr.sound
  have hno : ∀ stamp label, ¬ NoMake (.make stamp label) := fun _ _ hc => hc _ _ rfl
  have ht := h.trace (R := SeenAlike d) (fun s hs n w hw => seenAlike_of_run hno hh hs hw)
    (fun n w hw => hw.1)
  have key : Good db' → db'.metaSchema ≠ .noTable →
      db'.metaSchema = .absent ∨ ∃ t, db'.metaSchema = .table t ∧ IsChain t := by
    intro hg hn
    cases hm : db'.metaSchema with
    | absent => exact .inl rfl
    | noTable => exact absurd hm hn
    | table t => exact .inr ⟨t, rfl, hg t hm⟩
  have bad : Unchanged db db' ∧ (Good db → Good db') →
      db'.metaSchema = .absent ∨ ∃ t, db'.metaSchema = .table t ∧ IsChain t :=
    fun hx => key (hx.2 hdb.good) fun e => hdb.hasTable (hx.1.noTable.1 e)
  cases o with
  | ok =>
    obtain ⟨ws, h1, h2, h3, h4⟩ := ht
    obtain ⟨hg, cur, hc, hl⟩ := h4 hdb.good onePrevious_alike
    refine ⟨key hg fun e => ?_, fun _ => ⟨cur, ws, hc, h1, hl⟩⟩
    rw [show db'.applied = [] by unfold DB.applied; rw [e]] at h1
    rw [(List.append_eq_nil_iff.1 h1.symm).1] at hc
    cases hc
  | error => exact ⟨bad ht, fun e => by cases e⟩
  | panic => exact ⟨bad ht, fun e => by cases e⟩

/-! ### What can go wrong -/

theorem put_done' {s : State} {d : HDir} {i : Nat} (h : ∀ k, k ≠ i → s.procs k = none) (hd : s.dir = d) :
    s.put i none = idle d := by
  subst hd
  unfold State.put idle
  congr 1
  funext k
  split
  · rfl
  · next h1 => exact h k h1

/-- After `up --version stage` while the stage was written: its last statement is missing. -/
def cutUp : DB (List String) :=
  ⟨.table ⟨[⟨Version.newInit, 1⟩, ⟨demoMade, 2⟩, ⟨{ demoStage with down := [] }, 3⟩], 4⟩,
    demoStage.up ++ demoMade.up⟩

/-- C83 is false for `up` to the stage.  While a `stage` with the very definitions staged before writes
the stage anew, `up --version stage` may record it without the statements that undo it.  The file is afterwards
as before, but `down` then leaves in place what the stage did. -/
theorem C83_stage_false :
    Beside demoB (some "stage") demoNew (fun c => ∃ t, SnapshotOf demoDir "stage" t ∧ c = .stage (.ok t))
      (idle demoDir) (idle demoDir) (.done cutUp .ok) ∧
    Stored demoDir "stage" demoStage ∧ { demoStage with down := [] } ∈ cutUp.applied ∧
    (∀ fuel o, up demoB fuel demoDir (some "stage") demoNew ≠ some (cutUp, o)) ∧
    ∃ db, down demoB (some demoMade.name) cutUp = (db, .ok) ∧ db.data = demoStage.up ++ demoMade.up := by
  refine ⟨?_, rfl, by simp [cutUp, DB.applied], ?_, ?_⟩
  · have hs : ∃ t, calculateSnapshot 9 demoDir "stage" = some (.ok t) ∧
        stageVersion (Diff.compareDiff t t) t demoStage = .ok demoStage := ⟨_, rfl, rfl⟩
    obtain ⟨t, hs, hst⟩ := hs
    have r := Run.refl (P := fun c => ∃ t, SnapshotOf demoDir "stage" t ∧ c = .stage (.ok t)) (idle demoDir)
    have r := r.tail (.start 0 _ ⟨t, ⟨9, hs⟩, rfl⟩ rfl)
    have r := r.trans (run_open (i := 0) rfl 9 rfl)
    have r := r.trans (run_compare (i := 0) (t := t) rfl 9 hs)
    have r := r.tail (.stage (i := 0) (v := demoStage) rfl rfl hst)
    have b : Beside demoB (some "stage") demoNew _ (idle demoDir) _ .started := Beside.start.others r
    have b := b.up (fuel := 9) rfl
    have b := b.up (fuel := 9) rfl
    have b := b.up (fuel := 9) rfl
    have b := b.up (fuel := 9) rfl
    have b := b.up (fuel := 9) rfl
    have b := b.up (fuel := 9) rfl
    have b := b.up (fuel := 9) rfl
    have b := b.up (fuel := 9) rfl
    have b := b.up (fuel := 9) rfl
    have b := b.up (fuel := 9) rfl
    have b := b.other (.empty (i := 0) rfl rfl)
    have b := b.other (.piece (i := 0) (e := some { demoStage with down := [] }) rfl
      (by intro w hw; cases hw; exact ⟨rfl, rfl, fun _ => ⟨by simp [demoStage], [], rfl⟩⟩))
    have b := b.up (fuel := 9) rfl
    have b := b.up (fuel := 9) rfl
    have b := b.other (.written (i := 0) rfl)
    have b := b.other (.leave 0)
    rwa [put_done' (d := demoDir) (by intro k h0; simp [State.put, State.write, idle, h0]) rfl] at b
  · intro fuel o h
    have := up_mono (Nat.le_max_left fuel 9) h
    rw [up_mono (Nat.le_max_right fuel 9) demoUp_eq] at this
    injection this with this
    have : demoUp.applied.map Version.down = cutUp.applied.map Version.down :=
      congrArg (fun y => y.1.applied.map Version.down) this
    exact absurd this (by decide +kernel)
  · have hch : IsChain ⟨[⟨Version.newInit, 1⟩, ⟨demoMade, 2⟩, ⟨{ demoStage with down := [] }, 3⟩], 4⟩ :=
      ⟨⟨_, rfl⟩, ⟨rfl, rfl, rfl, trivial⟩, by decide +kernel, by decide, by decide +kernel⟩
    rw [down_to (t := ⟨[⟨Version.newInit, 1⟩, ⟨demoMade, 2⟩, ⟨{ demoStage with down := [] }, 3⟩], 4⟩)
      rfl hch (a := [⟨Version.newInit, 1⟩]) (r := ⟨demoMade, 2⟩)
      (b := [⟨{ demoStage with down := [] }, 3⟩]) rfl (.inl rfl)]
    exact ⟨⟨.table ⟨[⟨Version.newInit, 1⟩, ⟨demoMade, 2⟩], 4⟩, demoStage.up ++ demoMade.up⟩, rfl, rfl⟩

/-- `demoStage`, made into a version. -/
def secondMade : Version := { demoStage with name := "20200102_000000-auto" }

/-- `demoDir` after that. -/
def secondDir : HDir :=
  [("init.yaml", .file (some Version.newInit)),
   ("stage.yaml", .file (some (Version.newStage "20200102_000000-auto"))),
   ("20200101000000-first.yaml", .file (some demoMade)),
   ("20200102_000000-auto.yaml", .file (some secondMade))]

theorem secondDir_reachable : Reachable secondDir :=
  .step (fuel := 9) (c := .make "20200102_000000" none) (ok := true) demoDir_reachable
    (by intro _ _ h; cases h; exact ⟨rfl, noYaml (by decide)⟩) rfl

/-- The database after `up` there. -/
def secondUp : DB (List String) :=
  ⟨.table ⟨[⟨Version.newInit, 1⟩, ⟨demoMade, 2⟩, ⟨secondMade, 3⟩], 4⟩, demoStage.up ++ demoMade.up⟩

/-- The commands of `C83_chain_false`. -/
def ResetOrMake (c : HistCmd) : Prop := c = .reset ∨ c = .make "20200102_000000" none

/-- C83, the version table, is false with `make`.  A `reset` that had read the stage before a `make` writes it
after; `up --version stage` reads the stage before and after this.  The version just made is applied, and the
stage is recorded on top of it with the predecessor it had before. -/
theorem C83_chain_false :
    ∃ s₀ s db db', Run ResetOrMake (idle demoDir) s₀ ∧
      (∃ fuel, up demoB fuel s₀.dir none demoNew = some (db, .ok)) ∧ Reach demoB db ∧
      db.applied = [Version.newInit, demoMade, secondMade] ∧
      Beside demoB (some "stage") db ResetOrMake s₀ s (.done db' .ok) ∧
      db'.applied = db.applied ++ [demoStage.reset] ∧ demoStage.reset.previous = some demoMade.name ∧
      ∀ t, db'.metaSchema = .table t → ¬ IsChain t := by
  have r := Run.refl (P := ResetOrMake) (idle demoDir)
  have r := r.tail (.start 0 _ (.inl rfl) rfl)
  have r := r.trans (run_open (i := 0) rfl 9 rfl)
  have r := r.tail (.reset (i := 0) (v := demoStage) rfl rfl)
  have r := r.tail (.start 1 _ (.inr rfl) rfl)
  have r := r.trans (run_open (i := 1) rfl 9 rfl)
  have r := r.tail (.make (i := 1) rfl rfl)
  have r := r.trans (run_save (i := 1) rfl (run_nodup demoDir_reachable r) rfl (quiet 0 rfl (by simp)
    (by intro k h0 h1; simp [State.put, idle, h0, h1])))
  have r := r.trans (run_save (i := 1) rfl (run_nodup demoDir_reachable r) rfl (quiet 0 rfl (by simp)
    (by intro k h0 h1; simp [State.put, idle, h0, h1])))
  have r := r.tail (.leave 1)
  have r : Run ResetOrMake (idle demoDir) ((idle secondDir).put 0 (some (.saving [demoStage.reset]))) := by
    refine cast (congrArg _ ?_) r
    unfold State.put
    congr 1
    funext k
    by_cases h0 : k = 0
    · subst h0; rfl
    · by_cases h1 : k = 1
      · subst h1; rfl
      · simp [idle, h0, h1]
  have hup : up demoB 9 secondDir none demoNew = some (secondUp, .ok) := by rfl
  have b : Beside demoB (some "stage") secondUp ResetOrMake
    ((idle secondDir).put 0 (some (.saving [demoStage.reset]))) _ .started := .start
  have b := b.up (fuel := 9) rfl
  have b := b.up (fuel := 9) rfl
  have b := b.up (fuel := 9) rfl
  have b := b.up (fuel := 9) rfl
  have b := b.up (fuel := 9) rfl
  have b := b.up (fuel := 9) rfl
  have b := b.up (fuel := 9) rfl
  have b := b.up (fuel := 9) rfl
  have b := b.up (fuel := 9) rfl
  have b := b.other (.empty (i := 0) rfl rfl)
  have b := b.other (.written (i := 0) rfl)
  have b := b.up (fuel := 9) rfl
  have b := b.up (fuel := 9) rfl
  refine ⟨_, _, secondUp, _, r, ⟨9, hup⟩, .up (.new []) secondDir_reachable.namedAfterVersion hup, rfl, b, rfl, rfl, ?_⟩
  intro t ht hc
  cases ht
  have := hc.linked.2.2.2.1
  revert this
  decide +kernel

theorem alone {s : State} {i : Nat} (h : ∀ j, j ≠ i → s.procs j = none) : ∀ j, j ≠ i → ¬ s.Writing j := by
  rintro j hj ⟨v, vs, a, hv⟩
  rw [h j hj] at hv
  cases hv

/-- C83 is false without a target beside `make`, even a `make` that runs from beginning to end between two
steps of `up`: `up` on a new database may succeed without having applied a version that was made before it
started.  Alone it applies that version, on the directory before the `make` and on the one after. -/
theorem C83_newest_false :
    ∃ db', Beside demoB none demoNew ResetOrMake (idle demoDir) (idle secondDir) (.done db' .ok) ∧
      db' = demoNew ∧ Stored demoDir demoMade.name demoMade ∧
      (∃ fuel db, up demoB fuel demoDir none demoNew = some (db, .ok) ∧ demoMade ∈ db.applied) ∧
      ∃ fuel db, up demoB fuel secondDir none demoNew = some (db, .ok) ∧ demoMade ∈ db.applied := by
  have b : Beside demoB none demoNew ResetOrMake (idle demoDir) _ .started := .start
  have b := b.up (fuel := 9) rfl
  have r := Run.refl (P := ResetOrMake) (idle demoDir)
  have r := r.tail (.start 0 _ (.inr rfl) rfl)
  have r := r.trans (run_open (i := 0) rfl 9 rfl)
  have r := r.tail (.make (i := 0) rfl rfl)
  have r := r.trans (run_save (i := 0) rfl (run_nodup demoDir_reachable r) rfl (alone
    (by intro k h0; simp [State.put, idle, h0])))
  have r := r.trans (run_save (i := 0) rfl (run_nodup demoDir_reachable r) rfl (alone
    (by intro k h0; simp [State.put, idle, h0])))
  have r := r.tail (.leave 0)
  rw [put_done' (d := secondDir) (by intro k h0; simp [State.put, State.write, idle, h0]) rfl] at r
  have b := b.others r
  have b := beside_scan (fuel := 9) b rfl
  exact ⟨_, b, rfl, rfl, ⟨9, ⟨.table ⟨[⟨Version.newInit, 1⟩, ⟨demoMade, 2⟩], 3⟩, demoMade.up⟩, rfl, by simp [DB.applied]⟩,
    9, secondUp, rfl, by simp [DB.applied, secondUp]⟩

/-! ### Examples -/

/-- A `reset` has emptied the stage, while `up` has just opened the history: it goes on as if alone. -/
example : ∃ s, Beside demoB none demoNew NoMake (idle demoDir) s (.done
      ⟨.table ⟨[⟨Version.newInit, 1⟩, ⟨demoMade, 2⟩], 3⟩, demoMade.up⟩ .ok) ∧
    s.dir.get? "stage.yaml" = some (.file none) := by
  have r := Run.refl (P := NoMake) (idle demoDir)
  have r := r.tail (.start 0 .reset (by intro _ _ h; cases h) rfl)
  have r := r.trans (run_open (i := 0) rfl 9 rfl)
  have r := r.tail (.reset (i := 0) (v := demoStage) rfl rfl)
  have b : Beside demoB none demoNew NoMake (idle demoDir) _ .started := Beside.start.others r
  have b := b.up (fuel := 9) rfl
  have b := b.up (fuel := 9) rfl
  have b := b.up (fuel := 9) rfl
  have b := b.up (fuel := 9) rfl
  have b := b.up (fuel := 9) rfl
  have b := b.other (.empty (i := 0) rfl rfl)
  have b := beside_open (fuel := 9) b rfl
  exact ⟨_, b, rfl⟩

/-- A `reset` has emptied the stage before `up` reads it: `up` fails and has done nothing. -/
example : ∃ s, Beside demoB none demoNew NoMake (idle demoDir) s (.done demoNew .error) := by
  have r := Run.refl (P := NoMake) (idle demoDir)
  have r := r.tail (.start 0 .reset (by intro _ _ h; cases h) rfl)
  have r := r.trans (run_open (i := 0) rfl 9 rfl)
  have r := r.tail (.reset (i := 0) (v := demoStage) rfl rfl)
  have r := r.tail (.empty (i := 0) rfl rfl)
  have b : Beside demoB none demoNew NoMake (idle demoDir) _ .started := Beside.start.others r
  have b := beside_scan (fuel := 9) (b.up (fuel := 9) rfl) rfl
  exact ⟨_, b⟩

theorem freeName (stamp : String) (label : Option String) (w : Version) (h : ResetOrMake (.make stamp label)) :
    ¬ Stored demoDir (madeName stamp label) w := by
  rcases h with h | h
  · cases h
  · cases h
    intro hs
    cases hs

/-- `C83_to_made` and `C83_all_or_nothing` beside a `make` in the middle of its work. -/
example : ∃ s, Beside demoB (some demoMade.name) demoNew ResetOrMake (idle demoDir) s (.done
      ⟨.table ⟨[⟨Version.newInit, 1⟩, ⟨demoMade, 2⟩], 3⟩, demoMade.up⟩ .ok) ∧
    s.dir.get? "20200102_000000-auto.yaml" = some (.file none) ∧ Stored demoDir demoMade.name demoMade ∧
    ∀ stamp label w, ResetOrMake (.make stamp label) → ¬ Stored demoDir (madeName stamp label) w := by
  have r := Run.refl (P := ResetOrMake) (idle demoDir)
  have r := r.tail (.start 1 _ (.inr rfl) rfl)
  have r := r.trans (run_open (i := 1) rfl 9 rfl)
  have r := r.tail (.make (i := 1) rfl rfl)
  have b : Beside demoB (some demoMade.name) demoNew ResetOrMake (idle demoDir) _ .started :=
    Beside.start.others r
  have b := b.up (fuel := 9) rfl
  have b := b.other (.empty (i := 1) rfl rfl)
  have b := beside_scan (fuel := 9) b rfl
  exact ⟨_, b, rfl, rfl, freeName⟩

/-- `C83_newest_partial` beside a `make` that has run to its end. -/
example : Reachable demoDir ∧
    (∀ stamp label w, ResetOrMake (.make stamp label) → ¬ Stored demoDir (madeName stamp label) w) ∧
    ∃ db', Beside demoB none demoNew ResetOrMake (idle demoDir) (idle secondDir) (.done db' .ok) :=
  ⟨demoDir_reachable, freeName, C83_newest_false.imp fun _ h => h.1⟩

end Podo
