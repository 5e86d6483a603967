import Verif.Proofs.Data
import Verif.Props.Changes
/-
C87: data for which the definitions still have a place.
-/
namespace Podo
open Diff Change

/-! ### C87 -/

/-- C87 for columns and the diff.  The changes from one snapshot to another take a column's data exactly if the other
snapshot has no column of that name in a table of that name: whatever else of the column, its table or its schema
is changed, nothing is dropped to be created again. -/
theorem C87_diff_column_iff {s t : Database} (hs : s.WF) (ht : t.WF) {n r k : String}
    (hp : s.content.objAt (.column n r k) ≠ none) :
    (∃ c ∈ compareDiff s t, c.Discards (.column n r k)) ↔ t.content.objAt (.column n r k) = none :=
  ⟨fun ⟨_, hc, hd⟩ => diff_discards_column hs ht hc hd, diff_drops_column hs hp⟩

/-- C87 for sequences and the diff.  The changes take a sequence's current value exactly if the other snapshot does
not have the very same sequence. -/
theorem C87_diff_sequence_iff {s t : Database} (hs : s.WF) (ht : t.WF) {n r : String} {q : Sequence}
    (hq : s.content.objAt (.relation n r) = some (.sequence q)) :
    (∃ c ∈ compareDiff s t, c.Discards (.relation n r)) ↔
      t.content.objAt (.relation n r) ≠ some (.sequence q) :=
  ⟨fun ⟨_, hc, hd⟩ => diff_discards_sequence hs ht hq hc hd, diff_drops_sequence hs ht hq⟩

/-- C87 is false for sequences: a sequence that both snapshots have, but with another attribute or owner, loses its
current value. -/
theorem C87_sequence_false {s t : Database} (hs : s.WF) (ht : t.WF) {n r : String} {q q' : Sequence}
    (hq : s.content.objAt (.relation n r) = some (.sequence q))
    (hq' : t.content.objAt (.relation n r) = some (.sequence q')) (hne : q ≠ q') :
    ∃ c ∈ compareDiff s t, c.Discards (.relation n r) :=
  (C87_diff_sequence_iff hs ht hq).2 (by rw [hq']; intro h; cases h; exact hne rfl)

-- A sequence whose cache grows, and a column that is not touched.
def cacheDefs (cache : Int) : Database :=
  built [.createSchema "public", .createTable "public" "t" [⟨"id", "int8", true, none⟩],
    .createSequence "public" "q" "int8" 1 1 10 1 cache false]

example : (∃ c ∈ compareDiff (cacheDefs 1) (cacheDefs 2), c.Discards (.relation "public" "q")) ∧
    ¬ ∃ c ∈ compareDiff (cacheDefs 1) (cacheDefs 2), c.Discards (.column "public" "t" "id") := by
  have h : ∀ n, (cacheDefs n).WF := fun n => C10_replayed_wellFormed (cs := [.createSchema "public",
    .createTable "public" "t" [⟨"id", "int8", true, none⟩],
    .createSequence "public" "q" "int8" 1 1 10 1 n false]) rfl
  refine ⟨C87_sequence_false (h 1) (h 2) (q := ⟨"public", "q", "int8", 1, 1, 10, 1, 1, false, none, none⟩)
    (q' := ⟨"public", "q", "int8", 1, 1, 10, 1, 2, false, none, none⟩) rfl rfl (by intro h; cases h), ?_⟩
  rw [C87_diff_column_iff (h 1) (h 2) (n := "public") (r := "t") (k := "id") (by decide)]
  decide

/-- C87 for a version.  The changes of a made version or of the stage take data of the snapshot they start from
exactly if, after some of them, what holds the data is not there. -/
theorem C87_version_iff {d : HDir} (hr : Reachable d) {n : String} {v : Version} (hv : Stored d n v) {m : String}
    (hm : v.previous = some m) {s : Database} (hs : SnapshotOf d m s) {p : Path} (hp : s.content.Holds p) :
    (∃ c ∈ v.changes, c.Discards p) ↔
      ∃ pre s₁, pre <+: v.changes ∧ applyAll pre s = .ok s₁ ∧ ¬ s₁.content.Holds p := by
  obtain ⟨_, s₀, rs, s', h0, h1, _⟩ := C28_scripts_aligned hr hv
  rcases h0 with ⟨e, _⟩ | ⟨m', e, h0⟩
  · rw [hm] at e; cases e
  · rw [hm] at e
    cases e
    cases hs.unique h0
    exact applyAll_discards hs.wf h1.applyAll hp

/-- C87 (partial).  When the definitions are staged after `reset`, no column that the version below the stage and the
definitions both have loses its data by the staged changes.  Missing: definitions staged on top of others
(`C87_restage_false`), sequences (`C87_sequence_false`). -/
theorem C87_reset_stage_partial {d d₁ d₂ : HDir} (hr : Reachable d) {t : Database} (ht : t.WF)
    (h1 : Runs .reset d d₁ true) (h2 : Runs (.stage (.ok t)) d₁ d₂ true) {st : Version} (hst : Stored d₂ "stage" st)
    {m : String} (hm : st.previous = some m) {s : Database} (hs : SnapshotOf d m s) {n r k : String}
    (hp : s.content.objAt (.column n r k) ≠ none) :
    (∃ c ∈ st.changes, c.Discards (.column n r k)) ↔ t.content.objAt (.column n r k) = none := by
  obtain ⟨d', st₀, m', s₀, e1, e2, e3, e4, e5, e6, e7, _⟩ := C29_reset hr
  obtain ⟨rfl, _⟩ := h1.unique e1
  obtain ⟨s₁, st₁, f1, f2, fw, _, f3⟩ := C57_stage_reaches_definitions_partial
    (runs_reachable hr h1 (by intro _ _ h; cases h)) ht
  obtain ⟨s₂, st₂, g1, g2, g3, g4, g5, _⟩ := f3 _ h2
  cases f2.unique e4
  cases g2.unique hst
  rw [hm] at g5
  cases g5
  cases f1.unique e7
  cases hs.unique e6
  rw [g4]
  exact C87_diff_column_iff fw ht hp

/-- The full C87 is false: a column that is missing in definitions that were staged loses its data by the staged
changes, whatever definitions are staged on top of these, with the column or without it. -/
theorem C87_restage_false {d d₁ d₂ : HDir} (hr : Reachable d) {t₁ t₂ : Database} (ht₁ : t₁.WF) (ht₂ : t₂.WF)
    (h1 : Runs (.stage (.ok t₁)) d d₁ true) (h2 : Runs (.stage (.ok t₂)) d₁ d₂ true)
    {s : Database} (hs : SnapshotOf d "stage" s) {n r k : String} (hp : s.content.objAt (.column n r k) ≠ none)
    (hno : t₁.content.objAt (.column n r k) = none) {st : Version} (hst : Stored d₂ "stage" st) :
    ∃ c ∈ st.changes, c.Discards (.column n r k) := by
  obtain ⟨s₀, st₀, f1, f2, fw, _, f3⟩ := C57_stage_reaches_definitions_partial hr ht₁
  obtain ⟨s₁, st₁, g1, g2, g3, g4, g5, _⟩ := f3 _ h1
  obtain ⟨s₁', st₁', i1, i2, iw, _, i3⟩ := C57_stage_reaches_definitions_partial
    (runs_reachable hr h1 (by intro _ _ h; cases h)) ht₂
  obtain ⟨s₂, st₂, j1, j2, j3, j4, j5, _⟩ := i3 _ h2
  cases f1.unique hs
  cases i2.unique g2
  cases j2.unique hst
  obtain ⟨c, hc, hd⟩ := (C87_diff_column_iff fw ht₁ hp).2 hno
  exact ⟨c, by rw [j4, g4]; simp [hc], hd⟩

-- A column is taken out of the definitions, staged, put back and staged: the staged version drops it and adds it.
def colDefs (cols : List String) : Database :=
  built [.createSchema "public", .createTable "public" "t" (cols.map fun c => ⟨c, "int8", true, none⟩)]

def restaged₁ : HDir := (runCommands 9 [.stage (.ok (colDefs ["x"]))] demoDir).getD []
def restaged₂ : HDir := (runCommands 9 [.stage (.ok (colDefs ["id", "x"]))] restaged₁).getD []

theorem colDefs_x_wf : (colDefs ["x"]).WF :=
  C10_replayed_wellFormed (cs := [.createSchema "public", .createTable "public" "t" [⟨"x", "int8", true, none⟩]]) rfl
theorem colDefs_idx_wf : (colDefs ["id", "x"]).WF :=
  C10_replayed_wellFormed (cs := [.createSchema "public", .createTable "public" "t" [⟨"id", "int8", true, none⟩,
    ⟨"x", "int8", true, none⟩]]) rfl

def restagedStage : Version := (match restaged₂.getVersion "stage" with | .ok v => v | .error _ => Version.newInit)

example : (∃ s, SnapshotOf demoDir "20200101000000-first" s ∧ s.content.objAt (.column "public" "t" "id") ≠ none) ∧
    (colDefs ["id", "x"]).content.objAt (.column "public" "t" "id") ≠ none ∧
    Stored restaged₂ "stage" restagedStage ∧ restagedStage.previous = some "20200101000000-first" ∧
    (∃ c ∈ restagedStage.changes, c.Discards (.column "public" "t" "id")) ∧
    (∃ pre s₁, pre <+: restagedStage.changes ∧ applyAll pre (colDefs ["id"]) = .ok s₁ ∧
      ¬ s₁.content.Holds (.column "public" "t" "id")) := by
  have hst : Stored restaged₂ "stage" restagedStage := rfl
  have h1 : Runs (.stage (.ok (colDefs ["x"]))) demoDir restaged₁ true := ⟨9, rfl⟩
  have h2 : Runs (.stage (.ok (colDefs ["id", "x"]))) restaged₁ restaged₂ true := ⟨9, rfl⟩
  have hs : SnapshotOf demoDir "stage" (built [.createSchema "public",
      .createTable "public" "t" [⟨"id", "int8", true, none⟩], .createView "public" "v" "SELECT 1"]) := ⟨9, rfl⟩
  have hd : ∃ c ∈ restagedStage.changes, c.Discards (.column "public" "t" "id") :=
    C87_restage_false demoDir_reachable colDefs_x_wf colDefs_idx_wf h1 h2 hs (by simp [built]; decide) rfl hst
  have hb : SnapshotOf restaged₂ "20200101000000-first" (colDefs ["id"]) := ⟨9, rfl⟩
  refine ⟨⟨colDefs ["id"], ⟨9, rfl⟩, by decide⟩, by decide, hst, rfl, hd, ?_⟩
  have hr2 := runs_reachable (runs_reachable demoDir_reachable h1 (by intro _ _ h; cases h)) h2
    (by intro _ _ h; cases h)
  exact (C87_version_iff hr2 hst (m := "20200101000000-first") rfl hb (p := .column "public" "t" "id")
    (show _ ≠ _ by decide)).1 hd

-- After `reset`, the same definitions leave it alone.
def resetDir : HDir := (runCommands 9 [.reset] restaged₁).getD []
def resetStaged : HDir := (runCommands 9 [.stage (.ok (colDefs ["id", "x"]))] resetDir).getD []
def resetStage : Version := (match resetStaged.getVersion "stage" with | .ok v => v | .error _ => Version.newInit)

example : resetStage.changes ≠ [] ∧ ¬ ∃ c ∈ resetStage.changes, c.Discards (.column "public" "t" "id") := by
  have h1 : Runs (.stage (.ok (colDefs ["x"]))) demoDir restaged₁ true := ⟨9, rfl⟩
  have hr := runs_reachable demoDir_reachable h1 (by intro _ _ h; cases h)
  have h2 : Runs .reset restaged₁ resetDir true := ⟨9, rfl⟩
  have h3 : Runs (.stage (.ok (colDefs ["id", "x"]))) resetDir resetStaged true := ⟨9, rfl⟩
  have hs : SnapshotOf restaged₁ "20200101000000-first" (colDefs ["id"]) := ⟨9, rfl⟩
  refine ⟨by decide, ?_⟩
  rw [C87_reset_stage_partial hr colDefs_idx_wf h2 h3 (st := resetStage) rfl (m := "20200101000000-first") rfl hs
    (by decide)]
  decide

end Podo
