import Verif.Spec.Pipe
import Verif.Proofs.Pipe
import Verif.Props.ProgramPg
/-
C100: a standard output that stops taking lines.
-/
namespace Podo
namespace Prog
open Proj
variable {σ : Type}

/-- C100: if standard output takes all the lines a command prints, the command does what it does otherwise, and
nothing else. -/
theorem C100_all_lines_taken {S : Setting σ} {k : Nat} {w w' : World σ} {cwd : Proj.Path} {a : Args}
    {out : List String} {e : Ending} (h : Ends S w cwd a w' out e) (hk : out.length ≤ k)
    (w₂ : World σ) (out₂ : List String) (e₂ : Ending) :
    EndsPiped S k w cwd a w₂ out₂ e₂ ↔ w₂ = w' ∧ out₂ = out ∧ e₂ = e := by
  obtain ⟨n, h⟩ := h
  have h1 := (runPiped_ends (k := k) h).1 hk
  constructor
  · rintro ⟨m, h2⟩
    have a1 := runPiped_mono (Nat.le_max_left n m) h1
    rw [runPiped_mono (Nat.le_max_right n m) h2] at a1
    injection a1 with a1
    injection a1 with x y
    injection y with y z
    exact ⟨x, y, z⟩
  · rintro ⟨rfl, rfl, rfl⟩
    exact ⟨n, h1⟩

/-- C100: if standard output stops before all the lines a command prints are taken — `podo up | head`, a disk
that is full — the command panics at the first line that is not taken.  What was taken are the first lines, no
file has changed, and no user of a database sees a difference: not even SQL that was executed, and that the
output shows, has an effect. -/
theorem C100_lines_not_taken {S : Setting σ} {k : Nat} {w w' : World σ} {cwd : Proj.Path} {a : Args}
    {out : List String} {e : Ending} (h : Ends S w cwd a w' out e) (hk : k < out.length) :
    (∃ w₂ out₂ e₂, EndsPiped S k w cwd a w₂ out₂ e₂) ∧
    ∀ w₂ out₂ e₂, EndsPiped S k w cwd a w₂ out₂ e₂ →
      e₂ = .panic ∧ out₂ = out.take k ∧ w₂.fs = w.fs ∧ SameServers w w₂ := by
  obtain ⟨n, h⟩ := h
  obtain ⟨w₁, h1, hf, hs⟩ := (runPiped_ends (k := k) h).2 hk
  refine ⟨⟨_, _, _, n, h1⟩, ?_⟩
  rintro w₂ out₂ e₂ ⟨m, h2⟩
  have a1 := runPiped_mono (Nat.le_max_left n m) h1
  rw [runPiped_mono (Nat.le_max_right n m) h2] at a1
  injection a1 with a1
  injection a1 with x y
  injection y with y z
  subst x y z
  exact ⟨rfl, rfl, hf, hs⟩

/-- C100: whatever ends on such an output either is the command as it is without one, or has been stopped by the
output — that includes a `podo up` that would not end by itself — and has changed nothing. -/
theorem C100_stopped_or_done {S : Setting σ} {k : Nat} {w w' : World σ} {cwd : Proj.Path} {a : Args}
    {out : List String} {e : Ending} (h : EndsPiped S k w cwd a w' out e) :
    (Ends S w cwd a w' out e ∧ out.length ≤ k) ∨
    (e = .panic ∧ out.length = k ∧ w'.fs = w.fs ∧ SameServers w w') := by
  obtain ⟨n, h⟩ := h
  cases hr : run S n w cwd a with
  | none =>
    obtain ⟨h1, h2, _, h3, h4⟩ := runPiped_forever h hr
    exact .inr ⟨h1, h2, h3, h4⟩
  | some r =>
    obtain ⟨w₁, o₁, e₁⟩ := r
    obtain ⟨f1, f2⟩ := runPiped_ends (k := k) hr
    by_cases hk : o₁.length ≤ k
    · rw [f1 hk] at h
      cases h
      exact .inl ⟨⟨n, hr⟩, hk⟩
    · obtain ⟨w₂, h2, h3, h4⟩ := f2 (by omega)
      rw [h2] at h
      cases h
      exact .inr ⟨rfl, by rw [List.length_take]; omega, h3, h4⟩

/-- C100: a standard output that stops makes no command run on that would have ended. -/
theorem C100_ends {S : Setting σ} (k : Nat) {w w' : World σ} {cwd : Proj.Path} {a : Args}
    {out : List String} {e : Ending} (h : Ends S w cwd a w' out e) :
    ∃ w₂ out₂ e₂, EndsPiped S k w cwd a w₂ out₂ e₂ := by
  by_cases hk : out.length ≤ k
  · exact ⟨w', out, e, (C100_all_lines_taken h hk ..).2 ⟨rfl, rfl, rfl⟩⟩
  · exact (C100_lines_not_taken h (by omega)).1

theorem demo_up_ends : ∃ w', Ends pgSetting (pgWorld demoNew) ["w"] (.up "database" (some "stage")) w'
    ["On database version: init", "Applying upward migrations to stage:",
      "  Applying version 20200101000000-first",
      "    CREATE TABLE \"public\".\"t\" (\"id\" int8);", "  Applying version stage",
      "    CREATE VIEW \"public\".\"v\" AS SELECT 1"] .success := by
  have hq : ProfileAt pgSetting.env (pgWorld demoNew).fs ["w"] "database" progProfile := progFs_profile _ _
  exact ⟨_, 9, run_up (S := pgSetting) hq hq podo_meta_reads (some "stage") rfl⟩

/-- `podo up --version stage | head -4`: the statement that creates the table has been executed and is shown, and
it has no effect; with `head -6` all goes well. -/
example : (∃ w₂, EndsPiped pgSetting 4 (pgWorld demoNew) ["w"] (.up "database" (some "stage")) w₂
      ["On database version: init", "Applying upward migrations to stage:",
        "  Applying version 20200101000000-first",
        "    CREATE TABLE \"public\".\"t\" (\"id\" int8);"] .panic ∧ SameServers (pgWorld demoNew) w₂) ∧
    ∃ w₂ out, EndsPiped pgSetting 6 (pgWorld demoNew) ["w"] (.up "database" (some "stage")) w₂ out .success ∧
      out.length = 6 := by
  obtain ⟨w', h⟩ := demo_up_ends
  obtain ⟨⟨w₂, o, e, h1⟩, h2⟩ := C100_lines_not_taken (k := 4) h (by decide)
  obtain ⟨rfl, rfl, _, h5⟩ := h2 _ _ _ h1
  exact ⟨⟨w₂, h1, h5⟩, _, _, (C100_all_lines_taken (k := 6) h (by decide) _ _ _).2 ⟨rfl, rfl, rfl⟩, rfl⟩

/-- Version files with a circle beside the history. -/
def pipeCircle : HDir := [("init.yaml", .file (some Version.newInit)),
  ("stage.yaml", .file (some (Version.newStage "init"))),
  ("x.yaml", .file (some ⟨"x", some "y", [], [], []⟩)),
  ("y.yaml", .file (some ⟨"y", some "x", [], [], []⟩))]

/-- `podo up --version x | head -1`, where `podo up --version x` goes on for ever. -/
example : ∃ w₂, EndsPiped pgSetting 1 ⟨progFs pipeCircle [], (pgWorld demoNew).servers⟩ ["w"]
    (.up "database" (some "x")) w₂ ["On database version: init"] .panic := by
  have hq : ProfileAt pgSetting.env (progFs pipeCircle []) ["w"] "database" progProfile := progFs_profile _ _
  exact ⟨_, 9, runPiped_up (S := pgSetting) (q₀ := progProfile) (q := progProfile)
    (w := ⟨progFs pipeCircle [], (pgWorld demoNew).servers⟩) hq hq podo_meta_reads (some "x") rfl⟩

end Prog
end Podo
