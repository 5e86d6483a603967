import Verif.Proofs.Cli
import Verif.Props.Output
/-
C82: what a command line runs.
-/
namespace Podo
namespace Cli
open Prog

/-- C82: podo runs a command exactly for the command lines that mean it: its name, its options in any
order and in either form, each at most once. -/
theorem C82_lines_iff {argv : List String} {a : Args} : parse argv = some a ↔ Line argv a :=
  parse_iff

/-- C82: no command line means two commands. -/
theorem C82_one_meaning {argv : List String} {a b : Args} (ha : Line argv a) (hb : Line argv b) : a = b := by
  have h1 := parse_iff.2 ha
  rw [parse_iff.2 hb] at h1
  cases h1; rfl

/-- C82: what the process does is what the command that the line means does. -/
theorem C82_runs_iff {σ : Type} {S : Setting σ} {w w' : World σ} {cwd : Proj.Path} {argv out : List String}
    {e : Ending} :
    (∃ fuel, main S fuel w cwd argv = some (w', some (out, e))) ↔
      ∃ a, Line argv a ∧ Ends S w cwd a w' out e := by
  unfold main Ends
  cases hp : parse argv with
  | none =>
    simp only [Option.some.injEq, Prod.mk.injEq, reduceCtorEq, and_false, exists_const, false_iff]
    rintro ⟨a, ha, _⟩
    rw [parse_iff.2 ha] at hp
    cases hp
  | some a =>
    simp only [Option.map_eq_some_iff]
    constructor
    · rintro ⟨fuel, r, h1, h2⟩
      simp only [Prod.mk.injEq, Option.some.injEq] at h2
      obtain ⟨rfl, h2⟩ := h2
      exact ⟨a, parse_iff.1 hp, fuel, by rw [h1, ← h2]⟩
    · rintro ⟨b, hb, fuel, h⟩
      rw [C82_one_meaning hb (parse_iff.1 hp)] at h
      exact ⟨fuel, _, h, rfl⟩

/-- C82: a command line that means no command changes nothing. -/
theorem C82_nothing_else {σ : Type} (S : Setting σ) (fuel : Nat) (w : World σ) (cwd : Proj.Path)
    {argv : List String} (h : ∀ a, ¬ Line argv a) : main S fuel w cwd argv = some (w, none) := by
  unfold main
  cases hp : parse argv with
  | none => rfl
  | some a => exact absurd (parse_iff.1 hp) (h a)

theorem means_perm {os os' : List (String × String)} (h : ∀ o, o ∈ os ↔ o ∈ os') {name : String} {a : Args}
    (hm : Means os name a) : Means os' name a := by
  have nil_ : os = [] → os' = [] := by
    rintro rfl
    exact List.eq_nil_iff_forall_not_mem.2 fun o ho => by simpa using (h o).2 ho
  have prof : ∀ p, ProfileGiven os p → ProfileGiven os' p := by
    intro p hp
    exact hp.imp (h _).1 fun ⟨h1, h2⟩ => ⟨fun v hv => h1 v ((h _).2 hv), h2⟩
  have vers : ∀ v, VersionGiven os v → VersionGiven os' v := by
    intro v hv
    cases v with
    | some v => exact (h _).1 hv
    | none => exact fun v hv' => hv v ((h _).2 hv')
  have all : ∀ {P : String × String → Prop}, (∀ o ∈ os, P o) → ∀ o ∈ os', P o :=
    fun hP o ho => hP o ((h o).2 ho)
  cases hm with
  | init h1 => exact .init (nil_ h1)
  | status h1 h2 => exact .status (all h1) (prof _ h2)
  | stage h1 h2 => exact .stage (all h1) (prof _ h2)
  | reset h1 h2 => exact .reset (all h1) (prof _ h2)
  | make h1 h2 h3 => exact .make (all h1) (prof _ h2) (vers _ h3)
  | up h1 h2 h3 => exact .up (all h1) (prof _ h2) (vers _ h3)
  | down h1 h2 h3 => exact .down (all h1) (prof _ h2) (vers _ h3)
  | clone h1 => exact .clone (nil_ h1)
  | print h1 => exact .print (nil_ h1)
  | sync h1 h2 => exact .sync (all h1) (prof _ h2)

/-- C82: neither the order of the options nor the form they are written in matters. -/
theorem C82_order {name : String} {os os' : List (String × String)} {given : List String} {a : Args}
    (hm : Means os name a) (hn : (os.map (·.1)).Nodup) (hp : os.Perm os') (h : AllWritten os' given) :
    parse (name :: given) = some a :=
  parse_iff.2 ⟨name, os', given, [], by simp, h, (hp.map (·.1)).nodup hn, .inl rfl,
    means_perm (fun _ => hp.mem_iff) hm⟩

/-- C82: every command can be given, with every profile and every version, whatever they begin with. -/
theorem C82_every_command (a : Args) : ∃ argv, Line argv a := by
  have prof : ∀ p, AllWritten [("profile", p)] ["--" ++ "profile" ++ "=" ++ p] :=
    fun p => .cons (here := [_]) .joined .nil
  have both : ∀ p v, AllWritten [("profile", p), ("version", v)]
      ["--" ++ "profile" ++ "=" ++ p, "--" ++ "version" ++ "=" ++ v] :=
    fun p v => .cons (here := [_]) .joined (.cons (here := [_]) .joined .nil)
  cases a with
  | init => exact ⟨_, "init", [], [], [], rfl, .nil, by simp, .inl rfl, .init rfl⟩
  | clone => exact ⟨_, "clone", [], [], [], rfl, .nil, by simp, .inl rfl, .clone rfl⟩
  | print => exact ⟨_, "print", [], [], [], rfl, .nil, by simp, .inl rfl, .print rfl⟩
  | status p => exact ⟨_, "status", _, _, [], rfl, prof p, by simp, .inl rfl, .status (by simp) (.inl (by simp))⟩
  | stage p => exact ⟨_, "stage", _, _, [], rfl, prof p, by simp, .inl rfl, .stage (by simp) (.inl (by simp))⟩
  | reset p => exact ⟨_, "reset", _, _, [], rfl, prof p, by simp, .inl rfl, .reset (by simp) (.inl (by simp))⟩
  | sync p => exact ⟨_, "sync", _, _, [], rfl, prof p, by simp, .inl rfl, .sync (by simp) (.inl (by simp))⟩
  | make p v =>
    cases v with
    | none => exact ⟨_, "make", _, _, [], rfl, prof p, by simp, .inl rfl,
        .make (by simp) (.inl (by simp)) (by simp [VersionGiven])⟩
    | some v => exact ⟨_, "make", _, _, [], rfl, both p v, by simp, .inl rfl,
        .make (by simp) (.inl (by simp)) (by simp [VersionGiven])⟩
  | up p v =>
    cases v with
    | none => exact ⟨_, "up", _, _, [], rfl, prof p, by simp, .inl rfl,
        .up (by simp) (.inl (by simp)) (by simp [VersionGiven])⟩
    | some v => exact ⟨_, "up", _, _, [], rfl, both p v, by simp, .inl rfl,
        .up (by simp) (.inl (by simp)) (by simp [VersionGiven])⟩
  | down p v =>
    cases v with
    | none => exact ⟨_, "down", _, _, [], rfl, prof p, by simp, .inl rfl,
        .down (by simp) (.inl (by simp)) (by simp [VersionGiven])⟩
    | some v => exact ⟨_, "down", _, _, [], rfl, both p v, by simp, .inl rfl,
        .down (by simp) (.inl (by simp)) (by simp [VersionGiven])⟩

/-- C82 is false of three of the commands podo lists: whatever the command line, `clone`, `print` and `sync`
only panic. -/
theorem C82_listed_false {σ : Type} {S : Setting σ} {w w' : World σ} {cwd : Proj.Path}
    {name : String} {rest out : List String} {e : Ending}
    (hn : name = "clone" ∨ name = "print" ∨ name = "sync") {fuel : Nat}
    (h : main S fuel w cwd (name :: rest) = some (w', some (out, e))) : w' = w ∧ out = [] ∧ e = .panic := by
  obtain ⟨a, ⟨name', os, given, last, h1, _, _, _, hm⟩, fuel, he⟩ := C82_runs_iff.1 ⟨fuel, h⟩
  cases h1
  cases hm with
  | clone _ => cases he; exact ⟨rfl, rfl, rfl⟩
  | print _ => cases he; exact ⟨rfl, rfl, rfl⟩
  | sync _ _ => cases he; exact ⟨rfl, rfl, rfl⟩
  | _ => exact absurd hn (by decide)

/-! ### Cases of the hypotheses -/

/-- Options in both forms and another order. -/
example : parse ["up", "--version", "a=b", "--profile=-x"] = some (.up "-x" (some "a=b")) :=
  C82_order (os := [("profile", "-x"), ("version", "a=b")])
    (.up (by simp) (.inl (by simp)) (by simp [VersionGiven])) (by simp) (.swap _ _ _)
    (.cons (here := [_, _]) (.apart (.inr (by simp))) (.cons (here := [_]) .joined .nil))

/-- The profile when none is given, and what is not a command line: an unknown option, an option given
twice, a value with a dash, a profile for `clone`, an argument that is no option. -/
example : parse ["make", "--version", "first", "--"] = some (.make "database" (some "first")) ∧
    parse ["up", "--force"] = none ∧ parse ["up", "--version=1", "--version=2"] = none ∧
    parse ["up", "--version", "-1"] = none ∧ parse ["clone", "--profile=x"] = none ∧
    parse ["down", "first"] = none := by decide +kernel

example {a : Args} : ¬ Line ["up", "--version", "-1"] a := by
  rw [← C82_lines_iff, show parse ["up", "--version", "-1"] = none by decide +kernel]
  simp

/-- `podo stage` in a project, from the command line. -/
example : ∃ w₁ out, (∃ fuel, main progSetting fuel progWorld ["w"] ["stage"] = some (w₁, some (out, .success))) ∧
    w₁.fs.history progProfile.history = progStaged := by
  obtain ⟨w₁, h1, hd, _⟩ := progWorld_stage_prints
  exact ⟨w₁, _, C82_runs_iff.2 ⟨_, C82_lines_iff.1 (show parse ["stage"] = some (.stage "database") by decide +kernel), h1⟩, hd⟩

end Cli
end Podo
