import Verif.Proofs.ConcSerial
import Verif.Proofs.ConcAlone
import Verif.Props.Pg
/-
C68 and C69: several podo processes on one database at the same time.
-/
set_option linter.unusedSimpArgs false
namespace Podo
namespace Conc
open Pg (Row VTable IsChain)

/-! ### Runs for the examples -/

/-- A state with the processes 0 and 1. -/
def two (t : Option (List Row)) (n : Nat) (l : List Ran) (p q : Option Proc) : State :=
  ⟨t, n, l, fun j => if j = 0 then p else if j = 1 then q else none⟩

theorem new_two : State.new = two none 1 [] none none := by
  unfold State.new two
  congr 1
  funext j
  split
  · rfl
  · split <;> rfl

theorem procs0 {t t' n n' l l' p q p'} :
    ((two t n l p q).put 0 p').procs = (two t' n' l' p' q).procs := by
  funext j
  simp only [two, State.put]
  split <;> rfl

theorem procs1 {t t' n n' l l' p q q'} :
    ((two t n l p q).put 1 q').procs = (two t' n' l' p q').procs := by
  funext j
  simp only [two, State.put]
  by_cases h0 : j = 0
  · subst h0; rfl
  · simp only [h0, if_false]
    split <;> rfl

/-- One more step of process 0. -/
theorem Runs.step0 {ok t n l p q t' n' l' p' s'} (h : Runs ok (two t n l p q)) (hs : Step (two t n l p q) s')
    (ht : s'.table = t') (hn : s'.next = n') (hl : s'.log = l')
    (hp : s'.procs = ((two t n l p q).put 0 p').procs) (hok : ok (two t' n' l' p' q)) :
    Runs ok (two t' n' l' p' q) := by
  have e : s' = two t' n' l' p' q := by
    obtain ⟨a, b, c, d⟩ := s'
    simp only at ht hn hl hp
    subst ht hn hl
    rw [hp]
    exact congrArg (State.mk _ _ _) (procs0 (t' := t) (n' := n) (l' := l))
  rw [← e] at hok ⊢
  exact .step h hs hok

/-- One more step of process 1. -/
theorem Runs.step1 {ok t n l p q t' n' l' q' s'} (h : Runs ok (two t n l p q)) (hs : Step (two t n l p q) s')
    (ht : s'.table = t') (hn : s'.next = n') (hl : s'.log = l')
    (hp : s'.procs = ((two t n l p q).put 1 q').procs) (hok : ok (two t' n' l' p q')) :
    Runs ok (two t' n' l' p q') := by
  have e : s' = two t' n' l' p q' := by
    obtain ⟨a, b, c, d⟩ := s'
    simp only at ht hn hl hp
    subst ht hn hl
    rw [hp]
    exact congrArg (State.mk _ _ _) (procs1 (t' := t) (n' := n) (l' := l))
  rw [← e] at hok ⊢
  exact .step h hs hok

theorem free0 {t n l p q} {ok : Tx → Prop} (h : ∀ x, q = some x → ok x.tx) : (two t n l p q).free 0 ok := by
  intro j x hne hj
  simp only [two, hne, if_false] at hj
  split at hj
  · exact h x hj
  · cases hj

theorem free1 {t n l p q} {ok : Tx → Prop} (h : ∀ x, p = some x → ok x.tx) : (two t n l p q).free 1 ok := by
  intro j x hne hj
  simp only [two] at hj
  split at hj
  · exact h x hj
  · cases hj

def demoRows : List Row := [⟨Version.newInit, 1⟩, ⟨demoMade, 2⟩]

/-- With another target than the stage, `up` can only apply made versions. -/
theorem mayApply_made {d : HDir} {vs : List Version} {st : Version} (h : IsHistory d vs st)
    {target : Option String} (ht : target ≠ some "stage") {v : Version} (hm : MayApply d target v) : v ∈ vs := by
  obtain ⟨n, to, hs, hp, ⟨l, hon⟩, hto⟩ := hm
  obtain ⟨hmem, hn⟩ := h.stored_iff.1 hs
  simp only [List.mem_cons, List.mem_append, List.not_mem_nil, or_false] at hmem
  rcases hmem with rfl | hmem | rfl
  · exact absurd rfl hp
  · exact hmem
  · exfalso
    rw [h.stage] at hn
    subst hn
    obtain ⟨e, _⟩ := path_from_stage h hon
    subst e
    rcases hto with e | ⟨_, f, nm, ho⟩
    · exact ht e
    · obtain ⟨nm', _, hf⟩ := h.fromDir
      have h1 := fromDir_mono (Nat.le_max_left f (vs.length + 2)) ho
      rw [hf _ (by omega)] at h1
      simp only [Option.some.injEq, Except.ok.injEq, HDir.Opened.mk.injEq] at h1
      have hns := h.names
      rw [List.nodup_append] at hns
      refine hns.2.2 "stage" ?_ "stage" (by simp) rfl
      cases hl : (vs.map Version.name).getLast? with
      | none => rw [hl] at h1; exact absurd h1.2 (by decide)
      | some x =>
        rw [hl] at h1
        simp only [Option.getD_some] at h1
        rw [← h1.2]
        exact List.mem_cons_of_mem _ (List.mem_of_getLast? hl)

theorem demo_may {v : Version} (h : MayApply demoDir none v) : v = demoMade := by
  obtain ⟨vs, st, s, hh, _⟩ := demoDir_reachable.sound
  have hv := mayApply_made hh (by simp) h
  have hne : v.name ≠ "stage" := by
    have hn := hh.names
    rw [List.nodup_append] at hn
    exact fun e => hn.2.2 v.name (List.mem_cons_of_mem _ (List.mem_map_of_mem hv)) "stage" (by simp) e
  obtain ⟨n, to, hs, hp, _⟩ := h
  have := AMap.mem_of_get? hs
  rw [demoDir_eq] at this
  simp only [List.mem_cons, Prod.mk.injEq, Entry.file.injEq, Option.some.injEq, List.not_mem_nil, or_false] at this
  rcases this with ⟨_, rfl⟩ | ⟨_, rfl⟩ | ⟨_, rfl⟩
  · exact absurd rfl hp
  · exact absurd rfl hne
  · rfl

theorem demo_uses {t n l p q} (hp : ∀ x, p = some x → x.cmd = .up demoDir none ∨ x.cmd = .down none)
    (hq : ∀ x, q = some x → x.cmd = .up demoDir none ∨ x.cmd = .down none) :
    UsesOnly (fun v => v = demoMade) (two t n l p q) := by
  have key : ∀ (x : Proc) d t, x.cmd = Cmd.up d t → (x.cmd = .up demoDir none ∨ x.cmd = .down none) →
      NamedAfterVersion d ∧ ∀ v, MayApply d t v → v = demoMade := by
    intro x d t hc h
    rw [hc] at h
    rcases h with h | h <;> cases h
    exact ⟨demoDir_reachable.namedAfterVersion, fun v => demo_may⟩
  intro i x d t hi hc
  simp only [two] at hi
  split at hi
  · exact key x d t hc (hp x hi)
  · split at hi
    · exact key x d t hc (hq x hi)
    · cases hi

/-- `up` with the history of the examples, by process 0 on a new database. -/
theorem demo_up {ok : State → Prop} (hok : ∀ t n l p, (∀ x, p = some x → x.cmd = .up demoDir none) →
    ok (two t n l p none)) : Runs ok (two (some demoRows) 3 [.up demoMade] none none) := by
  have h : Runs ok (two none 1 [] none none) := by rw [← new_two]; exact .new
  have okc : ∀ t n l pc tx, ok (two t n l (some ⟨.up demoDir none, pc, tx⟩) none) :=
    fun t n l pc tx => hok _ _ _ _ (by rintro x h; cases h; rfl)
  have h := h.step0 (.begin 0 (.up demoDir none) rfl) rfl rfl rfl rfl (okc ..)
  have h := h.step0 (.create 0 rfl rfl (free0 (by intro x h; cases h))) rfl rfl rfl rfl (okc ..)
  have h := h.step0 (.plan 0 (fuel := 9) (current := Version.newInit) (opened := ⟨_, _⟩) (to := demoMade)
    (names := ["20200101000000-first"]) rfl rfl rfl rfl rfl (by simp)) rfl rfl rfl rfl (okc ..)
  have h := h.step0 (.runUp 0 (v := demoMade) rfl rfl) rfl rfl rfl rfl (okc ..)
  have h := h.step0 (.saveUp 0 rfl (free0 (by intro x h; cases h)) rfl (by decide)) rfl rfl rfl rfl (okc ..)
  exact h.step0 (.commitUp 0 rfl) rfl rfl rfl rfl (hok _ _ _ _ (by intro x h; cases h))

/-- Process 0 goes on to run the script of the last version with `down`. -/
theorem demo_down0 {ok : State → Prop} {q : Option Proc} {l : List Ran} (hok : ∀ t n l p,
    (∀ x, p = some x → x.cmd = .down none) → ok (two t n l p q))
    (h : Runs ok (two (some demoRows) 3 l none q)) :
    Runs ok (two (some demoRows) 3 l (some ⟨.down none, .reverted demoMade [],
      ⟨false, [], [], [.down demoMade]⟩⟩) q) := by
  have okc : ∀ t n l pc tx, ok (two t n l (some ⟨.down none, pc, tx⟩) q) :=
    fun t n l pc tx => hok _ _ _ _ (by rintro x h; cases h; rfl)
  have h := h.step0 (.begin 0 (.down none) rfl) rfl rfl rfl rfl (okc ..)
  have h := h.step0 (.exists_ 0 rfl rfl) rfl rfl rfl rfl (okc ..)
  have h := h.step0 (.readCurrent 0 (current := demoMade) rfl rfl (.inr (by simp [demoMade]))) rfl rfl rfl rfl (okc ..)
  have h := h.step0 (.orderFrom 0 (f := 2) rfl rfl) rfl rfl rfl rfl (okc ..)
  have h : Runs ok (two (some demoRows) 3 l (some ⟨.down none, .bounded 2 1, ⟨false, [], [], []⟩⟩) q) :=
    h.step0 (.orderTo 0 (o := 1) rfl rfl) rfl rfl rfl rfl (okc ..)
  have e : between (State.seen (two (some demoRows) 3 l (some ⟨.down none, .bounded 2 1, ⟨false, [], [], []⟩⟩) q)
      ⟨false, [], [], []⟩) 2 1 = ["20200101000000-first"] :=
    show between ⟨demoRows, 3⟩ 2 1 = _ by decide +kernel
  have h := h.step0 (p' := some ⟨.down none, .reverting ["20200101000000-first"], ⟨false, [], [], []⟩⟩)
    (.range 0 rfl (by rw [e]; simp)) rfl rfl rfl (by rw [e]) (okc ..)
  exact h.step0 (.runDown 0 (v := demoMade) rfl rfl) rfl rfl rfl rfl (okc ..)

/-- The same by process 1. -/
theorem demo_down1 {ok : State → Prop} {p : Option Proc} {l : List Ran} (hok : ∀ t n l q,
    (∀ x, q = some x → x.cmd = .down none) → ok (two t n l p q))
    (h : Runs ok (two (some demoRows) 3 l p none)) :
    Runs ok (two (some demoRows) 3 l p (some ⟨.down none, .reverted demoMade [],
      ⟨false, [], [], [.down demoMade]⟩⟩)) := by
  have okc : ∀ t n l pc tx, ok (two t n l p (some ⟨.down none, pc, tx⟩)) :=
    fun t n l pc tx => hok _ _ _ _ (by rintro x h; cases h; rfl)
  have h := h.step1 (.begin 1 (.down none) rfl) rfl rfl rfl rfl (okc ..)
  have h := h.step1 (.exists_ 1 rfl rfl) rfl rfl rfl rfl (okc ..)
  have h := h.step1 (.readCurrent 1 (current := demoMade) rfl rfl (.inr (by simp [demoMade]))) rfl rfl rfl rfl (okc ..)
  have h := h.step1 (.orderFrom 1 (f := 2) rfl rfl) rfl rfl rfl rfl (okc ..)
  have h : Runs ok (two (some demoRows) 3 l p (some ⟨.down none, .bounded 2 1, ⟨false, [], [], []⟩⟩)) :=
    h.step1 (.orderTo 1 (o := 1) rfl rfl) rfl rfl rfl rfl (okc ..)
  have e : between (State.seen (two (some demoRows) 3 l p (some ⟨.down none, .bounded 2 1, ⟨false, [], [], []⟩⟩))
      ⟨false, [], [], []⟩) 2 1 = ["20200101000000-first"] :=
    show between ⟨demoRows, 3⟩ 2 1 = _ by decide +kernel
  have h := h.step1 (q' := some ⟨.down none, .reverting ["20200101000000-first"], ⟨false, [], [], []⟩⟩)
    (.range 1 rfl (by rw [e]; simp)) rfl rfl rfl (by rw [e]) (okc ..)
  exact h.step1 (.runDown 1 (v := demoMade) rfl rfl) rfl rfl rfl rfl (okc ..)

/-! ### C68 -/

/-- C68.  However many podo processes run `up` and `down` at the same time, with whatever version files,
failing anywhere: no version is recorded twice, the predecessor of a recorded version is recorded, a
recorded version has been applied, between two runs of a version's up script there is one of its down
script, and so there is after the run of the up script of a version that is not recorded. -/
theorem C68_never_applied_twice {ok : State → Prop} {s : State} (h : Runs ok s) :
    (s.recorded.map Version.name).Nodup ∧
    (∀ v ∈ s.recorded, ∀ q, v.previous = some q → q ∈ s.recorded.map Version.name) ∧
    (∀ v ∈ s.recorded, v = Version.newInit ∨ Ran.up v ∈ s.log) ∧
    (∀ l₁ l₂ l₃ v w, s.log = l₁ ++ .up v :: l₂ ++ .up w :: l₃ → v.name = w.name →
      ∃ u, Ran.down u ∈ l₂ ∧ u.name = v.name) ∧
    (∀ l₁ l₂ v, s.log = l₁ ++ .up v :: l₂ → v.name ∉ s.recorded.map Version.name →
      ∃ u, Ran.down u ∈ l₂ ∧ u.name = v.name) := by
  obtain ⟨hi, hl⟩ := h.inv
  cases ht : s.table with
  | none =>
    have hr : s.recorded = [Version.newInit] := by unfold State.recorded; rw [ht]
    have hrows : s.rows = [] := by unfold State.rows; rw [ht]; rfl
    rw [hr]
    refine ⟨by simp, ?_, ?_, hl.once, ?_⟩
    · intro v hv q e
      simp only [List.mem_singleton] at hv
      subst hv; cases e
    · intro v hv
      simp only [List.mem_singleton] at hv
      exact .inl hv
    · intro l₁ l₂ v e _
      exact hl.closed v.name (by rw [hrows]; simp) l₁ l₂ v e rfl
  | some rows =>
    have hr : s.recorded = s.rows.map Row.version := by unfold State.recorded State.rows; rw [ht]; rfl
    rw [hr, List.map_map]
    refine ⟨hi.nodup, ?_, ?_, hl.once, ?_⟩
    · intro v hv q e
      obtain ⟨r, hr, rfl⟩ := List.mem_map.1 hv
      exact hi.prev r hr q e
    · intro v hv
      obtain ⟨r, hr, rfl⟩ := List.mem_map.1 hv
      exact hl.applied r hr
    · intro l₁ l₂ v e hn
      exact hl.closed v.name hn l₁ l₂ v e rfl

/-- C68 on the example: an `up`, and then the version recorded. -/
example : ∃ s, Runs (fun _ => True) s ∧ s.log = [.up demoMade] ∧
    s.recorded = [Version.newInit, demoMade] :=
  ⟨_, demo_up fun _ _ _ _ _ => trivial, rfl, rfl⟩

/-! ### C69 -/

/-- C69 is false: two `down` commands at the same time run the down script of one version twice. -/
theorem C69_down_twice_false : ∃ s v, Runs (UsesOnly fun v => v = demoMade) s ∧ (∀ i, s.procs i = none) ∧
    s.log = [.up v, .down v, .down v] ∧ ¬ Replay [Version.newInit] s.log s.recorded := by
  refine ⟨two (some [⟨Version.newInit, 1⟩]) 3 [.up demoMade, .down demoMade, .down demoMade] none none,
    demoMade, ?_, ?_, rfl, ?_⟩
  rotate_left
  · intro i
    simp only [two]
    split
    · rfl
    · split <;> rfl
  · intro h
    obtain ⟨_, _, _, _, h⟩ := Replay.up_inv h
    obtain ⟨l, e, h⟩ := h.down_inv
    cases (List.append_inj' e rfl).1
    obtain ⟨l, e, _⟩ := h.down_inv
    exact absurd (List.append_inj' (s₁ := []) e rfl).2 (by decide)
  have hok : ∀ t n l p q, (∀ x, p = some x → x.cmd = .up demoDir none ∨ x.cmd = .down none) →
      (∀ x, q = some x → x.cmd = .down none) → UsesOnly (fun v => v = demoMade) (two t n l p q) :=
    fun t n l p q hp hq => demo_uses hp fun x e => .inr (hq x e)
  have h := demo_up (ok := UsesOnly fun v => v = demoMade)
    (fun t n l p hp => hok t n l p none (fun x e => .inl (hp x e)) (by intro x e; cases e))
  have h := demo_down0 (fun t n l p hp => hok t n l p none (fun x e => .inr (hp x e)) (by intro x e; cases e)) h
  have okd : ∀ t n l q, (∀ x, q = some x → x.cmd = .down none) → UsesOnly (fun v => v = demoMade)
      (two t n l (some ⟨.down none, .reverted demoMade [], ⟨false, [], [], [.down demoMade]⟩⟩) q) :=
    fun t n l q hq => hok t n l _ q (by rintro x e; cases e; exact .inr rfl) hq
  have h := demo_down1 okd h
  have h := h.step0 (.deleteDown 0 rfl (free0 (by
    rintro x e; cases e
    refine ⟨by simp, by simp, by simp⟩)) ⟨_, rfl⟩) rfl rfl rfl rfl
    (hok _ _ _ _ _ (by rintro x e; cases e; exact .inr rfl) (by rintro x e; cases e; rfl))
  have h := h.step0 (.commitDown 0 rfl) rfl rfl rfl rfl
    (hok _ _ _ _ _ (by rintro x e; cases e) (by rintro x e; cases e; rfl))
  have h := h.step1 (.deleteDown 1 rfl (free1 (by rintro x e; cases e)) ⟨_, rfl⟩) rfl rfl rfl rfl
    (hok _ _ _ _ _ (by rintro x e; cases e) (by rintro x e; cases e; rfl))
  exact h.step1 (.commitDown 1 rfl) rfl rfl rfl rfl
    (hok _ _ _ _ _ (by rintro x e; cases e) (by rintro x e; cases e))

/-- A project whose stage of the examples was made a version. -/
def demoDirA : HDir := (runCommands 9 (demoCommands ++ [.make "20200102000000" (some "a")]) initDir).getD []
/-- The same under another name. -/
def demoDirB : HDir := (runCommands 9 (demoCommands ++ [.make "20200102000000" (some "b")]) initDir).getD []

def madeA : Version := { demoStage with name := "20200102000000-a" }
def madeB : Version := { demoStage with name := "20200102000000-b" }

theorem demoDirA_reachable : Reachable demoDirA :=
  .step (fuel := 9) (c := .make "20200102000000" (some "a")) (ok := true) demoDir_reachable
    (by intro _ _ h; cases h; exact ⟨rfl, noYaml (by decide)⟩) rfl

theorem demoDirB_reachable : Reachable demoDirB :=
  .step (fuel := 9) (c := .make "20200102000000" (some "b")) (ok := true) demoDir_reachable
    (by intro _ _ h; cases h; exact ⟨rfl, noYaml (by decide)⟩) rfl

/-- C69 is false: `up` from two copies of a project with different next versions, at the same time, leaves
both recorded as following the same version. -/
theorem C69_two_histories_false : ∃ s rows, Runs (fun s => NoDown s ∧ ∀ i p d t, s.procs i = some p →
      p.cmd = .up d t → Reachable d) s ∧ (∀ i, s.procs i = none) ∧ s.table = some rows ∧
    ¬ IsChain ⟨rows, s.next⟩ ∧ ¬ Replay [Version.newInit] s.log s.recorded := by
  refine ⟨two (some (demoRows ++ [⟨madeA, 3⟩, ⟨madeB, 4⟩])) 5 [.up demoMade, .up madeA, .up madeB] none none, _,
    ?_, ?_, rfl, ?_, ?_⟩
  rotate_left
  · intro i
    simp only [two]
    split
    · rfl
    · split <;> rfl
  · intro h
    have h4 := h.linked.2.2.2.1
    exact absurd h4 (by decide)
  · intro h
    obtain ⟨_, _, _, _, h⟩ := Replay.up_inv h
    obtain ⟨_, _, _, _, h⟩ := Replay.up_inv h
    obtain ⟨t, h1, h2, _⟩ := Replay.up_inv h
    cases h1
    exact absurd h2 (by decide)
  have hok : ∀ t n l p q, (∀ x, p = some x → ∃ d, x.cmd = .up d none ∧ Reachable d) →
      (∀ x, q = some x → ∃ d, x.cmd = .up d none ∧ Reachable d) →
      NoDown (two t n l p q) ∧ ∀ i x d t', (two t n l p q).procs i = some x → x.cmd = .up d t' →
        Reachable d := by
    intro t n l p q hp hq
    have key : ∀ i x, (two t n l p q).procs i = some x → ∃ d, x.cmd = .up d none ∧ Reachable d := by
      intro i x hi
      simp only [two] at hi
      split at hi
      · exact hp x hi
      · split at hi
        · exact hq x hi
        · cases hi
    refine ⟨fun i x t' hi hc => ?_, fun i x d t' hi hc => ?_⟩
    · obtain ⟨d, h, _⟩ := key i x hi
      rw [hc] at h; cases h
    · obtain ⟨d', h, hr⟩ := key i x hi
      rw [hc] at h; cases h; exact hr
  have no : ∀ x : Proc, none = some x → ∃ d, x.cmd = .up d none ∧ Reachable d := by rintro x e; cases e
  have A : ∀ pc tx (x : Proc), some ⟨.up demoDirA none, pc, tx⟩ = some x → ∃ d, x.cmd = .up d none ∧ Reachable d := by
    rintro pc tx x e; cases e; exact ⟨_, rfl, demoDirA_reachable⟩
  have B : ∀ pc tx (x : Proc), some ⟨.up demoDirB none, pc, tx⟩ = some x → ∃ d, x.cmd = .up d none ∧ Reachable d := by
    rintro pc tx x e; cases e; exact ⟨_, rfl, demoDirB_reachable⟩
  have h := demo_up (ok := fun s => NoDown s ∧ ∀ i p d t, s.procs i = some p → p.cmd = .up d t → Reachable d)
    (fun t n l p hp => hok t n l p none (fun x e => ⟨_, hp x e, demoDir_reachable⟩) no)
  have h := h.step0 (.begin 0 (.up demoDirA none) rfl) rfl rfl rfl rfl (hok _ _ _ _ _ (A _ _) no)
  have h := h.step0 (.exists_ 0 rfl rfl) rfl rfl rfl rfl (hok _ _ _ _ _ (A _ _) no)
  have h := h.step0 (.plan 0 (fuel := 9) (current := demoMade) (opened := ⟨_, _⟩) (to := madeA)
    (names := ["20200102000000-a"]) rfl rfl rfl rfl rfl (by simp)) rfl rfl rfl rfl (hok _ _ _ _ _ (A _ _) no)
  have h := h.step1 (.begin 1 (.up demoDirB none) rfl) rfl rfl rfl rfl (hok _ _ _ _ _ (A _ _) (B _ _))
  have h := h.step1 (.exists_ 1 rfl rfl) rfl rfl rfl rfl (hok _ _ _ _ _ (A _ _) (B _ _))
  have h := h.step1 (.plan 1 (fuel := 9) (current := demoMade) (opened := ⟨_, _⟩) (to := madeB)
    (names := ["20200102000000-b"]) rfl rfl rfl rfl rfl (by simp)) rfl rfl rfl rfl (hok _ _ _ _ _ (A _ _) (B _ _))
  have h := h.step0 (.runUp 0 (v := madeA) rfl rfl) rfl rfl rfl rfl (hok _ _ _ _ _ (A _ _) (B _ _))
  have h := h.step0 (.saveUp 0 rfl (free0 (by
    rintro x e; cases e; exact ⟨by simp, by simp, by simp⟩)) rfl (by decide)) rfl rfl rfl rfl
    (hok _ _ _ _ _ (A _ _) (B _ _))
  have h := h.step1 (.runUp 1 (v := madeB) rfl rfl) rfl rfl rfl rfl (hok _ _ _ _ _ (A _ _) (B _ _))
  have h := h.step1 (.saveUp 1 rfl (free1 (by
    rintro x e; cases e; exact ⟨by decide, by simp, by simp⟩)) rfl (by decide)) rfl rfl rfl rfl
    (hok _ _ _ _ _ (A _ _) (B _ _))
  have h := h.step0 (.commitUp 0 rfl) rfl rfl rfl rfl (hok _ _ _ _ _ no (B _ _))
  exact h.step1 (.commitUp 1 rfl) rfl rfl rfl rfl (hok _ _ _ _ _ no no)

/-- C69 (partial).  As long as the versions that the `up` commands may apply are on one line and at most one
`down` runs at a time, podo processes running at the same time act as if one after the other: the scripts
whose effects are committed, in the order of the commits, are each run on the version they belong to, and
lead to the versions recorded, which follow one another.  Missing for the full property: several `down` commands
(C69_down_twice_false) and version files with different next versions (C69_two_histories_false). -/
theorem C69_serial_partial {L : Version → Prop} (hL : OneLine L) {s : State}
    (h : Runs (fun s => UsesOnly L s ∧ OneDown s) s) :
    Replay [Version.newInit] s.log s.recorded ∧
    ∀ rows, s.table = some rows → IsChain ⟨rows, s.next⟩ := by
  obtain ⟨hs, _, _⟩ := h.ser hL
  refine ⟨hs.replay, fun rows ht => ?_⟩
  have hc := hs.base rows ht
  have hi := h.inv.1.nodup
  rw [show s.rows = rows by unfold State.rows; rw [ht]; rfl] at hi
  obtain ⟨rest, e⟩ := hc.head
  exact ⟨⟨rest.map Row.version, by simp [e]⟩, hc.linked, hi, hc.orders, hc.below⟩

/-- The versions of a project that follow others are on one line. -/
theorem project_line {d : HDir} (hr : Reachable d) :
    OneLine fun v => v.previous ≠ none ∧ ∃ n, Stored d n v := by
  obtain ⟨vs, st, s, hh, _⟩ := hr.sound
  constructor
  · rintro v ⟨_, n, hv⟩ he
    obtain ⟨A, u, B, hl, hu⟩ := hh.linked.split (hh.stored_iff.1 hv).1 he
    have hn := hh.names'
    rw [hl, List.map_append, List.nodup_append] at hn
    have := hn.2.1
    simp [hu] at this
  · rintro v w p ⟨_, n, hv⟩ ⟨_, m, hw⟩ hp hq
    exact hh.linked.inj hh.names' (hh.stored_iff.1 hv).1 (hh.stored_iff.1 hw).1 hp hq

/-- The `up` commands of a project may only apply its versions. -/
theorem project_uses {d : HDir} (hr : Reachable d) {s : State}
    (h2 : ∀ i p d₀ t, s.procs i = some p → p.cmd = .up d₀ t →
      d₀ = d ∨ Reachable d₀ ∧ Later d₀ d ∧ t ≠ some "stage") :
    UsesOnly (fun v => v.previous ≠ none ∧ ∃ n, Stored d n v) s := by
  intro i p d₀ t hp hc
  rcases h2 i p d₀ t hp hc with rfl | ⟨hr₀, hl, ht⟩
  · exact ⟨hr.namedAfterVersion, fun v ⟨n, _, hs, hpr, _⟩ => ⟨hpr, n, hs⟩⟩
  · refine ⟨hr₀.namedAfterVersion, fun v hv => ?_⟩
    obtain ⟨vs, st, _, hh, _⟩ := hr₀.sound
    have hmem := mayApply_made hh ht hv
    obtain ⟨n, _, hs, hpr, _⟩ := hv
    refine ⟨hpr, n, C24_made_versions_immutable hr₀ hl ?_ hs⟩
    have hn := hh.names
    rw [List.nodup_append] at hn
    have := hn.2.2 v.name (List.mem_cons_of_mem _ (List.mem_map_of_mem hmem)) "stage" (by simp)
    rwa [(hh.stored_iff.1 hs).2] at this

/-- C69 (partial) for a project: the `up` commands have the version files `d`, or those of an earlier moment
with another target than the stage, and at most one `down` runs at a time. -/
theorem C69_one_project_partial {d : HDir} (hr : Reachable d) {s : State}
    (h : Runs (fun s => OneDown s ∧ ∀ i p d₀ t, s.procs i = some p → p.cmd = .up d₀ t →
      d₀ = d ∨ Reachable d₀ ∧ Later d₀ d ∧ t ≠ some "stage") s) :
    Replay [Version.newInit] s.log s.recorded ∧
    (∀ rows, s.table = some rows → IsChain ⟨rows, s.next⟩) ∧
    ∀ v ∈ s.recorded, Stored d v.name v := by
  have hm := h.mono (ok' := fun s => UsesOnly (fun v => v.previous ≠ none ∧ ∃ n, Stored d n v) s ∧ OneDown s)
    (fun s hs => ⟨project_uses hr hs.2, hs.1⟩)
  obtain ⟨h1, h2⟩ := C69_serial_partial (project_line hr) hm
  refine ⟨h1, h2, ?_⟩
  have hser := (hm.ser (project_line hr)).1
  obtain ⟨vs, st, _, hh, _⟩ := hr.sound
  intro v hv
  unfold State.recorded at hv
  cases ht : s.table with
  | none =>
    rw [ht] at hv
    simp only [List.mem_singleton] at hv
    subst hv
    exact hh.stored_init
  | some rows =>
    rw [ht] at hv
    obtain ⟨r, hr', rfl⟩ := List.mem_map.1 hv
    rcases (hser.base rows ht).line r hr' with e | ⟨_, n, hs⟩
    · rw [e]; exact hh.stored_init
    · rw [(hh.stored_iff.1 hs).2]; exact hs

/-- C69 for `up` commands only, on one line of versions: every version recorded was applied exactly once, in
order, and no other. -/
theorem C69_ups_exactly_once {L : Version → Prop} (hL : OneLine L) {s : State}
    (h : Runs (fun s => UsesOnly L s ∧ NoDown s) s) :
    ∃ vs : List Version, s.log = vs.map .up ∧ s.recorded = Version.newInit :: vs ∧
      Linked (some "init") vs ∧ (s.recorded.map Version.name).Nodup := by
  have h1 := C69_serial_partial hL (h.mono (ok' := fun s => UsesOnly L s ∧ OneDown s) (by
    rintro s ⟨h1, h2⟩
    exact ⟨h1, fun i j p q t u hi _ hc => absurd hc (h2 i p t hi)⟩))
  obtain ⟨_, vs, hvs⟩ := (h.mono (ok' := NoDown) (fun _ h => h.2)).ups
  have hr := h1.1
  rw [hvs] at hr
  have hr := hr.of_ups
  refine ⟨vs, hvs, hr, ?_, (C68_never_applied_twice h).1⟩
  cases ht : s.table with
  | none =>
    unfold State.recorded at hr
    rw [ht] at hr
    have : vs = [] := by simpa using hr
    rw [this]; trivial
  | some rows =>
    have := (h1.2 rows ht).linked
    unfold State.recorded at hr
    rw [ht] at hr
    simp only at hr this
    rw [hr] at this
    exact this.2

/-- The line of the example's project: a run with an `up` and a `down` meets the hypotheses. -/
example : ∃ s, Runs (fun s => UsesOnly (fun v => v = demoMade) s ∧ OneDown s) s ∧
    s.log = [.up demoMade] ∧ s.procs 0 ≠ none := by
  refine ⟨_, demo_down0 (q := none) (fun t n l p hp => ⟨?_, ?_⟩) (demo_up fun t n l p hp => ⟨?_, ?_⟩), rfl, ?_⟩
  · exact demo_uses (fun x e => .inr (hp x e)) (by rintro x e; cases e)
  · rintro i j x y t u hi hj _ _
    simp only [two] at hi hj
    split at hi
    · split at hj
      · next h1 h2 => rw [h1, h2]
      · split at hj <;> cases hj
    · split at hi <;> cases hi
  · exact demo_uses (fun x e => .inl (hp x e)) (by rintro x e; cases e)
  · rintro i j x y t u hi hj _ _
    simp only [two] at hi hj
    split at hi
    · split at hj
      · next h1 h2 => rw [h1, h2]
      · split at hj <;> cases hj
    · split at hi <;> cases hi
  · simp [two]

example : OneLine fun v => v = demoMade := by
  constructor
  · rintro v rfl; decide
  · rintro v w p rfl rfl _ _; rfl

/-- A process that runs `up` alone does what C30 to C37 are about, whether it succeeds or not: it can go from
the state of the database before to that of the database after, and the scripts it ran are those of the versions
it recorded. -/
theorem C69_up_alone {σ : Type} {B : Pg.Behaviour σ} {db db' : Pg.DB σ} {s : State} (h : Idle db s) {fuel : Nat}
    {d : HDir} {target : Option String} {o : Pg.Outcome} (hu : Pg.up B fuel d target db = some (db', o)) :
    ∃ s' ws, Steps s s' ∧ Idle db' s' ∧ s'.log = s.log ++ ws.map .up ∧ s'.recorded = s.recorded ++ ws :=
  up_alone h hu

/-- The same for `down`. -/
theorem C69_down_alone {σ : Type} {B : Pg.Behaviour σ} {db db' : Pg.DB σ} {s : State} (h : Idle db s)
    {target : Option String} {o : Pg.Outcome} (hu : Pg.down B target db = (db', o)) :
    ∃ (s' : State) (ws : List Version), Steps s s' ∧ Idle db' s' ∧ s'.log = s.log ++ ws.map .down ∧
      s'.recorded = s.recorded.filter fun v => !(ws.map Version.name).contains v.name :=
  down_alone h hu

example : Idle demoNew State.new ∧ Pg.up demoB 9 demoDir (some "stage") demoNew = some (demoUp, .ok) :=
  ⟨⟨fun _ => rfl, rfl⟩, demoUp_eq⟩

end Conc
end Podo
