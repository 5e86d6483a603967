import Verif.Proofs.ConcLine
import Verif.Props.Conc
/-
C79: podo processes on one database do not block one another for ever.
-/
set_option linter.unusedSimpArgs false
namespace Podo
namespace Conc
open Pg (Row VTable IsChain)

theorem LogInv.creator {s : State} (hl : LogInv s) {j : Nat} {q : Proc}
    {L : Version → Prop} (h : Line L s) (hj : s.procs j = some q) (hc : q.tx.created = true) :
    q.tx.added ≠ [] := by
  cases hqc : q.cmd with
  | up d t =>
    obtain ⟨ups, hu, _⟩ := (hl.up j q d t hj hqc).ran
    rw [if_pos hc] at hu
    intro e
    rw [e] at hu
    cases hu
  | down t =>
    rw [((h.down j q t hj hqc).fresh hc).1]
    simp

/-- Who is waited for has changed the version table. -/
theorem Waits.changes {s : State} (hl : LogInv s) {L : Version → Prop} (h : Line L s) {i j : Nat}
    (hw : Waits s i j) : j ≠ i ∧ Changes s j := by
  cases hw with
  | @create c tx q hp hne hj _ hc => exact ⟨hne, q, hj, .inl (hl.creator h hj hc)⟩
  | @insert c v ns tx q hp hne hj hw =>
    refine ⟨hne, q, hj, ?_⟩
    rcases hw with ⟨r, hr, _⟩ | hr | ⟨_, _, hr⟩
    · exact .inl (List.ne_nil_of_mem hr)
    · exact .inr (List.ne_nil_of_mem hr)
    · exact .inr (List.ne_nil_of_mem hr)
  | @delete c v ns tx q hp hne hj hw =>
    refine ⟨hne, q, hj, ?_⟩
    rcases hw with hr | ⟨r, hr, _⟩ | ⟨_, _, hr, _⟩
    · exact .inr (List.ne_nil_of_mem hr)
    · exact .inl (List.ne_nil_of_mem hr)
    · exact .inr (List.ne_nil_of_mem hr)

/-- C79.  As long as the versions that the `up` commands may apply are on one line, at most one process at a
time has uncommitted changes in the version table, however many run `up` and `down`. -/
theorem C79_one_at_a_time {L : Version → Prop} (hL : OneLine L) {s : State} (h : Runs (UsesOnly L) s)
    {i j : Nat} (h1 : Changes s i) (h2 : Changes s j) : i = j := by
  obtain ⟨p, hp, h1⟩ := h1
  obtain ⟨q, hq, h2⟩ := h2
  by_cases e : i = j
  · exact e
  · exfalso
    rcases (h.line hL).1.excl i j p q e hp hq with ⟨a, b⟩ | ⟨a, b⟩
    · exact h1.elim (· a) (· b)
    · exact h2.elim (· a) (· b)

/-- C79.  As long as the versions that the `up` commands may apply are on one line, a process that another
waits for does not itself wait for any. -/
theorem C79_waited_for_goes_on {L : Version → Prop} (hL : OneLine L) {s : State} (h : Runs (UsesOnly L) s)
    {i j k : Nat} (hw : Waits s i j) : ¬ Waits s j k := by
  intro hw'
  have hl := h.inv.2
  have hs := (h.line hL).1
  obtain ⟨_, c1⟩ := hw.changes hl hs
  obtain ⟨hne, c2⟩ := hw'.changes hl hs
  exact hne (C79_one_at_a_time hL h c2 c1)

/-- C79.  As long as the versions that the `up` commands may apply are on one line, no podo processes wait
for each other in a circle, however many run `up` and `down`. -/
theorem C79_no_deadlock {L : Version → Prop} (hL : OneLine L) {s : State} (h : Runs (UsesOnly L) s) (i : Nat) :
    ¬ WaitsOn s i i := by
  intro hw
  cases hw with
  | one hw => exact C79_waited_for_goes_on hL h hw hw
  | more hw hw' =>
    cases hw' with
    | one hw' => exact C79_waited_for_goes_on hL h hw hw'
    | more hw' _ => exact C79_waited_for_goes_on hL h hw hw'

/-- C79.  On one line of versions, of the processes that run there is always one that waits for none. -/
theorem C79_some_goes_on {L : Version → Prop} (hL : OneLine L) {s : State} (h : Runs (UsesOnly L) s) {i : Nat}
    (hr : s.procs i ≠ none) : ∃ j, s.procs j ≠ none ∧ ∀ k, ¬ Waits s j k := by
  by_cases hw : ∃ j, Waits s i j
  · obtain ⟨j, hw⟩ := hw
    refine ⟨j, ?_, fun k => C79_waited_for_goes_on hL h hw⟩
    have hl := h.inv.2
    obtain ⟨_, p, hp, _⟩ := hw.changes hl (h.line hL).1
    rw [hp]; simp
  · exact ⟨i, hr, fun k hk => hw ⟨k, hk⟩⟩

/-- A process that has run a script leaves that place only by ending or by inserting the row. -/
theorem Step.at_applied {s s' : State} (hs : Step s s') {i : Nat} {c : Cmd} {v : Version} {ns : List String} {tx : Tx}
    (hp : s.procs i = some ⟨c, .applied v ns, tx⟩) {p : Proc} (hp' : s'.procs i = some p)
    (hne : p.pc ≠ .applied v ns) :
    s.free i (fun o => v.name ∉ o.added.map (fun r => r.version.name) ∧ v.name ∉ o.removed ∧
        ∀ p, v.previous = some p → p ∉ o.removed) := by
  have other : ∀ {j : Nat} {q : Option Proc}, j ≠ i → (s.put j q).procs i = some p → False := by
    intro j q e h
    rw [put_other (Ne.symm e), hp] at h
    cases h
    exact hne rfl
  cases hs with
  | @saveUp k c' tx' w ms hk hfree _ _ =>
    by_cases e : k = i
    · subst e
      rw [hp] at hk
      cases hk
      exact hfree
    · exact (other e hp').elim
  | leave k =>
    by_cases e : k = i
    · subst e; rw [put_same] at hp'; cases hp'
    · exact (other e hp').elim
  | begin k _ hk =>
    by_cases e : k = i
    · subst e; rw [hp] at hk; cases hk
    · exact (other e hp').elim
  | refused k hk =>
    by_cases e : k = i
    · subst e; rw [show (s.put k none).procs k = none from put_same] at hp'; cases hp'
    · exact (other e hp').elim
  | create k hk | exists_ k hk | plan k hk | runUp k hk | commitUp k hk | readCurrent k hk | orderFrom k hk
  | orderTo k hk | range k hk | runDown k hk | deleteDown k hk | commitDown k hk =>
    by_cases e : k = i
    · subst e; rw [hp] at hk; cases hk
    · exact (other e hp').elim

/-- A process that has run a script leaves that place only by ending or by deleting the row. -/
theorem Step.at_reverted {s s' : State} (hs : Step s s') {i : Nat} {c : Cmd} {v : Version} {ns : List String} {tx : Tx}
    (hp : s.procs i = some ⟨c, .reverted v ns, tx⟩) {p : Proc} (hp' : s'.procs i = some p)
    (hne : p.pc ≠ .reverted v ns) :
    s.free i (fun o => v.name ∉ o.removed ∧ (∀ r ∈ o.added, r.version.previous ≠ some v.name) ∧
        ∀ r ∈ s.rows, r.version.name ∈ o.removed → r.version.previous ≠ some v.name) := by
  have other : ∀ {j : Nat} {q : Option Proc}, j ≠ i → (s.put j q).procs i = some p → False := by
    intro j q e h
    rw [put_other (Ne.symm e), hp] at h
    cases h
    exact hne rfl
  cases hs with
  | @deleteDown k c' tx' w ms hk hfree _ =>
    by_cases e : k = i
    · subst e
      rw [hp] at hk
      cases hk
      exact hfree
    · exact (other e hp').elim
  | leave k =>
    by_cases e : k = i
    · subst e; rw [put_same] at hp'; cases hp'
    · exact (other e hp').elim
  | begin k _ hk =>
    by_cases e : k = i
    · subst e; rw [hp] at hk; cases hk
    · exact (other e hp').elim
  | refused k hk =>
    by_cases e : k = i
    · subst e; rw [show (s.put k none).procs k = none from put_same] at hp'; cases hp'
    · exact (other e hp').elim
  | create k hk | exists_ k hk | plan k hk | runUp k hk | commitUp k hk | readCurrent k hk | orderFrom k hk
  | orderTo k hk | range k hk | runDown k hk | saveUp k hk | commitDown k hk =>
    by_cases e : k = i
    · subst e; rw [hp] at hk; cases hk
    · exact (other e hp').elim

/-- A process that has to create the metadata schema moves on only when no other is creating it. -/
theorem Step.at_start {s s' : State} (hs : Step s s') {i : Nat} {c : Cmd} {tx : Tx}
    (hp : s.procs i = some ⟨c, .start, tx⟩) {p : Proc} (hp' : s'.procs i = some p)
    (hne : p.pc ≠ .start) :
    s.table = none → s.free i (fun o => o.created = false) := by
  have other : ∀ {j : Nat} {q : Option Proc}, j ≠ i → (s.put j q).procs i = some p → False := by
    intro j q e h
    rw [put_other (Ne.symm e), hp] at h
    cases h
    exact hne rfl
  cases hs with
  | @create k c' tx' hk _ hfree =>
    by_cases e : k = i
    · subst e
      exact fun _ => hfree
    · exact (other e hp').elim
  | leave k =>
    by_cases e : k = i
    · subst e; rw [put_same] at hp'; cases hp'
    · exact (other e hp').elim
  | begin k _ hk =>
    by_cases e : k = i
    · subst e; rw [hp] at hk; cases hk
    · exact (other e hp').elim
  | refused k hk =>
    by_cases e : k = i
    · subst e; rw [show (s.put k none).procs k = none from put_same] at hp'; cases hp'
    · exact (other e hp').elim
  | exists_ k hk ht =>
    by_cases e : k = i
    · intro ht'; rw [ht] at ht'; cases ht'
    · exact (other e hp').elim
  | saveUp k hk | deleteDown k hk | plan k hk | runUp k hk | commitUp k hk | readCurrent k hk | orderFrom k hk
  | orderTo k hk | range k hk | runDown k hk | commitDown k hk =>
    by_cases e : k = i
    · subst e; rw [hp] at hk; cases hk
    · exact (other e hp').elim

/-- Waiting is what keeps a statement from being executed: the metadata schema is created, the row of a
version inserted, or deleted, by the next statement of process `i` if the version table permits it and no
transaction is waited for, and not otherwise. -/
theorem C79_waiting {s : State} {i : Nat} {c : Cmd} {tx : Tx} :
    (s.procs i = some ⟨c, .start, tx⟩ →
      ((∃ s' tx', Step s s' ∧ s'.procs i = some ⟨c, .opened, tx'⟩) ↔ ∀ j, ¬ Waits s i j)) ∧
    (∀ v ns, s.procs i = some ⟨c, .applied v ns, tx⟩ → (s.seen tx).admits v = true → s.next ≤ Pg.maxOrder →
      ((∃ s' tx', Step s s' ∧ s'.procs i = some ⟨c, .applying ns, tx'⟩) ↔ ∀ j, ¬ Waits s i j)) ∧
    (∀ v ns, s.procs i = some ⟨c, .reverted v ns, tx⟩ → (∃ t, (s.seen tx).delete v = some t) →
      ((∃ s' tx', Step s s' ∧ s'.procs i = some ⟨c, .reverting ns, tx'⟩) ↔ ∀ j, ¬ Waits s i j)) := by
  refine ⟨fun hp => ⟨?_, fun hw => ?_⟩, fun v ns hp ha hn => ⟨?_, fun hw => ?_⟩, fun v ns hp hd => ⟨?_, fun hw => ?_⟩⟩
  · rintro ⟨s', tx', hs, hp'⟩ j hw
    have hf := hs.at_start hp hp' (by simp)
    cases hw with
    | create _ hne hj ht hc =>
      exact absurd (hc.symm.trans (hf ht j _ hne hj)) (by simp)
    | insert h' => rw [hp] at h'; cases h'
    | delete h' => rw [hp] at h'; cases h'
  · cases ht : s.table with
    | some rows => exact ⟨_, _, .exists_ i hp ht, put_same⟩
    | none =>
      refine ⟨_, _, .create i hp ht fun j q hne hj => ?_, put_same⟩
      cases hc : q.tx.created with
      | false => exact hc
      | true => exact absurd (.create hp hne hj ht hc) (hw j)
  · rintro ⟨s', tx', hs, hp'⟩ j hw
    have hf := hs.at_applied hp hp' (by simp)
    cases hw with
    | create h' => rw [hp] at h'; cases h'
    | insert h' hne hj hx =>
      rw [hp] at h'; cases h'
      obtain ⟨f1, f2, f3⟩ := hf j _ hne hj
      rcases hx with ⟨r, hr, e⟩ | hx | ⟨p, e, hx⟩
      · exact f1 (List.mem_map.2 ⟨r, hr, e⟩)
      · exact f2 hx
      · exact f3 p e hx
    | delete h' => rw [hp] at h'; cases h'
  · refine ⟨_, _, .saveUp i hp (fun j q hne hj => ⟨fun hm => ?_, fun hm => ?_, fun p e hm => ?_⟩) ha hn, put_same⟩
    · obtain ⟨r, hr, e⟩ := List.mem_map.1 hm
      exact hw j (.insert hp hne hj (.inl ⟨r, hr, e⟩))
    · exact hw j (.insert hp hne hj (.inr (.inl hm)))
    · exact hw j (.insert hp hne hj (.inr (.inr ⟨p, e, hm⟩)))
  · rintro ⟨s', tx', hs, hp'⟩ j hw
    have hf := hs.at_reverted hp hp' (by simp)
    cases hw with
    | create h' => rw [hp] at h'; cases h'
    | insert h' => rw [hp] at h'; cases h'
    | delete h' hne hj hx =>
      rw [hp] at h'; cases h'
      obtain ⟨f1, f2, f3⟩ := hf j _ hne hj
      rcases hx with hx | ⟨r, hr, e⟩ | ⟨r, hr, hx, e⟩
      · exact f1 hx
      · exact f2 r hr e
      · exact f3 r hr hx e
  · refine ⟨_, _, .deleteDown i hp (fun j q hne hj => ⟨fun hm => ?_, fun r hr e => ?_, fun r hr hm e => ?_⟩) hd, put_same⟩
    · exact hw j (.delete hp hne hj (.inl hm))
    · exact hw j (.delete hp hne hj (.inr (.inl ⟨r, hr, e⟩)))
    · exact hw j (.delete hp hne hj (.inr (.inr ⟨r, hr, hm, e⟩)))

/-- C79 for a project: the `up` commands have the version files `d`, or those of an earlier moment with
another target than the stage. -/
theorem C79_one_project {d : HDir} (hr : Reachable d) {s : State}
    (h : Runs (fun s => ∀ i p d₀ t, s.procs i = some p → p.cmd = .up d₀ t →
      d₀ = d ∨ Reachable d₀ ∧ Later d₀ d ∧ t ≠ some "stage") s) (i : Nat) : ¬ WaitsOn s i i :=
  C79_no_deadlock (project_line hr) (h.mono fun _ hs => project_uses hr hs) i

/-- C69 (partial) for any number of `down` commands: as long as the versions that the `up` commands may apply
are on one line, the versions recorded follow one another.  Missing for the full property: that every script ran on
the version it belongs to (C69_down_twice_false). -/
theorem C69_chain_partial {L : Version → Prop} (hL : OneLine L) {s : State} (h : Runs (UsesOnly L) s) :
    ∀ rows, s.table = some rows → IsChain ⟨rows, s.next⟩ := by
  intro rows ht
  have hc := (h.line hL).1.base rows ht
  have hi := h.inv.1.nodup
  rw [show s.rows = rows by unfold State.rows; rw [ht]; rfl] at hi
  obtain ⟨rest, e⟩ := hc.head
  exact ⟨⟨rest.map Row.version, by simp [e]⟩, hc.linked, hi, hc.orders, hc.below⟩

/-! ### Different histories -/

/-- What makes a second version after that of `demoCommands`. -/
def moreStage : HistCmd :=
  .stage (.ok (built [.createSchema "public", .createTable "public" "t" [⟨"id", "int8", true, none⟩],
    .createView "public" "v" "SELECT 1", .createView "public" "w" "SELECT 2"]))

/-- A project with the versions `a` and `b`, in this order. -/
def dirAB : HDir := (runCommands 9 (demoCommands ++ [.make "20200102000000" (some "a"), moreStage,
  .make "20200102000000" (some "b")]) initDir).getD []
/-- The same with `b` before `a`. -/
def dirBA : HDir := (runCommands 9 (demoCommands ++ [.make "20200102000000" (some "b"), moreStage,
  .make "20200102000000" (some "a")]) initDir).getD []

/-- The version made of `moreStage`. -/
def moreMade (name prev : String) : Version :=
  ⟨name, some prev, [.createView "public" "w" "SELECT 2"],
    [(Change.createView "public" "w" "SELECT 2").renderSql], [(Change.dropView "public" "w").renderSql]⟩

theorem dirAB_reachable : Reachable dirAB := by
  have h : Reachable ((runCommands 9 [moreStage] demoDirA).getD []) :=
    .step (fuel := 9) (c := moreStage) (ok := true) demoDirA_reachable (by intro _ _ h; cases h) rfl
  exact .step (fuel := 9) (c := .make "20200102000000" (some "b")) (ok := true) h
    (by intro _ _ h; cases h; exact ⟨rfl, noYaml (by decide)⟩) rfl

theorem dirBA_reachable : Reachable dirBA := by
  have h : Reachable ((runCommands 9 [moreStage] demoDirB).getD []) :=
    .step (fuel := 9) (c := moreStage) (ok := true) demoDirB_reachable (by intro _ _ h; cases h) rfl
  exact .step (fuel := 9) (c := .make "20200102000000" (some "a")) (ok := true) h
    (by intro _ _ h; cases h; exact ⟨rfl, noYaml (by decide)⟩) rfl

/-- One line of versions is needed: two `up` commands from projects that have the same two version names in
different orders wait for each other. -/
theorem C79_two_histories_false : ∃ s, Runs (fun s => NoDown s ∧ ∀ i p d t, s.procs i = some p →
      p.cmd = .up d t → Reachable d) s ∧ WaitsOn s 0 0 := by
  have hok : ∀ t n l p q, (∀ x, p = some x → ∃ d, x.cmd = .up d none ∧ Reachable d) →
      (∀ x, q = some x → ∃ d, x.cmd = .up d none ∧ Reachable d) →
      NoDown (two t n l p q) ∧ ∀ i x d t', (two t n l p q).procs i = some x → x.cmd = .up d t' →
        Reachable d := by
    intro t n l p q hp hq
    have key : ∀ i x, (two t n l p q).procs i = some x → ∃ d, x.cmd = .up d none ∧ Reachable d := by
      intro i x hi
      simp only [two] at hi
      split at hi
      · exact hp x hi
      · split at hi
        · exact hq x hi
        · cases hi
    refine ⟨fun i x t' hi hc => ?_, fun i x d t' hi hc => ?_⟩
    · obtain ⟨d, h, _⟩ := key i x hi
      rw [hc] at h; cases h
    · obtain ⟨d', h, hr⟩ := key i x hi
      rw [hc] at h; cases h; exact hr
  have no : ∀ x : Proc, none = some x → ∃ d, x.cmd = .up d none ∧ Reachable d := by rintro x e; cases e
  have A : ∀ pc tx (x : Proc), some ⟨.up dirAB none, pc, tx⟩ = some x → ∃ d, x.cmd = .up d none ∧ Reachable d := by
    rintro pc tx x e; cases e; exact ⟨_, rfl, dirAB_reachable⟩
  have B : ∀ pc tx (x : Proc), some ⟨.up dirBA none, pc, tx⟩ = some x → ∃ d, x.cmd = .up d none ∧ Reachable d := by
    rintro pc tx x e; cases e; exact ⟨_, rfl, dirBA_reachable⟩
  have h := demo_up (ok := fun s => NoDown s ∧ ∀ i p d t, s.procs i = some p → p.cmd = .up d t → Reachable d)
    (fun t n l p hp => hok t n l p none (fun x e => ⟨_, hp x e, demoDir_reachable⟩) no)
  have h := h.step0 (.begin 0 (.up dirAB none) rfl) rfl rfl rfl rfl (hok _ _ _ _ _ (A _ _) no)
  have h := h.step0 (.exists_ 0 rfl rfl) rfl rfl rfl rfl (hok _ _ _ _ _ (A _ _) no)
  have h := h.step0 (.plan 0 (fuel := 9) (current := demoMade) (opened := ⟨_, _⟩)
    (to := moreMade "20200102000000-b" "20200102000000-a")
    (names := ["20200102000000-a", "20200102000000-b"]) rfl rfl rfl rfl rfl (by simp)) rfl rfl rfl rfl
    (hok _ _ _ _ _ (A _ _) no)
  have h := h.step1 (.begin 1 (.up dirBA none) rfl) rfl rfl rfl rfl (hok _ _ _ _ _ (A _ _) (B _ _))
  have h := h.step1 (.exists_ 1 rfl rfl) rfl rfl rfl rfl (hok _ _ _ _ _ (A _ _) (B _ _))
  have h := h.step1 (.plan 1 (fuel := 9) (current := demoMade) (opened := ⟨_, _⟩)
    (to := moreMade "20200102000000-a" "20200102000000-b")
    (names := ["20200102000000-b", "20200102000000-a"]) rfl rfl rfl rfl rfl (by simp)) rfl rfl rfl rfl
    (hok _ _ _ _ _ (A _ _) (B _ _))
  have h := h.step0 (.runUp 0 (v := madeA) rfl rfl) rfl rfl rfl rfl (hok _ _ _ _ _ (A _ _) (B _ _))
  have h := h.step0 (.saveUp 0 rfl (free0 (by
    rintro x e; cases e; exact ⟨by simp, by simp, by simp⟩)) rfl (by decide)) rfl rfl rfl rfl
    (hok _ _ _ _ _ (A _ _) (B _ _))
  have h := h.step1 (.runUp 1 (v := madeB) rfl rfl) rfl rfl rfl rfl (hok _ _ _ _ _ (A _ _) (B _ _))
  have h := h.step1 (.saveUp 1 rfl (free1 (by
    rintro x e; cases e; exact ⟨by decide, by simp, by simp⟩)) rfl (by decide)) rfl rfl rfl rfl
    (hok _ _ _ _ _ (A _ _) (B _ _))
  have h := h.step0 (.runUp 0 (v := moreMade "20200102000000-b" "20200102000000-a") rfl rfl) rfl rfl rfl rfl
    (hok _ _ _ _ _ (A _ _) (B _ _))
  have h := h.step1 (.runUp 1 (v := moreMade "20200102000000-a" "20200102000000-b") rfl rfl) rfl rfl rfl rfl
    (hok _ _ _ _ _ (A _ _) (B _ _))
  exact ⟨_, h, .more (.insert (j := 1) rfl (by decide) rfl (.inl ⟨_, .head _, rfl⟩))
    (.one (.insert (j := 0) rfl (by decide) rfl (.inl ⟨_, .head _, rfl⟩)))⟩

/-- Two `down` commands on the one line of the example's project: the second waits for the first. -/
example : ∃ s, Runs (UsesOnly fun v => v = demoMade) s ∧ Changes s 0 ∧ Waits s 1 0 := by
  have hok : ∀ t n l p q, (∀ x, p = some x → x.cmd = .up demoDir none ∨ x.cmd = .down none) →
      (∀ x, q = some x → x.cmd = .down none) → UsesOnly (fun v => v = demoMade) (two t n l p q) :=
    fun t n l p q hp hq => demo_uses hp fun x e => .inr (hq x e)
  have h := demo_up (ok := UsesOnly fun v => v = demoMade)
    (fun t n l p hp => hok t n l p none (fun x e => .inl (hp x e)) (by intro x e; cases e))
  have h := demo_down0 (fun t n l p hp => hok t n l p none (fun x e => .inr (hp x e)) (by intro x e; cases e)) h
  have okd : ∀ t n l q, (∀ x, q = some x → x.cmd = .down none) → UsesOnly (fun v => v = demoMade)
      (two t n l (some ⟨.down none, .reverted demoMade [], ⟨false, [], [], [.down demoMade]⟩⟩) q) :=
    fun t n l q hq => hok t n l _ q (by rintro x e; cases e; exact .inr rfl) hq
  have h := demo_down1 okd h
  have h := h.step0 (.deleteDown 0 rfl (free0 (by
    rintro x e; cases e
    refine ⟨by simp, by simp, by simp⟩)) ⟨_, rfl⟩) rfl rfl rfl rfl
    (hok _ _ _ _ _ (by rintro x e; cases e; exact .inr rfl) (by rintro x e; cases e; rfl))
  exact ⟨_, h, ⟨_, rfl, .inr (by decide)⟩, .delete rfl (by decide) rfl (.inl (by decide))⟩

end Conc
end Podo
