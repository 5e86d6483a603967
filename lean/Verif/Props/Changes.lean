import Verif.Proofs.Mutation
import Verif.Proofs.Stage
import Verif.Props.Demo
/-
C07, C08, C10-C13: what a change does to a snapshot, and what its revert does.
-/
namespace Podo

/-! ### C07 -/

/-- C07 (partial: the exact set of exceptions is `Lossy`, `Spec/Lossy.lean`).  For a change that
applies to a well-formed snapshot, the revert computed before the change, applied after it, gives
back the same content, exactly when the change is not lossy.  Missing for the full property: the
lossy changes, for which `C07_lossy_changes_false` shows that it fails. -/
theorem C07_revert_undoes_change_partial {c : Change} {d d' : Database} (hd : d.WF)
    (h : c.apply d = .ok d') :
    (∃ r d'', c.revert d = .ok r ∧ r.apply d' = .ok d'' ∧ d''.content = d.content)
      ↔ ¬ Lossy d.content c :=
  revert_undoes_iff hd h

/-- For each of the 25 kinds of change other than renaming a column and dropping a schema, a table,
a sequence or an index, the revert always undoes the change. -/
theorem C07_revert_undoes_lossless_kinds {c : Change} {d d' : Database} (hd : d.WF)
    (h : c.apply d = .ok d')
    (h1 : ∀ s t a b, c ≠ .renameColumn s t a b) (h2 : ∀ s, c ≠ .dropSchema s)
    (h3 : ∀ s t, c ≠ .dropTable s t) (h4 : ∀ s q, c ≠ .dropSequence s q)
    (h5 : ∀ s i, c ≠ .dropIndex s i) :
    ∃ r d'', c.revert d = .ok r ∧ r.apply d' = .ok d'' ∧ d''.content = d.content := by
  refine (revert_undoes_iff hd h).2 ?_
  cases c with
  | renameColumn s t a b => exact absurd rfl (h1 s t a b)
  | dropSchema s => exact absurd rfl (h2 s)
  | dropTable s t => exact absurd rfl (h3 s t)
  | dropSequence s q => exact absurd rfl (h4 s q)
  | dropIndex s i => exact absurd rfl (h5 s i)
  | _ => exact id

/-- The full C07 is false: the revert of dropping a table that has constraints applies but does not
bring the constraints back (`demo`'s table `users`). -/
theorem C07_lossy_changes_false :
    ¬ ∀ (c : Change) (d d' : Database), d.WF → c.apply d = .ok d' →
      ∃ r d'', c.revert d = .ok r ∧ r.apply d' = .ok d'' ∧ d''.content = d.content := by
  intro h
  have hd : (Change.dropTable "public" "users").apply demo
      = .ok (match (Change.dropTable "public" "users").apply demo with
        | .ok x => x | .error _ => demo) := by rfl
  refine (revert_undoes_iff demo_wf hd).1 (h _ _ _ demo_wf hd) ?_
  refine ⟨_, _, rfl, rfl, ?_⟩
  intro tb htb
  cases htb
  exact ⟨"users_pk", by decide⟩

/-- A column rename that changes the name is never undone by its recorded revert. -/
theorem C07_rename_never_undone {s t a b : String} {d d' : Database} (hd : d.WF) (hab : a ≠ b)
    (h : (Change.renameColumn s t a b).apply d = .ok d') :
    ¬ ∃ r d'', (Change.renameColumn s t a b).revert d = .ok r ∧ r.apply d' = .ok d''
        ∧ d''.content = d.content :=
  fun hu => (revert_undoes_iff hd h).1 hu hab

-- The hypotheses are met: a change of `demo` that applies and is not lossy.
example : ∃ d', (Change.dropForeignKey "public" "posts" "posts_author_fk").apply demo = .ok d'
    ∧ ¬ Lossy demo.content (.dropForeignKey "public" "posts" "posts_author_fk") :=
  ⟨_, rfl, id⟩
-- And a rename that applies.
example : ∃ d', (Change.renameColumn "public" "users" "name" "nick").apply demo = .ok d' :=
  ⟨_, rfl⟩

/-! ### C08 -/

/-- C08 (partial).  When staging a list of changes succeeds, the recorded reverts, in the order of
the down script (newest first), applied to the staged snapshot give back the content from before,
provided no change is lossy at the point where it was applied. Missing: the lossy changes, for which
`C08_diff_reverts_false` shows that it fails already for computed diffs. -/
theorem C08_reversed_reverts_undo_partial {cs recorded downs : List Change} {d final : Database}
    (hd : d.WF) (h : stageLoop cs d [] [] = .done final recorded downs)
    (hl : ∀ pre c post d₀, cs = pre ++ c :: post → Change.applyAll pre d = .ok d₀ →
      ¬ Lossy d₀.content c) :
    ∃ d', Change.applyAll downs final = .ok d' ∧ d'.content = d.content := by
  refine stageLoop_undo hd ?_ h
  clear h hd
  induction cs generalizing d with
  | nil => trivial
  | cons c cs ih =>
    refine ⟨hl [] c cs d rfl rfl, fun d' hd' => ih fun pre c' post d₀ e h => ?_⟩
    refine hl (c :: pre) c' post d₀ (by rw [e]; rfl) ?_
    simp [Change.applyAll, hd', h]

/-- The full C08 is false, already for a computed diff: removing a table that has constraints from
the definitions stages one change whose recorded revert loses the constraints. -/
theorem C08_diff_reverts_false :
    ¬ ∀ (s t final : Database) (recorded downs : List Change), s.WF → t.WF →
      stageLoop (Diff.compareDiff s t) s [] [] = .done final recorded downs →
      ∃ d', Change.applyAll downs final = .ok d' ∧ d'.content = s.content := by
  intro h
  let base : List Change := [.createSchema "public", .createTable "public" "a" []]
  let extra : List Change := [.createTable "public" "u" [⟨"id", "int8", true, none⟩],
    .addPrimaryKey "public" "u" "u_pk" ["id"] false false]
  let get := fun cs => match Change.applyAll cs Database.new with
    | .ok d => d | .error _ => Database.new
  have ht : (get base).WF := applyAll_wf Database.new_wf (cs := base) (by rfl)
  have hs : (get (base ++ extra)).WF := applyAll_wf Database.new_wf (cs := base ++ extra) (by rfl)
  obtain ⟨d', h1, h2⟩ := h (get (base ++ extra)) (get base) _ _ _ hs ht (by rfl)
  cases h1
  have h3 := congrArg (fun C => Content.objAt C (.constraint "public" "u" "u_pk")) h2
  cases h3

-- Staging a non-trivial list of changes succeeds.
example : ∃ final downs, stageLoop demoChanges Database.new [] [] = .done final demoChanges downs :=
  ⟨_, _, rfl⟩

/-! ### C10 -/

/-- C10.  Every snapshot reachable from the empty database by any sequence of changes, including
changes that fail and leave a modified snapshot behind, is well-formed. -/
theorem C10_reachable_wellFormed (cs : List Change) :
    (Change.applyMutAll cs Database.new).WF :=
  applyMutAll_wf Database.new_wf

/-- C10 for replay, which stops at the first error. -/
theorem C10_replayed_wellFormed {cs : List Change} {d : Database}
    (h : Change.applyAll cs Database.new = .ok d) : d.WF :=
  applyAll_wf Database.new_wf h

-- A history of changes with a failing one in the middle reaches a non-empty snapshot.
example : (Change.applyMutAll
    [.createSchema "a", .createTable "b" "t" [], .createTable "a" "t" []] Database.new)
      = ⟨[("a", ⟨"a", [("t", .table ⟨"a", "t", [], []⟩)], []⟩)]⟩ := by rfl

/-! ### C11 -/

/-- C11 (partial).  A change that returns an error leaves the snapshot as it was, except a column
rename, which may leave behind exactly the snapshot without the renamed column (as if that column
had been dropped).  Missing: the rename case, for which `C11_rename_false` shows that it fails. -/
theorem C11_failed_change_leaves_snapshot_partial {c : Change} {d : Database} {e : SnapshotError}
    (hd : d.WF) (h : (c.applyMut d).2 = some e) :
    (c.applyMut d).1 = d ∨
      ∃ s t a b, c = .renameColumn s t a b
        ∧ (Change.dropColumn s t a).apply d = .ok (c.applyMut d).1 := by
  by_cases hc : ∃ s t a b, c = .renameColumn s t a b
  · obtain ⟨s, t, a, b, rfl⟩ := hc
    rcases applyMut_rename (s := s) (t := t) (a := a) (b := b) hd with
      ⟨d', _, h'⟩ | ⟨e, _, h'⟩ | ⟨e, d', _, h1, h'⟩
    · rw [h'] at h; cases h
    · left; rw [h']
    · right; exact ⟨s, t, a, b, rfl, by rw [h']; exact h1⟩
  · left
    rw [applyMut_eq hd fun s t a b e => hc ⟨s, t, a, b, e⟩, Mut.checked] at h ⊢
    cases ha : c.apply d with
    | ok d' => rw [ha] at h; cases h
    | error e => rfl

/-- Success of `apply` on a mutable snapshot and of the functional `apply` agree. -/
theorem C11_applyMut_ok_iff {c : Change} {d d' : Database} (hd : d.WF) :
    c.applyMut d = (d', none) ↔ c.apply d = .ok d' := by
  by_cases hc : ∃ s t a b, c = .renameColumn s t a b
  · obtain ⟨s, t, a, b, rfl⟩ := hc
    rcases applyMut_rename (s := s) (t := t) (a := a) (b := b) hd with
      ⟨d', h1, h'⟩ | ⟨e, h1, h'⟩ | ⟨e, d', h1, _, h'⟩ <;> rw [h', h1] <;> simp
  · rw [applyMut_eq hd fun s t a b e => hc ⟨s, t, a, b, e⟩, Mut.checked]
    cases ha : c.apply d <;> simp

/-- The full C11 is false: renaming a column to a name in use returns an error and loses the
column. -/
theorem C11_rename_false :
    ¬ ∀ (c : Change) (d : Database) (e : SnapshotError), d.WF → (c.applyMut d).2 = some e →
      (c.applyMut d).1 = d := by
  intro h
  have := h (.renameColumn "public" "users" "name" "id") demo
    (.columnAlreadyExists "public" "users" "id") demo_wf (by rfl)
  revert this
  decide

-- Failing changes exist.
example : ((Change.dropColumn "public" "users" "nope").applyMut demo).2
    = some (.columnNotFound "public" "users" "nope") := by rfl

/-! ### C12 -/

/-- C12.  A change that applies leaves every object outside the objects it names as it was: for
every name that is not, and does not lie inside, a target of the change, the object found under it
(with its own attributes) is the same before and after. -/
theorem C12_change_touches_only_its_targets {c : Change} {d d' : Database} (hd : d.WF)
    (h : c.apply d = .ok d') {p : Path} (hp : ∀ q ∈ c.targets, ¬ q.Contains p) :
    d'.content.objAt p = d.content.objAt p :=
  Spec.effect_frame (apply_effect hd h) hp

-- A change that applies, and an object outside its targets.
example : ∃ d', (Change.setNotNull "public" "users" "name" true).apply demo = .ok d'
    ∧ (∀ q ∈ (Change.setNotNull "public" "users" "name" true).targets,
        ¬ q.Contains (.column "public" "users" "id"))
    ∧ (demo.content.objAt (.column "public" "users" "id")).isSome := by
  refine ⟨_, rfl, ?_, by decide⟩
  intro q hq
  simp only [Change.targets, List.mem_singleton] at hq
  subst hq
  simp [Path.Contains]

/-! ### C13 -/

/-- C13.  On two well-formed snapshots with the same content (same objects under the same names,
whatever the iteration order of the maps and the order of columns), a change applies to both or to
neither, and gives the same content. -/
theorem C13_apply_depends_on_content {c : Change} {d₁ d₂ : Database} (h₁ : d₁.WF) (h₂ : d₂.WF)
    (hc : d₁.content = d₂.content) :
    (∀ d₁', c.apply d₁ = .ok d₁' → ∃ d₂', c.apply d₂ = .ok d₂' ∧ d₂'.content = d₁'.content)
    ∧ (∀ e, c.apply d₁ = .error e → ∃ e', c.apply d₂ = .error e') := by
  have r₁ := apply_refines c d₁ h₁
  have r₂ := apply_refines c d₂ h₂
  rw [← hc, ← r₁] at r₂
  constructor
  · intro d₁' h
    rw [h] at r₂
    cases h' : c.apply d₂ with
    | error e => rw [h'] at r₂; simp at r₂
    | ok d₂' =>
      rw [h'] at r₂
      simp only [okMap_ok, Option.some.injEq] at r₂
      exact ⟨d₂', rfl, r₂⟩
  · intro e h
    rw [h] at r₂
    cases h' : c.apply d₂ with
    | error e => exact ⟨e, rfl⟩
    | ok d₂' => rw [h'] at r₂; simp at r₂

/-- The content a change gives is the one the specification `Spec.effect` says, and it is refused
exactly when the specification refuses it. -/
theorem C13_apply_meets_specification (c : Change) {d : Database} (hd : d.WF) :
    (∀ C', Spec.effect c d.content = some C' ↔ ∃ d', c.apply d = .ok d' ∧ d'.content = C') := by
  intro C'
  constructor
  · exact apply_of_effect hd
  · rintro ⟨d', h, rfl⟩
    exact apply_effect hd h

-- Two different snapshots with the same content.
example : ∃ d₁ d₂ : Database, d₁ ≠ d₂ ∧ d₁.content = d₂.content ∧ d₁.WF ∧ d₂.WF := by
  refine ⟨⟨[("a", Schema.new "a"), ("b", Schema.new "b")]⟩,
    ⟨[("b", Schema.new "b"), ("a", Schema.new "a")]⟩, by decide, ?_, ?_, ?_⟩
  · funext s
    simp only [Database.content, AMap.get?]
    by_cases h1 : "a" = s
    · subst h1; rfl
    · by_cases h2 : "b" = s
      · subst h2; rfl
      · simp [h1, h2]
  · exact applyAll_wf Database.new_wf (cs := [.createSchema "a", .createSchema "b"]) (by rfl)
  · exact applyAll_wf Database.new_wf (cs := [.createSchema "b", .createSchema "a"]) (by rfl)

end Podo
