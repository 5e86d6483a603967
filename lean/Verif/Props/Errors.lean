import Verif.Proofs.Errors
import Verif.Props.Load
import Verif.Proofs.DdlWf
/-
C78: the error of a change that cannot be applied or taken back says what is wrong with it.
-/
namespace Podo

/-- C78, applying.  A change fails on a snapshot with exactly the error that names the first of its needs
(`Change.needs`) that the snapshot does not meet: an object that is missing, an object of another kind, an
object that is there already, a column given twice. -/
theorem C78_apply_error {c : Change} {d : Database} (hd : d.WF) {e : SnapshotError} :
    c.apply d = .error e ↔ FirstUnmet d.content c.needs e := by
  rw [← check_some, ← apply_err hd, errOf_eq_some]

/-- C78, applying.  A change succeeds exactly when all its needs are met. -/
theorem C78_applies_iff {c : Change} {d : Database} (hd : d.WF) :
    (∃ d', c.apply d = .ok d') ↔ ∀ n ∈ c.needs, n.Met d.content := by
  rw [← check_none, ← apply_err hd]
  cases c.apply d <;> simp

/-- C78, taking back.  The revert of a change cannot be calculated from a snapshot with exactly the error
that names the first of the needs (`Change.revertNeeds`) that the snapshot does not meet. -/
theorem C78_revert_error {c : Change} {d : Database} (hd : d.WF) {e : SnapshotError} :
    c.revert d = .error e ↔ FirstUnmet d.content c.revertNeeds e := by
  rw [← check_some, ← revert_err hd, errOf_eq_some]

/-- C78, replaying.  When a list of changes cannot be applied, the error names the first need that is not met
of the first change that cannot be applied, in the snapshot the changes before it lead to. -/
theorem C78_replay_error {cs : List Change} {d : Database} (hd : d.WF) {e : SnapshotError} :
    Change.applyAll cs d = .error e ↔ ∃ pre c post d', cs = pre ++ c :: post ∧
      Change.applyAll pre d = .ok d' ∧ FirstUnmet d'.content c.needs e := by
  induction cs generalizing d with
  | nil => simp [Change.applyAll]
  | cons c cs ih =>
    rw [Change.applyAll]
    cases hc : c.apply d with
    | error e' =>
      simp only [Except.error.injEq]
      constructor
      · rintro rfl
        exact ⟨[], c, cs, d, rfl, rfl, (C78_apply_error hd).1 hc⟩
      · rintro ⟨pre, c', post, d', he, hp, hu⟩
        cases pre with
        | nil =>
          simp only [List.nil_append, List.cons.injEq] at he
          obtain ⟨rfl, rfl⟩ := he
          cases hp
          have := (C78_apply_error hd).2 hu
          rw [hc] at this
          exact Except.error.inj this
        | cons p ps =>
          simp only [List.cons_append, List.cons.injEq] at he
          rw [Change.applyAll, ← he.1, hc] at hp
          cases hp
    | ok d₁ =>
      simp only
      rw [ih (apply_wf hd hc)]
      constructor
      · rintro ⟨pre, c', post, d', rfl, hp, hu⟩
        exact ⟨c :: pre, c', post, d', rfl, by rw [Change.applyAll, hc]; exact hp, hu⟩
      · rintro ⟨pre, c', post, d', he, hp, hu⟩
        cases pre with
        | nil =>
          simp only [List.nil_append, List.cons.injEq] at he
          obtain ⟨rfl, rfl⟩ := he
          cases hp
          have := (C78_apply_error hd).2 hu
          rw [hc] at this
          cases this
        | cons p ps =>
          simp only [List.cons_append, List.cons.injEq] at he
          obtain ⟨rfl, rfl⟩ := he
          rw [Change.applyAll, hc] at hp
          exact ⟨ps, c', post, d', rfl, hp, hu⟩

-- Errors of each sort, on `demo`.
example : FirstUnmet demo.content (Change.dropColumn "public" "users" "nick").needs
    (.objectNotFound ["public", "users", "nick"] "column") := (C78_apply_error demo_wf).1 rfl
example : FirstUnmet demo.content (Change.dropView "public" "users").needs
    (.objectHasUnexpectedType ["public", "users"] "view" "table") := (C78_apply_error demo_wf).1 rfl
example : FirstUnmet demo.content (Change.dropUnique "public" "users" "users_pk").needs
    (.objectHasUnexpectedType ["public", "users", "users_pk"] "unique" "primary key") :=
  (C78_apply_error demo_wf).1 rfl
example : FirstUnmet demo.content (Change.renameColumn "public" "users" "id" "name").needs
    (.objectAlreadyExists ["public", "users", "name"] "column") := (C78_apply_error demo_wf).1 rfl
example : FirstUnmet demo.content
    (Change.createTable "public" "t" [⟨"a", "int8", true, none⟩, ⟨"a", "text", true, none⟩]).needs
    (.objectAlreadyExists ["public", "t", "a"] "column") := (C78_apply_error demo_wf).1 rfl
-- A change all of whose needs are met, and one that cannot be taken back.
example : ∀ n ∈ (Change.renameColumn "public" "users" "name" "nick").needs, n.Met demo.content :=
  (C78_applies_iff demo_wf).1 ⟨_, rfl⟩
example : FirstUnmet demo.content (Change.renameColumn "public" "users" "name" "nick").revertNeeds
    (.objectNotFound ["public", "users", "nick"] "column") := (C78_revert_error demo_wf).1 rfl
-- Changes that fail at the second one.
example : ∃ e, Change.applyAll [.createSchema "a", .dropTable "a" "t"] Database.new = .error e ∧
    e = .objectNotFound ["a", "t"] "relation" := ⟨_, rfl, rfl⟩

/-- C78, loading.  When definition files that can each be read cannot be put together, the error names a
relation, or a function, that is defined twice: by two definitions of one file, or by two files. -/
theorem C78_load_error {F : Type} {parse : F → Except LoadError (List Schema)} {e : SnapshotError}
    (hw : ∀ f scs, parse f = .ok scs → ∀ sc ∈ scs, sc.WF) (hp : ∀ f, parse f ≠ .error (.snapshot e))
    {es : List (DirTree F)} (h : Load.snapshot parse es = .error (.snapshot e)) :
    (∃ n f scs a b, InTree n f es ∧ YamlName n ∧ parse f = .ok scs ∧ [a, b].Sublist scs ∧
      ClashReported a b e) ∨
    (∃ m n f g scs scs' a b, [(m, f), (n, g)].Sublist (filesOf es) ∧ YamlName m ∧ YamlName n ∧
      parse f = .ok scs ∧ parse g = .ok scs' ∧ a ∈ scs ∧ b ∈ scs' ∧ ClashReported a b e) := by
  rcases filesInto_err holds_new (fun f _ => hw f) hp h with
    ⟨a, ha, _⟩ | ⟨f, hf, scs, hs, a, b, hab, hc⟩ | ⟨f, g, scs, scs', hfg, hf, hg, a, ha, b, hb, hc⟩
  · simp at ha
  · obtain ⟨n, hy, hin⟩ := Load.collect_sub es hf
    exact .inl ⟨n, f, scs, a, b, hin, Load.isYaml_iff.1 hy, hs, hab, hc⟩
  · obtain ⟨m, n, hs, hm, hn⟩ := Load.pair_collect.1 hfg
    exact .inr ⟨m, n, f, g, scs, scs', a, b, hs, hm, hn, hf, hg, ha, hb, hc⟩

/-- The parser of definitions meets the hypotheses of `C78_load_error`. -/
theorem parseDoc_load_error (e : SnapshotError) : (∀ f scs, Def.parseDoc f = .ok scs → ∀ sc ∈ scs, sc.WF) ∧
    ∀ f, Def.parseDoc f ≠ .error (.snapshot e) := by
  refine ⟨fun _ _ h => Def.parseDoc_wf h, fun f h => ?_⟩
  have hl : ∀ x, Def.loadFail x ≠ .snapshot e := by intro x; cases x <;> nofun
  unfold Def.parseDoc at h
  split at h
  · split at h
    · exact hl _ (Except.error.inj h)
    · split at h
      · exact hl _ (Except.error.inj h)
      · cases h
  · cases h

-- Two files that define the same table.
example : Load.snapshot (F := List Schema) .ok [.file "a.yaml" [⟨"s", [("t", .table ⟨"s", "t", [], []⟩)], []⟩],
    .dir "d" [.file "b.yaml" [⟨"s", [("t", .view ⟨"s", "t", "SELECT 1"⟩)], []⟩]]]
    = .error (.snapshot (.objectAlreadyExists ["s", "t"] "relation")) := rfl

end Podo
