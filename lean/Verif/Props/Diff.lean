import Verif.Proofs.DiffMore
import Verif.Props.Demo
/-
C01-C06 and C09: computed diffs and staging.
-/
namespace Podo
open Diff Change

/-- The snapshot a list of changes builds from nothing (for examples). -/
def built (cs : List Change) : Database :=
  match applyAll cs Database.new with
  | .ok d => d
  | .error _ => Database.new

/-- A target for `demo`: columns added, changed, dropped and moved, constraints of all kinds
changed, a sequence and a view changed, a function dropped, an index added, a schema added. -/
def demoTargetChanges : List Change :=
  [ .createSchema "audit",
    .createTable "audit" "log" [⟨"at", "timestamptz", true, none⟩],
    .createIndex "audit" "log" "log_at_idx" false "btree" ["at"],
    .createSchema "public",
    .createTable "public" "posts" [⟨"id", "int4", true, some "0"⟩, ⟨"title", "text", true, none⟩,
      ⟨"author", "int8", false, none⟩],
    .createTable "public" "users" [⟨"email", "text", false, none⟩, ⟨"id", "int8", true, none⟩],
    .addPrimaryKey "public" "users" "users_pk" ["id", "email"] false false,
    .addUnique "public" "users" "users_name_key" ["name"] true false,
    .addForeignKey "public" "posts" "posts_author_fk" ["author"] "public" "users" ["id"]
      "SIMPLE" "NO ACTION" "CASCADE" false false,
    .addUnique "public" "posts" "posts_id_check" ["id"] false false,
    .createSequence "public" "users_id_seq" "int8" 2 1 9223372036854775807 1 1 false,
    .createIndex "public" "posts" "posts_author_idx" false "btree" ["author"],
    .createIndex "public" "users" "users_email_idx" true "btree" ["email"],
    .createView "public" "authors" "SELECT email FROM users" ]

def demoTarget : Database := built demoTargetChanges

theorem demoTarget_wf : demoTarget.WF :=
  applyAll_wf (cs := demoTargetChanges) Database.new_wf (by rfl)

theorem demo_diff_applies : ∃ d, applyAll (compareDiff demo demoTarget) demo = .ok d := ⟨_, rfl⟩

/-! ### C01 -/

/-- C01 (partial).  When the diff from `s` to `t` applies, the result has exactly the content of
`t` if and only if (1) no index of `s` is re-defined in `t` with the same key expressions but another
table, uniqueness or method, and (2) every sequence that `t` declares owned by a column is in `s`
already, unchanged.  Missing for the full property: those two cases, where
`C01_owned_sequence_false` and `C01_index_attributes_false` show that it fails, and the diffs that do
not apply (C02). -/
theorem C01_diff_reaches_target_partial {s t d : Database} (hs : s.WF) (ht : t.WF)
    (h : applyAll (compareDiff s t) s = .ok d) :
    d.content = t.content ↔
      SameKeyIndexesAgree s.content t.content ∧ OwnedSequencesUnchanged s.content t.content := by
  obtain ⟨d', hd', hc⟩ := diff_apply hs ht ((diff_apply_iff hs ht).1 ⟨d, h⟩)
  rw [h] at hd'; cases hd'
  rw [hc]
  exact reached_eq_iff _ _

/-- Whatever the indexes and sequences are, the schemas, tables, columns, constraints, views and
functions reached are exactly those of the target, and no index or sequence is left over. -/
theorem C01_all_but_indexes_and_sequences {s t d : Database} (hs : s.WF) (ht : t.WF)
    (h : applyAll (compareDiff s t) s = .ok d) (p : Path)
    (hi : ∀ i, t.content.objAt p ≠ some (.index i))
    (hq : ∀ q, t.content.objAt p ≠ some (.sequence q)) :
    d.content.objAt p = t.content.objAt p := by
  obtain ⟨d', hd', hc⟩ := diff_apply hs ht ((diff_apply_iff hs ht).1 ⟨d, h⟩)
  rw [h] at hd'; cases hd'
  rw [hc]
  exact reached_objAt p hi hq

/-- The full C01 is false, whatever else the definitions say: a sequence owned by a column that is not in
the source already, unchanged, is there without its owner. -/
theorem C01_owned_sequence_false {s t d : Database} (hs : s.WF) (ht : t.WF)
    (h : applyAll (compareDiff s t) s = .ok d) {n r : String} {q : Sequence}
    (hq : t.content.objAt (.relation n r) = some (.sequence q))
    (ho : q.ownedByTable ≠ none ∨ q.ownedByColumn ≠ none)
    (hne : s.content.objAt (.relation n r) ≠ some (.sequence q)) :
    d.content.objAt (.relation n r) =
        some (.sequence { q with ownedByTable := none, ownedByColumn := none }) ∧
      d.content ≠ t.content := by
  obtain ⟨d', hd', hc⟩ := diff_apply hs ht ((diff_apply_iff hs ht).1 ⟨d, h⟩)
  rw [h] at hd'; cases hd'
  have h1 : d.content.objAt (.relation n r) =
      some (.sequence { q with ownedByTable := none, ownedByColumn := none }) := by
    rw [hc, reached_objAt_sequence hq hne]
  refine ⟨h1, fun e => ?_⟩
  rw [e, hq] at h1
  injection h1 with h1
  injection h1 with h1
  rcases ho with ho | ho
  · exact ho (congrArg Sequence.ownedByTable h1)
  · exact ho (congrArg Sequence.ownedByColumn h1)

/-- A sequence owned by a column. -/
def ownedOnly : Database :=
  ⟨[("a", ⟨"a", [("q", .sequence ⟨"a", "q", "int8", 1, 1, 10, 1, 1, false, some "u", some "id"⟩)], []⟩)]⟩

theorem ownedOnly_wf : ownedOnly.WF := by
  refine ⟨by simp [ownedOnly], ?_⟩
  simp only [ownedOnly, List.mem_singleton]
  rintro p rfl
  refine ⟨rfl, by simp, ?_, by simp, by simp⟩
  simp only [List.mem_singleton]
  rintro p rfl
  exact ⟨rfl, rfl, trivial⟩

example : ∃ d, applyAll (compareDiff Database.new ownedOnly) Database.new = .ok d ∧
    d.content ≠ ownedOnly.content :=
  ⟨_, rfl, (C01_owned_sequence_false Database.new_wf ownedOnly_wf rfl (n := "a") (r := "q") rfl
    (.inl (by simp)) (by intro h; cases h)).2⟩

/-- The full C01 is false, whatever else the definitions say: an index that is re-defined with the same key
expressions, on another table, unique or not, or with another method, stays as it was. -/
theorem C01_index_attributes_false {s t d : Database} (hs : s.WF) (ht : t.WF)
    (h : applyAll (compareDiff s t) s = .ok d) {n r : String} {i j : Index}
    (hi : s.content.objAt (.relation n r) = some (.index i))
    (hj : t.content.objAt (.relation n r) = some (.index j))
    (hk : i.keyExpressions = j.keyExpressions) :
    d.content.objAt (.relation n r) = some (.index i) ∧ (i ≠ j → d.content ≠ t.content) := by
  obtain ⟨d', hd', hc⟩ := diff_apply hs ht ((diff_apply_iff hs ht).1 ⟨d, h⟩)
  rw [h] at hd'; cases hd'
  have h1 : d.content.objAt (.relation n r) = some (.index i) := by
    rw [hc, reached_objAt_index hi hj, if_pos hk]
  refine ⟨h1, fun hij e => ?_⟩
  rw [e, hj] at h1
  injection h1 with h1
  injection h1 with h1
  exact hij h1.symm

/-- A table with an index. -/
def indexChanges (unique : Bool) : List Change :=
  [.createSchema "a", .createTable "a" "u" [⟨"id", "int8", true, none⟩],
    .createIndex "a" "u" "i" unique "btree" ["id"]]

theorem indexChanges_wf (unique : Bool) : (built (indexChanges unique)).WF :=
  applyAll_wf (cs := indexChanges unique) Database.new_wf (by rfl)

-- Making an index unique is not seen.
example : ∃ d, applyAll (compareDiff (built (indexChanges false)) (built (indexChanges true)))
      (built (indexChanges false)) = .ok d ∧ d.content ≠ (built (indexChanges true)).content :=
  ⟨_, rfl, (C01_index_attributes_false (indexChanges_wf false) (indexChanges_wf true) rfl
    (n := "a") (r := "i") rfl rfl rfl).2 (by decide)⟩

-- A large diff that applies and reaches its target.
example : ∃ d, applyAll (compareDiff demo demoTarget) demo = .ok d ∧ d.WF ∧
    compareDiff demo demoTarget ≠ [] :=
  ⟨_, rfl, applyAll_wf (cs := compareDiff demo demoTarget) demo_wf (by rfl), by decide⟩

/-! ### C02 -/

/-- C02 (partial).  The diff applies if and only if every index it creates finds its table at that
moment; `IndexReady` says so in terms of the iteration orders of the two snapshots.  Missing: the
diffs that do not apply (`C02_new_index_false`). -/
theorem C02_diff_applies_iff_partial {s t : Database} (hs : s.WF) (ht : t.WF) :
    (∃ d, applyAll (compareDiff s t) s = .ok d) ↔ IndexReady s t :=
  diff_apply_iff hs ht

/-- When the diff does not apply, everything before some `create index` does, and that index's
table does not exist yet. -/
theorem C02_only_indexes_fail {s t : Database} (hs : s.WF) (ht : t.WF)
    (h : ¬ ∃ d, applyAll (compareDiff s t) s = .ok d) :
    ∃ pre a b i u m ks post d e, compareDiff s t = pre ++ .createIndex a b i u m ks :: post ∧
      applyAll pre s = .ok d ∧ (Change.createIndex a b i u m ks).apply d = .error e ∧
      ∀ tb, d.content.tableAt a b ≠ some tb := by
  obtain ⟨pre, c, post, d, e, a, b, i, u, m, ks, h1, h2, rfl, h4, h5⟩ := diff_stops hs ht
    (fun hr => h ((diff_apply_iff hs ht).2 hr))
  exact ⟨pre, a, b, i, u, m, ks, post, d, e, h1, h2, h4, h5⟩

/-- For every iteration order: the diff applies when all indexes of the target are on tables that
exist on both sides; in particular when the target has no index. -/
theorem C02_applies_in_every_order {s t : Database} (hs : s.WF) (ht : t.WF)
    (h : IndexTablesKept s.content t.content) :
    ∃ d, applyAll (compareDiff s t) s = .ok d :=
  (diff_apply_iff hs ht).2 (indexReady_of_kept ht h)

/-- The full C02 is false, and not by accident: for every target with an index in a schema that is
new, there is an iteration order of the same target for which the diff does not apply. -/
theorem C02_new_index_false {s t : Database} (ht : t.WF) {n i : String} {tsc : Schema} {ix : Index}
    (hs : s.WF) (hn : s.schemas.get? n = none) (htn : t.schemas.get? n = some tsc)
    (hi : tsc.relations.get? i = some (.index ix)) :
    ∃ t' : Database, t'.WF ∧ t'.content = t.content ∧
      ¬ ∃ d, applyAll (compareDiff s t') s = .ok d := by
  have hsc := ht.home _ (AMap.mem_of_get? htn)
  simp only [] at hsc
  let sc' : Schema := { tsc with relations := (i, .index ix) :: tsc.relations.erase i }
  have hmem : ∀ p, p ∈ sc'.relations → p ∈ tsc.relations := by
    intro p hp
    rcases List.mem_cons.1 hp with rfl | hp
    · exact AMap.mem_of_get? hi
    · exact (AMap.mem_erase.1 hp).1
  have hwf : sc'.WF := by
    refine ⟨?_, fun p hp => hsc.2.rels_home p (hmem p hp), hsc.2.funs_nodup, hsc.2.funs_home⟩
    rw [AMap.nodupKeys_cons]
    refine ⟨?_, AMap.nodupKeys_erase hsc.2.rels_nodup i⟩
    rw [← AMap.get?_eq_none_iff, AMap.get?_erase]; simp
  refine ⟨⟨t.schemas.set n sc'⟩, ⟨AMap.nodupKeys_set ht.nodup _ _, ?_⟩, ?_, ?_⟩
  · intro p hp
    rcases mem_set hp with h | h
    · exact ht.home p h
    · subst h; exact ⟨hsc.1, hwf⟩
  · funext k
    simp only [Database.content]
    rw [AMap.get?_set _ _ _ _ (by simp [htn])]
    by_cases hk : k = n
    · subst hk
      simp only [if_true, htn, Option.map_some, Option.some.injEq, Schema.content]
      congr 1
      funext r
      simp only [sc', AMap.get?_cons, AMap.get?_erase]
      by_cases hr : i = r
      · subst hr; simp [hi]
      · simp [hr, Ne.symm hr]
    · simp [hk]
  · have hw' : (⟨t.schemas.set n sc'⟩ : Database).WF := by
      refine ⟨AMap.nodupKeys_set ht.nodup _ _, ?_⟩
      intro p hp
      rcases mem_set hp with h | h
      · exact ht.home p h
      · subst h; exact ⟨hsc.1, hwf⟩
    rw [diff_apply_iff hs hw']
    intro hr
    have := hr.new n sc' (by
      simp only []
      rw [AMap.get?_set _ _ _ _ (by simp [htn])]; simp) hn [] i ix _ rfl
    obtain ⟨tb, h⟩ := this
    cases h

-- The theorem above applies to `demo` staged into an empty project.
example : ∃ t' : Database, t'.WF ∧ t'.content = demo.content ∧
    ¬ ∃ d, applyAll (compareDiff Database.new t') Database.new = .ok d :=
  C02_new_index_false demo_wf Database.new_wf (n := "public") (i := "posts_author_idx") rfl rfl rfl
-- `IndexReady` holds for a diff that creates an index in a new schema and another one in an old one.
example : IndexReady demo demoTarget := (diff_apply_iff demo_wf demoTarget_wf).1 demo_diff_applies

/-! ### C03 -/

/-- C03 (partial).  The diff is empty exactly when the two snapshots have the same content, where of
an index only its name and key expressions count.  Missing: the table, uniqueness and method of
indexes, which the diff ignores (`C03_index_attributes_false`). -/
theorem C03_empty_diff_iff_partial {s t : Database} (hs : s.WF) (ht : t.WF) :
    compareDiff s t = [] ↔ s.content.keyOnly = t.content.keyOnly :=
  compareDiff_nil hs ht

/-- One direction holds in full: equal contents give the empty diff. -/
theorem C03_equal_contents_empty_diff {s t : Database} (hs : s.WF) (ht : t.WF)
    (h : s.content = t.content) : compareDiff s t = [] :=
  (compareDiff_nil hs ht).2 (by rw [h])

/-- The other direction holds when no index of the same name and key expressions differs. -/
theorem C03_empty_diff_equal_contents {s t : Database} (hs : s.WF) (ht : t.WF)
    (hi : SameKeyIndexesAgree s.content t.content) (h : compareDiff s t = []) :
    s.content = t.content :=
  keyOnly_inj hi ((compareDiff_nil hs ht).1 h)

/-- The full C03 is false: of two snapshots, one has an index that is unique and the other the same index,
not unique, and the diff is empty. -/
theorem C03_index_attributes_false :
    ∃ (s t : Database) (i j : Index), s.WF ∧ t.WF ∧ compareDiff s t = [] ∧
      s.content.objAt (.relation "a" "i") = some (.index i) ∧ i.unique = false ∧
      t.content.objAt (.relation "a" "i") = some (.index j) ∧ j.unique = true :=
  ⟨built (indexChanges false), built (indexChanges true), _, _, indexChanges_wf false,
    indexChanges_wf true, rfl, rfl, rfl, rfl, rfl⟩

-- Equal contents in different iteration orders.
example : compareDiff
    (built [.createSchema "a", .createTable "a" "t" [], .createTable "a" "u" []])
    (built [.createSchema "a", .createTable "a" "u" [], .createTable "a" "t" []]) = [] := by rfl

/-! ### C04 -/

/-- C04 (partial).  After a successful stage, the diff between the staged snapshot (re-built in any
iteration order: `r` is any well-formed snapshot of the same content) and the definitions is empty
exactly when every owned sequence of the definitions was in the source already, unchanged.  Missing:
owned sequences (`C04_owned_sequence_false`). -/
theorem C04_staging_idempotent_partial {s t final r : Database} {recorded downs : List Change}
    (hs : s.WF) (ht : t.WF)
    (h : stageLoop (compareDiff s t) s [] [] = .done final recorded downs)
    (hr : r.WF) (hrc : r.content = final.content) :
    compareDiff r t = [] ↔ OwnedSequencesUnchanged s.content t.content := by
  have h1 := (stageLoop_done h).1
  obtain ⟨d', hd', hc⟩ := diff_apply hs ht ((diff_apply_iff hs ht).1 ⟨final, h1⟩)
  rw [h1] at hd'; cases hd'
  rw [compareDiff_nil hr ht, hrc, hc, reached_keyOnly_iff hs ht]

/-- In particular staging is idempotent for every set of definitions without owned sequences. -/
theorem C04_idempotent_without_owned_sequences {s t final r : Database}
    {recorded downs : List Change} (hs : s.WF) (ht : t.WF)
    (h : stageLoop (compareDiff s t) s [] [] = .done final recorded downs)
    (hr : r.WF) (hrc : r.content = final.content)
    (ho : ∀ p q, t.content.objAt p = some (.sequence q) →
      q.ownedByTable = none ∧ q.ownedByColumn = none) :
    compareDiff r t = [] := by
  refine (C04_staging_idempotent_partial hs ht h hr hrc).2 ?_
  rintro n k q ⟨sc, h1, h2⟩ h3
  have := ho (.relation n k) q (by rw [objAt_relation, h1]; simp [h2, RelContent.obj])
  rcases h3 with h3 | h3
  · exact absurd this.1 h3
  · exact absurd this.2 h3

/-- The full C04 is false, whatever else the definitions say: an owned sequence that is not in the source
already, unchanged, is staged again and again. -/
theorem C04_owned_sequence_false {s t final r : Database} {recorded downs : List Change}
    (hs : s.WF) (ht : t.WF)
    (h : stageLoop (compareDiff s t) s [] [] = .done final recorded downs)
    (hr : r.WF) (hrc : r.content = final.content) {n k : String} {q : Sequence}
    (hq : t.content.objAt (.relation n k) = some (.sequence q))
    (ho : q.ownedByTable ≠ none ∨ q.ownedByColumn ≠ none)
    (hne : s.content.objAt (.relation n k) ≠ some (.sequence q)) :
    compareDiff r t ≠ [] := by
  intro e
  have := (C04_staging_idempotent_partial hs ht h hr hrc).1 e n k q (objAt_sequence.1 hq) ho
  exact hne (objAt_sequence.2 this)

example : ∃ final recorded downs,
    stageLoop (compareDiff Database.new ownedOnly) Database.new [] [] = .done final recorded downs ∧
    compareDiff final ownedOnly ≠ [] :=
  ⟨_, _, _, rfl, C04_owned_sequence_false Database.new_wf ownedOnly_wf rfl
    (applyAll_wf (cs := compareDiff Database.new ownedOnly) Database.new_wf (by rfl)) rfl
    (n := "a") (k := "q") rfl (.inl (by simp)) (by intro h; cases h)⟩

-- A stage that succeeds on a large diff.
example : ∃ final recorded downs,
    stageLoop (compareDiff demo demoTarget) demo [] [] = .done final recorded downs :=
  ⟨_, _, _, rfl⟩

/-! ### C05 -/

/-- C05.  After the diff is applied, every table that exists on both sides has the surviving source
columns, in source order and as the target defines them, followed by the new columns in definition
order. -/
theorem C05_column_order {s t d : Database} (hs : s.WF) (ht : t.WF)
    (h : applyAll (compareDiff s t) s = .ok d) {n r : String} {S T : Table}
    (hS : s.tableNamed n r = some S) (hT : t.tableNamed n r = some T) :
    ∃ tb, d.tableNamed n r = some tb ∧ tb.columns =
      S.columns.filterMap (fun c => columnNamed T.columns c.name)
      ++ T.columns.filter (fun c => (columnNamed S.columns c.name).isNone) := by
  have := diff_columns hs ht h hT
  rw [hS] at this
  exact this

/-- A table that is not in the source as a table has its columns in definition order. -/
theorem C05_created_table_column_order {s t d : Database} (hs : s.WF) (ht : t.WF)
    (h : applyAll (compareDiff s t) s = .ok d) {n r : String} {T : Table}
    (hS : s.tableNamed n r = none) (hT : t.tableNamed n r = some T) :
    ∃ tb, d.tableNamed n r = some tb ∧ tb.columns = T.columns := by
  obtain ⟨tb, h1, h2⟩ := diff_columns hs ht h hT
  refine ⟨tb, h1, ?_⟩
  rw [h2, hS]
  simp only [colsOf, List.filterMap_nil, List.nil_append, columnNamed_nil, Option.isNone_none]
  exact List.filter_eq_self.2 (by simp)

-- On `demo`: `users` keeps `id`, loses `name`, gains `email` (defined first, placed last); `posts`
-- gains `title` (defined in the middle, placed last).
example : (applyAll (compareDiff demo demoTarget) demo).toOption.map (fun d =>
      ((d.tableNamed "public" "users").map fun t => t.columns.map Column.name,
       (d.tableNamed "public" "posts").map fun t => t.columns.map Column.name))
    = some (some ["id", "email"], some ["id", "author", "title"]) := by rfl

/-! ### C06 -/

/-- C06.  Every change of a computed diff is called for: it creates, drops or alters something that
is different in the target, and says what the target says (`Needed`, `Spec/Needed.lean`). -/
theorem C06_every_change_needed {s t : Database} (hs : s.WF) (ht : t.WF) {c : Change}
    (h : c ∈ compareDiff s t) : Needed s.content t.content c :=
  diff_needed hs ht h

/-- C06 for the objects named: the target of every change (with everything inside it) is not the
same on both sides. -/
theorem C06_targets_differ {s t : Database} (hs : s.WF) (ht : t.WF) {c : Change}
    (h : c ∈ compareDiff s t) {p : Path} (hp : p ∈ c.targets) :
    s.content.wholeAt p ≠ t.content.wholeAt p :=
  needed_differs (diff_needed hs ht h) hp

-- The diff of the example has every group of changes in it.
example : (compareDiff demo demoTarget).length = 22 := by rfl

/-! ### C09 -/

/-- C09.  Staging a computed diff never panics on the revert of a change, whether or not it
succeeds. -/
theorem C09_stage_no_revert_panic {s t : Database} (hs : s.WF) (ht : t.WF) (e : SnapshotError) :
    stageLoop (compareDiff s t) s [] [] ≠ .panic e :=
  diff_no_panic hs ht e

/-- Staging succeeds exactly when the diff applies. -/
theorem C09_stage_succeeds_iff {s t : Database} (hs : s.WF) (ht : t.WF) :
    (∃ final recorded downs, stageLoop (compareDiff s t) s [] [] = .done final recorded downs) ↔
      ∃ d, applyAll (compareDiff s t) s = .ok d := by
  constructor
  · rintro ⟨f, r, ds, h⟩
    exact ⟨f, (stageLoop_done h).1⟩
  · rintro ⟨d, h⟩
    obtain ⟨downs, h'⟩ := stageLoop_of_applyAll hs (diff_no_panic hs ht) h
    exact ⟨d, _, downs, h'⟩

-- A change list that is no computed diff can panic: the revert of dropping a missing column.
example : stageLoop [.dropColumn "public" "users" "nope"] demo [] []
    = .panic (.columnNotFound "public" "users" "nope") := by rfl

end Podo
