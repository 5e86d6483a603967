import Verif.Proofs.Introspect
import Verif.Proofs.Clone
import Verif.Proofs.NodeEq
import Verif.Proofs.DiffEmpty
import Verif.Props.Project
/-
C53 and C60: introspection and `clone`.
-/
set_option linter.unusedSimpArgs false
namespace Podo
namespace Introspect
open AMap

/-! ### C53 -/

/-- C53.  Introspection succeeds exactly on the consistent catalogues. -/
theorem C53_succeeds_iff (c : Catalog) : (∃ d, introspect c = .ok d) ↔ c.Consistent := succeeds_iff c

/-- C53.  The snapshot then holds exactly the objects the rows describe. -/
theorem C53_represents {c : Catalog} {d : Database} (h : introspect c = .ok d) : Represents c d :=
  represents h

/-- C53.  That says everything about the snapshot: all snapshots of which it is true have the same
content. -/
theorem C53_determined {c : Catalog} {d d' : Database} (h : Represents c d) (h' : Represents c d') :
    d.content = d'.content :=
  represents_unique h h'

/-- C53.  The snapshot is well-formed. -/
theorem C53_wellformed {c : Catalog} {d : Database} (h : introspect c = .ok d) : d.WF :=
  introspect_wf h

/-- A catalogue (for examples): two tables, one with a key to the other, a sequence, a function and two
indexes. -/
def demoCatalog : Catalog where
  schemas := ["public"]
  sequences := [⟨"public", "users_id_seq", "int8", 1, 1, 9223372036854775807, 1, 1, false,
    some "users", some "id"⟩]
  tables := [⟨"public", "users"⟩, ⟨"public", "posts"⟩]
  columns := [⟨"public", "users", "id", "nextval('users_id_seq'::regclass)", true, some "int8"⟩,
    ⟨"public", "posts", "id", "", true, some "int8"⟩,
    ⟨"public", "users", "email", "", false, some "varchar(20)"⟩,
    ⟨"public", "posts", "author", "", false, some "int8"⟩]
  primaryKeys := [⟨"public", "users_pkey", "users", ["id"], false, false⟩]
  foreignKeys := [⟨"author", "public", "posts", ["author"], "users", some "public", some ["id"],
    true, false, "NONE", "NO ACTION", "CASCADE"⟩]
  functions := [⟨"public", "one", "SELECT 1", "sql", "int4", "volatile"⟩]
  uniques := [⟨"public", "users_email_key", "users", ["email"], false, false⟩]
  checks := [⟨"public", "users", "positive", "(id > 0)", false, false⟩]
  indexes := [⟨"public", "by_author", "posts", false, "btree", some ["author", "id"], none⟩,
    ⟨"public", "by_lower", "users", true, "btree", some [], some "lower(email)"⟩]
  views := []

example : ∃ d, introspect demoCatalog = .ok d ∧
    (d.schemas.values.flatMap fun s => s.relations.keys) =
      ["users_id_seq", "users", "posts", "by_author", "by_lower"] := by
  refine ⟨_, rfl, ?_⟩
  decide +kernel

/-- Two functions of one name, which PostgreSQL allows: no snapshot. -/
example : introspect { demoCatalog with functions :=
    [⟨"public", "one", "SELECT 1", "sql", "int4", "volatile"⟩,
     ⟨"public", "one", "SELECT $1", "sql", "int4", "volatile"⟩] } = .error .error := by rfl

/-- A foreign key to a unique index, and a column type the query has no case for: panics. -/
example : introspect { demoCatalog with foreignKeys := [⟨"author", "public", "posts", ["author"],
    "users", none, none, true, false, "NONE", "NO ACTION", "CASCADE"⟩] } = .error .panic := by rfl
example : introspect { demoCatalog with columns :=
    [⟨"public", "users", "place", "", false, none⟩] } = .error .panic := by rfl

end Introspect

namespace Proj
open AMap Introspect
open Def (SnapshotOk loadDoc parseDoc)

/-! ### C60 -/

/-- C60 (partial).  After a `clone` that succeeded, the file `public.yaml` of the default definitions
directory loads as a snapshot that holds exactly the objects of the database, views apart, if the
definition files can express them (`Expressible`).  Missing for the full property: databases with views,
or with objects that definition files cannot express; the theorems below show that it is false for them. -/
theorem C60_cloned_file_partial {env : Env} {connect : String → Option Catalog} {fs fs' : Fs}
    {cwd : Path} {profile : String} (h : clone env connect fs cwd profile = (fs', .done)) :
    ∃ p url ds c y, discover env fs cwd = .ok p ∧ p.databaseUrl profile = .ok url ∧
      p.definitionsDir DEFAULT_PROFILE = .ok ds ∧ connect url = some c ∧
      get? (fs'.definitions ds) "public.yaml" = some y ∧
      ((∀ r ∈ c.sequences, r.Int64) → c.Expressible →
        ∃ d, loadDoc y = .ok d ∧ Represents c d) := by
  obtain ⟨p, url, ds, c, d, y, h1, h2, h3, h4, h5, h6, rfl⟩ := clone_done h
  refine ⟨p, url, ds, c, y, h1, h2, h3, h4, ?_, fun h64 hok => ?_⟩
  · simp [cloned, update, get?_insertEntry]
  · obtain ⟨y', hy, hl⟩ := Def.saved_loads (introspect_wf h5) (introspect_int64 h5 h64)
      (expressible_ok h5 hok)
    rw [h6] at hy
    cases hy
    exact ⟨d, hl, represents h5⟩

/-- C60, and the databases of which that is true are exactly those: the file that `clone` wrote loads as a
snapshot that holds exactly the objects of the database, views apart, if and only if definition files can
express them. -/
theorem C60_cloned_file_iff {env : Env} {connect : String → Option Catalog} {fs fs' : Fs}
    {cwd : Path} {profile : String} {p : Project} {url : String} {ds : Path} {c : Catalog} {y : Def.Yaml}
    (h : clone env connect fs cwd profile = (fs', .done))
    (h1 : discover env fs cwd = .ok p) (h2 : p.databaseUrl profile = .ok url)
    (h3 : p.definitionsDir DEFAULT_PROFILE = .ok ds) (h4 : connect url = some c)
    (hy : get? (fs'.definitions ds) "public.yaml" = some y) (h64 : ∀ r ∈ c.sequences, r.Int64) :
    (∃ d, loadDoc y = .ok d ∧ Represents c d) ↔ c.Expressible := by
  obtain ⟨p', url', ds', c', d, y', e1, e2, e3, e4, e5, e6, rfl⟩ := clone_done h
  rw [h1] at e1; cases e1
  rw [h2] at e2; cases e2
  rw [h3] at e3; cases e3
  rw [h4] at e4; cases e4
  have hyy : y' = y := by simpa [cloned, update, get?_insertEntry] using hy
  subst hyy
  constructor
  · rintro ⟨d', hl, hr⟩
    exact ok_expressible e5 (Def.loads_content (introspect_wf e5) (introspect_int64 e5 h64) e6 hl
      (represents_unique hr (represents e5)))
  · intro hok
    obtain ⟨y', hy', hl⟩ := Def.saved_loads (introspect_wf e5) (introspect_int64 e5 h64)
      (expressible_ok e5 hok)
    rw [e6] at hy'
    cases hy'
    exact ⟨d, hl, represents e5⟩

/-- C60, when `clone` succeeds: exactly when the project is found, the profile has a database to connect
to, its catalogue is consistent, and the sequences of it have one of three types and no owner that is a
table without a column. -/
theorem C60_succeeds_iff (env : Env) (connect : String → Option Catalog) (fs : Fs) (cwd : Path)
    (profile : String) :
    (∃ fs', clone env connect fs cwd profile = (fs', .done)) ↔
      ∃ p url ds c, discover env fs cwd = .ok p ∧ p.databaseUrl profile = .ok url ∧
        p.definitionsDir DEFAULT_PROFILE = .ok ds ∧ connect url = some c ∧ c.Consistent ∧
        ∀ r ∈ c.sequences, r.Writable := by
  constructor
  · rintro ⟨fs', h⟩
    obtain ⟨p, url, ds, c, d, y, e1, e2, e3, e4, e5, e6, rfl⟩ := clone_done h
    exact ⟨p, url, ds, c, e1, e2, e3, e4, (succeeds_iff c).1 ⟨d, e5⟩,
      (writable_iff e5).1 ((Def.saveDoc_ok_iff (introspect_wf e5)).1 ⟨y, e6⟩)⟩
  · rintro ⟨p, url, ds, c, e1, e2, e3, e4, e5, e6⟩
    obtain ⟨d, hd⟩ := (succeeds_iff c).2 e5
    obtain ⟨y, hy⟩ := (Def.saveDoc_ok_iff (introspect_wf hd)).2 ((writable_iff hd).2 e6)
    exact ⟨_, clone_done_of e1 e2 e3 e4 hd hy⟩

/-- C60.  Everything else stays as it was: the configuration, the histories, and all other definition
files; and a `clone` that does not succeed changes nothing at all. -/
theorem C60_nothing_else_changes {env : Env} {connect : String → Option Catalog} {fs fs' : Fs}
    {cwd : Path} {profile : String} {e : CloneEnd} (h : clone env connect fs cwd profile = (fs', e)) :
    fs'.config = fs.config ∧ fs'.history = fs.history ∧ (e ≠ .done → fs' = fs) ∧
    ∀ p ds, discover env fs cwd = .ok p → p.definitionsDir DEFAULT_PROFILE = .ok ds →
      (∀ d, d ≠ ds → fs'.definitions d = fs.definitions d) ∧
      ∀ n, n ≠ "public.yaml" → get? (fs'.definitions ds) n = get? (fs.definitions ds) n := by
  cases e with
  | done =>
    obtain ⟨p, url, ds, c, d, y, h1, h2, h3, h4, h5, h6, rfl⟩ := clone_done h
    refine ⟨rfl, rfl, fun h => absurd rfl h, ?_⟩
    intro p' ds' hp' hd'
    rw [h1] at hp'; cases hp'
    rw [h3] at hd'; cases hd'
    refine ⟨fun d hd => by simp [cloned, update, hd], fun n hn => ?_⟩
    simp [cloned, update, get?_insertEntry, hn]
  | failed | panic =>
    have : fs' = fs := by
      unfold clone at h
      repeat' split at h
      all_goals first | (injection h with h _; exact h.symm) | cases h
    subst this
    exact ⟨rfl, rfl, fun _ => rfl, fun _ _ _ _ => ⟨fun _ _ => rfl, fun _ _ => rfl⟩⟩

/-- C60 (partial), when `clone` succeeds: the project is found, the profile has a database to connect to,
its catalogue is consistent, and the definition files can express its objects.  Missing: see
`C60_cloned_file_partial`. -/
theorem C60_succeeds_partial {env : Env} {connect : String → Option Catalog} {fs : Fs} {cwd : Path}
    {profile : String} {p : Project} {url : String} {ds : Path} {c : Catalog}
    (h1 : discover env fs cwd = .ok p) (h2 : p.databaseUrl profile = .ok url)
    (h3 : p.definitionsDir DEFAULT_PROFILE = .ok ds) (h4 : connect url = some c)
    (h5 : c.Consistent) (h64 : ∀ r ∈ c.sequences, r.Int64)
    (hok : c.Expressible) :
    ∃ fs', clone env connect fs cwd profile = (fs', .done) := by
  obtain ⟨d, hd⟩ := (succeeds_iff c).2 h5
  obtain ⟨y, hy, _⟩ := Def.saved_loads (introspect_wf hd) (introspect_int64 hd h64)
      (expressible_ok hd hok)
  refine ⟨cloned fs ds y, ?_⟩
  unfold clone cloned
  simp only [h1, h2, h3, h4, hd, hy]

/-- C60 (partial), what a user does next: with no other definition files, `stage` after `clone` sees
exactly the database; if the history already has it, there is nothing to stage. -/
theorem C60_nothing_to_stage_partial {env : Env} {connect : String → Option Catalog} {fs fs' : Fs}
    {cwd : Path} {profile : String} {p : Project} {url : String} {ds : Path} {c : Catalog}
    (h : clone env connect fs cwd profile = (fs', .done))
    (h1 : discover env fs cwd = .ok p) (h2 : p.databaseUrl profile = .ok url)
    (h3 : p.definitionsDir DEFAULT_PROFILE = .ok ds) (h4 : connect url = some c)
    (h64 : ∀ r ∈ c.sequences, r.Int64) (hok : c.Expressible)
    (hempty : fs.definitions ds = []) {s : Database} (hs : s.WF) (hr : Represents c s) :
    ∃ t, Load.snapshot parseDoc ((fs'.definitions ds).map fun f => .file f.1 f.2) = .ok t ∧
      Represents c t ∧ Diff.compareDiff s t = [] := by
  obtain ⟨p', url', ds', c', d, y, e1, e2, e3, e4, e5, e6, rfl⟩ := clone_done h
  rw [h1] at e1; cases e1
  rw [h2] at e2; cases e2
  rw [h3] at e3; cases e3
  rw [h4] at e4; cases e4
  obtain ⟨y', hy, hl⟩ := Def.saved_loads (introspect_wf e5) (introspect_int64 e5 h64)
      (expressible_ok e5 hok)
  rw [e6] at hy; cases hy
  refine ⟨d, ?_, represents e5, (compareDiff_nil hs (introspect_wf e5)).2
    (by rw [represents_unique hr (represents e5)])⟩
  have : (cloned fs ds y).definitions ds =
      [("public.yaml", y)] := by
    simp [cloned, update, hempty, Def.insertEntry, AMap.has, AMap.insertNew]
  simp only [this, List.map]
  exact snapshot_single hl

/-- The hypotheses hold of the catalogue of the examples. -/
theorem demoCatalog_ok : demoCatalog.Consistent ∧ demoCatalog.Expressible ∧
    ∀ r ∈ demoCatalog.sequences, r.Int64 := by
  refine ⟨(succeeds_iff _).1 ⟨_, rfl⟩, ⟨by decide +kernel, by decide +kernel, by decide +kernel,
    by decide +kernel, by decide +kernel, by decide +kernel, by decide +kernel, by decide +kernel,
    by decide +kernel, by decide +kernel⟩, ?_⟩
  intro r hr
  simp only [demoCatalog, List.mem_singleton] at hr
  subst hr
  exact ⟨⟨by decide, by decide⟩, ⟨by decide, by decide⟩, ⟨by decide, by decide⟩,
    ⟨by decide, by decide⟩, ⟨by decide, by decide⟩⟩

example : ∃ p url ds, discover demoEnv demoFs ["a", "b", "c"] = .ok p ∧
    p.databaseUrl "database" = .ok url ∧ p.definitionsDir DEFAULT_PROFILE = .ok ds ∧
    demoFs.definitions ds = [] := by
  obtain ⟨p, h1, h2, h3⟩ : ∃ p, discover demoEnv demoFs ["a", "b", "c"] = .ok p ∧
      p.databaseUrl "database" = .ok "postgresql://localhost:5432/postgres" ∧
      p.definitionsDir DEFAULT_PROFILE = .ok ["a", "b", "database", "definitions"] :=
    Def.exists_ok (by decide +kernel)
  exact ⟨p, _, _, h1, h2, h3, rfl⟩

/-- The catalogues of the three databases below. -/
def viewCatalog : Catalog where
  schemas := ["public"]
  sequences := []
  tables := []
  columns := []
  primaryKeys := []
  foreignKeys := []
  functions := []
  uniques := []
  checks := []
  indexes := []
  views := [⟨"public", "v", "SELECT 1"⟩]

def incrementCatalog : Catalog :=
  { viewCatalog with views := [], sequences :=
      [⟨"public", "q", "int8", 2, 1, 9223372036854775807, 1, 1, false, none, none⟩] }

def methodCatalog : Catalog :=
  { viewCatalog with
    views := [], tables := [⟨"public", "t"⟩],
    columns := [⟨"public", "t", "a", "", false, some "jsonb"⟩],
    indexes := [⟨"public", "i", "t", false, "gin", some ["a"], none⟩] }

/-- The full C60 is false: of a database with a view, `clone` writes a file that loads without it. -/
theorem C60_views_false :
    viewCatalog.views = [⟨"public", "v", "SELECT 1"⟩] ∧
    ∃ y, get? ((clone demoEnv (fun _ => some viewCatalog) demoFs ["a", "b"] "database").1.definitions
        ["a", "b", "database", "definitions"]) "public.yaml" = some y ∧
      (clone demoEnv (fun _ => some viewCatalog) demoFs ["a", "b"] "database").2 = .done ∧
      loadDoc y = .ok ⟨[("public", Schema.new "public")]⟩ := by
  exact ⟨rfl, exists_some (by decide +kernel)⟩

/-- Of a consistent database that has a sequence with an increment of 2, or an index that uses `gin`,
`clone` writes a file that cannot be loaded. -/
theorem C60_inexpressible_false :
    (incrementCatalog.Consistent ∧
      ∃ y, get? ((clone demoEnv (fun _ => some incrementCatalog) demoFs ["a", "b"]
        "database").1.definitions ["a", "b", "database", "definitions"]) "public.yaml" = some y ∧
      (clone demoEnv (fun _ => some incrementCatalog) demoFs ["a", "b"] "database").2 = .done ∧
      loadDoc y = .error (.parse "")) ∧
    (methodCatalog.Consistent ∧
      ∃ y, get? ((clone demoEnv (fun _ => some methodCatalog) demoFs ["a", "b"]
        "database").1.definitions ["a", "b", "database", "definitions"]) "public.yaml" = some y ∧
      (clone demoEnv (fun _ => some methodCatalog) demoFs ["a", "b"] "database").2 = .done ∧
      loadDoc y = .error (.parse "")) := by
  refine ⟨⟨(succeeds_iff _).1 ⟨_, rfl⟩, exists_some ?_⟩, ⟨(succeeds_iff _).1 ⟨_, rfl⟩, exists_some ?_⟩⟩ <;>
    decide +kernel

end Proj
end Podo
