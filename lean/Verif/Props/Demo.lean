import Verif.Proofs.Wf
/-
A concrete, non-trivial snapshot used by the non-vacuity examples.
-/
namespace Podo

/-- Changes that build a schema with two tables, all constraint kinds, an index, a sequence, a view
and a function. -/
def demoChanges : List Change :=
  [ .createSchema "public",
    .createTable "public" "users"
      [⟨"id", "int8", true, some "nextval('users_id_seq')"⟩, ⟨"name", "text", false, none⟩],
    .createTable "public" "posts" [⟨"id", "int8", true, none⟩, ⟨"author", "int8", true, none⟩],
    .addPrimaryKey "public" "users" "users_pk" ["id"] false false,
    .addUnique "public" "users" "users_name_key" ["name"] true true,
    .addForeignKey "public" "posts" "posts_author_fk" ["author"] "public" "users" ["id"]
      "SIMPLE" "NO ACTION" "CASCADE" true false,
    .addCheck "public" "posts" "posts_id_check" "(id > 0)" false false,
    .createSequence "public" "users_id_seq" "int8" 1 1 9223372036854775807 1 1 false,
    .createIndex "public" "posts" "posts_author_idx" false "btree" ["author"],
    .createView "public" "authors" "SELECT name FROM users",
    .createFunction "public" "now_utc" "AS $$ SELECT now() $$" "SQL" "timestamptz" "STABLE" ]

/-- The snapshot these changes build. -/
def demo : Database :=
  match Change.applyAll demoChanges Database.new with
  | .ok d => d
  | .error _ => Database.new

theorem demo_built : Change.applyAll demoChanges Database.new = .ok demo := by rfl

theorem demo_wf : demo.WF := applyAll_wf Database.new_wf demo_built

end Podo
