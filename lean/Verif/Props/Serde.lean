import Verif.Proofs.Serde
import Verif.Proofs.SerdeRead
/-
C54: version files and the changes kept in the version table.
-/
namespace Podo
namespace Serde

/-- C54.  Reading what was written for a version gives the same name, predecessor, changes and scripts. -/
theorem C54_version_file (v : Version) (h : ∀ c ∈ v.changes, FitsInt64 c) :
    version (versionDoc v) = some v :=
  version_doc v h

/-- C54, the version table: reading the changes kept there gives the changes that were kept. -/
theorem C54_database_changes (cs : List Change) (h : ∀ c ∈ cs, FitsInt64 c) :
    changes (changesDoc cs) = some cs :=
  readAll_map fun c hc => change_doc c (h c hc)

/-- C54, a consequence: two versions written alike are the same. -/
theorem C54_written_apart {v w : Version} (hv : ∀ c ∈ v.changes, FitsInt64 c)
    (hw : ∀ c ∈ w.changes, FitsInt64 c) (h : versionDoc v = versionDoc w) : v = w := by
  have := version_doc v hv
  rw [h, version_doc w hw] at this
  injection this with this
  exact this.symm

/-- C54, order: a version file whose keys, at any depth, come in another order is read the same, and so
are the changes in the version table. -/
theorem C54_key_order {d d' : Doc} (h : Reordered d d') :
    version d = version d' ∧ changes d = changes d' :=
  ⟨blind_version d d' h, blind_list blind_change d d' h⟩

/-- C54, all files: a version file is read as a version exactly if it has, besides what else it may have, all
that podo writes for that version, and its numbers fit into 64 bits; every other file is an error. -/
theorem C54_read_iff (d : Doc) (v : Version) :
    version d = some v ↔ Has d (versionDoc v) ∧ ∀ c ∈ v.changes, FitsInt64 c := version_iff

/-- C54, the same for the changes in the version table. -/
theorem C54_database_read_iff (d : Doc) (cs : List Change) :
    changes d = some cs ↔ Has d (changesDoc cs) ∧ ∀ c ∈ cs, FitsInt64 c := changes_iff

/-- A version with changes of several kinds (for examples). -/
def demoVersion : Version :=
  ⟨"1-a", some "init",
   [.createSchema "s", .createTable "s" "t" [⟨"a", "int8", true, none⟩, ⟨"b", "text", false, some "''"⟩],
    .createSequence "s" "q" "int8" (-1) (-9223372036854775808) (-1) (-1) 1 false,
    .addForeignKey "s" "t" "fk" ["a"] "s" "u" ["x", "y"] "SIMPLE" "NO ACTION" "CASCADE" true false,
    .setDefault "s" "t" "b" none],
   ["CREATE SCHEMA s;"], []⟩

example : ∀ c ∈ demoVersion.changes, FitsInt64 c := by simp [demoVersion, FitsInt64]

/-- The content before the tag, an unknown key, and no predecessor said. -/
example : version (.map [("changes", .seq [.map [("change", .map [("schema_name", .str "s")]),
      ("type", .str "DropSchemaChange")]]), ("note", .null), ("down", .seq []), ("up", .seq [.str "x"]),
    ("name", .str "init")]) = some ⟨"init", none, [.dropSchema "s"], ["x"], []⟩ := by decide +kernel

/-- A key given twice, a missing key and an unknown kind of change are errors. -/
example : version (.map [("name", .str "a"), ("name", .str "a"), ("changes", .seq []), ("up", .seq []),
      ("down", .seq [])]) = none ∧
    version (.map [("name", .str "a"), ("changes", .seq []), ("up", .seq [])]) = none ∧
    changes (.seq [.map [("type", .str "Rename"), ("change", .map [])]]) = none := by decide +kernel

/-- A file with another order of keys, an unknown one, and no predecessor said; one that lacks a key, and one
with a text for a list, are not read. -/
example : (∃ d, (∀ v, d ≠ versionDoc v) ∧ Has d (versionDoc ⟨"a", none, [], ["x"], []⟩)) ∧
    version (.map [("name", .str "a"), ("changes", .seq []), ("up", .seq [])]) = none ∧
    version (.map [("name", .str "a"), ("changes", .str ""), ("up", .seq []), ("down", .seq [])]) = none := by
  refine ⟨⟨.map [("up", .seq [.str "x"]), ("note", .null), ("down", .seq []), ("changes", .seq []),
    ("name", .str "a")], by intro v h; simp [versionDoc] at h, ?_⟩, by rfl, by rfl⟩
  exact ((C54_read_iff _ ⟨"a", none, [], ["x"], []⟩).1 (by rfl)).1

end Serde
end Podo
