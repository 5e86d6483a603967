import Verif.Proofs.Loaded
import Verif.Proofs.Definable
import Verif.Props.Def
/-
C70: what can be defined in definition files.
-/
namespace Podo
namespace Def

/-- C70 (partial).  Exactly these snapshots are defined by some directory of definition files: the
well-formed ones with names that can stand in a key, column types and defaults that can stand in the text
of a column, indexes of method `btree`, sequences that count up by one, unique constraints on some column
and foreign keys to some column.  Missing for the full property: the other well-formed snapshots, which
no directory defines. -/
theorem C70_definable_partial {d : Database} :
    (∃ es, Load.snapshot parseDoc es = .ok d) ↔ d.WF ∧ Definable d := by
  constructor
  · rintro ⟨es, h⟩
    exact ⟨snapshot_wf h, snapshot_definable h⟩
  · rintro ⟨hd, h⟩
    obtain ⟨y, _, h2⟩ := definable_file hd h
    exact ⟨_, one_file hd h2⟩

/-- C70.  One file is enough, in which no mapping has a key twice. -/
theorem C70_one_file {d : Database} (hd : d.WF) (h : Definable d) :
    ∃ y, Proper y ∧ Load.snapshot parseDoc [.file "schema.yaml" y] = .ok d := by
  obtain ⟨y, h1, h2⟩ := definable_file hd h
  exact ⟨y, h1, one_file hd h2⟩

/-- The demonstration snapshot: tables, constraints of each sort, a view, an index, a sequence and a
function. -/
example : demo.WF ∧ Definable demo := ⟨demo_wf, saved_definable demo_wf (by decide +kernel) (by decide +kernel)⟩

/-- Snapshots that `save` cannot write, and a file can define: an index on a table whose name begins with
"update", a view without a query, a sequence of a type PostgreSQL does not have, a column without a type. -/
def oddities : Database := ⟨[("public", ⟨"public", [
  ("i", .index ⟨"public", "i", "update_log", false, "btree", ["id"]⟩),
  ("v", .view ⟨"public", "v", ""⟩),
  ("q", .sequence ⟨"public", "q", "money", 1, 1, 9, 1, 1, false, none, none⟩),
  ("t", .table ⟨"public", "t", [⟨"public", "t", "a", "", true, some ""⟩], []⟩)], []⟩)]⟩

example : ¬ SnapshotOk oddities ∧ Load.snapshot parseDoc [.file "schema.yaml"
    (.map [some "schema public"] [.map [some "index i", some "view v", some "sequence q", some "table t"]
      [.map [some "on  update_log"] [.str "id"],
       .map [some "as"] [.str ""],
       .map [some "as", some "maxvalue"] [.str "money", .num (.integer 9)],
       .map [some "column a"] [.str " != "]]])] = .ok oddities := by
  refine ⟨fun h => ?_, by decide +kernel⟩
  have := ((h ("public", _) List.mem_cons_self).2.1 ("v", .view ⟨"public", "v", ""⟩) (by simp)).1
  exact this rfl

/-- The full C70 is false: no directory of definition files defines an index of another method than
`btree`, whatever it says and wherever. -/
theorem C70_index_method_false {es : List (DirTree Yaml)} {d : Database}
    (h : Load.snapshot parseDoc es = .ok d) {s k : String} {i : Index}
    (hi : d.relationAt s k = some (.index i)) : i.method = "btree" :=
  (snapshot_read h hi).2.2

example : ∃ d, Load.snapshot parseDoc [.dir "defs" [.file "schema.yaml" demoDoc]] = .ok d ∧
    (d.relationAt "public" "u" = some (.index ⟨"public", "u", "users", false, "btree", ["id"]⟩) ∧
     d.relationAt "audit" "q" = some (.sequence ⟨"audit", "q", "int8", 1, 1, 9223372036854775807, 1, 1,
      false, none, none⟩)) :=
  exists_ok (by decide +kernel)

/-- Nor does it define a sequence with another increment than 1: one that counts down, or by tens. -/
theorem C70_increment_false {es : List (DirTree Yaml)} {d : Database}
    (h : Load.snapshot parseDoc es = .ok d) {s k : String} {q : Sequence}
    (hq : d.relationAt s k = some (.sequence q)) : q.increment = 1 :=
  (snapshot_read h hq).2.1

/-- Nor does it define anything whose name is empty or has blanks at an end. -/
theorem C70_names_false {es : List (DirTree Yaml)} {d : Database}
    (h : Load.snapshot parseDoc es = .ok d) :
    (∀ s ∈ d.schemas.keys, s ≠ "" ∧ Trimmed s) ∧
    (∀ s k r, d.relationAt s k = some r → k ≠ "" ∧ Trimmed k) ∧
    (∀ s k f, d.functionAt s k = some f → k ≠ "" ∧ Trimmed k) ∧
    (∀ s k t, d.relationAt s k = some (.table t) → (∀ c ∈ t.columns, c.name ≠ "" ∧ Trimmed c.name) ∧
      ∀ p ∈ t.constraints, p.1 ≠ "" ∧ Trimmed p.1) :=
  snapshot_names h

end Def
end Podo
