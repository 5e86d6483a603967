import Verif.Proofs.Stated
import Verif.Proofs.NodeEq
import Verif.Proofs.Load
/-
C58: what an accepted definition file states is what is loaded.
-/
namespace Podo
namespace Def

/-- C58.  The snapshot loaded from an accepted file holds exactly what the file states, object by object
and attribute by attribute, and PostgreSQL's defaults for what the file leaves out. -/
theorem C58_file_states {y : Yaml} {d : Database} (h : loadDoc y = .ok d) :
    ∃ ns, FileSays y ns ∧ FileStates ns d :=
  ⟨_, loadDoc_says h, loadDoc_states h⟩

/-- C58: a file can be read in one way only. -/
theorem C58_one_reading {y : Yaml} {ns ms : List Node} (h : FileSays y ns) (h' : FileSays y ms) :
    ns = ms := by
  rw [← fileSays_nodes h, fileSays_nodes h']

/-- C58, for a directory: its YAML files can all be read, and the snapshot holds exactly what they,
together, state. -/
theorem C58_directory_states {es : List (DirTree Yaml)} {d : Database}
    (h : Load.snapshot parseDoc es = .ok d) :
    (∀ n f, InTree n f es → YamlName n → ∃ fs, FileSays f fs) ∧
    ∃ ns, (∀ m, m ∈ ns ↔ ∃ n f fs, InTree n f es ∧ YamlName n ∧ FileSays f fs ∧ m ∈ fs) ∧
      FileStates ns d := by
  have hs := snapshot_says h
  refine ⟨fun n f hn hy => ⟨_, hs f (hn.mem_collect (Load.isYaml_iff.2 hy))⟩, _, ?_, snapshot_states h⟩
  intro m
  rw [List.mem_flatMap]
  constructor
  · rintro ⟨f, hf, hm⟩
    obtain ⟨n, hy, hn⟩ := Load.collect_sub es hf
    exact ⟨n, f, _, hn, Load.isYaml_iff.1 hy, hs f hf, hm⟩
  · rintro ⟨n, f, fs, hn, hy, hf, hm⟩
    rw [← fileSays_nodes hf] at hm
    exact ⟨f, hn.mem_collect (Load.isYaml_iff.2 hy), hm⟩

/-- A file that leaves out all it can (for examples). -/
def shortDoc : Yaml :=
  .map [some "schema shop"]
    [.map [some "table orders", some "index by_user", some "sequence ids", some "function f"]
      [.map [some "column id", some "column note", some "constraint fk"]
        [.str "int8 !", .str "text = 'a = b!' ",
         .map [some "foreign key", some "references audit.users"] [.str "id", .str "uid"]],
       .map [some "on orders"] [.seq [.str "id", .str "note"]],
       .map [some "as", some "cycle"] [.str "int4", .bool true],
       .map [some "as"] [.str "select 1"]]]

/-- The file is accepted, and this is what is loaded from it. -/
example : ∃ d, loadDoc shortDoc = .ok d ∧
    (d.relationAt "shop" "orders" = some (.table ⟨"shop", "orders",
      [⟨"shop", "orders", "id", "int8", true, none⟩,
       ⟨"shop", "orders", "note", "text", false, some "'a = b!'"⟩],
      [("fk", .foreignKey ⟨"shop", "orders", "fk", ["id"], "audit", "users", ["uid"], "SIMPLE",
        "NO ACTION", "NO ACTION", false, false⟩)]⟩) ∧
     d.relationAt "shop" "by_user" =
      some (.index ⟨"shop", "by_user", "orders", false, "btree", ["id", "note"]⟩) ∧
     d.relationAt "shop" "ids" = some (.sequence ⟨"shop", "ids", "int4", 1, 1, 2147483647, 1, 1, true,
      none, none⟩) ∧
     d.functionAt "shop" "f" = some ⟨"shop", "f", "select 1", "SQL", "void", "VOLATILE"⟩) :=
  exists_ok (by decide +kernel)

end Def
end Podo
