import Verif.Proofs.Accepts
import Verif.Props.Load
import Verif.Props.Stated
/-
C74: exactly which definition files are accepted.
-/
namespace Podo
namespace Def

/-- C74.  A definition file is accepted exactly when it can be read, each of its parts is a schema of
well-formed definitions, and no two parts define the same thing. -/
theorem C74_accepted_iff (y : Yaml) : (∃ d, loadDoc y = .ok d) ↔
    ∃ ns, FileSays y ns ∧ (∀ n ∈ ns, SchemaAccepted n) ∧ ns.Pairwise fun a b => ¬ PartsClash a b :=
  loadDoc_accepts

/-- C74, for a directory: it is accepted exactly when each of its YAML files is and no two of them define
the same thing.  Other files do not matter. -/
theorem C74_directory_accepted_iff (es : List (DirTree Yaml)) :
    (∃ d, Load.snapshot parseDoc es = .ok d) ↔
      (∀ n f, InTree n f es → YamlName n → ∃ d, loadDoc f = .ok d) ∧
      (∀ m n f g as bs, [(m, f), (n, g)].Sublist (filesOf es) → YamlName m → YamlName n →
        FileSays f as → FileSays g bs → ∀ a ∈ as, ∀ b ∈ bs, ¬ PartsClash a b) := by
  rw [C15_duplicates_fail fun f scs hp => parseDoc_wf hp]
  have pair : ∀ {ss : List Schema}, (∀ a b, [a, b].Sublist ss → ¬ DefinitionsClash a b) ↔
      ss.Pairwise fun a b => ¬ DefinitionsClash a b := by
    intro ss
    rw [List.pairwise_iff_forall_sublist]
  constructor
  · rintro ⟨h1, h2, h3⟩
    refine ⟨fun n f hn hy => ?_, ?_⟩
    · obtain ⟨ss, hs⟩ := h1 n f hn hy
      obtain ⟨d, hd⟩ := (addSchemas_ok_iff ss Database.new [] holds_new (parseDoc_wf hs)).1.2
        ⟨by simp, pair.1 (h2 n f ss hn hy hs)⟩
      exact ⟨d, loadDoc_iff.2 ⟨ss, hs, hd⟩⟩
    · intro m n f g as bs hsub hm hn ha hb a haa b hbb
      have listed : ∀ k x, (k, x) ∈ filesOf es → YamlName k → ∃ scs, parseDoc x = .ok scs := by
        intro k x hx hk
        have : x ∈ Load.collect es := by
          rw [Load.collect_eq]
          exact List.mem_map.2 ⟨(k, x), List.mem_filter.2 ⟨hx, Load.isYaml_iff.2 hk⟩, rfl⟩
        obtain ⟨l, hl, hin⟩ := Load.collect_sub es this
        exact h1 l x hin (Load.isYaml_iff.1 hl)
      obtain ⟨ss, hs⟩ := listed m f (hsub.subset (by simp)) hm
      obtain ⟨ts, ht⟩ := listed n g (hsub.subset (by simp)) hn
      rw [← fileSays_nodes ha] at haa
      rw [← fileSays_nodes hb] at hbb
      obtain ⟨s, hss, es1⟩ := map_ok_mem' (parseDoc_nodes hs) haa
      obtain ⟨t, htt, es2⟩ := map_ok_mem' (parseDoc_nodes ht) hbb
      rw [← clash_iff es1 es2]
      exact h3 m n f g ss ts hsub hm hn hs ht s hss t htt
  · rintro ⟨h1, h2⟩
    refine ⟨fun n f hn hy => ?_, fun n f ss hn hy hs => ?_, ?_⟩
    · obtain ⟨d, hd⟩ := h1 n f hn hy
      obtain ⟨ss, hs, _⟩ := loadDoc_iff.1 hd
      exact ⟨ss, hs⟩
    · obtain ⟨d, hd⟩ := h1 n f hn hy
      obtain ⟨ss', hs', hd⟩ := loadDoc_iff.1 hd
      rw [hs] at hs'; injection hs' with hs'; subst hs'
      exact pair.2 ((addSchemas_ok_iff ss Database.new [] holds_new (parseDoc_wf hs)).1.1 ⟨d, hd⟩).2
    · intro m n f g ss ts hsub hm hn hs ht s hss t htt
      obtain ⟨a, ha, e1⟩ := map_ok_mem (parseDoc_nodes hs) hss
      obtain ⟨b, hb, e2⟩ := map_ok_mem (parseDoc_nodes ht) htt
      rw [clash_iff e1 e2]
      exact h2 m n f g _ _ hsub hm hn (parseDoc_says hs) (parseDoc_says ht) a ha b hb

/-! ### Cases -/

/-- The file of C58 is accepted, so there are such parts. -/
example : ∃ ns, FileSays shortDoc ns ∧ (∀ n ∈ ns, SchemaAccepted n) ∧
    ns.Pairwise fun a b => ¬ PartsClash a b :=
  (C74_accepted_iff shortDoc).1 (exists_ok (P := fun _ => True) (by decide +kernel) |>.imp fun _ h => h.1)

/-- One schema with one definition under it. -/
def oneDef (key : String) (v : Yaml) : Yaml := .map [some "schema shop"] [.map [some key] [v]]

/-- A table with nothing under it is accepted. -/
example : ∃ d, loadDoc (oneDef "table t" .null) = .ok d ∧
    d.relationAt "shop" "t" = some (.table ⟨"shop", "t", [], []⟩) := exists_ok (by decide +kernel)

/-- What stands under an index and is not an attribute of an index is passed over. -/
example : ∃ d, loadDoc (oneDef "index i" (.map [some "on t", some "check"] [.str "a", .str "b"])) = .ok d ∧
    d.relationAt "shop" "i" = some (.index ⟨"shop", "i", "t", false, "btree", ["a"]⟩) :=
  exists_ok (by decide +kernel)

/-- Under a view it is not. -/
example : ¬ ∃ d, loadDoc (oneDef "view v" (.map [some "as", some "check"] [.str "a", .str "b"])) = .ok d := by
  rintro ⟨d, h⟩
  have : (loadDoc (oneDef "view v" (.map [some "as", some "check"] [.str "a", .str "b"]))).toOption.isNone =
      true := by decide +kernel
  rw [h] at this; cases this

/-- A table and a view of one name are rejected, in one schema or in two parts of it. -/
example : ¬ ∃ d, loadDoc (.map [some "schema shop", some "Schema shop"]
    [.map [some "table t"] [.null], .map [some "view t"] [.map [some "as"] [.str "q"]]]) = .ok d := by
  rintro ⟨d, h⟩
  have : (loadDoc (.map [some "schema shop", some "Schema shop"]
    [.map [some "table t"] [.null], .map [some "view t"] [.map [some "as"] [.str "q"]]])).toOption.isNone =
      true := by decide +kernel
  rw [h] at this; cases this

/-- A directory of two files that define different things, and a file that is no YAML file. -/
example : ∃ d, Load.snapshot parseDoc
    [.file "a.yaml" shortDoc, .dir "sub" [.file "b.yaml" (oneDef "table t" .null)],
     .file "notes.txt" (.str "")] = .ok d ∧ d.hasSchema "shop" = true := exists_ok (by decide +kernel)

/-- Two files that define the same table are not accepted together. -/
example : ¬ ∃ d, Load.snapshot parseDoc
    [.file "a.yaml" (oneDef "table t" .null), .dir "sub" [.file "b.yaml" (oneDef "table t" .null)]] =
      .ok d := by
  rintro ⟨d, h⟩
  have : (Load.snapshot parseDoc
    [.file "a.yaml" (oneDef "table t" .null), .dir "sub" [.file "b.yaml" (oneDef "table t" .null)]]
    ).toOption.isNone = true := by decide +kernel
  rw [h] at this; cases this

end Def
end Podo
