import Verif.Proofs.Panics
import Verif.Proofs.NodeEq
/-
C48: exactly which definition files make the program panic.
-/
namespace Podo
namespace Def

/-- C48, exactly: reading a definition file panics when, and only when, the file is one of those that
`FilePanics` describes.  Every other file gives a snapshot or an error. -/
theorem C48_panics_iff (y : Yaml) : loadDoc y = .error .panic ↔ FilePanics y := loadDoc_panic

/-- C48, exactly, for a directory: reading it panics when, and only when, one of its YAML files does and the
files before it would be accepted by themselves. -/
theorem C48_directory_panics_iff (es : List (DirTree Yaml)) : loadDir es = .error .panic ↔
    ∃ before name f after, filesOf es = before ++ (name, f) :: after ∧
      (∃ d, loadDir (before.map fun p => DirTree.file p.1 p.2) = .ok d) ∧ YamlName name ∧ FilePanics f :=
  loadDir_panic

/-- Reading a directory file by file, as the program does, accepts what `Load.snapshot` accepts, so that
`C74_directory_accepted_iff` says which directories those are. -/
theorem C48_directory_accepted (es : List (DirTree Yaml)) (d : Database) :
    loadDir es = .ok d ↔ Load.snapshot parseDoc es = .ok d := loadFiles_iff

/-- A constraint that says `deferrable` before it says `check`, in a schema with a good view before it. -/
example : FilePanics (.map [some "schema s"] [.map [some "view v", some "table t"]
    [.map [some "as"] [.str "select 1"],
     .map [some "constraint c"] [.map [some "deferrable", some "check"] [.bool true, .str "a > 0"]]]]) := by
  refine .inr ⟨[], .branch "schema" (some "s") [.branch "view" (some "v") [.leaf "as" none (some (.string "select 1"))],
    .branch "table" (some "t") [.branch "constraint" (some "c")
      [.leaf "deferrable" none (some (.boolean true)), .leaf "check" none (some (.string "a > 0"))]]], [],
    fileSays_iff.2 ⟨_, _, rfl, by decide +kernel⟩, by simp, .nil, .inr ⟨"s", rfl, _, rfl, .inl
      ⟨_, .tail _ (.head _), .inl ⟨rfl, by simp [Node.name], _, rfl, .inl ⟨_, .head _, rfl, _, rfl, ?_⟩⟩⟩⟩⟩
  rintro first rest ⟨⟩
  decide

/-- A mapping in a list, where the list is inside another. -/
example : FilePanics (.map [some "schema s"] [.map [some "index i"]
    [.map [some "on t"] [.seq [.str "a", .seq [.map [] []]]]]]) := by
  have key : ∀ k kind name, parseKey k = .ok (kind, name) → KeySays k kind name := fun _ _ _ => parseKey_says.1
  exact .inl ⟨_, _, rfl, .inside (key _ "schema" (some "s") (by decide +kernel))
    (.inside (key _ "index" (some "i") (by decide +kernel))
      (.list (key _ "on" (some "t") (by decide +kernel))
        (.list (before := [.str "a"]) (after := []) (fun x hx => by
            rw [List.mem_singleton] at hx; subst hx; exact ⟨_, .text "a"⟩)
          (.list (before := []) (after := []) (by simp) .mapping))))⟩

/-- Two parts that define the same view: an error, and no panic at the third part, which would panic alone. -/
example : ∃ y, loadDoc y = .error (.snapshot (.relationAlreadyExists "s" "v")) ∧ ¬ FilePanics y ∧
    FilePanics (.map [some "table t"] [.null]) := by
  refine ⟨.map [some "schema s", some "Schema s", some "table t"]
    [.map [some "view v"] [.map [some "as"] [.str "x"]], .map [some "view v"] [.map [some "as"] [.str "y"]], .null],
    by decide +kernel, ?_, ?_⟩
  · rw [← C48_panics_iff]; decide +kernel
  · rw [← C48_panics_iff]; decide +kernel

/-- A directory with a file that is not YAML, a good file, one that panics, and one with an error. -/
example : loadDir [.file "a.txt" (.str ""), .dir "d" [.file "s.yaml" (.map [some "schema s"] [.null])],
    .file "t.yaml" (.map [some "table t"] [.null]), .file "u.yaml" .null] = .error .panic := by decide +kernel

end Def
end Podo
