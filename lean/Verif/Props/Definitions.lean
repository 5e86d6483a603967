import Verif.Proofs.Program
import Verif.Props.Accepts
import Verif.Proofs.Clone
import Verif.Model.Program
/-
C15 and C74 for the definitions of a profile: which files of its directory count, and what they give.
-/
namespace Podo
namespace Prog
open Proj Def

theorem inTree_files {n : String} {y : Yaml} : ∀ {fs : AMap Yaml},
    InTree n y (fs.map fun f => DirTree.file f.1 f.2) ↔ (n, y) ∈ fs
  | [] => ⟨fun h => (nomatch h), fun h => (nomatch h)⟩
  | f :: fs => by
    rw [List.map_cons, List.mem_cons]
    constructor
    · intro h
      cases h with
      | here => exact .inl rfl
      | later _ h => exact .inr (inTree_files.1 h)
    · rintro (rfl | h)
      · exact .here _
      · exact .later _ (inTree_files.2 h)

theorem filesOf_files : ∀ fs : AMap Yaml, filesOf (fs.map fun f => DirTree.file f.1 f.2) = fs
  | [] => rfl
  | f :: fs => by
    rw [List.map_cons, filesOf, filesOfEntry, filesOf_files fs]; rfl

/-- C74, for the definitions directory of a profile: `stage` and `status` accept it exactly when each of its
files named `<something>.yaml` is accepted and no two of these define the same thing.  Other files do not
matter. -/
theorem C74_project_accepted_iff (fs : Fs) (ds : Proj.Path) :
    (∃ t, definitions fs ds = .ok t) ↔
      (∀ n y, (n, y) ∈ fs.definitions ds → YamlName n → ∃ d, loadDoc y = .ok d) ∧
      (∀ m n f g as bs, [(m, f), (n, g)].Sublist (fs.definitions ds) → YamlName m → YamlName n →
        FileSays f as → FileSays g bs → ∀ a ∈ as, ∀ b ∈ bs, ¬ PartsClash a b) := by
  simp only [definitions_snapshot]
  rw [C74_directory_accepted_iff, filesOf_files]
  simp only [inTree_files]

/-- C15, for the definitions directory of a profile: what `stage` and `status` compare with has a relation
exactly when one of the files named `<something>.yaml` defines it. -/
theorem C15_project_nothing_lost {fs : Fs} {ds : Proj.Path} {t : Database} (h : definitions fs ds = .ok t)
    (s r : String) (x : Relation) :
    t.relationAt s r = some x ↔ ∃ n y d, (n, y) ∈ fs.definitions ds ∧ YamlName n ∧
      loadDoc y = .ok d ∧ d.relationAt s r = some x := by
  have one : ∀ {y d}, loadDoc y = .ok d → (d.relationAt s r = some x ↔ ∃ scs sc,
      parseDoc y = .ok scs ∧ sc ∈ scs ∧ sc.name = s ∧ sc.relations.get? r = some x) := by
    intro y d hd
    rw [(C15_nothing_lost (fun _ _ hp => parseDoc_wf hp) (snapshot_single hd) s).2.1 r x]
    constructor
    · rintro ⟨n', f, scs, sc, hi, _, h1, h2, h3, h4⟩
      cases hi with
      | here => exact ⟨scs, sc, h1, h2, h3, h4⟩
      | later _ h => cases h
    · rintro ⟨scs, sc, h1, h2, h3, h4⟩
      exact ⟨_, y, scs, sc, .here _, ⟨"public", by decide, by decide⟩, h1, h2, h3, h4⟩
  rw [(C15_nothing_lost (fun _ _ hp => parseDoc_wf hp) (definitions_snapshot.1 h) s).2.1 r x]
  simp only [inTree_files]
  constructor
  · rintro ⟨n, y, scs, sc, hi, hn, h1, h2, h3, h4⟩
    obtain ⟨d, hd⟩ := ((C74_project_accepted_iff fs ds).1 ⟨t, h⟩).1 n y hi hn
    exact ⟨n, y, d, hi, hn, hd, (one hd).2 ⟨scs, sc, h1, h2, h3, h4⟩⟩
  · rintro ⟨n, y, d, hi, hn, hd, hx⟩
    obtain ⟨scs, sc, h1, h2, h3, h4⟩ := (one hd).1 hx
    exact ⟨n, y, scs, sc, hi, hn, h1, h2, h3, h4⟩

/-- A directory with a file of another name, whose content would not be accepted. -/
def mixedFs : Fs := ⟨fun _ => none, fun _ => [], fun _ =>
  [("notes.txt", .str "to do"), ("a.yaml", .map [some "schema s"] [.map [some "view v"] [.map [some "as"] [.str "q"]]]),
   ("b.yaml", .map [some "schema s"] [.null])]⟩

example : ∃ t, definitions mixedFs [] = .ok t ∧ t.relationAt "s" "v" = some (.view ⟨"s", "v", "q"⟩) :=
  exists_ok (by decide +kernel)

/-- With a third name that counts, it is not accepted. -/
example : definitions ⟨fun _ => none, fun _ => [], fun _ => [("notes.yaml", .str "to do")]⟩ [] = .error (.parse "") := by
  decide +kernel

end Prog
end Podo
