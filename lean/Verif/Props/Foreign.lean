import Verif.Proofs.Foreign
import Verif.Props.ProgramPg
/-
C90: files that are not podo's.
-/
namespace Podo
namespace Prog
open Proj
variable {σ : Type}

/-- C90.  Whatever files whose name does not end in `.yaml` are in the history and definitions directories, in
whatever place of the listing, every command does the same with and without them: it ends in the same way,
prints the same, reports the same error, and leaves the same version files, definition files, configuration
and databases. -/
theorem C90_others_ignored {S : Setting σ} {T : Texts} {w w' : World σ} (h : SameOwnFiles w w') {cwd : Proj.Path}
    {a : Args} {fuel : Nat} :
    stderr S T fuel w' cwd a = stderr S T fuel w cwd a ∧
    ∀ w₁ out e, Ends S w cwd a w₁ out e → ∃ w₁', Ends S w' cwd a w₁' out e ∧ SameOwnFiles w₁ w₁' := by
  refine ⟨by unfold stderr; rw [h.report], ?_⟩
  rintro w₁ out e ⟨n, hr⟩
  obtain ⟨w₁', hr', h'⟩ := h.run S n cwd a hr
  exact ⟨w₁', ⟨n, hr'⟩, h'⟩

/-- C90, kept: no command changes or removes a file whose name does not end in `.yaml`, or adds one, in any
history or definitions directory. -/
theorem C90_others_kept {S : Setting σ} {w w₁ : World σ} {cwd : Proj.Path} {a : Args} {out : List String}
    {e : Ending} (h : Ends S w cwd a w₁ out e) : OthersKept w w₁ := by
  obtain ⟨_, hr⟩ := h
  exact others_run hr

/-- C90, definitions in subdirectories: what is loaded from a definitions directory, or the error, depends on
the files with the extension `yaml` in the order they are listed, not on the directories they are in nor on
any other file.  So a file `x.yml` defines nothing. -/
theorem C90_definition_files {es es' : List (DirTree Def.Yaml)} (h : SameOwn YamlName (filesOf es) (filesOf es')) :
    Def.loadDir es' = Def.loadDir es ∧ Def.loadDirE es' = Def.loadDirE es := by
  unfold Def.loadDir Def.loadDirE
  rw [SameOwn.collect h]
  exact ⟨rfl, rfl⟩

/-- The files of the example with a backup of the stage, a subdirectory and a file `new.yml` beside them. -/
def progLitter : World (List String) :=
  ⟨progFs (("stage.yaml~", .file (some progStage)) :: initDir ++ [("old", .dir)])
      [("new.yml", indexDoc true), ("public.yaml", indexDoc false)], progWorld.servers⟩

theorem not_version_file {f : String} (h : endsYaml f = false) : ¬ VersionFileName f := by
  intro hf
  rw [endsYaml_iff.2 hf] at h
  cases h

theorem not_yaml_name {f : String} (h : Load.isYaml f = false) : ¬ YamlName f := by
  intro hf
  rw [Load.isYaml_iff.2 hf] at h
  cases h

/-- C90 on the example: all of them are ignored. -/
example : SameOwnFiles progWorld progLitter := by
  refine ⟨rfl, rfl, fun p => ?_, fun p => ?_⟩
  · show SameOwn _ initDir (("stage.yaml~", .file (some progStage)) :: initDir ++ [("old", .dir)])
    refine .right _ _ (not_version_file (by decide)) ?_
    have : SameOwn VersionFileName ([] : HDir) [("old", .dir)] := .right _ _ (not_version_file (by decide)) .nil
    exact .both _ _ (.both _ _ this)
  · show SameOwn _ [("public.yaml", indexDoc false)] [("new.yml", indexDoc true), ("public.yaml", indexDoc false)]
    exact .right _ _ (not_yaml_name (by decide)) (.both _ _ .nil)

end Prog
end Podo
