import Verif.Proofs.Merge
import Verif.Props.Fleet
/-
C86: two copies of a project, merged.
-/
namespace Podo
open Pg
variable {σ σ' : Type}

/-- Two copies of the example project, each with a version of its own. -/
def demoA : HDir := (((HistCmd.make "20200102000000" (some "a")).exec 9 demoDir).map Prod.fst).getD []

def demoB' : HDir := (((HistCmd.make "20200102000001" (some "b")).exec 9 demoDir).map Prod.fst).getD []

theorem demoA_reachable : Reachable demoA :=
  .step (fuel := 9) (c := .make "20200102000000" (some "a")) (ok := true) demoDir_reachable
    (by intro _ _ h; cases h; exact ⟨rfl, noYaml (by decide)⟩) rfl

theorem demoB'_reachable : Reachable demoB' :=
  .step (fuel := 9) (c := .make "20200102000001" (some "b")) (ok := true) demoDir_reachable
    (by intro _ _ h; cases h; exact ⟨rfl, noYaml (by decide)⟩) rfl

theorem demo_merged : Merged demoA demoB' (mergeDirs demoA demoB') := by
  obtain ⟨_, _, _, h, _⟩ := demoA_reachable.sound
  obtain ⟨_, _, _, h', _⟩ := demoB'_reachable.sound
  exact mergeDirs_merged h h'.nodup (by decide)

/-- Without a version of its own in the second copy, the merge is the first. -/
theorem demo_merged' : Merged demoA demoDir (mergeDirs demoA demoDir) := by
  obtain ⟨_, _, _, h, _⟩ := demoA_reachable.sound
  obtain ⟨_, _, _, h', _⟩ := demoDir_reachable.sound
  exact mergeDirs_merged h h'.nodup (by decide)

/-- C86.  The merge of two copies of a project, however they went on, opens exactly if it is one of the two copies:
podo works on with the merged project only if the other copy has brought nothing into it. -/
theorem C86_merge_opens_iff {d₁ d₂ m : HDir} (h₁ : Reachable d₁) (h₂ : Reachable d₂) (hm : Merged d₁ d₂ m) :
    (∃ cv, Opens m cv) ↔ SameVersions m d₁ ∨ SameVersions m d₂ := by
  obtain ⟨vs₁, st₁, _, hh₁, _⟩ := h₁.sound
  obtain ⟨vs₂, st₂, _, hh₂, _⟩ := h₂.sound
  constructor
  · rintro ⟨cv, ho⟩
    rcases merge_cases hh₁ hh₂ hm with ⟨_, h⟩ | ⟨p, a, b, v, w, hab, hv, hw, hvp, hwp, hva, hwb⟩
    · exact h
    · refine absurd ⟨p, a, b, a ++ ".yaml", b ++ ".yaml", v, w, ?_, ⟨AMap.mem_of_get? hv, a, rfl⟩,
        ⟨AMap.mem_of_get? hw, b, rfl⟩, hvp, hwp, hva, hwb⟩
        ((C20_opens_iff hm.nodup (merged_plain hh₁ hh₂ hm) cv).1 ho).2.1
      exact fun e => hab ((String.append_left_inj ".yaml").1 e)
  · rintro (h | h)
    · exact ⟨_, (h.history hm.nodup hh₁).opens_iff.2 rfl⟩
    · exact ⟨_, (h.history hm.nodup hh₂).opens_iff.2 rfl⟩

example : ∃ cv, Opens (mergeDirs demoA demoDir) cv :=
  (C86_merge_opens_iff demoA_reachable demoDir_reachable demo_merged').2 (.inl fun _ => rfl)

/-- C86, when it is not: podo finds out, and says which version has two next ones, one from each copy.  No command
on the version files changes one, and `up` leaves every database as it was. -/
theorem C86_merge_refused {d₁ d₂ m : HDir} (h₁ : Reachable d₁) (h₂ : Reachable d₂) (hm : Merged d₁ d₂ m)
    (hn₁ : ¬ SameVersions m d₁) (hn₂ : ¬ SameVersions m d₂) :
    (∃ p a b, a ≠ b ∧ (Follows d₁ p a ∧ Follows d₂ p b ∨ Follows d₂ p a ∧ Follows d₁ p b) ∧
      ∀ fuel, HDir.fromDir fuel m = some (.error (.branched p a b))) ∧
    (∀ fuel c, c ≠ .init → HistCmd.exec fuel c m = some (m, false)) ∧
    ∀ (B : Behaviour σ) fuel target db, up B fuel m target db = some (db, .error) := by
  obtain ⟨vs₁, st₁, _, hh₁, _⟩ := h₁.sound
  obtain ⟨vs₂, st₂, _, hh₂, _⟩ := h₂.sound
  have hplain := merged_plain hh₁ hh₂ hm
  have hread : AllReadable m := by
    intro f c hf
    rcases merged_file hh₁ hh₂ hm hf with hf | hf
    · obtain ⟨v, _, e, _⟩ := hh₁.yaml_version hf; exact ⟨v, e⟩
    · obtain ⟨v, _, e, _⟩ := hh₂.yaml_version hf; exact ⟨v, e⟩
  obtain ⟨p, a, b, hf⟩ : ∃ p a b, ∀ fuel, HDir.fromDir fuel m = some (.error (.branched p a b)) := by
    refine (C20_branches_exact_partial hm.nodup hplain hread).1.1 ?_
    rcases merge_cases hh₁ hh₂ hm with ⟨_, h⟩ | ⟨p, a, b, v, w, hab, hv, hw, hvp, hwp, hva, hwb⟩
    · exact absurd h (by simp [hn₁, hn₂])
    · exact ⟨p, a, b, a ++ ".yaml", b ++ ".yaml", v, w, fun e => hab ((String.append_left_inj ".yaml").1 e),
        ⟨AMap.mem_of_get? hv, a, rfl⟩, ⟨AMap.mem_of_get? hw, b, rfl⟩, hvp, hwp, hva, hwb⟩
  refine ⟨⟨p, a, b, ?_⟩, ?_, ?_⟩
  · obtain ⟨p', a', b', e, f, g, v, w, hfg, hvf, hwg, hv, hw, hva, hwb⟩ :=
      (C20_branches_exact_partial hm.nodup hplain hread).2 0 _ (hf 0)
    cases e
    have name : ∀ {f : String} {v : Version}, YamlFile m f (some v) → f = v.name ++ ".yaml" := by
      intro f v hv
      rcases merged_file hh₁ hh₂ hm hv with hv | hv
      · obtain ⟨_, _, e, e'⟩ := hh₁.yaml_version hv; cases e; exact e'
      · obtain ⟨_, _, e, e'⟩ := hh₂.yaml_version hv; cases e; exact e'
    refine ⟨?_, ?_, hf⟩
    · rintro rfl
      exact hfg (by rw [name hvf, name hwg, hva, hwb])
    · rcases merged_file hh₁ hh₂ hm hvf with hvf | hvf <;> rcases merged_file hh₁ hh₂ hm hwg with hwg | hwg
      · exact absurd (hh₁.no_branch hvf hwg hv hw) hfg
      · exact .inl ⟨⟨f, v, hvf, hv, hva⟩, ⟨g, w, hwg, hw, hwb⟩⟩
      · exact .inr ⟨⟨f, v, hvf, hv, hva⟩, ⟨g, w, hwg, hw, hwb⟩⟩
      · exact absurd (hh₂.no_branch hvf hwg hv hw) hfg
  · intro fuel c hc
    unfold HistCmd.exec
    cases c with
    | init => exact absurd rfl hc
    | stage defs => simp only [HistCmd.plan, stagePlan, hf]
    | make s l => simp only [HistCmd.plan, makePlan, hf]
    | reset => simp only [HistCmd.plan, resetPlan, hf]
  · intro B fuel target db
    unfold up
    simp only [hf]

example : ∃ p a b, a ≠ b ∧ (Follows demoA p a ∧ Follows demoB' p b ∨ Follows demoB' p a ∧ Follows demoA p b) ∧
    ∀ fuel, HDir.fromDir fuel (mergeDirs demoA demoB') = some (.error (.branched p a b)) :=
  (C86_merge_refused (σ := Unit) demoA_reachable demoB'_reachable demo_merged
    (fun h => absurd (h "20200102000001-b") (by decide))
    (fun h => absurd (h "20200102000000-a") (by decide))).1

/-- C86, for the databases: if the merged project opens, then the databases of both copies are on the one line of
the merged project, and those on the same version have recorded the same. -/
theorem C86_merge_databases {B : Behaviour σ} {B' : Behaviour σ'} {d₁ d₂ m : HDir} {db : DB σ} {db' : DB σ'}
    (h : Deployed B d₁ db) (h' : Deployed B' d₂ db') (hm : Merged d₁ d₂ m) {cv : String} (ho : Opens m cv) :
    (db.applied <+: db'.applied ∨ db'.applied <+: db.applied) ∧
    (db.version? = db'.version? → db.applied = db'.applied) ∧
    (∀ v ∈ db.applied, Stored m v.name v) ∧ ∀ v ∈ db'.applied, Stored m v.name v := by
  obtain ⟨vs₁, st₁, _, hh₁, _⟩ := (Deployed.reachable h).sound
  obtain ⟨vs₂, st₂, _, hh₂, _⟩ := (Deployed.reachable h').sound
  have a1 := Deployed.applied_prefix h _ _ hh₁
  have a2 := Deployed.applied_prefix h' _ _ hh₂
  have hst₁ : ∀ v ∈ db.applied, Stored m v.name v := by
    intro v hv
    obtain ⟨ws, _, hs, _⟩ := C84_recorded_as_filed h
    exact hm.kept _ _ (yaml_ne_stage (hs v hv).1) (.inl (hs v hv).2)
  have hst₂ : ∀ v ∈ db'.applied, Stored m v.name v := by
    intro v hv
    obtain ⟨ws, _, hs, _⟩ := C84_recorded_as_filed h'
    exact hm.kept _ _ (yaml_ne_stage (hs v hv).1) (.inr (hs v hv).2)
  have hp : vs₁ <+: vs₂ ∨ vs₂ <+: vs₁ := by
    rcases merge_cases hh₁ hh₂ hm with ⟨h, _⟩ | ⟨p, a, b, v, w, hab, hv, hw, hvp, hwp, hva, hwb⟩
    · exact h
    · exact absurd ⟨p, a, b, a ++ ".yaml", b ++ ".yaml", v, w, fun e => hab ((String.append_left_inj ".yaml").1 e),
        ⟨AMap.mem_of_get? hv, a, rfl⟩, ⟨AMap.mem_of_get? hw, b, rfl⟩, hvp, hwp, hva, hwb⟩
        ((C20_opens_iff hm.nodup (merged_plain hh₁ hh₂ hm) cv).1 ho).2.1
  have key : ∃ l : List Version, db.applied <+: l ∧ db'.applied <+: l ∧ (l.map Version.name).Nodup := by
    have nd : ∀ {d vs st}, IsHistory d vs st → ((Version.newInit :: vs).map Version.name).Nodup := by
      intro d vs st hh
      have := hh.names'
      rw [show Version.newInit :: (vs ++ [st]) = (Version.newInit :: vs) ++ [st] from rfl, List.map_append,
        List.nodup_append] at this
      exact this.1
    rcases hp with hp | hp
    · exact ⟨_, a1.trans (List.cons_prefix_cons.2 ⟨rfl, hp⟩), a2, nd hh₂⟩
    · exact ⟨_, a1, a2.trans (List.cons_prefix_cons.2 ⟨rfl, hp⟩), nd hh₁⟩
  obtain ⟨l, b1, b2, hnd⟩ := key
  exact ⟨List.prefix_or_prefix_of_prefix b1 b2, prefix_same_last b1 b2 hnd, hst₁, hst₂⟩

example : Deployed demoB demoDir demoAtMade ∧ Opens (mergeDirs demoA demoDir) "20200102000000-a" :=
  ⟨Brought.deployed demoAtMade_brought, 9, _, rfl⟩

end Podo
