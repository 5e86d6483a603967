import Verif.Proofs.AnyNames
import Verif.Props.History
/-
C20, C21 and C22 for directories with files of any names and contents.
-/
namespace Podo

/-- C20, for files of any names: a branch is reported exactly when everything can be read and at two different YAML
files versions with the same predecessor are read; and then nothing else is reported. -/
theorem C20_branches_any_names {d : HDir} (hd : d.NodupKeys) (ha : AllRead d) :
    ((∃ p a b, BranchRead d p a b) ↔
      ∃ p a b, ∀ fuel, HDir.fromDir fuel d = some (.error (.branched p a b))) ∧
    (∀ fuel e, HDir.fromDir fuel d = some (.error e) → ∃ p a b, e = .branched p a b ∧ BranchRead d p a b) := by
  obtain ⟨h1, h2⟩ := C20_branches_exact_partial (asRead_nodup hd) (asRead_plain d) (asRead_allRead.2 ha)
  simp only [asRead_branch] at h1 h2
  refine ⟨h1.trans ⟨?_, ?_⟩, fun fuel e he => ?_⟩
  · rintro ⟨p, a, b, h⟩
    exact ⟨p, a, b, fun k => ((fromDir_asRead hd k).2.2 p a b).2 (h k)⟩
  · rintro ⟨p, a, b, h⟩
    exact ⟨p, a, b, fun k => ((fromDir_asRead hd k).2.2 p a b).1 (h k)⟩
  · cases hf : HDir.fromDir fuel d.asRead with
    | none => rw [(fromDir_asRead hd fuel).2.1.2 hf] at he; cases he
    | some r =>
      cases r with
      | ok o => rw [((fromDir_asRead hd fuel).1 o).2 hf] at he; cases he
      | error e' =>
        obtain ⟨p, a, b, rfl, hb⟩ := h2 fuel e' hf
        rw [((fromDir_asRead hd fuel).2.2 p a b).2 hf] at he
        cases he
        exact ⟨p, a, b, rfl, hb⟩

/-- C20, the whole, for files of any names. -/
theorem C20_opens_any_names {d : HDir} (hd : d.NodupKeys) (cv : String) :
    Opens d cv ↔ AllRead d ∧ (¬ ∃ p a b, BranchRead d p a b) ∧
      ∃ last, LeadsRead d "init" last ∧ (¬ ∃ n, FollowsRead d last n) ∧
        (last = "init" ∧ cv = "init" ∨ LeadsRead d "init" cv ∧ FollowsRead d cv last) := by
  have h := C20_opens_iff (asRead_nodup hd) (asRead_plain d) cv
  simp only [asRead_branch, asRead_allRead, asRead_leads, asRead_follows] at h
  rw [← h]
  constructor
  · rintro ⟨k, nm, hk⟩; exact ⟨k, nm, ((fromDir_asRead hd k).1 _).1 hk⟩
  · rintro ⟨k, nm, hk⟩; exact ⟨k, nm, ((fromDir_asRead hd k).1 _).2 hk⟩

/-- C21, exactly, for files of any names. -/
theorem C21_open_loops_any_names {d : HDir} (hd : d.NodupKeys) :
    (∀ fuel, HDir.fromDir fuel d = none) ↔ AllRead d ∧ (¬ ∃ p a b, BranchRead d p a b) ∧
      ∃ c n, LeadsRead d "init" c ∧ FollowsRead d c n ∧ LeadsRead d n c := by
  have h := C21_open_loops_iff (asRead_nodup hd) (asRead_plain d)
  simp only [asRead_branch, asRead_allRead, asRead_leads, asRead_follows] at h
  rw [← h]
  exact forall_congr' fun k => (fromDir_asRead hd k).2.1

/-- A project, and the version `1-a` under the name `1-a.yaml.yaml` beside it. -/
def twiceNamed (own : Version) : HDir :=
  [("init.yaml", .file (some Version.newInit)), ("1-a.yaml", .file (some ⟨"1-a", some "init", [], [], []⟩)),
   ("stage.yaml", .file (some (Version.newStage "1-a"))), ("1-a.yaml.yaml", .file (some own))]

/-- With a file `….yaml.yaml` C20 is false: all files can be read, no two of them name the same predecessor, and yet a
branch is reported, between a version and itself. -/
theorem C20_yaml_twice_false : ∃ d : HDir, d.NodupKeys ∧ AllReadable d ∧ (¬ ∃ p a b, Branch d p a b) ∧
    ∀ fuel, HDir.fromDir fuel d = some (.error (.branched "init" "1-a" "1-a")) := by
  refine ⟨twiceNamed ⟨"1-a.yaml", none, [], [], []⟩, by decide, ?_, ?_, fun _ => rfl⟩
  · rintro f c ⟨hf, _⟩
    simp only [twiceNamed, List.mem_cons, List.not_mem_nil, or_false, Prod.mk.injEq, Entry.file.injEq] at hf
    rcases hf with ⟨_, rfl⟩ | ⟨_, rfl⟩ | ⟨_, rfl⟩ | ⟨_, rfl⟩ <;> exact ⟨_, rfl⟩
  · rintro ⟨p, a, b, f, g, v, w, hfg, ⟨hf, _⟩, ⟨hg, _⟩, hv, hw, _, _⟩
    simp only [twiceNamed, List.mem_cons, List.not_mem_nil, or_false, Prod.mk.injEq, Entry.file.injEq,
      Option.some.injEq] at hf hg
    rcases hf with ⟨rfl, rfl⟩ | ⟨rfl, rfl⟩ | ⟨rfl, rfl⟩ | ⟨rfl, rfl⟩ <;>
      rcases hg with ⟨rfl, rfl⟩ | ⟨rfl, rfl⟩ | ⟨rfl, rfl⟩ | ⟨rfl, rfl⟩ <;>
      first
        | exact absurd rfl hfg
        | exact absurd (hv.trans hw.symm) (by decide)
        | exact absurd hv (by simp [Version.newInit])
        | exact absurd hw (by simp [Version.newInit])

/-- There, the version `1-a` is read at two files. -/
example : BranchRead (twiceNamed ⟨"1-a.yaml", none, [], [], []⟩) "init" "1-a" "1-a" := by
  have hb : ∀ s : String, "1-a" ≠ s ++ ".yaml" := fun s h => by
    have := congrArg (fun s => s.toList.reverse) h
    simp [String.toList_append] at this
  exact ⟨"1-a.yaml", "1-a.yaml.yaml", ⟨"1-a", some "init", [], [], []⟩, ⟨"1-a", some "init", [], [], []⟩, by decide,
    ⟨⟨_, by simp [twiceNamed]; rfl, "1-a", rfl⟩, "1-a", .once hb, .inl ⟨_, rfl, rfl⟩⟩,
    ⟨⟨_, by simp [twiceNamed]; rfl, "1-a.yaml", rfl⟩, "1-a", .more (.once hb), .inl ⟨_, rfl, rfl⟩⟩, rfl, rfl, rfl, rfl⟩

/-- C22, for all directories: with cycles or without, and whether or not files are named after the versions in them, the
range from `a` to `b` consists of the names in the files from `b` back to the first time `a` is reached, oldest first,
without that of `a`. -/
theorem C22_range_any_files (d : HDir) (a b : String) (l : List String) :
    (∃ fuel, HDir.upwardRange fuel d a b = some (.ok l)) ↔ NamesBack d a b l := by
  constructor
  · rintro ⟨k, h⟩
    obtain ⟨l', h1, h2⟩ := rangeLoop_back h
    simp only [List.reverse_nil, List.append_nil] at h2
    exact h2 ▸ h1
  · intro h
    obtain ⟨n, hn⟩ := h.rangeLoop b
    exact ⟨n, by simpa [HDir.upwardRange] using hn []⟩

/-- A directory with a cycle and a file that is not named after its version. -/
example : NamesBack [("a.yaml", .file (some ⟨"a", some "b", [], [], []⟩)),
    ("b.yaml", .file (some ⟨"other", some "a", [], [], []⟩))] "a" "b" ["other"] :=
  .later (l := []) (p := "a") (by decide) (.here (v := ⟨"a", some "b", [], [], []⟩) rfl) (v := ⟨"other", some "a", [], [], []⟩) rfl rfl

end Podo
