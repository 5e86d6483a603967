import Verif.Proofs.Commands
import Verif.Proofs.Loops
import Verif.Props.Demo
/-
C19–C22: reading a directory of version files.
-/
set_option linter.unusedSimpArgs false
namespace Podo

/-- A history with two made versions and a stage, and a file and a directory that do not matter (for
examples). -/
def demoHistory : HDir :=
  [ ("stage.yaml", .file (some ⟨"stage", some "2-b", [.createSchema "b"],
      ["CREATE SCHEMA b;"], ["DROP SCHEMA b;"]⟩)),
    ("notes.txt", .file none),
    ("init.yaml", .file (some Version.newInit)),
    ("old.yaml.d", .dir),
    ("1-a.yaml", .file (some ⟨"1-a", some "init", [.createTable "public" "t" []],
      ["CREATE TABLE public.\"t\" ()"], ["DROP TABLE public.\"t\""]⟩)),
    ("2-b.yaml", .file (some ⟨"2-b", some "1-a", [.dropTable "public" "t"], ["x"], ["y"]⟩)) ]

/-- C19.  The order in which the system lists the directory changes neither whether the history opens
nor the successor relation and current version found; it also does not change whether opening
terminates. -/
theorem C19_directory_order {d d' : HDir} (hd : d.NodupKeys) (hp : d.Perm d') (fuel : Nat) :
    (∀ nm cv, HDir.fromDir fuel d = some (.ok ⟨nm, cv⟩) →
      ∃ nm', HDir.fromDir fuel d' = some (.ok ⟨nm', cv⟩) ∧ ∀ p, nm'.get? p = nm.get? p) ∧
    ((∃ e, HDir.fromDir fuel d = some (.error e)) ↔ ∃ e, HDir.fromDir fuel d' = some (.error e)) ∧
    (HDir.fromDir fuel d = none ↔ HDir.fromDir fuel d' = none) := by
  have hr : (reads d d).Perm (reads d' d') := by
    rw [← reads_congr (getVersion_perm hd hp)]
    exact reads_perm hp
  have hl := links_perm hr
  have key : ∀ nm, HDir.scan d d [] = .ok nm → ∃ nm', HDir.scan d' d' [] = .ok nm' ∧
      ∀ p, AMap.get? nm' p = AMap.get? nm p := by
    intro nm h
    obtain ⟨h1, h2, h3⟩ := (scan_ok_iff _ _ _ _ AMap.nodupKeys_nil).1 h
    simp only [List.nil_append] at h2 h3
    refine ⟨links (reads d' d'), (scan_ok_iff _ _ _ _ AMap.nodupKeys_nil).2 ⟨?_, ?_, by simp⟩, ?_⟩
    · intro r hr'; exact h1 r (hr.mem_iff.2 hr')
    · simpa using (AMap.nodupKeys_perm hl).1 h2
    · intro p; rw [h3]; exact (AMap.get?_perm h2 hl p).symm
  have key' : ∀ nm, HDir.scan d' d' [] = .ok nm → ∃ nm', HDir.scan d d [] = .ok nm' ∧
      ∀ p, AMap.get? nm' p = AMap.get? nm p := by
    intro nm h
    obtain ⟨h1, h2, h3⟩ := (scan_ok_iff _ _ _ _ AMap.nodupKeys_nil).1 h
    simp only [List.nil_append] at h2 h3
    refine ⟨links (reads d d), (scan_ok_iff _ _ _ _ AMap.nodupKeys_nil).2 ⟨?_, ?_, by simp⟩, ?_⟩
    · intro r hr'; exact h1 r (hr.mem_iff.1 hr')
    · simpa using (AMap.nodupKeys_perm hl).2 h2
    · intro p; rw [h3]; exact (AMap.get?_perm ((AMap.nodupKeys_perm hl).2 h2) hl p)
  cases hs : HDir.scan d d [] with
  | error e =>
    obtain ⟨e', he'⟩ : ∃ e', HDir.scan d' d' [] = .error e' := by
      cases hs' : HDir.scan d' d' [] with
      | error e' => exact ⟨e', rfl⟩
      | ok nm =>
        obtain ⟨nm', h, _⟩ := key' nm hs'
        rw [hs] at h; cases h
    unfold HDir.fromDir
    rw [hs, he']
    simp
  | ok nm =>
    obtain ⟨nm', hs', hg⟩ := key nm hs
    unfold HDir.fromDir
    rw [hs, hs']
    simp only [walk_congr hg]
    cases HDir.walk nm fuel "init" Version.INIT <;> simp
    exact hg

example : demoHistory.NodupKeys ∧ demoHistory.Perm demoHistory.reverse ∧
    ∃ nm, HDir.fromDir 9 demoHistory = some (.ok ⟨nm, "2-b"⟩) :=
  ⟨by decide, (List.reverse_perm _).symm, _, rfl⟩

/-- C20 (partial).  When every version file can be read, opening reports a branch exactly when two version files
name the same predecessor, and the report names such a predecessor and the two versions.  Missing: names
ending in `.yaml.yaml`, for which it is false (`C20_yaml_twice_false`); `C20_branches_any_names` says what is
true of all names. -/
theorem C20_branches_exact_partial {d : HDir} (hd : d.NodupKeys) (hp : PlainNames d) (ha : AllReadable d) :
    ((∃ p a b, Branch d p a b) ↔
      ∃ p a b, ∀ fuel, HDir.fromDir fuel d = some (.error (.branched p a b))) ∧
    (∀ fuel e, HDir.fromDir fuel d = some (.error e) → ∃ p a b, e = .branched p a b ∧ Branch d p a b) := by
  have hsub : ∀ x ∈ d, x ∈ d := fun _ h => h
  have hreads : ∀ r ∈ reads d d, ∃ v, r = .ok v := by
    intro r hr
    obtain ⟨f, c, hf, hy, rfl⟩ := (mem_reads hd hp hsub).1 hr
    obtain ⟨v, rfl⟩ := ha f c ⟨hf, hy⟩
    exact ⟨v, rfl⟩
  have hbr : (∃ p a b, Branch d p a b) ↔ ¬ AMap.NodupKeys (links (reads d d)) := by
    rw [links_nodup_iff hd hp (List.Sublist.refl _), Classical.not_not]
    constructor
    · rintro ⟨p, a, b, f, g, v, w, hfg, hf, hg, hv, hw, _, _⟩
      exact ⟨f, g, v, w, p, hfg, hf.1, hg.1, hf.2, hg.2, hv, hw⟩
    · rintro ⟨f, g, v, w, p, hfg, hf, hg, hyf, hyg, hv, hw⟩
      exact ⟨p, v.name, w.name, f, g, v, w, hfg, ⟨hf, hyf⟩, ⟨hg, hyg⟩, hv, hw, rfl, rfl⟩
  have herr : ∀ e, HDir.scan d d [] = .error e → ∃ p a b, e = .branched p a b ∧ Branch d p a b := by
    intro e he
    rcases scan_error he with h | ⟨p, a, b, rfl⟩
    · obtain ⟨v, hv⟩ := hreads _ h; cases hv
    · refine ⟨p, a, b, rfl, ?_⟩
      rcases scan_branched he with ⟨h, _⟩ | ⟨l₁, l₂, hl, h1, h2⟩
      · simp at h
      · obtain ⟨f, v, hf, hyf, hv, hvn⟩ := (mem_links hd hp
          (fun x hx => by rw [hl]; exact List.mem_append_left _ hx)).1 h1
        obtain ⟨g, w, hg, hyg, hw, hwn⟩ := (mem_links hd hp
          (fun x hx => by rw [hl]; exact List.mem_append_right _ hx)).1 h2
        refine ⟨f, g, v, w, ?_, ⟨by rw [hl]; exact List.mem_append_left _ hf, hyf⟩,
          ⟨by rw [hl]; exact List.mem_append_right _ hg, hyg⟩, hv, hw, hvn, hwn⟩
        rintro rfl
        unfold AMap.NodupKeys at hd
        rw [hl, AMap.keys_append, List.nodup_append] at hd
        exact hd.2.2 f (List.mem_map.2 ⟨_, hf, rfl⟩) f (List.mem_map.2 ⟨_, hg, rfl⟩) rfl
  refine ⟨⟨fun h => ?_, ?_⟩, ?_⟩
  · obtain ⟨e, he, hk⟩ := fromDir_error_of_scan (d := d) (by
      intro nm hnm
      have := ((scan_ok_iff _ _ _ _ AMap.nodupKeys_nil).1 hnm).2.1
      exact hbr.1 h (by simpa using this))
    obtain ⟨p, a, b, rfl, _⟩ := herr e he
    exact ⟨p, a, b, hk⟩
  · rintro ⟨p, a, b, h⟩
    have := h 0
    unfold HDir.fromDir at this
    cases hs : HDir.scan d d [] with
    | error e =>
      rw [hs] at this; cases this
      obtain ⟨p', a', b', _, hb⟩ := herr _ hs
      exact ⟨p', a', b', hb⟩
    | ok nm =>
      rw [hs] at this
      simp only at this
      cases hw : HDir.walk nm 0 "init" Version.INIT <;> rw [hw] at this <;> cases this
  · intro fuel e he
    unfold HDir.fromDir at he
    cases hs : HDir.scan d d [] with
    | error e' => rw [hs] at he; cases he; exact herr _ hs
    | ok nm =>
      rw [hs] at he
      simp only at he
      cases hw : HDir.walk nm fuel "init" Version.INIT <;> rw [hw] at he <;> cases he

/-- A branched history, and the report. -/
example : let d : HDir := [("init.yaml", .file (some Version.newInit)),
      ("a.yaml", .file (some ⟨"a", some "init", [], [], []⟩)), ("x.txt", .file none),
      ("stage.yaml", .file (some (Version.newStage "init")))]
    d.NodupKeys ∧ Branch d "init" "a" "stage" ∧
      HDir.fromDir 5 d = some (.error (.branched "init" "a" "stage")) :=
  ⟨by decide, ⟨"a.yaml", "stage.yaml", ⟨"a", some "init", [], [], []⟩, Version.newStage "init", by decide,
    ⟨by decide, "a", rfl⟩, ⟨by decide, "stage", rfl⟩, rfl, rfl, rfl, rfl⟩, rfl⟩

/-- C20, the whole: a history opens exactly when every version file can be read, there is no branch and the
versions that follow one another from `init` come to an end; the current version is then the last but one of
them (the last is the stage), or `init` when nothing follows it. -/
theorem C20_opens_iff {d : HDir} (hd : d.NodupKeys) (hp : PlainNames d) (cv : String) :
    Opens d cv ↔ AllReadable d ∧ (¬ ∃ p a b, Branch d p a b) ∧
      ∃ last, LeadsTo d "init" last ∧ (¬ ∃ n, Follows d last n) ∧
        (last = "init" ∧ cv = "init" ∨ LeadsTo d "init" cv ∧ Follows d cv last) := opens_iff hd hp cv

/-- The history of the examples opens at `2-b`, the version the stage follows. -/
example : PlainNames demoHistory ∧ Follows demoHistory "2-b" "stage" ∧ Opens demoHistory "2-b" := by
  refine ⟨?_, ⟨"stage.yaml", _, ⟨List.mem_cons_self, "stage", rfl⟩, rfl, rfl⟩, ⟨9, _, rfl⟩⟩
  intro f hf stem he
  have : ∀ g ∈ demoHistory.keys, (['l', 'm', 'a', 'y', '.', 'l', 'm', 'a', 'y', '.'] : List Char).isPrefixOf
      g.toList.reverse = false := by decide
  have h := this f hf
  rw [he] at h
  simp [String.toList_append] at h

/-- C21 (partial: only for directories whose files are named after the versions in them and whose
initial version has no predecessor; `C21_cycle_false` and `C21_range_false` show that other
directories can make podo loop).  Opening a history terminates. -/
theorem C21_open_terminates_partial {d : HDir} (hd : d.NodupKeys) (hp : PlainNames d)
    (hn : NamedAfterVersion d) (hi : ∀ v, Stored d "init" v → v.previous = none) :
    ∃ r, HDir.fromDir (d.length + 1) d = some r := by
  have hsub : ∀ x ∈ d, x ∈ d := fun _ h => h
  unfold HDir.fromDir
  cases hs : HDir.scan d d [] with
  | error e => exact ⟨_, rfl⟩
  | ok nm =>
    simp only
    obtain ⟨_, h2, h3⟩ := (scan_ok_iff _ _ _ _ AMap.nodupKeys_nil).1 hs
    simp only [List.nil_append] at h2 h3
    subst h3
    have hlink : ∀ p n, AMap.get? (links (reads d d)) p = some n → ∃ v, Stored d n v ∧
        v.previous = some p := by
      intro p n h
      obtain ⟨f, v, hf, hy, hv, hvn⟩ := (mem_links hd hp hsub).1 (AMap.mem_of_get? h)
      have := hn f v ⟨hf, hy⟩
      refine ⟨v, ?_, hv⟩
      unfold Stored
      rw [← hvn, ← this]
      exact AMap.get?_of_mem hd hf
    obtain ⟨r, hr⟩ := walk_ends (nm := links (reads d d)) (start := "init")
      (by
        intro p q n h1 h2
        obtain ⟨v, hv, hvp⟩ := hlink _ _ h1
        obtain ⟨w, hw, hwp⟩ := hlink _ _ h2
        have := hv.unique hw
        subst this
        rw [hvp] at hwp; cases hwp; rfl)
      (by
        intro p h
        obtain ⟨v, hv, hvp⟩ := hlink _ _ h
        rw [hi v hv] at hvp; cases hvp) Version.INIT
    rw [walk_mono (Nat.add_le_add_right (links_length_le d d) 1) hr]
    exact ⟨_, rfl⟩

/-- C21, second half: every directory podo itself can produce opens, and every range in it is
computed or refused, in finitely many steps. -/
theorem C21_tool_histories_terminate {d : HDir} (hr : Reachable d) :
    (∃ cv, Opens d cv) ∧ ∀ a b, ∃ fuel r, HDir.upwardRange fuel d a b = some r := by
  obtain ⟨vs, st, s, hh, _⟩ := hr.sound
  refine ⟨?_, fun a b => ?_⟩
  · obtain ⟨nm, _, h⟩ := hh.fromDir
    exact ⟨_, _, nm, h (vs.length + 2) (by omega)⟩
  · obtain ⟨rank, hrank⟩ := hh.acyclic
    obtain ⟨r, h⟩ := rangeLoop_ends hrank a b (rank b + 1) b (by omega) []
    exact ⟨_, r, h⟩

example : Reachable initDir ∧ Opens initDir "init" := ⟨.init, 3, _, rfl⟩

/-- A cycle through `init`: readable files, named after their versions, on which podo loops forever. -/
theorem C21_cycle_false : ∃ d : HDir, d.NodupKeys ∧ PlainNames d ∧ AllReadable d ∧
    NamedAfterVersion d ∧ ∀ fuel, HDir.fromDir fuel d = none := by
  let d : HDir := [("init.yaml", .file (some ⟨"init", some "a", [], [], []⟩)),
    ("a.yaml", .file (some ⟨"a", some "init", [], [], []⟩))]
  have hplain : PlainNames d := by
    intro f hf stem he
    have : ∀ g ∈ d.keys, (['l', 'm', 'a', 'y', '.', 'l', 'm', 'a', 'y', '.'] : List Char).isPrefixOf
        g.toList.reverse = false := by decide
    have h := this f hf
    rw [he] at h
    simp [String.toList_append] at h
  have hcontent : ∀ f c, YamlFile d f c → ∃ v, c = some v ∧ f = v.name ++ ".yaml" := by
    rintro f c ⟨hf, _⟩
    simp only [d, List.mem_cons, List.not_mem_nil, or_false, Prod.mk.injEq, Entry.file.injEq] at hf
    rcases hf with ⟨rfl, rfl⟩ | ⟨rfl, rfl⟩
    · exact ⟨_, rfl, rfl⟩
    · exact ⟨_, rfl, rfl⟩
  refine ⟨d, by decide, hplain, fun f c h => ?_, fun f v h => ?_, ?_⟩
  · obtain ⟨v, hv, _⟩ := hcontent f c h; exact ⟨v, hv⟩
  · obtain ⟨w, hw, hf⟩ := hcontent f _ h; cases hw; exact hf
  · intro fuel
    have hs : HDir.scan d d [] = .ok [("a", "init"), ("init", "a")] := rfl
    have hw : ∀ k cv cv', HDir.walk [("a", "init"), ("init", "a")] k "init" cv = none ∧
        HDir.walk [("a", "init"), ("init", "a")] k "a" cv' = none := by
      intro k
      induction k with
      | zero => intro _ _; exact ⟨rfl, rfl⟩
      | succ k ih => intro cv cv'; exact ⟨(ih cv "init").2, (ih "a" cv').1⟩
    unfold HDir.fromDir
    rw [hs]
    simp only [(hw fuel Version.INIT "").1]

/-- A cycle beside the chain: the history opens, but computing a range into the cycle loops forever. -/
theorem C21_range_false : ∃ d : HDir, d.NodupKeys ∧ Opens d "init" ∧
    ∀ fuel, HDir.upwardRange fuel d "init" "x" = none := by
  let d : HDir := [("init.yaml", .file (some Version.newInit)),
    ("stage.yaml", .file (some (Version.newStage "init"))),
    ("x.yaml", .file (some ⟨"x", some "y", [], [], []⟩)),
    ("y.yaml", .file (some ⟨"y", some "x", [], [], []⟩))]
  refine ⟨d, by decide, ⟨5, _, rfl⟩, fun fuel => ?_⟩
  have h : ∀ k acc acc', HDir.rangeLoop d "init" "x" k "x" acc = none ∧
      HDir.rangeLoop d "init" "x" k "y" acc' = none := by
    intro k
    induction k with
    | zero => intro _ _; exact ⟨rfl, rfl⟩
    | succ k ih => intro acc acc'; exact ⟨(ih [] (acc ++ ["x"])).2, (ih (acc' ++ ["y"]) []).1⟩
  exact (h fuel [] []).1

/-- C21, exactly: opening goes on for ever if and only if every version file can be read, there is no branch
and going from `init` to the versions that follow comes to a version for the second time. -/
theorem C21_open_loops_iff {d : HDir} (hd : d.NodupKeys) (hp : PlainNames d) :
    (∀ fuel, HDir.fromDir fuel d = none) ↔ AllReadable d ∧ (¬ ∃ p a b, Branch d p a b) ∧
      ∃ c n, LeadsTo d "init" c ∧ Follows d c n ∧ LeadsTo d n c := open_loops_iff hd hp

/-- C21, exactly, for ranges: computing the range from `a` to `b` goes on for ever if and only if the
predecessors of `b` do not come to `a` but to some version that is among its own predecessors. -/
theorem C21_range_loops_iff (d : HDir) (a b : String) :
    (∀ fuel, HDir.upwardRange fuel d a b = none) ↔ ¬ OnPath d a b ∧
      ∃ c v p, OnPath d c b ∧ Stored d c v ∧ v.previous = some p ∧ OnPath d c p := range_loops_iff

/-- Both can happen: two directories, one with a cycle through `init`, one with a cycle beside it. -/
example : (∀ fuel, HDir.fromDir fuel [("init.yaml", .file (some ⟨"init", some "a", [], [], []⟩)),
      ("a.yaml", .file (some ⟨"a", some "init", [], [], []⟩))] = none) ∧
    ∀ fuel, HDir.upwardRange fuel [("init.yaml", .file (some Version.newInit)),
      ("x.yaml", .file (some ⟨"x", some "y", [], [], []⟩)),
      ("y.yaml", .file (some ⟨"y", some "x", [], [], []⟩))] "init" "x" = none := by
  constructor
  · refine (C21_open_loops_iff (by decide) ?_).2 ⟨?_, ?_, "init", "a", .here _, ?_, .step ?_ (.here _)⟩
    · intro f hf stem he
      simp only [AMap.keys, List.map_cons, List.map_nil, List.mem_cons, List.not_mem_nil, or_false] at hf
      have := congrArg (fun s => s.toList.reverse.take 10) he
      simp only [String.toList_append, List.reverse_append] at this
      rcases hf with rfl | rfl <;> exact absurd (congrArg List.length this) (by simp)
    · rintro f c ⟨hf, _⟩
      simp only [List.mem_cons, List.not_mem_nil, or_false, Prod.mk.injEq, Entry.file.injEq] at hf
      rcases hf with ⟨_, rfl⟩ | ⟨_, rfl⟩ <;> exact ⟨_, rfl⟩
    · rintro ⟨p, a, b, f, g, v, w, hfg, ⟨hf, _⟩, ⟨hg, _⟩, hv, hw, _⟩
      simp only [List.mem_cons, List.not_mem_nil, or_false, Prod.mk.injEq, Entry.file.injEq,
        Option.some.injEq] at hf hg
      rcases hf with ⟨rfl, rfl⟩ | ⟨rfl, rfl⟩ <;> rcases hg with ⟨rfl, rfl⟩ | ⟨rfl, rfl⟩ <;>
        first | exact hfg rfl | (rw [← hv] at hw; exact absurd hw (by decide))
    · exact ⟨"a.yaml", _, ⟨List.mem_cons_of_mem _ List.mem_cons_self, "a", rfl⟩, rfl, rfl⟩
    · exact ⟨"init.yaml", _, ⟨List.mem_cons_self, "init", rfl⟩, rfl, rfl⟩
  · refine (C21_range_loops_iff _ "init" "x").2 ⟨?_, "x", ⟨"x", some "y", [], [], []⟩, "y", ⟨_, .here rfl⟩, rfl, rfl,
      _, .later (.here rfl) rfl rfl⟩
    have key : ∀ n l, VersionPath [("init.yaml", .file (some Version.newInit)),
        ("x.yaml", .file (some ⟨"x", some "y", [], [], []⟩)),
        ("y.yaml", .file (some ⟨"y", some "x", [], [], []⟩))] "init" n l → n ≠ "x" ∧ n ≠ "y" := by
      intro n l h
      induction h with
      | here => decide
      | later _ hs hp ih =>
        refine ⟨?_, ?_⟩ <;> rintro rfl
        · have := Option.some.inj (Entry.file.inj (Option.some.inj hs))
          rw [← this] at hp; cases hp; exact ih.2 rfl
        · have := Option.some.inj (Entry.file.inj (Option.some.inj hs))
          rw [← this] at hp; cases hp; exact ih.1 rfl
    rintro ⟨l, hl⟩
    exact (key _ _ hl).1 rfl

/-- C22.  The upward range from `a` to `b` is the predecessor path from `b` back to `a`, oldest first,
without `a`. -/
theorem C22_range_is_path {d : HDir} (hn : NamedAfterVersion d) (hac : Acyclic d) (a b : String)
    (l : List String) :
    (∃ fuel, HDir.upwardRange fuel d a b = some (.ok l)) ↔ VersionPath d a b l :=
  upwardRange_ok_iff hn.storedNames hac

/-- C22, second half.  It fails, in finitely many steps, exactly when `a` is not on that path; if all
files on the path are there, the error says so. -/
theorem C22_range_fails {d : HDir} (hn : NamedAfterVersion d) (hac : Acyclic d) (a b : String) :
    ((∃ fuel e, HDir.upwardRange fuel d a b = some (.error e)) ↔ ¬ OnPath d a b) ∧
    (¬ OnPath d a b → (∃ v, Stored d b v) →
      (∀ c v p, OnPath d c b → Stored d c v → v.previous = some p → ∃ w, Stored d p w) →
      ∃ fuel, HDir.upwardRange fuel d a b = some (.error (.unreachable b a))) := by
  obtain ⟨rank, hrank⟩ := hac
  obtain ⟨r, hr⟩ := rangeLoop_ends hrank a b (rank b + 1) b (by omega) []
  have hiff : ¬ OnPath d a b ↔ ∃ e, r = .error e := by
    constructor
    · intro h
      cases r with
      | error e => exact ⟨e, rfl⟩
      | ok l => exact absurd ⟨l, (upwardRange_ok_iff hn.storedNames ⟨rank, hrank⟩).1 ⟨_, hr⟩⟩ h
    · rintro ⟨e, rfl⟩ ⟨l, hl⟩
      obtain ⟨k, hk⟩ := (upwardRange_ok_iff hn.storedNames ⟨rank, hrank⟩).2 hl
      have h1 := upwardRange_mono (Nat.le_max_left k (rank b + 1)) hk
      have h2 := upwardRange_mono (Nat.le_max_right k (rank b + 1)) (show HDir.upwardRange _ d a b = _ from hr)
      rw [h1] at h2; cases h2
  refine ⟨⟨?_, ?_⟩, ?_⟩
  · rintro ⟨k, e, hk⟩
    rw [hiff]
    have h1 := upwardRange_mono (Nat.le_max_left k (rank b + 1)) hk
    have h2 := upwardRange_mono (Nat.le_max_right k (rank b + 1)) (show HDir.upwardRange _ d a b = _ from hr)
    rw [h1] at h2
    simp only [Option.some.injEq] at h2
    exact ⟨e, h2.symm⟩
  · intro h
    obtain ⟨e, rfl⟩ := hiff.1 h
    exact ⟨_, e, hr⟩
  · intro h hb hall
    obtain ⟨e, rfl⟩ := hiff.1 h
    rcases rangeLoop_error hr with ⟨c, v, l, _, _, _, _, rfl⟩ | ⟨c, hno, hc, _⟩
    · exact ⟨_, hr⟩
    · exfalso
      rcases hc with rfl | ⟨q, v, l, hq, hv, hp⟩
      · exact hno hb
      · exact hno (hall q v c ⟨l, hq⟩ hv hp)

example : VersionPath demoHistory "init" "stage" ["1-a", "2-b", "stage"] ∧
    HDir.upwardRange 9 demoHistory "init" "stage" = some (.ok ["1-a", "2-b", "stage"]) ∧
    HDir.upwardRange 9 demoHistory "1-a" "2-b" = some (.ok ["2-b"]) ∧
    HDir.upwardRange 9 demoHistory "stage" "2-b" = some (.error (.unreachable "2-b" "stage")) :=
  ⟨.later (l := ["1-a", "2-b"]) (.later (l := ["1-a"]) (.later (l := []) (.here rfl) rfl rfl) rfl rfl) rfl rfl,
    rfl, rfl, rfl⟩

example : NamedAfterVersion demoHistory ∧ Acyclic demoHistory := by
  have hs : ∀ f v, (f, Entry.file (some v)) ∈ demoHistory → f = v.name ++ ".yaml" ∧
      ∀ p, v.previous = some p → (["init", "1-a", "2-b", "stage"].idxOf p) <
        (["init", "1-a", "2-b", "stage"].idxOf v.name) := by
    intro f v hf
    simp only [demoHistory, List.mem_cons, List.not_mem_nil, or_false, Prod.mk.injEq,
      Entry.file.injEq, Option.some.injEq, reduceCtorEq, and_false, false_or, or_false] at hf
    rcases hf with ⟨rfl, rfl⟩ | ⟨rfl, rfl⟩ | ⟨rfl, rfl⟩ | ⟨rfl, rfl⟩ <;>
      refine ⟨rfl, fun p hp => ?_⟩ <;> cases hp <;> decide
  have hn : NamedAfterVersion demoHistory := fun f v h => (hs f v h.1).1
  refine ⟨hn, fun n => ["init", "1-a", "2-b", "stage"].idxOf n, fun n v p h hp => ?_⟩
  have h1 := (hs _ _ (AMap.mem_of_get? h)).2 p hp
  rw [hn.storedNames n v h] at h1
  exact h1

end Podo
