import Verif.Spec.AnyNames
import Verif.Proofs.Loops
/-
Opening a directory is opening one with plain names that holds what podo reads.
-/
namespace Podo

theorem trimYaml_yaml (f : String) : trimYaml (f ++ ".yaml") = trimYaml f := by
  unfold trimYaml
  have : (f ++ ".yaml").toList.reverse = 'l' :: 'm' :: 'a' :: 'y' :: '.' :: f.toList.reverse := by
    simp only [String.toList_append, List.reverse_append]; rfl
  rw [this, trimYamlRev]

theorem Base.trim {f stem : String} (h : Base f stem) : trimYaml f = stem ∧ ∃ s, f = s ++ ".yaml" := by
  induction h with
  | once h => exact ⟨trimYaml_append h, _, rfl⟩
  | more _ ih => exact ⟨(trimYaml_yaml _).trans ih.1, _, rfl⟩

theorem base_of_yaml (n : Nat) : ∀ f : String, f.length ≤ n → (∃ s, f = s ++ ".yaml") → Base f (trimYaml f) := by
  induction n with
  | zero =>
    rintro f hl ⟨s, rfl⟩
    have : (".yaml" : String).length = 5 := rfl
    rw [String.length_append] at hl
    omega
  | succ n ih =>
    rintro f hl ⟨s, rfl⟩
    by_cases h : ∃ t, s = t ++ ".yaml"
    · rw [trimYaml_yaml]
      have : (".yaml" : String).length = 5 := rfl
      rw [String.length_append] at hl
      exact .more (ih s (by omega) h)
    · have h : ∀ t, s ≠ t ++ ".yaml" := fun t e => h ⟨t, e⟩
      rw [trimYaml_append h]
      exact .once h

theorem base_iff {f stem : String} : Base f stem ↔ (∃ s, f = s ++ ".yaml") ∧ trimYaml f = stem :=
  ⟨fun h => ⟨h.trim.2, h.trim.1⟩, fun h => h.2 ▸ base_of_yaml _ f (Nat.le_refl _) h.1⟩

/-- What reading gives, as the content of a file. -/
def readContent : Except FSError Version → Option Version
  | .ok v => some v
  | .error _ => none

/-- What podo reads in a directory, in files with plain names. -/
def HDir.asRead (d : HDir) : HDir :=
  (d.filter fun p => decide (¬ (p.2 = .dir ∨ endsYaml p.1 = false))).map
    fun p => (p.1 ++ "-" ++ ".yaml", .file (readContent (d.getVersion (trimYaml p.1))))

theorem dash_plain (f : String) : ∀ s : String, f ++ "-" ≠ s ++ ".yaml" := by
  intro s h
  have := congrArg (fun s => s.toList.reverse) h
  simp [String.toList_append] at this

theorem asRead_nodup {d : HDir} (hd : d.NodupKeys) : d.asRead.NodupKeys := by
  unfold AMap.NodupKeys AMap.keys HDir.asRead
  rw [List.map_map]
  have h : (d.filter fun p => decide (¬ (p.2 = .dir ∨ endsYaml p.1 = false))).map Prod.fst |>.Nodup :=
    List.Nodup.sublist (List.filter_sublist.map _) hd
  unfold List.Nodup at h ⊢
  rw [List.pairwise_map] at h ⊢
  refine h.imp fun {a b} hab he => hab ?_
  exact String.append_left_inj _ |>.1 (append_yaml_inj he)

theorem asRead_plain (d : HDir) : PlainNames d.asRead := by
  intro f hf stem he
  obtain ⟨x, hx, rfl⟩ := List.mem_map.1 hf
  obtain ⟨p, _, rfl⟩ := List.mem_map.1 hx
  rw [yaml_yaml] at he
  exact dash_plain _ _ (append_yaml_inj he)

theorem asRead_file {d : HDir} {f : String} {c : Option Version} :
    YamlFile d.asRead (f ++ "-" ++ ".yaml") c ↔ ReadAt d f c := by
  unfold YamlFile ReadAt HDir.asRead
  simp only [List.mem_map, List.mem_filter, decide_eq_true_eq, Prod.mk.injEq, not_or]
  constructor
  · rintro ⟨⟨⟨g, e⟩, ⟨hg, he, hy⟩, hn, hc⟩, _⟩
    have hn : g = f := String.append_left_inj _ |>.1 (append_yaml_inj hn)
    subst hn
    replace hy : ∃ s, g = s ++ ".yaml" := endsYaml_iff.1 (by simpa using hy)
    cases e with
    | dir => exact absurd rfl he
    | file own =>
      refine ⟨⟨own, hg, hy⟩, _, base_iff.2 ⟨hy, rfl⟩, ?_⟩
      have hc := Entry.file.inj hc
      cases hr : d.getVersion (trimYaml g) with
      | ok v =>
        rw [hr] at hc
        exact .inl ⟨v, hc.symm, stored_iff.2 hr⟩
      | error e =>
        rw [hr] at hc
        refine .inr ⟨hc.symm, ?_⟩
        rintro ⟨v, hv⟩
        rw [stored_iff.1 hv] at hr
        cases hr
  · rintro ⟨⟨own, hg, hy⟩, stem, hb, hc⟩
    obtain ⟨_, rfl⟩ := base_iff.1 hb
    refine ⟨⟨(f, .file own), ⟨hg, by simp, by simp [endsYaml_iff.2 hy]⟩, rfl, ?_⟩, _, rfl⟩
    rcases hc with ⟨v, rfl, hv⟩ | ⟨rfl, hv⟩
    · rw [stored_iff.1 hv]; rfl
    · cases hr : d.getVersion (trimYaml f) with
      | ok v => exact absurd ⟨v, stored_iff.2 hr⟩ hv
      | error e => rfl

theorem asRead_names {d : HDir} {g : String} {c : Option Version} (h : YamlFile d.asRead g c) :
    ∃ f, g = f ++ "-" ++ ".yaml" := by
  obtain ⟨p, _, hp⟩ := List.mem_map.1 h.1
  exact ⟨p.1, (Prod.mk.inj hp).1.symm⟩

theorem asRead_allRead {d : HDir} : AllReadable d.asRead ↔ AllRead d := by
  constructor
  · intro h f c hc
    exact h _ c (asRead_file.2 hc)
  · intro h g c hc
    obtain ⟨f, rfl⟩ := asRead_names hc
    exact h f c (asRead_file.1 hc)

theorem asRead_branch {d : HDir} {p a b : String} : Branch d.asRead p a b ↔ BranchRead d p a b := by
  constructor
  · rintro ⟨f, g, v, w, hfg, hf, hg, h⟩
    obtain ⟨f, rfl⟩ := asRead_names hf
    obtain ⟨g, rfl⟩ := asRead_names hg
    exact ⟨f, g, v, w, fun e => hfg (e ▸ rfl), asRead_file.1 hf, asRead_file.1 hg, h⟩
  · rintro ⟨f, g, v, w, hfg, hf, hg, h⟩
    exact ⟨_, _, v, w, fun e => hfg (String.append_left_inj _ |>.1 (append_yaml_inj e)), asRead_file.2 hf,
      asRead_file.2 hg, h⟩

theorem asRead_follows {d : HDir} {p n : String} : Follows d.asRead p n ↔ FollowsRead d p n := by
  constructor
  · rintro ⟨f, v, hf, h⟩
    obtain ⟨f, rfl⟩ := asRead_names hf
    exact ⟨f, v, asRead_file.1 hf, h⟩
  · rintro ⟨f, v, hf, h⟩
    exact ⟨_, v, asRead_file.2 hf, h⟩

theorem asRead_leads {d : HDir} {a b : String} : LeadsTo d.asRead a b ↔ LeadsRead d a b := by
  constructor
  · intro h
    induction h with
    | here => exact .here _
    | step h _ ih => exact .step (asRead_follows.1 h) ih
  · intro h
    induction h with
    | here => exact .here _
    | step h _ ih => exact .step (asRead_follows.2 h) ih

/-- Scanning in terms of what is read. -/
def scanReads : List (Except FSError Version) → AMap String → Except FSError (AMap String)
  | [], nm => .ok nm
  | .error e :: _, _ => .error e
  | .ok v :: rest, nm =>
    match v.previous with
    | none => scanReads rest nm
    | some p =>
      match AMap.get? nm p with
      | some existing => .error (.branched p existing v.name)
      | none => scanReads rest (AMap.insertNew nm p v.name)

theorem scan_reads (d : HDir) (l : List (String × Entry)) (nm : AMap String) :
    HDir.scan d l nm = scanReads (reads d l) nm := by
  induction l generalizing nm with
  | nil => rfl
  | cons pe rest ih =>
    obtain ⟨f, e⟩ := pe
    rw [HDir.scan]
    by_cases hc : e = .dir ∨ endsYaml f = false
    · rw [if_pos hc, ih]
      unfold reads
      rw [List.filter_cons_of_neg (by simp only [decide_eq_true_eq]; exact not_not_intro hc)]
    · rw [if_neg hc]
      have hr : reads d ((f, e) :: rest) = d.getVersion (trimYaml f) :: reads d rest := by
        unfold reads; rw [List.filter_cons_of_pos (by simpa using hc)]; rfl
      rw [hr]
      cases d.getVersion (trimYaml f) with
      | error e => rfl
      | ok v =>
        simp only [scanReads, ih]
        cases v.previous with
        | none => rfl
        | some p =>
          simp only
          cases AMap.get? nm p <;> rfl

theorem asRead_reads {d : HDir} (hd : d.NodupKeys) :
    reads d.asRead d.asRead = (reads d d).map fun r => contentRead (readContent r) := by
  unfold reads
  rw [List.map_map]
  have hfil : d.asRead.filter (fun p => decide (¬ (p.2 = .dir ∨ endsYaml p.1 = false))) = d.asRead := by
    rw [List.filter_eq_self]
    intro x hx
    obtain ⟨p, _, rfl⟩ := List.mem_map.1 hx
    have : endsYaml (p.1 ++ "-" ++ ".yaml") = true := endsYaml_iff.2 ⟨_, rfl⟩
    simp [this]
  rw [hfil]
  have hget : ∀ p ∈ d.asRead, d.asRead.getVersion (trimYaml p.1) = match p.2 with
      | .file c => contentRead c
      | .dir => .error .yaml := by
    intro p hp
    have hn : p.1 = trimYaml p.1 ++ ".yaml" := by
      obtain ⟨q, _, rfl⟩ := List.mem_map.1 hp
      rw [trimYaml_append (dash_plain _)]
    unfold HDir.getVersion
    rw [← hn, AMap.get?_of_mem (asRead_nodup hd) (k := p.1) (v := p.2) hp]
    cases p.2 with
    | dir => rfl
    | file c => cases c <;> rfl
  rw [List.map_congr_left hget]
  unfold HDir.asRead
  rw [List.map_map]
  rfl

theorem scanReads_same {rs : List (Except FSError Version)} {nm : AMap String} :
    (∀ nm', scanReads rs nm = .ok nm' ↔
      scanReads (rs.map fun r => contentRead (readContent r)) nm = .ok nm') ∧
    (∀ p a b, scanReads rs nm = .error (.branched p a b) → (∀ r ∈ rs, ∀ e, r = .error e → e = .yaml ∨ e = .fileSystem) →
      scanReads (rs.map fun r => contentRead (readContent r)) nm = .error (.branched p a b)) ∧
    (∀ p a b, scanReads (rs.map fun r => contentRead (readContent r)) nm = .error (.branched p a b) →
      scanReads rs nm = .error (.branched p a b)) := by
  induction rs generalizing nm with
  | nil => simp [scanReads]
  | cons r rs ih =>
    cases r with
    | error e =>
      simp only [List.map_cons, readContent, contentRead, scanReads]
      refine ⟨fun _ => ⟨(by intro h; cases h), (by intro h; cases h)⟩, fun p a b h hr => ?_, fun p a b h => (by cases h)⟩
      rcases hr _ List.mem_cons_self e rfl with rfl | rfl <;> cases h
    | ok v =>
      simp only [List.map_cons, readContent, contentRead, scanReads]
      have hm : (∀ r ∈ Except.ok v :: rs, ∀ e, r = Except.error e → e = FSError.yaml ∨ e = .fileSystem) →
          ∀ r ∈ rs, ∀ e, r = .error e → e = .yaml ∨ e = .fileSystem := fun h r hr => h r (List.mem_cons_of_mem _ hr)
      cases v.previous with
      | none => exact ⟨ih.1, fun p a b h hr => ih.2.1 p a b h (hm hr), ih.2.2⟩
      | some q =>
        simp only
        cases AMap.get? nm q with
        | some x => simp
        | none => exact ⟨ih.1, fun p a b h hr => ih.2.1 p a b h (hm hr), ih.2.2⟩

theorem scan_asRead {d : HDir} (hd : d.NodupKeys) :
    (∀ nm, HDir.scan d d [] = .ok nm ↔ HDir.scan d.asRead d.asRead [] = .ok nm) ∧
    (∀ p a b, HDir.scan d d [] = .error (.branched p a b) ↔
      HDir.scan d.asRead d.asRead [] = .error (.branched p a b)) := by
  rw [scan_reads, scan_reads, asRead_reads hd]
  refine ⟨scanReads_same.1, fun p a b => ⟨fun h => scanReads_same.2.1 p a b h ?_, scanReads_same.2.2 p a b⟩⟩
  intro r hr e he
  obtain ⟨x, _, rfl⟩ := List.mem_map.1 hr
  unfold HDir.getVersion at he
  split at he <;> cases he <;> simp

theorem fromDir_asRead {d : HDir} (hd : d.NodupKeys) (fuel : Nat) :
    (∀ o, HDir.fromDir fuel d = some (.ok o) ↔ HDir.fromDir fuel d.asRead = some (.ok o)) ∧
    (HDir.fromDir fuel d = none ↔ HDir.fromDir fuel d.asRead = none) ∧
    (∀ p a b, HDir.fromDir fuel d = some (.error (.branched p a b)) ↔
      HDir.fromDir fuel d.asRead = some (.error (.branched p a b))) := by
  obtain ⟨h1, h2⟩ := scan_asRead hd
  unfold HDir.fromDir
  cases hs : HDir.scan d d [] with
  | ok nm => rw [(h1 nm).1 hs]; exact ⟨fun _ => Iff.rfl, Iff.rfl, fun _ _ _ => Iff.rfl⟩
  | error e =>
    cases hs' : HDir.scan d.asRead d.asRead [] with
    | ok nm => rw [(h1 nm).2 hs'] at hs; cases hs
    | error e' =>
      refine ⟨by simp, by simp, fun p a b => ?_⟩
      have := h2 p a b
      rw [hs, hs'] at this
      simpa using this

theorem rangeLoop_back {d : HDir} {a to : String} {n : Nat} {b : String} {acc r : List String}
    (h : HDir.rangeLoop d a to n b acc = some (.ok r)) : ∃ l, NamesBack d a b l ∧ r = l ++ acc.reverse := by
  induction n generalizing b acc with
  | zero => cases h
  | succ n ih =>
    rw [HDir.rangeLoop] at h
    cases hg : d.getVersion b with
    | error e => rw [hg] at h; cases h
    | ok v =>
      rw [hg] at h
      simp only at h
      split at h
      · next he =>
        cases h
        subst he
        exact ⟨[], .here (stored_iff.2 hg), rfl⟩
      · next he =>
        cases hp : v.previous with
        | none => rw [hp] at h; cases h
        | some p =>
          rw [hp] at h
          obtain ⟨l, h1, h2⟩ := ih h
          exact ⟨l ++ [v.name], .later he h1 (stored_iff.2 hg) hp, by simp [h2]⟩

theorem NamesBack.rangeLoop {d : HDir} {a b : String} {l : List String} (h : NamesBack d a b l) (to : String) :
    ∃ n, ∀ acc, HDir.rangeLoop d a to n b acc = some (.ok (l ++ acc.reverse)) := by
  induction h with
  | here h =>
    refine ⟨1, fun acc => ?_⟩
    rw [HDir.rangeLoop, stored_iff.1 h]
    simp
  | @later p b l v hne _ hs hp ih =>
    obtain ⟨n, hn⟩ := ih
    refine ⟨n + 1, fun acc => ?_⟩
    rw [HDir.rangeLoop, stored_iff.1 hs]
    simp only [if_neg hne, hp, hn]
    simp

end Podo
