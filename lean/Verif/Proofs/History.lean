import Verif.Spec.History
/-
Lemmas about reading version files.
-/
set_option linter.unusedSimpArgs false
namespace Podo

/-! ### `.yaml` suffixes -/

theorem endsYaml_iff {f : String} : endsYaml f = true ↔ ∃ stem, f = stem ++ ".yaml" := by
  unfold endsYaml
  rw [List.isPrefixOf_iff_prefix]
  constructor
  · rintro ⟨t, ht⟩
    refine ⟨String.ofList t.reverse, ?_⟩
    rw [← String.toList_inj]
    have := congrArg List.reverse ht
    simp only [List.reverse_append, List.reverse_reverse, yamlRev] at this
    simp only [String.toList_append, String.toList_ofList]
    rw [← this]; rfl
  · rintro ⟨stem, rfl⟩
    refine ⟨stem.toList.reverse, ?_⟩
    simp only [String.toList_append, List.reverse_append]
    rfl

theorem trimYamlRev_of_not {cs : List Char} (h : ¬ yamlRev <+: cs) : trimYamlRev cs = cs := by
  unfold trimYamlRev
  split
  · exact absurd ⟨_, rfl⟩ h
  · rfl

theorem trimYaml_append {s : String} (h : ∀ stem, s ≠ stem ++ ".yaml") :
    trimYaml (s ++ ".yaml") = s := by
  unfold trimYaml
  have : (s ++ ".yaml").toList.reverse = 'l' :: 'm' :: 'a' :: 'y' :: '.' :: s.toList.reverse := by
    simp only [String.toList_append, List.reverse_append]; rfl
  rw [this, trimYamlRev, trimYamlRev_of_not]
  · simp
  · intro hp
    have : endsYaml s = true := by unfold endsYaml; rw [List.isPrefixOf_iff_prefix]; exact hp
    obtain ⟨stem, hs⟩ := endsYaml_iff.1 this
    exact h stem hs

theorem append_yaml_inj {a b : String} (h : a ++ ".yaml" = b ++ ".yaml") : a = b :=
  String.append_left_inj _ |>.1 h

theorem yaml_yaml (s : String) : s ++ ".yaml.yaml" = (s ++ ".yaml") ++ ".yaml" := by
  rw [String.append_assoc]; rfl

/-! ### Scanning -/

/-- What reading each YAML file of a list of entries gives. -/
def reads (d : HDir) (l : List (String × Entry)) : List (Except FSError Version) :=
  (l.filter fun p => decide (¬ (p.2 = .dir ∨ endsYaml p.1 = false))).map
    fun p => d.getVersion (trimYaml p.1)

/-- The links predecessor → version. -/
def links (rs : List (Except FSError Version)) : AMap String :=
  rs.filterMap fun r =>
    match r with
    | .ok v => v.previous.map fun p => (p, v.name)
    | .error _ => none

theorem scan_ok_iff (d : HDir) (l : List (String × Entry)) (nm nm' : AMap String)
    (hn : nm.NodupKeys) :
    HDir.scan d l nm = .ok nm' ↔
      (∀ r ∈ reads d l, ∃ v, r = .ok v) ∧ AMap.NodupKeys (nm ++ links (reads d l)) ∧
        nm' = nm ++ links (reads d l) := by
  induction l generalizing nm with
  | nil =>
    simp only [HDir.scan, reads, links, List.filter_nil, List.map_nil, List.filterMap_nil, List.append_nil,
      List.not_mem_nil, false_implies, implies_true, true_and, Except.ok.injEq, hn]
    exact eq_comm
  | cons pe rest ih =>
    obtain ⟨f, e⟩ := pe
    rw [HDir.scan]
    by_cases hc : e = .dir ∨ endsYaml f = false
    · rw [if_pos hc, ih nm hn]
      have : reads d ((f, e) :: rest) = reads d rest := by
        unfold reads; rw [List.filter_cons_of_neg (by simp only [decide_eq_true_eq]; exact not_not_intro hc)]
      rw [this]
    · rw [if_neg hc]
      have hr : reads d ((f, e) :: rest) = d.getVersion (trimYaml f) :: reads d rest := by
        unfold reads; rw [List.filter_cons_of_pos (by simpa using hc)]; rfl
      rw [hr]
      cases hg : d.getVersion (trimYaml f) with
      | error err => simp
      | ok v =>
        cases hp : v.previous with
        | none =>
          have hl : links (.ok v :: reads d rest) = links (reads d rest) := by
            simp [links, hp]
          simp only [hl, hp]
          rw [ih nm hn]
          simp
        | some p =>
          have hl : links (.ok v :: reads d rest) = (p, v.name) :: links (reads d rest) := by
            simp [links, hp]
          simp only [hl, hp]
          cases hx : AMap.get? nm p with
          | some ex =>
            have : p ∈ nm.keys := AMap.mem_keys_of_get? hx
            simp only [reduceCtorEq, false_iff]
            rintro ⟨_, h2, _⟩
            unfold AMap.NodupKeys at h2
            rw [AMap.keys_append, List.nodup_append] at h2
            exact h2.2.2 p this p (by simp) rfl
          | none =>
            simp only
            rw [ih _ (AMap.nodupKeys_insertNew hn hx)]
            simp [AMap.insertNew, List.append_assoc]

/-- A scan that fails on a branch found two reads with the same predecessor, in this order, or one
together with a link found before. -/
theorem scan_branched {d : HDir} {l : List (String × Entry)} {nm : AMap String}
    {p a b : String} (h : HDir.scan d l nm = .error (.branched p a b)) :
    (AMap.get? nm p = some a ∧ (p, b) ∈ links (reads d l)) ∨
      ∃ l₁ l₂, l = l₁ ++ l₂ ∧ (p, a) ∈ links (reads d l₁) ∧ (p, b) ∈ links (reads d l₂) := by
  induction l generalizing nm with
  | nil => simp [HDir.scan] at h
  | cons pe rest ih =>
    obtain ⟨f, e⟩ := pe
    rw [HDir.scan] at h
    by_cases hc : e = .dir ∨ endsYaml f = false
    · rw [if_pos hc] at h
      have hr : ∀ r, reads d ((f, e) :: r) = reads d r := by
        intro r; unfold reads; rw [List.filter_cons_of_neg (by simp only [decide_eq_true_eq]; exact not_not_intro hc)]
      rcases ih h with h | ⟨l₁, l₂, hl, h1, h2⟩
      · left; rw [hr]; exact h
      · right; exact ⟨(f, e) :: l₁, l₂, by rw [hl]; rfl, by rw [hr]; exact h1, h2⟩
    · rw [if_neg hc] at h
      have hr : ∀ r, reads d ((f, e) :: r) = d.getVersion (trimYaml f) :: reads d r := by
        intro r; unfold reads; rw [List.filter_cons_of_pos (by simpa using hc)]; rfl
      have hcons : ∀ r x, x ∈ links (reads d r) → x ∈ links (reads d ((f, e) :: r)) := by
        intro r x hx; rw [hr]
        simp only [links, List.mem_filterMap, List.mem_cons] at hx ⊢
        obtain ⟨y, hy, hxy⟩ := hx
        exact ⟨y, .inr hy, hxy⟩
      cases hg : d.getVersion (trimYaml f) with
      | error err => 
        rw [hg] at h
        simp only [Except.error.injEq] at h
        subst h
        unfold HDir.getVersion at hg
        split at hg <;> cases hg
      | ok v =>
        rw [hg] at h
        simp only at h
        cases hp : v.previous with
        | none =>
          rw [hp] at h; simp only at h
          rcases ih h with h | ⟨l₁, l₂, hl, h1, h2⟩
          · left; exact ⟨h.1, hcons _ _ h.2⟩
          · right; exact ⟨(f, e) :: l₁, l₂, by rw [hl]; rfl, hcons _ _ h1, h2⟩
        | some q =>
          rw [hp] at h; simp only at h
          have hmem : ∀ r, (q, v.name) ∈ links (reads d ((f, e) :: r)) := by
            intro r; rw [hr, hg]
            simp [links, hp]
          cases hx : AMap.get? nm q with
          | some ex =>
            rw [hx] at h
            simp only [Except.error.injEq, FSError.branched.injEq] at h
            obtain ⟨rfl, rfl, rfl⟩ := h
            exact .inl ⟨hx, hmem _⟩
          | none =>
            rw [hx] at h; simp only at h
            rcases ih h with h | ⟨l₁, l₂, hl, h1, h2⟩
            · have h1 := h.1
              rw [AMap.get?_insertNew _ _ _ _ hx] at h1
              split at h1
              · next heq =>
                subst heq
                cases h1
                exact .inr ⟨[(f, e)], rest, rfl, hmem _, h.2⟩
              · exact .inl ⟨h1, hcons _ _ h.2⟩
            · right; exact ⟨(f, e) :: l₁, l₂, by rw [hl]; rfl, hcons _ _ h1, h2⟩

theorem scan_error {d : HDir} {l : List (String × Entry)} {nm : AMap String} {e : FSError}
    (h : HDir.scan d l nm = .error e) :
    (.error e) ∈ reads d l ∨ ∃ p a b, e = .branched p a b := by
  induction l generalizing nm with
  | nil => simp [HDir.scan] at h
  | cons pe rest ih =>
    obtain ⟨f, en⟩ := pe
    rw [HDir.scan] at h
    by_cases hc : en = .dir ∨ endsYaml f = false
    · rw [if_pos hc] at h
      have hr : ∀ r, reads d ((f, en) :: r) = reads d r := by
        intro r; unfold reads
        rw [List.filter_cons_of_neg (by simp only [decide_eq_true_eq]; exact not_not_intro hc)]
      rw [hr]; exact ih h
    · rw [if_neg hc] at h
      have hr : ∀ r, reads d ((f, en) :: r) = d.getVersion (trimYaml f) :: reads d r := by
        intro r; unfold reads; rw [List.filter_cons_of_pos (by simpa using hc)]; rfl
      rw [hr]
      cases hg : d.getVersion (trimYaml f) with
      | error err => rw [hg] at h; cases h; left; simp
      | ok v =>
        rw [hg] at h
        simp only at h
        cases hp : v.previous with
        | none =>
          rw [hp] at h; simp only at h
          rcases ih h with h | h
          · left; exact List.mem_cons_of_mem _ h
          · exact .inr h
        | some q =>
          rw [hp] at h; simp only at h
          cases hx : AMap.get? nm q with
          | some ex => rw [hx] at h; cases h; exact .inr ⟨_, _, _, rfl⟩
          | none =>
            rw [hx] at h; simp only at h
            rcases ih h with h | h
            · left; exact List.mem_cons_of_mem _ h
            · exact .inr h

/-- A directory whose scan is not successful fails to open, whatever the fuel. -/
theorem fromDir_error_of_scan {d : HDir} (h : ∀ nm, HDir.scan d d [] ≠ .ok nm) :
    ∃ e, HDir.scan d d [] = .error e ∧ ∀ k, HDir.fromDir k d = some (.error e) := by
  cases hs : HDir.scan d d [] with
  | ok nm => exact absurd hs (h nm)
  | error e => exact ⟨e, rfl, fun k => by unfold HDir.fromDir; rw [hs]⟩

theorem reads_perm {d : HDir} {l l' : List (String × Entry)} (h : l.Perm l') :
    (reads d l).Perm (reads d l') := (h.filter _).map _

theorem links_perm {rs rs' : List (Except FSError Version)} (h : rs.Perm rs') :
    (links rs).Perm (links rs') := h.filterMap _

theorem getVersion_perm {d d' : HDir} (hd : d.NodupKeys) (h : d.Perm d') (n : String) :
    d.getVersion n = d'.getVersion n := by
  unfold HDir.getVersion; rw [AMap.get?_perm hd h]

theorem reads_congr {d d' : HDir} (h : ∀ n, d.getVersion n = d'.getVersion n)
    (l : List (String × Entry)) : reads d l = reads d' l := by
  unfold reads; simp only [h]

theorem walk_congr {nm nm' : AMap String} (h : ∀ p, AMap.get? nm p = AMap.get? nm' p) (n : Nat)
    (c cv : String) : HDir.walk nm n c cv = HDir.walk nm' n c cv := by
  induction n generalizing c cv with
  | zero => rfl
  | succ n ih =>
    rw [HDir.walk, HDir.walk, h]
    split
    · exact ih _ _
    · rfl

theorem walk_mono {nm : AMap String} {n m : Nat} {c cv r : String} (hnm : n ≤ m)
    (h : HDir.walk nm n c cv = some r) : HDir.walk nm m c cv = some r := by
  induction n generalizing c cv m with
  | zero => simp [HDir.walk] at h
  | succ n ih =>
    obtain ⟨m, rfl⟩ : ∃ k, m = k + 1 := ⟨m - 1, by omega⟩
    rw [HDir.walk] at h ⊢
    split at h
    · next x hx => exact ih (by omega) h
    · next hx => exact h

theorem fromDir_mono {d : HDir} {n m : Nat} {r : Except FSError HDir.Opened} (hnm : n ≤ m)
    (h : HDir.fromDir n d = some r) : HDir.fromDir m d = some r := by
  unfold HDir.fromDir at h ⊢
  split
  · next e he => rw [he] at h; exact h
  · next nm hs =>
    rw [hs] at h
    simp only at h
    cases hw : HDir.walk nm n "init" Version.INIT with
    | none => rw [hw] at h; cases h
    | some cv => rw [hw] at h; rw [walk_mono hnm hw]; exact h

theorem stored_iff {d : HDir} {n : String} {v : Version} :
    Stored d n v ↔ d.getVersion n = .ok v := by
  unfold Stored HDir.getVersion
  split <;> simp_all

/-! ### Files and links -/

theorem PlainNames.stem {d : HDir} (hp : PlainNames d) {f : String} {e : Entry} (hf : (f, e) ∈ d)
    (hy : endsYaml f = true) : f = trimYaml f ++ ".yaml" := by
  obtain ⟨stem, rfl⟩ := endsYaml_iff.1 hy
  rw [trimYaml_append]
  rintro s rfl
  refine hp _ (List.mem_map.2 ⟨_, hf, rfl⟩) s ?_
  rw [yaml_yaml]

/-- What reading a file with this content gives. -/
def contentRead : Option Version → Except FSError Version
  | some v => .ok v
  | none => .error .yaml

/-- With plain names, scanning reads exactly the content of the YAML files. -/
theorem mem_reads {d : HDir} (hd : d.NodupKeys) (hp : PlainNames d) {l : List (String × Entry)}
    (hl : ∀ x ∈ l, x ∈ d) {r : Except FSError Version} :
    r ∈ reads d l ↔ ∃ f c, (f, Entry.file c) ∈ l ∧ (∃ stem, f = stem ++ ".yaml") ∧
      r = contentRead c := by
  unfold reads
  simp only [List.mem_map, List.mem_filter, decide_eq_true_eq, not_or, Prod.exists]
  have key : ∀ f c, (f, Entry.file c) ∈ l → endsYaml f = true → d.getVersion (trimYaml f) =
      contentRead c := by
    intro f c hf hy
    have := hp.stem (hl _ hf) hy
    unfold HDir.getVersion
    rw [← this, AMap.get?_of_mem hd (hl _ hf)]
    cases c <;> rfl
  constructor
  · rintro ⟨f, e, ⟨hf, he, hy⟩, rfl⟩
    cases e with
    | dir => exact absurd rfl he
    | file c =>
      have hy : endsYaml f = true := by simpa using hy
      exact ⟨f, c, hf, endsYaml_iff.1 hy, key f c hf hy⟩
  · rintro ⟨f, c, hf, hs, rfl⟩
    have hy := endsYaml_iff.2 hs
    exact ⟨f, .file c, ⟨hf, by simp, by simp [hy]⟩, key f c hf hy⟩

theorem mem_links {d : HDir} (hd : d.NodupKeys) (hp : PlainNames d) {l : List (String × Entry)}
    (hl : ∀ x ∈ l, x ∈ d) {p n : String} :
    (p, n) ∈ links (reads d l) ↔ ∃ f v, (f, Entry.file (some v)) ∈ l ∧ (∃ stem, f = stem ++ ".yaml") ∧
      v.previous = some p ∧ v.name = n := by
  unfold links
  simp only [List.mem_filterMap]
  constructor
  · rintro ⟨r, hr, h⟩
    obtain ⟨f, c, hf, hs, rfl⟩ := (mem_reads hd hp hl).1 hr
    cases c with
    | none => simp [contentRead] at h
    | some v =>
      cases hv : v.previous with
      | none => simp [contentRead, hv] at h
      | some q =>
        simp only [contentRead, hv, Option.map_some, Option.some.injEq, Prod.mk.injEq] at h
        exact ⟨f, v, hf, hs, by rw [hv, h.1], h.2⟩
  · rintro ⟨f, v, hf, hs, hv, hn⟩
    exact ⟨.ok v, (mem_reads hd hp hl).2 ⟨f, some v, hf, hs, rfl⟩, by simp [hv, hn]⟩

/-- If every YAML file can be read, the keys of the links repeat exactly when there is a branch. -/
theorem links_nodup_iff {d : HDir} (hd : d.NodupKeys) (hp : PlainNames d)
    {l : List (String × Entry)} (hl : l.Sublist d) :
    AMap.NodupKeys (links (reads d l)) ↔
      ¬ ∃ f g v w p, f ≠ g ∧ (f, Entry.file (some v)) ∈ l ∧ (g, Entry.file (some w)) ∈ l ∧
        (∃ stem, f = stem ++ ".yaml") ∧ (∃ stem, g = stem ++ ".yaml") ∧
        v.previous = some p ∧ w.previous = some p := by
  induction l with
  | nil => simp [reads, links]
  | cons pe rest ih =>
    obtain ⟨f, e⟩ := pe
    have hrest : rest.Sublist d := (List.sublist_cons_self _ _).trans hl
    have hsub : ∀ x ∈ (f, e) :: rest, x ∈ d := fun x hx => hl.subset hx
    have hsub' : ∀ x ∈ rest, x ∈ d := fun x hx => hrest.subset hx
    have hnd : AMap.NodupKeys ((f, e) :: rest) := by
      have : (AMap.keys ((f, e) :: rest)).Sublist d.keys := hl.map _
      exact List.Nodup.sublist this hd
    have hfresh : ∀ e', (f, e') ∉ rest := by
      intro e' h
      rw [AMap.nodupKeys_cons] at hnd
      exact hnd.1 (List.mem_map.2 ⟨_, h, rfl⟩)
    have ih := ih hrest
    by_cases hc : e = .dir ∨ endsYaml f = false
    · have hr : reads d ((f, e) :: rest) = reads d rest := by
        unfold reads; rw [List.filter_cons_of_neg (by simp only [decide_eq_true_eq]; exact not_not_intro hc)]
      rw [hr, ih]
      refine not_congr ⟨?_, ?_⟩
      · rintro ⟨a, b, v, w, p, hab, ha, hb, h⟩
        exact ⟨a, b, v, w, p, hab, List.mem_cons_of_mem _ ha, List.mem_cons_of_mem _ hb, h⟩
      · rintro ⟨a, b, v, w, p, hab, ha, hb, hy1, hy2, h⟩
        have out : ∀ a v, (a, Entry.file (some v)) ∈ (f, e) :: rest → (∃ stem, a = stem ++ ".yaml") →
            (a, Entry.file (some v)) ∈ rest := by
          intro a v ha hy
          rcases List.mem_cons.1 ha with h | h
          · cases h
            rcases hc with hc | hc
            · cases hc
            · rw [endsYaml_iff.2 hy] at hc; cases hc
          · exact h
        exact ⟨a, b, v, w, p, hab, out _ _ ha hy1, out _ _ hb hy2, hy1, hy2, h⟩
    · have hr : reads d ((f, e) :: rest) = d.getVersion (trimYaml f) :: reads d rest := by
        unfold reads; rw [List.filter_cons_of_pos (by simpa using hc)]; rfl
      obtain ⟨he, hy⟩ := not_or.1 hc
      have hy : endsYaml f = true := by simpa using hy
      cases e with
      | dir => exact absurd rfl he
      | file c =>
      have hg : d.getVersion (trimYaml f) = contentRead c := by
        have hm : (f, Entry.file c) ∈ d := hsub _ List.mem_cons_self
        have := hp.stem hm hy
        unfold HDir.getVersion
        rw [← this, AMap.get?_of_mem hd hm]
        cases c <;> rfl
      rw [hr, hg]
      have mono : (∃ a b v w p, a ≠ b ∧ (a, Entry.file (some v)) ∈ rest ∧
          (b, Entry.file (some w)) ∈ rest ∧
          (∃ stem, a = stem ++ ".yaml") ∧ (∃ stem, b = stem ++ ".yaml") ∧
          v.previous = some p ∧ w.previous = some p) →
          ∃ a b v w p, a ≠ b ∧ (a, Entry.file (some v)) ∈ (f, Entry.file c) :: rest ∧
          (b, Entry.file (some w)) ∈ (f, Entry.file c) :: rest ∧
          (∃ stem, a = stem ++ ".yaml") ∧ (∃ stem, b = stem ++ ".yaml") ∧
          v.previous = some p ∧ w.previous = some p := by
        rintro ⟨a, b, v, w, p, hab, ha, hb, h⟩
        exact ⟨a, b, v, w, p, hab, List.mem_cons_of_mem _ ha, List.mem_cons_of_mem _ hb, h⟩
      have skip : (∀ v p, c = some v → v.previous = some p → False) →
          ∀ a v p, (a, Entry.file (some v)) ∈ (f, Entry.file c) :: rest → v.previous = some p →
          (a, Entry.file (some v)) ∈ rest := by
        intro hno a v p ha hv
        rcases List.mem_cons.1 ha with h | h
        · cases h; exact absurd hv (hno _ _ rfl)
        · exact h
      have same : (∀ v p, c = some v → v.previous = some p → False) →
          links (contentRead c ::
            reads d rest) = links (reads d rest) := by
        intro hno
        cases c with
        | none => simp [links, contentRead]
        | some v =>
          cases hv : v.previous with
          | none => simp [links, hv, contentRead]
          | some p => exact absurd hv (hno _ _ rfl)
      by_cases hno : ∀ v p, c = some v → v.previous = some p → False
      · rw [same hno, ih]
        refine not_congr ⟨mono, ?_⟩
        rintro ⟨a, b, v, w, p, hab, ha, hb, hy1, hy2, h1, h2⟩
        exact ⟨a, b, v, w, p, hab, skip hno _ _ _ ha h1, skip hno _ _ _ hb h2, hy1, hy2, h1, h2⟩
      · simp only [Classical.not_forall, not_false_eq_true, exists_prop, and_true] at hno
        obtain ⟨v, p, rfl, hv⟩ := hno
        have hl2 : links (contentRead (some v) :: reads d rest) = (p, v.name) :: links (reads d rest) := by
          simp [links, hv, contentRead]
        rw [hl2, AMap.nodupKeys_cons, ih]
        have hmem : p ∈ AMap.keys (links (reads d rest)) ↔ ∃ g w, (g, Entry.file (some w)) ∈ rest ∧
            (∃ stem, g = stem ++ ".yaml") ∧ w.previous = some p := by
          unfold AMap.keys
          simp only [List.mem_map, Prod.exists, exists_and_right, exists_eq_right]
          constructor
          · rintro ⟨n, hn⟩
            obtain ⟨g, w, h1, h2, h3, _⟩ := (mem_links hd hp hsub').1 hn
            exact ⟨g, w, h1, h2, h3⟩
          · rintro ⟨g, w, h1, h2, h3⟩
            exact ⟨w.name, (mem_links hd hp hsub').2 ⟨g, w, h1, h2, h3, rfl⟩⟩
        rw [hmem]
        constructor
        · rintro ⟨h1, h2⟩ ⟨a, b, x, w, q, hab, ha, hb, hy1, hy2, hx, hw⟩
          rcases List.mem_cons.1 ha with ha | ha
          · cases ha
            rcases List.mem_cons.1 hb with hb | hb
            · cases hb; exact hab rfl
            · rw [hv] at hx; cases hx
              exact h1 ⟨b, w, hb, hy2, hw⟩
          · rcases List.mem_cons.1 hb with hb | hb
            · cases hb
              rw [hv] at hw; cases hw
              exact h1 ⟨a, x, ha, hy1, hx⟩
            · exact h2 ⟨a, b, x, w, q, hab, ha, hb, hy1, hy2, hx, hw⟩
        · intro h
          refine ⟨?_, fun hm => h (mono hm)⟩
          rintro ⟨g, w, hg', hy2, hw⟩
          refine h ⟨f, g, v, w, p, ?_, by simp, List.mem_cons_of_mem _ hg', endsYaml_iff.1 hy, hy2,
            hv, hw⟩
          rintro rfl
          exact hfresh _ hg'

/-! ### The walk ends -/

theorem length_le_of_nodup_subset {α : Type} [BEq α] [LawfulBEq α] {l m : List α} (hl : l.Nodup)
    (h : ∀ x ∈ l, x ∈ m) : l.length ≤ m.length := by
  induction l generalizing m with
  | nil => simp
  | cons a l ih =>
    rw [List.nodup_cons] at hl
    have ha : a ∈ m := h a (by simp)
    have := ih (m := m.erase a) hl.2 (by
      intro x hx
      have hne : x ≠ a := fun h => hl.1 (h ▸ hx)
      exact (List.mem_erase_of_ne hne).2 (h x (by simp [hx])))
    rw [List.length_erase_of_mem ha] at this
    have : 0 < m.length := List.length_pos_of_mem ha
    simp only [List.length_cons]
    omega

theorem walk_ends_aux {nm : AMap String} {start : String}
    (hinj : ∀ p q n, AMap.get? nm p = some n → AMap.get? nm q = some n → p = q)
    (hstart : ∀ p, AMap.get? nm p ≠ some start) (fuel : Nat) (curr cv : String) (vis : List String)
    (hf : fuel + vis.length = nm.length + 1) (hnd : vis.Nodup) (hk : ∀ x ∈ vis, x ∈ nm.keys)
    (hc : curr ∉ vis)
    (hp : ∀ x ∈ curr :: vis, x = start ∨ ∃ u ∈ vis, AMap.get? nm u = some x) :
    ∃ r, HDir.walk nm fuel curr cv = some r := by
  induction fuel generalizing curr cv vis with
  | zero =>
    exfalso
    have := length_le_of_nodup_subset hnd hk
    simp only [AMap.keys, List.length_map] at this
    omega
  | succ n ih =>
    rw [HDir.walk]
    cases hx : AMap.get? nm curr with
    | none => exact ⟨cv, rfl⟩
    | some next =>
      simp only
      refine ih next curr (curr :: vis) (by simp only [List.length_cons]; omega)
        (List.nodup_cons.2 ⟨hc, hnd⟩) ?_ ?_ ?_
      · intro x hxm
        rcases List.mem_cons.1 hxm with rfl | hxm
        · exact AMap.mem_keys_of_get? hx
        · exact hk x hxm
      · intro hmem
        rcases hp next hmem with h | ⟨u, hu, hun⟩
        · subst h; exact hstart _ hx
        · exact hc (hinj _ _ _ hun hx ▸ hu)
      · intro x hxm
        rcases List.mem_cons.1 hxm with rfl | hxm
        · exact .inr ⟨curr, by simp, hx⟩
        · rcases hp x hxm with h | ⟨u, hu, hux⟩
          · exact .inl h
          · exact .inr ⟨u, List.mem_cons_of_mem _ hu, hux⟩

theorem walk_ends {nm : AMap String} {start : String}
    (hinj : ∀ p q n, AMap.get? nm p = some n → AMap.get? nm q = some n → p = q)
    (hstart : ∀ p, AMap.get? nm p ≠ some start) (cv : String) :
    ∃ r, HDir.walk nm (nm.length + 1) start cv = some r :=
  walk_ends_aux hinj hstart _ _ _ [] (by simp) List.nodup_nil (by simp) (by simp) (by simp)

theorem links_length_le (d : HDir) (l : List (String × Entry)) :
    (links (reads d l)).length ≤ l.length := by
  refine Nat.le_trans (List.length_filterMap_le _ _) ?_
  rw [reads, List.length_map]
  exact List.length_filter_le _ _

/-! ### Ranges -/

theorem rangeLoop_mono {d : HDir} {a b c : String} {n m : Nat} {acc : List String}
    {r : Except FSError (List String)} (hnm : n ≤ m)
    (h : HDir.rangeLoop d a b n c acc = some r) : HDir.rangeLoop d a b m c acc = some r := by
  induction n generalizing c acc m with
  | zero => simp [HDir.rangeLoop] at h
  | succ n ih =>
    obtain ⟨m, rfl⟩ : ∃ k, m = k + 1 := ⟨m - 1, by omega⟩
    rw [HDir.rangeLoop] at h ⊢
    split at h
    · exact h
    · next v hv =>
      by_cases hc : c = a
      · rw [if_pos hc] at h ⊢; exact h
      · rw [if_neg hc] at h ⊢
        cases hp : v.previous with
        | none => rw [hp] at h; exact h
        | some p => rw [hp] at h; exact ih (by omega) h

theorem upwardRange_mono {d : HDir} {a b : String} {n m : Nat} {r : Except FSError (List String)}
    (hnm : n ≤ m) (h : HDir.upwardRange n d a b = some r) : HDir.upwardRange m d a b = some r :=
  rangeLoop_mono hnm h

/-- The names of stored versions agree with their files. -/
def StoredNames (d : HDir) : Prop := ∀ n v, Stored d n v → v.name = n

theorem NamedAfterVersion.storedNames {d : HDir} (h : NamedAfterVersion d) : StoredNames d := by
  intro n v hs
  exact (append_yaml_inj (h (n ++ ".yaml") v ⟨AMap.mem_of_get? hs, n, rfl⟩)).symm

theorem Stored.unique {d : HDir} {n : String} {v w : Version} (h : Stored d n v)
    (h' : Stored d n w) : v = w := by
  unfold Stored at h h'; rw [h] at h'; cases h'; rfl

/-- Running the loop downwards from the end of a path. -/
theorem rangeLoop_of_path {d : HDir} (hn : StoredNames d) {a b t : String} {l : List String}
    (hp : VersionPath d a b l) (ha : a ∉ l) (acc : List String) :
    HDir.rangeLoop d a t (l.length + 1) b acc = some (.ok (l ++ acc.reverse)) := by
  induction hp generalizing acc with
  | here hs => simp [HDir.rangeLoop, stored_iff.1 hs]
  | @later p b l v hp hs hv ih =>
    rw [List.length_append, List.length_singleton, HDir.rangeLoop, stored_iff.1 hs]
    have hb : b ≠ a := by rintro rfl; exact ha (by simp)
    simp only [hb, if_false, hv, ↓reduceIte]
    rw [ih (fun h => ha (List.mem_append_left _ h)), hn _ _ hs]
    simp

/-- What the loop returns is a path. -/
theorem path_of_rangeLoop {d : HDir} (hn : StoredNames d) {a b t : String} {n : Nat}
    {acc l : List String} (h : HDir.rangeLoop d a t n b acc = some (.ok l)) :
    ∃ l', VersionPath d a b l' ∧ a ∉ l' ∧ l = l' ++ acc.reverse := by
  induction n generalizing b acc with
  | zero => simp [HDir.rangeLoop] at h
  | succ n ih =>
    rw [HDir.rangeLoop] at h
    split at h
    · cases h
    · next v hv =>
      have hs := stored_iff.2 hv
      split at h
      · next hc =>
        subst hc
        cases h
        exact ⟨[], .here hs, by simp, by simp⟩
      · next hc =>
        split at h
        · next p hp =>
          obtain ⟨l', hp', ha, hl⟩ := ih h
          refine ⟨l' ++ [b], .later hp' hs hp, ?_, ?_⟩
          · intro hm
            rcases List.mem_append.1 hm with hm | hm
            · exact ha hm
            · simp only [List.mem_cons, List.not_mem_nil, or_false] at hm
              exact hc hm.symm
          · rw [hl, hn _ _ hs]; simp
        · cases h

/-- With no cycle the loop ends. -/
theorem rangeLoop_ends {d : HDir} {rank : String → Nat}
    (hr : ∀ n v p, Stored d n v → v.previous = some p → rank p < rank n) (a t : String) (k : Nat)
    (b : String) (hb : rank b < k) (acc : List String) :
    ∃ r, HDir.rangeLoop d a t k b acc = some r := by
  induction k generalizing b acc with
  | zero => omega
  | succ k ih =>
    rw [HDir.rangeLoop]
    split
    · exact ⟨_, rfl⟩
    · next v hv =>
      split
      · exact ⟨_, rfl⟩
      · split
        · next p hp =>
          have := hr _ _ _ (stored_iff.2 hv) hp
          exact ih p (by omega) _
        · exact ⟨_, rfl⟩

theorem VersionPath.rank_le {d : HDir} {rank : String → Nat}
    (hr : ∀ n v p, Stored d n v → v.previous = some p → rank p < rank n) {a b : String}
    {l : List String} (h : VersionPath d a b l) : rank a ≤ rank b ∧ ∀ x ∈ l, rank a < rank x := by
  induction h with
  | here _ => simp
  | later hp hs hv ih =>
    have := hr _ _ _ hs hv
    refine ⟨by omega, fun x hx => ?_⟩
    rcases List.mem_append.1 hx with hx | hx
    · exact ih.2 x hx
    · simp only [List.mem_cons, List.not_mem_nil, or_false] at hx
      subst hx; omega

theorem VersionPath.notMem {d : HDir} (hac : Acyclic d) {a b : String} {l : List String}
    (h : VersionPath d a b l) : a ∉ l := by
  obtain ⟨rank, hr⟩ := hac
  intro hm
  have := (h.rank_le hr).2 a hm
  omega

theorem upwardRange_ok_iff {d : HDir} (hn : StoredNames d) (hac : Acyclic d) {a b : String}
    {l : List String} : (∃ n, HDir.upwardRange n d a b = some (.ok l)) ↔ VersionPath d a b l := by
  constructor
  · rintro ⟨n, h⟩
    obtain ⟨l', hp, _, hl⟩ := path_of_rangeLoop hn h
    simp only [List.reverse_nil, List.append_nil] at hl
    exact hl ▸ hp
  · intro h
    exact ⟨l.length + 1, by simpa [HDir.upwardRange] using rangeLoop_of_path hn h (h.notMem hac) []⟩

/-- How the loop can fail: at the end of the chain of predecessors, or where a file is missing. -/
theorem rangeLoop_error {d : HDir} {a b t : String} {n : Nat} {acc : List String} {e : FSError}
    (h : HDir.rangeLoop d a t n b acc = some (.error e)) :
    (∃ c v l, VersionPath d c b l ∧ Stored d c v ∧ v.previous = none ∧ c ≠ a ∧ e = .unreachable t a) ∨
    (∃ c, (¬ ∃ v, Stored d c v) ∧ (c = b ∨ ∃ q v l, VersionPath d q b l ∧ Stored d q v ∧ v.previous = some c)
      ∧ d.getVersion c = .error e) := by
  induction n generalizing b acc with
  | zero => simp [HDir.rangeLoop] at h
  | succ n ih =>
    rw [HDir.rangeLoop] at h
    split at h
    · next e' he =>
      cases h
      refine .inr ⟨b, ?_, .inl rfl, he⟩
      rintro ⟨v, hv⟩
      rw [stored_iff.1 hv] at he; cases he
    · next v hv =>
      have hs := stored_iff.2 hv
      split at h
      · cases h
      · next hc =>
        split at h
        · next p hp =>
          rcases ih h with ⟨c, w, l, hp', hw, hw', hca, he⟩ | ⟨c, hno, hc', he⟩
          · exact .inl ⟨c, w, l ++ [b], .later hp' hs hp, hw, hw', hca, he⟩
          · refine .inr ⟨c, hno, .inr ?_, he⟩
            rcases hc' with rfl | ⟨q, w, l, hq, hw, hw'⟩
            · exact ⟨b, v, [], .here hs, hs, hp⟩
            · exact ⟨q, w, l ++ [b], .later hq hs hp, hw, hw'⟩
        · next hp =>
          cases h
          exact .inl ⟨b, v, [], .here hs, hs, hp, hc, rfl⟩

end Podo
