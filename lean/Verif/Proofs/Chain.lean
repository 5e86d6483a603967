import Verif.Proofs.History
import Verif.Proofs.Stage
import Verif.Model.Commands
/-
Histories that form a chain init ← made versions ← stage.
-/
set_option linter.unusedSimpArgs false
namespace Podo

/-! ### Linked lists of versions -/

theorem Linked.append {p : Option String} {l m : List Version} :
    Linked p (l ++ m) ↔ Linked p l ∧ Linked ((l.getLast?.map Version.name).or p) m := by
  induction l generalizing p with
  | nil => simp [Linked]
  | cons v l ih =>
    simp only [List.cons_append, Linked, ih, and_assoc, List.getLast?_cons]
    cases l.getLast? <;> simp

theorem Linked.split {l : List Version} (h : Linked none l) {v : Version}
    (hv : v ∈ l) {p : String} (hp : v.previous = some p) :
    ∃ A u B, l = A ++ u :: v :: B ∧ u.name = p := by
  obtain ⟨A, B, rfl⟩ := List.append_of_mem hv
  have := (Linked.append.1 h).2.1
  rw [hp, Option.or_none] at this
  cases hA : A.getLast? with
  | none => rw [hA] at this; cases this
  | some u =>
    rw [hA] at this
    simp only [Option.map_some, Option.some.injEq] at this
    obtain ⟨A', rfl⟩ := List.getLast?_eq_some_iff.1 hA
    exact ⟨A', u, B, by simp, this.symm⟩

theorem eq_of_name {l : List Version} (hn : (l.map Version.name).Nodup) {v w : Version} (hv : v ∈ l)
    (hw : w ∈ l) (h : v.name = w.name) : v = w := by
  induction l with
  | nil => simp at hv
  | cons x l ih =>
    simp only [List.map_cons, List.nodup_cons, List.mem_map, not_exists, not_and] at hn
    rcases List.mem_cons.1 hv with h1 | h1 <;> rcases List.mem_cons.1 hw with h2 | h2
    · rw [h1, h2]
    · rw [h1] at h; exact absurd h.symm (hn.1 w h2)
    · rw [h2] at h; exact absurd h (hn.1 v h1)
    · exact ih hn.2 h1 h2

/-- In a chain, two versions with the same predecessor are the same. -/
theorem Linked.inj {l : List Version} (h : Linked none l) (hn : (l.map Version.name).Nodup)
    {v w : Version} (hv : v ∈ l) (hw : w ∈ l) {p : String} (hp : v.previous = some p)
    (hq : w.previous = some p) : v = w := by
  obtain ⟨A, u, B, hl, hu⟩ := h.split hv hp
  obtain ⟨A', u', B', hl', hu'⟩ := h.split hw hq
  have e : u = u' := eq_of_name hn (by rw [hl]; simp) (by rw [hl']; simp) (hu.trans hu'.symm)
  subst e
  rw [hl] at hl' hn
  have hA : A = A' := by
    have h1 : ∀ A B : List Version, u.name ∉ A.map Version.name →
        ((A ++ u :: B).map Version.name).idxOf u.name = A.length := by
      intro A B hA
      rw [List.map_append, List.idxOf_append, if_neg hA]
      simp
    have n1 : u.name ∉ A.map Version.name := by
      intro hm
      rw [List.map_append, List.nodup_append] at hn
      exact hn.2.2 _ hm u.name (by simp) rfl
    have n2 : u.name ∉ A'.map Version.name := by
      intro hm
      rw [hl', List.map_append, List.nodup_append] at hn
      exact hn.2.2 _ hm u.name (by simp) rfl
    have := h1 A (v :: B) n1
    rw [hl', h1 A' (w :: B') n2] at this
    exact List.append_inj_left hl' this.symm
  subst hA
  have := List.append_cancel_left hl'
  simp only [List.cons.injEq, true_and] at this
  exact this.1

/-- Going up a chain of stored versions. -/
theorem VersionPath.extend {d : HDir} {a b : String} {l : List String} (h : VersionPath d a b l)
    {T : List Version} (hT : Linked (some b) T) (hs : ∀ v ∈ T, Stored d v.name v) :
    VersionPath d a (((T.getLast?).map Version.name).getD b) (l ++ T.map Version.name) := by
  induction T generalizing b l with
  | nil => simpa using h
  | cons v T ih =>
    obtain ⟨h1, h2⟩ := hT
    have := ih (VersionPath.later h (hs v (by simp)) h1) h2 (fun w hw => hs w (by simp [hw]))
    simp only [List.getLast?_cons, Option.map_some, Option.getD_some, List.map_cons]
    cases hT : T.getLast? with
    | none => rw [hT] at this; simpa using this
    | some x => rw [hT] at this; simpa using this

/-- The links lead from `b` through the names `ns`, and no further. -/
def Leads (nm : AMap String) : String → List String → Prop
  | b, [] => AMap.get? nm b = none
  | b, n :: ns => AMap.get? nm b = some n ∧ Leads nm n ns

/-- The last but one name. -/
def penult : String → String → List String → String
  | cv, _, [] => cv
  | _, b, n :: ns => penult b n ns

theorem penult_append (cv b : String) (ns : List String) (x : String) :
    penult cv b (ns ++ [x]) = (ns.getLast?).getD b := by
  induction ns generalizing cv b with
  | nil => rfl
  | cons n ns ih => 
    simp only [List.cons_append, penult, ih, List.getLast?_cons, Option.getD_some]

theorem walk_leads {nm : AMap String} {b cv : String} {ns : List String} (h : Leads nm b ns)
    (k : Nat) (hk : ns.length < k) : HDir.walk nm k b cv = some (penult cv b ns) := by
  induction ns generalizing b cv k with
  | nil =>
    obtain ⟨k, rfl⟩ : ∃ j, k = j + 1 := ⟨k - 1, by simp at hk; omega⟩
    rw [HDir.walk, h]; rfl
  | cons n ns ih =>
    obtain ⟨k, rfl⟩ : ∃ j, k = j + 1 := ⟨k - 1, by simp at hk; omega⟩
    rw [HDir.walk, h.1]
    exact ih h.2 k (by simp at hk; omega)

theorem leads_of_linked {nm : AMap String} {b : String} {B : List Version}
    (hB : Linked (some b) B)
    (hin : ∀ v ∈ B, ∀ p, v.previous = some p → AMap.get? nm p = some v.name)
    (hlast : AMap.get? nm ((B.getLast?.map Version.name).getD b) = none) :
    Leads nm b (B.map Version.name) := by
  induction B generalizing b with
  | nil => simpa [Leads] using hlast
  | cons v B ih =>
    refine ⟨hin v (by simp) b hB.1, ih hB.2 (fun w hw => hin w (by simp [hw])) ?_⟩
    simp only [List.getLast?_cons] at hlast
    cases hT : B.getLast? <;> simpa [hT] using hlast

/-! ### Histories -/

namespace IsHistory
variable {d : HDir} {vs : List Version} {st : Version}

theorem names' (h : IsHistory d vs st) :
    ((Version.newInit :: (vs ++ [st])).map Version.name).Nodup := by
  have := h.names
  simpa [h.stage, Version.newInit, Version.INIT] using this

theorem stored_iff (h : IsHistory d vs st) {n : String} {v : Version} :
    Stored d n v ↔ v ∈ Version.newInit :: (vs ++ [st]) ∧ v.name = n := by
  unfold Stored
  rw [h.files]
  constructor
  · rintro ⟨w, hw, hn, he⟩
    cases he
    exact ⟨hw, hn⟩
  · rintro ⟨hv, hn⟩
    exact ⟨v, hv, hn, rfl⟩

theorem stored (h : IsHistory d vs st) {v : Version} (hv : v ∈ Version.newInit :: (vs ++ [st])) :
    Stored d v.name v := h.stored_iff.2 ⟨hv, rfl⟩

theorem storedNames (h : IsHistory d vs st) : StoredNames d := fun _ _ hs => (h.stored_iff.1 hs).2

theorem stored_stage (h : IsHistory d vs st) : Stored d "stage" st :=
  h.stored_iff.2 ⟨by simp, h.stage⟩

theorem stored_init (h : IsHistory d vs st) : Stored d "init" Version.newInit :=
  h.stored_iff.2 ⟨by simp, rfl⟩

theorem get_yaml (h : IsHistory d vs st) {f : String} {e : Entry} (hf : (f, e) ∈ d)
    (hy : ∃ stem, f = stem ++ ".yaml") :
    ∃ v ∈ Version.newInit :: (vs ++ [st]), f = v.name ++ ".yaml" ∧ e = .file (some v) := by
  obtain ⟨stem, rfl⟩ := hy
  obtain ⟨v, hv, hn, he⟩ := (h.files _ _).1 (AMap.get?_of_mem h.nodup hf)
  exact ⟨v, hv, by rw [hn], he⟩

theorem plainNames (h : IsHistory d vs st) : PlainNames d := by
  intro f hf stem he
  obtain ⟨e, he'⟩ : ∃ e, (f, e) ∈ d := by
    obtain ⟨⟨f', e⟩, hm, rfl⟩ := List.mem_map.1 hf
    exact ⟨e, hm⟩
  subst he
  rw [yaml_yaml] at he'
  obtain ⟨v, hv, hn, _⟩ := h.get_yaml he' ⟨_, rfl⟩
  have hn := append_yaml_inj hn
  rcases List.mem_cons.1 hv with rfl | hv
  · have := congrArg (fun s => s.toList.reverse) hn
    simp [Version.newInit, Version.INIT] at this
  · rcases List.mem_append.1 hv with hv | hv
    · exact h.plain v hv _ hn.symm
    · simp only [List.mem_cons, List.not_mem_nil, or_false] at hv
      subst hv
      rw [h.stage] at hn
      have := congrArg (fun s => s.toList.reverse) hn
      simp at this

theorem scan (h : IsHistory d vs st) : ∃ nm, HDir.scan d d [] = .ok nm ∧
    ∀ p n, AMap.get? nm p = some n ↔
      ∃ v ∈ Version.newInit :: (vs ++ [st]), v.previous = some p ∧ v.name = n := by
  have hsub : ∀ x ∈ d, x ∈ d := fun _ hx => hx
  have hnd : AMap.NodupKeys (links (reads d d)) := by
    rw [links_nodup_iff h.nodup h.plainNames (List.Sublist.refl _)]
    rintro ⟨f, g, v, w, p, hfg, hf, hg, hyf, hyg, hv, hw⟩
    obtain ⟨v', hv', hfn, he⟩ := h.get_yaml hf hyf
    obtain ⟨w', hw', hgn, he'⟩ := h.get_yaml hg hyg
    cases he; cases he'
    have := h.linked.inj h.names' hv' hw' hv hw
    subst this
    exact hfg (hfn.trans hgn.symm)
  refine ⟨links (reads d d), (scan_ok_iff _ _ _ _ AMap.nodupKeys_nil).2 ⟨?_, by simpa using hnd, by simp⟩, ?_⟩
  · intro r hr
    obtain ⟨f, c, hf, hy, rfl⟩ := (mem_reads h.nodup h.plainNames hsub).1 hr
    obtain ⟨v, _, _, he⟩ := h.get_yaml hf hy
    cases he
    exact ⟨v, rfl⟩
  · intro p n
    rw [AMap.get?_iff_mem hnd, mem_links h.nodup h.plainNames hsub]
    constructor
    · rintro ⟨f, v, hf, hy, hp, hn⟩
      obtain ⟨v', hv', _, he⟩ := h.get_yaml hf hy
      cases he
      exact ⟨v, hv', hp, hn⟩
    · rintro ⟨v, hv, hp, hn⟩
      exact ⟨v.name ++ ".yaml", v, AMap.mem_of_get? (h.stored hv), ⟨_, rfl⟩, hp, hn⟩

/-- Opening a chain: the current version is the last made one. -/
theorem fromDir (h : IsHistory d vs st) : ∃ nm,
    (∀ p n, AMap.get? nm p = some n ↔
      ∃ v ∈ Version.newInit :: (vs ++ [st]), v.previous = some p ∧ v.name = n) ∧
    ∀ k, vs.length + 1 < k → HDir.fromDir k d =
      some (.ok ⟨nm, ((vs.map Version.name).getLast?).getD "init"⟩) := by
  obtain ⟨nm, hs, hnm⟩ := h.scan
  refine ⟨nm, hnm, fun k hk => ?_⟩
  unfold HDir.fromDir
  rw [hs]
  simp only
  have hl : Leads nm "init" ((vs ++ [st]).map Version.name) := by
    refine leads_of_linked h.linked.2 ?_ ?_
    · intro v hv p hp
      exact (hnm _ _).2 ⟨v, by simp only [List.mem_cons]; exact .inr hv, hp, rfl⟩
    · simp only [List.getLast?_append, List.getLast?_singleton, Option.some_or, Option.map_some,
        Option.getD_some, h.stage]
      cases hx : AMap.get? nm "stage" with
      | none => rfl
      | some n =>
        exfalso
        obtain ⟨v, hv, hp, _⟩ := (hnm _ _).1 hx
        obtain ⟨A, u, B, hl, hu⟩ := h.linked.split hv hp
        have hn := h.names'
        have hst : (Version.newInit :: (vs ++ [st])) = (Version.newInit :: vs) ++ [st] := rfl
        have hu' : u = st := eq_of_name hn (by rw [hl]; simp) (by simp) (hu.trans h.stage.symm)
        subst hu'
        rw [hl] at hst
        have hlast := congrArg (fun l => l.getLast?) hst
        simp only [List.getLast?_append, List.getLast?_cons, List.getLast?_nil, Option.getD_none,
          Option.some_or, Option.some.injEq] at hlast
        rw [hl] at hn
        simp only [List.map_append, List.map_cons] at hn
        rw [List.nodup_append] at hn
        have hn := hn.2.1
        rw [List.nodup_cons] at hn
        apply hn.1
        rw [← hlast]
        have : (B.getLast?.getD v) ∈ v :: B := by
          cases hB : B.getLast? with
          | none => simp
          | some x => simp [List.mem_of_getLast? hB]
        simpa using List.mem_map_of_mem (f := Version.name) this
  rw [walk_leads hl k (by simpa using hk)]
  rw [List.map_append, List.map_singleton, penult_append]

theorem acyclic (h : IsHistory d vs st) : Acyclic d := by
  refine ⟨fun n => ((Version.newInit :: (vs ++ [st])).map Version.name).idxOf n, ?_⟩
  intro n v p hs hp
  obtain ⟨hv, rfl⟩ := h.stored_iff.1 hs
  obtain ⟨A, u, B, hl, rfl⟩ := h.linked.split hv hp
  have hn := h.names'
  rw [hl] at hn ⊢
  simp only [List.map_append, List.map_cons] at hn ⊢
  rw [List.nodup_append] at hn
  obtain ⟨_, hn2, hn3⟩ := hn
  have hu : u.name ∉ A.map Version.name := fun hm => hn3 _ hm _ (by simp) rfl
  have hv : v.name ∉ A.map Version.name := fun hm => hn3 _ hm _ (by simp) rfl
  have huv : u.name ≠ v.name := by
    rw [List.nodup_cons] at hn2
    intro he
    exact hn2.1 (by rw [he]; simp)
  rw [List.idxOf_append, if_neg hu, List.idxOf_append, if_neg hv]
  have : (u.name == v.name) = false := by simpa using huv
  simp [List.idxOf_cons, this]

/-- The path between two members of the chain. -/
theorem path (h : IsHistory d vs st) {A B C : List Version} {u : Version}
    (hl : Version.newInit :: (vs ++ [st]) = A ++ u :: (B ++ C)) :
    VersionPath d u.name ((B.getLast?.map Version.name).getD u.name) (B.map Version.name) := by
  have hlk := h.linked
  rw [hl, Linked.append] at hlk
  have h2 := hlk.2
  simp only [Linked] at h2
  have h3 := (Linked.append.1 h2.2).1
  have hu : Stored d u.name u := h.stored (by rw [hl]; simp)
  have := (VersionPath.here hu).extend h3 (fun v hv => h.stored (by rw [hl]; simp [hv]))
  simpa using this

theorem path_stage (h : IsHistory d vs st) :
    VersionPath d "init" "stage" ((vs ++ [st]).map Version.name) := by
  have := h.path (A := []) (u := Version.newInit) (B := vs ++ [st]) (C := []) (by simp)
  simpa [h.stage, Version.newInit, Version.INIT] using this

theorem range (h : IsHistory d vs st) {a b : String} {l : List String} (hp : VersionPath d a b l)
    {k : Nat} (hk : l.length < k) : HDir.upwardRange k d a b = some (.ok l) := by
  have := rangeLoop_of_path (t := b) h.storedNames hp (hp.notMem h.acyclic) []
  refine upwardRange_mono hk ?_
  simpa [HDir.upwardRange] using this

theorem replay (h : IsHistory d vs st) {T : List Version}
    (hT : ∀ v ∈ T, v ∈ Version.newInit :: (vs ++ [st])) {s s' : Database}
    (ha : Change.applyAll (T.flatMap Version.changes) s = .ok s') :
    replayVersions d (T.map Version.name) s = .ok s' := by
  induction T generalizing s with
  | nil => simpa [replayVersions, Change.applyAll] using ha
  | cons v T ih =>
    simp only [List.flatMap_cons] at ha
    simp only [List.map_cons, replayVersions, Podo.stored_iff.1 (h.stored (hT v (by simp)))]
    rw [applyAll_append] at ha
    cases hc : Change.applyAll v.changes s with
    | error e => rw [hc] at ha; cases ha
    | ok s₁ =>
      rw [hc] at ha
      exact ih (fun w hw => hT w (by simp [hw])) ha

/-- Calculating the snapshot of the stage replays all changes. -/
theorem calculate (h : IsHistory d vs st) {s : Database}
    (ha : Change.applyAll ((Version.newInit :: (vs ++ [st])).flatMap Version.changes) Database.new
      = .ok s) {k : Nat} (hk : vs.length + 1 < k) :
    calculateSnapshot k d "stage" = some (.ok s) := by
  unfold calculateSnapshot
  have := h.range h.path_stage (k := k) (by simpa using hk)
  rw [show Version.INIT = "init" from rfl, this]
  simp only [Podo.stored_iff.1 h.stored_init]
  rw [List.flatMap_cons, applyAll_append] at ha
  cases hc : Change.applyAll Version.newInit.changes Database.new with
  | error e => rw [hc] at ha; cases ha
  | ok s₁ =>
    rw [hc] at ha
    simp only
    rw [h.replay (fun v hv => List.mem_cons_of_mem _ hv) ha]

end IsHistory
end Podo
