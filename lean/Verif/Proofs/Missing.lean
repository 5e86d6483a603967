import Verif.Spec.Missing
import Verif.Proofs.Merge
import Verif.Proofs.Edited
import Verif.Proofs.UpConc
/-
Lemmas for C89.
-/
namespace Podo
open Pg
variable {σ : Type} {d d' : HDir} {vs : List Version} {st : Version}

theorem FilesMissing.stored (hm : FilesMissing d d') {n : String} {v : Version} (h : Stored d' n v) : Stored d n v :=
  hm.same _ _ h

theorem FilesMissing.yaml (hm : FilesMissing d d') {f : String} {c : Option Version} (h : YamlFile d' f c) :
    YamlFile d f c :=
  ⟨AMap.mem_of_get? (hm.same _ _ (AMap.get?_of_mem hm.nodup h.1)), h.2⟩

theorem FilesMissing.kept (hm : FilesMissing d d') {n : String} {v : Version} (h : Stored d n v)
    (hl : ¬ Lacks d' n) : Stored d' n v := by
  unfold Stored
  cases hg : d'.get? (n ++ ".yaml") with
  | none => exact absurd hg hl
  | some e =>
    have := hm.same _ _ hg
    unfold Stored at h
    rw [h] at this
    exact this.symm

theorem FilesMissing.plain (hm : FilesMissing d d') (h : PlainNames d) : PlainNames d' := by
  intro f hf
  obtain ⟨⟨f', e⟩, hmem, rfl⟩ := List.mem_map.1 hf
  exact h _ (List.mem_map_of_mem (AMap.mem_of_get? (hm.same _ _ (AMap.get?_of_mem hm.nodup hmem))))

theorem FilesMissing.storedNames (hm : FilesMissing d d') (h : StoredNames d) : StoredNames d' :=
  fun _ _ hs => h _ _ (hm.stored hs)

theorem FilesMissing.acyclic (hm : FilesMissing d d') (h : Acyclic d) : Acyclic d' := by
  obtain ⟨rank, hr⟩ := h
  exact ⟨rank, fun n v p hs => hr n v p (hm.stored hs)⟩

theorem FilesMissing.path (hm : FilesMissing d d') {a b : String} {l : List String} (h : VersionPath d' a b l) :
    VersionPath d a b l := by
  induction h with
  | here hs => exact .here (hm.stored hs)
  | later _ hs hp ih => exact .later ih (hm.stored hs) hp

theorem path_lacks {a b : String} {l : List String} (h : VersionPath d a b l) : ∀ n ∈ a :: l, ¬ Lacks d n := by
  induction h with
  | here hs =>
    intro n hn hl
    simp only [List.mem_singleton] at hn
    subst hn
    unfold Stored at hs
    rw [hl] at hs; cases hs
  | later _ hs _ ih =>
    intro n hn hl
    rw [← List.cons_append, List.mem_append] at hn
    rcases hn with hn | hn
    · exact ih n hn hl
    · simp only [List.mem_singleton] at hn
      subst hn
      unfold Stored at hs
      rw [hl] at hs; cases hs

theorem path_all_stored {a b : String} {l : List String} (h : VersionPath d a b l) : ∀ n ∈ a :: l, ∃ v, Stored d n v := by
  induction h with
  | here hs =>
    intro n hn
    simp only [List.mem_singleton] at hn
    exact ⟨_, hn ▸ hs⟩
  | later _ hs _ ih =>
    intro n hn
    rw [← List.cons_append, List.mem_append] at hn
    rcases hn with hn | hn
    · exact ih n hn
    · simp only [List.mem_singleton] at hn
      exact ⟨_, hn ▸ hs⟩

/-- Every version on a path but the last is the predecessor of one. -/
theorem path_next {a b : String} {l : List String} (h : VersionPath d a b l) :
    ∀ n ∈ a :: l, n = b ∨ ∃ k v, Stored d k v ∧ v.previous = some n := by
  induction h with
  | here hs =>
    intro n hn
    simp only [List.mem_singleton] at hn
    exact .inl hn
  | later _ hs hp ih =>
    intro n hn
    rw [← List.cons_append, List.mem_append] at hn
    rcases hn with hn | hn
    · rcases ih n hn with rfl | h
      · exact .inr ⟨_, _, hs, hp⟩
      · exact .inr h
    · simp only [List.mem_singleton] at hn
      exact .inl hn

theorem FilesMissing.path_of (hm : FilesMissing d d') {a b : String} {l : List String} (h : VersionPath d a b l)
    (hl : ∀ n ∈ a :: l, ¬ Lacks d' n) : VersionPath d' a b l := by
  induction h with
  | here hs => exact .here (hm.kept hs (hl _ (by simp)))
  | later _ hs hp ih =>
    exact .later (ih fun n hn => hl n (by
      rw [← List.cons_append]; exact List.mem_append_left _ hn)) (hm.kept hs (hl _ (by simp))) hp

/-- The path between two versions is one. -/
theorem VersionPath.unique (hn : StoredNames d) (hac : Acyclic d) {a b : String} {l l' : List String}
    (h : VersionPath d a b l) (h' : VersionPath d a b l') : l = l' := by
  obtain ⟨k, hk⟩ := (upwardRange_ok_iff hn hac).2 h
  obtain ⟨k', hk'⟩ := (upwardRange_ok_iff hn hac).2 h'
  have h1 := upwardRange_mono (Nat.le_max_left k k') hk
  have h2 := upwardRange_mono (Nat.le_max_right k k') hk'
  rw [h1] at h2
  cases h2
  rfl

theorem Opens.unique {a b : String} (h : Opens d a) (h' : Opens d b) : a = b := by
  obtain ⟨k, nm, hk⟩ := h
  obtain ⟨k', nm', hk'⟩ := h'
  have h1 := fromDir_mono (Nat.le_max_left k k') hk
  have h2 := fromDir_mono (Nat.le_max_right k k') hk'
  rw [h1] at h2
  cases h2
  rfl

/-- Along linked versions that are there one gets to the last. -/
theorem leads_linked : ∀ {W : List Version} {a : String}, Linked (some a) W → (∀ w ∈ W, Stored d w.name w) →
    LeadsTo d a ((W.getLast?.map Version.name).getD a)
  | [], a, _, _ => .here a
  | w :: W, a, hl, hs => by
    refine .step (n := w.name) ⟨_, w, ⟨AMap.mem_of_get? (hs w (by simp)), w.name, rfl⟩, hl.1, rfl⟩ ?_
    have := leads_linked (W := W) hl.2 (fun x hx => hs x (by simp [hx]))
    rw [List.getLast?_cons]
    cases hg : W.getLast? <;> simpa [hg] using this

/-- Nothing follows the stage. -/
theorem IsHistory.stage_last (h : IsHistory d vs st) {v : Version} (hv : v ∈ Version.newInit :: (vs ++ [st])) :
    v.previous ≠ some "stage" := by
  intro hp
  obtain ⟨A, u, B, hl, hu⟩ := h.linked.split hv hp
  have hn := h.names'
  rw [hl] at hn
  have hlast : (A ++ u :: v :: B).getLast? = some st := by
    rw [← hl, ← List.cons_append, List.getLast?_concat]
  have : st ∈ v :: B := by
    rw [List.getLast?_append, List.getLast?_cons_cons] at hlast
    have h2 : (v :: B).getLast? = some st := by
      cases hg : (v :: B).getLast? with
      | none => simp at hg
      | some x => rw [hg] at hlast; simpa using hlast
    exact List.mem_of_getLast? h2
  rw [List.map_append, List.nodup_append] at hn
  have h3 := hn.2.1
  rw [List.map_cons, List.nodup_cons] at h3
  exact h3.1 (by rw [hu, ← h.stage]; exact List.mem_map_of_mem this)

/-- The directory with files missing opens, at the version before the last that is there without a gap. -/
theorem missing_opens (h : IsHistory d vs st) (hm : FilesMissing d d') {l : List String}
    (hl : VersionPath d "init" "stage" l) {A C : List String} (hA : l = A ++ C) (hin : ∀ n ∈ A, ¬ Lacks d' n)
    (hC : ∀ n ∈ C.head?, Lacks d' n) : Opens d' (A.dropLast.getLast?.getD "init") := by
  obtain ⟨ws, hws, hst, hlk, hlast⟩ := path_versions h.storedNames hl
  rw [hA] at hws
  obtain ⟨WA, WC, rfl, rfl, rfl⟩ := List.map_eq_append_iff.1 hws
  have hstA : ∀ w ∈ WA, Stored d' w.name w := fun w hw =>
    hm.kept (hst w (by simp [hw])) (hin _ (List.mem_map_of_mem hw))
  have hlkA := hlk
  rw [Linked.append] at hlkA
  refine (opens_iff hm.nodup (hm.plain h.plainNames) _).2 ⟨?_, ?_, _, leads_linked hlkA.1 hstA, ?_, ?_⟩
  · intro f c hf
    obtain ⟨v, _, e, _⟩ := h.yaml_version (hm.yaml hf)
    exact ⟨v, e⟩
  · rintro ⟨p, a, b, f, g, v, w, hfg, hf, hg, hv, hw, _, _⟩
    exact hfg (h.no_branch (hm.yaml hf) (hm.yaml hg) hv hw)
  · rintro ⟨n, f, v, hf, hv, _⟩
    cases WC with
    | nil =>
      rw [List.append_nil] at hlast
      rw [hlast] at hv
      obtain ⟨v', hv', e, _⟩ := h.yaml_version (hm.yaml hf)
      cases e
      exact h.stage_last hv' hv
    | cons w WC =>
      have hw := hlk.prev_last
      have hws := hst w (by simp)
      have hfw : f = w.name ++ ".yaml" := by
        refine h.no_branch (hm.yaml hf) ⟨AMap.mem_of_get? hws, w.name, rfl⟩ hv ?_
        rw [hw]
        cases WA.getLast? <;> rfl
      have hlack := hC w.name (by simp)
      unfold Lacks at hlack
      rw [← hfw, AMap.get?_of_mem hm.nodup hf.1] at hlack
      cases hlack
  · rcases List.eq_nil_or_concat WA with rfl | ⟨W, w, rfl⟩
    · exact .inl ⟨rfl, rfl⟩
    · rw [List.concat_eq_append] at *
      right
      have hW : LeadsTo d' "init" ((W.getLast?.map Version.name).getD "init") := by
        refine leads_linked ?_ fun x hx => hstA x (by simp [hx])
        have := hlkA.1
        rw [Linked.append] at this
        exact this.1
      rw [List.map_append, List.map_singleton, List.dropLast_concat, List.getLast?_map]
      refine ⟨hW, _, w, ⟨AMap.mem_of_get? (hstA w (by simp)), w.name, rfl⟩, ?_, by simp⟩
      rw [hlkA.1.prev_last]
      cases W.getLast? <;> rfl

/-- A list of versions, up to the first that is missing. -/
theorem first_missing (d : HDir) (l : List String) : ∃ A C, l = A ++ C ∧ (∀ n ∈ A, ¬ Lacks d n) ∧
    ∀ n ∈ C.head?, Lacks d n := by
  induction l with
  | nil => exact ⟨[], [], rfl, by simp, by simp⟩
  | cons n l ih =>
    by_cases hn : Lacks d n
    · exact ⟨[], n :: l, rfl, by simp, by simpa using hn⟩
    · obtain ⟨A, C, e, h1, h2⟩ := ih
      refine ⟨n :: A, C, by rw [e]; rfl, ?_, h2⟩
      intro k hk
      rcases List.mem_cons.1 hk with rfl | hk
      · exact hn
      · exact h1 k hk

/-- A history leads from init to the stage, over every version in it. -/
theorem IsHistory.whole_path (h : IsHistory d vs st) :
    VersionPath d "init" "stage" (vs.map Version.name ++ ["stage"]) := by
  have := h.path (A := []) (B := vs ++ [st]) (C := []) (u := Version.newInit) (by simp)
  simpa [h.stage, Version.newInit, Version.INIT] using this

theorem missing_opens' (h : IsHistory d vs st) (hm : FilesMissing d d') : ∃ cv, Opens d' cv := by
  obtain ⟨A, C, e, h1, h2⟩ := first_missing d' (vs.map Version.name ++ ["stage"])
  exact ⟨_, missing_opens h hm h.whole_path e h1 h2⟩

/-- Where a version is missing, the snapshot of the stage cannot be calculated. -/
theorem missing_snapshot (h : IsHistory d vs st) (hm : FilesMissing d d') {n : String} {v : Version}
    (hv : Stored d n v) (hl : Lacks d' n) : ∃ k e, ∀ f, k ≤ f → calculateSnapshot f d' "stage" = some (.error e) := by
  have hno : ¬ OnPath d' "init" "stage" := by
    rintro ⟨l, hp⟩
    have e := VersionPath.unique h.storedNames h.acyclic (hm.path hp) h.whole_path
    subst e
    refine path_lacks hp n ?_ hl
    obtain ⟨hin, rfl⟩ := h.stored_iff.1 hv
    rcases List.mem_cons.1 hin with rfl | hv
    · exact .head _
    rcases List.mem_append.1 hv with hv | hv
    · simp only [List.mem_cons, List.mem_append, List.mem_map]
      exact .inr (.inl ⟨v, hv, rfl⟩)
    · rw [List.mem_singleton] at hv
      rw [hv, h.stage]; simp
  obtain ⟨rank, hrank⟩ := hm.acyclic h.acyclic
  obtain ⟨r, hr⟩ := rangeLoop_ends hrank "init" "stage" (rank "stage" + 1) "stage" (by omega) []
  cases r with
  | ok l =>
    exact absurd ⟨l, (upwardRange_ok_iff (hm.storedNames h.storedNames) (hm.acyclic h.acyclic)).1 ⟨_, hr⟩⟩ hno
  | error e =>
    refine ⟨rank "stage" + 1, .fs e, fun f hf => calculate_mono hf ?_⟩
    unfold calculateSnapshot HDir.upwardRange
    rw [show Version.INIT = "init" from rfl, hr]

/-- The version `up` goes on from is the one recorded last. -/
theorem current_name {B : Behaviour σ} {db : DB σ} (hr : Reach B db) {n : String} (hn : db.version? = some n)
    {t : VTable} (ht : ensureInitialized B db = (.table t, true)) {cur : Version} (hcur : t.current = some cur) :
    cur.name = n := by
  obtain ⟨hch, happ, _⟩ := ensure_chain hr.good ht
  rcases List.eq_nil_or_concat t.rows with e | ⟨q, r, e⟩
  · obtain ⟨rest, e'⟩ := hch.starts
    rw [e] at e'; cases e'
  · rw [List.concat_eq_append] at e
    have hc := hch.current e
    rw [hcur] at hc
    cases hc
    unfold DB.version? at hn
    rw [← happ, e] at hn
    simpa using hn

/-- Opened: from some number of rounds on. -/
theorem Opens.from {cv : String} (h : Opens d cv) : ∃ k nm, ∀ f, k ≤ f → HDir.fromDir f d = some (.ok ⟨nm, cv⟩) := by
  obtain ⟨k, nm, hk⟩ := h
  exact ⟨k, nm, fun f hf => fromDir_mono hf hk⟩

/-- `up` without a target goes to the current version of the files. -/
theorem up_none_eq {B : Behaviour σ} {cv : String} (h : Opens d cv) (fuel : Nat) (db : DB σ) :
    up B fuel d none db = up B fuel d (some cv) db := by
  unfold up
  cases hf : HDir.fromDir fuel d with
  | none => rfl
  | some x =>
    cases x with
    | error e => rfl
    | ok o =>
      have : o.currentVersion = cv := Opens.unique ⟨fuel, o.nextMap, hf⟩ h
      simp only [Option.getD_none, Option.getD_some, this]

/-- With the files it needs, `up` does the same as with all of them. -/
theorem up_missing_same {B : Behaviour σ} {db : DB σ} (h : IsHistory d vs st) (hm : FilesMissing d d')
    (hr : Reach B db) {a t : String} (ha : db.version? = some a) {l : List String} (hp : VersionPath d a t l)
    (hin : ∀ n ∈ a :: l, ¬ Lacks d' n) :
    ∃ k, ∀ f, k ≤ f → up B f d' (some t) db = up B f d (some t) db := by
  obtain ⟨cv, ho⟩ := missing_opens' h hm
  obtain ⟨k₁, nm, h1⟩ := ho.from
  obtain ⟨k₂, nm', h2⟩ := (h.opens_iff.2 rfl : Opens d _).from
  have hp' := hm.path_of hp hin
  obtain ⟨k₃, h3⟩ := (upwardRange_ok_iff h.storedNames h.acyclic).2 hp
  obtain ⟨k₄, h4⟩ := (upwardRange_ok_iff (hm.storedNames h.storedNames) (hm.acyclic h.acyclic)).2 hp'
  have hget : ∀ n ∈ a :: l, d'.getVersion n = d.getVersion n := by
    intro n hn
    have hl := hin n hn
    unfold Lacks at hl
    unfold HDir.getVersion
    cases hg : d'.get? (n ++ ".yaml") with
    | none => exact absurd hg hl
    | some e => rw [hm.same _ _ hg]
  have ht : t ∈ a :: l := by
    cases hp with
    | here => exact .head _
    | later => simp
  refine ⟨k₁ + k₂ + k₃ + k₄, fun f hf => ?_⟩
  unfold up
  rw [h1 f (by omega), h2 f (by omega)]
  simp only [Option.getD_some]
  cases he : ensureInitialized B db with
  | mk m b =>
    cases b with
    | false => rfl
    | true =>
      cases m with
      | absent => rfl
      | noTable => rfl
      | table tb =>
        simp only
        cases hcur : tb.current with
        | none => rfl
        | some cur =>
          have hc := current_name hr ha he hcur
          simp only [hget t ht]
          obtain ⟨v, hv⟩ := path_stored hp
          rw [Podo.stored_iff.1 hv]
          simp only
          rw [h.storedNames _ _ hv, hc, upwardRange_mono (show k₃ ≤ f by omega) h3,
            upwardRange_mono (show k₄ ≤ f by omega) h4]
          cases l with
          | nil => rfl
          | cons n l =>
            simp only
            rw [upLoop_congr (d := d') (d' := d)]
            exact fun k hk => hget k (List.mem_cons_of_mem _ hk)

/-- Without one of them, it does nothing. -/
theorem up_missing_fails {B : Behaviour σ} {db : DB σ} (h : IsHistory d vs st) (hm : FilesMissing d d')
    (hr : Reach B db) {a t : String} (ha : db.version? = some a) {l : List String} (hp : VersionPath d a t l)
    {n : String} (hn : n ∈ a :: l) (hl : Lacks d' n) (r : DB σ × Outcome) :
    (∃ fuel, up B fuel d' (some t) db = some r) ↔ r = (db, .error) := by
  have key : ∀ fuel r, up B fuel d' (some t) db = some r → r = (db, .error) := by
    rintro fuel ⟨db', o⟩ hu
    rcases up_cases hu with ⟨rfl, rfl⟩ | ⟨opened, tb, _, ht, cur, to, l', hcur, hto, hl', _⟩
    · rfl
    · exfalso
      rw [current_name hr ha ht hcur] at hl'
      have hs := Podo.stored_iff.2 hto
      have hp' := (upwardRange_ok_iff (hm.storedNames h.storedNames) (hm.acyclic h.acyclic)).1 ⟨_, hl'⟩
      rw [h.storedNames _ _ (hm.stored hs), Option.getD_some] at hp'
      have e := VersionPath.unique h.storedNames h.acyclic (hm.path hp') hp
      subst e
      exact path_lacks hp' n hn hl
  refine ⟨fun ⟨fuel, hu⟩ => key fuel r hu, ?_⟩
  rintro rfl
  obtain ⟨cv, ho⟩ := missing_opens' h hm
  obtain ⟨k₁, nm, h1⟩ := ho.from
  obtain ⟨rank, hrank⟩ := hm.acyclic h.acyclic
  obtain ⟨r, hr'⟩ := rangeLoop_ends hrank a t (rank t + 1) t (by omega) []
  refine ⟨k₁ + (rank t + 1), ?_⟩
  cases hu : up B (k₁ + (rank t + 1)) d' (some t) db with
  | some r => rw [key _ _ hu]
  | none =>
    exfalso
    unfold up at hu
    rw [h1 _ (by omega)] at hu
    simp only [Option.getD_some] at hu
    cases he : ensureInitialized B db with
    | mk m b =>
      rw [he] at hu
      cases b with
      | false => cases hu
      | true =>
        cases m with
        | absent => cases hu
        | noTable => cases hu
        | table tb =>
          simp only at hu
          cases hcur : tb.current with
          | none => rw [hcur] at hu; cases hu
          | some cur =>
            rw [hcur] at hu
            simp only at hu
            cases hv : d'.getVersion t with
            | error e => rw [hv] at hu; cases hu
            | ok to =>
              rw [hv] at hu
              simp only at hu
              rw [current_name hr ha he hcur, hm.storedNames h.storedNames _ _ (Podo.stored_iff.2 hv),
                upwardRange_mono (show rank t + 1 ≤ k₁ + (rank t + 1) by omega) hr'] at hu
              cases r with
              | error e => cases hu
              | ok l' =>
                cases l' with
                | nil => cases hu
                | cons x l' =>
                  simp only at hu
                  split at hu
                  · split at hu <;> cases hu
                  · cases hu

end Podo
