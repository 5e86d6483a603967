import Verif.Spec.Edited
import Verif.Proofs.Fleet
/-
Lemmas for C88.
-/
namespace Podo
open Pg
variable {σ : Type}

theorem get?_edit (f : Version → Version) (d : HDir) (n : String) :
    (d.edit f).get? n = (d.get? n).map (Entry.edit f) := by
  unfold HDir.edit
  induction d with
  | nil => rfl
  | cons e d ih =>
    obtain ⟨k, x⟩ := e
    rw [List.map_cons, AMap.get?_cons, AMap.get?_cons]
    by_cases hk : k = n
    · simp [hk]
    · simp only [hk, if_false]
      exact ih

theorem getVersion_edit (f : Version → Version) (d : HDir) (n : String) :
    (d.edit f).getVersion n = match d.getVersion n with
      | .ok v => .ok (f v)
      | .error e => .error e := by
  unfold HDir.getVersion
  rw [get?_edit]
  cases d.get? (n ++ ".yaml") with
  | none => rfl
  | some e =>
    cases e with
    | dir => rfl
    | file c => cases c <;> rfl

theorem scan_edit {f : Version → Version} (hn : ∀ v, (f v).name = v.name) (hp : ∀ v, (f v).previous = v.previous)
    (d : HDir) (l : HDir) (nm : AMap String) : HDir.scan (d.edit f) (HDir.edit f l) nm = HDir.scan d l nm := by
  induction l generalizing nm with
  | nil => rfl
  | cons e l ih =>
    obtain ⟨k, x⟩ := e
    have hx : (x.edit f = .dir ∨ endsYaml k = false) ↔ (x = .dir ∨ endsYaml k = false) := by
      cases x with
      | dir => simp [Entry.edit]
      | file c => cases c <;> simp [Entry.edit]
    show HDir.scan (d.edit f) ((k, x.edit f) :: HDir.edit f l) nm = _
    unfold HDir.scan
    simp only [hx, getVersion_edit]
    by_cases hc : x = .dir ∨ endsYaml k = false
    · rw [if_pos hc, if_pos hc]
      exact ih nm
    · rw [if_neg hc, if_neg hc]
      cases d.getVersion (trimYaml k) with
      | error e => rfl
      | ok v =>
        simp only [hp, hn]
        cases v.previous with
        | none => exact ih nm
        | some p =>
          simp only
          cases AMap.get? nm p with
          | some y => rfl
          | none => exact ih _

theorem fromDir_edit {f : Version → Version} (hn : ∀ v, (f v).name = v.name) (hp : ∀ v, (f v).previous = v.previous)
    (fuel : Nat) (d : HDir) : HDir.fromDir fuel (d.edit f) = HDir.fromDir fuel d := by
  unfold HDir.fromDir
  rw [scan_edit hn hp]

theorem rangeLoop_edit {f : Version → Version} (hn : ∀ v, (f v).name = v.name)
    (hp : ∀ v, (f v).previous = v.previous) (d : HDir) (a b : String) (n : Nat) (c : String) (acc : List String) :
    HDir.rangeLoop (d.edit f) a b n c acc = HDir.rangeLoop d a b n c acc := by
  induction n generalizing c acc with
  | zero => rfl
  | succ n ih =>
    unfold HDir.rangeLoop
    rw [getVersion_edit]
    cases d.getVersion c with
    | error e => rfl
    | ok v =>
      simp only [hn, hp]
      split
      · rfl
      · cases v.previous with
        | none => rfl
        | some p => exact ih _ _

/-- The versions that `up` goes over have not been applied. -/
theorem range_not_applied {B : Behaviour σ} {d : HDir} {db : DB σ} (h : Deployed B d db) {t : VTable}
    (ht : ensureInitialized B db = (.table t, true)) {cur : Version} (hcur : t.current = some cur) {fuel : Nat}
    {b : String} {l : List String} (hl : HDir.upwardRange fuel d cur.name b = some (.ok l)) :
    ∀ n ∈ l, ∃ v, Stored d n v ∧ v.name = n ∧ ∀ w ∈ db.applied, w.name ≠ n := by
  obtain ⟨vs, st, s, hh, _⟩ := (Deployed.reachable h).sound
  obtain ⟨R₀, hR₀⟩ := Deployed.applied_prefix h _ _ hh
  obtain ⟨hch, happ, _⟩ := ensure_chain (Deployed.reach h).good ht
  obtain ⟨q, r, hrows⟩ : ∃ q r, t.rows = q ++ [r] := by
    rcases List.eq_nil_or_concat t.rows with e | ⟨q, r, e⟩
    · obtain ⟨rest, e'⟩ := hch.starts
      rw [e] at e'; cases e'
    · exact ⟨q, r, by rw [e, List.concat_eq_append]⟩
  have hc := hch.current hrows
  rw [hcur] at hc
  cases hc
  have hp := (upwardRange_ok_iff hh.storedNames hh.acyclic).1 ⟨fuel, hl⟩
  obtain ⟨ws, rfl, hst, hlk, _⟩ := path_versions hh.storedNames hp
  have hL : Version.newInit :: (vs ++ [st]) = (q.map Row.version) ++ r.version :: (R₀ ++ [st]) := by
    rw [show Version.newInit :: (vs ++ [st]) = (Version.newInit :: vs) ++ [st] from rfl, ← hR₀, ← happ, hrows]
    simp
  obtain ⟨R', hR⟩ := segment hh.linked hh.names' hL hlk fun w hw => (hh.stored_iff.1 (hst w hw)).1
  intro n hn
  obtain ⟨v, hv, rfl⟩ := List.mem_map.1 hn
  refine ⟨v, hst v hv, rfl, fun w hw he => ?_⟩
  have hnd := hh.names'
  rw [hL, show (q.map Row.version) ++ r.version :: (R₀ ++ [st]) =
    (q.map Row.version ++ [r.version]) ++ (R₀ ++ [st]) by simp, List.map_append, List.nodup_append] at hnd
  have hw' : w ∈ q.map Row.version ++ [r.version] := by
    rw [← happ, hrows] at hw
    simpa using hw
  exact hnd.2.2 w.name (List.mem_map_of_mem hw') v.name
    (List.mem_map_of_mem (by rw [← hR]; simp [hv])) he

/-- A range that is found starts at a file. -/
theorem rangeLoop_source {d : HDir} {a b : String} {n : Nat} {c : String} {acc l : List String}
    (h : HDir.rangeLoop d a b n c acc = some (.ok l)) : ∃ v, d.getVersion a = .ok v := by
  induction n generalizing c acc with
  | zero => cases h
  | succ n ih =>
    unfold HDir.rangeLoop at h
    cases hv : d.getVersion c with
    | error e => simp [hv] at h
    | ok v =>
      simp only [hv] at h
      by_cases hc : c = a
      · exact ⟨v, hc ▸ hv⟩
      · rw [if_neg hc] at h
        cases hp : v.previous with
        | none => simp [hp] at h
        | some p => simp only [hp] at h; exact ih h

end Podo
