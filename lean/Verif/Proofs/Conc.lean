import Verif.Spec.Conc
/-
Lemmas for C68: what holds of the version table however podo processes interleave.
-/
set_option linter.unusedSimpArgs false
namespace Podo
namespace Conc
open Pg (Row VTable)

/-- The name of the version of a row. -/
abbrev nm (r : Row) : String := r.version.name

/-- One transaction is consistent with the committed table. -/
structure Fits (s : State) (tx : Tx) : Prop where
  nodup : ((s.seen tx).rows.map nm).Nodup
  removed : ∀ n ∈ tx.removed, n ∈ s.rows.map nm
  kept : ∀ r ∈ s.rows, nm r ∉ tx.removed → ∀ q, r.version.previous = some q → q ∉ tx.removed
  prev : ∀ r ∈ tx.added, ∀ q, r.version.previous = some q → q ∈ (s.seen tx).rows.map nm

/-- Two transactions do not get in each other's way. -/
structure Apart (a b : Tx) : Prop where
  added : ∀ r ∈ a.added, nm r ∉ b.added.map nm
  removed : ∀ r ∈ a.added, nm r ∉ b.removed
  prev : ∀ r ∈ a.added, ∀ q, r.version.previous = some q → q ∉ b.removed
  once : ∀ n ∈ a.removed, n ∉ b.removed

structure Inv (s : State) : Prop where
  nodup : (s.rows.map nm).Nodup
  prev : ∀ r ∈ s.rows, ∀ q, r.version.previous = some q → q ∈ s.rows.map nm
  fits : ∀ i p, s.procs i = some p → Fits s p.tx
  apart : ∀ i j p q, i ≠ j → s.procs i = some p → s.procs j = some q → Apart p.tx q.tx
  absent : s.table = none → ∀ i p, s.procs i = some p → p.tx.created = false → p.pc = .start
  created : ∀ i p, s.procs i = some p → p.tx.created = true → s.table = none
  one : ∀ i j p q, s.procs i = some p → s.procs j = some q → p.tx.created = true →
    q.tx.created = true → i = j
  start : ∀ i p, s.procs i = some p → p.pc = .start → p.tx = ⟨false, [], [], []⟩

theorem put_same {s : State} {i : Nat} {p : Option Proc} : (s.put i p).procs i = p := by
  simp [State.put]

theorem put_other {s : State} {i j : Nat} {p : Option Proc} (h : j ≠ i) :
    (s.put i p).procs j = s.procs j := by
  simp [State.put, h]

theorem Fits.congr {s s' : State} (ht : s'.rows = s.rows) {tx tx' : Tx} (ha : tx'.added = tx.added)
    (hr : tx'.removed = tx.removed) (h : Fits s tx) : Fits s' tx' := by
  obtain ⟨h1, h2, h3, h4⟩ := h
  constructor
  · simpa [State.seen, ha, hr, ht] using h1
  · rw [hr, ht]; exact h2
  · rw [hr, ht]; exact h3
  · rw [ha]; simpa [State.seen, ha, hr, ht] using h4

theorem Apart.congr {a a' b b' : Tx} (ha : a'.added = a.added) (hr : a'.removed = a.removed)
    (hb : b'.added = b.added) (hs : b'.removed = b.removed) (h : Apart a b) : Apart a' b' := by
  obtain ⟨h1, h2, h3, h4⟩ := h
  constructor
  · rw [ha, hb]; exact h1
  · rw [ha, hs]; exact h2
  · rw [ha, hs]; exact h3
  · rw [hr, hs]; exact h4

/-- A step of process `i` that leaves the committed table alone. -/
theorem Inv.update {s s' : State} (h : Inv s) (i : Nat) (p' : Proc) (ht : s'.table = s.table)
    (hp : s'.procs = (s.put i (some p')).procs) (hf : Fits s p'.tx)
    (ha : ∀ j q, j ≠ i → s.procs j = some q → Apart p'.tx q.tx ∧ Apart q.tx p'.tx)
    (hc : p'.tx.created = false → s.table = none → p'.pc = .start)
    (hc' : p'.tx.created = true → s.table = none ∧
      ∀ j q, j ≠ i → s.procs j = some q → q.tx.created = false)
    (hs : p'.pc = .start → p'.tx = ⟨false, [], [], []⟩) : Inv s' := by
  have hr : s'.rows = s.rows := by unfold State.rows; rw [ht]
  have key : ∀ j q, s'.procs j = some q → (j = i ∧ q = p') ∨ (j ≠ i ∧ s.procs j = some q) := by
    intro j q hj
    rw [hp] at hj
    by_cases e : j = i
    · subst e
      rw [put_same] at hj
      cases hj
      exact .inl ⟨rfl, rfl⟩
    · rw [put_other e] at hj
      exact .inr ⟨e, hj⟩
  constructor
  · rw [hr]; exact h.nodup
  · rw [hr]; exact h.prev
  · intro j q hj
    rcases key j q hj with ⟨_, rfl⟩ | ⟨_, hj⟩
    · exact hf.congr hr rfl rfl
    · exact (h.fits j q hj).congr hr rfl rfl
  · intro j k q r hne hj hk
    rcases key j q hj with ⟨rfl, rfl⟩ | ⟨e, hj⟩ <;> rcases key k r hk with ⟨rfl, rfl⟩ | ⟨e', hk⟩
    · exact absurd rfl hne
    · exact (ha k r e' hk).1
    · exact (ha j q e hj).2
    · exact h.apart j k q r hne hj hk
  · intro hn j q hj hcr
    rw [ht] at hn
    rcases key j q hj with ⟨_, rfl⟩ | ⟨_, hj⟩
    · exact hc hcr hn
    · exact h.absent hn j q hj hcr
  · intro j q hj hcr
    rw [ht]
    rcases key j q hj with ⟨_, rfl⟩ | ⟨_, hj⟩
    · exact (hc' hcr).1
    · exact h.created j q hj hcr
  · intro j k q r hj hk hq hr'
    rcases key j q hj with ⟨rfl, rfl⟩ | ⟨e, hj⟩ <;> rcases key k r hk with ⟨rfl, rfl⟩ | ⟨e', hk⟩
    · rfl
    · rw [(hc' hq).2 k r e' hk] at hr'; cases hr'
    · rw [(hc' hr').2 j q e hj] at hq; cases hq
    · exact h.one j k q r hj hk hq hr'
  · intro j q hj hpc
    rcases key j q hj with ⟨_, rfl⟩ | ⟨_, hj⟩
    · exact hs hpc
    · exact h.start j q hj hpc

/-- A process moves on without touching the version table. -/
theorem Inv.move {s : State} (h : Inv s) {i : Nat} {p p' : Proc} (hp : s.procs i = some p)
    (hadd : p'.tx.added = p.tx.added) (hrem : p'.tx.removed = p.tx.removed)
    (hcr : p'.tx.created = p.tx.created) (hpc : p'.pc ≠ .start)
    (ho : s.table = none → p.pc = .start → p.tx.created = true) : Inv (s.put i (some p')) := by
  refine h.update i p' rfl rfl ((h.fits i p hp).congr rfl hadd hrem) ?_ ?_ ?_ ?_
  · intro j q hne hj
    exact ⟨(h.apart i j p q (Ne.symm hne) hp hj).congr hadd hrem rfl rfl,
      (h.apart j i q p hne hj hp).congr rfl rfl hadd hrem⟩
  · intro hc hn
    rw [hcr] at hc
    have := ho hn (h.absent hn i p hp hc)
    rw [hc] at this; cases this
  · intro hc
    rw [hcr] at hc
    refine ⟨h.created i p hp hc, ?_⟩
    intro j q hne hj
    cases hq : q.tx.created with
    | false => rfl
    | true => exact absurd (h.one j i q p hj hp hq hc) hne
  · intro e; exact absurd e hpc

theorem apart_empty (a : Tx) (ha : a.added = []) (hr : a.removed = []) (b : Tx) : Apart a b := by
  constructor
  · rw [ha]; intro r hr; cases hr
  · rw [ha]; intro r hr; cases hr
  · rw [ha]; intro r hr; cases hr
  · rw [hr]; intro n hn; cases hn

theorem apart_empty' (a b : Tx) (hb : b.added = []) (hr : b.removed = []) : Apart a b := by
  constructor
  · rw [hb]; simp
  · rw [hr]; simp
  · rw [hr]; simp
  · rw [hr]; simp

theorem Inv.new : Inv State.new := by
  constructor <;> simp [State.new, State.rows]

theorem any_name {rows : List Row} {n : String} :
    (rows.any fun r => r.version.name == n) = true ↔ n ∈ rows.map nm := by
  simp [List.any_eq_true, nm]

/-- The transaction sees the committed rows it has not deleted, and those it inserted. -/
theorem mem_seen {s : State} {tx : Tx} {r : Row} :
    r ∈ (s.seen tx).rows ↔ (r ∈ s.rows ∧ nm r ∉ tx.removed) ∨ r ∈ tx.added := by
  simp [State.seen, nm]

theorem mem_seen_name {s : State} {tx : Tx} {n : String} :
    n ∈ (s.seen tx).rows.map nm ↔ (n ∈ s.rows.map nm ∧ n ∉ tx.removed) ∨ n ∈ tx.added.map nm := by
  simp only [List.mem_map, mem_seen]
  constructor
  · rintro ⟨r, ⟨h1, h2⟩ | h, rfl⟩
    · exact .inl ⟨⟨r, h1, rfl⟩, h2⟩
    · exact .inr ⟨r, h, rfl⟩
  · rintro (⟨⟨r, h1, rfl⟩, h2⟩ | ⟨r, h, rfl⟩)
    · exact ⟨r, .inl ⟨h1, h2⟩, rfl⟩
    · exact ⟨r, .inr h, rfl⟩

/-- A commit. -/
theorem Inv.commit {s : State} (h : Inv s) {i : Nat} {p : Proc} (hp : s.procs i = some p)
    (hpc : p.pc ≠ .start) {log : List Ran} :
    Inv { s.put i none with table := some (s.seen p.tx).rows, log := log } := by
  have hf := h.fits i p hp
  have hrows : State.rows { s.put i none with table := some (s.seen p.tx).rows, log := log } =
    (s.seen p.tx).rows := rfl
  have key : ∀ j q, State.procs { s.put i none with table := some (s.seen p.tx).rows, log := log } j = some q →
      j ≠ i ∧ s.procs j = some q := by
    intro j q hj
    by_cases e : j = i
    · subst e
      exact absurd (show (none : Option Proc) = some q by rw [← hj]; exact put_same.symm) (by simp)
    · refine ⟨e, ?_⟩
      rw [← hj]; exact (put_other e).symm
  -- the others are not creating the schema
  have hnc : ∀ j q, j ≠ i → s.procs j = some q → q.tx.created = false := by
    intro j q hne hj
    cases hq : q.tx.created with
    | false => rfl
    | true =>
      have hn := h.created j q hj hq
      cases hc : p.tx.created with
      | false => exact absurd (h.absent hn i p hp hc) hpc
      | true => exact absurd (h.one j i q p hj hp hq hc) hne
  constructor
  · rw [hrows]; exact hf.nodup
  · rw [hrows]
    intro r hr q hq
    rcases mem_seen.1 hr with ⟨h1, h2⟩ | h1
    · exact mem_seen_name.2 (.inl ⟨h.prev r h1 q hq, hf.kept r h1 h2 q hq⟩)
    · exact hf.prev r h1 q hq
  · intro j q hj
    obtain ⟨hne, hj⟩ := key j q hj
    have hfq := h.fits j q hj
    have a1 := h.apart i j p q (Ne.symm hne) hp hj
    have a2 := h.apart j i q p hne hj hp
    constructor
    · have e : (State.seen { s.put i none with table := some (s.seen p.tx).rows, log := log } q.tx).rows =
          ((s.seen p.tx).rows.filter fun r => !q.tx.removed.contains r.version.name) ++ q.tx.added := rfl
      rw [e, List.map_append]
      have hq := hfq.nodup
      rw [State.seen, List.map_append] at hq
      obtain ⟨_, hq2, hq3⟩ := List.nodup_append.1 hq
      refine List.nodup_append.2 ⟨(List.filter_sublist.map nm).nodup hf.nodup, hq2, ?_⟩
      intro a ha b hb hab
      subst hab
      obtain ⟨r, hr, rfl⟩ := List.mem_map.1 ha
      simp only [List.mem_filter, Bool.not_eq_true', List.contains_eq_mem, decide_eq_false_iff_not] at hr
      rcases mem_seen.1 hr.1 with ⟨h1, _⟩ | h1
      · refine hq3 (nm r) (List.mem_map.2 ⟨r, ?_, rfl⟩) (nm r) hb rfl
        simp only [List.mem_filter, Bool.not_eq_true', List.contains_eq_mem, decide_eq_false_iff_not]
        exact ⟨h1, hr.2⟩
      · exact a1.added r h1 hb
    · intro n hn
      rw [hrows]
      exact mem_seen_name.2 (.inl ⟨hfq.removed n hn, a2.once n hn⟩)
    · rw [hrows]
      intro r hr hnr x hx
      rcases mem_seen.1 hr with ⟨h1, h2⟩ | h1
      · exact hfq.kept r h1 hnr x hx
      · exact a1.prev r h1 x hx
    · intro r hr x hx
      rw [mem_seen_name, hrows, mem_seen_name]
      have hxp := a2.prev r hr x hx
      rcases mem_seen_name.1 (hfq.prev r hr x hx) with ⟨h1, h2⟩ | h1
      · exact .inl ⟨.inl ⟨h1, hxp⟩, h2⟩
      · exact .inr h1
  · intro j k q r hne hj hk
    exact h.apart j k q r hne (key j q hj).2 (key k r hk).2
  · intro hn; cases hn
  · intro j q hj hc
    obtain ⟨hne, hj⟩ := key j q hj
    rw [hnc j q hne hj] at hc; cases hc
  · intro j k q r hj hk hc _
    obtain ⟨hne, hj⟩ := key j q hj
    rw [hnc j q hne hj] at hc; cases hc
  · intro j q hj hpc
    exact h.start j q (key j q hj).2 hpc

theorem Inv.leave {s : State} (h : Inv s) (i : Nat) : Inv (s.put i none) := by
  have key : ∀ j q, (s.put i none).procs j = some q → s.procs j = some q := by
    intro j q hj
    by_cases e : j = i
    · subst e; rw [put_same] at hj; cases hj
    · rwa [put_other e] at hj
  exact ⟨h.nodup, h.prev, fun j q hj => Fits.congr (s := s) (s' := s.put i none) rfl rfl rfl (h.fits j q (key j q hj)),
    fun j k q r hne hj hk => h.apart j k q r hne (key j q hj) (key k r hk),
    fun hn j q hj => h.absent hn j q (key j q hj), fun j q hj => h.created j q (key j q hj),
    fun j k q r hj hk => h.one j k q r (key j q hj) (key k r hk),
    fun j q hj => h.start j q (key j q hj)⟩

theorem admits_iff {t : VTable} {v : Version} (h : t.admits v = true) :
    v.name ∉ t.rows.map nm ∧ ∀ p, v.previous = some p → p = v.name ∨ p ∈ t.rows.map nm := by
  simp only [VTable.admits, Bool.and_eq_true, Bool.not_eq_true'] at h
  obtain ⟨⟨_, h1⟩, h2⟩ := h
  refine ⟨fun hm => ?_, ?_⟩
  · rw [any_name.2 hm] at h1; cases h1
  · intro p hp
    rw [hp] at h2
    simp only [Option.all_some, Bool.or_eq_true, beq_iff_eq] at h2
    exact h2.imp id any_name.1

theorem delete_iff {t t' : VTable} {v : Version} (h : t.delete v = some t') :
    ∀ r ∈ t.rows, nm r ≠ v.name → r.version.previous ≠ some v.name := by
  unfold VTable.delete at h
  split at h
  · cases h
  · next hn =>
    intro r hr hne hp
    apply hn
    simp only [List.any_eq_true, Bool.and_eq_true, bne_iff_ne, ne_eq, beq_iff_eq]
    exact ⟨r, hr, hne, hp⟩

/-- The transaction after deleting the row of a name. -/
def Tx.deleted (s : State) (tx : Tx) (n : String) : Tx :=
  { tx with added := tx.added.filter fun r => r.version.name != n,
            removed := if s.rows.any (fun r => r.version.name == n) then n :: tx.removed else tx.removed }

theorem mem_removed {s : State} {tx : Tx} {n m : String} :
    m ∈ (tx.deleted s n).removed ↔ (m = n ∧ n ∈ s.rows.map nm) ∨ m ∈ tx.removed := by
  simp only [Tx.deleted]
  split
  · next h =>
    rw [any_name] at h
    simp [h]
  · next h =>
    rw [any_name] at h
    simp [h]

theorem seen_deleted_sublist {s : State} {tx : Tx} {n : String} :
    (s.seen (tx.deleted s n)).rows.Sublist (s.seen tx).rows := by
  simp only [State.seen]
  refine List.Sublist.append ?_ List.filter_sublist
  have e : (s.rows.filter fun r => !(tx.deleted s n).removed.contains r.version.name) =
      (s.rows.filter fun r => !tx.removed.contains r.version.name).filter
        fun r => !(tx.deleted s n).removed.contains r.version.name := by
    rw [List.filter_filter]
    apply List.filter_congr
    intro r _
    by_cases hm : r.version.name ∈ tx.removed
    · have : r.version.name ∈ (tx.deleted s n).removed := mem_removed.2 (.inr hm)
      simp [hm, this]
    · simp [hm]
  rw [e]
  exact List.filter_sublist

theorem Fits.delete {s : State} {tx : Tx} (hf : Fits s tx) {v : Version}
    (hdel : ∀ r ∈ (s.seen tx).rows, nm r ≠ v.name → r.version.previous ≠ some v.name) :
    Fits s (tx.deleted s v.name) := by
  constructor
  · exact (seen_deleted_sublist.map nm).nodup hf.nodup
  · intro n hn
    rcases mem_removed.1 hn with ⟨rfl, h⟩ | h
    · exact h
    · exact hf.removed n h
  · intro r hr hnr q hq hqr
    have hn : nm r ∉ tx.removed := fun hm => hnr (mem_removed.2 (.inr hm))
    rcases mem_removed.1 hqr with ⟨rfl, hm⟩ | hm
    · exact hdel r (mem_seen.2 (.inl ⟨hr, hn⟩)) (fun e => hnr (mem_removed.2 (.inl ⟨e, hm⟩))) hq
    · exact hf.kept r hr hn q hq hm
  · intro r hr q hq
    simp only [Tx.deleted, List.mem_filter, bne_iff_ne, ne_eq] at hr
    have hqv : q ≠ v.name := by
      rintro rfl
      exact hdel r (mem_seen.2 (.inr hr.1)) hr.2 hq
    rcases mem_seen_name.1 (hf.prev r hr.1 q hq) with ⟨h1, h2⟩ | h1
    · refine mem_seen_name.2 (.inl ⟨h1, fun hm => ?_⟩)
      rcases mem_removed.1 hm with ⟨e, _⟩ | hm
      · exact hqv e
      · exact h2 hm
    · obtain ⟨x, hx, rfl⟩ := List.mem_map.1 h1
      refine mem_seen_name.2 (.inr (List.mem_map.2 ⟨x, ?_, rfl⟩))
      simp only [Tx.deleted, List.mem_filter, bne_iff_ne, ne_eq]
      exact ⟨hx, hqv⟩

theorem apart_delete {s : State} {tx o : Tx} {n : String} (a1 : Apart tx o) (a2 : Apart o tx)
    (hfo : Fits s o) (f1 : n ∉ o.removed) (f2 : ∀ r ∈ o.added, r.version.previous ≠ some n) :
    Apart (tx.deleted s n) o ∧ Apart o (tx.deleted s n) := by
  have hsub : ∀ r ∈ (tx.deleted s n).added, r ∈ tx.added := fun r hr => (List.mem_filter.1 hr).1
  constructor
  · constructor
    · exact fun r hr => a1.added r (hsub r hr)
    · exact fun r hr => a1.removed r (hsub r hr)
    · exact fun r hr => a1.prev r (hsub r hr)
    · intro m hm
      rcases mem_removed.1 hm with ⟨rfl, _⟩ | hm
      · exact f1
      · exact a1.once m hm
  · constructor
    · intro r hr hm
      obtain ⟨x, hx, e⟩ := List.mem_map.1 hm
      exact a2.added r hr (List.mem_map.2 ⟨x, hsub x hx, e⟩)
    · intro r hr hm
      rcases mem_removed.1 hm with ⟨e, hmem⟩ | hm
      · have hq := hfo.nodup
        rw [State.seen, List.map_append] at hq
        obtain ⟨_, _, hq3⟩ := List.nodup_append.1 hq
        obtain ⟨x, hx, ex⟩ := List.mem_map.1 hmem
        refine hq3 n (List.mem_map.2 ⟨x, ?_, ex⟩) (nm r) (List.mem_map.2 ⟨r, hr, rfl⟩) e.symm
        simp only [List.mem_filter, Bool.not_eq_true', List.contains_eq_mem, decide_eq_false_iff_not]
        refine ⟨hx, ?_⟩
        rw [show x.version.name = n from ex]
        exact f1
      · exact a2.removed r hr hm
    · intro r hr q hq hm
      rcases mem_removed.1 hm with ⟨rfl, _⟩ | hm
      · exact f2 r hr hq
      · exact a2.prev r hr q hq hm
    · intro m hm hm'
      rcases mem_removed.1 hm' with ⟨rfl, _⟩ | hm'
      · exact f1 hm
      · exact a2.once m hm hm'

/-- The steps keep the invariant. -/
theorem Inv.step {s s' : State} (h : Inv s) (hs : Step s s') : Inv s' := by
  have notStart : ∀ {i p}, s.procs i = some p → p.pc ≠ .start → s.table = none → p.tx.created = true := by
    intro i p hp hpc hn
    cases hc : p.tx.created with
    | true => rfl
    | false => exact absurd (h.absent hn i p hp hc) hpc
  cases hs with
  | begin i c hi =>
    refine h.update i _ rfl rfl ?_ ?_ (fun _ _ => rfl) (fun e => by cases e) (fun _ => rfl)
    · constructor
      · have e : (s.seen ⟨false, [], [], []⟩).rows = s.rows := by
          simp only [State.seen, List.append_nil]
          exact List.filter_eq_self.2 (fun _ _ => rfl)
        show ((s.seen ⟨false, [], [], []⟩).rows.map nm).Nodup
        rw [e]; exact h.nodup
      · intro n hn; cases hn
      · intro r _ _ q _ hq; cases hq
      · intro r hr; cases hr
    · intro j q _ _
      exact ⟨apart_empty _ rfl rfl _, apart_empty' _ _ rfl rfl⟩
  | leave i => exact h.leave i
  | refused i hp =>
    have h := h.leave i
    exact ⟨h.nodup, h.prev, fun j p hj => Fits.congr (s := s.put i none)
        (s' := { s.put i none with next := s.next + 1 }) rfl rfl rfl (h.fits j p hj), h.apart, h.absent, h.created,
      h.one, h.start⟩
  | create i hp hn hfree =>
    have hother : ∀ j q, j ≠ i → s.procs j = some q → q.tx = ⟨false, [], [], []⟩ := by
      intro j q hne hj
      exact h.start j q hj (h.absent hn j q hj (hfree j q hne hj))
    refine h.update i _ rfl rfl ?_ ?_ (fun e => by cases e)
      (fun _ => ⟨hn, fun j q hne hj => hfree j q hne hj⟩) (fun e => by cases e)
    · have e : s.rows = [] := by unfold State.rows; rw [hn]; rfl
      constructor
      · simp [State.seen, e]
      · intro n hn; cases hn
      · rw [e]; intro r hr; cases hr
      · intro r hr q hq
        simp only [List.mem_singleton] at hr
        subst hr
        cases hq
    · intro j q hne hj
      rw [hother j q hne hj]
      exact ⟨apart_empty' _ _ rfl rfl, apart_empty _ rfl rfl _⟩
  | exists_ i hp ht =>
    exact h.move hp rfl rfl rfl (by simp) (fun hn => by rw [ht] at hn; cases hn)
  | plan i hp => exact h.move hp rfl rfl rfl (by simp) (fun _ e => by cases e)
  | runUp i hp => exact h.move hp rfl rfl rfl (by simp) (fun _ e => by cases e)
  | readCurrent i hp => exact h.move hp rfl rfl rfl (by simp) (fun _ e => by cases e)
  | orderFrom i hp => exact h.move hp rfl rfl rfl (by simp) (fun _ e => by cases e)
  | orderTo i hp => exact h.move hp rfl rfl rfl (by simp) (fun _ e => by cases e)
  | range i hp => exact h.move hp rfl rfl rfl (by simp) (fun _ e => by cases e)
  | runDown i hp => exact h.move hp rfl rfl rfl (by simp) (fun _ e => by cases e)
  | commitUp i hp => exact h.commit hp (by simp)
  | commitDown i hp => exact h.commit hp (by simp)
  | @saveUp i c tx v ns hp hfree hadm _ =>
    obtain ⟨hv, hpv⟩ := admits_iff hadm
    have hf := h.fits i _ hp
    refine h.update i _ rfl rfl ?_ ?_ ?_ ?_ (fun e => by cases e)
    · have e : (s.seen { tx with added := tx.added ++ [⟨v, s.next⟩] }).rows =
          (s.seen tx).rows ++ [⟨v, s.next⟩] := by simp [State.seen]
      constructor
      · show ((s.seen { tx with added := tx.added ++ [⟨v, s.next⟩] }).rows.map nm).Nodup
        rw [e, List.map_append]
        refine List.nodup_append.2 ⟨hf.nodup, by simp, ?_⟩
        intro a ha b hb hab
        simp only [List.map_cons, List.map_nil, List.mem_singleton] at hb
        subst hab hb
        exact hv ha
      · exact hf.removed
      · exact hf.kept
      · intro r hr q hq
        show q ∈ (s.seen { tx with added := tx.added ++ [⟨v, s.next⟩] }).rows.map nm
        rw [e, List.map_append, List.mem_append]
        rcases List.mem_append.1 hr with hr | hr
        · exact .inl (hf.prev r hr q hq)
        · simp only [List.mem_singleton] at hr
          subst hr
          rcases hpv q hq with rfl | hm
          · exact .inr (by simp)
          · exact .inl hm
    · intro j q hne hj
      have a1 := h.apart i j _ q (Ne.symm hne) hp hj
      have a2 := h.apart j i q _ hne hj hp
      obtain ⟨f1, f2, f3⟩ := hfree j q hne hj
      constructor
      · constructor
        · intro r hr
          rcases List.mem_append.1 hr with hr | hr
          · exact a1.added r hr
          · simp only [List.mem_singleton] at hr; subst hr; exact f1
        · intro r hr
          rcases List.mem_append.1 hr with hr | hr
          · exact a1.removed r hr
          · simp only [List.mem_singleton] at hr; subst hr; exact f2
        · intro r hr
          rcases List.mem_append.1 hr with hr | hr
          · exact a1.prev r hr
          · simp only [List.mem_singleton] at hr; subst hr; exact f3
        · exact a1.once
      · constructor
        · intro r hr hm
          simp only [List.map_append, List.mem_append, List.map_cons, List.map_nil, List.mem_singleton] at hm
          rcases hm with hm | hm
          · exact a2.added r hr hm
          · exact f1 (List.mem_map.2 ⟨r, hr, hm⟩)
        · exact a2.removed
        · exact a2.prev
        · exact a2.once
    · intro hc hn
      have := notStart hp (by simp) hn
      rw [show tx.created = false from hc] at this; cases this
    · intro hc
      refine ⟨h.created i _ hp hc, fun j q hne hj => ?_⟩
      cases hq : q.tx.created with
      | false => rfl
      | true => exact absurd (h.one j i q _ hj hp hq hc) hne
  | @deleteDown i c tx v ns hp hfree hdel =>
    obtain ⟨t, hdel⟩ := hdel
    have hdel := delete_iff hdel
    have hf := h.fits i _ hp
    refine h.update i _ rfl rfl ?_ ?_ ?_ ?_ (fun e => by cases e)
    · exact hf.delete hdel
    · intro j q hne hj
      obtain ⟨f1, f2, _⟩ := hfree j q hne hj
      exact apart_delete (h.apart i j _ q (Ne.symm hne) hp hj) (h.apart j i q _ hne hj hp)
        (h.fits j q hj) f1 f2
    · intro hc hn
      have := notStart hp (by simp) hn
      rw [show tx.created = false from hc] at this; cases this
    · intro hc
      refine ⟨h.created i _ hp hc, fun j q hne hj => ?_⟩
      cases hq : q.tx.created with
      | false => rfl
      | true => exact absurd (h.one j i q _ hj hp hq hc) hne

/-! ### The scripts that were run -/

/-- The run that is not in the version table yet. -/
def Pc.pending : Pc → List Ran
  | .applied v _ => [.up v]
  | _ => []

/-- What an `up` did: it inserted the versions whose scripts it ran, but for the last of them. -/
structure UpTx (p : Proc) : Prop where
  pc : p.pc = .start ∨ p.pc = .opened ∨ (∃ ns, p.pc = .applying ns) ∨ ∃ v ns, p.pc = .applied v ns
  removed : p.tx.removed = []
  ran : ∃ ups : List Version,
    p.tx.added.map Row.version = (if p.tx.created then [Version.newInit] else []) ++ ups ∧
    p.tx.ran = ups.map .up ++ p.pc.pending

/-- What a `down` did: it ran the scripts of the versions whose rows it deleted. -/
structure DownTx (p : Proc) : Prop where
  pc : (∀ ns, p.pc ≠ .applying ns) ∧ ∀ v ns, p.pc ≠ .applied v ns
  added : ∀ r ∈ p.tx.added, r.version = Version.newInit
  removed : ∀ n ∈ p.tx.removed, ∃ v, Ran.down v ∈ p.tx.ran ∧ v.name = n
  ran : ∀ x ∈ p.tx.ran, ∃ v, x = .down v
  last : ∀ v ns, p.pc = .reverted v ns → Ran.down v ∈ p.tx.ran

/-- Every time the version `n` was applied, it was reverted later. -/
def Closed (n : String) (log : List Ran) : Prop :=
  ∀ l₁ l₂ v, log = l₁ ++ .up v :: l₂ → v.name = n → ∃ w, Ran.down w ∈ l₂ ∧ w.name = n

structure LogInv (s : State) : Prop where
  up : ∀ i p d t, s.procs i = some p → p.cmd = .up d t → UpTx p
  down : ∀ i p t, s.procs i = some p → p.cmd = .down t → DownTx p
  closed : ∀ n, n ∉ s.rows.map nm → Closed n s.log
  once : ∀ l₁ l₂ l₃ v w, s.log = l₁ ++ .up v :: l₂ ++ .up w :: l₃ → v.name = w.name →
    ∃ u, Ran.down u ∈ l₂ ∧ u.name = v.name
  applied : ∀ r ∈ s.rows, r.version = Version.newInit ∨ Ran.up r.version ∈ s.log

theorem LogInv.new : LogInv State.new := by
  constructor
  · intro i p d t h; cases h
  · intro i p t h; cases h
  · intro n _ l₁ l₂ v h; simp [State.new] at h
  · intro l₁ l₂ l₃ v w h; simp [State.new] at h
  · intro r h; simp [State.new, State.rows] at h

/-- A step of process `i` that commits nothing. -/
theorem LogInv.update {s s' : State} (h : LogInv s) (i : Nat) (p' : Option Proc) (ht : s'.table = s.table)
    (hl : s'.log = s.log) (hp : s'.procs = (s.put i p').procs)
    (hu : ∀ p d t, p' = some p → p.cmd = .up d t → UpTx p)
    (hd : ∀ p t, p' = some p → p.cmd = .down t → DownTx p) : LogInv s' := by
  have hr : s'.rows = s.rows := by unfold State.rows; rw [ht]
  constructor
  · intro j q d t hj
    rw [hp] at hj
    by_cases e : j = i
    · subst e
      rw [put_same] at hj
      exact hu q d t hj
    · rw [put_other e] at hj
      exact h.up j q d t hj
  · intro j q t hj
    rw [hp] at hj
    by_cases e : j = i
    · subst e
      rw [put_same] at hj
      exact hd q t hj
    · rw [put_other e] at hj
      exact h.down j q t hj
  · rw [hr, hl]; exact h.closed
  · rw [hl]; exact h.once
  · rw [hr, hl]; exact h.applied

theorem closed_append {n : String} {log rs : List Ran} (h : Closed n log)
    (hr : ∀ v, Ran.up v ∈ rs → v.name ≠ n) : Closed n (log ++ rs) := by
  intro l₁ l₂ v he hv
  rcases List.append_eq_append_iff.1 he with ⟨a, h1, h2⟩ | ⟨a, h1, h2⟩
  · exact absurd hv (hr v (by rw [h2]; simp))
  · cases a with
    | nil =>
      simp only [List.nil_append] at h2
      exact absurd hv (hr v (by rw [← h2]; simp))
    | cons x a =>
      simp only [List.cons_append, List.cons.injEq] at h2
      obtain ⟨rfl, h2⟩ := h2
      obtain ⟨w, hw, hn⟩ := h l₁ a v h1 hv
      exact ⟨w, by rw [h2]; exact List.mem_append_left _ hw, hn⟩

theorem closed_down {n : String} {log rs : List Ran} {w : Version} (hw : Ran.down w ∈ rs) (hn : w.name = n)
    (hr : ∀ x ∈ rs, ∃ v, x = Ran.down v) : Closed n (log ++ rs) := by
  intro l₁ l₂ v he hv
  rcases List.append_eq_append_iff.1 he with ⟨a, h1, h2⟩ | ⟨a, h1, h2⟩
  · obtain ⟨u, hu⟩ := hr (.up v) (by rw [h2]; simp)
    cases hu
  · cases a with
    | nil =>
      simp only [List.nil_append] at h2
      obtain ⟨u, hu⟩ := hr (.up v) (by rw [← h2]; simp)
      cases hu
    | cons x a =>
      simp only [List.cons_append, List.cons.injEq] at h2
      obtain ⟨rfl, h2⟩ := h2
      exact ⟨w, by rw [h2]; exact List.mem_append_right _ hw, hn⟩

/-- Between two times a version was applied it was reverted. -/
def Once (log : List Ran) : Prop :=
  ∀ l₁ l₂ l₃ v w, log = l₁ ++ .up v :: l₂ ++ .up w :: l₃ → v.name = w.name →
    ∃ u, Ran.down u ∈ l₂ ∧ u.name = v.name

theorem once_snoc {log : List Ran} {x : Ran} (h : Once log) (hx : ∀ w, x = .up w → Closed w.name log) :
    Once (log ++ [x]) := by
  intro l₁ l₂ l₃ v w he hn
  rcases List.eq_nil_or_concat l₃ with rfl | ⟨l₃', y, rfl⟩
  · have h1 := List.append_inj' he (by simp)
    obtain ⟨u, hu, hun⟩ := hx w (by simpa using h1.2) l₁ l₂ v h1.1 hn
    exact ⟨u, hu, by rw [hun, hn]⟩
  · have he' : log ++ [x] = (l₁ ++ .up v :: l₂ ++ .up w :: l₃') ++ [y] := by
      rw [he]; simp [List.concat_eq_append]
    exact h l₁ l₂ l₃' v w (List.append_inj' he' (by simp)).1 hn

theorem once_downs {rs : List Ran} (hr : ∀ x ∈ rs, ∃ v, x = Ran.down v) : ∀ {log : List Ran}, Once log →
    Once (log ++ rs) := by
  induction rs with
  | nil => intro log h; simpa using h
  | cons x rs ih =>
    intro log h
    rw [show log ++ x :: rs = (log ++ [x]) ++ rs by simp]
    refine ih (fun y hy => hr y (by simp [hy])) (once_snoc h ?_)
    rintro w rfl
    obtain ⟨v, hv⟩ := hr (.up w) (by simp)
    cases hv

theorem once_ups {ups : List Version} : ∀ {log : List Ran}, Once log → (ups.map Version.name).Nodup →
    (∀ v ∈ ups, Closed v.name log) → Once (log ++ ups.map .up) := by
  induction ups with
  | nil => intro log h _ _; simpa using h
  | cons x ups ih =>
    intro log h hn hc
    simp only [List.map_cons, List.nodup_cons] at hn
    rw [show log ++ (x :: ups).map Ran.up = (log ++ [.up x]) ++ ups.map .up by simp]
    refine ih (once_snoc h ?_) hn.2 ?_
    · rintro w e
      cases e
      exact hc x (by simp)
    · intro v hv
      refine closed_append (hc v (by simp [hv])) ?_
      intro u hu
      simp only [List.mem_singleton, Ran.up.injEq] at hu
      subst hu
      intro e
      exact hn.1 (e ▸ List.mem_map.2 ⟨v, hv, rfl⟩)

theorem added_ups {p : Proc} {ups : List Version}
    (h : p.tx.added.map Row.version = (if p.tx.created then [Version.newInit] else []) ++ ups) :
    ∀ v ∈ ups, v.name ∈ p.tx.added.map nm := by
  intro v hv
  have : v ∈ p.tx.added.map Row.version := by rw [h]; exact List.mem_append_right _ hv
  obtain ⟨r, hr, rfl⟩ := List.mem_map.1 this
  exact List.mem_map.2 ⟨r, hr, rfl⟩

theorem LogInv.step {s s' : State} (hi : Inv s) (h : LogInv s) (hs : Step s s') : LogInv s' := by
  -- a process that only moves on
  have move : ∀ {i : Nat} {c : Cmd} {pc pc' : Pc} {tx : Tx}, s.procs i = some ⟨c, pc, tx⟩ →
      pc.pending = [] → pc'.pending = [] →
      (∀ d t, c = .up d t → pc' = .opened ∨ ∃ ns, pc' = .applying ns) →
      (∀ t, c = .down t → (∀ ns, pc' ≠ .applying ns) ∧ ∀ v ns, pc' ≠ .applied v ns) →
      (∀ v ns, pc' ≠ .reverted v ns) →
      LogInv (s.put i (some ⟨c, pc', tx⟩)) := by
    intro i c pc pc' tx hp h1 h2 hu hd hrev
    refine h.update i _ rfl rfl rfl ?_ ?_
    · rintro p d t e hc
      cases e
      have := h.up i _ d t hp hc
      refine ⟨?_, this.removed, ?_⟩
      · rcases hu d t hc with h | ⟨ns, h⟩
        · exact .inr (.inl h)
        · exact .inr (.inr (.inl ⟨ns, h⟩))
      · obtain ⟨ups, ha, hr⟩ := this.ran
        exact ⟨ups, ha, by simpa [h1, h2] using hr⟩
    · rintro p t e hc
      cases e
      have := h.down i _ t hp hc
      exact ⟨hd t hc, this.added, this.removed, this.ran, fun v ns e => absurd e (hrev v ns)⟩
  cases hs with
  | begin i c hn =>
    refine h.update i _ rfl rfl rfl ?_ ?_
    · rintro p d t e _
      cases e
      exact ⟨.inl rfl, rfl, [], rfl, rfl⟩
    · rintro p t e _
      cases e
      exact ⟨⟨by simp, by simp⟩, by simp, by simp, by simp, by simp⟩
  | leave i => exact h.update i none rfl rfl rfl (fun _ _ _ e => by cases e) (fun _ _ e => by cases e)
  | refused i hp => exact h.update i none rfl rfl rfl (fun _ _ _ e => by cases e) (fun _ _ e => by cases e)
  | create i hp hn hfree =>
    refine h.update i _ rfl rfl rfl ?_ ?_
    · rintro p d t e _
      cases e
      exact ⟨.inr (.inl rfl), rfl, [], rfl, rfl⟩
    · rintro p t e _
      cases e
      exact ⟨⟨by simp, by simp⟩, by simp, by simp, by simp, by simp⟩
  | exists_ i hp ht =>
    exact move hp rfl rfl (fun _ _ _ => .inl rfl) (fun _ _ => ⟨by simp, by simp⟩) (by simp)
  | plan i hp =>
    exact move hp rfl rfl (fun _ _ _ => .inr ⟨_, rfl⟩) (fun _ e => by cases e) (by simp)
  | readCurrent i hp => exact move hp rfl rfl (fun _ _ e => by cases e) (fun _ _ => ⟨by simp, by simp⟩) (by simp)
  | orderFrom i hp => exact move hp rfl rfl (fun _ _ e => by cases e) (fun _ _ => ⟨by simp, by simp⟩) (by simp)
  | orderTo i hp =>
    refine move hp rfl rfl (fun d t e => ?_) (fun _ _ => ⟨by simp, by simp⟩) (by simp)
    rcases (h.up i _ d t hp e).pc with h | h | ⟨_, h⟩ | ⟨_, _, h⟩ <;> cases h
  | range i hp =>
    refine move hp rfl rfl (fun d t e => ?_) (fun _ _ => ⟨by simp, by simp⟩) (by simp)
    rcases (h.up i _ d t hp e).pc with h | h | ⟨_, h⟩ | ⟨_, _, h⟩ <;> cases h
  | @runUp i d target tx n ns v hp hv =>
    refine h.update i _ rfl rfl rfl ?_ ?_
    · rintro p d t e hc
      cases e
      have := h.up i _ _ _ hp rfl
      obtain ⟨ups, ha, hr⟩ := this.ran
      refine ⟨.inr (.inr (.inr ⟨v, ns, rfl⟩)), this.removed, ups, ha, ?_⟩
      simp only [Pc.pending, List.append_nil] at hr ⊢
      rw [hr]
    · rintro p t e hc
      cases e
      cases hc
  | @runDown i c tx n ns v hp hv =>
    refine h.update i _ rfl rfl rfl ?_ ?_
    · rintro p d t e hc
      cases e
      rcases (h.up i _ d t hp hc).pc with h | h | ⟨_, h⟩ | ⟨_, _, h⟩ <;> cases h
    · rintro p t e hc
      cases e
      have := h.down i _ t hp hc
      refine ⟨⟨by simp, by simp⟩, this.added, ?_, ?_, ?_⟩
      · intro m hm
        obtain ⟨w, hw, hn⟩ := this.removed m hm
        exact ⟨w, List.mem_append_left _ hw, hn⟩
      · intro x hx
        rcases List.mem_append.1 hx with hx | hx
        · exact this.ran x hx
        · simp only [List.mem_singleton] at hx
          exact ⟨v, hx⟩
      · intro u us e
        cases e
        exact List.mem_append_right _ (by simp)
  | @saveUp i c tx v ns hp hfree hadm _ =>
    refine h.update i _ rfl rfl rfl ?_ ?_
    · rintro p d t e hc
      cases e
      have := h.up i _ _ _ hp hc
      obtain ⟨ups, ha, hr⟩ := this.ran
      refine ⟨.inr (.inr (.inl ⟨ns, rfl⟩)), this.removed, ups ++ [v], ?_, ?_⟩
      · simp only [List.map_append, List.map_cons, List.map_nil] at ha ⊢
        rw [ha, List.append_assoc]
      · simp only [Pc.pending, List.append_nil, List.map_append, List.map_cons, List.map_nil] at hr ⊢
        exact hr
    · rintro p t e hc
      cases e
      exact absurd rfl ((h.down i _ t hp hc).pc.2 v ns)
  | @deleteDown i c tx v ns hp hfree hdel =>
    refine h.update i _ rfl rfl rfl ?_ ?_
    · rintro p d t e hc
      cases e
      rcases (h.up i _ d t hp hc).pc with h | h | ⟨_, h⟩ | ⟨_, _, h⟩ <;> cases h
    · rintro p t e hc
      cases e
      have := h.down i _ t hp hc
      refine ⟨⟨by simp, by simp⟩, ?_, ?_, this.ran, by simp⟩
      · intro r hr
        exact this.added r (List.mem_filter.1 hr).1
      · intro m hm
        rcases mem_removed.1 (show m ∈ (tx.deleted s v.name).removed from hm) with ⟨rfl, _⟩ | hm
        · exact ⟨v, this.last v ns rfl, rfl⟩
        · exact this.removed m hm
  | @commitUp i c tx hp =>
    have hup : UpTx ⟨c, .applying [], tx⟩ := by
      cases c with
      | up d t => exact h.up i _ d t hp rfl
      | down t => exact absurd rfl ((h.down i _ t hp rfl).pc.1 [])
    obtain ⟨ups, ha, hr⟩ := hup.ran
    simp only [Pc.pending, List.append_nil] at hr
    have hrm : tx.removed = [] := hup.removed
    have hnd : ((s.seen tx).rows.map nm).Nodup := (hi.fits i _ hp).nodup
    have hrows : (s.seen tx).rows = s.rows ++ tx.added := by
      simp only [State.seen, hrm]
      congr 1
      exact List.filter_eq_self.2 (fun _ _ => rfl)
    rw [hrows, List.map_append] at hnd
    obtain ⟨_, hn2, hn3⟩ := List.nodup_append.1 hnd
    have hmem := added_ups (p := ⟨c, .applying [], tx⟩) ha
    refine ⟨?_, ?_, ?_, ?_, ?_⟩
    · intro j q d t hj
      by_cases e : j = i
      · subst e; exact absurd (show (none : Option Proc) = some q by rw [← hj]; exact put_same.symm) (by simp)
      · exact h.up j q d t (by rw [← hj]; exact (put_other e).symm)
    · intro j q t hj
      by_cases e : j = i
      · subst e; exact absurd (show (none : Option Proc) = some q by rw [← hj]; exact put_same.symm) (by simp)
      · exact h.down j q t (by rw [← hj]; exact (put_other e).symm)
    · intro n hn
      have hn : n ∉ (s.seen tx).rows.map nm := hn
      rw [hrows, List.map_append, List.mem_append] at hn
      show Closed n (s.log ++ tx.ran)
      rw [hr]
      refine closed_append (h.closed n (fun hm => hn (.inl hm))) ?_
      intro v hv e
      obtain ⟨u, hu, e'⟩ := List.mem_map.1 hv
      cases e'
      exact hn (.inr (e ▸ hmem v hu))
    · show Once (s.log ++ tx.ran)
      rw [hr]
      refine once_ups h.once ?_ ?_
      · have e : tx.added.map nm = (tx.added.map Row.version).map Version.name := by
          rw [List.map_map]; rfl
        rw [e, ha, List.map_append] at hn2
        exact (List.nodup_append.1 hn2).2.1
      · intro v hv
        exact h.closed v.name (fun hm => hn3 _ hm _ (hmem v hv) rfl)
    · intro r hr'
      have hr' : r ∈ (s.seen tx).rows := hr'
      show r.version = Version.newInit ∨ Ran.up r.version ∈ s.log ++ tx.ran
      rw [hrows] at hr'
      rcases List.mem_append.1 hr' with h1 | h1
      · exact (h.applied r h1).imp id (List.mem_append_left _)
      · have h2 : r.version ∈ tx.added.map Row.version := List.mem_map.2 ⟨r, h1, rfl⟩
        rw [ha] at h2
        rcases List.mem_append.1 h2 with h2 | h2
        · split at h2
          · simp only [List.mem_singleton] at h2
            exact .inl h2
          · cases h2
        · refine .inr (List.mem_append_right _ ?_)
          rw [hr]
          exact List.mem_map.2 ⟨_, h2, rfl⟩
  | @commitDown i c tx hp =>
    have hdn : DownTx ⟨c, .reverting [], tx⟩ := by
      cases c with
      | up d t => rcases (h.up i _ d t hp rfl).pc with h | h | ⟨_, h⟩ | ⟨_, _, h⟩ <;> cases h
      | down t => exact h.down i _ t hp rfl
    refine ⟨?_, ?_, ?_, ?_, ?_⟩
    · intro j q d t hj
      by_cases e : j = i
      · subst e; exact absurd (show (none : Option Proc) = some q by rw [← hj]; exact put_same.symm) (by simp)
      · exact h.up j q d t (by rw [← hj]; exact (put_other e).symm)
    · intro j q t hj
      by_cases e : j = i
      · subst e; exact absurd (show (none : Option Proc) = some q by rw [← hj]; exact put_same.symm) (by simp)
      · exact h.down j q t (by rw [← hj]; exact (put_other e).symm)
    · intro n hn
      have hn : n ∉ (s.seen tx).rows.map nm := hn
      rw [mem_seen_name] at hn
      show Closed n (s.log ++ tx.ran)
      by_cases hm : n ∈ s.rows.map nm
      · have hrem : n ∈ tx.removed := by
          by_cases hx : n ∈ tx.removed
          · exact hx
          · exact absurd (.inl ⟨hm, hx⟩) hn
        obtain ⟨w, hw, hwn⟩ := hdn.removed n hrem
        exact closed_down hw hwn hdn.ran
      · refine closed_append (h.closed n hm) ?_
        intro v hv
        obtain ⟨u, hu⟩ := hdn.ran _ hv
        cases hu
    · exact once_downs hdn.ran h.once
    · intro r hr'
      show r.version = Version.newInit ∨ Ran.up r.version ∈ s.log ++ tx.ran
      rcases mem_seen.1 (show r ∈ (s.seen tx).rows from hr') with ⟨h1, _⟩ | h1
      · exact (h.applied r h1).imp id (List.mem_append_left _)
      · exact .inl (hdn.added r h1)

theorem Runs.inv {ok : State → Prop} {s : State} (h : Runs ok s) : Inv s ∧ LogInv s := by
  induction h with
  | new => exact ⟨.new, .new⟩
  | step _ hs _ ih => exact ⟨ih.1.step hs, ih.2.step ih.1 hs⟩

end Conc
end Podo
