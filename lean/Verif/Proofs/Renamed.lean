import Verif.Spec.Renamed
import Verif.Proofs.Pg
import Verif.Proofs.AnyNames
/-
Proofs for C31–C36 with version files of any names and contents.
-/
set_option linter.unusedSimpArgs false
namespace Podo
namespace Pg
variable {σ : Type}

namespace IsSound
variable {t : VTable}

theorem ne_nil (h : IsSound t) : t.rows ≠ [] := by
  obtain ⟨rest, hr⟩ := h.starts
  intro he; rw [he] at hr; cases hr

theorem split_last (h : IsSound t) : ∃ q r, t.rows = q ++ [r] := by
  rcases List.eq_nil_or_concat t.rows with h' | ⟨q, r, h'⟩
  · exact absurd h' h.ne_nil
  · exact ⟨q, r, by rw [h']; simp⟩

theorem orders_last {q : List Row} {r : Row} (h : IsSound t) (he : t.rows = q ++ [r]) :
    ∀ x ∈ q, x.order < r.order := by
  have := h.orders
  rw [he, List.map_append, List.pairwise_append] at this
  exact fun x hx => this.2.2 _ (List.mem_map_of_mem hx) _ (by simp)

theorem current (h : IsSound t) {q : List Row} {r : Row} (he : t.rows = q ++ [r]) :
    t.current = some r.version := by
  have := current_last (n := t.next) (h.orders_last he)
  rw [← he] at this
  exact this

theorem find (h : IsSound t) {r : Row} (hr : r ∈ t.rows) :
    (t.rows.find? fun x => x.version.name == r.version.name) = some r := by
  obtain ⟨a, b, hab⟩ := List.append_of_mem hr
  rw [List.find?_eq_some_iff_append]
  refine ⟨by simp, a, b, hab, fun x hx => ?_⟩
  have := h.names
  rw [hab, List.map_append, List.nodup_append] at this
  have := this.2.2 _ (List.mem_map_of_mem hx) _ (List.mem_map_of_mem (List.mem_cons_self))
  simpa using this

theorem take {a b : List Row} {n : Nat} (h : IsSound ⟨a ++ b, n⟩) (ha : a ≠ []) : IsSound ⟨a, n⟩ where
  starts := by
    obtain ⟨rest, hr⟩ := h.starts
    cases a with
    | nil => exact absurd rfl ha
    | cons x a =>
      simp only [List.cons_append, List.map_cons, List.cons.injEq] at hr
      exact ⟨_, by simp [hr.1]; rfl⟩
  back pre r post he := h.back pre r (post ++ b) (by simp only at he ⊢; rw [he]; simp)
  names := by
    have := h.names
    simp only [List.map_append] at this
    exact (List.nodup_append.1 this).1
  orders := by
    have := h.orders
    simp only [List.map_append] at this
    exact (List.pairwise_append.1 this).1
  next r hr := h.next r (List.mem_append_left _ hr)

theorem relabel {a : List Row} {n m : Nat} (h : IsSound ⟨a, n⟩) (hnm : n ≤ m) : IsSound ⟨a, m⟩ :=
  ⟨h.starts, h.back, h.names, h.orders, fun r hr => Nat.lt_of_lt_of_le (h.next r hr) hnm⟩

/-- No row before names the last row as its predecessor. -/
theorem last_free {q : List Row} {r : Row} {n : Nat} (h : IsSound ⟨q ++ [r], n⟩) :
    ∀ x ∈ q, x.version.previous ≠ some r.version.name := by
  intro x hx hp
  obtain ⟨a, b, rfl⟩ := List.append_of_mem hx
  have hn := h.names
  simp only [List.map_append, List.nodup_append (l₁ := _ ++ _)] at hn
  rcases h.back a x (b ++ [r]) (by simp) _ hp with he | ⟨y, hy, he⟩
  · exact hn.2.2 x.version.name (by simp) r.version.name (by simp) he.symm
  · exact hn.2.2 y.version.name
      (List.mem_append_left _ (List.mem_map_of_mem (f := fun r : Row => r.version.name) hy))
      r.version.name (by simp) he

theorem delete_last {q : List Row} {r : Row} {n : Nat} (h : IsSound ⟨q ++ [r], n⟩) :
    VTable.delete ⟨q ++ [r], n⟩ r.version = some ⟨q, n⟩ := by
  unfold VTable.delete
  have hf := h.last_free
  have : ((q ++ [r]).any fun x => x.version.name != r.version.name &&
      x.version.previous == some r.version.name) = false := by
    rw [List.any_eq_false]
    intro x hx
    rcases List.mem_append.1 hx with hx | hx
    · simp [hf x hx]
    · simp only [List.mem_cons, List.not_mem_nil, or_false] at hx
      simp [hx]
  rw [if_neg (by simp only [this]; simp)]
  have hn := h.names
  simp only [List.map_append, List.nodup_append] at hn
  have hq : q.filter (fun x => x.version.name != r.version.name) = q := by
    rw [List.filter_eq_self]
    intro x hx
    have := hn.2.2 _ (List.mem_map_of_mem hx) r.version.name (by simp)
    simpa using this
  simp only [List.filter_append, hq]
  simp

/-- Reverting the last rows. -/
theorem downLoop (B : Behaviour σ) {a : List Row} (b : List Row) {n : Nat} (h : IsSound ⟨a ++ b, n⟩)
    (s : σ) :
    match execAll B s (b.reverse.flatMap fun r => r.version.down) with
    | some s' => Pg.downLoop B (b.reverse.map fun r => r.version.name) ⟨a ++ b, n⟩ s = (⟨a, n⟩, s', .ok)
    | none => ∃ t s', Pg.downLoop B (b.reverse.map fun r => r.version.name) ⟨a ++ b, n⟩ s
        = (⟨t, n⟩, s', .panic) := by
  induction hb : b.length generalizing b s with
  | zero =>
    have : b = [] := List.length_eq_zero_iff.1 hb
    subst this
    simp [Pg.downLoop, execAll]
  | succ k ih =>
    rcases List.eq_nil_or_concat b with rfl | ⟨c, r, rfl⟩
    · simp at hb
    · simp only [List.concat_eq_append] at h hb ⊢
      rw [← List.append_assoc] at h ⊢
      simp only [List.reverse_append, List.reverse_cons, List.reverse_nil, List.nil_append,
        List.singleton_append, List.flatMap_cons, List.map_cons]
      rw [execAll_append, Pg.downLoop]
      have hg : VTable.getVersion ⟨a ++ c ++ [r], n⟩ r.version.name = some r.version := by
        unfold VTable.getVersion
        rw [h.find (r := r) (by simp)]
        rfl
      rw [hg]
      simp only
      cases he : execAll B s r.version.down with
      | none => exact ⟨a ++ c ++ [r], s, rfl⟩
      | some s₁ =>
        simp only [Option.bind_some]
        rw [h.delete_last]
        simp only
        by_cases hac : a ++ c = []
        · simp only [List.append_eq_nil_iff] at hac
          obtain ⟨rfl, rfl⟩ := hac
          simp [Pg.downLoop, execAll]
        · exact ih c (h.take hac) s₁ (by simp at hb; omega)

theorem order (h : IsSound t) {r : Row} (hr : r ∈ t.rows) : t.order r.version.name = some r.order := by
  unfold VTable.order; rw [h.find hr]; rfl

/-- The rows after a given one, newest first. -/
theorem downwardRange {a b : List Row} {r : Row} {n : Nat} (h : IsSound ⟨a ++ r :: b, n⟩) {l : Row}
    (hl : (r :: b).getLast? = some l) :
    VTable.downwardRange ⟨a ++ r :: b, n⟩ l.version.name r.version.name =
      some (b.reverse.map fun r => r.version.name) := by
  have hlm : l ∈ a ++ r :: b := List.mem_append_right _ (List.mem_of_getLast? hl)
  have h1 := h.order (r := l) hlm
  have h2 := h.order (r := r) (by simp)
  unfold VTable.downwardRange
  rw [h1, h2]
  simp only
  have ho := h.orders
  simp only [List.map_append, List.map_cons, List.pairwise_append, List.pairwise_cons] at ho
  obtain ⟨_, ⟨hrb, hb⟩, hab⟩ := ho
  have hfil : (a ++ r :: b).filter (fun x => decide (l.order ≥ x.order) && decide (x.order > r.order))
      = b := by
    have e1 : a.filter (fun x => decide (l.order ≥ x.order) && decide (x.order > r.order)) = [] := by
      rw [List.filter_eq_nil_iff]
      intro x hx
      have := hab _ (List.mem_map_of_mem hx) r.order (by simp)
      simp; omega
    have e2 : b.filter (fun x => decide (l.order ≥ x.order) && decide (x.order > r.order)) = b := by
      rw [List.filter_eq_self]
      intro x hx
      have h3 := hrb _ (List.mem_map_of_mem hx)
      have h4 : x.order ≤ l.order := by
        rcases List.eq_nil_or_concat b with rfl | ⟨c, y, rfl⟩
        · simp at hx
        · simp only [List.concat_eq_append] at hl hx hb
          have : l = y := by
            rw [show r :: (c ++ [y]) = (r :: c) ++ [y] from rfl, List.getLast?_append] at hl
            simpa using hl.symm
          subst this
          simp only [List.map_append, List.pairwise_append] at hb
          rcases List.mem_append.1 hx with hx | hx
          · exact Nat.le_of_lt (hb.2.2 _ (List.mem_map_of_mem hx) _ (by simp))
          · simp only [List.mem_cons, List.not_mem_nil, or_false] at hx
            rw [hx]; exact Nat.le_refl _
      simp only [Bool.and_eq_true, decide_eq_true_eq]
      exact ⟨h4, h3⟩
    rw [List.filter_append, e1, List.filter_cons_of_neg (by simp), e2]
    rfl
  rw [hfil]
  have hsort : b.mergeSort (fun x y => decide (y.order ≤ x.order)) = b.reverse := by
    have hp : (b.mergeSort (fun x y => decide (y.order ≤ x.order))).Perm b.reverse :=
      (List.mergeSort_perm _ _).trans (List.reverse_perm b).symm
    refine List.Perm.eq_of_pairwise (le := fun x y => x.order ≥ y.order) ?_ ?_ ?_ hp
    · intro x y hx hy h1 h2
      have hx' : x ∈ b := (List.mergeSort_perm _ _).mem_iff.1 hx
      have hy' : y ∈ b := List.mem_reverse.1 hy
      have he : x.order = y.order := Nat.le_antisymm h2 h1
      exact order_inj hb hx' hy' he
    · have := List.pairwise_mergeSort (le := fun x y : Row => decide (y.order ≤ x.order))
        (by intro a b c; simp only [decide_eq_true_eq]; omega)
        (by intro a b; simp only [Bool.or_eq_true, decide_eq_true_eq]; omega) b
      refine this.imp ?_
      intro a b; simp
    · rw [List.pairwise_reverse]
      refine (List.pairwise_map.1 hb).imp ?_
      intro x y; exact Nat.le_of_lt
  rw [hsort]

/-- Recording one more version on top. -/
theorem insert (h : IsSound t) {B : Behaviour σ} {v : Version} {t' : VTable}
    (hi : t.insert B v = (t', true)) :
    t' = ⟨t.rows ++ [⟨v, t.next⟩], t.next + 1⟩ ∧ IsSound t' := by
  unfold VTable.insert at hi
  split at hi
  · cases hi
  · split at hi
    · next hnx hc =>
      cases hi
      simp only [VTable.admits, Bool.and_eq_true] at hc
      obtain ⟨⟨⟨⟨_, _⟩, hk⟩, hfk⟩, _⟩ := hc
      refine ⟨rfl, ?_, ?_, ?_, ?_, ?_⟩
      · obtain ⟨rest, hr⟩ := h.starts
        exact ⟨rest ++ [v], by simp [hr]⟩
      · intro pre r post he p hp
        simp only at he
        rcases List.eq_nil_or_concat post with rfl | ⟨post', z, rfl⟩
        · have h1 := List.append_inj_left' he rfl
          have h2 := List.append_inj_right' he rfl
          simp only [List.cons.injEq, and_true] at h2
          subst h1 h2
          simp only at hp
          rw [hp] at hfk
          simp only [Option.all_some, Bool.or_eq_true, beq_iff_eq, List.any_eq_true] at hfk
          exact hfk
        · rw [List.concat_eq_append, show pre ++ r :: (post' ++ [z]) = (pre ++ r :: post') ++ [z] by simp] at he
          exact h.back pre r post' (List.append_inj_left' he rfl) p hp
      · simp only [List.map_append, List.map_cons, List.map_nil]
        rw [List.nodup_append]
        refine ⟨h.names, by simp, ?_⟩
        intro a ha b hb
        simp only [List.mem_cons, List.not_mem_nil, or_false] at hb
        subst hb
        simp only [Bool.not_eq_true', List.any_eq_false, beq_iff_eq] at hk
        obtain ⟨x, hx, rfl⟩ := List.mem_map.1 ha
        exact hk x hx
      · simp only [List.map_append, List.map_cons, List.map_nil]
        rw [List.pairwise_append]
        refine ⟨h.orders, by simp, ?_⟩
        intro a ha b hb
        simp only [List.mem_cons, List.not_mem_nil, or_false] at hb
        subst hb
        obtain ⟨x, hx, rfl⟩ := List.mem_map.1 ha
        exact h.next x hx
      · intro x hx
        simp only at hx ⊢
        rcases List.mem_append.1 hx with hx | hx
        · exact Nat.lt_succ_of_lt (h.next x hx)
        · simp only [List.mem_cons, List.not_mem_nil, or_false] at hx
          subst hx
          exact Nat.lt_succ_self _
    · cases hi

end IsSound

/-- A chain is sound. -/
theorem IsChain.sound {t : VTable} (h : IsChain t) : IsSound t where
  starts := h.starts
  back pre r post he p hp := by
    have hl := h.linked
    simp only [he, List.map_append, List.map_cons] at hl
    have := hl.prev_last
    rw [hp] at this
    rcases List.eq_nil_or_concat pre with rfl | ⟨a', y, rfl⟩
    · simp at this
    · simp only [List.concat_eq_append, List.map_append, List.map_cons, List.map_nil,
        List.getLast?_append, List.getLast?_singleton, Option.or_some, Option.map_some,
        Option.some.injEq, Option.some_or] at this
      exact .inr ⟨y, by simp, this.symm⟩
  names := h.names
  orders := h.orders
  next := h.next

/-- Applying the versions found. -/
theorem upLoop_finds {B : Behaviour σ} {d : HDir} {ns : List String} {t t' : VTable} (h : IsSound t)
    {s s' : σ} (hu : upLoop B d ns t s = (t', s', .ok)) :
    ∃ ws, Finds d ns ws ∧ IsSound t' ∧ execAll B s (ws.flatMap Version.up) = some s' ∧
      t'.rows.map Row.version = t.rows.map Row.version ++ ws := by
  induction ns generalizing t s with
  | nil =>
    simp only [upLoop, Prod.mk.injEq] at hu
    obtain ⟨rfl, rfl, _⟩ := hu
    exact ⟨[], .nil, h, rfl, by simp⟩
  | cons n ns ih =>
    rw [upLoop] at hu
    cases hg : d.getVersion n with
    | error e => rw [hg] at hu; simp at hu
    | ok w =>
      rw [hg] at hu
      simp only at hu
      cases hx : execAll B s w.up with
      | none => rw [hx] at hu; simp at hu
      | some s₁ =>
        rw [hx] at hu
        simp only at hu
        split at hu
        · simp at hu
        · next t₁ hi =>
          obtain ⟨rfl, hc⟩ := h.insert hi
          obtain ⟨ws, h1, h2, h3, h4⟩ := ih hc hu
          refine ⟨w :: ws, .cons (stored_iff.2 hg) h1, h2, ?_, ?_⟩
          · rw [List.flatMap_cons, execAll_append, hx]; exact h3
          · rw [h4]; simp

/-- A database whose metadata schema, if there, holds a sound table. -/
def Fair (db : DB σ) : Prop := ∀ t, db.metaSchema = .table t → IsSound t

theorem rollback_fair {db : DB σ} (h : Fair db) {t : VTable}
    (ht : ∀ t₀, db.metaSchema = .table t₀ → t₀.next ≤ t.next) : Fair (db.rollback (.table t)) := by
  obtain ⟨m, s⟩ := db
  intro t' he
  cases m with
  | absent => cases he
  | noTable => cases he
  | table t₀ =>
    simp only [DB.rollback, Meta.rolledBack, Meta.table.injEq] at he
    subst he
    exact (h t₀ rfl).relabel (ht t₀ rfl)

theorem ensure_sound {B : Behaviour σ} {db : DB σ} (hg : Fair db) {t : VTable}
    (h : ensureInitialized B db = (.table t, true)) :
    IsSound t ∧ t.rows.map Row.version = db.applied := by
  rcases ensure_cases h with ⟨hm, _⟩ | ⟨ha, hm⟩
  · refine ⟨hg t hm.symm, ?_⟩
    unfold DB.applied; rw [← hm]
  · cases hm
    refine ⟨init_chain.sound, ?_⟩
    unfold DB.applied; rw [ha]; rfl

/-- What a successful `up` does. -/
theorem up_finds {B : Behaviour σ} {fuel : Nat} {d : HDir} {target : Option String}
    {db db' : DB σ} (hg : Fair db) (h : up B fuel d target db = some (db', .ok)) :
    ∃ n to cur ns ws, (target = some n ∨ target = none ∧ Opens d n) ∧ Stored d n to ∧
      db.applied.getLast? = some cur ∧ NamesBack d cur.name to.name ns ∧ Finds d ns ws ∧
      execAll B db.data (ws.flatMap Version.up) = some db'.data ∧
      db'.applied = db.applied ++ ws ∧ (ws = [] → db' = db) ∧
      (ws ≠ [] → ∃ t', db'.metaSchema = .table t' ∧ IsSound t') := by
  rcases up_cases h with ⟨_, hc⟩ | ⟨opened, t, hopen, ht, cur, to, l, hcur, hto, hl, hc⟩
  · cases hc
  · obtain ⟨hch, happ⟩ := ensure_sound hg ht
    obtain ⟨l', hp, hl'⟩ := rangeLoop_back hl
    simp only [List.reverse_nil, List.append_nil] at hl'
    subst hl'
    obtain ⟨q, r, hq⟩ := hch.split_last
    have hcr := hch.current hq
    rw [hcur] at hcr
    cases hcr
    have hlastapp : db.applied.getLast? = some r.version := by rw [← happ, hq]; simp
    have htar : target = some (target.getD opened.currentVersion) ∨
        target = none ∧ Opens d (target.getD opened.currentVersion) := by
      cases target with
      | some n => exact .inl rfl
      | none => exact .inr ⟨rfl, fuel, opened.nextMap, hopen⟩
    rcases hc with ⟨rfl, rfl, _⟩ | ⟨hne, t', s, o', hu, ⟨rfl, _, rfl, _⟩ | ⟨ho, _⟩⟩
    · exact ⟨_, to, r.version, [], [], htar, stored_iff.2 hto, hlastapp, hp, .nil, rfl, by simp,
        fun _ => rfl, fun h => absurd rfl h⟩
    · obtain ⟨ws, h1, h2, h3, h4⟩ := upLoop_finds hch hu
      refine ⟨_, to, r.version, l, ws, htar, stored_iff.2 hto, hlastapp, hp, h1, h3, ?_, ?_,
        fun _ => ⟨t', rfl, h2⟩⟩
      · rw [← happ, ← h4]; rfl
      · intro he; subst he; cases h1; exact absurd rfl hne
    · exact absurd rfl ho

theorem up_fair {B : Behaviour σ} {fuel : Nat} {d : HDir} {target : Option String}
    {db db' : DB σ} {o : Outcome} (hg : Fair db) (h : up B fuel d target db = some (db', o)) : Fair db' := by
  by_cases ho : o = .ok
  · subst ho
    obtain ⟨_, _, _, _, ws, _, _, _, _, _, _, _, h1, h2⟩ := up_finds hg h
    by_cases hws : ws = []
    · rw [h1 hws]; exact hg
    · obtain ⟨t', h3, h4⟩ := h2 hws
      intro t he; rw [h3] at he; cases he; exact h4
  · rcases up_cases h with ⟨rfl, _⟩ | ⟨opened, t, hopen, ht, cur, to, l, hcur, hto, hl, hc⟩
    · exact hg
    · rcases hc with ⟨_, rfl, _⟩ | ⟨_, t', s, o', hu, ⟨_, _, _, rfl⟩ | ⟨_, rfl⟩⟩
      · exact hg
      · exact absurd rfl ho
      · exact rollback_fair hg (ensure_next ht (upLoop_next hu))

/-- `down` to a version that is recorded. -/
theorem down_to_sound {B : Behaviour σ} {db : DB σ} {t : VTable}
    (ht : ensureInitialized B db = (.table t, true))
    (hch : IsSound t) {a b : List Row} {r : Row} (hrows : t.rows = a ++ r :: b) :
    down B (some r.version.name) db =
      if b = [] then (db, .ok)
      else match execAll B db.data (b.reverse.flatMap fun x => x.version.down) with
        | none => (db, .panic)
        | some s => if B.commits s then (⟨.table ⟨a ++ [r], t.next⟩, s⟩, .ok) else (db, .error) := by
  obtain ⟨q, l, hq⟩ := hch.split_last
  have hcur := hch.current hq
  have hl : (r :: b).getLast? = some l := by
    have := congrArg List.getLast? (hrows.symm.trans hq)
    simp only [List.getLast?_append, List.getLast?_singleton, Option.some_or] at this
    cases hb : (r :: b).getLast? with
    | none => simp at hb
    | some y => rw [hb] at this; simpa using this
  have ht' : t = ⟨a ++ r :: b, t.next⟩ := by cases t; simp only at hrows; rw [hrows]
  have hch' : IsSound ⟨a ++ r :: b, t.next⟩ := ht' ▸ hch
  have hrange := hch'.downwardRange hl
  rw [← ht'] at hrange
  have hdl := IsSound.downLoop B (a := a ++ [r]) b (n := t.next) (by simpa using hch') db.data
  simp only [List.append_assoc, List.singleton_append] at hdl
  rw [← ht'] at hdl
  unfold down
  rw [ht]
  simp only [hcur, Option.getD_some, hrange]
  by_cases hb : b = []
  · subst hb
    simp [rollback_self ht]
  · rw [if_neg hb]
    split
    · next he => simp at he
    · next he =>
      simp only [Option.some.injEq, List.map_eq_nil_iff, List.reverse_eq_nil_iff] at he
      exact absurd he hb
    · next ls hne he =>
      simp only [Option.some.injEq] at he
      subst he
      cases hx : execAll B db.data (b.reverse.flatMap fun x => x.version.down) with
      | none =>
        rw [hx] at hdl
        obtain ⟨t', s', hdl⟩ := hdl
        rw [hdl]
        simp only
        rw [rollback_next (t' := ⟨t', t.next⟩) ht rfl]
      | some s =>
        rw [hx] at hdl
        rw [hdl]
        simp only
        split
        · rfl
        · rw [rollback_next (t' := ⟨a ++ [r], t.next⟩) ht rfl]

/-- `down` to a version that is not recorded. -/
theorem down_unknown_sound {B : Behaviour σ} {db : DB σ} {t : VTable}
    (ht : ensureInitialized B db = (.table t, true)) (hch : IsSound t) {n : String}
    (hn : ∀ r ∈ t.rows, r.version.name ≠ n) : down B (some n) db = (db, .error) := by
  obtain ⟨q, l, hq⟩ := hch.split_last
  unfold down
  rw [ht]
  simp only [hch.current hq]
  have : t.downwardRange l.version.name ((some n).getD (l.version.previous.getD "")) = none := by
    unfold VTable.downwardRange
    rw [Option.getD_some, IsChain.order_none hn]
    simp
  rw [this]
  simp only [rollback_self ht]

/-- `down` without a version is `down` to the predecessor of the last row, if it has one. -/
theorem down_none_sound {B : Behaviour σ} {db : DB σ} {t : VTable}
    (ht : ensureInitialized B db = (.table t, true)) (hch : IsSound t) {q : List Row} {r : Row}
    (hq : t.rows = q ++ [r]) :
    down B none db = match r.version.previous with
      | none => (db, .ok)
      | some p => down B (some p) db := by
  unfold down
  rw [ht]
  simp only [hch.current hq]
  cases r.version.previous with
  | none => simp only [rollback_self ht]
  | some p => rfl

/-- How `down` ends on a sound table: nothing changed, or the rows above one have been reverted. -/
theorem down_fair_cases (B : Behaviour σ) (target : Option String) {db : DB σ} (hg : Fair db) :
    (Unchanged db (down B target db).1 ∧ Fair (down B target db).1) ∨
    ∃ t a b r s, ensureInitialized B db = (.table t, true) ∧ t.rows = a ++ r :: b ∧
      (down B target db).1 = ⟨.table ⟨a ++ [r], t.next⟩, s⟩ ∧ IsSound ⟨a ++ [r], t.next⟩ := by
  by_cases hx : ∃ t, ensureInitialized B db = (.table t, true)
  · obtain ⟨t, ht⟩ := hx
    obtain ⟨hch, happ⟩ := ensure_sound hg ht
    have key : ∀ n, (Unchanged db (down B (some n) db).1 ∧ Fair (down B (some n) db).1) ∨
        ∃ t a b r s, ensureInitialized B db = (.table t, true) ∧ t.rows = a ++ r :: b ∧
          (down B (some n) db).1 = ⟨.table ⟨a ++ [r], t.next⟩, s⟩ ∧ IsSound ⟨a ++ [r], t.next⟩ := by
      intro n
      by_cases hm : ∃ r ∈ t.rows, r.version.name = n
      · obtain ⟨r, hr, rfl⟩ := hm
        obtain ⟨a, b, hab⟩ := List.append_of_mem hr
        have hd := down_to_sound (B := B) ht hch hab
        by_cases hb : b = []
        · rw [hd, if_pos hb]; exact .inl ⟨.refl _, hg⟩
        · rw [if_neg hb] at hd
          cases he : execAll B db.data (b.reverse.flatMap fun x => x.version.down) with
          | none => rw [he] at hd; rw [hd]; exact .inl ⟨.refl _, hg⟩
          | some s =>
            rw [he] at hd
            by_cases hc : B.commits s = true
            · simp only [hc, if_true] at hd
              refine .inr ⟨t, a, b, r, s, ht, hab, by rw [hd], ?_⟩
              have : IsSound ⟨(a ++ [r]) ++ b, t.next⟩ := by
                have h2 : t = ⟨(a ++ [r]) ++ b, t.next⟩ := by cases t; simp only at hab; simp [hab]
                exact h2 ▸ hch
              exact this.take (by simp)
            · simp only [hc] at hd
              rw [hd]; exact .inl ⟨.refl _, hg⟩
      · rw [down_unknown_sound ht hch fun r hr he => hm ⟨r, hr, he⟩]
        exact .inl ⟨.refl _, hg⟩
    cases target with
    | some n => exact key n
    | none =>
      obtain ⟨q, r, hq⟩ := hch.split_last
      have hd := down_none_sound (B := B) ht hch hq
      cases hp : r.version.previous with
      | none => rw [hp] at hd; rw [hd]; exact .inl ⟨.refl _, hg⟩
      | some p => rw [hp] at hd; rw [hd]; exact key p
  · left
    unfold down
    split
    · next m hm => rw [ensure_fail_rollback hm]; exact ⟨.refl _, hg⟩
    · exact ⟨.refl _, hg⟩
    · exact ⟨.refl _, hg⟩
    · next t ht => exact absurd ⟨t, ht⟩ hx

theorem ReachAny.fair {B : Behaviour σ} {db : DB σ} (h : ReachAny B db) : Fair db := by
  induction h with
  | new s => intro t he; cases he
  | up _ hu ih => exact up_fair ih hu
  | down target _ ih =>
    rcases down_fair_cases B target ih with ⟨_, h⟩ | ⟨t, a, b, r, s, _, _, h3, h4⟩
    · exact h
    · rw [h3]; intro t' he; cases he; exact h4
  | elsewhere s _ ih => exact ih
  | used _ ht hn ih =>
    intro t' he
    cases he
    have h := ih _ ht
    exact ⟨h.starts, h.back, h.names, h.orders, fun r hr => Nat.lt_of_lt_of_le (h.next r hr) hn⟩

theorem ReachAny.hasTable {B : Behaviour σ} {db : DB σ} (h : ReachAny B db) : db.metaSchema ≠ .noTable := by
  induction h with
  | new s => intro he; cases he
  | @up db db' fuel d target o _ hu ih =>
    rcases up_cases hu with ⟨rfl, _⟩ | ⟨opened, t, hopen, ht, cur, to, l, hcur, hto, hl, hc⟩
    · exact ih
    · rcases hc with ⟨_, rfl, _⟩ | ⟨_, t', s, o', hu', ⟨_, _, rfl, _⟩ | ⟨_, rfl⟩⟩
      · exact ih
      · intro he; cases he
      · exact (rollback_unchanged _ _).hasTable ih
  | down target _ ih =>
    rcases down_cases B target _ with ⟨h1, _⟩ | ⟨t, ht, _, cur, l, t', s, hcur, hl, hne, hd, hdb⟩
    · exact h1.hasTable ih
    · rw [hdb]; intro he; cases he
  | elsewhere s _ ih => exact ih
  | used _ _ _ _ => intro he; cases he

theorem Reach.any {B : Behaviour σ} {db : DB σ} (h : Reach B db) : ReachAny B db := by
  induction h with
  | new s => exact .new s
  | up _ _ hu ih => exact .up ih hu
  | down target _ ih => exact .down target ih
  | elsewhere s _ ih => exact .elsewhere s ih
  | used _ ht hn ih => exact .used ih ht hn

theorem Finds.stored {d : HDir} {ns : List String} {ws : List Version} (h : Finds d ns ws) :
    ∀ w ∈ ws, ∃ n, Stored d n w := by
  induction h with
  | nil => intro w hw; cases hw
  | cons h1 _ ih =>
    intro w hw
    rcases List.mem_cons.1 hw with rfl | hw
    · exact ⟨_, h1⟩
    · exact ih w hw

end Pg
end Podo
