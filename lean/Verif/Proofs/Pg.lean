import Verif.Proofs.Commands
import Verif.Spec.Pg
/-
What `up` and `down` do to a database whose version table is a chain.
-/
set_option linter.unusedSimpArgs false
namespace Podo
namespace Pg
variable {σ : Type}

/-! ### Scripts -/

theorem script_iff {B : Behaviour σ} {s s' : σ} {qs : List String} :
    Script B s qs s' ↔ execAll B s qs = some s' := by
  induction qs generalizing s with
  | nil =>
    simp only [execAll, Option.some.injEq]
    constructor
    · intro h; cases h; rfl
    · rintro rfl; exact .nil
  | cons q qs ih =>
    rw [execAll]
    constructor
    · intro h
      cases h with
      | cons h1 h2 => rw [h1]; exact ih.1 h2
    · intro h
      split at h
      · cases h
      · next s₁ h1 => exact .cons h1 (ih.2 h)

theorem execAll_append {B : Behaviour σ} {s : σ} {a b : List String} :
    execAll B s (a ++ b) = (execAll B s a).bind fun s' => execAll B s' b := by
  induction a generalizing s with
  | nil => rfl
  | cons q a ih =>
    simp only [List.cons_append, execAll]
    cases B.exec s q with
    | none => rfl
    | some s' => exact ih

/-! ### The version table -/

theorem newer_foldl (q : List Row) (b : Option Row) :
    q.foldl newer b = b ∨ ∃ r ∈ q, q.foldl newer b = some r := by
  induction q generalizing b with
  | nil => exact .inl rfl
  | cons r q ih =>
    simp only [List.foldl_cons]
    rcases ih (newer b r) with h | ⟨x, hx, h⟩
    · rw [h]
      cases b with
      | none => exact .inr ⟨r, by simp, rfl⟩
      | some b =>
        simp only [newer]
        split
        · exact .inr ⟨r, by simp, rfl⟩
        · exact .inl rfl
    · exact .inr ⟨x, by simp [hx], h⟩

theorem current_last {q : List Row} {r : Row} {n : Nat} (h : ∀ x ∈ q, x.order < r.order) :
    VTable.current ⟨q ++ [r], n⟩ = some r.version := by
  unfold VTable.current
  simp only [List.foldl_append, List.foldl_cons, List.foldl_nil]
  rcases newer_foldl q none with h' | ⟨x, hx, h'⟩
  · rw [h']; rfl
  · rw [h']
    simp only [newer, if_pos (h x hx), Option.map_some]

theorem order_inj {b : List Row} (hb : (b.map Row.order).Pairwise (· < ·)) {x y : Row} (hx : x ∈ b)
    (hy : y ∈ b) (he : x.order = y.order) : x = y := by
  induction b with
  | nil => simp at hx
  | cons z b ih =>
    simp only [List.map_cons, List.pairwise_cons] at hb
    rcases List.mem_cons.1 hx with h1 | h1
    · rcases List.mem_cons.1 hy with h2 | h2
      · rw [h1, h2]
      · have := hb.1 _ (List.mem_map_of_mem h2); subst h1; omega
    · rcases List.mem_cons.1 hy with h2 | h2
      · have := hb.1 _ (List.mem_map_of_mem h1); subst h2; omega
      · exact ih hb.2 h1 h2

namespace IsChain
variable {t : VTable}

theorem ne_nil (h : IsChain t) : t.rows ≠ [] := by
  obtain ⟨rest, hr⟩ := h.starts
  intro he; rw [he] at hr; cases hr

theorem split_last (h : IsChain t) : ∃ q r, t.rows = q ++ [r] := by
  rcases List.eq_nil_or_concat t.rows with h' | ⟨q, r, h'⟩
  · exact absurd h' h.ne_nil
  · exact ⟨q, r, by rw [h']; simp⟩

theorem orders_last {q : List Row} {r : Row} (h : IsChain t) (he : t.rows = q ++ [r]) :
    ∀ x ∈ q, x.order < r.order := by
  have := h.orders
  rw [he, List.map_append, List.pairwise_append] at this
  exact fun x hx => this.2.2 _ (List.mem_map_of_mem hx) _ (by simp)

theorem current (h : IsChain t) {q : List Row} {r : Row} (he : t.rows = q ++ [r]) :
    t.current = some r.version := by
  have := current_last (n := t.next) (h.orders_last he)
  rw [← he] at this
  exact this

theorem find (h : IsChain t) {r : Row} (hr : r ∈ t.rows) :
    (t.rows.find? fun x => x.version.name == r.version.name) = some r := by
  obtain ⟨a, b, hab⟩ := List.append_of_mem hr
  rw [List.find?_eq_some_iff_append]
  refine ⟨by simp, a, b, hab, fun x hx => ?_⟩
  have := h.names
  rw [hab, List.map_append, List.nodup_append] at this
  have := this.2.2 _ (List.mem_map_of_mem hx) _ (List.mem_map_of_mem (List.mem_cons_self))
  simpa using this

/-- Cutting a chain gives a chain. -/
theorem take {a b : List Row} {n : Nat} (h : IsChain ⟨a ++ b, n⟩) (ha : a ≠ []) : IsChain ⟨a, n⟩ where
  starts := by
    obtain ⟨rest, hr⟩ := h.starts
    cases a with
    | nil => exact absurd rfl ha
    | cons x a =>
      simp only [List.cons_append, List.map_cons, List.cons.injEq] at hr
      exact ⟨_, by simp [hr.1]; rfl⟩
  linked := by
    have := h.linked
    simp only [List.map_append] at this
    exact (Linked.append.1 this).1
  names := by
    have := h.names
    simp only [List.map_append] at this
    exact (List.nodup_append.1 this).1
  orders := by
    have := h.orders
    simp only [List.map_append] at this
    exact (List.pairwise_append.1 this).1
  next r hr := h.next r (List.mem_append_left _ hr)

theorem relabel {a : List Row} {n m : Nat} (h : IsChain ⟨a, n⟩) (hnm : n ≤ m) : IsChain ⟨a, m⟩ :=
  ⟨h.starts, h.linked, h.names, h.orders, fun r hr => Nat.lt_of_lt_of_le (h.next r hr) hnm⟩

/-- No row names the last row as its predecessor. -/
theorem last_free {q : List Row} {r : Row} {n : Nat} (h : IsChain ⟨q ++ [r], n⟩) :
    ∀ x ∈ q ++ [r], x.version.previous ≠ some r.version.name := by
  intro x hx hp
  obtain ⟨a, b, hab⟩ := List.append_of_mem hx
  have hl := h.linked
  simp only [hab, List.map_append, List.map_cons] at hl
  have := hl.prev_last
  rw [hp] at this
  simp only [Option.or_none] at this
  rcases List.eq_nil_or_concat a with rfl | ⟨a', y, rfl⟩
  · simp at this
  · simp only [List.concat_eq_append, List.map_append, List.map_cons, List.map_nil,
      List.getLast?_append, List.getLast?_singleton, Option.or_some, Option.map_some,
      Option.some.injEq, Option.some_or] at this
    have hn := h.names
    have hy : y ∈ q := by
      have hlen := congrArg List.length hab
      have h1 : a'.length < q.length := by
        simp only [List.length_append, List.length_cons, List.length_nil, List.concat_eq_append] at hlen
        omega
      have hg : (q ++ [r])[a'.length]? = some y := by
        rw [hab]
        simp
      rw [List.getElem?_append_left h1] at hg
      exact List.mem_of_getElem? hg
    simp only [List.map_append, List.nodup_append] at hn
    exact hn.2.2 _ (List.mem_map_of_mem hy) r.version.name (by simp) this.symm

theorem delete_last {q : List Row} {r : Row} {n : Nat} (h : IsChain ⟨q ++ [r], n⟩) :
    VTable.delete ⟨q ++ [r], n⟩ r.version = some ⟨q, n⟩ := by
  unfold VTable.delete
  have hf := h.last_free
  have : ((q ++ [r]).any fun x => x.version.name != r.version.name &&
      x.version.previous == some r.version.name) = false := by
    rw [List.any_eq_false]
    intro x hx
    have := hf x hx
    simp [this]
  rw [if_neg (by simp only [this]; simp)]
  have hn := h.names
  simp only [List.map_append, List.nodup_append] at hn
  have hq : q.filter (fun x => x.version.name != r.version.name) = q := by
    rw [List.filter_eq_self]
    intro x hx
    have := hn.2.2 _ (List.mem_map_of_mem hx) r.version.name (by simp)
    simpa using this
  simp only [List.filter_append, hq]
  simp

/-- Reverting the last rows of a chain. -/
theorem downLoop (B : Behaviour σ) {a : List Row} (b : List Row) {n : Nat} (h : IsChain ⟨a ++ b, n⟩)
    (s : σ) :
    match execAll B s (b.reverse.flatMap fun r => r.version.down) with
    | some s' => Pg.downLoop B (b.reverse.map fun r => r.version.name) ⟨a ++ b, n⟩ s = (⟨a, n⟩, s', .ok)
    | none => ∃ t s', Pg.downLoop B (b.reverse.map fun r => r.version.name) ⟨a ++ b, n⟩ s
        = (⟨t, n⟩, s', .panic) := by
  induction hb : b.length generalizing b s with
  | zero =>
    have : b = [] := List.length_eq_zero_iff.1 hb
    subst this
    simp [Pg.downLoop, execAll]
  | succ k ih =>
    rcases List.eq_nil_or_concat b with rfl | ⟨c, r, rfl⟩
    · simp at hb
    · simp only [List.concat_eq_append] at h hb ⊢
      rw [← List.append_assoc] at h ⊢
      simp only [List.reverse_append, List.reverse_cons, List.reverse_nil, List.nil_append,
        List.singleton_append, List.flatMap_cons, List.map_cons]
      rw [execAll_append, Pg.downLoop]
      have hg : VTable.getVersion ⟨a ++ c ++ [r], n⟩ r.version.name = some r.version := by
        unfold VTable.getVersion
        rw [h.find (r := r) (by simp)]
        rfl
      rw [hg]
      simp only
      cases he : execAll B s r.version.down with
      | none => exact ⟨a ++ c ++ [r], s, rfl⟩
      | some s₁ =>
        simp only [Option.bind_some]
        rw [h.delete_last]
        simp only
        by_cases hac : a ++ c = []
        · simp only [List.append_eq_nil_iff] at hac
          obtain ⟨rfl, rfl⟩ := hac
          simp [Pg.downLoop, execAll]
        · exact ih c (h.take hac) s₁ (by simp at hb; omega)

theorem order (h : IsChain t) {r : Row} (hr : r ∈ t.rows) : t.order r.version.name = some r.order := by
  unfold VTable.order; rw [h.find hr]; rfl

/-- The rows after a given one, newest first. -/
theorem downwardRange {a b : List Row} {r : Row} {n : Nat} (h : IsChain ⟨a ++ r :: b, n⟩) {l : Row}
    (hl : (r :: b).getLast? = some l) :
    VTable.downwardRange ⟨a ++ r :: b, n⟩ l.version.name r.version.name =
      some (b.reverse.map fun r => r.version.name) := by
  have hlm : l ∈ a ++ r :: b := List.mem_append_right _ (List.mem_of_getLast? hl)
  have h1 := h.order (r := l) hlm
  have h2 := h.order (r := r) (by simp)
  unfold VTable.downwardRange
  rw [h1, h2]
  simp only
  have ho := h.orders
  simp only [List.map_append, List.map_cons, List.pairwise_append, List.pairwise_cons] at ho
  obtain ⟨_, ⟨hrb, hb⟩, hab⟩ := ho
  have hfil : (a ++ r :: b).filter (fun x => decide (l.order ≥ x.order) && decide (x.order > r.order))
      = b := by
    have e1 : a.filter (fun x => decide (l.order ≥ x.order) && decide (x.order > r.order)) = [] := by
      rw [List.filter_eq_nil_iff]
      intro x hx
      have := hab _ (List.mem_map_of_mem hx) r.order (by simp)
      simp; omega
    have e2 : b.filter (fun x => decide (l.order ≥ x.order) && decide (x.order > r.order)) = b := by
      rw [List.filter_eq_self]
      intro x hx
      have h3 := hrb _ (List.mem_map_of_mem hx)
      have h4 : x.order ≤ l.order := by
        rcases List.eq_nil_or_concat b with rfl | ⟨c, y, rfl⟩
        · simp at hx
        · simp only [List.concat_eq_append] at hl hx hb
          have : l = y := by
            rw [show r :: (c ++ [y]) = (r :: c) ++ [y] from rfl, List.getLast?_append] at hl
            simpa using hl.symm
          subst this
          simp only [List.map_append, List.pairwise_append] at hb
          rcases List.mem_append.1 hx with hx | hx
          · exact Nat.le_of_lt (hb.2.2 _ (List.mem_map_of_mem hx) _ (by simp))
          · simp only [List.mem_cons, List.not_mem_nil, or_false] at hx
            rw [hx]; exact Nat.le_refl _
      simp only [Bool.and_eq_true, decide_eq_true_eq]
      exact ⟨h4, h3⟩
    rw [List.filter_append, e1, List.filter_cons_of_neg (by simp), e2]
    rfl
  rw [hfil]
  have hsort : b.mergeSort (fun x y => decide (y.order ≤ x.order)) = b.reverse := by
    have hp : (b.mergeSort (fun x y => decide (y.order ≤ x.order))).Perm b.reverse :=
      (List.mergeSort_perm _ _).trans (List.reverse_perm b).symm
    refine List.Perm.eq_of_pairwise (le := fun x y => x.order ≥ y.order) ?_ ?_ ?_ hp
    · intro x y hx hy h1 h2
      have hx' : x ∈ b := (List.mergeSort_perm _ _).mem_iff.1 hx
      have hy' : y ∈ b := List.mem_reverse.1 hy
      have he : x.order = y.order := Nat.le_antisymm h2 h1
      exact order_inj hb hx' hy' he
    · have := List.pairwise_mergeSort (le := fun x y : Row => decide (y.order ≤ x.order))
        (by intro a b c; simp only [decide_eq_true_eq]; omega)
        (by intro a b; simp only [Bool.or_eq_true, decide_eq_true_eq]; omega) b
      refine this.imp ?_
      intro a b; simp
    · rw [List.pairwise_reverse]
      refine (List.pairwise_map.1 hb).imp ?_
      intro x y; exact Nat.le_of_lt
  rw [hsort]

/-- A version that is not in the table. -/
theorem order_none {n : String} (h : ∀ r ∈ t.rows, r.version.name ≠ n) : t.order n = none := by
  unfold VTable.order
  rw [List.find?_eq_none.2 (by intro r hr; simpa using h r hr)]
  rfl

/-- Recording one more version on top. -/
theorem insert (h : IsChain t) {B : Behaviour σ} {v : Version} {t' : VTable}
    (hi : t.insert B v = (t', true)) {q : List Row} {r : Row} (he : t.rows = q ++ [r])
    (hv : v.previous = some r.version.name) :
    t' = ⟨t.rows ++ [⟨v, t.next⟩], t.next + 1⟩ ∧ IsChain t' := by
  unfold VTable.insert at hi
  split at hi
  · cases hi
  · split at hi
    · next hnx hc =>
      cases hi
      refine ⟨rfl, ?_, ?_, ?_, ?_, ?_⟩
      · obtain ⟨rest, hr⟩ := h.starts
        exact ⟨rest ++ [v], by simp [hr]⟩
      · simp only [List.map_append, List.map_cons, List.map_nil]
        rw [Linked.append]
        refine ⟨h.linked, ?_, trivial⟩
        rw [he]; simp [hv]
      · simp only [List.map_append, List.map_cons, List.map_nil]
        rw [List.nodup_append]
        refine ⟨h.names, by simp, ?_⟩
        intro a ha b hb
        simp only [List.mem_cons, List.not_mem_nil, or_false] at hb
        subst hb
        simp only [VTable.admits, Bool.and_eq_true] at hc
        have hk := hc.1.1.2
        simp only [Bool.not_eq_true', List.any_eq_false, beq_iff_eq] at hk
        obtain ⟨x, hx, rfl⟩ := List.mem_map.1 ha
        exact hk x hx
      · simp only [List.map_append, List.map_cons, List.map_nil]
        rw [List.pairwise_append]
        refine ⟨h.orders, by simp, ?_⟩
        intro a ha b hb
        simp only [List.mem_cons, List.not_mem_nil, or_false] at hb
        subst hb
        obtain ⟨x, hx, rfl⟩ := List.mem_map.1 ha
        exact h.next x hx
      · intro x hx
        simp only at hx ⊢
        rcases List.mem_append.1 hx with hx | hx
        · exact Nat.lt_succ_of_lt (h.next x hx)
        · simp only [List.mem_cons, List.not_mem_nil, or_false] at hx
          subst hx
          exact Nat.lt_succ_self _
    · cases hi

end IsChain

theorem insert_next {B : Behaviour σ} {t t' : VTable} {v : Version} {ok : Bool}
    (h : t.insert B v = (t', ok)) : t.next ≤ t'.next := by
  unfold VTable.insert at h
  split at h
  · cases h; exact Nat.le_refl _
  · split at h
    · cases h; exact Nat.le_succ _
    · cases h; exact Nat.le_succ _

/-! ### Rolling back -/

theorem rollback_applied (db : DB σ) (m : Meta) : (db.rollback m).applied = db.applied := by
  obtain ⟨m', s⟩ := db
  unfold DB.rollback DB.applied
  cases m' <;> cases m <;> rfl

theorem rollback_unchanged (db : DB σ) (m : Meta) : Unchanged db (db.rollback m) where
  data := rfl
  applied := rollback_applied db m
  absent := by obtain ⟨m', s⟩ := db; cases m' <;> cases m <;> simp [DB.rollback, Meta.rolledBack]
  noTable := by obtain ⟨m', s⟩ := db; cases m' <;> cases m <;> simp [DB.rollback, Meta.rolledBack]

theorem Unchanged.refl (db : DB σ) : Unchanged db db := ⟨rfl, rfl, Iff.rfl, Iff.rfl⟩

/-! ### Paths of versions -/

/-- A path in a directory whose files are named after their versions is a list of linked versions. -/
theorem path_versions {d : HDir} (hn : StoredNames d) {a b : String} {l : List String}
    (h : VersionPath d a b l) : ∃ ws : List Version, ws.map Version.name = l ∧
      (∀ w ∈ ws, Stored d w.name w) ∧ Linked (some a) ws ∧ ((ws.getLast?.map Version.name).getD a) = b := by
  induction h with
  | here hs => exact ⟨[], rfl, by simp, trivial, rfl⟩
  | @later p b l v _ hs hp ih =>
    obtain ⟨ws, h1, h2, h3, h4⟩ := ih
    have hvn := hn _ _ hs
    refine ⟨ws ++ [v], by simp [h1, hvn], ?_, ?_, by simp [hvn]⟩
    · intro w hw
      rcases List.mem_append.1 hw with hw | hw
      · exact h2 w hw
      · simp only [List.mem_cons, List.not_mem_nil, or_false] at hw
        subst hw; rw [hvn]; exact hs
    · rw [Linked.append]
      refine ⟨h3, ?_, trivial⟩
      rw [hp, ← h4]
      cases ws.getLast? <;> simp

theorem path_stored {d : HDir} {a b : String} {l : List String} (h : VersionPath d a b l) :
    ∃ v, Stored d b v := by
  cases h with
  | here h => exact ⟨_, h⟩
  | later _ h _ => exact ⟨_, h⟩

/-- Applying linked versions on top of a chain. -/
theorem upLoop_ok {B : Behaviour σ} {d : HDir} {ws : List Version} (hst : ∀ w ∈ ws, Stored d w.name w)
    {t t' : VTable} (h : IsChain t) {q : List Row} {r : Row} (he : t.rows = q ++ [r])
    (hl : Linked (some r.version.name) ws) {s s' : σ}
    (hu : upLoop B d (ws.map Version.name) t s = (t', s', .ok)) :
    IsChain t' ∧ execAll B s (ws.flatMap Version.up) = some s' ∧
      t'.rows.map Row.version = t.rows.map Row.version ++ ws := by
  induction ws generalizing t q r s with
  | nil =>
    simp only [List.map_nil, upLoop, Prod.mk.injEq] at hu
    obtain ⟨rfl, rfl, _⟩ := hu
    exact ⟨h, rfl, by simp⟩
  | cons w ws ih =>
    rw [List.map_cons, upLoop, stored_iff.1 (hst w (by simp))] at hu
    simp only at hu
    rw [List.flatMap_cons, execAll_append]
    cases hx : execAll B s w.up with
    | none => rw [hx] at hu; simp at hu
    | some s₁ =>
      rw [hx] at hu
      simp only at hu
      split at hu
      · simp at hu
      · next t₁ hi =>
        obtain ⟨rfl, hc⟩ := h.insert hi he hl.1
        have := ih (fun x hx => hst x (by simp [hx])) hc rfl hl.2 hu
        refine ⟨this.1, this.2.1, ?_⟩
        rw [this.2.2]; simp

/-- The sequence never goes back. -/
theorem upLoop_next {B : Behaviour σ} {d : HDir} {l : List String} {t t' : VTable} {s s' : σ} {o : Outcome}
    (hu : upLoop B d l t s = (t', s', o)) : t.next ≤ t'.next := by
  induction l generalizing t s with
  | nil => simp only [upLoop, Prod.mk.injEq] at hu; rw [hu.1]; exact Nat.le_refl _
  | cons n l ih =>
    rw [upLoop] at hu
    split at hu
    · simp only [Prod.mk.injEq] at hu; rw [hu.1]; exact Nat.le_refl _
    · split at hu
      · simp only [Prod.mk.injEq] at hu; rw [hu.1]; exact Nat.le_refl _
      · split at hu
        · next hi => simp only [Prod.mk.injEq] at hu; rw [← hu.1]; exact insert_next hi
        · next hi => exact Nat.le_trans (insert_next hi) (ih hu)

/-! ### Initialising -/

/-- The table a command works on in its transaction. -/
theorem ensure_cases {B : Behaviour σ} {db : DB σ} {m : Meta} (h : ensureInitialized B db = (m, true)) :
    m = db.metaSchema ∧ m ≠ .absent ∨
      db.metaSchema = .absent ∧ m = .table ⟨[⟨Version.newInit, 1⟩], 2⟩ := by
  unfold ensureInitialized at h
  split at h
  · next ha =>
    split at h
    · cases hi : VTable.insert B ⟨[], 1⟩ Version.newInit with
      | mk t ok =>
        rw [hi] at h
        simp only [Prod.mk.injEq] at h
        obtain ⟨rfl, rfl⟩ := h
        unfold VTable.insert at hi
        split at hi
        · cases hi
        · split at hi
          · cases hi; exact .inr ⟨ha, rfl⟩
          · cases hi
    · cases h
  · next hne =>
    simp only [Prod.mk.injEq, and_true] at h
    exact .inl ⟨h.symm, fun he => hne (h.trans he)⟩

theorem init_chain : IsChain ⟨[⟨Version.newInit, 1⟩], 2⟩ :=
  ⟨⟨[], rfl⟩, ⟨rfl, trivial⟩, by simp, by simp, by simp⟩

/-- A database whose metadata schema, if there, holds a chain. -/
def Good (db : DB σ) : Prop := ∀ t, db.metaSchema = .table t → IsChain t

theorem rollback_good {db : DB σ} (h : Good db) {t : VTable}
    (ht : ∀ t₀, db.metaSchema = .table t₀ → t₀.next ≤ t.next) : Good (db.rollback (.table t)) := by
  obtain ⟨m, s⟩ := db
  intro t' he
  cases m with
  | absent => cases he
  | noTable => cases he
  | table t₀ =>
    simp only [DB.rollback, Meta.rolledBack, Meta.table.injEq] at he
    subst he
    exact (h t₀ rfl).relabel (ht t₀ rfl)

/-- The table in the transaction is a chain, and shows what is recorded. -/
theorem ensure_chain {B : Behaviour σ} {db : DB σ} (hg : Good db) {t : VTable}
    (h : ensureInitialized B db = (.table t, true)) :
    IsChain t ∧ t.rows.map Row.version = db.applied ∧
      (∀ t₀, db.metaSchema = .table t₀ → t₀ = t) := by
  rcases ensure_cases h with ⟨hm, _⟩ | ⟨ha, hm⟩
  · refine ⟨hg t hm.symm, ?_, ?_⟩
    · unfold DB.applied; rw [← hm]
    · intro t₀ h₀; rw [h₀] at hm; cases hm; rfl
  · cases hm
    refine ⟨init_chain, ?_, ?_⟩
    · unfold DB.applied; rw [ha]; rfl
    · intro t₀ h₀; rw [ha] at h₀; cases h₀

theorem ensure_fail_rollback {B : Behaviour σ} {db : DB σ} {m : Meta}
    (h : ensureInitialized B db = (m, false)) : db.rollback m = db := by
  obtain ⟨m', s⟩ := db
  cases m' with
  | absent => cases m <;> rfl
  | noTable => simp [ensureInitialized] at h
  | table t => simp [ensureInitialized] at h

theorem rollback_self {B : Behaviour σ} {db : DB σ} {t : VTable}
    (h : ensureInitialized B db = (.table t, true)) : db.rollback (.table t) = db := by
  obtain ⟨m', s⟩ := db
  cases m' with
  | absent => rfl
  | noTable => rfl
  | table t₀ => cases h; rfl

theorem rollback_next {B : Behaviour σ} {db : DB σ} {t t' : VTable}
    (h : ensureInitialized B db = (.table t, true)) (hn : t'.next = t.next) :
    db.rollback (.table t') = db := by
  obtain ⟨m', s⟩ := db
  cases m' with
  | absent => rfl
  | noTable => rfl
  | table t₀ =>
    have h1 : t₀ = t := by cases h; rfl
    subst h1
    show DB.mk (.table { t₀ with next := t'.next }) s = _
    rw [hn]

theorem ensure_next {B : Behaviour σ} {db : DB σ} {t t' : VTable}
    (h : ensureInitialized B db = (.table t, true)) (hn : t.next ≤ t'.next) :
    ∀ t₀, db.metaSchema = .table t₀ → t₀.next ≤ t'.next := by
  intro t₀ h₀
  rcases ensure_cases h with ⟨hm, _⟩ | ⟨ha, _⟩
  · rw [h₀] at hm; cases hm; exact hn
  · rw [h₀] at ha; cases ha

/-! ### up -/

/-- How `up` can end. -/
theorem up_cases {B : Behaviour σ} {fuel : Nat} {d : HDir} {target : Option String} {db db' : DB σ}
    {o : Outcome} (h : up B fuel d target db = some (db', o)) :
    (db' = db ∧ o = .error) ∨
    ∃ opened t, HDir.fromDir fuel d = some (.ok opened) ∧ ensureInitialized B db = (.table t, true) ∧
      ∃ cur to l, t.current = some cur ∧
        d.getVersion (target.getD opened.currentVersion) = .ok to ∧
        HDir.upwardRange fuel d cur.name to.name = some (.ok l) ∧
        ((l = [] ∧ db' = db ∧ o = .ok) ∨
         (l ≠ [] ∧ ∃ t' s o', upLoop B d l t db.data = (t', s, o') ∧
          ((o' = .ok ∧ B.commits s = true ∧ db' = ⟨.table t', s⟩ ∧ o = .ok) ∨
           (o ≠ .ok ∧ db' = db.rollback (.table t'))))) := by
  unfold up at h
  split at h
  · cases h
  · cases h; exact .inl ⟨rfl, rfl⟩
  · next opened hopen =>
    split at h
    · next m hm => cases h; exact .inl ⟨ensure_fail_rollback hm, rfl⟩
    · cases h; exact .inl ⟨rfl, rfl⟩
    · cases h; exact .inl ⟨rfl, rfl⟩
    · next t ht =>
      split at h
      · cases h; exact .inl ⟨rollback_self ht, rfl⟩
      · next cur hcur =>
        split at h
        · cases h; exact .inl ⟨rollback_self ht, rfl⟩
        · next to hto =>
          split at h
          · cases h
          · cases h; exact .inl ⟨rollback_self ht, rfl⟩
          · next hl =>
            cases h
            exact .inr ⟨opened, t, hopen, ht, cur, to, [], hcur, hto, hl,
              .inl ⟨rfl, rollback_self ht, rfl⟩⟩
          · next l hne hl =>
            refine .inr ⟨opened, t, hopen, ht, cur, to, l, hcur, hto, hl, .inr ⟨hne, ?_⟩⟩
            split at h
            · next t' s hu =>
              refine ⟨t', s, _, hu, ?_⟩
              split at h
              · next hc => cases h; exact .inl ⟨rfl, hc, rfl, rfl⟩
              · cases h; exact .inr ⟨by simp, rfl⟩
            · next t' s o' hno hu =>
              cases h
              exact ⟨t', s, _, hu, .inr ⟨hno, rfl⟩⟩

theorem up_unchanged {B : Behaviour σ} {fuel : Nat} {d : HDir} {target : Option String} {db db' : DB σ}
    {o : Outcome} (h : up B fuel d target db = some (db', o)) (ho : o ≠ .ok) : Unchanged db db' := by
  rcases up_cases h with ⟨rfl, _⟩ | ⟨_, _, _, _, _, _, _, _, _, _, hc⟩
  · exact .refl _
  · rcases hc with ⟨_, rfl, _⟩ | ⟨_, t', s, o', _, ⟨_, _, _, rfl⟩ | ⟨_, rfl⟩⟩
    · exact .refl _
    · exact absurd rfl ho
    · exact rollback_unchanged _ _

/-- What a successful `up` does. -/
theorem up_ok {B : Behaviour σ} {fuel : Nat} {d : HDir} (hn : StoredNames d) {target : Option String}
    {db db' : DB σ} (hg : Good db) (h : up B fuel d target db = some (db', .ok)) :
    ∃ n cur ws, (target = some n ∨ target = none ∧ Opens d n) ∧ db.applied.getLast? = some cur ∧
      VersionPath d cur.name n (ws.map Version.name) ∧ cur.name ∉ ws.map Version.name ∧
      (∀ w ∈ ws, Stored d w.name w) ∧ Linked (some cur.name) ws ∧
      execAll B db.data (ws.flatMap Version.up) = some db'.data ∧
      db'.applied = db.applied ++ ws ∧ ((ws.getLast?.map Version.name).getD cur.name) = n ∧
      (ws = [] → db' = db) ∧ (ws ≠ [] → ∃ t', db'.metaSchema = .table t' ∧ IsChain t') := by
  rcases up_cases h with ⟨_, hc⟩ | ⟨opened, t, hopen, ht, cur, to, l, hcur, hto, hl, hc⟩
  · cases hc
  · obtain ⟨hch, happ, htab⟩ := ensure_chain hg ht
    obtain ⟨l', hp, hnot, hl'⟩ := path_of_rangeLoop hn hl
    simp only [List.reverse_nil, List.append_nil] at hl'
    subst hl'
    obtain ⟨ws, hws, hst, hlk, hlast⟩ := path_versions hn hp
    have hto' := hn _ _ (stored_iff.2 hto)
    obtain ⟨q, r, hq⟩ := hch.split_last
    have hcr := hch.current hq
    rw [hcur] at hcr
    cases hcr
    have hlastapp : db.applied.getLast? = some r.version := by rw [← happ, hq]; simp
    refine ⟨to.name, r.version, ws, ?_, hlastapp, hws ▸ hp, hws ▸ hnot, hst, hlk, ?_⟩
    · cases target with
      | some n => left; rw [hto']; rfl
      | none => right; exact ⟨rfl, fuel, opened.nextMap, by rw [hto']; exact hopen⟩
    · rcases hc with ⟨rfl, rfl, _⟩ | ⟨hne, t', s, o', hu, ⟨rfl, _, rfl, _⟩ | ⟨ho, _⟩⟩
      · have : ws = [] := by simpa using hws
        subst this
        exact ⟨rfl, by simp, hlast, fun _ => rfl, fun h => absurd rfl h⟩
      · rw [← hws] at hu
        obtain ⟨h1, h2, h3⟩ := upLoop_ok hst hch hq hlk hu
        refine ⟨h2, ?_, hlast, ?_, fun _ => ⟨t', rfl, h1⟩⟩
        · rw [← happ, ← h3]; rfl
        · intro he; subst he; exact absurd hws.symm hne
      · exact absurd rfl ho

theorem up_good {B : Behaviour σ} {fuel : Nat} {d : HDir} (hn : StoredNames d) {target : Option String}
    {db db' : DB σ} {o : Outcome} (hg : Good db) (h : up B fuel d target db = some (db', o)) : Good db' := by
  by_cases ho : o = .ok
  · subst ho
    obtain ⟨n, cur, ws, _, _, _, _, _, _, _, _, _, h1, h2⟩ := up_ok hn hg h
    by_cases hws : ws = []
    · rw [h1 hws]; exact hg
    · obtain ⟨t', h3, h4⟩ := h2 hws
      intro t he; rw [h3] at he; cases he; exact h4
  · rcases up_cases h with ⟨rfl, _⟩ | ⟨opened, t, hopen, ht, cur, to, l, hcur, hto, hl, hc⟩
    · exact hg
    · rcases hc with ⟨_, rfl, _⟩ | ⟨_, t', s, o', hu, ⟨_, _, _, rfl⟩ | ⟨_, rfl⟩⟩
      · exact hg
      · exact absurd rfl ho
      · exact rollback_good hg (ensure_next ht (upLoop_next hu))

/-! ### down -/

/-- `down` to a version of the table. -/
theorem downLoop_next {B : Behaviour σ} {l : List String} {t t' : VTable} {s s' : σ} {o : Outcome}
    (h : downLoop B l t s = (t', s', o)) : t'.next = t.next := by
  induction l generalizing t s with
  | nil => simp only [downLoop, Prod.mk.injEq] at h; rw [h.1]
  | cons n l ih =>
    rw [downLoop] at h
    split at h
    · simp only [Prod.mk.injEq] at h; rw [h.1]
    · split at h
      · simp only [Prod.mk.injEq] at h; rw [h.1]
      · split at h
        · simp only [Prod.mk.injEq] at h; rw [h.1]
        · next t₁ hd =>
          rw [ih h]
          unfold VTable.delete at hd
          split at hd
          · cases hd
          · cases hd; rfl

/-- How `down` can end, other than by changing something. -/
theorem down_cases (B : Behaviour σ) (target : Option String) (db : DB σ) :
    (Unchanged db (down B target db).1 ∧ (Good db → Good (down B target db).1)) ∨
    ∃ t, ensureInitialized B db = (.table t, true) ∧ (down B target db).2 = .ok ∧
      ∃ cur l t' s, t.current = some cur ∧
        t.downwardRange cur.name (target.getD (cur.previous.getD "")) = some l ∧ l ≠ [] ∧
        downLoop B l t db.data = (t', s, .ok) ∧ (down B target db).1 = ⟨.table t', s⟩ := by
  generalize hr : down B target db = r
  unfold down at hr
  split at hr
  · next m hm => subst hr; rw [ensure_fail_rollback hm]; exact .inl ⟨.refl _, id⟩
  · subst hr; exact .inl ⟨.refl _, id⟩
  · subst hr; exact .inl ⟨.refl _, id⟩
  · next t ht =>
    split at hr
    · subst hr; rw [rollback_self ht]; exact .inl ⟨.refl _, id⟩
    · next cur hcur =>
      split at hr
      · subst hr; rw [rollback_self ht]; exact .inl ⟨.refl _, id⟩
      · split at hr
        · subst hr; rw [rollback_self ht]; exact .inl ⟨.refl _, id⟩
        · subst hr; rw [rollback_self ht]; exact .inl ⟨.refl _, id⟩
        · next l hne hl =>
          split at hr
          · next t' s hd =>
            split at hr
            · subst hr
              exact .inr ⟨t, ht, rfl, cur, l, t', s, hcur, hl, hne, hd, rfl⟩
            · subst hr
              exact .inl ⟨rollback_unchanged _ _, fun hg => rollback_good hg
                (ensure_next ht (Nat.le_of_eq (downLoop_next hd).symm))⟩
          · next t' s o hno hd =>
            subst hr
            exact .inl ⟨rollback_unchanged _ _, fun hg => rollback_good hg
              (ensure_next ht (Nat.le_of_eq (downLoop_next hd).symm))⟩

/-- `down` to a version that is recorded. -/
theorem down_to {B : Behaviour σ} {db : DB σ} {t : VTable} (ht : ensureInitialized B db = (.table t, true))
    (hch : IsChain t) {a b : List Row} {r : Row} (hrows : t.rows = a ++ r :: b) {target : Option String}
    (htar : target = some r.version.name ∨ target = none ∧ ∃ x, b = [x]) :
    down B target db =
      if b = [] then (db, .ok)
      else match execAll B db.data (b.reverse.flatMap fun x => x.version.down) with
        | none => (db, .panic)
        | some s => if B.commits s then (⟨.table ⟨a ++ [r], t.next⟩, s⟩, .ok) else (db, .error) := by
  obtain ⟨q, l, hq⟩ := hch.split_last
  have hcur := hch.current hq
  have hl : (r :: b).getLast? = some l := by
    have := congrArg List.getLast? (hrows.symm.trans hq)
    simp only [List.getLast?_append, List.getLast?_singleton, Option.some_or] at this
    cases hb : (r :: b).getLast? with
    | none => simp at hb
    | some y => rw [hb] at this; simpa using this
  have ht' : t = ⟨a ++ r :: b, t.next⟩ := by cases t; simp only at hrows; rw [hrows]
  have hch' : IsChain ⟨a ++ r :: b, t.next⟩ := ht' ▸ hch
  have hrange := hch'.downwardRange hl
  rw [← ht'] at hrange
  have hname : target.getD (l.version.previous.getD "") = r.version.name := by
    rcases htar with rfl | ⟨rfl, x, rfl⟩
    · rfl
    · have hl' : l = x := by simpa using hl.symm
      subst hl'
      have := hch.linked
      rw [hrows, show a ++ r :: [l] = (a ++ [r]) ++ l :: [] by simp, List.map_append] at this
      have := this.prev_last
      simp at this
      simp [this]
  have hnn : ¬ (target = none ∧ l.version.previous = none) := by
    rintro ⟨h1, h2⟩
    rcases htar with rfl | ⟨_, x, rfl⟩
    · cases h1
    · have hl' : l = x := by simpa using hl.symm
      subst hl'
      have := hch.linked
      rw [hrows, show a ++ r :: [l] = (a ++ [r]) ++ l :: [] by simp, List.map_append] at this
      have := this.prev_last
      simp at this
      rw [h2] at this; cases this
  have hdl := IsChain.downLoop B (a := a ++ [r]) b (n := t.next) (by simpa using hch') db.data
  simp only [List.append_assoc, List.singleton_append] at hdl
  rw [← ht'] at hdl
  unfold down
  rw [ht]
  simp only [hcur]
  split
  · exact absurd ⟨rfl, by assumption⟩ hnn
  · rw [hname, hrange]
    by_cases hb : b = []
    · subst hb
      simp [rollback_self ht]
    · rw [if_neg hb]
      split
      · next he => simp at he
      · next he =>
        simp only [Option.some.injEq, List.map_eq_nil_iff, List.reverse_eq_nil_iff] at he
        exact absurd he hb
      · next ls hne he =>
        simp only [Option.some.injEq] at he
        subst he
        cases hx : execAll B db.data (b.reverse.flatMap fun x => x.version.down) with
        | none =>
          rw [hx] at hdl
          obtain ⟨t', s', hdl⟩ := hdl
          rw [hdl]
          simp only
          rw [rollback_next (t' := ⟨t', t.next⟩) ht rfl]
        | some s =>
          rw [hx] at hdl
          rw [hdl]
          simp only
          split
          · rfl
          · rw [rollback_next (t' := ⟨a ++ [r], t.next⟩) ht rfl]

/-- `down` to a version that is not recorded. -/
theorem down_unknown {B : Behaviour σ} {db : DB σ} {t : VTable}
    (ht : ensureInitialized B db = (.table t, true)) (hch : IsChain t) {n : String}
    (hn : ∀ r ∈ t.rows, r.version.name ≠ n) : down B (some n) db = (db, .error) := by
  obtain ⟨q, l, hq⟩ := hch.split_last
  unfold down
  rw [ht]
  simp only [hch.current hq]
  have : t.downwardRange l.version.name ((some n).getD (l.version.previous.getD "")) = none := by
    unfold VTable.downwardRange
    rw [Option.getD_some, IsChain.order_none hn]
    simp
  rw [this]
  simp only [rollback_self ht]

/-- `down` on the initial version. -/
theorem down_init {B : Behaviour σ} {db : DB σ} {t : VTable}
    (ht : ensureInitialized B db = (.table t, true)) (hch : IsChain t) {r : Row} (hr : t.rows = [r]) :
    down B none db = (db, .ok) := by
  have hcur := hch.current (q := []) (r := r) (by simpa using hr)
  have hp : r.version.previous = none := by
    have := hch.linked; rw [hr] at this; exact this.1
  unfold down
  rw [ht]
  simp only [hcur, hp, rollback_self ht]

theorem down_good (B : Behaviour σ) (target : Option String) {db : DB σ} (hg : Good db) :
    Good (down B target db).1 := by
  rcases down_cases B target db with ⟨_, h⟩ | ⟨t, ht, _, cur, l, t', s, hcur, hl, hne, hd, hdb⟩
  · exact h hg
  · obtain ⟨hch, _, _⟩ := ensure_chain hg ht
    rw [hdb]
    intro t'' he
    cases he
    -- the rows reverted are the last ones
    by_cases hx : ∃ r ∈ t.rows, r.version.name = target.getD (cur.previous.getD "")
    · obtain ⟨r, hr, hrn⟩ := hx
      obtain ⟨a, b, hab⟩ := List.append_of_mem hr
      obtain ⟨q, y, hq⟩ := hch.split_last
      have hcy := hch.current hq
      rw [hcur] at hcy
      cases hcy
      have ht' : t = ⟨a ++ r :: b, t.next⟩ := by cases t; simp only at hab; rw [hab]
      have hch' : IsChain ⟨a ++ r :: b, t.next⟩ := ht' ▸ hch
      have hl2 : (r :: b).getLast? = some y := by
        have := congrArg List.getLast? (hab.symm.trans hq)
        simp only [List.getLast?_append, List.getLast?_singleton, Option.some_or] at this
        cases hb : (r :: b).getLast? with
        | none => simp at hb
        | some y => rw [hb] at this; simpa using this
      have hrange := hch'.downwardRange hl2
      rw [← ht', hrn, hl] at hrange
      simp only [Option.some.injEq] at hrange
      subst hrange
      have hdl := IsChain.downLoop B (a := a ++ [r]) b (n := t.next) (by simpa using hch') db.data
      simp only [List.append_assoc, List.singleton_append] at hdl
      rw [← ht', hd] at hdl
      split at hdl
      · simp only [Prod.mk.injEq] at hdl
        rw [hdl.1]
        refine IsChain.take (b := b) ?_ (by simp)
        simpa using hch'
      · obtain ⟨_, _, h⟩ := hdl; cases h
    · have : t.order (target.getD (cur.previous.getD "")) = none :=
        IsChain.order_none fun r hr he => hx ⟨r, hr, he⟩
      unfold VTable.downwardRange at hl
      rw [this] at hl
      simp at hl

/-- Every reachable database is unwritten or holds a chain. -/
theorem Reach.good {B : Behaviour σ} {db : DB σ} (h : Reach B db) : Good db := by
  induction h with
  | new s => intro t he; cases he
  | up _ hn hu ih => exact up_good hn.storedNames ih hu
  | down target _ ih => exact down_good B target ih
  | elsewhere s _ ih => exact ih
  | used _ ht hn ih =>
    intro t' he
    cases he
    have h := ih _ ht
    exact ⟨h.starts, h.linked, h.names, h.orders, fun r hr => Nat.lt_of_lt_of_le (h.next r hr) hn⟩

theorem Unchanged.hasTable {db db' : DB σ} (h : Unchanged db db') (hn : db.metaSchema ≠ .noTable) :
    db'.metaSchema ≠ .noTable := fun he => hn (h.noTable.1 he)

theorem Reach.hasTable {B : Behaviour σ} {db : DB σ} (h : Reach B db) : db.metaSchema ≠ .noTable := by
  induction h with
  | new s => intro he; cases he
  | @up db db' fuel d target o _ hn hu ih =>
    rcases up_cases hu with ⟨rfl, _⟩ | ⟨opened, t, hopen, ht, cur, to, l, hcur, hto, hl, hc⟩
    · exact ih
    · rcases hc with ⟨_, rfl, _⟩ | ⟨_, t', s, o', hu', ⟨_, _, rfl, _⟩ | ⟨_, rfl⟩⟩
      · exact ih
      · intro he; cases he
      · exact (rollback_unchanged _ _).hasTable ih
  | down target _ ih =>
    rcases down_cases B target _ with ⟨h1, _⟩ | ⟨t, ht, _, cur, l, t', s, hcur, hl, hne, hd, hdb⟩
    · exact h1.hasTable ih
    · rw [hdb]; intro he; cases he
  | elsewhere s _ ih => exact ih
  | used _ _ _ _ => intro he; cases he

/-! ### up succeeds -/

theorem admits_of {t : VTable} {w : Version} {q : List Row} {r : Row} (he : t.rows = q ++ [r])
    (h1 : w.name.length ≤ 128) (h2 : ∀ p, w.previous = some p → p.length ≤ 128)
    (h3 : ∀ x ∈ t.rows, x.version.name ≠ w.name) (hp : w.previous = some r.version.name) :
    t.admits w = true := by
  unfold VTable.admits
  have h4 := h2 _ hp
  rw [hp]
  simp only [Option.all_some, fits, Bool.and_eq_true, decide_eq_true_eq, Bool.not_eq_true',
    List.any_eq_false, beq_iff_eq, Bool.or_eq_true, List.any_eq_true]
  exact ⟨⟨⟨h1, h4⟩, fun x hx => h3 x hx⟩, .inr ⟨r, by rw [he]; simp, rfl⟩⟩

theorem upLoop_runs {B : Behaviour σ} {d : HDir} {ws : List Version}
    (hst : ∀ w ∈ ws, Stored d w.name w) {t : VTable} (h : IsChain t) {q : List Row} {r : Row}
    (he : t.rows = q ++ [r]) (hl : Linked (some r.version.name) ws) {s s' : σ}
    (hx : execAll B s (ws.flatMap Version.up) = some s')
    (hs : ∀ w ∈ ws, w.name.length ≤ 128 ∧ ∀ p, w.previous = some p → p.length ≤ 128)
    (ha : ∀ w ∈ ws, B.accepts w = true)
    (hf : ((t.rows.map Row.version ++ ws).map Version.name).Nodup)
    (hr : t.next + ws.length ≤ 2147483648) :
    ∃ t', upLoop B d (ws.map Version.name) t s = (t', s', .ok) := by
  induction ws generalizing t q r s with
  | nil =>
    simp only [List.flatMap_nil, execAll, Option.some.injEq] at hx
    subst hx
    exact ⟨t, rfl⟩
  | cons w ws ih =>
    rw [List.flatMap_cons, execAll_append] at hx
    rw [List.map_cons, upLoop, stored_iff.1 (hst w (by simp))]
    simp only
    cases hx1 : execAll B s w.up with
    | none => rw [hx1] at hx; cases hx
    | some s₁ =>
      rw [hx1] at hx
      simp only [Option.bind_some] at hx
      have hadm : t.admits w = true := by
        refine admits_of he (hs w (by simp)).1 (hs w (by simp)).2 ?_ hl.1
        intro x hxr
        rw [List.map_append, List.nodup_append] at hf
        exact hf.2.2 _ (List.mem_map_of_mem (List.mem_map_of_mem hxr)) _ (by simp)
      have hins : t.insert B w = (⟨t.rows ++ [⟨w, t.next⟩], t.next + 1⟩, true) := by
        unfold VTable.insert
        simp only [List.length_cons] at hr
        rw [if_neg (by unfold maxOrder; omega), if_pos (by rw [hadm, ha w (by simp)]; rfl)]
      simp only [hins]
      have hc := (h.insert hins he hl.1).2
      refine ih (fun x hx => hst x (by simp [hx])) hc rfl hl.2 hx
        (fun x hx => hs x (by simp [hx])) (fun x hx => ha x (by simp [hx])) ?_ ?_
      · simpa using hf
      · simp only [List.length_cons] at hr ⊢; omega

theorem ensure_of_recordable {B : Behaviour σ} {db : DB σ} {ws : List Version}
    (hr : Recordable B db ws) : ∃ t, ensureInitialized B db = (.table t, true) ∧
      t.next + ws.length ≤ 2147483648 := by
  cases hm : db.metaSchema with
  | noTable => exact absurd hm hr.present
  | table t => exact ⟨t, by unfold ensureInitialized; rw [hm], hr.room t hm⟩
  | absent =>
    obtain ⟨h1, h2, h3⟩ := hr.creates hm
    refine ⟨⟨[⟨Version.newInit, 1⟩], 2⟩, ?_, by simp only; omega⟩
    have : VTable.insert B ⟨[], 1⟩ Version.newInit = (⟨[⟨Version.newInit, 1⟩], 2⟩, true) := by
      unfold VTable.insert
      rw [if_neg (by decide), if_pos (by rw [h2]; rfl)]
      rfl
    unfold ensureInitialized
    simp only [hm, h1, if_true, this]

/-- Where the way is free, `up` succeeds. -/
theorem up_runs {B : Behaviour σ} {d : HDir} (hn : StoredNames d) {target : Option String}
    {db : DB σ} (hg : Good db) {n : String} {cv : String} (hop : Opens d cv)
    (htar : target.getD cv = n) {cur : Version} (hcur : db.applied.getLast? = some cur)
    {ws : List Version} (hp : VersionPath d cur.name n (ws.map Version.name))
    (hnot : cur.name ∉ ws.map Version.name) (hst : ∀ w ∈ ws, Stored d w.name w) {s' : σ}
    (hx : execAll B db.data (ws.flatMap Version.up) = some s') (hcom : B.commits s' = true)
    (hr : Recordable B db ws) :
    ∃ fuel db', up B fuel d target db = some (db', .ok) ∧ db'.data = s' ∧
      db'.applied = db.applied ++ ws ∧ ∀ k, fuel ≤ k → up B k d target db = some (db', .ok) := by
  obtain ⟨t, ht, hroom⟩ := ensure_of_recordable hr
  obtain ⟨hch, happ, _⟩ := ensure_chain hg ht
  obtain ⟨q, r, hq⟩ := hch.split_last
  have hlastapp : db.applied.getLast? = some r.version := by rw [← happ, hq]; simp
  rw [hcur] at hlastapp
  cases hlastapp
  obtain ⟨f, nm, hopen⟩ := hop
  obtain ⟨ws', hws, hst', hlk, hlast⟩ := path_versions hn hp
  have hww : ws' = ws := by
    clear hlast hlk hx hr hp hnot hcom hroom
    induction ws generalizing ws' with
    | nil => simpa using hws
    | cons w ws ih =>
      cases ws' with
      | nil => cases hws
      | cons w' ws' =>
        simp only [List.map_cons, List.cons.injEq] at hws
        have h1 := hst' w' (by simp)
        rw [hws.1] at h1
        rw [h1.unique (hst w (by simp)), ih (fun x hx => hst x (by simp [hx])) ws' hws.2
          (fun x hx => hst' x (by simp [hx]))]
  subst hww
  obtain ⟨to, hto⟩ : ∃ to, Stored d n to := by
    exact path_stored hp
  have hton := hn _ _ hto
  have hrange : ∀ k, (ws'.map Version.name).length + 1 ≤ k →
      HDir.upwardRange k d r.version.name to.name = some (.ok (ws'.map Version.name)) := by
    intro k hk
    refine upwardRange_mono hk ?_
    have := rangeLoop_of_path (t := to.name) hn hp hnot []
    simp only [List.reverse_nil, List.append_nil] at this
    unfold HDir.upwardRange
    rw [hton] at this ⊢; exact this
  obtain ⟨t', hu⟩ := upLoop_runs hst hch hq hlk hx hr.short hr.accepted (by rw [happ]; exact hr.fresh)
    hroom
  have key : ∀ k, f + (ws'.map Version.name).length + 1 ≤ k → up B k d target db =
      some ((if ws' = [] then db else ⟨.table t', s'⟩), .ok) := by
    intro k hk
    unfold up
    rw [fromDir_mono (m := k) (by omega) hopen]
    simp only [ht, hch.current hq, htar, stored_iff.1 hto, hrange k (by omega)]
    by_cases hw : ws' = []
    · subst hw
      simp only [List.map_nil, if_pos, rollback_self ht]
    · rw [if_neg hw]
      split
      · next he => cases he
      · next he => cases he
      · next he => simp at he; exact absurd he hw
      · next l hne he =>
        simp only [Option.some.injEq, Except.ok.injEq] at he
        subst he
        rw [hu]
        simp only [hcom, if_true]
  refine ⟨_, _, key _ (Nat.le_refl _), ?_, ?_, key⟩
  · by_cases hw : ws' = []
    · subst hw
      simp only [List.flatMap_nil, execAll, Option.some.injEq] at hx
      rw [if_pos rfl]; exact hx
    · rw [if_neg hw]
  · by_cases hw : ws' = []
    · subst hw
      rw [if_pos rfl]; simp
    · rw [if_neg hw]
      obtain ⟨_, _, h3⟩ := upLoop_ok hst hch hq hlk hu
      rw [← happ, ← h3]; rfl

/-- Applying versions that are all there fails in no other way than by a panic. -/
theorem upLoop_stored {B : Behaviour σ} {d : HDir} : ∀ {ws : List Version} {t : VTable} {s : σ},
    (∀ w ∈ ws, Stored d w.name w) →
    (upLoop B d (ws.map Version.name) t s).2.2 = .panic ∨
      ((upLoop B d (ws.map Version.name) t s).2.2 = .ok ∧
        execAll B s (ws.flatMap Version.up) = some (upLoop B d (ws.map Version.name) t s).2.1)
  | [], t, s, _ => .inr ⟨rfl, rfl⟩
  | w :: ws, t, s, h => by
    simp only [List.map_cons, upLoop, Podo.stored_iff.1 (h w (by simp)), List.flatMap_cons]
    cases hx : execAll B s w.up with
    | none => exact .inl rfl
    | some s' =>
      cases hi : t.insert B w with
      | mk t' b =>
        cases b with
        | false => exact .inl rfl
        | true =>
          simp only
          rw [execAll_append, hx]
          exact upLoop_stored fun x hx => h x (by simp [hx])

/-- `up` along a path, when the scripts do not run to their end. -/
theorem up_panics {B : Behaviour σ} {d : HDir} (hn : StoredNames d) {target : Option String}
    {db : DB σ} (hg : Good db) {t₀ : VTable} (htab : db.metaSchema = .table t₀) {n : String} {cv : String}
    (hop : Opens d cv) (htar : target.getD cv = n) {cur : Version}
    (hcur : db.applied.getLast? = some cur)
    {ws : List Version} (hp : VersionPath d cur.name n (ws.map Version.name))
    (hnot : cur.name ∉ ws.map Version.name) (hst : ∀ w ∈ ws, Stored d w.name w)
    (hx : execAll B db.data (ws.flatMap Version.up) = none) :
    ∃ fuel db', up B fuel d target db = some (db', .panic) := by
  have ht : ensureInitialized B db = (.table t₀, true) := by unfold ensureInitialized; rw [htab]
  obtain ⟨hch, happ, _⟩ := ensure_chain hg ht
  obtain ⟨q, r, hq⟩ := hch.split_last
  have hlastapp : db.applied.getLast? = some r.version := by rw [← happ, hq]; simp
  rw [hcur] at hlastapp
  cases hlastapp
  obtain ⟨f, nm, hopen⟩ := hop
  obtain ⟨to, hto⟩ : ∃ to, Stored d n to := path_stored hp
  have hton := hn _ _ hto
  have hrange : ∀ k, (ws.map Version.name).length + 1 ≤ k →
      HDir.upwardRange k d r.version.name to.name = some (.ok (ws.map Version.name)) := by
    intro k hk
    refine upwardRange_mono hk ?_
    have := rangeLoop_of_path (t := to.name) hn hp hnot []
    simp only [List.reverse_nil, List.append_nil] at this
    unfold HDir.upwardRange
    rw [hton] at this ⊢; exact this
  have hw : ws ≠ [] := by
    rintro rfl
    simp [execAll] at hx
  have hu : (upLoop B d (ws.map Version.name) t₀ db.data).2.2 = .panic := by
    rcases upLoop_stored (B := B) (t := t₀) (s := db.data) hst with h | ⟨_, h⟩
    · exact h
    · rw [hx] at h; cases h
  refine ⟨f + (ws.map Version.name).length + 1, ?_⟩
  unfold up
  rw [fromDir_mono (m := f + (ws.map Version.name).length + 1) (by omega) hopen]
  simp only [ht, hch.current hq, htar, stored_iff.1 hto, hrange (f + (ws.map Version.name).length + 1)
    (by omega)]
  split
  · next he => cases he
  · next he => cases he
  · next he => simp at he; exact absurd he hw
  · next l hne he =>
    simp only [Option.some.injEq, Except.ok.injEq] at he
    subst he
    cases hr : upLoop B d (ws.map Version.name) t₀ db.data with
    | mk t' so =>
      obtain ⟨s, o⟩ := so
      rw [hr] at hu
      simp only at hu
      subst hu
      exact ⟨_, rfl⟩

end Pg
end Podo
