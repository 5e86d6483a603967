import Verif.Proofs.ConcSerial
/-
Lemmas for C79: podo processes on one line of versions, any number of `down` commands among them, change the
version table one at a time.
-/
set_option linter.unusedSimpArgs false
namespace Podo
namespace Conc
open Pg (Row VTable)

/-- What a `down` did: it deleted rows from the end of the table. -/
structure LineDown (s : State) (p : Proc) : Prop where
  fresh : p.tx.created = true → p.tx.added = [⟨Version.newInit, 1⟩] ∧ p.tx.removed = [] ∧
    (p.pc = .opened ∨ p.pc = .current Version.newInit ∨ (∃ to, p.pc = .ordered 1 to) ∨ p.pc = .bounded 1 1)
  added : p.tx.created = false → p.tx.added = []
  removed : p.tx.created = false → ∃ R seg, s.rows = R ++ seg ∧ p.tx.removed = seg.map nm ∧
    (s.rows ≠ [] → R ≠ [])
  bounded : ∀ f o, p.pc = .bounded f o → 1 ≤ o
  reverting : ∀ ns, p.pc = .reverting ns → "init" ∉ ns
  reverted : ∀ v ns, p.pc = .reverted v ns → v.name ∉ p.tx.removed ∧ v.name ≠ "init" ∧ "init" ∉ ns

structure Line (L : Version → Prop) (s : State) : Prop where
  base : ∀ R, s.table = some R → Chain L R s.next
  up : ∀ i p d t, s.procs i = some p → p.cmd = .up d t → GoodUp L s d t p
  down : ∀ i p t, s.procs i = some p → p.cmd = .down t → LineDown s p
  excl : ∀ i j p q, i ≠ j → s.procs i = some p → s.procs j = some q → p.tx.quiet ∨ q.tx.quiet

theorem Line.new {L : Version → Prop} : Line L State.new := by
  constructor
  · intro R h; cases h
  · intro i p d t h; cases h
  · intro i p t h; cases h
  · intro i j p q _ h; cases h

theorem LineDown.congr {s s' : State} (ht : s'.table = s.table) {p : Proc} (h : LineDown s p) :
    LineDown s' p := by
  obtain ⟨h1, h2, h3, h4, h5, h6⟩ := h
  exact ⟨h1, h2, by rw [rows_congr ht]; exact h3, h4, h5, h6⟩

/-- A step of process `i` that commits nothing. -/
theorem Line.update {L : Version → Prop} {s s' : State} (h : Line L s) (i : Nat) (p' : Option Proc)
    (ht : s'.table = s.table)
    (hn : s.next ≤ s'.next ∨ s.table = none ∧ ∀ j q, j ≠ i → s.procs j = some q → q.pc = .start)
    (hp : s'.procs = (s.put i p').procs)
    (hu : ∀ p d t, p' = some p → p.cmd = .up d t → GoodUp L s' d t p)
    (hd : ∀ p t, p' = some p → p.cmd = .down t → LineDown s p)
    (he : ∀ p j q, p' = some p → j ≠ i → s.procs j = some q → p.tx.quiet ∨ q.tx.quiet) : Line L s' := by
  constructor
  · intro R hR
    rw [ht] at hR
    rcases hn with hn | hn
    · exact (h.base R hR).mono hn
    · rw [hn.1] at hR; cases hR
  · intro j q d t hj
    rw [hp] at hj
    by_cases e : j = i
    · subst e
      rw [put_same] at hj
      exact hu q d t hj
    · rw [put_other e] at hj
      intro hc
      rcases hn with hn | ⟨_, hn⟩
      · exact (h.up j q d t hj hc).congr ht hn
      · have := hn j q e hj
        exact ⟨.inl this, fun ns e => (by rw [this] at e; cases e), fun v ns e => (by rw [this] at e; cases e)⟩
  · intro j q t hj
    rw [hp] at hj
    by_cases e : j = i
    · subst e
      rw [put_same] at hj
      exact fun hc => (hd q t hj hc).congr ht
    · rw [put_other e] at hj
      exact fun hc => (h.down j q t hj hc).congr ht
  · intro j k q r hne hj hk
    rw [hp] at hj hk
    by_cases e : j = i
    · subst e
      rw [put_same] at hj
      rw [put_other (Ne.symm hne)] at hk
      exact he q k r hj (Ne.symm hne) hk
    · rw [put_other e] at hj
      by_cases e' : k = i
      · subst e'
        rw [put_same] at hk
        exact (he r j q hk e hj).symm
      · rw [put_other e'] at hk
        exact h.excl j k q r hne hj hk

theorem Line.saveUp {L : Version → Prop} (ho : OneLine L) {s : State} (hi : Inv s) (hl : LogInv s) (h : Line L s)
    {i : Nat} {c : Cmd} {tx : Tx} {v : Version} {ns : List String}
    (hp : s.procs i = some ⟨c, .applied v ns, tx⟩)
    (hfree : s.free i (fun o => v.name ∉ o.added.map (fun r => r.version.name) ∧ v.name ∉ o.removed ∧
        ∀ p, v.previous = some p → p ∉ o.removed))
    (hadm : (s.seen tx).admits v = true) :
    Line L { s.put i (some ⟨c, .applying ns, { tx with added := tx.added ++ [⟨v, s.next⟩] }⟩) with
        next := s.next + 1 } := by
  cases c with
  | down t => exact absurd rfl ((hl.down i _ t hp rfl).pc.2 v ns)
  | up d t =>
  have hg := h.up i _ d t hp rfl
  have hup := hl.up i _ d t hp rfl
  have hrm : tx.removed = [] := hup.removed
  have hch : Chain L (s.seen tx).rows s.next := hg.chain.resolve_left (by simp)
  obtain ⟨hv, hns⟩ := hg.applied v ns rfl
  obtain ⟨hname, hprev⟩ := admits_iff hadm
  obtain ⟨hv, hpn⟩ := hv
  obtain ⟨p, hpv⟩ : ∃ p, v.previous = some p := by
    cases hx : v.previous with
    | none => exact absurd hx hpn
    | some p => exact ⟨p, rfl⟩
  have hpm : p ∈ (s.seen tx).rows.map nm := by
    rcases hprev p hpv with rfl | hm
    · exact absurd hpv (ho.irrefl v hv)
    · exact hm
  obtain ⟨A, x, hAx, hxp⟩ := hch.last ho hv hname hpv hpm
  have hseen := seen_quiet (s := s) hrm
  refine h.update i _ rfl (.inl (Nat.le_succ _)) rfl ?_ (fun p t e hc => by cases e; cases hc) ?_
  · rintro q d' t' e hc
    cases e
    cases hc
    refine ⟨.inr ?_, fun ns' e => ?_, fun _ _ e => (by cases e)⟩
    · have e : (State.seen { s.put i (some ⟨.up d t, .applying ns,
          { tx with added := tx.added ++ [⟨v, s.next⟩] }⟩) with next := s.next + 1 }
          { tx with added := tx.added ++ [⟨v, s.next⟩] }).rows = (s.seen tx).rows ++ [⟨v, s.next⟩] := by
        show (s.rows.filter _) ++ (tx.added ++ [_]) = _
        rw [← List.append_assoc]; rfl
      show Chain L (State.seen _ _).rows _
      rw [e, hAx]
      rw [hAx] at hch
      exact hch.snoc hv (by rw [hpv, hxp])
    · cases e; exact hns
  · rintro q' j q e hne hj
    cases e
    by_cases hq : tx.quiet
    rotate_left
    · exact .inr ((h.excl i j _ q (Ne.symm hne) hp hj).resolve_left hq)
    · right
      obtain ⟨f1, f2, f3⟩ := hfree j q hne hj
      have hrows : s.rows = A ++ [x] := by rw [← hAx, hseen, hq.1, List.append_nil]
      by_cases hst : q.pc = .start
      · exact start_quiet hi hj hst
      · have hcf : q.tx.created = false := by
          cases hcq : q.tx.created with
          | false => rfl
          | true =>
            have := hi.created j q hj hcq
            have e : s.rows = [] := by unfold State.rows; rw [this]; rfl
            rw [e] at hrows
            simp at hrows
        cases hqc : q.cmd with
        | up d' t' =>
          have hgq := h.up j q d' t' hj hqc
          have hrq := (hl.up j q d' t' hj hqc).removed
          refine ⟨?_, hrq⟩
          have hcq := hgq.chain.resolve_left hst
          rw [seen_quiet hrq] at hcq
          cases haq : q.tx.added with
          | nil => rfl
          | cons u us =>
            exfalso
            have hu := added_head hcq hrows haq
            rcases hcq.line u (by simp [haq]) with e | hul
            · rw [e] at hu; cases hu
            · rw [hxp] at hu
              have e := ho.next _ _ _ hul hv hu hpv
              exact f1 (List.mem_map.2 ⟨u, by simp [haq], by rw [e]⟩)
        | down t' =>
          have hgq := h.down j q t' hj hqc
          refine ⟨hgq.added hcf, ?_⟩
          obtain ⟨R', seg, h1, h2, _⟩ := hgq.removed hcf
          rw [h2]
          rcases List.eq_nil_or_concat seg with rfl | ⟨seg', y, rfl⟩
          · rfl
          · exfalso
            rw [hrows, List.concat_eq_append, ← List.append_assoc] at h1
            have e := (List.append_inj' h1 rfl).2
            simp only [List.cons.injEq, and_true] at e
            subst e
            apply f3 p hpv
            rw [h2, List.concat_eq_append]
            simp [hxp]

theorem Line.deleteDown {L : Version → Prop} {s : State} (hi : Inv s) (hl : LogInv s) (h : Line L s)
    {i : Nat} {c : Cmd} {tx : Tx} {v : Version} {ns : List String}
    (hp : s.procs i = some ⟨c, .reverted v ns, tx⟩)
    (hfree : s.free i (fun o => v.name ∉ o.removed ∧ (∀ r ∈ o.added, r.version.previous ≠ some v.name) ∧
        ∀ r ∈ s.rows, r.version.name ∈ o.removed → r.version.previous ≠ some v.name))
    (hdel : ∃ t, (s.seen tx).delete v = some t) :
    Line L (s.put i (some ⟨c, .reverting ns, tx.deleted s v.name⟩)) := by
  cases c with
  | up d t => rcases (hl.up i _ d t hp rfl).pc with h | h | ⟨_, h⟩ | ⟨_, _, h⟩ <;> cases h
  | down t =>
  have hg := h.down i _ t hp rfl
  have hcf : tx.created = false := by
    cases hc : tx.created with
    | false => rfl
    | true =>
      rcases (hg.fresh hc).2.2 with e | e | ⟨_, e⟩ | e <;> cases e
  obtain ⟨R, ht⟩ := started hi hp (by simp) hcf
  have hrows : s.rows = R := by unfold State.rows; rw [ht]; rfl
  have hch := h.base R ht
  obtain ⟨R', seg, h1, h2, h4⟩ := hg.removed hcf
  have h2 : tx.removed = seg.map nm := h2
  obtain ⟨hvr, hvi, hni⟩ := hg.reverted v ns rfl
  have ha : tx.added = [] := hg.added hcf
  obtain ⟨t', hdel⟩ := hdel
  have hdel := delete_iff hdel
  have hnd := hi.nodup
  have had : (tx.deleted s v.name).added = [] := by simp [Tx.deleted, ha]
  by_cases hvmem : v.name ∈ s.rows.map nm
  rotate_left
  -- the row is not there any more
  · have hrem : (tx.deleted s v.name).removed = tx.removed := by
      simp only [Tx.deleted]
      rw [if_neg (fun e => hvmem (any_name.1 e))]
    refine h.update i _ rfl (.inl (Nat.le_refl _)) rfl (fun p d t e hc => by cases e; cases hc) ?_ ?_
    · rintro q t' e hc
      cases e
      refine ⟨fun hc => ?_, fun _ => had, fun _ => ⟨R', seg, h1, hrem.trans h2, h4⟩,
        fun _ _ e => (by cases e), fun ns' e => (by cases e; exact hni), fun _ _ e => (by cases e)⟩
      rw [show tx.created = true from hc] at hcf; cases hcf
    · rintro p' j q e hne hj
      cases e
      refine (h.excl i j _ q (Ne.symm hne) hp hj).imp (fun hq => ?_) id
      exact ⟨had, hrem.trans hq.2⟩
  obtain ⟨x, hx, hxv⟩ := List.mem_map.1 hvmem
  -- the row is the last one left
  obtain ⟨A, hA⟩ : ∃ A, R' = A ++ [x] := by
    have hxR : x ∈ R' := by
      rw [h1] at hx
      rcases List.mem_append.1 hx with hx | hx
      · exact hx
      · exfalso
        apply hvr
        show v.name ∈ tx.removed
        rw [h2]
        exact List.mem_map.2 ⟨x, hx, hxv⟩
    obtain ⟨A, B, hAB⟩ := List.append_of_mem hxR
    cases B with
    | nil => exact ⟨A, hAB⟩
    | cons y B =>
      exfalso
      have e : s.rows = A ++ x :: y :: (B ++ seg) := by rw [h1, hAB]; simp
      rw [hrows] at e
      rw [e] at hch
      have hy := hch.follows
      rw [← hrows] at e
      rw [e] at hnd
      simp only [List.map_append, List.map_cons, List.nodup_append, List.nodup_cons, List.mem_cons,
        List.mem_append, not_or] at hnd
      refine hdel y (mem_seen.2 (.inl ⟨by rw [e]; simp, ?_⟩)) ?_ (by rw [hy, hxv])
      · rw [h2]
        exact hnd.2.1.2.1.2
      · rw [← hxv]
        exact fun e => hnd.2.1.1.1 e.symm
  subst hA
  have hrem : (tx.deleted s v.name).removed = (x :: seg).map nm := by
    simp only [Tx.deleted]
    rw [if_pos (any_name.2 hvmem), h2, ← hxv]
    rfl
  have hAne : A ≠ [] := by
    rintro rfl
    obtain ⟨rest, hh⟩ := hch.head
    rw [← hrows, h1] at hh
    simp only [List.nil_append, List.cons_append, List.cons.injEq] at hh
    apply hvi
    rw [← hxv, hh.1]
    rfl
  refine h.update i _ rfl (.inl (Nat.le_refl _)) rfl (fun p d t e hc => by cases e; cases hc) ?_ ?_
  · rintro q t' e hc
    cases e
    refine ⟨fun hc => ?_, fun _ => had, fun _ => ⟨A, x :: seg, by rw [h1]; simp, hrem, fun _ => hAne⟩,
      fun _ _ e => (by cases e), fun ns' e => (by cases e; exact hni), fun _ _ e => (by cases e)⟩
    rw [show tx.created = true from hc] at hcf; cases hcf
  · rintro p' j q e hne hj
    cases e
    right
    by_cases hseg : seg = []
    rotate_left
    · refine (h.excl i j _ q (Ne.symm hne) hp hj).resolve_left ?_
      rintro ⟨_, hq⟩
      rw [show tx.removed = _ from h2] at hq
      exact hseg (List.map_eq_nil_iff.1 hq)
    · subst hseg
      rw [List.append_nil] at h1
      obtain ⟨f1, f2, _⟩ := hfree j q hne hj
      by_cases hst : q.pc = .start
      · exact start_quiet hi hj hst
      · cases hqc : q.cmd with
        | down t' =>
          have hgq := h.down j q t' hj hqc
          have hcf' : q.tx.created = false := by
            cases hcq : q.tx.created with
            | false => rfl
            | true => have := hi.created j q hj hcq; rw [ht] at this; cases this
          refine ⟨hgq.added hcf', ?_⟩
          obtain ⟨S, seg', g1, g2, _⟩ := hgq.removed hcf'
          rw [g2]
          rcases List.eq_nil_or_concat seg' with rfl | ⟨seg'', y, rfl⟩
          · rfl
          · exfalso
            rw [h1, List.concat_eq_append, ← List.append_assoc] at g1
            have e := (List.append_inj' g1 rfl).2
            simp only [List.cons.injEq, and_true] at e
            subst e
            apply f1
            rw [g2, List.concat_eq_append, ← hxv]
            simp
        | up d' t' =>
          have hgq := h.up j q d' t' hj hqc
          have hrq := (hl.up j q d' t' hj hqc).removed
          refine ⟨?_, hrq⟩
          have hcq := hgq.chain.resolve_left hst
          rw [seen_quiet hrq] at hcq
          cases haq : q.tx.added with
          | nil => rfl
          | cons u us =>
            exfalso
            have hu := added_head hcq h1 haq
            exact f2 u (by simp [haq]) (by rw [hu, hxv])

/-- Process `i` commits a change while no other transaction has made one. -/
theorem Line.commit {L : Version → Prop} {s s' : State} (h : Line L s) (i : Nat) {N : List Row}
    (ht : s'.table = some N) (hn : s'.next = s.next) (hp : s'.procs = (s.put i none).procs)
    (hc : Chain L N s.next) (hq : ∀ j q, j ≠ i → s.procs j = some q → q.tx.quiet) : Line L s' := by
  have hrows : s'.rows = N := by unfold State.rows; rw [ht]; rfl
  have hN : N ≠ [] := by obtain ⟨rest, e⟩ := hc.head; rw [e]; simp
  have key : ∀ j q, s'.procs j = some q → j ≠ i ∧ s.procs j = some q := by
    intro j q hj
    rw [hp] at hj
    by_cases e : j = i
    · subst e; rw [put_same] at hj; cases hj
    · rw [put_other e] at hj; exact ⟨e, hj⟩
  constructor
  · intro R hR
    rw [ht] at hR; cases hR
    rw [hn]; exact hc
  · intro j q d t hj hcmd
    obtain ⟨hne, hj⟩ := key j q hj
    have hg := h.up j q d t hj hcmd
    refine ⟨.inr ?_, hg.applying, hg.applied⟩
    rw [seen_quiet (hq j q hne hj).2, (hq j q hne hj).1, hrows, hn, List.append_nil]
    exact hc
  · intro j q t hj hcmd
    obtain ⟨hne, hj⟩ := key j q hj
    have hg := h.down j q t hj hcmd
    obtain ⟨ha, hrm⟩ := hq j q hne hj
    refine ⟨fun hcr => ?_, hg.added, fun hcf => ⟨N, [], by rw [hrows]; simp, hrm, fun _ => hN⟩, hg.bounded,
      hg.reverting, hg.reverted⟩
    rw [(hg.fresh hcr).1] at ha; cases ha
  · intro j k q r _ hj _
    obtain ⟨hne, hj⟩ := key j q hj
    exact .inl (hq j q hne hj)

theorem Line.commitUp {L : Version → Prop} {s : State} (hi : Inv s) (hl : LogInv s) (h : Line L s)
    {i : Nat} {c : Cmd} {tx : Tx} (hp : s.procs i = some ⟨c, .applying [], tx⟩) :
    Line L { s.put i none with table := some (s.seen tx).rows, log := s.log ++ tx.ran } := by
  cases c with
  | down t => exact absurd rfl ((hl.down i _ t hp rfl).pc.1 [])
  | up d t =>
  have hg := h.up i _ d t hp rfl
  have hup := hl.up i _ d t hp rfl
  have hrm : tx.removed = [] := hup.removed
  have hch : Chain L (s.seen tx).rows s.next := hg.chain.resolve_left (by simp)
  obtain ⟨ups, hups, hran⟩ := hup.ran
  simp only [Pc.pending, List.append_nil] at hups hran
  have hseen := seen_quiet (s := s) hrm
  by_cases hq : tx.quiet
  · have hcr : tx.created = false := by
      cases hcr : tx.created with
      | false => rfl
      | true => rw [hq.1, hcr] at hups; simp at hups
    obtain ⟨R, hR⟩ := started hi hp (by simp) hcr
    refine h.update i none ?_ (.inl (Nat.le_refl _)) rfl (fun _ _ _ e => by cases e)
      (fun _ _ e => by cases e) (fun _ _ _ e => by cases e)
    show some (s.seen tx).rows = s.table
    rw [hseen, hq.1, hR, List.append_nil]
    simp [State.rows, hR]
  · exact h.commit i (N := (s.seen tx).rows) rfl rfl rfl hch
      (fun j q hne hj => (h.excl i j _ q (Ne.symm hne) hp hj).resolve_left hq)

theorem Line.commitDown {L : Version → Prop} {s : State} (hi : Inv s) (hl : LogInv s) (h : Line L s)
    {i : Nat} {c : Cmd} {tx : Tx} (hp : s.procs i = some ⟨c, .reverting [], tx⟩) :
    Line L { s.put i none with table := some (s.seen tx).rows, log := s.log ++ tx.ran } := by
  cases c with
  | up d t => rcases (hl.up i _ d t hp rfl).pc with h | h | ⟨_, h⟩ | ⟨_, _, h⟩ <;> cases h
  | down t =>
  have hg := h.down i _ t hp rfl
  have hcf : tx.created = false := by
    cases hc : tx.created with
    | false => rfl
    | true => rcases (hg.fresh hc).2.2 with e | e | ⟨_, e⟩ | e <;> cases e
  obtain ⟨R, ht⟩ := started hi hp (by simp) hcf
  have hrows : s.rows = R := by unfold State.rows; rw [ht]; rfl
  have hch := h.base R ht
  obtain ⟨R', seg, h1, h2, h4⟩ := hg.removed hcf
  have h2 : tx.removed = seg.map nm := h2
  have ha : tx.added = [] := hg.added hcf
  have hR' : R' ≠ [] := h4 (by rw [hrows]; obtain ⟨rest, e⟩ := hch.head; rw [e]; simp)
  have hnd := hi.nodup
  have hseen : (s.seen tx).rows = R' := by
    show (s.rows.filter fun r => !tx.removed.contains r.version.name) ++ tx.added = R'
    rw [ha, h2, List.append_nil, h1]
    rw [h1] at hnd
    exact filter_seg hnd
  by_cases hseg : seg = []
  · subst hseg
    refine h.update i none ?_ (.inl (Nat.le_refl _)) rfl (fun _ _ _ e => by cases e)
      (fun _ _ e => by cases e) (fun _ _ _ e => by cases e)
    show some (s.seen tx).rows = s.table
    rw [hseen, ht, ← hrows, h1, List.append_nil]
  · have hq : ¬ tx.quiet := by
      rintro ⟨_, e⟩
      rw [h2] at e
      exact hseg (List.map_eq_nil_iff.1 e)
    refine h.commit i (N := (s.seen tx).rows) rfl rfl rfl ?_
      (fun j q hne hj => (h.excl i j _ q (Ne.symm hne) hp hj).resolve_left hq)
    rw [hseen]
    rw [← hrows, h1] at hch
    exact hch.prefix hR'

/-- What a `down` that has created the metadata schema sees. -/
theorem line_fresh_seen {s : State} (hi : Inv s) {i : Nat} {p : Proc} (hp : s.procs i = some p)
    (hg : LineDown s p) (hc : p.tx.created = true) : (s.seen p.tx).rows = [⟨Version.newInit, 1⟩] := by
  have ht := hi.created i p hp hc
  obtain ⟨h1, h2, _⟩ := hg.fresh hc
  rw [seen_quiet h2, h1]
  simp [State.rows, ht]

/-- What another `down` sees is committed. -/
theorem line_down_seen {s : State} {p : Proc} (hg : LineDown s p) (hc : p.tx.created = false) {r : Row}
    (hr : r ∈ (s.seen p.tx).rows) : r ∈ s.rows ∧ nm r ∉ p.tx.removed := by
  rcases mem_seen.1 hr with hr | hr
  · exact hr
  · rw [hg.added hc] at hr; cases hr

theorem Line.step {L : Version → Prop} (ho : OneLine L) {s s' : State} (hi : Inv s) (hl : LogInv s)
    (h : Line L s) (huse : UsesOnly L s) (hs : Step s s') : Line L s' := by
  -- a process that only reads
  have move : ∀ {i : Nat} {p : Proc} (pc' : Pc), s.procs i = some p → 
      (∀ d t, p.cmd = .up d t → GoodUp L s d t ⟨p.cmd, pc', p.tx⟩) →
      (∀ t, p.cmd = .down t → LineDown s ⟨p.cmd, pc', p.tx⟩) →
      Line L (s.put i (some ⟨p.cmd, pc', p.tx⟩)) := by
    intro i p pc' hp hu hd
    refine h.update i _ rfl (.inl (Nat.le_refl _)) rfl ?_ ?_ ?_
    · rintro q d t e hc
      cases e
      exact GoodUp.congr (s := s) (s' := s.put i _) rfl (Nat.le_refl _) (hu d t hc)
    · rintro q t e hc
      cases e
      exact hd t hc
    · rintro q j r e hne hj
      cases e
      exact h.excl i j p r (Ne.symm hne) hp hj
  -- a `down` that only reads
  have movedown : ∀ {i : Nat} {p : Proc} (pc' : Pc), s.procs i = some p →
      (∀ d t, p.cmd ≠ .up d t) → (∀ v ns, pc' ≠ .reverted v ns) →
      (∀ t, p.cmd = .down t → p.tx.created = true →
        (pc' = .opened ∨ pc' = .current Version.newInit ∨ (∃ to, pc' = .ordered 1 to) ∨ pc' = .bounded 1 1)) →
      (∀ t, p.cmd = .down t → ∀ f o, pc' = .bounded f o → 1 ≤ o) →
      (∀ t, p.cmd = .down t → ∀ ns, pc' = .reverting ns → "init" ∉ ns) →
      Line L (s.put i (some ⟨p.cmd, pc', p.tx⟩)) := by
    intro i p pc' hp hnu hnr hf hb hr
    refine move pc' hp (fun d t hc => absurd hc (hnu d t)) (fun t hc => ?_)
    have hg := h.down i p t hp hc
    refine ⟨fun hcr => ⟨(hg.fresh hcr).1, (hg.fresh hcr).2.1, hf t hc hcr⟩, hg.added, hg.removed, hb t hc, hr t hc,
      fun v ns e => absurd e (hnr v ns)⟩
  have nup : ∀ {i : Nat} {p : Proc}, s.procs i = some p → p.pc ≠ .start → p.pc ≠ .opened →
      (∀ ns, p.pc ≠ .applying ns) → (∀ v ns, p.pc ≠ .applied v ns) → ∀ d t, p.cmd ≠ .up d t := by
    intro i p hp a b c e d t hc
    rcases (hl.up i _ d t hp hc).pc with h | h | ⟨_, h⟩ | ⟨_, _, h⟩
    · exact a h
    · exact b h
    · exact c _ h
    · exact e _ _ h
  cases hs with
  | begin i c hn =>
    refine h.update i _ rfl (.inl (Nat.le_refl _)) rfl ?_ ?_ ?_
    · rintro p d t e hc
      cases e
      exact ⟨.inl rfl, fun _ e => (by cases e), fun _ _ e => (by cases e)⟩
    · rintro p t e hc
      cases e
      exact ⟨fun e => (by cases e), fun _ => rfl, fun _ => ⟨s.rows, [], by simp, rfl, id⟩,
        fun _ _ e => (by cases e), fun _ e => (by cases e), fun _ _ e => (by cases e)⟩
    · rintro p j q e _ _
      cases e
      exact .inl ⟨rfl, rfl⟩
  | leave i =>
    exact h.update i none rfl (.inl (Nat.le_refl _)) rfl (fun _ _ _ e => by cases e)
      (fun _ _ e => by cases e) (fun _ _ _ e => by cases e)
  | @create i c tx hp hn hfree =>
    have hst : ∀ j q, j ≠ i → s.procs j = some q → q.pc = .start :=
      fun j q hne hj => hi.absent hn j q hj (hfree j q hne hj)
    refine h.update i _ rfl (.inr ⟨hn, hst⟩) rfl ?_ ?_ ?_
    · rintro p d t e hc
      cases e
      refine ⟨.inr ?_, fun _ e => (by cases e), fun _ _ e => (by cases e)⟩
      have e : s.rows = [] := by unfold State.rows; rw [hn]; rfl
      show Chain L ((s.rows.filter _) ++ [⟨Version.newInit, 1⟩]) 2
      rw [e]
      refine ⟨⟨[], rfl⟩, ⟨rfl, trivial⟩, by simp, ?_, ?_⟩
      · intro r hr; simp only [List.filter_nil, List.nil_append, List.mem_singleton] at hr; subst hr; decide
      · intro r hr; simp only [List.filter_nil, List.nil_append, List.mem_singleton] at hr; subst hr; exact .inl rfl
    · rintro p t e hc
      cases e
      exact ⟨fun _ => ⟨rfl, rfl, .inl rfl⟩, fun e => (by cases e), fun e => (by cases e),
        fun _ _ e => (by cases e), fun _ e => (by cases e), fun _ _ e => (by cases e)⟩
    · rintro p j q e hne hj
      exact .inr (start_quiet hi hj (hst j q hne hj))
  | @exists_ i c tx rows hp ht =>
    have e := hi.start i _ hp rfl
    simp only at e
    subst e
    refine move .opened hp ?_ ?_
    · intro d t hc
      refine ⟨.inr ?_, fun _ e => (by cases e), fun _ _ e => (by cases e)⟩
      rw [seen_quiet rfl]
      show Chain L (s.rows ++ []) s.next
      rw [List.append_nil, show s.rows = rows by unfold State.rows; rw [ht]; rfl]
      exact h.base rows ht
    · intro t hc
      exact ⟨fun e => (by cases e), fun _ => rfl, fun _ => ⟨s.rows, [], by simp, rfl, id⟩,
        fun _ _ e => (by cases e), fun _ e => (by cases e), fun _ _ e => (by cases e)⟩
  | @plan i d target tx current opened to names fuel hp _ hop hto hr _ =>
    refine move (.applying names) hp ?_ (fun t e => by cases e)
    intro d' t' e
    cases e
    have hg := h.up i _ d target hp rfl
    refine ⟨.inr (hg.chain.resolve_left (by simp)), fun ns e => ?_, fun _ _ e => (by cases e)⟩
    cases e
    have hn := (huse i _ d target hp rfl).1
    have e := hn.storedNames _ _ (stored_iff.2 hto)
    refine range_follows hn ?_ hr
    cases target with
    | some b => rw [e]; exact .inl rfl
    | none => rw [e]; exact .inr ⟨rfl, fuel, opened.nextMap, hop⟩
  | @runUp i d target tx n ns v hp hv =>
    have hg := h.up i _ d target hp rfl
    have ha := hg.applying _ rfl
    refine h.update i _ rfl (.inl (Nat.le_refl _)) rfl ?_ (fun p t e hc => by cases e; cases hc) ?_
    · rintro p d' t' e hc
      cases e
      cases hc
      refine ⟨.inr ?_, fun _ e => (by cases e), fun w ms e => ?_⟩
      · exact hg.chain.resolve_left (by simp)
      · cases e
        have hm := ha n (by simp) v hv
        exact ⟨⟨(huse i _ d target hp rfl).2 v hm, by obtain ⟨_, _, _, h, _⟩ := hm; exact h⟩,
          fun m hm => ha m (List.mem_cons_of_mem _ hm)⟩
    · rintro q j r e hne hj
      cases e
      have := h.excl i j _ r (Ne.symm hne) hp hj
      exact this
  | @saveUp i c tx v ns hp hfree hadm _ => exact h.saveUp ho hi hl hp hfree hadm
  | refused i hp =>
    exact h.update i none rfl (.inl (Nat.le_succ _)) rfl (fun _ _ _ e => by cases e)
      (fun _ _ e => by cases e) (fun _ _ _ e => by cases e)
  | commitUp i hp => exact h.commitUp hi hl hp
  | @readCurrent i target tx current hp hcur _ =>
    refine movedown (p := ⟨_, .opened, tx⟩) (.current current) hp (fun _ _ e => by cases e) (by simp) ?_
      (fun _ _ _ _ e => by cases e) (fun _ _ _ e => by cases e)
    intro t hc hcr
    have := line_fresh_seen hi hp (h.down i _ t hp hc) hcr
    right; left
    unfold VTable.current at hcur
    simp only at this
    rw [this] at hcur
    simp only [List.foldl_cons, List.foldl_nil, Pg.newer, Option.map_some, Option.some.injEq] at hcur
    rw [hcur]
  | @orderFrom i target tx current f hp hf =>
    refine movedown (p := ⟨_, .current current, tx⟩) (.ordered f _) hp (fun _ _ e => by cases e) (by simp) ?_
      (fun _ _ _ _ e => by cases e) (fun _ _ _ e => by cases e)
    intro t hc hcr
    have hs := line_fresh_seen hi hp (h.down i _ t hp hc) hcr
    obtain ⟨r, hr, e⟩ := order_mem hf
    rw [hs] at hr
    simp only [List.mem_singleton] at hr
    subst hr
    subst e
    exact .inr (.inr (.inl ⟨_, rfl⟩))
  | @orderTo i c tx f to o hp hf =>
    refine movedown (p := ⟨c, .ordered f to, tx⟩) (.bounded f o) hp
      (nup hp (by simp) (by simp) (by simp) (by simp)) (by simp) ?_ ?_ (fun _ _ _ e => by cases e)
    · intro t hc hcr
      have hg := h.down i _ t hp hc
      have hs := line_fresh_seen hi hp hg hcr
      obtain ⟨r, hr, e⟩ := order_mem hf
      rw [hs] at hr
      simp only [List.mem_singleton] at hr
      subst hr
      subst e
      rcases (hg.fresh hcr).2.2 with e | e | ⟨_, e⟩ | e <;> cases e
      exact .inr (.inr (.inr rfl))
    · intro t hc f' o' e
      cases e
      have hg := h.down i _ t hp hc
      obtain ⟨r, hr, e⟩ := order_mem hf
      subst e
      cases hcr : tx.created with
      | true =>
        rw [line_fresh_seen hi hp hg hcr] at hr
        simp only [List.mem_singleton] at hr
        subst hr
        exact Nat.le_refl _
      | false =>
        obtain ⟨R, ht⟩ := started hi hp (by simp) hcr
        refine (h.base R ht).one_le r ?_
        have := (line_down_seen hg hcr hr).1
        rwa [show s.rows = R by unfold State.rows; rw [ht]; rfl] at this
  | @range i c tx f o hp hne =>
    have hb : ∀ t, c = .down t → 1 ≤ o := fun t hc => (h.down i _ t hp hc).bounded f o rfl
    have hcf : ∀ t, c = .down t → tx.created = true → False := by
      intro t hc hcr
      have hs := line_fresh_seen hi hp (h.down i _ t hp hc) hcr
      apply hne
      cases hbt : between (s.seen tx) f o with
      | nil => rfl
      | cons n l =>
        obtain ⟨r, hr, _, hlt⟩ := between_mem (t := s.seen tx) (f := f) (o := o) (n := n) (by rw [hbt]; simp)
        rw [hs] at hr
        simp only [List.mem_singleton] at hr
        subst hr
        exact absurd (hb t hc) (by simp only at hlt; omega)
    refine movedown (p := ⟨c, .bounded f o, tx⟩) (.reverting _) hp
      (nup hp (by simp) (by simp) (by simp) (by simp)) (by simp) (fun t hc hcr => (hcf t hc hcr).elim)
      (fun _ _ _ _ e => by cases e) ?_
    intro t hc ns e
    cases e
    intro hm
    obtain ⟨r, hr, hn, hlt⟩ := between_mem hm
    cases hcr : tx.created with
    | true => exact hcf t hc hcr
    | false =>
      obtain ⟨R, ht⟩ := started hi hp (by simp) hcr
      have hmem := (line_down_seen (h.down i _ t hp hc) hcr hr).1
      have e : s.rows = R := by unfold State.rows; rw [ht]; rfl
      have hnd := hi.nodup
      rw [e] at hmem hnd
      have := (h.base R ht).init_row hnd hmem hn
      have := hb t hc
      omega
  | @runDown i c tx n ns v hp hv =>
    refine h.update i _ rfl (.inl (Nat.le_refl _)) rfl ?_ ?_ ?_
    · rintro q d t e hc
      cases e
      exact absurd hc (nup hp (by simp) (by simp) (by simp) (by simp) d t)
    · rintro q t e hc
      cases e
      have hg := h.down i _ t hp hc
      have hcf : tx.created = false := by
        cases hcr : tx.created with
        | false => rfl
        | true => rcases (hg.fresh hcr).2.2 with e | e | ⟨_, e⟩ | e <;> cases e
      have hni := hg.reverting _ rfl
      obtain ⟨hn, r, hr, hrv⟩ := getVersion_mem hv
      obtain ⟨hm, hnr⟩ := line_down_seen hg hcf hr
      refine ⟨fun e => ?_, hg.added, hg.removed, fun _ _ e => (by cases e),
        fun _ e => (by cases e), fun w ms e => ?_⟩
      · rw [show tx.created = true from e] at hcf; cases hcf
      · cases e
        refine ⟨?_, ?_, fun hm => hni (List.mem_cons_of_mem _ hm)⟩
        · rw [← hrv]; exact hnr
        · rw [hn]; intro e; exact hni (by simp [e])
    · rintro q j r e hne hj
      cases e
      have := h.excl i j _ r (Ne.symm hne) hp hj
      exact this
  | @deleteDown i c tx v ns hp hfree hdel => exact h.deleteDown hi hl hp hfree hdel
  | commitDown i hp => exact h.commitDown hi hl hp

theorem Runs.line {L : Version → Prop} (ho : OneLine L) {s : State}
    (h : Runs (UsesOnly L) s) : Line L s ∧ UsesOnly L s := by
  induction h with
  | new => exact ⟨Line.new, fun i p d t e => by cases e⟩
  | step hr hs hok ih =>
    obtain ⟨h1, h2⟩ := hr.inv
    exact ⟨ih.1.step ho h1 h2 ih.2 hs, hok⟩

end Conc
end Podo
